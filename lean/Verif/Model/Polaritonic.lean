import Verif.Model.Blocks
import Mathlib.Algebra.Field.Basic
import Mathlib.Algebra.BigOperators.Group.Finset.Basic
import Mathlib.Algebra.Order.Ring.Abs
import Mathlib.Data.Fintype.BigOperators

/-! Electron-boson cluster Hamiltonians with the polaritonic shift (`vayesta/solver/hamiltonian.py:793-936`).

Simplifications: exact arithmetic in a field; arrays are functions of their indices, `couplings` is a pair of arrays indexed
`[boson, orbital, orbital]`; NumPy's `inf`/`nan` for division by zero is not modelled (theorems exclude a zero divisor where it
matters); `super().get_heff` (modelled in `Model/ClusterHam.lean`) enters as the matrix `h`; log messages are dropped, except the
energy change which is reported by one. -/

namespace Vayesta.Polaritonic

/-- Fermion-boson couplings of one spin channel, indexed `[n, p, q]`. -/
abbrev Coup (m n : Nat) (K : Type) := Fin m → Fin n → Fin n → K

section Arith
variable {K : Type} [Field K] {m n na nb : Nat}

/-- `einsum("npp->n", couplings[:, :no, :no])` (hamiltonian.py:866). -/
def occTrace (g : Coup m n K) (no : Nat) : Fin m → K :=
  fun x => ∑ p : Fin n, if p.val < no then g x p p else 0

/-- `set_polaritonic_shift` (hamiltonian.py:859-867): `freqs ** (-1)` times the occupied trace of both spin channels. -/
def polShift (freqs : Fin m → K) (ga : Coup m na K) (gb : Coup m nb K) (noa nob : Nat) : Fin m → K :=
  fun x => (freqs x)⁻¹ * (occTrace ga noa x + occTrace gb nob x)

/-- The energy change reported by `set_polaritonic_shift` (hamiltonian.py:868-871). -/
def reportedChange (freqs shift : Fin m → K) : K := -∑ x, shift x ^ 2 * freqs x

/-- `get_polaritonic_fock_shift` (hamiltonian.py:885-886), one spin channel. -/
def fockShift (shift : Fin m → K) (g : Coup m n K) : Fin n → Fin n → K :=
  fun p q => -∑ x, (g x p q + g x q p) * shift x

/-- One spin channel of `get_polaritonic_shifted_couplings` (hamiltonian.py:889-890 and 929-930); `nel` is `2*nocc_active`
(restricted) or `sum(nocc_active)` (unrestricted). -/
def shiftCoup (shift freqs : Fin m → K) (nel : K) (g : Coup m n K) : Coup m n K :=
  fun x p q => g x p q - (if p = q then 1 else 0) * (shift x * freqs x / nel)

/-- One spin channel of `get_eb_dm_polaritonic_shift` (hamiltonian.py:903-904, 932-933). -/
def ebDmShift (shift : Fin m → K) (dm : Fin n → Fin n → K) : Fin n → Fin n → Fin m → K :=
  fun p q x => -(shift x * dm p q)

/-- What the EB-FCI solver returns as electron-boson density matrix (`vayesta/solver/ebfci.py:34-36`), one spin channel: the one
of the solver, which works with shifted bosons, plus the shift. -/
def solverEbDm (shift : Fin m → K) (dm : Fin n → Fin n → K) (raw : Fin n → Fin n → Fin m → K) : Fin n → Fin n → Fin m → K :=
  fun p q x => raw p q x + ebDmShift shift dm p q x

end Arith

section Object
variable {K : Type} [Field K] [LinearOrder K]

/-- `np.allclose` (defaults `rtol=1e-5`, `atol=1e-8`) for couplings, in exact arithmetic. -/
def allcloseCoup {m n : Nat} (a b : Coup m n K) : Bool :=
  decide (∀ x p q, |a x p q - b x p q| ≤ 1 / 10 ^ 8 + 1 / 10 ^ 5 * |b x p q|)

/-- The bosonic attributes of the Hamiltonian object (hamiltonian.py:798-806): `_bos_freqs`, `_unshifted_couplings` (`None` before
they are generated) and `_polaritonic_shift` (outer `none`: not yet an attribute; `some none`: set to `None`). -/
structure EbState (m na nb : Nat) (K : Type) where
  freqs : Option (Fin m → K)
  coup : Option (Coup m na K × Coup m nb K)
  shift : Option (Option (Fin m → K))

/-- The fixed data of the object: the option `polaritonic_shift`, the numbers of occupied orbitals, and the frequencies and
couplings which `generate_bosonic_interactions` obtains from the projector (hamiltonian.py:855-857), in the rotated boson basis. -/
structure EbData (m na nb : Nat) (K : Type) where
  opt : Bool
  noa : Nat
  nob : Nat
  genFreqs : Fin m → K
  genA : Coup m na K
  genB : Coup m nb K

variable {m n na nb : Nat}

/-- `initialise_bosons` (hamiltonian.py:843-853); the rotation of the cluster bosons and `boson_nonconserving` are not read by
the functions below and left out. -/
def initBosons (d : EbData m na nb K) (freqs : Fin m → K) (ga : Coup m na K) (gb : Coup m nb K) : EbState m na nb K :=
  ⟨some freqs, some (ga, gb), some (if d.opt then some (polShift freqs ga gb d.noa d.nob) else none)⟩

/-- `__init__` (hamiltonian.py:798-806): fragments which carry bosons initialise at once, others do not. -/
def initObj (d : EbData m na nb K) (fragment : Option ((Fin m → K) × Coup m na K × Coup m nb K)) : EbState m na nb K :=
  match fragment with
  | some f => initBosons d f.1 f.2.1 f.2.2
  | none => ⟨none, none, none⟩

/-- The property `bos_freqs` (hamiltonian.py:832-836). -/
def getFreqs (d : EbData m na nb K) (s : EbState m na nb K) : (Except PyErr (Fin m → K)) × EbState m na nb K :=
  match s.freqs with
  | some f => (.ok f, s)
  | none => (.ok d.genFreqs, initBosons d d.genFreqs d.genA d.genB)

/-- The property `unshifted_couplings` (hamiltonian.py:822-826). -/
def getUnshifted (d : EbData m na nb K) (s : EbState m na nb K) :
    (Except PyErr (Coup m na K × Coup m nb K)) × EbState m na nb K :=
  match s.coup with
  | some g => (.ok g, s)
  | none => (.ok (d.genA, d.genB), initBosons d d.genFreqs d.genA d.genB)

/-- The property `polaritonic_shift` (hamiltonian.py:808-814). -/
def getShift (s : EbState m na nb K) : Except PyErr (Option (Fin m → K)) :=
  match s.shift with
  | some v => .ok v
  | none => .error .attributeError

/-- The arrays read by `get_polaritonic_shifted_couplings` (hamiltonian.py:888-890, 928-930), in the order in which they are
read: shift, frequencies, couplings. A shift which is `None` cannot be multiplied: TypeError. -/
def readShifted (d : EbData m na nb K) (s : EbState m na nb K) :
    (Except PyErr ((Fin m → K) × (Fin m → K) × Coup m na K × Coup m nb K)) × EbState m na nb K :=
  match getShift s with
  | .error e => (.error e, s)
  | .ok none => (.error .typeError, s)
  | .ok (some v) =>
    let r1 := getFreqs d s
    let r2 := getUnshifted d r1.2
    match r1.1, r2.1 with
    | .ok f, .ok g => (.ok (v, f, g), r2.2)
    | .error e, _ => (.error e, r2.2)
    | _, .error e => (.error e, r2.2)

/-- The property `couplings` of the unrestricted Hamiltonian (hamiltonian.py:914-918, 928-930). -/
def couplingsU (d : EbData m na nb K) (s : EbState m na nb K) :
    (Except PyErr (Coup m na K × Coup m nb K)) × EbState m na nb K :=
  if d.opt then
    let r := readShifted d s
    (r.1.map fun t => (shiftCoup t.1 t.2.1 ((d.noa + d.nob : Nat) : K) t.2.2.1,
      shiftCoup t.1 t.2.1 ((d.noa + d.nob : Nat) : K) t.2.2.2), r.2)
  else getUnshifted d s

/-- The property `couplings` of the restricted Hamiltonian (hamiltonian.py:816-820, 888-901): only one array is returned; with
the shift, couplings that differ between the spins raise RuntimeError. -/
def couplingsR (d : EbData m n n K) (s : EbState m n n K) : (Except PyErr (Coup m n K)) × EbState m n n K :=
  if d.opt then
    let r := readShifted d s
    (r.1.bind fun t =>
      let a := shiftCoup t.1 t.2.1 (2 * (d.noa : K)) t.2.2.1
      let b := shiftCoup t.1 t.2.1 (2 * (d.noa : K)) t.2.2.2
      if allcloseCoup a b then .ok a else .error .runtimeError, r.2)
  else
    let r := getUnshifted d s
    (r.1.map (·.1), r.2)

/-- The couplings and the shift read by `get_heff` (hamiltonian.py:876, 885-886): the argument `self.unshifted_couplings` is
evaluated before the shift. -/
def readFock (d : EbData m na nb K) (s : EbState m na nb K) :
    (Except PyErr ((Fin m → K) × Coup m na K × Coup m nb K)) × EbState m na nb K :=
  let r := getUnshifted d s
  match r.1, getShift r.2 with
  | .error e, _ => (.error e, r.2)
  | _, .error e => (.error e, r.2)
  | _, .ok none => (.error .typeError, r.2)
  | .ok g, .ok (some v) => (.ok (v, g), r.2)

/-- `get_heff` of the unrestricted Hamiltonian (hamiltonian.py:920-926); `h` is the result of `super().get_heff`. -/
def heffU (d : EbData m na nb K) (h : (Fin na → Fin na → K) × (Fin nb → Fin nb → K)) (s : EbState m na nb K) :
    (Except PyErr ((Fin na → Fin na → K) × (Fin nb → Fin nb → K))) × EbState m na nb K :=
  if d.opt then
    let r := readFock d s
    (r.1.map fun t => (fun p q => h.1 p q + fockShift t.1 t.2.1 p q, fun p q => h.2 p q + fockShift t.1 t.2.2 p q), r.2)
  else (.ok h, s)

/-- `get_heff` of the restricted Hamiltonian (hamiltonian.py:873-883): the alpha shift is added; a different beta shift is only
logged. -/
def heffR (d : EbData m n n K) (h : Fin n → Fin n → K) (s : EbState m n n K) :
    (Except PyErr (Fin n → Fin n → K)) × EbState m n n K :=
  if d.opt then
    let r := readFock d s
    (r.1.map fun t => fun p q => h p q + fockShift t.1 t.2.1 p q, r.2)
  else (.ok h, s)

/-- One access to the object by a user or solver. -/
inductive Access (na nb : Nat) (K : Type) where
  | freqs
  | unshifted
  | couplings
  | heff (h : (Fin na → Fin na → K) × (Fin nb → Fin nb → K))
  | shift

/-- Does the access raise, and the state after it (unrestricted Hamiltonian). -/
def accessU (d : EbData m na nb K) (s : EbState m na nb K) : Access na nb K → (Option PyErr) × EbState m na nb K
  | .freqs => (errOf (getFreqs d s).1, (getFreqs d s).2)
  | .unshifted => (errOf (getUnshifted d s).1, (getUnshifted d s).2)
  | .couplings => (errOf (couplingsU d s).1, (couplingsU d s).2)
  | .heff h => (errOf (heffU d h s).1, (heffU d h s).2)
  | .shift => (errOf (getShift s), s)
where
  errOf {α : Type} : Except PyErr α → Option PyErr
    | .ok _ => none
    | .error e => some e

/-- A history of accesses. -/
def runU (d : EbData m na nb K) : EbState m na nb K → List (Access na nb K) → EbState m na nb K
  | s, [] => s
  | s, a :: l => runU d (accessU d s a).2 l

end Object

end Vayesta.Polaritonic
