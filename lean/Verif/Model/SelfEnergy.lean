import Verif.Model.Blocks
import Verif.Model.Lowdin
import Mathlib.Data.Matrix.Mul
import Mathlib.Analysis.Real.Sqrt
import Mathlib.Data.Complex.Basic

/-! Self-energies assembled from clusters: vayesta/core/qemb/self_energy.py. Exact real arithmetic. Everything that the package `dyson` does is a
parameter or a plain description: a self-energy in Lehmann representation is the list of its poles, and making one sorts them. `numpy.linalg.eigh`
and `svd` are parameters. MPI is not used by this code. -/

namespace Vayesta.SelfEnergy

open Matrix Lowdin

noncomputable section

/-- One pole: energy, and a column of the left and the right couplings. -/
structure Pole (p K : Type) where
  e : ℝ
  l : p → K
  r : p → K

/-- What a list of poles is used for: the sum of `f(energy)` times the product of both couplings; with powers `f` these are the moments
(`Lehmann.moment`, self_energy.py:54). -/
def weighted {p : Type} (f : ℝ → ℝ) (x : List (Pole p ℝ)) : Matrix p p ℝ := (x.map fun a => f a.e • vecMulVec a.l a.r).sum

/-- The self-energy of a cluster (self_energy.py:47-53, 158-164): its couplings are one array or a tuple of two. -/
inductive Se (n : Nat)
  | array (poles : List (ℝ × (Fin n → ℝ)))
  | tuple (poles : List (Pole (Fin n) ℝ))

/-- `_unpack_couplings` (self_energy.py:199, 358): an array stands for both sides. -/
def Se.poles {n : Nat} : Se n → List (Pole (Fin n) ℝ)
  | .array a => a.map fun x => ⟨x.1, x.2, x.2⟩
  | .tuple a => a

/-- The mean-field: overlap and Fock matrix in atomic orbitals, and orbitals. -/
structure Sys (ι : Type) (nmo : Nat) where
  ovlp : Matrix ι ι ℝ
  fock : Matrix ι ι ℝ
  mo : Matrix ι (Fin nmo) ℝ

/-- A fragment: its orbitals, those of the cluster, first moments of both spectral functions (`th[1]`, `tp[1]`), self-energy from the solver (after
the optional shift, self_energy.py:169-172), whether it has no symmetry parent, and the symmetry operations that give its symmetry children. -/
structure Frag (ι : Type) where
  {nf : Nat}
  {nc : Nat}
  cFrag : Matrix ι (Fin nf) ℝ
  cAct : Matrix ι (Fin nc) ℝ
  th1 : Matrix (Fin nc) (Fin nc) ℝ
  tp1 : Matrix (Fin nc) (Fin nc) ℝ
  se : Se nc
  root : Bool
  ops : List (Matrix ι ι ℝ)

section
variable {ι : Type} [Fintype ι] {nmo : Nat}

/-- `get_overlap('frag|cluster')` (self_energy.py:58, 179, 301). -/
def Frag.fc (s : Sys ι nmo) (x : Frag ι) : Matrix (Fin x.nf) (Fin x.nc) ℝ := x.cFragᵀ * s.ovlp * x.cAct

/-- `cfc = fc.T @ fc` (self_energy.py:59, 180). -/
def Frag.cfc (s : Sys ι nmo) (x : Frag ι) : Matrix (Fin x.nc) (Fin x.nc) ℝ := (x.fc s)ᵀ * x.fc s

/-- `get_overlap('mo|cluster')` and `get_overlap('mo|frag')` for given orbitals (self_energy.py:56-57, 85, 107). -/
def toMo {n : Nat} (s : Sys ι nmo) (c : Matrix ι (Fin n) ℝ) : Matrix (Fin nmo) (Fin n) ℝ := s.moᵀ * s.ovlp * c

/-- `fock_cls` (self_energy.py:62, 183, 304). -/
def Frag.fockCls (s : Sys ι nmo) (x : Frag ι) : Matrix (Fin x.nc) (Fin x.nc) ℝ := x.cActᵀ * s.fock * x.cAct

/-- `as_static_potential(e_cls, eta=eta)` of `dyson`, a parameter. -/
abbrev AsStatic := ∀ n : Nat, Se n → (Fin n → ℝ) → Matrix (Fin n) (Fin n) ℝ

/-- `v_cls` (self_energy.py:63-67, 91, 184-187, 305-308). -/
def Frag.vCls (s : Sys ι nmo) (stat : AsStatic) (x : Frag ι) : Matrix (Fin x.nc) (Fin x.nc) ℝ := stat x.nc x.se fun i => x.fockCls s i i

/-- `static_se_cls = th[1] + tp[1] - fock_cls` (self_energy.py:73, 96, 193, 313). -/
def Frag.staticCls (s : Sys ι nmo) (x : Frag ι) : Matrix (Fin x.nc) (Fin x.nc) ℝ := x.th1 + x.tp1 - x.fockCls s

/-- `a = cfc @ a; 0.5 * (a + a.T)` (self_energy.py:68-69, 74-75, 188-189, 194-195). -/
def one {n : Nat} (cfc a : Matrix (Fin n) (Fin n) ℝ) : Matrix (Fin n) (Fin n) ℝ := (1 / 2 : ℝ) • (cfc * a + (cfc * a)ᵀ)

/-- Orbitals of a fragment and of its symmetry children, the latter only with `use_sym` (self_energy.py:82-87, 104-110, 235-245, 327-341). -/
def images {n : Nat} (useSym : Bool) (ops : List (Matrix ι ι ℝ)) (c : Matrix ι (Fin n) ℝ) : List (Matrix ι (Fin n) ℝ) :=
  c :: if useSym then ops.map (· * c) else []

/-- `+= c @ a @ c.T` for all images (self_energy.py:70, 84, 93, 106). -/
def aoSum {n : Nat} (cs : List (Matrix ι (Fin n) ℝ)) (a : Matrix (Fin n) (Fin n) ℝ) : Matrix ι ι ℝ := (cs.map fun c => c * a * cᵀ).sum

/-- `+= mc @ a @ mc.T` for all images (self_energy.py:76, 80, 85-87, 98, 102, 107-110). -/
def moSum {n : Nat} (s : Sys ι nmo) (cs : List (Matrix ι (Fin n) ℝ)) (a : Matrix (Fin n) (Fin n) ℝ) : Matrix (Fin nmo) (Fin nmo) ℝ :=
  (cs.map fun c => toMo s c * a * (toMo s c)ᵀ).sum

/-- Fragments in the outer loop (self_energy.py:44, 155, 289). -/
def chosen (useSym : Bool) (l : List (Frag ι)) : List (Frag ι) := if useSym then l.filter fun x => x.root else l

/-- Static self-energy and potential of one fragment with one projector (self_energy.py:65-76, 82-86; 186-196, 235-239). -/
def Frag.static1 (s : Sys ι nmo) (useSym : Bool) (x : Frag ι) : Matrix (Fin nmo) (Fin nmo) ℝ :=
  moSum s (images useSym x.ops x.cAct) (one (x.cfc s) (x.staticCls s))
/-- The static potential of the same lines. -/
def Frag.pot1 (s : Sys ι nmo) (stat : AsStatic) (useSym : Bool) (x : Frag ι) : Matrix ι ι ℝ :=
  aoSum (images useSym x.ops x.cAct) (one (x.cfc s) (x.vCls s stat))

/-- Static self-energy and potential of one fragment with two projectors (self_energy.py:90-98, 104-109; 307-315, 327-332). -/
def Frag.static2 (s : Sys ι nmo) (useSym : Bool) (x : Frag ι) : Matrix (Fin nmo) (Fin nmo) ℝ :=
  moSum s (images useSym x.ops x.cFrag) (x.fc s * x.staticCls s * (x.fc s)ᵀ)
/-- The static potential of the same lines. -/
def Frag.pot2 (s : Sys ι nmo) (stat : AsStatic) (useSym : Bool) (x : Frag ι) : Matrix ι ι ℝ :=
  aoSum (images useSym x.ops x.cFrag) (x.fc s * x.vCls s stat * (x.fc s)ᵀ)

/-- Moment `k` of one fragment with one projector (self_energy.py:79-80, 87). -/
def Frag.mom1 (s : Sys ι nmo) (useSym : Bool) (k : Nat) (x : Frag ι) : Matrix (Fin nmo) (Fin nmo) ℝ :=
  let m := weighted (· ^ k) x.se.poles
  moSum s (images useSym x.ops x.cAct) ((1 / 2 : ℝ) • (x.cfc s * m + m * x.cfc s))

/-- Moment `k` of one fragment with two projectors (self_energy.py:101-102, 110). -/
def Frag.mom2 (s : Sys ι nmo) (useSym : Bool) (k : Nat) (x : Frag ι) : Matrix (Fin nmo) (Fin nmo) ℝ :=
  moSum s (images useSym x.ops x.cFrag) ((1 / 2 : ℝ) • (x.fc s * weighted (· ^ k) x.se.poles * (x.fc s)ᵀ))

/-- The arrays which are returned: a self-energy (moments or poles), its static part in molecular orbitals, and the static potential in atomic
orbitals. -/
structure Result (ι : Type) (nmo : Nat) (S : Type) where
  se : S
  static : Matrix (Fin nmo) (Fin nmo) ℝ
  pot : Matrix ι ι ℝ

/-- The result has the shape of the Fock matrix in atomic orbitals (self_energy.py:40-42); adding arrays in molecular orbitals to it raises ValueError
if their number is different (with one molecular orbital numpy would broadcast instead, which is not modelled). -/
def sized {α : Type} (ι : Type) [Fintype ι] (nmo : Nat) (empty : Bool) (a : α) : Except PyErr α :=
  if empty ∨ Fintype.card ι = nmo then .ok a else .error .valueError

/-- `make_self_energy_moments` (self_energy.py:11-112), with moments 0 to `n - 1`. -/
def makeMoments (s : Sys ι nmo) (stat : AsStatic) (n : Nat) (useSym : Bool) (proj : Int) (l : List (Frag ι)) :
    Except PyErr (Result ι nmo (Fin n → Matrix (Fin nmo) (Fin nmo) ℝ)) :=
  let frags := chosen useSym l
  if proj = 1 then sized ι nmo frags.isEmpty
    ⟨fun k => (frags.map (Frag.mom1 s useSym k)).sum, (frags.map (Frag.static1 s useSym)).sum, (frags.map (Frag.pot1 s stat useSym)).sum⟩
  else if proj = 2 then sized ι nmo frags.isEmpty
    ⟨fun k => (frags.map (Frag.mom2 s useSym k)).sum, (frags.map (Frag.static2 s useSym)).sum, (frags.map (Frag.pot2 s stat useSym)).sum⟩
  else .ok ⟨fun _ => 0, 0, 0⟩

/-! ## Two projectors -/

/-- `mf @ fc @ se.couplings` for all poles (self_energy.py:318-325, 330-341). The code recomputes `fc` for every child; it is the one of the
orbitals of the child, `(u c_frag)^T S (u c_act)`. -/
def pole2 (s : Sys ι nmo) {nf nc : Nat} (cFrag : Matrix ι (Fin nf) ℝ) (cAct : Matrix ι (Fin nc) ℝ) (a : Pole (Fin nc) ℝ) : Pole (Fin nmo) ℝ :=
  let m := toMo s cFrag * (cFragᵀ * s.ovlp * cAct)
  ⟨a.e, m *ᵥ a.l, m *ᵥ a.r⟩

/-- Orbitals of a fragment and its cluster and those of the symmetry children. -/
def pairs (useSym : Bool) (x : Frag ι) : List (Matrix ι (Fin x.nf) ℝ × Matrix ι (Fin x.nc) ℝ) :=
  (x.cFrag, x.cAct) :: if useSym then x.ops.map fun u => (u * x.cFrag, u * x.cAct) else []

/-- All poles of one fragment (self_energy.py:317-341). -/
def Frag.poles2 (s : Sys ι nmo) (useSym : Bool) (x : Frag ι) : List (Pole (Fin nmo) ℝ) :=
  (pairs useSym x).flatMap fun c => x.se.poles.map (pole2 s c.1 c.2)

/-- Whether the couplings are a tuple (self_energy.py:318). -/
def Se.isTuple {n : Nat} : Se n → Bool
  | .array _ => false
  | .tuple _ => true

/-- The sorted poles: what `Lehmann(energies, couplings)` of `dyson` holds. -/
abbrev Sorter (nmo : Nat) := List (Pole (Fin nmo) ℝ) → List (Pole (Fin nmo) ℝ)

/-- `make_self_energy_2proj` (self_energy.py:259-352). Without fragments `couplings[0]` raises IndexError; arrays and tuples cannot be stacked. -/
def make2proj (s : Sys ι nmo) (stat : AsStatic) (sort : Sorter nmo) (useSym : Bool) (l : List (Frag ι)) :
    Except PyErr (Result ι nmo (List (Pole (Fin nmo) ℝ))) :=
  let frags := chosen useSym l
  match frags with
  | [] => .error .indexError
  | x :: _ =>
    if Fintype.card ι ≠ nmo then .error .valueError
    else if frags.all fun y => y.se.isTuple == x.se.isTuple then
      .ok ⟨sort (frags.flatMap (Frag.poles2 s useSym)), (frags.map (Frag.static2 s useSym)).sum, (frags.map (Frag.pot2 s stat useSym)).sum⟩
    else .error .valueError

/-! ## One projector -/

/-- `sym_coup[a]` (self_energy.py:200). -/
def symCoup {n : Nat} (cfc : Matrix (Fin n) (Fin n) ℝ) (a : Pole (Fin n) ℝ) : Matrix (Fin n) (Fin n) ℝ :=
  (1 / 2 : ℝ) • (vecMulVec (cfc *ᵥ a.l) a.r + vecMulVec a.l (cfc *ᵥ a.r))

/-- Result of `np.linalg.svd` of a square matrix. -/
structure Svd (n : Nat) where
  u : Matrix (Fin n) (Fin n) ℝ
  s : Fin n → ℝ
  vt : Matrix (Fin n) (Fin n) ℝ

/-- `np.sqrt(x, dtype=np.complex64)`. -/
def csqrt (x : ℝ) : ℂ := if 0 ≤ x then (Real.sqrt x : ℂ) else Real.sqrt (-x) * Complex.I

open Classical in
/-- `idx` as the list of what is kept. -/
def kept {n : Nat} (p : Fin n → Prop) : List (Fin n) := (List.finRange n).filter fun i => p i

/-- `assert idx.sum() <= 2` (self_energy.py:208, 225). -/
def atMostTwo {α : Type} (a : List α) : Except PyErr (List α) := if a.length ≤ 2 then .ok a else .error .assertionError

/-- One pole with `use_svd` (self_energy.py:205-213). -/
def splitSvd {n : Nat} (svd : Matrix (Fin n) (Fin n) ℝ → Svd n) (tol : ℝ) (cfc : Matrix (Fin n) (Fin n) ℝ) (a : Pole (Fin n) ℝ) :
    Except PyErr (List (Pole (Fin n) ℂ)) :=
  let g := svd (symCoup cfc a)
  atMostTwo ((kept fun i => tol < |g.s i|).map fun i => ⟨a.e, fun p => g.u p i * Real.sqrt (g.s i), fun p => g.vt i p * Real.sqrt (g.s i)⟩)

/-- One pole without `use_svd` (self_energy.py:222-228); the array of couplings stands for both sides. -/
def splitEigh {n : Nat} (eigh : Matrix (Fin n) (Fin n) ℝ → Eig (Fin n) ℝ) (tol : ℝ) (cfc : Matrix (Fin n) (Fin n) ℝ) (a : Pole (Fin n) ℝ) :
    Except PyErr (List (Pole (Fin n) ℂ)) :=
  let g := eigh (symCoup cfc a)
  let w (i : Fin n) (p : Fin n) : ℂ := g.vec p i * csqrt (g.val i)
  atMostTwo ((kept fun i => tol < |g.val i|).map fun i => ⟨a.e, w i, w i⟩)

/-- `mc @ couplings` for one pole (self_energy.py:216-217, 232, 238-245). -/
def Pole.toMo {n : Nat} (m : Matrix (Fin nmo) (Fin n) ℝ) (a : Pole (Fin n) ℂ) : Pole (Fin nmo) ℂ :=
  ⟨a.e, fun p => ∑ q, (m p q : ℂ) * a.l q, fun p => ∑ q, (m p q : ℂ) * a.r q⟩

/-- Numerical routines: `svd`, `eigh` and the order given to poles by `Lehmann` (of complex and of real couplings). -/
structure Routines (nmo : Nat) where
  svd : ∀ n : Nat, Matrix (Fin n) (Fin n) ℝ → Svd n
  eigh : ∀ n : Nat, Matrix (Fin n) (Fin n) ℝ → Eig (Fin n) ℝ
  sortC : List (Pole (Fin nmo) ℂ) → List (Pole (Fin nmo) ℂ)
  sort : Sorter nmo

/-- All poles of one fragment and its symmetry children (self_energy.py:198-245). `np.hstack` of an empty list raises ValueError. -/
def Frag.poles1 (s : Sys ι nmo) (t : Routines nmo) (useSym useSvd : Bool) (tol : ℝ) (x : Frag ι) : Except PyErr (List (Pole (Fin nmo) ℂ)) :=
  match x.se.poles with
  | [] => .error .valueError
  | a :: as =>
    ((a :: as).mapM (m := Except PyErr) fun a => if useSvd then splitSvd (t.svd x.nc) tol (x.cfc s) a else splitEigh (t.eigh x.nc) tol (x.cfc s) a).map
      fun parts => (images useSym x.ops x.cAct).flatMap fun c => parts.flatten.map (Pole.toMo (SelfEnergy.toMo s c))

/-- The loops of `get_unique` (self_energy.py:390-402): slices of consecutive elements closer than `atol` to the first one of the slice. -/
def slices (atol : ℝ) : Nat → List ℝ → List (Nat × Nat)
  | _, [] => []
  | i, x :: xs =>
    let j := (xs.takeWhile fun y => |x - y| < atol).length
    (i, i + (j + 1)) :: slices atol (i + (j + 1)) (xs.drop j)
termination_by _ xs => xs.length
decreasing_by simp

/-- `array[s]`. -/
def slice {α : Type} (a : List α) (s : Nat × Nat) : List α := (a.drop s.1).take (s.2 - s.1)

/-- `array[s].mean()`. -/
def mean (a : List ℝ) : ℝ := a.sum / a.length

/-- `get_unique` (self_energy.py:384-404). -/
def getUnique (atol : ℝ) (a : List ℝ) : List ℝ × List (Nat × Nat) :=
  ((slices atol 0 a).map fun s => mean (slice a s), slices atol 0 a)

/-- `np.einsum('pa,qa->pq', couplings_l[:,s], couplings_r[:,s]).real` (self_energy.py:364). -/
def groupMat (x : List (Pole (Fin nmo) ℂ)) : Matrix (Fin nmo) (Fin nmo) ℝ := fun p q => ((x.map fun (a : Pole (Fin nmo) ℂ) => a.l p * a.r q).sum).re

open Classical in
/-- What one group of poles is replaced by (self_energy.py:365-374, 381): eigenvectors times square roots, of which only the real part is used. -/
def regroup (eigh : Matrix (Fin nmo) (Fin nmo) ℝ → Eig (Fin nmo) ℝ) (etol : ℝ) (drop : Bool) (e : ℝ) (x : List (Pole (Fin nmo) ℂ)) :
    List (Pole (Fin nmo) ℝ) :=
  let g := eigh (groupMat x)
  (kept fun i => if drop then etol < g.val i else etol < |g.val i|).map fun i =>
    let w : Fin nmo → ℝ := fun p => ((g.vec p i : ℂ) * csqrt (g.val i)).re
    ⟨e, w, w⟩

/-- `remove_se_degeneracy` (self_energy.py:354-382). `np.hstack` of an empty list raises ValueError. -/
def removeDegeneracy (t : Routines nmo) (dtol etol : ℝ) (drop : Bool) (x : List (Pole (Fin nmo) ℂ)) : Except PyErr (List (Pole (Fin nmo) ℝ)) :=
  let u := getUnique dtol (x.map fun a => a.e)
  if u.2.isEmpty then .error .valueError
  else .ok (t.sort ((u.1.zip u.2).flatMap fun es => regroup (t.eigh nmo) etol drop es.1 (slice x es.2)))

/-- `make_self_energy_1proj` (self_energy.py:114-256). Without fragments `np.concatenate` raises ValueError. -/
def make1proj (s : Sys ι nmo) (stat : AsStatic) (t : Routines nmo) (useSym useSvd : Bool) (degenTol evalTol : ℝ) (drop : Bool) (l : List (Frag ι)) :
    Except PyErr (Result ι nmo (List (Pole (Fin nmo) ℝ))) := do
  let frags := chosen useSym l
  let parts ← frags.mapM (m := Except PyErr) fun x => do
    let _ ← sized ι nmo false ()
    x.poles1 s t useSym useSvd evalTol
  bif parts.isEmpty then .error .valueError
  else do
    let se ← removeDegeneracy t degenTol evalTol drop (t.sortC parts.flatten)
    pure ⟨se, (frags.map (Frag.static1 s useSym)).sum, (frags.map (Frag.pot1 s stat useSym)).sum⟩

end

end

end Vayesta.SelfEnergy
