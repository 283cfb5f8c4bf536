import Mathlib.Algebra.BigOperators.Group.Finset.Sigma
import Mathlib.Algebra.Field.Basic
import Mathlib.Data.Fintype.Basic
import Mathlib.Data.Fintype.Prod
import Mathlib.Data.Fintype.Pi
import Mathlib.Data.Fin.Basic
import Mathlib.Data.List.FinRange

/-! Exact diagonalisation of coupled electrons and bosons: vayesta/solver/eb_fci/ebfci_slow.py and uebfci_slow.py.

Numbers are exact elements of a field `K`; `numpy.sqrt` is the parameter `sq`. The excitation tables come from PySCF
(`cistring.gen_linkstr_index`) and are parameters as well, as is the iterative eigensolver `lib.davidson`. Arrays are
functions of their indices: a CI vector of shape `(na, nb, max_occ+1, ..., max_occ+1)` is a function of an alpha string, a
beta string and the occupation of every boson. -/

namespace Vayesta.EbFci

/-- One row `(a, i, str1, sign)` of an excitation table (ebfci_slow.py 89, 100: `for a, i, str1, sign in tab`). -/
structure Link (n : Type) (k : Nat) (K : Type) where
  a : n
  i : n
  str1 : Fin k
  sign : K

/-- An excitation table: one list of rows for every string (ebfci_slow.py 82-83, `gen_linkstr_index`). -/
abbrev Table (n : Type) (k : Nat) (K : Type) := Fin k → List (Link n k K)

/-- Indices of a CI vector: alpha string, beta string, occupations (ebfci_slow.py 38-44, `make_shape`). -/
abbrev Idx (na nb nbos m : Nat) := Fin na × Fin nb × (Fin nbos → Fin (m + 1))

section
variable {n K : Type} [Fintype n] [DecidableEq n] [Field K] {k na nb nbos m : Nat}

/-- One row added to `t1` (ebfci_slow.py 90: `t1[a, i, str1] += sign * ci0[str0]`). -/
def scatterRow (f : Fin k → K) (str0 : Fin k) (t : n → n → Fin k → K) (e : Link n k K) : n → n → Fin k → K :=
  fun a i s => if a = e.a ∧ i = e.i ∧ s = e.str1 then t a i s + e.sign * f str0 else t a i s

/-- Both loops over a table that fill `t1` (ebfci_slow.py 88-90). -/
def scatter (tab : Table n k K) (f : Fin k → K) : n → n → Fin k → K :=
  (List.finRange k).foldl (fun t str0 => (tab str0).foldl (scatterRow f str0) t) (fun _ _ _ => 0)

/-- One row added to the new vector (ebfci_slow.py 101: `fcinew[str1] += sign * t1[a, i, str0]`). -/
def gatherRow (t : n → n → Fin k → K) (str0 : Fin k) (fc : Fin k → K) (e : Link n k K) : Fin k → K :=
  fun s => if s = e.str1 then fc s + e.sign * t e.a e.i str0 else fc s

/-- Both loops over a table that fill `fcinew` (ebfci_slow.py 99-101). -/
def gather (tab : Table n k K) (t : n → n → Fin k → K) (fc : Fin k → K) : Fin k → K :=
  (List.finRange k).foldl (fun f str0 => (tab str0).foldl (gatherRow t str0) f) fc

/-- `t1a`: single excitations of the alpha string (ebfci_slow.py 88-90, 132-134; uebfci_slow.py 81-83). -/
def excA (ta : Table n na K) (c : Idx na nb nbos m → K) (a i : n) : Idx na nb nbos m → K :=
  fun x => scatter ta (fun s => c (s, x.2.1, x.2.2)) a i x.1

/-- `t1b`: single excitations of the beta string (ebfci_slow.py 91-93, 135-137; uebfci_slow.py 84-86). -/
def excB (tb : Table n nb K) (c : Idx na nb nbos m → K) (a i : n) : Idx na nb nbos m → K :=
  fun x => scatter tb (fun s => c (x.1, s, x.2.2)) a i x.2.1

/-- Second pass over the alpha table (ebfci_slow.py 99-101; uebfci_slow.py 96-98). -/
def applyA (ta : Table n na K) (t : n → n → Idx na nb nbos m → K) (fc : Idx na nb nbos m → K) : Idx na nb nbos m → K :=
  fun x => gather ta (fun a i s => t a i (s, x.2.1, x.2.2)) (fun s => fc (s, x.2.1, x.2.2)) x.1

/-- Second pass over the beta table (ebfci_slow.py 102-104; uebfci_slow.py 99-101). -/
def applyB (tb : Table n nb K) (t : n → n → Idx na nb nbos m → K) (fc : Idx na nb nbos m → K) : Idx na nb nbos m → K :=
  fun x => gather tb (fun a i s => t a i (x.1, s, x.2.2)) (fun s => fc (x.1, s, x.2.2)) x.2.1

/-- `tensordot(eri, t1, 2)` (ebfci_slow.py 96). -/
def dotLast (eri : n → n → n → n → K) (t : n → n → Idx na nb nbos m → K) (b j : n) : Idx na nb nbos m → K :=
  fun x => ∑ a, ∑ i, eri b j a i * t a i x

/-- `tensordot(eri, t1, [[0, 1], [0, 1]])` (uebfci_slow.py 90-92). -/
def dotFirst (eri : n → n → n → n → K) (t : n → n → Idx na nb nbos m → K) (b j : n) : Idx na nb nbos m → K :=
  fun x => ∑ a, ∑ i, eri a i b j * t a i x

/-- `contract_2e` of the restricted code (ebfci_slow.py 76-105). -/
def contract2e (ta : Table n na K) (tb : Table n nb K) (eri : n → n → n → n → K) (c : Idx na nb nbos m → K) : Idx na nb nbos m → K :=
  let t1 : n → n → Idx na nb nbos m → K := fun a i x => excA ta c a i x + excB tb c a i x
  let t2 := dotLast eri t1
  applyB tb t2 (applyA ta t2 fun _ => 0)

/-- `contract_2e` of the unrestricted code (uebfci_slow.py 67-102). -/
def ucontract2e (ta : Table n na K) (tb : Table n nb K) (aa ab bb : n → n → n → n → K) (c : Idx na nb nbos m → K) : Idx na nb nbos m → K :=
  let t1a := excA ta c
  let t1b := excB tb c
  let t2a : n → n → Idx na nb nbos m → K := fun b j x => dotLast aa t1a b j x + dotLast ab t1b b j x
  let t2b : n → n → Idx na nb nbos m → K := fun b j x => dotLast bb t1b b j x + dotFirst ab t1a b j x
  applyB tb t2b (applyA ta t2a fun _ => 0)

/-- The coupling argument `heb`: one array for both spins or a tuple (ebfci_slow.py 146). -/
inductive Heb (n K : Type) (nbos : Nat)
  | one (v : Fin nbos → n → n → K)
  | two (va vb : Fin nbos → n → n → K)

/-- `heb_a` (ebfci_slow.py 146). -/
def Heb.alpha : Heb n K nbos → Fin nbos → n → n → K
  | .one v => v
  | .two va _ => va

/-- `heb_b` (ebfci_slow.py 146). -/
def Heb.beta : Heb n K nbos → Fin nbos → n → n → K
  | .one v => v
  | .two _ vb => vb

/-- `fcinew[ex_slice] += t[norm_slice] * bos_cre[iocc]` with occupation `iocc` raised by one (ebfci_slow.py 166-170; 202-205, 224-227). -/
def creStep (sq : Nat → K) (ibos : Fin nbos) (t : Idx na nb nbos m → K) (fc : Idx na nb nbos m → K) (iocc : Fin m) : Idx na nb nbos m → K :=
  fun x => if x.2.2 ibos = iocc.succ then fc x + t (x.1, x.2.1, Function.update x.2.2 ibos iocc.castSucc) * sq (iocc.val + 1) else fc x

/-- `fcinew[dex_slice] += t[norm_slice] * bos_cre[iocc - 1]`, `iocc` running from 1; here `j = iocc - 1`
(ebfci_slow.py 172-176; 213-216). -/
def desStep (sq : Nat → K) (ibos : Fin nbos) (t : Idx na nb nbos m → K) (fc : Idx na nb nbos m → K) (j : Fin m) : Idx na nb nbos m → K :=
  fun x => if x.2.2 ibos = j.castSucc then fc x + t (x.1, x.2.1, Function.update x.2.2 ibos j.succ) * sq (j.val + 1) else fc x

/-- The loop over occupations that creates a boson (ebfci_slow.py 166-170). -/
def cre (sq : Nat → K) (ibos : Fin nbos) (t fc : Idx na nb nbos m → K) : Idx na nb nbos m → K :=
  (List.finRange m).foldl (creStep sq ibos t) fc

/-- The loop over occupations that annihilates a boson (ebfci_slow.py 172-176). -/
def des (sq : Nat → K) (ibos : Fin nbos) (t fc : Idx na nb nbos m → K) : Idx na nb nbos m → K :=
  (List.finRange m).foldl (desStep sq ibos t) fc

/-- `t1a[i, i] -= zfac * ci0` if the option `adj_zero_pho` is set (ebfci_slow.py 124-130). -/
def adjZero (adj : Bool) (z : K) (c : Idx na nb nbos m → K) (t : n → n → Idx na nb nbos m → K) (a i : n) : Idx na nb nbos m → K :=
  fun x => if adj ∧ a = i then t a i x - z * c x else t a i x

/-- `tex` (ebfci_slow.py 148): both couplings contracted with the excitations. -/
def tex (va vb : Fin nbos → n → n → K) (t1a t1b : n → n → Idx na nb nbos m → K) (ibos : Fin nbos) : Idx na nb nbos m → K :=
  fun x => (∑ a, ∑ i, va ibos a i * t1a a i x) + ∑ a, ∑ i, vb ibos a i * t1b a i x

/-- `tdex` (ebfci_slow.py 151): the contraction `((1, 2), (1, 0))` exchanges the orbital indices of the coupling. -/
def tdex (va vb : Fin nbos → n → n → K) (t1a t1b : n → n → Idx na nb nbos m → K) (ibos : Fin nbos) : Idx na nb nbos m → K :=
  fun x => (∑ i, ∑ a, va ibos i a * t1a a i x) + ∑ i, ∑ a, vb ibos i a * t1b a i x

/-- `contract_ep` (ebfci_slow.py 109-178; uebfci_slow.py 106-175 is the same). -/
def contractEp (sq : Nat → K) (ta : Table n na K) (tb : Table n nb K) (heb : Heb n K nbos) (nela nelb : Nat) (adj : Bool)
    (c : Idx na nb nbos m → K) : Idx na nb nbos m → K :=
  let z : K := ((nela + nelb : Nat) : K) / (Fintype.card n : K)
  let t1a := adjZero adj z c (excA ta c)
  let t1b := adjZero adj z c (excB tb c)
  let ex := tex heb.alpha heb.beta t1a t1b
  let dex := tdex heb.alpha heb.beta t1a t1b
  (List.finRange nbos).foldl (fun fc ibos => des sq ibos (dex ibos) (cre sq ibos (ex ibos) fc)) (fun _ => 0)

/-- `apply_bos_annihilation` (ebfci_slow.py 209-217). -/
def bosAnnihilation (sq : Nat → K) (c : Idx na nb nbos m → K) (ibos : Fin nbos) : Idx na nb nbos m → K :=
  des sq ibos c fun _ => 0

/-- `apply_bos_creation` (ebfci_slow.py 220-228). -/
def bosCreation (sq : Nat → K) (c : Idx na nb nbos m → K) (ibos : Fin nbos) : Idx na nb nbos m → K :=
  cre sq ibos c fun _ => 0

/-- `contract_pp` (ebfci_slow.py 184-206). -/
def contractPp (sq : Nat → K) (hpp : Fin nbos → Fin nbos → K) (c : Idx na nb nbos m → K) : Idx na nb nbos m → K :=
  let t1 := bosAnnihilation sq c
  let t2 : Fin nbos → Idx na nb nbos m → K := fun i x => ∑ j, hpp i j * t1 j x
  (List.finRange nbos).foldl (fun fc ibos => cre sq ibos (t2 ibos) fc) (fun _ => 0)

/-- `contract_pp_for_future` (ebfci_slow.py 231-245): one frequency per boson. -/
def contractPpDiag (hpp : Fin nbos → K) (c : Idx na nb nbos m → K) : Idx na nb nbos m → K :=
  (List.finRange nbos).foldl (fun fc ibos =>
    (List.finRange (m + 1)).foldl (fun f (iocc : Fin (m + 1)) => fun x =>
      if x.2.2 ibos = iocc then f x + c x * (iocc.val : K) * hpp ibos else f x) fc) (fun _ => 0)

/-- `contract_all` given the electronic part (ebfci_slow.py 15-36; uebfci_slow.py 15-26). -/
def contractAll (sq : Nat → K) (ta : Table n na K) (tb : Table n nb K) (heb : Heb n K nbos) (hpp : Fin nbos → Fin nbos → K)
    (nela nelb : Nat) (adj : Bool) (el : (Idx na nb nbos m → K) → Idx na nb nbos m → K) (c : Idx na nb nbos m → K) : Idx na nb nbos m → K :=
  if 0 < nbos ∧ 0 < m then fun x => el c x + contractEp sq ta tb heb nela nelb adj c x + contractPp sq hpp c x
  else el c

/-- `f1e` of PySCF's `absorb_h1e`, called at ebfci_slow.py 326: one-body integrals less half the exchange-type trace,
divided by the number of electrons. (PySCF adds 1e-100 to the divisor to avoid a division by zero.) -/
def f1e (h : n → n → K) (g : n → n → n → n → K) (nel : K) : n → n → K :=
  fun j l => (h j l - (∑ i, g j i i l) / 2) / nel

/-- PySCF's `fci_slow.absorb_h1e(h1e, g2e, norb, nelec, 0.5)` (ebfci_slow.py 326). -/
def absorb (h : n → n → K) (g : n → n → n → n → K) (nel : K) : n → n → n → n → K :=
  fun p q r s => (g p q r s + (if p = q then f1e h g nel r s else 0) + if r = s then f1e h g nel p q else 0) / 2

/-- Mixed-spin block of PySCF's `direct_uhf.absorb_h1e` (uebfci_slow.py 332). Packing the result to triangles and unpacking it again, which
changes nothing for integrals symmetric in both pairs of indices, is left out. -/
def absorbMixed (fa fb : n → n → K) (g : n → n → n → n → K) : n → n → n → n → K :=
  fun p q r s => (g p q r s + (if r = s then fa p q else 0) + if p = q then fb r s else 0) / 2

/-- The restricted `hop`, i.e. the Hamiltonian applied to a vector (ebfci_slow.py 326, 334-336). -/
def hop (sq : Nat → K) (ta : Table n na K) (tb : Table n nb K) (h : n → n → K) (g : n → n → n → n → K) (heb : Heb n K nbos)
    (hpp : Fin nbos → Fin nbos → K) (nela nelb : Nat) (adj : Bool) (c : Idx na nb nbos m → K) : Idx na nb nbos m → K :=
  contractAll sq ta tb heb hpp nela nelb adj (contract2e ta tb (absorb h g ((nela + nelb : Nat) : K))) c

/-- The unrestricted `hop` (uebfci_slow.py 332, 340-342). -/
def uhop (sq : Nat → K) (ta : Table n na K) (tb : Table n nb K) (ha hb : n → n → K) (aa ab bb : n → n → n → n → K) (heb : Heb n K nbos)
    (hpp : Fin nbos → Fin nbos → K) (nela nelb : Nat) (adj : Bool) (c : Idx na nb nbos m → K) : Idx na nb nbos m → K :=
  let nel : K := ((nela + nelb : Nat) : K)
  contractAll sq ta tb heb hpp nela nelb adj
    (ucontract2e ta tb (absorb ha aa nel) (absorbMixed (f1e ha aa nel) (f1e hb bb nel) ab) (absorb hb bb nel)) c

/-- `kernel`: the eigensolver applied to `hop`, with `ecore` added to its energy (ebfci_slow.py 309-344). The starting vector and the
preconditioner are left out: they are arguments of the eigensolver, which is a parameter. -/
def kernel (davidson : ((Idx na nb nbos m → K) → Idx na nb nbos m → K) → K × (Idx na nb nbos m → K))
    (hopf : (Idx na nb nbos m → K) → Idx na nb nbos m → K) (ecore : K) : K × (Idx na nb nbos m → K) :=
  ((davidson hopf).1 + ecore, (davidson hopf).2)

/-- One row of the one-body density matrix (ebfci_slow.py 428: `rdm1[a, i] += sign * dot(ci0[str1], ci0[str0])`). -/
def rdm1Row (dot : Fin k → Fin k → K) (str0 : Fin k) (d : n → n → K) (e : Link n k K) : n → n → K :=
  fun a i => if a = e.a ∧ i = e.i then d a i + e.sign * dot e.str1 str0 else d a i

/-- One spin of `make_rdm1` (ebfci_slow.py 426-428, 431-433). -/
def rdm1Spin (tab : Table n k K) (dot : Fin k → Fin k → K) (d : n → n → K) : n → n → K :=
  (List.finRange k).foldl (fun d' str0 => (tab str0).foldl (rdm1Row dot str0) d') d

/-- `make_rdm1` of the unrestricted code, alpha part (uebfci_slow.py 429-434). -/
def rdm1A (ta : Table n na K) (c : Idx na nb nbos m → K) : n → n → K :=
  rdm1Spin ta (fun s t => ∑ y, c (s, y) * c (t, y)) fun _ _ => 0

/-- `make_rdm1` of the unrestricted code, beta part (uebfci_slow.py 436-440). -/
def rdm1B (tb : Table n nb K) (c : Idx na nb nbos m → K) : n → n → K :=
  rdm1Spin tb (fun s t => ∑ a, ∑ y, c (a, s, y) * c (a, t, y)) fun _ _ => 0

/-- `make_rdm1` of the restricted code: both spins in one array (ebfci_slow.py 416-434). -/
def rdm1 (ta : Table n na K) (tb : Table n nb K) (c : Idx na nb nbos m → K) : n → n → K :=
  rdm1Spin tb (fun s t => ∑ a, ∑ y, c (a, s, y) * c (a, t, y)) (rdm1A ta c)

/-- One row of `t1` in the two-body density matrices (ebfci_slow.py 455: `t1[i, a, :] += sign * ci0[str1, :]`). -/
def pullRow (f : Fin k → K) (t : n → n → K) (e : Link n k K) : n → n → K :=
  fun i a => if i = e.i ∧ a = e.a then t i a + e.sign * f e.str1 else t i a

/-- `t1` of one string (ebfci_slow.py 453-455, 457-459). -/
def pull (rows : List (Link n k K)) (f : Fin k → K) : n → n → K := rows.foldl (pullRow f) fun _ _ => 0

/-- Alpha part of `t1` (ebfci_slow.py 454-455; uebfci_slow.py 502-503). -/
def t1A (ta : Table n na K) (c : Idx na nb nbos m → K) (i a : n) : Idx na nb nbos m → K :=
  fun x => pull (ta x.1) (fun s => c (s, x.2.1, x.2.2)) i a

/-- Beta part of `t1` (ebfci_slow.py 457-459; uebfci_slow.py 505-507). -/
def t1B (tb : Table n nb K) (c : Idx na nb nbos m → K) (i a : n) : Idx na nb nbos m → K :=
  fun x => pull (tb x.2.1) (fun s => c (x.1, s, x.2.2)) i a

/-- `rdm1 += einsum("mp,ijmp->ij", ci0[str0], t1)` over all alpha strings (ebfci_slow.py 461; uebfci_slow.py 509-510). -/
def dm1Of (c : Idx na nb nbos m → K) (t : n → n → Idx na nb nbos m → K) : n → n → K :=
  fun i j => ∑ str0, ∑ y, c (str0, y) * t i j (str0, y)

/-- `rdm2 += dot(t1, t1.T).transpose(1, 0, 2, 3)` over all alpha strings (ebfci_slow.py 464-465; uebfci_slow.py 520-522). -/
def dm2Of (t u : n → n → Idx na nb nbos m → K) : n → n → n → n → K :=
  fun p q r s => ∑ str0, ∑ y, t q p (str0, y) * u r s (str0, y)

/-- First half of PySCF's `rdm.reorder_rdm`: `rdm2[:, k, k, :] -= rdm1.T` (called at ebfci_slow.py 466). -/
def reorderDelta (d1 : n → n → K) (d2 : n → n → n → n → K) : n → n → n → n → K :=
  fun p q r s => if q = r then d2 p q r s - d1 s p else d2 p q r s

/-- PySCF's `rdm.reorder_rdm`: then the average over the exchange of both particles. -/
def reorder (d1 : n → n → K) (d2 : n → n → n → n → K) : n → n → n → n → K :=
  fun p q r s => (reorderDelta d1 d2 p q r s + reorderDelta d1 d2 r s p q) / 2

/-- `make_rdm12` (ebfci_slow.py 437-467). -/
def rdm12 (ta : Table n na K) (tb : Table n nb K) (c : Idx na nb nbos m → K) : (n → n → K) × (n → n → n → n → K) :=
  let t1 : n → n → Idx na nb nbos m → K := fun i a x => t1A ta c i a x + t1B tb c i a x
  (dm1Of c t1, reorder (dm1Of c t1) (dm2Of t1 t1))

/-- `make_rdm12s` of the unrestricted code, with `reorder=True` (uebfci_slow.py 476-527). -/
def urdm12 (ta : Table n na K) (tb : Table n nb K) (c : Idx na nb nbos m → K) :
    ((n → n → K) × (n → n → K)) × ((n → n → n → n → K) × (n → n → n → n → K) × (n → n → n → n → K)) :=
  let ua := t1A ta c
  let ub := t1B tb c
  ((dm1Of c ua, dm1Of c ub), (reorder (dm1Of c ua) (dm2Of ua ua), dm2Of ua ub, reorder (dm1Of c ub) (dm2Of ub ub)))

/-- `make_eb_rdm` (ebfci_slow.py 530-575; uebfci_slow.py 530-576), for at least one boson; one entry of the alpha array if `exc = excA ta c`, of the beta
array if `exc = excB tb c`. -/
def ebRdm (sq : Nat → K) (exc : n → n → Idx na nb nbos m → K) (c : Idx na nb nbos m → K) (p q : n) (ibos : Fin nbos) : K :=
  ∑ x, cre sq ibos (exc p q) (fun _ => 0) x * c x

end

end Vayesta.EbFci
