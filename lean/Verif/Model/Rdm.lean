import Verif.Model.Blocks
import Mathlib.Data.Matrix.Mul
import Mathlib.Algebra.Field.Defs

/-! Model of the density matrices of `vayesta/core/types/wf/rdm.py` and `vayesta/core/types/wf/fci.py`: one- and two-body density
matrices with and without mean-field part and cumulant. Arithmetic is exact. Orbitals are numbered `0, …, n - 1`, the first `nocc` are
occupied. -/

namespace Vayesta.Rdm

variable {K : Type} [Field K]

/-- An array with four axes, the first two of length `a`, the last two of length `b`. -/
abbrev Ten (a b : Nat) (K : Type) := Fin a → Fin a → Fin b → Fin b → K

/-- `dm1[np.diag_indices(nocc)] += x`. -/
def addDiag {n : Nat} (nocc : Nat) (x : K) (d : Matrix (Fin n) (Fin n) K) : Matrix (Fin n) (Fin n) K :=
  fun p q => d p q + if p = q ∧ p.val < nocc then x else 0

/-- `range(nocc)` as indices. -/
def occ (n nocc : Nat) : List (Fin n) := (List.finRange n).filter fun i => i.val < nocc

/-- `t[i, i, :, :] += x`. -/
def addIIxx {a b : Nat} (i : Fin a) (x : Matrix (Fin b) (Fin b) K) (t : Ten a b K) : Ten a b K :=
  fun p q r s => t p q r s + if p = i ∧ q = i then x r s else 0
/-- `t[:, :, i, i] += x`. -/
def addXXii {a b : Nat} (i : Fin b) (x : Matrix (Fin a) (Fin a) K) (t : Ten a b K) : Ten a b K :=
  fun p q r s => t p q r s + if r = i ∧ s = i then x p q else 0
/-- `t[:, i, i, :] += x`. -/
def addXiiX {a : Nat} (i : Fin a) (x : Matrix (Fin a) (Fin a) K) (t : Ten a a K) : Ten a a K :=
  fun p q r s => t p q r s + if q = i ∧ r = i then x p s else 0
/-- `t[i, :, :, i] += x`. -/
def addIxxI {a : Nat} (i : Fin a) (x : Matrix (Fin a) (Fin a) K) (t : Ten a a K) : Ten a a K :=
  fun p q r s => t p q r s + if p = i ∧ s = i then x q r else 0

/-- `einsum("ij,kl->ijkl", x, y)`. -/
def outer {a b : Nat} (x : Matrix (Fin a) (Fin a) K) (y : Matrix (Fin b) (Fin b) K) : Ten a b K := fun p q r s => x p q * y r s
/-- `einsum("ij,kl->iklj", x, y)`. -/
def outerX {a : Nat} (x y : Matrix (Fin a) (Fin a) K) : Ten a a K := fun p q r s => x p s * y q r

/-- `einsum("ijkl,ai,bj,ck,dl->abcd", t, c, c, d, d)`. -/
def transform {a b a' b' : Nat} (c : Matrix (Fin a') (Fin a) K) (d : Matrix (Fin b') (Fin b) K) (t : Ten a b K) : Ten a' b' K :=
  fun p q r s => ∑ i, ∑ j, ∑ k, ∑ l, t i j k l * c p i * c q j * d r k * d s l

/-- Restricted density matrices: `RRDM_WaveFunction` stores `dm1` and `dm2` (rdm.py:25-37); for `RFCI_WaveFunction` they are what pyscf
computes from the CI coefficients (fci.py:29-38). -/
structure RWf (nao n : Nat) (K : Type) where
  nocc : Nat
  coeff : Matrix (Fin nao) (Fin n) K
  dm1 : Matrix (Fin n) (Fin n) K
  dm2 : Ten n n K

/-- `make_rdm1` in the orbital basis (rdm.py:39-44, fci.py:28-33). -/
def RWf.makeRdm1 {nao n : Nat} (w : RWf nao n K) (withMf : Bool) : Matrix (Fin n) (Fin n) K :=
  if withMf then w.dm1 else addDiag w.nocc (-2) w.dm1
/-- `make_rdm1(ao_basis=True)`. -/
def RWf.makeRdm1Ao {nao n : Nat} (w : RWf nao n K) (withMf : Bool) : Matrix (Fin nao) (Fin nao) K :=
  w.coeff * w.makeRdm1 withMf * w.coeff.transpose

/-- `make_rdm2_non_cumulant` in the orbital basis (rdm.py:68-71). -/
def RWf.nonCumulant {nao n : Nat} (w : RWf nao n K) : Ten n n K := fun p q r s => outer w.dm1 w.dm1 p q r s - outerX w.dm1 w.dm1 p q r s / 2
/-- `make_rdm2_non_cumulant(ao_basis=True)` (rdm.py:72-74). -/
def RWf.nonCumulantAo {nao n : Nat} (w : RWf nao n K) : Ten nao nao K := transform w.coeff w.coeff w.nonCumulant

/-- The loop over occupied orbitals of the approximate cumulant (rdm.py:53-58, fci.py:41-46). -/
def RWf.approxLoop {nao n : Nat} (w : RWf nao n K) : Ten n n K :=
  let dm1 := addDiag w.nocc (-1) w.dm1
  (occ n w.nocc).foldl (fun t i => addIxxI i dm1 (addXiiX i dm1 (addXXii i (-((2 : K) • dm1)) (addIIxx i (-((2 : K) • dm1)) t)))) w.dm2

/-- `make_rdm2` in the orbital basis (rdm.py:46-64, fci.py:35-51). `approx` is the value of `approx_cumulant`: `False` is 0, `True` is
1. -/
def RWf.makeRdm2 {nao n : Nat} (w : RWf nao n K) (withDm1 : Bool) (approx : Int) : Except PyErr (Ten n n K) :=
  if withDm1 then .ok w.dm2
  else if approx = 0 then .ok fun p q r s => w.dm2 p q r s - w.nonCumulant p q r s
  else if approx = 1 then .ok w.approxLoop
  else if approx = 2 then .error .notImplementedError
  else .error .valueError
/-- `make_rdm2(ao_basis=True)` (rdm.py:66, fci.py:53). -/
def RWf.makeRdm2Ao {nao n : Nat} (w : RWf nao n K) (withDm1 : Bool) (approx : Int) : Except PyErr (Ten nao nao K) :=
  (w.makeRdm2 withDm1 approx).map (transform w.coeff w.coeff)

/-- Unrestricted density matrices: `URDM_WaveFunction` (rdm.py:107-140) with the stored blocks of `dm2` (three or four of them);
for `UFCI_WaveFunction` what pyscf computes (fci.py:239-254). -/
structure UWf (nao a b : Nat) (K : Type) where
  nocca : Nat
  noccb : Nat
  coeffa : Matrix (Fin nao) (Fin a) K
  coeffb : Matrix (Fin nao) (Fin b) K
  dm1a : Matrix (Fin a) (Fin a) K
  dm1b : Matrix (Fin b) (Fin b) K
  aa : Ten a a K
  ab : Ten a b K
  bb : Ten b b K
  /-- The optional third of four blocks. -/
  ba : Option (Ten b a K)

/-- `make_rdm1` in the orbital basis (rdm.py:142-147, fci.py:240-246). -/
def UWf.makeRdm1 {nao a b : Nat} (w : UWf nao a b K) (withMf : Bool) : Matrix (Fin a) (Fin a) K × Matrix (Fin b) (Fin b) K :=
  if withMf then (w.dm1a, w.dm1b) else (addDiag w.nocca (-1) w.dm1a, addDiag w.noccb (-1) w.dm1b)

/-- The three blocks `aa`, `ab`, `bb`. -/
structure Blocks3 (a b : Nat) (K : Type) where
  aa : Ten a a K
  ab : Ten a b K
  bb : Ten b b K

/-- `make_rdm2_non_cumulant` in the orbital basis (rdm.py:204-208; fci.py:256-259 inline). -/
def UWf.nonCumulant {nao a b : Nat} (w : UWf nao a b K) : Blocks3 a b K where
  aa := fun p q r s => outer w.dm1a w.dm1a p q r s - outerX w.dm1a w.dm1a p q r s
  ab := outer w.dm1a w.dm1b
  bb := fun p q r s => outer w.dm1b w.dm1b p q r s - outerX w.dm1b w.dm1b p q r s

/-- `for i in range(n): for j in range(m): t[i, i, j, j] += x`. -/
def addIIjj {a b : Nat} (na nb : Nat) (x : K) (t : Ten a b K) : Ten a b K :=
  (occ a na).foldl (fun t i => (occ b nb).foldl (fun t j => fun p q r s => t p q r s + if p = i ∧ q = i ∧ r = j ∧ s = j then x else 0) t) t
/-- `for i in range(n): for j in range(n): t[i, j, j, i] += x`. -/
def addIjjI {a : Nat} (na : Nat) (x : K) (t : Ten a a K) : Ten a a K :=
  (occ a na).foldl (fun t i => (occ a na).foldl (fun t j => fun p q r s => t p q r s + if p = i ∧ q = j ∧ r = j ∧ s = i then x else 0) t) t

/-- Same-spin part of the approximate cumulant of `URDM_WaveFunction` (rdm.py:161-184). The two statements of the innermost loop are
run as two loops. -/
def sameSpinRdm {a : Nat} (nocc : Nat) (dm1 : Matrix (Fin a) (Fin a) K) (t : Ten a a K) : Ten a a K :=
  let d := addDiag nocc (-1) dm1
  addIjjI nocc 1 (addIIjj nocc nocc (-1)
    ((occ a nocc).foldl (fun t i => addIxxI i d.transpose (addXiiX i d (addXXii i (-d) (addIIxx i (-d) t)))) t))
/-- Opposite-spin part (rdm.py:161-187). -/
def oppositeSpinRdm {a b : Nat} (na nb : Nat) (dm1a : Matrix (Fin a) (Fin a) K) (dm1b : Matrix (Fin b) (Fin b) K) (t : Ten a b K) : Ten a b K :=
  addIIjj na nb (-1) ((occ b nb).foldl (fun t i => addXXii i (-(addDiag na (-1) dm1a)) t)
    ((occ a na).foldl (fun t i => addIIxx i (-(addDiag nb (-1) dm1b)) t) t))

/-- Same-spin part of the approximate cumulant of `UFCI_WaveFunction` (fci.py:261-273). -/
def sameSpinFci {a : Nat} (nocc : Nat) (dm1 : Matrix (Fin a) (Fin a) K) (t : Ten a a K) : Ten a a K :=
  let d := addDiag nocc (-1 / 2) dm1
  (occ a nocc).foldl (fun t i => addIxxI i d (addXiiX i d (addXXii i (-d) (addIIxx i (-d) t)))) t
/-- Opposite-spin part (fci.py:261-274). -/
def oppositeSpinFci {a b : Nat} (na nb : Nat) (dm1a : Matrix (Fin a) (Fin a) K) (dm1b : Matrix (Fin b) (Fin b) K) (t : Ten a b K) : Ten a b K :=
  (occ b nb).foldl (fun t i => addXXii i (-(addDiag na (-1 / 2) dm1a)) t)
    ((occ a na).foldl (fun t i => addIIxx i (-(addDiag nb (-1 / 2) dm1b)) t) t)

/-- Difference of the blocks. -/
def Blocks3.sub {a b : Nat} (x y : Blocks3 a b K) : Blocks3 a b K where
  aa := fun p q r s => x.aa p q r s - y.aa p q r s
  ab := fun p q r s => x.ab p q r s - y.ab p q r s
  bb := fun p q r s => x.bb p q r s - y.bb p q r s

/-- `URDM_WaveFunction.make_rdm2` in the orbital basis (rdm.py:149-195). -/
def UWf.makeRdm2Rdm {nao a b : Nat} (w : UWf nao a b K) (withDm1 : Bool) (approx : Int) : Except PyErr (Blocks3 a b K) :=
  if withDm1 then .ok ⟨w.aa, w.ab, w.bb⟩
  else if approx = 0 then .ok (Blocks3.sub ⟨w.aa, w.ab, w.bb⟩ w.nonCumulant)
  else if approx = 1 then
    .ok ⟨sameSpinRdm w.nocca w.dm1a w.aa, oppositeSpinRdm w.nocca w.noccb w.dm1a w.dm1b w.ab, sameSpinRdm w.noccb w.dm1b w.bb⟩
  else if approx = 2 then .error .notImplementedError
  else .error .valueError

/-- `UFCI_WaveFunction.make_rdm2` in the orbital basis (fci.py:249-280); it asserts equal numbers of orbitals. -/
def UWf.makeRdm2Fci {nao a b : Nat} (w : UWf nao a b K) (withDm1 : Bool) (approx : Int) : Except PyErr (Blocks3 a b K) :=
  if a ≠ b then .error .assertionError
  else if withDm1 then .ok ⟨w.aa, w.ab, w.bb⟩
  else if approx = 0 then .ok (Blocks3.sub ⟨w.aa, w.ab, w.bb⟩ w.nonCumulant)
  else if approx = 1 then
    .ok ⟨sameSpinFci w.nocca w.dm1a w.aa, oppositeSpinFci w.nocca w.noccb w.dm1a w.dm1b w.ab, sameSpinFci w.noccb w.dm1b w.bb⟩
  else if approx = 2 then .error .notImplementedError
  else .error .valueError

/-- The transformation at the end of `make_rdm2(ao_basis=True)` (rdm.py:196-201, fci.py:281-286). -/
def UWf.toAo {nao a b : Nat} (w : UWf nao a b K) (x : Blocks3 a b K) : Blocks3 nao nao K :=
  ⟨transform w.coeffa w.coeffa x.aa, transform w.coeffa w.coeffb x.ab, transform w.coeffb w.coeffb x.bb⟩

/-- Property `dm2ba` of `URDM_WaveFunction` (rdm.py:131-135): the third of four blocks; with three blocks, the third (`bb`)
transposed. -/
def UWf.dm2ba {nao a b : Nat} (w : UWf nao a b K) : Ten b a K ⊕ Ten b b K :=
  match w.ba with
  | some t => .inl t
  | none => .inr fun p q r s => w.bb q p s r

end Vayesta.Rdm
