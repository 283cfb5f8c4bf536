import Verif.Model.Blocks
import Mathlib.RingTheory.RootsOfUnity.Complex
import Mathlib.Data.Matrix.Mul
import Mathlib.Data.Real.Sqrt
import Mathlib.Algebra.Order.Round
import Mathlib.LinearAlgebra.Matrix.ConjTranspose

/-! Folding of k-point sampled mean-fields to the Born-von Karman supercell (`vayesta/core/foldscf.py`).

Simplifications: exact arithmetic; unit cells of the supercell are indexed by three numbers instead of their position in the list of
translations, so that the supercell orbital `R * nao + i` is the pair `(R, i)`; log messages are dropped. -/

namespace Vayesta.Fold

open Complex

/-- Unit cells of a supercell with mesh `n` (foldscf.py:281-282: the product of `arange(kmesh[d])`). -/
abbrev Cells (n : Fin 3 → Nat) := (d : Fin 3) → Fin (n d)

variable {κ ρ ι : Type} [Fintype κ] [Fintype ρ] [Fintype ι]

/-- `translation_vectors_for_kmesh` (foldscf.py:277-284); the rows of `a` are the lattice vectors. -/
noncomputable def cellVector {n : Fin 3 → Nat} (a : Fin 3 → Fin 3 → ℝ) (R : Cells n) : Fin 3 → ℝ := fun x => ∑ d, ((R d : Nat) : ℝ) * a d x

/-- `get_phase` (foldscf.py:287-299): `exp(1j k.R) / sqrt(nr)`, ordered as (k, R). -/
noncomputable def phase (a : Fin 3 → Fin 3 → ℝ) (n : Fin 3 → Nat) (kpts : κ → Fin 3 → ℝ) : Matrix κ (Cells n) ℂ :=
  Matrix.of fun k R => exp (I * ((∑ x, kpts k x * cellVector a R x : ℝ) : ℂ)) / ((Real.sqrt ((∏ d, n d : Nat) : ℝ) : ℝ) : ℂ)

/-- `cell.get_scaled_kpts` of PySCF, used in foldscf.py:272: coordinates in units of the reciprocal lattice vectors. -/
noncomputable def scaledKpt (a : Fin 3 → Fin 3 → ℝ) (k : Fin 3 → ℝ) (d : Fin 3) : ℝ := (∑ x, k x * a d x) / (2 * Real.pi)

/-- `.round(8)` (foldscf.py:272), as a multiple of the last digit. Simplification: halves are rounded up, not to even. -/
noncomputable def round8 (x : ℝ) : ℤ := round (x * 10 ^ 8)

/-- `kpts_to_kmesh` (foldscf.py:270-274): numbers of distinct coordinates. -/
noncomputable def kmesh (a : Fin 3 → Fin 3 → ℝ) (kpts : κ → Fin 3 → ℝ) : Fin 3 → Nat :=
  fun d => (Finset.univ.image fun k => round8 (scaledKpt a (kpts k) d)).card

/-- `k2bvk_2d` before the imaginary part is checked (foldscf.py:304, 310-312): `einsum("kR,kij,kS->RiSj", phase, ak, phase.conj())`. -/
noncomputable def k2bvk (p : Matrix κ ρ ℂ) (ak : κ → Matrix ι ι ℂ) : Matrix (ρ × ι) (ρ × ι) ℂ :=
  Matrix.of fun x y => ∑ k, p k x.1 * ak k x.2 y.2 * star (p k y.1)

open Classical in
/-- `make_real` (foldscf.py:305-309, 313-315): ImaginaryPartError above the tolerance, otherwise the real part. The maximum of an empty
array is a ValueError. -/
noncomputable def makeReal {α : Type} [Fintype α] (tol : ℝ) (g : Matrix α α ℂ) : Except PyErr (Matrix α α ℝ) :=
  if Fintype.card α = 0 then .error .valueError
  else if ∃ x y, tol < |(g x y).im| then .error .other
  else .ok (Matrix.of fun x y => (g x y).re)

/-- `k2bvk_2d` with `make_real=True` (foldscf.py:302-315), as used by `get_ovlp`, `get_hcore` and `get_veff` (foldscf.py:107-126). -/
noncomputable def k2bvkReal (p : Matrix κ ρ ℂ) (tol : ℝ) (ak : κ → Matrix ι ι ℂ) : Except PyErr (Matrix (ρ × ι) (ρ × ι) ℝ) :=
  makeReal tol (k2bvk p ak)

/-- `bvk2k_2d` (foldscf.py:318-324): `einsum("kR,RiSj,kS->kij", phase.conj(), ag, phase)`. -/
noncomputable def bvk2k (p : Matrix κ ρ ℂ) (ag : Matrix (ρ × ι) (ρ × ι) ℂ) : κ → Matrix ι ι ℂ :=
  fun k => Matrix.of fun i j => ∑ R, ∑ S, star (p k R) * ag (R, i) (S, j) * p k S

/-! ### Orbitals -/

/-- Folded orbital coefficients (foldscf.py:163-167): `outer(kphase[k], ck)`, stacked over k-points. -/
def foldCoeff {m : κ → Nat} (p : Matrix κ ρ ℂ) (c : (k : κ) → Matrix ι (Fin (m k)) ℂ) : Matrix (ρ × ι) ((k : κ) × Fin (m k)) ℂ :=
  Matrix.of fun x i => p i.1 x.1 * c i.1 x.2 i.2

/-- Eigenvalues and eigenvectors as returned by `scipy.linalg.eigh`. -/
structure GenEig (α : Type) [Fintype α] where
  val : Fin (Fintype.card α) → ℝ
  vec : Matrix α (Fin (Fintype.card α)) ℝ

open Classical in
/-- The columns with imaginary part (foldscf.py:214). -/
noncomputable def complexCols {α : Type} [Fintype α] {m : Nat} (tol : ℝ) (c : Matrix α (Fin m) ℂ) : List (Fin m) :=
  (List.finRange m).filter fun i => decide (tol < Real.sqrt (∑ x, (c x i).im ^ 2))

/-- The Fock matrix in the space of the complex orbitals (foldscf.py:218-220). -/
noncomputable def complexFock {α : Type} [Fintype α] {m : Nat} (s : Matrix α α ℝ) (e : Fin m → ℝ) (c : Matrix α (Fin m) ℂ)
    (im : List (Fin m)) (shift : ℝ) : Matrix α α ℂ :=
  Matrix.of fun x y => (im.map fun i =>
    (∑ z, (s x z : ℂ) * c z i) * ((e i + shift : ℝ) : ℂ) * star (∑ z, (s y z : ℂ) * c z i)).sum

open Classical in
/-- `make_mo_coeff_real` (foldscf.py:206-238): the orbitals with imaginary part are replaced by the eigenvectors of the real part of their
Fock matrix, shifted such that their eigenvalues are at least one. Energies are returned unchanged. -/
noncomputable def makeMoReal {α : Type} [Fintype α] {m : Nat} (eigh : Matrix α α ℝ → Matrix α α ℝ → GenEig α) (tol : ℝ)
    (s : Matrix α α ℝ) (e : Fin m → ℝ) (c : Matrix α (Fin m) ℂ) : Except PyErr (Matrix α (Fin m) ℝ) :=
  let im := complexCols tol c
  match (im.map e).min? with
  | none => .ok (Matrix.of fun x i => (c x i).re)
  | some emin =>
    let f := complexFock s e c im (1 - emin)
    let g := eigh (Matrix.of fun x y => (f x y).re) s
    let mask := (List.finRange (Fintype.card α)).filter fun j => decide (1 / 2 < g.val j)
    if mask.length ≠ im.length then .error .assertionError
    else .ok (Matrix.of fun x i => (mask[im.idxOf i]?).elim (c x i).re fun j => g.vec x j)

open Classical in
/-- `fold_mos` (foldscf.py:156-191): `reorder` is what `argsort` returns for the energies of all k-points. OrthonormalityError if the
orbitals are not orthonormal. -/
noncomputable def foldMos {m : κ → Nat} {nmo : Nat} [DecidableEq ρ] [DecidableEq ι]
    (eigh : Matrix (ρ × ι) (ρ × ι) ℝ → Matrix (ρ × ι) (ρ × ι) ℝ → GenEig (ρ × ι))
    (tol : ℝ) (p : Matrix κ ρ ℂ) (s : Matrix (ρ × ι) (ρ × ι) ℝ) (e : (k : κ) → Fin (m k) → ℝ) (occ : (k : κ) → Fin (m k) → ℝ)
    (c : (k : κ) → Matrix ι (Fin (m k)) ℂ) (reorder : Fin nmo → (k : κ) × Fin (m k)) :
    Except PyErr ((Fin nmo → ℝ) × Matrix (ρ × ι) (Fin nmo) ℝ × (Fin nmo → ℝ)) :=
  (makeMoReal eigh tol s (fun i => e (reorder i).1 (reorder i).2) ((foldCoeff p c).submatrix id reorder)).bind fun d =>
    if ∃ i j, (1 / 10 ^ 4 : ℝ) < |(d.transpose * s * d - 1 : Matrix (Fin nmo) (Fin nmo) ℝ) i j| then .error .other
    else .ok (fun i => e (reorder i).1 (reorder i).2, d, fun i => occ (reorder i).1 (reorder i).2)

/-! ### The total energy -/

/-- Energy of a folded mean-field: `e_tot` reads and writes the energy per cell of the k-point mean-field (foldscf.py:87-93). -/
structure Energy where
  ncells : Nat
  perCell : ℝ

/-- Getter (foldscf.py:88-89). -/
noncomputable def Energy.get (s : Energy) : ℝ := s.ncells * s.perCell

/-- Setter (foldscf.py:91-93). -/
noncomputable def Energy.set (s : Energy) (v : ℝ) : Energy := { s with perCell := v / s.ncells }

end Vayesta.Fold
