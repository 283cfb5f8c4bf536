import Verif.Props.Screening
import Verif.Props.RpaEnergy
import Mathlib.LinearAlgebra.Matrix.Kronecker

/-! C79: correction of energies by the random-phase approximation of the system. -/

namespace Vayesta.Props
set_option linter.unusedSectionVars false
open Rpa Lowdin Matrix Lemmas Lemmas.Rpa Screening
open scoped Kronecker

variable {o v c d p q n f f' aux auxn : Type} [Fintype o] [Fintype v] [DecidableEq o] [DecidableEq v] [Fintype c] [Fintype d] [DecidableEq c] [DecidableEq d]
  [Fintype p] [DecidableEq p] [Fintype q] [DecidableEq q] [Fintype n] [DecidableEq n] [Fintype f] [Fintype f'] [Fintype aux] [Fintype auxn]

/-! ## Specification -/

/-- Orbitals of a cluster `ro`, `rv`, which span all occupied and virtual orbitals. -/
structure AllOrbitals (ro : Matrix o c ℝ) (rv : Matrix v d ℝ) : Prop where
  occNormal : roᵀ * ro = 1
  occAll : ro * roᵀ = 1
  virNormal : rvᵀ * rv = 1
  virAll : rv * rvᵀ = 1

/-- Direct RPA of a restricted system: `A` and `B` for excitations of both spins. -/
def restrictedA (eps : o × v → ℝ) (g : Matrix (o × v) (o × v) ℝ) : Matrix (o × v ⊕ o × v) (o × v ⊕ o × v) ℝ := diagonal (Rpa.concat eps eps) + fromBlocks g g g g

/-- See `restrictedA`. -/
def restrictedB (g : Matrix (o × v) (o × v) ℝ) : Matrix (o × v ⊕ o × v) (o × v ⊕ o × v) ℝ := fromBlocks g g g g

/-! ## Projections -/

/-- The projector in the space of excitations. -/
private def onOcc (d : Type) [DecidableEq d] (po : Matrix c c ℝ) : Matrix (c × d) (c × d) ℝ := poᵀ ⊗ₖ (1 : Matrix d d ℝ)

private theorem projOcc_eq (po : Matrix c c ℝ) (m : Matrix (c × d) (c × d) ℝ) : projOcc po m = onOcc d po * m := by
  ext x y
  rw [Matrix.mul_apply, Fintype.sum_prod_type]
  show ∑ i, po i x.1 * m (i, x.2) y = _
  refine Finset.sum_congr rfl fun i _ => ?_
  rw [Finset.sum_eq_single x.2]
  · unfold onOcc
    rw [kroneckerMap_apply, transpose_apply, Matrix.one_apply_eq, mul_one]
  · intro j _ hj
    unfold onOcc
    rw [kroneckerMap_apply, Matrix.one_apply_ne (Ne.symm hj), mul_zero, zero_mul]
  · intro h; exact absurd (Finset.mem_univ _) h

private theorem spat_eq (ro : Matrix o c ℝ) (rv : Matrix v d ℝ) : targetRotSpat ro rv = roᵀ ⊗ₖ rvᵀ := rfl

private theorem spat_transpose (ro : Matrix o c ℝ) (rv : Matrix v d ℝ) : (targetRotSpat ro rv)ᵀ = ro ⊗ₖ rv := rfl

private theorem spat_all {ro : Matrix o c ℝ} {rv : Matrix v d ℝ} (h : AllOrbitals ro rv) : (targetRotSpat ro rv)ᵀ * targetRotSpat ro rv = 1 := by
  rw [spat_transpose, spat_eq, ← mul_kronecker_mul, h.occAll, h.virAll, one_kronecker_one]

private theorem onOcc_rotated {ro : Matrix o c ℝ} {rv : Matrix v d ℝ} (h : rvᵀ * rv = 1) (po : Matrix o o ℝ) :
    onOcc d (roᵀ * po * ro) = targetRotSpat ro rv * onOcc v po * (targetRotSpat ro rv)ᵀ := by
  unfold onOcc
  rw [spat_transpose, spat_eq, ← mul_kronecker_mul, ← mul_kronecker_mul, Matrix.mul_one, h]
  simp only [transpose_mul, transpose_transpose, Matrix.mul_assoc]

private theorem onOcc_sum {ι : Type} [Fintype ι] (po : ι → Matrix o o ℝ) : ∑ x, onOcc v (po x) = onOcc v (∑ x, po x) := by
  ext i j
  rw [Matrix.sum_apply]
  unfold onOcc
  simp only [kroneckerMap_apply, transpose_apply, Matrix.sum_apply, Finset.sum_mul]

private theorem onOcc_one : onOcc v (1 : Matrix o o ℝ) = 1 := by
  unfold onOcc; rw [transpose_one, one_kronecker_one]

/-- The local energy as traces in the space of both spins. -/
private noncomputable def traceEnergy (P eta apb a : Matrix p p ℝ) : ℝ := 1 / 2 * (P * eta * apb).trace - 1 / 2 * (P * a).trace

private theorem trace_blocks (x y z w : Matrix p p ℝ) : (fromBlocks x y z w).trace = x.trace + w.trace := by
  rw [trace, Fintype.sum_sum_type]; rfl

/-- The full energy, with `A - B` blocked by spin. -/
private theorem calc_energy (po : Matrix c c ℝ) (g da db : Matrix (c × d) (c × d) ℝ) (m0 : Matrix (c × d ⊕ c × d) (c × d ⊕ c × d) ℝ) (hm : m0ᵀ = m0) :
    calcLocErpa po g m0 (fromBlocks da 0 0 db) false
      = .ok (traceEnergy (fromBlocks (onOcc d po) 0 0 (onOcc d po)) m0 (fromBlocks da 0 0 db + (2 : ℝ) • fromBlocks g g g g) (fromBlocks da 0 0 db + fromBlocks g g g g)) := by
  have hba : m0.toBlocks₂₁ = m0.toBlocks₁₂ᵀ := by
    conv_lhs => rw [← hm]
    rfl
  have hz : ∀ x y, |(fromBlocks da (0 : Matrix (c × d) (c × d) ℝ) (0 : Matrix (c × d) (c × d) ℝ) db).toBlocks₁₂ x y| < (1 : ℝ) / 10 ^ 10 := by
    intro x y; rw [toBlocks_fromBlocks₁₂, Matrix.zero_apply, abs_zero]; norm_num
  unfold calcLocErpa
  dsimp only
  rw [if_neg Bool.false_ne_true, if_pos hz, toBlocks_fromBlocks₁₁, toBlocks_fromBlocks₂₂]
  congr 1
  unfold traceEnergy
  have e1 : fromBlocks (onOcc d po) 0 0 (onOcc d po) * m0 * (fromBlocks da 0 0 db + (2 : ℝ) • fromBlocks g g g g)
      = fromBlocks (onOcc d po * m0.toBlocks₁₁ * (da + (2 : ℝ) • g) + onOcc d po * m0.toBlocks₁₂ * ((2 : ℝ) • g))
        (onOcc d po * m0.toBlocks₁₁ * ((2 : ℝ) • g) + onOcc d po * m0.toBlocks₁₂ * (db + (2 : ℝ) • g))
        (onOcc d po * m0.toBlocks₂₁ * (da + (2 : ℝ) • g) + onOcc d po * m0.toBlocks₂₂ * ((2 : ℝ) • g))
        (onOcc d po * m0.toBlocks₂₁ * ((2 : ℝ) • g) + onOcc d po * m0.toBlocks₂₂ * (db + (2 : ℝ) • g)) := by
    conv_lhs => rw [← fromBlocks_toBlocks m0]
    rw [fromBlocks_smul, fromBlocks_add, fromBlocks_multiply, fromBlocks_multiply]
    simp only [Matrix.zero_mul, add_zero, zero_add]
  rw [e1, trace_blocks, fromBlocks_add, fromBlocks_multiply, trace_blocks, hba]
  simp only [projOcc_eq, Matrix.mul_add, Matrix.add_mul, Matrix.mul_smul, trace_add, trace_smul, smul_eq_mul, Matrix.zero_mul, add_zero, zero_add]
  ring

/-- The cumulant energy. -/
private theorem calc_cumulant (po : Matrix c c ℝ) (g : Matrix (c × d) (c × d) ℝ) (m0 amb : Matrix (c × d ⊕ c × d) (c × d ⊕ c × d) ℝ) (hm : m0ᵀ = m0) :
    calcLocErpa po g m0 amb true = .ok (traceEnergy (fromBlocks (onOcc d po) 0 0 (onOcc d po)) m0 (fromBlocks g g g g) (fromBlocks g g g g)) := by
  have hba : m0.toBlocks₂₁ = m0.toBlocks₁₂ᵀ := by
    conv_lhs => rw [← hm]
    rfl
  unfold calcLocErpa
  simp only [if_true]
  congr 1
  unfold traceEnergy
  have e1 : fromBlocks (onOcc d po) 0 0 (onOcc d po) * m0 * fromBlocks g g g g
      = fromBlocks (onOcc d po * m0.toBlocks₁₁ * g + onOcc d po * m0.toBlocks₁₂ * g) (onOcc d po * m0.toBlocks₁₁ * g + onOcc d po * m0.toBlocks₁₂ * g)
        (onOcc d po * m0.toBlocks₂₁ * g + onOcc d po * m0.toBlocks₂₂ * g) (onOcc d po * m0.toBlocks₂₁ * g + onOcc d po * m0.toBlocks₂₂ * g) := by
    conv_lhs => rw [← fromBlocks_toBlocks m0]
    rw [fromBlocks_multiply, fromBlocks_multiply]
    simp only [Matrix.zero_mul, add_zero, zero_add]
  rw [e1, trace_blocks, fromBlocks_multiply, trace_blocks, hba]
  simp only [projOcc_eq, Matrix.mul_add, Matrix.add_mul, Matrix.mul_sub, Matrix.sub_mul, Matrix.mul_smul, Matrix.smul_mul, Matrix.mul_one, trace_add, trace_sub, trace_smul, smul_eq_mul,
    Matrix.zero_mul, add_zero, zero_add]
  ring

private theorem trace_rotated {C : Matrix q p ℝ} (hC : Cᵀ * C = 1) (P eta x y : Matrix p p ℝ) :
    traceEnergy (C * P * Cᵀ) (C * eta * Cᵀ) (C * x * Cᵀ) (C * y * Cᵀ) = traceEnergy P eta x y := by
  unfold traceEnergy
  have e1 : C * P * Cᵀ * (C * eta * Cᵀ) * (C * x * Cᵀ) = C * (P * eta * x) * Cᵀ := by
    calc _ = C * (P * (Cᵀ * C) * eta * (Cᵀ * C) * x) * Cᵀ := by simp only [Matrix.mul_assoc]
      _ = _ := by rw [hC, Matrix.mul_one, Matrix.mul_one]
  have e2 : C * P * Cᵀ * (C * y * Cᵀ) = C * (P * y) * Cᵀ := by
    calc _ = C * (P * (Cᵀ * C) * y) * Cᵀ := by simp only [Matrix.mul_assoc]
      _ = _ := by rw [hC, Matrix.mul_one]
  have e3 : ∀ z : Matrix p p ℝ, (C * z * Cᵀ).trace = z.trace := by
    intro z; rw [trace_mul_comm, ← Matrix.mul_assoc, hC, Matrix.one_mul]
  rw [e1, e2, e3, e3]

private theorem targetRot_self (ro : Matrix o c ℝ) (rv : Matrix v d ℝ) (x y z w : Matrix (o × v) (o × v) ℝ) :
    targetRot ro rv ro rv * fromBlocks x y z w * (targetRot ro rv ro rv)ᵀ
      = fromBlocks (targetRotSpat ro rv * x * (targetRotSpat ro rv)ᵀ) (targetRotSpat ro rv * y * (targetRotSpat ro rv)ᵀ)
        (targetRotSpat ro rv * z * (targetRotSpat ro rv)ᵀ) (targetRotSpat ro rv * w * (targetRotSpat ro rv)ᵀ) := by
  unfold targetRot
  rw [fromBlocks_transpose, fromBlocks_multiply, fromBlocks_multiply]
  simp only [transpose_zero, Matrix.mul_zero, Matrix.zero_mul, add_zero, zero_add]

private theorem amb_eq (rot : Matrix q p ℝ) (eps : p → ℝ) : localAmB rot eps = rot * diagonal eps * rotᵀ := by
  ext x y
  rw [Matrix.mul_apply]
  simp only [mul_diagonal, transpose_apply]
  show ∑ k, rot x k * rot y k * eps k = _
  exact Finset.sum_congr rfl fun k _ => by ring

private theorem moment_symm (rot : Matrix q p ℝ) {eta : Matrix p p ℝ} (h : etaᵀ = eta) : (localMomentRPA rot eta)ᵀ = localMomentRPA rot eta := by
  unfold localMomentRPA
  simp only [transpose_mul, transpose_transpose, h, Matrix.mul_assoc]

/-- The local energy of a cluster with all orbitals, in the basis of the system. -/
private theorem local_full {ro : Matrix o c ℝ} {rv : Matrix v d ℝ} (h : AllOrbitals ro rv) (fr : Matrix f o ℝ) (eps : o × v → ℝ) (g : Matrix (o × v) (o × v) ℝ)
    {eta : Matrix (o × v ⊕ o × v) (o × v ⊕ o × v) ℝ} (he : etaᵀ = eta) (cumulant : Bool) :
    calcLocErpa ((fr * ro)ᵀ * (fr * ro)) (targetRotSpat ro rv * g * (targetRotSpat ro rv)ᵀ) (localMomentRPA (targetRot ro rv ro rv) eta)
        (localAmB (targetRot ro rv ro rv) (Rpa.concat eps eps)) cumulant
      = .ok (traceEnergy (fromBlocks (onOcc v (frᵀ * fr)) 0 0 (onOcc v (frᵀ * fr))) eta
        (if cumulant then fromBlocks g g g g else diagonal (Rpa.concat eps eps) + (2 : ℝ) • fromBlocks g g g g)
        (if cumulant then fromBlocks g g g g else diagonal (Rpa.concat eps eps) + fromBlocks g g g g)) := by
  have hC : (targetRot ro rv ro rv)ᵀ * targetRot ro rv ro rv = 1 := by
    unfold targetRot
    rw [fromBlocks_transpose, fromBlocks_multiply]
    simp only [transpose_zero, Matrix.mul_zero, Matrix.zero_mul, add_zero, zero_add]
    rw [spat_all h, fromBlocks_one]
  have hP : fromBlocks (onOcc d ((fr * ro)ᵀ * (fr * ro))) 0 0 (onOcc d ((fr * ro)ᵀ * (fr * ro)))
      = targetRot ro rv ro rv * fromBlocks (onOcc v (frᵀ * fr)) 0 0 (onOcc v (frᵀ * fr)) * (targetRot ro rv ro rv)ᵀ := by
    rw [targetRot_self, Matrix.mul_zero, Matrix.zero_mul, ← onOcc_rotated h.virNormal, transpose_mul]
    simp only [Matrix.mul_assoc]
  have hg : fromBlocks (targetRotSpat ro rv * g * (targetRotSpat ro rv)ᵀ) (targetRotSpat ro rv * g * (targetRotSpat ro rv)ᵀ) (targetRotSpat ro rv * g * (targetRotSpat ro rv)ᵀ)
      (targetRotSpat ro rv * g * (targetRotSpat ro rv)ᵀ) = targetRot ro rv ro rv * fromBlocks g g g g * (targetRot ro rv ro rv)ᵀ := (targetRot_self ro rv g g g g).symm
  have hd : localAmB (targetRot ro rv ro rv) (Rpa.concat eps eps) = fromBlocks (targetRotSpat ro rv * diagonal eps * (targetRotSpat ro rv)ᵀ) 0 0
      (targetRotSpat ro rv * diagonal eps * (targetRotSpat ro rv)ᵀ) := by
    rw [amb_eq]
    unfold Rpa.concat
    rw [← fromBlocks_diagonal, targetRot_self, Matrix.mul_zero, Matrix.zero_mul]
  have hm := moment_symm (targetRot ro rv ro rv) he
  cases cumulant
  · rw [hd, calc_energy _ _ _ _ _ hm, ← hd, amb_eq, hg, hP]
    simp only [Bool.false_eq_true, if_false]
    congr 1
    rw [← trace_rotated hC]
    unfold localMomentRPA
    simp only [Matrix.mul_add, Matrix.add_mul, Matrix.mul_smul, Matrix.smul_mul]
  · rw [calc_cumulant _ _ _ _ hm, hg, hP]
    simp only [if_true]
    congr 1
    rw [← trace_rotated hC]
    rfl

/-! ## Theorems -/

private theorem trace_total {ι : Type} [Fintype ι] {F : ι → Type} [∀ x, Fintype (F x)] (fr : ∀ x, Matrix (F x) o ℝ) (hf : ∑ x, (fr x)ᵀ * fr x = 1)
    (eta x y : Matrix (o × v ⊕ o × v) (o × v ⊕ o × v) ℝ) :
    ∑ k, traceEnergy (fromBlocks (onOcc v ((fr k)ᵀ * fr k)) 0 0 (onOcc v ((fr k)ᵀ * fr k))) eta x y = 1 / 2 * (eta * x).trace - 1 / 2 * y.trace := by
  have hs : ∑ k, fromBlocks (onOcc v ((fr k)ᵀ * fr k)) 0 0 (onOcc v ((fr k)ᵀ * fr k)) = (1 : Matrix (o × v ⊕ o × v) (o × v ⊕ o × v) ℝ) := by
    have h1 : ∑ k, onOcc v ((fr k)ᵀ * fr k) = 1 := by rw [onOcc_sum, hf, onOcc_one]
    rw [← fromBlocks_one, ← h1]
    ext (i | i) (j | j)
    · rw [Matrix.sum_apply]
      show ∑ k, onOcc v ((fr k)ᵀ * fr k) i j = (∑ k, onOcc v ((fr k)ᵀ * fr k)) i j
      rw [Matrix.sum_apply]
    · rw [Matrix.sum_apply]
      show ∑ _ : ι, (0 : ℝ) = 0
      exact Finset.sum_const_zero
    · rw [Matrix.sum_apply]
      show ∑ _ : ι, (0 : ℝ) = 0
      exact Finset.sum_const_zero
    · rw [Matrix.sum_apply]
      show ∑ k, onOcc v ((fr k)ᵀ * fr k) i j = (∑ k, onOcc v ((fr k)ᵀ * fr k)) i j
      rw [Matrix.sum_apply]
  unfold traceEnergy
  rw [Finset.sum_sub_distrib, ← Finset.mul_sum, ← Finset.mul_sum, ← trace_sum, ← trace_sum]
  simp only [← Matrix.sum_mul]
  rw [hs, Matrix.one_mul, Matrix.one_mul]

/-- **C79**: for fragments which together contain all occupied orbitals, and clusters with all orbitals of the system, the local energies add up to the
RPA correlation energy of the system. -/
theorem rpa_local_energies {ι : Type} [Fintype ι] {F C D : ι → Type} [∀ x, Fintype (F x)] [∀ x, Fintype (C x)] [∀ x, Fintype (D x)] [∀ x, DecidableEq (C x)] [∀ x, DecidableEq (D x)]
    (fr : ∀ x, Matrix (F x) o ℝ) (hf : ∑ x, (fr x)ᵀ * fr x = 1) (ro : ∀ x, Matrix o (C x) ℝ) (rv : ∀ x, Matrix v (D x) ℝ) (hr : ∀ x, AllOrbitals (ro x) (rv x))
    (eps : o × v → ℝ) (g : Matrix (o × v) (o × v) ℝ) (X Y : Matrix (o × v ⊕ o × v) n ℝ) (w : n → ℝ) (h : SolvesRpa (restrictedA eps g) (restrictedB g) X Y w) :
    ∃ e : ι → ℝ, (∀ x, calcLocErpa ((fr x * ro x)ᵀ * (fr x * ro x)) (targetRotSpat (ro x) (rv x) * g * (targetRotSpat (ro x) (rv x))ᵀ)
        (localMomentRPA (targetRot (ro x) (rv x) (ro x) (rv x)) (responseMoment X Y w 0)) (localAmB (targetRot (ro x) (rv x) (ro x) (rv x)) (Rpa.concat eps eps)) false = .ok (e x))
      ∧ ∑ x, e x = plasmonFormula (restrictedA eps g) w ∧ ∑ x, e x = deexcitationEnergy Y w := by
  have hs := h.sol
  have hm : responseMoment X Y w 0 = mom (X + Y) w 0 := rfl
  have hsym : (responseMoment X Y w 0)ᵀ = responseMoment X Y w 0 := mom_symm _ _ _
  refine ⟨_, fun x => local_full (hr x) (fr x) eps g hsym false, ?_⟩
  rw [← h.plasmon, and_self, trace_total fr hf]
  simp only [Bool.false_eq_true, if_false]
  have e1 : diagonal (Rpa.concat eps eps) + (2 : ℝ) • fromBlocks g g g g = restrictedA eps g + restrictedB g := by unfold restrictedA restrictedB; module
  rw [e1, hm, trace_mul_comm, hs.sum_eq_Q]
  unfold plasmonFormula
  show _ - 1 / 2 * (restrictedA eps g).trace = _
  ring

/-- The same for energies of the cumulant, and the one of the system. -/
theorem rpa_local_cumulants {ι : Type} [Fintype ι] {F C D : ι → Type} [∀ x, Fintype (F x)] [∀ x, Fintype (C x)] [∀ x, Fintype (D x)] [∀ x, DecidableEq (C x)] [∀ x, DecidableEq (D x)]
    (fr : ∀ x, Matrix (F x) o ℝ) (hf : ∑ x, (fr x)ᵀ * fr x = 1) (ro : ∀ x, Matrix o (C x) ℝ) (rv : ∀ x, Matrix v (D x) ℝ) (hr : ∀ x, AllOrbitals (ro x) (rv x))
    (eps : o × v → ℝ) (lp : Matrix aux (o × v) ℝ) (ln : Matrix auxn (o × v) ℝ) (eta : Matrix (o × v ⊕ o × v) (o × v ⊕ o × v) ℝ) (he : etaᵀ = eta) :
    ∃ e : ι → ℝ, (∀ x, calcLocErpa ((fr x * ro x)ᵀ * (fr x * ro x)) (targetRotSpat (ro x) (rv x) * (lpᵀ * lp - lnᵀ * ln) * (targetRotSpat (ro x) (rv x))ᵀ)
        (localMomentRPA (targetRot (ro x) (rv x) (ro x) (rv x)) eta) (localAmB (targetRot (ro x) (rv x) (ro x) (rv x)) (Rpa.concat eps eps)) true = .ok (e x))
      ∧ ∑ x, e x = 1 / 2 * ((eta - 1) * restrictedB (lpᵀ * lp - lnᵀ * ln)).trace
      ∧ ∀ ncells, eRpaCumulant lp ln (fun l => l * eta) ncells = (∑ x, e x) / ncells := by
  set g := lpᵀ * lp - lnᵀ * ln with hg
  refine ⟨_, fun x => local_full (hr x) (fr x) eps g he true, ?_, ?_⟩
  · rw [trace_total fr hf]
    simp only [if_true]
    rw [Matrix.sub_mul, Matrix.one_mul, trace_sub]
    unfold restrictedB
    ring
  · intro ncells
    rw [trace_total fr hf]
    simp only [if_true]
    unfold eRpaCumulant
    dsimp only
    set l : Matrix (aux ⊕ auxn) (o × v ⊕ o × v) ℝ := fromBlocks lp lp ln ln with hl
    set l2 : Matrix (aux ⊕ auxn) (o × v ⊕ o × v) ℝ := fromBlocks lp lp (-ln) (-ln) with hl2
    have e1 : ∑ x, ∑ y, (l * eta - l) x y * l2 x y = ((l * eta - l) * l2ᵀ).trace := by
      rw [trace]
      refine Finset.sum_congr rfl fun x _ => ?_
      rw [Matrix.diag_apply, Matrix.mul_apply]
      rfl
    have e2 : l2ᵀ * l = fromBlocks g g g g := by
      rw [hl, hl2, fromBlocks_transpose, fromBlocks_multiply, transpose_neg, Matrix.neg_mul, ← sub_eq_add_neg]
    have e3 : ((l * eta - l) * l2ᵀ).trace = (eta * fromBlocks g g g g).trace - (fromBlocks g g g g).trace := by
      rw [Matrix.sub_mul, trace_sub, trace_mul_comm l, e2, trace_mul_comm (l * eta), ← Matrix.mul_assoc, e2, trace_mul_comm]
    rw [e1, e3]
    ring

/-- A symmetry of the system, which rotates occupied and virtual orbitals, and maps one fragment to another. -/
structure Symmetry (eps : o × v → ℝ) (g : Matrix (o × v) (o × v) ℝ) (x y : Matrix o o ℝ) (uo : Matrix o o ℝ) (uv : Matrix v v ℝ) : Prop where
  orthogonal : AllOrbitals uo uv
  energies : targetRotSpat uo uv * diagonal eps * (targetRotSpat uo uv)ᵀ = diagonal eps
  interactions : targetRotSpat uo uv * g * (targetRotSpat uo uv)ᵀ = g
  maps : y = uoᵀ * x * uo

private theorem targetRot_all {ro : Matrix o c ℝ} {rv : Matrix v d ℝ} (h : AllOrbitals ro rv) : (targetRot ro rv ro rv)ᵀ * targetRot ro rv ro rv = 1 := by
  unfold targetRot
  rw [fromBlocks_transpose, fromBlocks_multiply]
  simp only [transpose_zero, Matrix.mul_zero, Matrix.zero_mul, add_zero, zero_add]
  rw [spat_all h, fromBlocks_one]

/-- The response of the system is symmetric. -/
private theorem response_invariant {eps : o × v → ℝ} {g : Matrix (o × v) (o × v) ℝ} {x y uo : Matrix o o ℝ} {uv : Matrix v v ℝ} (hs : Symmetry eps g x y uo uv)
    {X Y : Matrix (o × v ⊕ o × v) n ℝ} {w : n → ℝ} (h : SolvesRpa (restrictedA eps g) (restrictedB g) X Y w) :
    targetRot uo uv uo uv * responseMoment X Y w 0 * (targetRot uo uv uo uv)ᵀ = responseMoment X Y w 0
      ∧ targetRot uo uv uo uv * diagonal (Rpa.concat eps eps) * (targetRot uo uv uo uv)ᵀ = diagonal (Rpa.concat eps eps)
      ∧ targetRot uo uv uo uv * fromBlocks g g g g * (targetRot uo uv uo uv)ᵀ = fromBlocks g g g g := by
  have eE : targetRot uo uv uo uv * diagonal (Rpa.concat eps eps) * (targetRot uo uv uo uv)ᵀ = diagonal (Rpa.concat eps eps) := by
    unfold Rpa.concat
    rw [← fromBlocks_diagonal, targetRot_self, hs.energies, Matrix.mul_zero, Matrix.zero_mul]
  have eG : targetRot uo uv uo uv * fromBlocks g g g g * (targetRot uo uv uo uv)ᵀ = fromBlocks g g g g := by rw [targetRot_self, hs.interactions]
  refine ⟨?_, eE, eG⟩
  have hU := targetRot_all hs.orthogonal
  have hU' : targetRot uo uv uo uv * (targetRot uo uv uo uv)ᵀ = 1 := mul_eq_one_comm.mp hU
  set U := targetRot uo uv uo uv with hUdef
  have hsol := h.sol
  have eP : U * (restrictedA eps g - restrictedB g) * Uᵀ = restrictedA eps g - restrictedB g := by
    unfold restrictedA restrictedB
    rw [add_sub_cancel_right, eE]
  have eQ : U * (restrictedA eps g + restrictedB g) * Uᵀ = restrictedA eps g + restrictedB g := by
    unfold restrictedA restrictedB
    simp only [Matrix.mul_add, Matrix.add_mul]
    rw [eE, eG]
  have hsol' : Sol (restrictedA eps g - restrictedB g) (restrictedA eps g + restrictedB g) (U * (X + Y)) (U * (X - Y)) w := by
    refine ⟨hsol.pos, ?_, ?_, ?_, ?_⟩
    · rw [transpose_mul, Matrix.mul_assoc, ← Matrix.mul_assoc Uᵀ, hU, Matrix.one_mul, hsol.bi]
    · rw [transpose_mul, Matrix.mul_assoc, ← Matrix.mul_assoc (X + Y), hsol.comp, Matrix.one_mul, hU']
    · rw [← eP, hsol.P_eq, transpose_mul]; simp only [Matrix.mul_assoc]
    · rw [← eQ, hsol.Q_eq, transpose_mul]; simp only [Matrix.mul_assoc]
  have := hsol'.mom_eq hsol 0
  calc U * responseMoment X Y w 0 * Uᵀ = mom (U * (X + Y)) w 0 := by
        unfold responseMoment mom
        rw [transpose_mul]; simp only [Matrix.mul_assoc]
    _ = _ := this

/-- Sum over all fragments from the parents of symmetry related ones. -/
private theorem sum_parents {ι : Type} [Fintype ι] [DecidableEq ι] (par : ι → ι) (hpar : ∀ x, par (par x) = par x) (e : ι → ℝ) (he : ∀ x, e x = e (par x)) :
    (((Finset.univ.filter fun x => par x = x).toList.map fun x => (e x, ((Finset.univ.filter fun y => par y = x).card : ℝ))).map fun x : ℝ × ℝ => x.1 * x.2).sum = ∑ x, e x := by
  rw [List.map_map, ← Finset.sum_fiberwise_of_maps_to (s := Finset.univ) (t := Finset.univ.filter fun x => par x = x) (g := par) (fun x _ => by simp [hpar]) e, ← Finset.sum_map_toList]
  refine congrArg List.sum (List.map_congr_left fun x _ => ?_)
  show e x * _ = _
  rw [Finset.sum_congr rfl (g := fun _ => e x) (fun y hy => by rw [he y, (Finset.mem_filter.mp hy).2]), Finset.sum_const, nsmul_eq_mul, mul_comm]

/-- **C79**: if clusters have all orbitals, nothing is added to the energy, also if only the parents of symmetry related fragments are calculated. -/
theorem rpa_correction_vanishes {ι : Type} [Fintype ι] [DecidableEq ι] {F C D : ι → Type} [∀ x, Fintype (F x)] [∀ x, Fintype (C x)] [∀ x, Fintype (D x)] [∀ x, DecidableEq (C x)]
    [∀ x, DecidableEq (D x)] (fr : ∀ x, Matrix (F x) o ℝ) (hf : ∑ x, (fr x)ᵀ * fr x = 1) (ro : ∀ x, Matrix o (C x) ℝ) (rv : ∀ x, Matrix v (D x) ℝ)
    (hr : ∀ x, AllOrbitals (ro x) (rv x)) (eps : o × v → ℝ) (lp : Matrix aux (o × v) ℝ) (ln : Matrix auxn (o × v) ℝ) (X Y : Matrix (o × v ⊕ o × v) n ℝ) (w : n → ℝ)
    (h : SolvesRpa (restrictedA eps (lpᵀ * lp - lnᵀ * ln)) (restrictedB (lpᵀ * lp - lnᵀ * ln)) X Y w) (par : ι → ι) (hpar : ∀ x, par (par x) = par x)
    (hsym : ∀ x, ∃ uo uv, Symmetry eps (lpᵀ * lp - lnᵀ * ln) ((fr (par x))ᵀ * fr (par x)) ((fr x)ᵀ * fr x) uo uv) (ncells : ℝ) (cumulant : Bool) :
    ∃ e : ι → ℝ, (∀ x, calcLocErpa ((fr x * ro x)ᵀ * (fr x * ro x)) (targetRotSpat (ro x) (rv x) * (lpᵀ * lp - lnᵀ * ln) * (targetRotSpat (ro x) (rv x))ᵀ)
        (localMomentRPA (targetRot (ro x) (rv x) (ro x) (rv x)) (responseMoment X Y w 0)) (localAmB (targetRot (ro x) (rv x) (ro x) (rv x)) (Rpa.concat eps eps)) cumulant = .ok (e x))
      ∧ eNonlocal true (if cumulant then eRpaCumulant lp ln (fun l => l * responseMoment X Y w 0) ncells else plasmonFormula (restrictedA eps (lpᵀ * lp - lnᵀ * ln)) w / ncells)
        ((Finset.univ.filter fun x => par x = x).toList.map fun x => (e x, ((Finset.univ.filter fun y => par y = x).card : ℝ))) ncells = 0 := by
  have hsy : (responseMoment X Y w 0)ᵀ = responseMoment X Y w 0 := mom_symm _ _ _
  have key : ∀ e : ι → ℝ, (∀ x, calcLocErpa ((fr x * ro x)ᵀ * (fr x * ro x)) (targetRotSpat (ro x) (rv x) * (lpᵀ * lp - lnᵀ * ln) * (targetRotSpat (ro x) (rv x))ᵀ)
        (localMomentRPA (targetRot (ro x) (rv x) (ro x) (rv x)) (responseMoment X Y w 0)) (localAmB (targetRot (ro x) (rv x) (ro x) (rv x)) (Rpa.concat eps eps)) cumulant = .ok (e x))
      → ∀ x, e x = e (par x) := by
    intro e he x
    obtain ⟨uo, uv, hu⟩ := hsym x
    obtain ⟨i1, i2, i3⟩ := response_invariant hu h
    have e1 := Except.ok.inj ((he x).symm.trans (local_full (hr x) (fr x) eps _ hsy cumulant))
    have e2 := Except.ok.inj ((he (par x)).symm.trans (local_full (hr (par x)) (fr (par x)) eps _ hsy cumulant))
    rw [e1, e2]
    refine Eq.trans ?_ (trace_rotated (targetRot_all hu.orthogonal) _ _ _ _)
    have hP : fromBlocks (onOcc v ((fr x)ᵀ * fr x)) 0 0 (onOcc v ((fr x)ᵀ * fr x))
        = targetRot uo uv uo uv * fromBlocks (onOcc v ((fr (par x))ᵀ * fr (par x))) 0 0 (onOcc v ((fr (par x))ᵀ * fr (par x))) * (targetRot uo uv uo uv)ᵀ := by
      rw [targetRot_self, Matrix.mul_zero, Matrix.zero_mul, ← onOcc_rotated hu.orthogonal.virNormal, ← hu.maps]
    rw [hP, i1]
    cases cumulant
    · simp only [Bool.false_eq_true, if_false, Matrix.mul_add, Matrix.add_mul, Matrix.mul_smul, Matrix.smul_mul, i2, i3]
    · simp only [if_true, i3]
  have fin : ∀ e : ι → ℝ, (∀ x, e x = e (par x)) → ∀ eRpa, eRpa = ∑ x, e x →
      eNonlocal true (eRpa / ncells) ((Finset.univ.filter fun x => par x = x).toList.map fun x => (e x, ((Finset.univ.filter fun y => par y = x).card : ℝ))) ncells = 0 := by
    intro e he eRpa h2
    unfold eNonlocal
    rw [if_pos rfl, sum_parents par hpar e he, h2, sub_self]
  cases cumulant
  · obtain ⟨e, h1, h2, -⟩ := rpa_local_energies fr hf ro rv hr eps _ X Y w h
    refine ⟨e, h1, ?_⟩
    simp only [Bool.false_eq_true, if_false]
    exact fin e (key e h1) _ h2.symm
  · obtain ⟨e, h1, -, h2⟩ := rpa_local_cumulants fr hf ro rv hr eps lp ln (responseMoment X Y w 0) hsy
    refine ⟨e, h1, ?_⟩
    simp only [if_true]
    rw [h2]
    exact fin e (key e h1) _ rfl

/-- Not vacuous: two occupied orbitals, each a fragment, exchanged by a symmetry. -/
example : let fr : Fin 2 → Matrix Unit (Fin 2) ℝ := fun x => Matrix.of fun _ i => if i = x then 1 else 0
    let g : Matrix (Fin 2 × Unit) (Fin 2 × Unit) ℝ := (1 : Matrix (Fin 2 × Unit) (Fin 2 × Unit) ℝ)ᵀ * 1 - (0 : Matrix Unit (Fin 2 × Unit) ℝ)ᵀ * (0 : Matrix Unit (Fin 2 × Unit) ℝ)
    (∑ x, (fr x)ᵀ * fr x = 1) ∧ (∀ x : Fin 2, ∃ uo uv, Symmetry (fun _ : Fin 2 × Unit => (1 : ℝ)) g ((fr 0)ᵀ * fr 0) ((fr x)ᵀ * fr x) uo uv)
      ∧ ∃ X Y w, SolvesRpa (n := Fin 2 × Unit ⊕ Fin 2 × Unit) (restrictedA (fun _ : Fin 2 × Unit => (1 : ℝ)) g) (restrictedB g) X Y w := by
  intro fr g
  have hg : g = 1 := by
    show (1 : Matrix (Fin 2 × Unit) (Fin 2 × Unit) ℝ)ᵀ * 1 - (0 : Matrix Unit (Fin 2 × Unit) ℝ)ᵀ * (0 : Matrix Unit (Fin 2 × Unit) ℝ) = 1
    rw [transpose_one, Matrix.mul_one, Matrix.mul_zero, sub_zero]
  refine ⟨?_, fun x => ?_, ?_⟩
  · ext i j
    fin_cases i <;> fin_cases j <;> simp [fr, Matrix.sum_apply, Matrix.mul_apply]
  · have hs : ∀ u : Matrix (Fin 2) (Fin 2) ℝ, uᵀ * u = 1 → u * uᵀ = 1 → (fr x)ᵀ * fr x = uᵀ * ((fr 0)ᵀ * fr 0) * u →
        Symmetry (fun _ : Fin 2 × Unit => (1 : ℝ)) g ((fr 0)ᵀ * fr 0) ((fr x)ᵀ * fr x) u (1 : Matrix Unit Unit ℝ) := by
      intro u h1 h2 h3
      have ho : AllOrbitals u (1 : Matrix Unit Unit ℝ) := ⟨h1, h2, by simp, by simp⟩
      have ht : targetRotSpat u (1 : Matrix Unit Unit ℝ) * (targetRotSpat u (1 : Matrix Unit Unit ℝ))ᵀ = 1 := mul_eq_one_comm.mp (spat_all ho)
      exact ⟨ho, by rw [show (fun _ : Fin 2 × Unit => (1 : ℝ)) = 1 from rfl, Matrix.diagonal_one', Matrix.mul_one, ht], by rw [hg, Matrix.mul_one, ht], h3⟩
    fin_cases x
    · exact ⟨1, 1, hs 1 (by simp) (by simp) (by simp)⟩
    · refine ⟨!![0, 1; 1, 0], 1, hs _ ?_ ?_ ?_⟩
      · ext i j; fin_cases i <;> fin_cases j <;> simp [Matrix.mul_apply, Fin.sum_univ_two]
      · ext i j; fin_cases i <;> fin_cases j <;> simp [Matrix.mul_apply, Fin.sum_univ_two]
      · ext i j; fin_cases i <;> fin_cases j <;> simp [fr, Matrix.mul_apply]
  · have hv : (fromBlocks g g g g).PosSemidef := by
      have e : fromBlocks g g g g = (fromCols (1 : Matrix (Fin 2 × Unit) (Fin 2 × Unit) ℝ) 1)ᴴ * fromCols 1 1 := by
        rw [hg, conjTranspose_eq_transpose_of_trivial, transpose_fromCols, fromRows_mul_fromCols, transpose_one, Matrix.mul_one]
      rw [e]
      exact posSemidef_conjTranspose_mul_self _
    obtain ⟨r, hr⟩ := rpa_succeeds anyEigh anyEigh_diagonalises (Rpa.concat (fun _ : Fin 2 × Unit => (1 : ℝ)) fun _ : Fin 2 × Unit => (1 : ℝ))
      (by rintro (x | x) <;> show (1 : ℝ) / 10 ^ 6 < 1 <;> norm_num) 1 (fromBlocks g g g g) hv 1 zero_le_one
    have hvT : (fromBlocks g g g g)ᵀ = fromBlocks g g g g := by rw [fromBlocks_transpose, hg, transpose_one]
    have := rpa_solution anyEigh anyEigh_diagonalises _ 1 _ hvT 1 r hr
    rw [transpose_one, Matrix.mul_one, Matrix.one_mul, one_smul] at this
    exact ⟨_, _, _, this⟩

/-- Local energies of any cluster do not depend on the choice of its occupied and virtual orbitals. -/
theorem rpa_local_rotation {c' d' : Type} [Fintype c'] [Fintype d'] [DecidableEq c'] [DecidableEq d'] (uo : Matrix c c' ℝ) (uv : Matrix d d' ℝ) (hu : AllOrbitals uo uv)
    (po : Matrix c c ℝ) (g da db : Matrix (c × d) (c × d) ℝ) (m0 : Matrix (c × d ⊕ c × d) (c × d ⊕ c × d) ℝ) (hm : m0ᵀ = m0) (cumulant : Bool) :
    calcLocErpa (uoᵀ * po * uo) (targetRotSpat uo uv * g * (targetRotSpat uo uv)ᵀ) (targetRot uo uv uo uv * m0 * (targetRot uo uv uo uv)ᵀ)
        (targetRot uo uv uo uv * fromBlocks da 0 0 db * (targetRot uo uv uo uv)ᵀ) cumulant
      = calcLocErpa po g m0 (fromBlocks da 0 0 db) cumulant := by
  have hC := targetRot_all hu
  have hm' : (targetRot uo uv uo uv * m0 * (targetRot uo uv uo uv)ᵀ)ᵀ = targetRot uo uv uo uv * m0 * (targetRot uo uv uo uv)ᵀ := moment_symm _ hm
  have hP : fromBlocks (onOcc d' (uoᵀ * po * uo)) 0 0 (onOcc d' (uoᵀ * po * uo)) = targetRot uo uv uo uv * fromBlocks (onOcc d po) 0 0 (onOcc d po) * (targetRot uo uv uo uv)ᵀ := by
    rw [targetRot_self, Matrix.mul_zero, Matrix.zero_mul, ← onOcc_rotated hu.virNormal]
  have hg : fromBlocks (targetRotSpat uo uv * g * (targetRotSpat uo uv)ᵀ) (targetRotSpat uo uv * g * (targetRotSpat uo uv)ᵀ) (targetRotSpat uo uv * g * (targetRotSpat uo uv)ᵀ)
      (targetRotSpat uo uv * g * (targetRotSpat uo uv)ᵀ) = targetRot uo uv uo uv * fromBlocks g g g g * (targetRot uo uv uo uv)ᵀ := (targetRot_self uo uv g g g g).symm
  have hd : targetRot uo uv uo uv * fromBlocks da 0 0 db * (targetRot uo uv uo uv)ᵀ = fromBlocks (targetRotSpat uo uv * da * (targetRotSpat uo uv)ᵀ) 0 0
      (targetRotSpat uo uv * db * (targetRotSpat uo uv)ᵀ) := by rw [targetRot_self, Matrix.mul_zero, Matrix.zero_mul]
  cases cumulant
  · rw [hd, calc_energy _ _ _ _ _ hm', calc_energy _ _ _ _ _ hm, ← hd, hg, hP, ← trace_rotated hC]
    simp only [Matrix.mul_add, Matrix.add_mul, Matrix.mul_smul, Matrix.smul_mul]
  · rw [calc_cumulant _ _ _ _ hm', calc_cumulant _ _ _ _ hm, hg, hP, ← trace_rotated hC]

/-- Coupling of the spins in `A - B` is refused, if it is used. -/
theorem rpa_local_refused (po : Matrix c c ℝ) (g : Matrix (c × d) (c × d) ℝ) (m0 amb : Matrix (c × d ⊕ c × d) (c × d ⊕ c × d) ℝ) (cumulant : Bool) :
    calcLocErpa po g m0 amb cumulant = .error .assertionError ↔ cumulant = false ∧ ∃ x y, 1 / 10 ^ 10 ≤ |amb (.inl x) (.inr y)| := by
  unfold calcLocErpa
  dsimp only
  cases cumulant
  · rw [if_neg Bool.false_ne_true]
    constructor
    · intro h
      split at h
      · cases h
      · rename_i hn
        push Not at hn
        exact ⟨rfl, hn⟩
    · rintro ⟨-, x, y, hxy⟩
      rw [if_neg (fun hh => absurd (hh x y) (not_lt.mpr hxy))]
  · rw [if_pos rfl]
    constructor
    · intro h; cases h
    · rintro ⟨h, -⟩; cases h

/-- When the correction is calculated: never without the option, for unrestricted systems or if a fragment has another screening. -/
theorem rpa_correction_options (unrestricted : Bool) (option : Option String) (nmrpa nfrag : Nat) :
    (checkCorrection unrestricted option nmrpa nfrag = .ok true ↔ unrestricted = false ∧ nfrag ≤ nmrpa ∧ (option = some "erpa" ∨ option = some "cumulant"))
    ∧ (checkCorrection unrestricted option nmrpa nfrag = .ok false ↔ option = none ∨ unrestricted = false ∧ option = some "")
    ∧ (checkCorrection unrestricted option nmrpa nfrag = .error .valueError ↔ unrestricted = false ∧ nfrag ≤ nmrpa ∧ ∃ s, option = some s ∧ s ≠ "" ∧ s ≠ "erpa" ∧ s ≠ "cumulant")
    ∧ (checkCorrection unrestricted option nmrpa nfrag = .error .notImplementedError ↔
      ∃ s, option = some s ∧ (unrestricted = true ∨ s ≠ "" ∧ nmrpa < nfrag)) := by
  cases option with
  | none => simp [checkCorrection]
  | some s =>
    cases unrestricted
    · by_cases h0 : s = ""
      · subst h0
        simp [checkCorrection]
      · by_cases h1 : nmrpa < nfrag
        · simp [checkCorrection, h0, h1]
        · by_cases h2 : s = "erpa"
          · subst h2
            simp [checkCorrection, h1]; omega
          · by_cases h3 : s = "cumulant"
            · subst h3
              simp [checkCorrection, h1]; omega
            · simp [checkCorrection, h0, h1, h2, h3]; omega
    · simp [checkCorrection]

end Vayesta.Props
