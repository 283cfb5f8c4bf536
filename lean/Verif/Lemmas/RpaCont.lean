import Verif.Lemmas.Rpa
import Mathlib.Analysis.SpecialFunctions.ContinuousFunctionalCalculus.Rpow.Isometric
import Mathlib.Topology.Instances.Matrix

/-! Continuity of zeroth moments. -/

namespace Vayesta.Lemmas.Rpa
open Matrix
variable {p n : Type} [Fintype p] [DecidableEq p] [Fintype n] [DecidableEq n]

open scoped MatrixOrder Matrix.Norms.L2Operator in
theorem psd_sqrt_continuous {X : Type} [TopologicalSpace X] {s : Set X} {A : X → Matrix p p ℝ} (hA : ContinuousOn A s) (h : ∀ x ∈ s, (A x).PosSemidef) :
    ContinuousOn (fun x => CFC.sqrt (A x)) s :=
  CFC.continuousOn_sqrt.comp hA fun x hx => (h x hx).nonneg

theorem inv_continuous {X : Type} [TopologicalSpace X] {s : Set X} {A : X → Matrix p p ℝ} (hA : ContinuousOn A s) (h : ∀ x ∈ s, (A x).det ≠ 0) :
    ContinuousOn (fun x => (A x)⁻¹) s := by
  have : (fun x => (A x)⁻¹) = fun x => (A x).det⁻¹ • (A x).adjugate := by
    funext x; rw [Matrix.inv_def, Ring.inverse_eq_inv']
  rw [this]
  refine ContinuousOn.smul (ContinuousOn.inv₀ ?_ h) ?_
  · rw [continuousOn_iff_continuous_domRestrict] at hA ⊢; exact hA.matrix_det
  · rw [continuousOn_iff_continuous_domRestrict] at hA ⊢; exact hA.matrix_adjugate

open scoped MatrixOrder in
theorem mom_continuous {s : Set ℝ} {P Q : ℝ → Matrix p p ℝ} (hP : ContinuousOn P s) (hQ : ContinuousOn Q s) {T S : ℝ → Matrix p n ℝ} {w : ℝ → n → ℝ}
    (h : ∀ x ∈ s, Sol (P x) (Q x) (T x) (S x) (w x)) : ContinuousOn (fun x => mom (T x) (w x) 0) s := by
  have hR : ContinuousOn (fun x => CFC.sqrt (Q x)) s := psd_sqrt_continuous hQ fun x hx => (h x hx).Q_posDef.posSemidef
  have hRR : ∀ x ∈ s, CFC.sqrt (Q x) * CFC.sqrt (Q x) = Q x := fun x hx => CFC.sqrt_mul_sqrt_self _ (h x hx).Q_posDef.posSemidef.nonneg
  have hRp : ∀ x, (CFC.sqrt (Q x)).PosSemidef := fun x => (CFC.sqrt_nonneg (Q x)).posSemidef
  have hRT : ∀ x, (CFC.sqrt (Q x))ᵀ = CFC.sqrt (Q x) := fun x => by
    have := (hRp x).1.eq; rwa [conjTranspose_eq_transpose_of_trivial] at this
  have hd : ∀ x ∈ s, (CFC.sqrt (Q x)).det ≠ 0 := by
    intro x hx h0
    have h1 := congrArg det (hRR x hx)
    rw [det_mul, h0, mul_zero] at h1
    exact (h x hx).Q_posDef.det_pos.ne h1
  have hN : ∀ x ∈ s, (CFC.sqrt (Q x) * P x * CFC.sqrt (Q x)).PosSemidef := by
    intro x hx
    have := (h x hx).P_posDef.posSemidef.conjTranspose_mul_mul_same (CFC.sqrt (Q x))
    rwa [conjTranspose_eq_transpose_of_trivial, hRT] at this
  have hNc : ContinuousOn (fun x => CFC.sqrt (CFC.sqrt (Q x) * P x * CFC.sqrt (Q x))) s := psd_sqrt_continuous ((hR.mul hP).mul hR) hN
  have hi := inv_continuous hR hd
  refine ((hi.mul hNc).mul hi).congr fun x hx => ?_
  set R := CFC.sqrt (Q x) with hRdef
  set H := mom (T x) (w x) 0 with hH
  have hu : IsUnit R.det := isUnit_iff_ne_zero.2 (hd x hx)
  have e : CFC.sqrt (R * P x * R) = R * H * R := by
    refine CFC.sqrt_unique ?_ ?_
    · calc R * H * R * (R * H * R) = R * (H * (R * R) * H) * R := by simp only [Matrix.mul_assoc]
        _ = R * P x * R := by rw [hRR x hx, (h x hx).riccati]
    · have := (h x hx).posDef.posSemidef.conjTranspose_mul_mul_same R
      rw [conjTranspose_eq_transpose_of_trivial, hRT] at this
      exact this.nonneg
  show H = R⁻¹ * CFC.sqrt (R * P x * R) * R⁻¹
  rw [e]
  calc H = (R⁻¹ * R) * H * (R * R⁻¹) := by rw [nonsing_inv_mul R hu, mul_nonsing_inv R hu, Matrix.one_mul, Matrix.mul_one]
    _ = R⁻¹ * (R * H * R) * R⁻¹ := by simp only [Matrix.mul_assoc]

end Vayesta.Lemmas.Rpa
