import Mathlib.LinearAlgebra.Matrix.NonsingularInverse
import Mathlib.LinearAlgebra.Matrix.Trace
import Mathlib.LinearAlgebra.Matrix.PosDef
import Mathlib.Analysis.Matrix.Order
import Mathlib.Data.Real.Sqrt
import Mathlib.Tactic.Linarith
import Mathlib.Tactic.NoncommRing
import Mathlib.Tactic.LinearCombination

/-! Matrices `A - B = P` and `A + B = Q` brought to the same diagonal form by a biorthogonal pair of matrices: algebra of RPA solutions. -/

namespace Vayesta.Lemmas.Rpa

open Matrix

variable {p n m : Type} [Fintype p] [DecidableEq p] [Fintype n] [DecidableEq n] [Fintype m] [DecidableEq m]

/-- `T` and `S` are biorthogonal and diagonalise `P` and `Q`, with positive entries. -/
structure Sol (P Q : Matrix p p ℝ) (T S : Matrix p n ℝ) (w : n → ℝ) : Prop where
  pos : ∀ k, 0 < w k
  bi : Tᵀ * S = 1
  comp : T * Sᵀ = 1
  P_eq : P = T * diagonal w * Tᵀ
  Q_eq : Q = S * diagonal w * Sᵀ

variable {P Q : Matrix p p ℝ} {T S : Matrix p n ℝ} {w : n → ℝ}

theorem Sol.bi' (h : Sol P Q T S w) : Sᵀ * T = 1 := by
  have := congrArg transpose h.bi
  rwa [transpose_mul, transpose_transpose, transpose_one] at this

theorem Sol.comp' (h : Sol P Q T S w) : S * Tᵀ = 1 := by
  have := congrArg transpose h.comp
  rwa [transpose_mul, transpose_transpose, transpose_one] at this

theorem Sol.QT (h : Sol P Q T S w) : Q * T = S * diagonal w := by
  rw [h.Q_eq, Matrix.mul_assoc, h.bi', Matrix.mul_one]

theorem Sol.PS (h : Sol P Q T S w) : P * S = T * diagonal w := by
  rw [h.P_eq, Matrix.mul_assoc, h.bi, Matrix.mul_one]

/-- From a symmetric root `R` of `P` and eigenvectors of `R * Q * R`. -/
theorem sol_of_root {R Ri c : Matrix p p ℝ} {e : p → ℝ} (hR : Rᵀ = R) (hRR : R * R = P) (hRi : R * Ri = 1) (hc : cᵀ * c = 1)
    (he : R * Q * R * c = c * diagonal e) (hpos : ∀ k, 0 < e k) :
    Sol P Q (R * c * diagonal fun k => (Real.sqrt (Real.sqrt (e k)))⁻¹) (Ri * c * diagonal fun k => Real.sqrt (Real.sqrt (e k)))
      (fun k => Real.sqrt (e k)) := by
  set s : p → ℝ := fun k => Real.sqrt (Real.sqrt (e k)) with hs
  have hw : ∀ k, 0 < Real.sqrt (e k) := fun k => Real.sqrt_pos.2 (hpos k)
  have hsp : ∀ k, 0 < s k := fun k => Real.sqrt_pos.2 (hw k)
  have hss : ∀ k, s k * s k = Real.sqrt (e k) := fun k => Real.mul_self_sqrt (hw k).le
  have hww : ∀ k, Real.sqrt (e k) * Real.sqrt (e k) = e k := fun k => Real.mul_self_sqrt (hpos k).le
  have hRi' : Ri * R = 1 := mul_eq_one_comm.mp hRi
  have hRiT : Riᵀ = Ri := by
    have h1 : Riᵀ * R = 1 := by
      have := congrArg transpose hRi
      rwa [transpose_mul, hR, transpose_one] at this
    calc Riᵀ = Riᵀ * (R * Ri) := by rw [hRi, Matrix.mul_one]
      _ = Ri := by rw [← Matrix.mul_assoc, h1, Matrix.one_mul]
  have hc' : c * cᵀ = 1 := mul_eq_one_comm.mp hc
  have hd1 : (diagonal fun k => (s k)⁻¹) * diagonal s = (1 : Matrix p p ℝ) := by
    rw [diagonal_mul_diagonal, ← diagonal_one]
    congr 1; funext k; exact inv_mul_cancel₀ (hsp k).ne'
  have hd2 : diagonal s * (diagonal fun k => (s k)⁻¹) = (1 : Matrix p p ℝ) := by
    rw [diagonal_mul_diagonal, ← diagonal_one]
    congr 1; funext k; exact mul_inv_cancel₀ (hsp k).ne'
  have hM : R * Q * R = c * diagonal e * cᵀ := by
    rw [← he, Matrix.mul_assoc (R * Q * R), hc', Matrix.mul_one]
  refine ⟨hw, ?_, ?_, ?_, ?_⟩
  · calc (R * c * diagonal fun k => (s k)⁻¹)ᵀ * (Ri * c * diagonal s)
        = (diagonal fun k => (s k)⁻¹) * (cᵀ * (R * Ri) * c) * diagonal s := by
          simp only [transpose_mul, diagonal_transpose, hR, Matrix.mul_assoc]
      _ = 1 := by rw [hRi, Matrix.mul_one, hc, Matrix.mul_one, hd1]
  · calc (R * c * diagonal fun k => (s k)⁻¹) * (Ri * c * diagonal s)ᵀ
        = R * (c * ((diagonal fun k => (s k)⁻¹) * diagonal s) * cᵀ) * Riᵀ := by
          simp only [transpose_mul, diagonal_transpose, Matrix.mul_assoc]
      _ = 1 := by rw [hd1, Matrix.mul_one, hc', Matrix.mul_one, hRiT, hRi]
  · have hd : (diagonal fun k => (s k)⁻¹) * (diagonal fun k => Real.sqrt (e k)) * (diagonal fun k => (s k)⁻¹) = (1 : Matrix p p ℝ) := by
      rw [diagonal_mul_diagonal, diagonal_mul_diagonal, ← diagonal_one]
      congr 1; funext k
      rw [← hss k]
      have := (hsp k).ne'
      field_simp
    symm
    calc (R * c * diagonal fun k => (s k)⁻¹) * (diagonal fun k => Real.sqrt (e k)) * (R * c * diagonal fun k => (s k)⁻¹)ᵀ
        = R * (c * ((diagonal fun k => (s k)⁻¹) * (diagonal fun k => Real.sqrt (e k)) * (diagonal fun k => (s k)⁻¹)) * cᵀ) * Rᵀ := by
          simp only [transpose_mul, diagonal_transpose, Matrix.mul_assoc]
      _ = P := by rw [hd, Matrix.mul_one, hc', Matrix.mul_one, hR, hRR]
  · have hd : diagonal s * (diagonal fun k => Real.sqrt (e k)) * diagonal s = diagonal e := by
      rw [diagonal_mul_diagonal, diagonal_mul_diagonal]
      congr 1; funext k
      linear_combination Real.sqrt (e k) * hss k + hww k
    symm
    calc (Ri * c * diagonal s) * (diagonal fun k => Real.sqrt (e k)) * (Ri * c * diagonal s)ᵀ
        = Ri * (c * (diagonal s * (diagonal fun k => Real.sqrt (e k)) * diagonal s) * cᵀ) * Riᵀ := by
          simp only [transpose_mul, diagonal_transpose, Matrix.mul_assoc]
      _ = Ri * (R * Q * R) * Ri := by rw [hd, hM, hRiT]
      _ = (Ri * R) * Q * (R * Ri) := by simp only [Matrix.mul_assoc]
      _ = Q := by rw [hRi, hRi', Matrix.one_mul, Matrix.mul_one]

/-! ## Moments -/

/-- Moment `k`. -/
def mom (T : Matrix p n ℝ) (w : n → ℝ) (k : Nat) : Matrix p p ℝ := T * (diagonal fun x => w x ^ k) * Tᵀ

theorem mom_zero (T : Matrix p n ℝ) (w : n → ℝ) : mom T w 0 = T * Tᵀ := by
  unfold mom; simp

theorem mom_symm (T : Matrix p n ℝ) (w : n → ℝ) (k : Nat) : (mom T w k)ᵀ = mom T w k := by
  unfold mom; simp only [transpose_mul, transpose_transpose, diagonal_transpose, Matrix.mul_assoc]

theorem Sol.mom_one (h : Sol P Q T S w) : mom T w 1 = P := by
  rw [h.P_eq]; unfold mom; simp

theorem Sol.mom_step (h : Sol P Q T S w) (k : Nat) : mom T w (k + 2) = P * Q * mom T w k := by
  unfold mom
  calc T * (diagonal fun x => w x ^ (k + 2)) * Tᵀ = T * (diagonal w * (diagonal w * diagonal fun x => w x ^ k)) * Tᵀ := by
        rw [diagonal_mul_diagonal, diagonal_mul_diagonal]
        congr 3; funext x; ring
    _ = (T * diagonal w) * diagonal w * (diagonal fun x => w x ^ k) * Tᵀ := by simp only [Matrix.mul_assoc]
    _ = P * (S * diagonal w) * (diagonal fun x => w x ^ k) * Tᵀ := by rw [← h.PS, Matrix.mul_assoc P]
    _ = P * Q * (T * (diagonal fun x => w x ^ k) * Tᵀ) := by rw [← h.QT]; simp only [Matrix.mul_assoc]

theorem Sol.riccati (h : Sol P Q T S w) : mom T w 0 * Q * mom T w 0 = P := by
  rw [mom_zero]
  calc T * Tᵀ * Q * (T * Tᵀ) = T * (Tᵀ * (Q * T)) * Tᵀ := by simp only [Matrix.mul_assoc]
    _ = T * ((Tᵀ * S) * diagonal w) * Tᵀ := by rw [h.QT, Matrix.mul_assoc Tᵀ]
    _ = P := by rw [h.bi, Matrix.one_mul, ← h.P_eq]

theorem Sol.mom_inv (h : Sol P Q T S w) : mom T w 0 * (S * Sᵀ) = 1 := by
  rw [mom_zero]
  calc T * Tᵀ * (S * Sᵀ) = T * (Tᵀ * S) * Sᵀ := by simp only [Matrix.mul_assoc]
    _ = 1 := by rw [h.bi, Matrix.mul_one, h.comp]

theorem Sol.posDef (h : Sol P Q T S w) : (mom T w 0).PosDef := by
  rw [mom_zero]
  have : T * Tᵀ = (Tᵀ)ᴴ * Tᵀ := by rw [conjTranspose_eq_transpose_of_trivial, transpose_transpose]
  rw [this]
  apply Matrix.PosDef.conjTranspose_mul_self
  intro x y hxy
  have h1 := congrArg (fun u => S *ᵥ u) hxy
  simpa only [mulVec_mulVec, h.comp', one_mulVec] using h1

theorem Sol.Q_posDef (h : Sol P Q T S w) : Q.PosDef := by
  rw [h.Q_eq]
  have h1 : (diagonal w).PosDef := by
    rw [Matrix.posDef_diagonal_iff]; exact h.pos
  have h2 := h1.mul_mul_conjTranspose_same (B := S) (by
    intro x y hxy
    have h3 := congrArg (fun u => u ᵥ* Tᵀ) hxy
    simpa only [vecMul_vecMul, h.comp', vecMul_one] using h3)
  rwa [conjTranspose_eq_transpose_of_trivial] at h2

theorem Sol.swap (h : Sol P Q T S w) : Sol Q P S T w := ⟨h.pos, h.bi', h.comp', h.Q_eq, h.P_eq⟩

theorem Sol.P_posDef (h : Sol P Q T S w) : P.PosDef := h.swap.Q_posDef

open scoped MatrixOrder in
/-- Positive semidefinite matrices with equal squares are equal. -/
theorem psd_root_unique {A B : Matrix p p ℝ} (hA : A.PosSemidef) (hB : B.PosSemidef) (h : A * A = B * B) : A = B := by
  rw [← CFC.sqrt_unique h hA.nonneg, CFC.sqrt_unique rfl hB.nonneg]

/-- The zeroth moment is the only positive definite solution of `η Q η = P`. -/
theorem Sol.unique (h : Sol P Q T S w) {H : Matrix p p ℝ} (hH : H.PosDef) (e : H * Q * H = P) : H = mom T w 0 := by
  have hHT : Hᵀ = H := by have := hH.1.eq; rwa [conjTranspose_eq_transpose_of_trivial] at this
  set G : Matrix n n ℝ := Sᵀ * H * S with hG
  have hGT : Gᵀ = G := by rw [hG]; simp only [transpose_mul, transpose_transpose, hHT, Matrix.mul_assoc]
  have hGp : G.PosSemidef := by
    have := hH.posSemidef.conjTranspose_mul_mul_same S
    rwa [conjTranspose_eq_transpose_of_trivial] at this
  have h1 : G * diagonal w * G = diagonal w := by
    calc G * diagonal w * G = Sᵀ * (H * (S * diagonal w * Sᵀ) * H) * S := by simp only [hG, Matrix.mul_assoc]
      _ = Sᵀ * (P * S) := by rw [← h.Q_eq, e, Matrix.mul_assoc]
      _ = diagonal w := by rw [h.PS, ← Matrix.mul_assoc, h.bi', Matrix.one_mul]
  set r : n → ℝ := fun k => Real.sqrt (w k) with hr
  have hrp : ∀ k, 0 < r k := fun k => Real.sqrt_pos.2 (h.pos k)
  have hrr : diagonal r * diagonal r = diagonal w := by
    rw [diagonal_mul_diagonal]; congr 1; funext k; exact Real.mul_self_sqrt (h.pos k).le
  have h2 : diagonal r * G * diagonal r = diagonal w := by
    refine psd_root_unique ?_ ?_ ?_
    · have := hGp.conjTranspose_mul_mul_same (diagonal r)
      rwa [conjTranspose_eq_transpose_of_trivial, diagonal_transpose] at this
    · rw [posSemidef_diagonal_iff]; exact fun k => (h.pos k).le
    · calc diagonal r * G * diagonal r * (diagonal r * G * diagonal r) = diagonal r * (G * (diagonal r * diagonal r) * G) * diagonal r := by
            simp only [Matrix.mul_assoc]
        _ = diagonal w * diagonal w := by
            rw [hrr, h1, ← hrr]
            simp only [Matrix.mul_assoc]
  have h3 : (diagonal fun k => (r k)⁻¹) * diagonal r = (1 : Matrix n n ℝ) := by
    rw [diagonal_mul_diagonal, ← diagonal_one]
    congr 1; funext k; exact inv_mul_cancel₀ (hrp k).ne'
  have h4 : diagonal r * (diagonal fun k => (r k)⁻¹) = (1 : Matrix n n ℝ) := by
    rw [diagonal_mul_diagonal, ← diagonal_one]
    congr 1; funext k; exact mul_inv_cancel₀ (hrp k).ne'
  have h5 : G = 1 := by
    calc G = (diagonal fun k => (r k)⁻¹) * diagonal r * G * (diagonal r * (diagonal fun k => (r k)⁻¹)) := by rw [h3, h4, Matrix.one_mul, Matrix.mul_one]
      _ = (diagonal fun k => (r k)⁻¹) * (diagonal r * G * diagonal r) * (diagonal fun k => (r k)⁻¹) := by simp only [Matrix.mul_assoc]
      _ = ((diagonal fun k => (r k)⁻¹) * diagonal r) * (diagonal r * (diagonal fun k => (r k)⁻¹)) := by rw [h2, ← hrr]; simp only [Matrix.mul_assoc]
      _ = 1 := by rw [h3, h4, Matrix.one_mul]
  rw [mom_zero]
  calc H = (T * Sᵀ) * H * (S * Tᵀ) := by rw [h.comp, h.comp', Matrix.one_mul, Matrix.mul_one]
    _ = T * G * Tᵀ := by simp only [hG, Matrix.mul_assoc]
    _ = T * Tᵀ := by rw [h5, Matrix.mul_one]

/-- Moments do not depend on the solution. -/
theorem Sol.mom_eq (h : Sol P Q T S w) {T' S' : Matrix p m ℝ} {w' : m → ℝ} (h' : Sol P Q T' S' w') : ∀ k, mom T w k = mom T' w' k
  | 0 => h'.unique h.posDef h.riccati
  | 1 => by rw [h.mom_one, h'.mom_one]
  | k + 2 => by rw [h.mom_step, h'.mom_step, h.mom_eq h' k]

/-! ## Sum of frequencies -/

private theorem trace_form (w : n → ℝ) (F : Matrix n m ℝ) : (diagonal w * (F * Fᵀ)).trace = ∑ k, w k * ∑ j, F k j ^ 2 := by
  rw [trace]
  refine Finset.sum_congr rfl fun k _ => ?_
  rw [diag_apply, diagonal_mul, Matrix.mul_apply]
  congr 1
  refine Finset.sum_congr rfl fun j _ => ?_
  rw [transpose_apply]; ring

theorem Sol.trace_Q (h : Sol P Q T S w) (X : Matrix p m ℝ) : (Q * (X * Xᵀ)).trace = ∑ k, w k * ∑ j, (Sᵀ * X) k j ^ 2 := by
  rw [← trace_form, h.Q_eq, transpose_mul, transpose_transpose]
  calc (S * diagonal w * Sᵀ * (X * Xᵀ)).trace = (S * (diagonal w * Sᵀ * (X * Xᵀ))).trace := by simp only [Matrix.mul_assoc]
    _ = (diagonal w * Sᵀ * (X * Xᵀ) * S).trace := trace_mul_comm _ _
    _ = _ := by simp only [Matrix.mul_assoc]

/-- The sum of the frequencies is the minimum over all `η = X Xᵀ`, with inverse `Y Yᵀ`, of `(tr Q η + tr P η⁻¹) / 2`. -/
theorem Sol.sum_le (h : Sol P Q T S w) (X Y : Matrix p m ℝ) (hXY : X * Yᵀ = 1) :
    ∑ k, w k ≤ ((Q * (X * Xᵀ)).trace + (P * (Y * Yᵀ)).trace) / 2 := by
  rw [h.trace_Q X, h.swap.trace_Q Y, ← Finset.sum_add_distrib, Finset.sum_div]
  refine Finset.sum_le_sum fun k _ => ?_
  have h1 : ((Sᵀ * X) * (Tᵀ * Y)ᵀ) k k = 1 := by
    have : (Sᵀ * X) * (Tᵀ * Y)ᵀ = 1 := by
      calc (Sᵀ * X) * (Tᵀ * Y)ᵀ = Sᵀ * (X * Yᵀ) * T := by simp only [transpose_mul, transpose_transpose, Matrix.mul_assoc]
        _ = 1 := by rw [hXY, Matrix.mul_one, h.bi']
    rw [this, one_apply_eq]
  rw [Matrix.mul_apply] at h1
  simp only [transpose_apply] at h1
  have h2 : (2 : ℝ) ≤ ∑ j, (Sᵀ * X) k j ^ 2 + ∑ j, (Tᵀ * Y) k j ^ 2 := by
    rw [← Finset.sum_add_distrib]
    calc (2 : ℝ) = ∑ j, 2 * ((Sᵀ * X) k j * (Tᵀ * Y) k j) := by rw [← Finset.mul_sum, h1, mul_one]
      _ ≤ _ := Finset.sum_le_sum fun j _ => by nlinarith [sq_nonneg ((Sᵀ * X) k j - (Tᵀ * Y) k j)]
  have h3 := (h.pos k).le
  nlinarith

theorem Sol.sum_eq_Q (h : Sol P Q T S w) : (Q * mom T w 0).trace = ∑ k, w k := by
  rw [mom_zero, h.trace_Q T, h.bi']
  refine Finset.sum_congr rfl fun k _ => ?_
  rw [Finset.sum_eq_single k]
  · simp
  · intro j _ hj; rw [one_apply_ne (Ne.symm hj)]; simp
  · simp

theorem Sol.sum_eq_P (h : Sol P Q T S w) : (P * (S * Sᵀ)).trace = ∑ k, w k := by
  have := h.swap.sum_eq_Q; rwa [mom_zero] at this

/-- The plasmon energy in terms of the de-excitation amplitudes `Y = (T - S) / 2`. -/
theorem Sol.plasmon (h : Sol P Q T S w) : (∑ k, w k - (P + Q).trace / 2) / 2 = -∑ k, w k * ∑ x, ((T x k - S x k) / 2) ^ 2 := by
  have e1 : P.trace = ∑ k, w k * ∑ x, T x k ^ 2 := by
    have := h.swap.trace_Q (1 : Matrix p p ℝ)
    simpa only [transpose_one, Matrix.mul_one, transpose_apply] using this
  have e2 : Q.trace = ∑ k, w k * ∑ x, S x k ^ 2 := by
    have := h.trace_Q (1 : Matrix p p ℝ)
    simpa only [transpose_one, Matrix.mul_one, transpose_apply] using this
  have e3 : ∀ k, ∑ x, T x k * S x k = 1 := by
    intro k
    have := congrFun (congrFun h.bi k) k
    rwa [Matrix.mul_apply, one_apply_eq] at this
  rw [trace_add, e1, e2, ← Finset.sum_add_distrib, Finset.sum_div, ← Finset.sum_sub_distrib, Finset.sum_div, ← Finset.sum_neg_distrib]
  refine Finset.sum_congr rfl fun k _ => ?_
  have e4 : ∑ x, ((T x k - S x k) / 2) ^ 2 = (∑ x, T x k ^ 2 + ∑ x, S x k ^ 2 - 2) / 4 := by
    have e5 : ∑ x, ((T x k - S x k) / 2) ^ 2 = ∑ x, (T x k ^ 2 + S x k ^ 2 - 2 * (T x k * S x k)) / 4 := by
      refine Finset.sum_congr rfl fun x _ => ?_
      ring
    rw [e5, ← Finset.sum_div, Finset.sum_sub_distrib, Finset.sum_add_distrib, ← Finset.mul_sum, e3 k, mul_one]
  rw [e4]; ring

end Vayesta.Lemmas.Rpa
