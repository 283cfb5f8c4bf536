import Verif.Model.DmetBath
import Mathlib.LinearAlgebra.Matrix.Rank
import Mathlib.LinearAlgebra.Matrix.ToLin
import Mathlib.LinearAlgebra.Trace
import Mathlib.LinearAlgebra.Projection
import Mathlib.LinearAlgebra.Matrix.NonsingularInverse
import Mathlib.Data.Real.Basic
import Mathlib.Tactic.Linarith
import Mathlib.Tactic.NoncommRing
import Mathlib.Tactic.Module

/-! Facts on symmetric idempotent matrices with a diagonal environment block. -/

namespace Vayesta.Lemmas
open Matrix

variable {fr en m : Type} [Fintype fr] [Fintype en] [Fintype m]

/-- The trace of an idempotent real matrix is a natural number. -/
theorem trace_idempotent_nat [DecidableEq m] (D : Matrix m m ℝ) (h : D * D = D) : ∃ k : ℕ, D.trace = k := by
  have hid : IsIdempotentElem (Matrix.toLin' D) := by
    change Matrix.toLin' D ∘ₗ Matrix.toLin' D = _
    rw [← Matrix.toLin'_mul, h]
  have hp := LinearMap.IsIdempotentElem.isProj_range _ hid
  refine ⟨Module.finrank ℝ (LinearMap.range (Matrix.toLin' D)), ?_⟩
  rw [← Matrix.trace_toLin'_eq D]
  exact hp.trace

variable [DecidableEq en] (D : Matrix (fr ⊕ en) (fr ⊕ en) ℝ) (e : en → ℝ)

/-- The fragment coupling of environment orbitals: `Σ_a D_ia D_aj = (e - e²) δ_ij`. -/
theorem coupling_gram (hsymm : Dᵀ = D) (hid : D * D = D) (he : D.toBlocks₂₂ = diagonal e) (i j : en) :
    ∑ a : fr, D (.inl a) (.inr i) * D (.inl a) (.inr j) = if i = j then e i * (1 - e i) else 0 := by
  have hs : ∀ x y, D x y = D y x := fun x y => congrFun (congrFun hsymm y) x ▸ rfl
  have hd : ∀ i j : en, D (.inr i) (.inr j) = if i = j then e i else 0 := by
    intro i j
    have := congrFun (congrFun he i) j
    simpa [toBlocks₂₂, diagonal_apply] using this
  have h := congrFun (congrFun hid (.inr i)) (.inr j)
  rw [mul_apply, Fintype.sum_sum_type] at h
  have h2 : ∑ k : en, D (.inr i) (.inr k) * D (.inr k) (.inr j) = if i = j then e i * e i else 0 := by
    simp only [hd]
    by_cases hij : i = j
    · subst hij
      simp
    · simp [hij, ite_mul]
  rw [h2, hd] at h
  have h3 : ∑ a : fr, D (.inl a) (.inr i) * D (.inl a) (.inr j) = ∑ a : fr, D (.inr i) (.inl a) * D (.inl a) (.inr j) :=
    Finset.sum_congr rfl fun a _ => by rw [hs (.inl a) (.inr i)]
  rw [h3]
  split at h
  · rw [if_pos (by assumption)]; subst_vars; linarith
  · rw [if_neg (by assumption)]; linarith

theorem eig_range (hsymm : Dᵀ = D) (hid : D * D = D) (he : D.toBlocks₂₂ = diagonal e) (i : en) : 0 ≤ e i ∧ e i ≤ 1 := by
  have h := coupling_gram D e hsymm hid he i i
  rw [if_pos rfl] at h
  have h0 : 0 ≤ e i * (1 - e i) := h ▸ Finset.sum_nonneg fun a _ => mul_self_nonneg _
  constructor <;> nlinarith

/-- At most as many eigenvalues differ from 0 and 1 as there are fragment orbitals. -/
theorem entangled_card_le (hsymm : Dᵀ = D) (hid : D * D = D) (he : D.toBlocks₂₂ = diagonal e) :
    Nat.card {i : en // e i * (1 - e i) ≠ 0} ≤ Fintype.card fr := by
  classical
  have hB : D.toBlocks₁₂ᵀ * D.toBlocks₁₂ = diagonal fun i => e i * (1 - e i) := by
    ext i j
    rw [mul_apply, diagonal_apply]
    simpa [toBlocks₁₂] using coupling_gram D e hsymm hid he i j
  have h1 := rank_diagonal (R := ℝ) fun i => e i * (1 - e i)
  rw [← hB] at h1
  rw [Nat.card_eq_fintype_card, ← h1]
  exact (rank_mul_le_left _ _).trans (rank_le_card_width _)

theorem decoupled (hsymm : Dᵀ = D) (hid : D * D = D) (he : D.toBlocks₂₂ = diagonal e) (i : en) (hi : e i * (1 - e i) = 0) (a : fr) :
    D (.inl a) (.inr i) = 0 := by
  have h := coupling_gram D e hsymm hid he i i
  rw [if_pos rfl, hi] at h
  have := (Finset.sum_eq_zero_iff_of_nonneg fun a _ => mul_self_nonneg (D (.inl a) (.inr i))).1 h a (Finset.mem_univ _)
  exact mul_self_eq_zero.1 this

/-- Leaving out decoupled environment orbitals keeps the matrix idempotent. -/
theorem cluster_idempotent (hsymm : Dᵀ = D) (hid : D * D = D) (he : D.toBlocks₂₂ = diagonal e) (p : en → Prop) [Fintype {i // p i}]
    (hp : ∀ i, ¬ p i → e i * (1 - e i) = 0) :
    let f : fr ⊕ {i // p i} → fr ⊕ en := Sum.map id Subtype.val
    D.submatrix f f * D.submatrix f f = D.submatrix f f := by
  classical
  intro f
  have hs : ∀ x y, D x y = D y x := fun x y => congrFun (congrFun hsymm y) x ▸ rfl
  have hd : ∀ i j : en, i ≠ j → D (.inr i) (.inr j) = 0 := by
    intro i j hij
    have := congrFun (congrFun he i) j
    simpa [toBlocks₂₂, diagonal_apply, hij] using this
  ext x y
  have h := congrFun (congrFun hid (f x)) (f y)
  rw [mul_apply, Fintype.sum_sum_type] at h
  rw [mul_apply, Fintype.sum_sum_type, submatrix_apply, ← h]
  congr 1
  rw [← Fintype.sum_subtype_add_sum_subtype p]
  have hzero : ∑ i : {i // ¬ p i}, D (f x) (.inr i) * D (.inr i) (f y) = 0 := by
    apply Finset.sum_eq_zero
    rintro ⟨i, hi⟩ -
    have : D (f x) (.inr i) = 0 := by
      rcases x with a | ⟨j, hj⟩
      · exact decoupled D e hsymm hid he i (hp i hi) a
      · exact hd j i (by rintro rfl; exact hi hj)
    rw [this, zero_mul]
  rw [hzero, add_zero]
  exact Finset.sum_congr (by ext; simp) fun _ _ => rfl

end Vayesta.Lemmas
