import Mathlib.MeasureTheory.Integral.IntervalIntegral.Basic
import Mathlib.MeasureTheory.Function.LocallyIntegrable
import Mathlib.Analysis.SpecificLimits.Basic
import Mathlib.Tactic.Linarith
import Mathlib.Tactic.FieldSimp

/-! A function with a supergradient everywhere is the integral of the supergradient. -/

namespace Vayesta.Lemmas

open MeasureTheory intervalIntegral

variable {f g : ℝ → ℝ}

/-- `g` is a supergradient of `f` on the unit interval. -/
def IsSupergradient (f g : ℝ → ℝ) : Prop := ∀ a ∈ Set.Icc (0 : ℝ) 1, ∀ b ∈ Set.Icc (0 : ℝ) 1, f b ≤ f a + g a * (b - a)

theorem IsSupergradient.antitone (h : IsSupergradient f g) : AntitoneOn g (Set.Icc 0 1) := by
  intro a ha b hb hab
  rcases hab.eq_or_lt with rfl | hab
  · exact le_rfl
  · have h1 := h a ha b hb
    have h2 := h b hb a ha
    nlinarith

theorem IsSupergradient.integrable (h : IsSupergradient f g) {a b : ℝ} (ha : 0 ≤ a) (hab : a ≤ b) (hb : b ≤ 1) : IntervalIntegrable g volume a b := by
  apply AntitoneOn.intervalIntegrable
  rw [Set.uIcc_of_le hab]
  exact h.antitone.mono (Set.Icc_subset_Icc ha hb)

private theorem bounds (h : IsSupergradient f g) {a b : ℝ} (ha : 0 ≤ a) (hab : a ≤ b) (hb : b ≤ 1) :
    g b * (b - a) ≤ ∫ x in a..b, g x ∧ ∫ x in a..b, g x ≤ g a * (b - a) := by
  have mem : ∀ x ∈ Set.Icc a b, x ∈ Set.Icc (0 : ℝ) 1 := fun x hx => ⟨ha.trans hx.1, hx.2.trans hb⟩
  constructor
  · have := integral_mono_on hab (intervalIntegrable_const (c := g b)) (h.integrable ha hab hb)
      (fun x hx => h.antitone (mem x hx) ⟨ha.trans hab, hb⟩ hx.2)
    rw [intervalIntegral.integral_const, smul_eq_mul] at this
    linarith
  · have := integral_mono_on hab (h.integrable ha hab hb) (intervalIntegrable_const (c := g a))
      (fun x hx => h.antitone ⟨ha, hab.trans hb⟩ (mem x hx) hx.1)
    rw [intervalIntegral.integral_const, smul_eq_mul] at this
    linarith

private theorem step (h : IsSupergradient f g) {a b : ℝ} (ha : 0 ≤ a) (hab : a ≤ b) (hb : b ≤ 1) :
    |f b - f a - ∫ x in a..b, g x| ≤ (g a - g b) * (b - a) := by
  obtain ⟨h1, h2⟩ := bounds h ha hab hb
  have h3 := h a ⟨ha, hab.trans hb⟩ b ⟨ha.trans hab, hb⟩
  have h4 := h b ⟨ha.trans hab, hb⟩ a ⟨ha, hab.trans hb⟩
  rw [abs_le]
  constructor <;> nlinarith

private theorem steps (h : IsSupergradient f g) (N : Nat) (hN : 0 < N) : ∀ k : Nat, k ≤ N →
    |f ((k : ℝ) / N) - f 0 - ∫ x in (0 : ℝ)..((k : ℝ) / N), g x| ≤ (g 0 - g ((k : ℝ) / N)) * (1 / N)
  | 0, _ => by simp
  | k + 1, hk => by
    have hN' : (0 : ℝ) < N := Nat.cast_pos.2 hN
    have ih := steps h N hN k (by omega)
    have h0 : (0 : ℝ) ≤ (k : ℝ) / N := by positivity
    have h1 : (k : ℝ) / N ≤ ((k + 1 : Nat) : ℝ) / N := by
      apply div_le_div_of_nonneg_right _ hN'.le
      push_cast; linarith
    have h2 : ((k + 1 : Nat) : ℝ) / N ≤ 1 := by
      rw [div_le_one hN']; exact_mod_cast hk
    have hd : ((k + 1 : Nat) : ℝ) / N - (k : ℝ) / N = 1 / N := by
      push_cast; field_simp; ring
    have hs := step h h0 h1 h2
    rw [hd] at hs
    have hi := integral_add_adjacent_intervals (h.integrable le_rfl h0 (h1.trans h2)) (h.integrable h0 h1 h2)
    rw [← hi]
    rw [abs_le] at ih hs ⊢
    constructor <;> nlinarith [ih.1, ih.2, hs.1, hs.2]

theorem IsSupergradient.integral (h : IsSupergradient f g) : ∫ x in (0 : ℝ)..1, g x = f 1 - f 0 := by
  have key : ∀ N : Nat, 0 < N → |f 1 - f 0 - ∫ x in (0 : ℝ)..1, g x| ≤ (g 0 - g 1) * (1 / N) := by
    intro N hN
    have := steps h N hN N le_rfl
    rwa [div_self (Nat.cast_pos.2 hN).ne'] at this
  have hz : |f 1 - f 0 - ∫ x in (0 : ℝ)..1, g x| ≤ 0 := by
    have ht : Filter.Tendsto (fun N : Nat => (g 0 - g 1) * (1 / ((N : ℝ) + 1))) Filter.atTop (nhds ((g 0 - g 1) * 0)) :=
      (tendsto_one_div_add_atTop_nhds_zero_nat).const_mul _
    rw [mul_zero] at ht
    refine ge_of_tendsto' ht fun N => ?_
    have := key (N + 1) (Nat.succ_pos N)
    rwa [Nat.cast_add_one] at this
  have := abs_nonpos_iff.1 hz
  linarith

end Vayesta.Lemmas
