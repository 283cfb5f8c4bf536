import Verif.Model.Cpt
import Mathlib.Tactic.Linarith
import Mathlib.Tactic.Ring
import Mathlib.Tactic.FieldSimp
import Mathlib.Tactic.NormNum
import Mathlib.Algebra.Order.Field.Rat
import Mathlib.Algebra.Order.Ring.Unbundled.Rat

/-! # C23: the chemical-potential search -/

namespace Vayesta.Props
open Vayesta.Cpt

variable {K : Type} [Field K] [LinearOrder K]

/-- Every entry of a history is a value the user function really returned at that point, given what was evaluated before. -/
def Genuine (func : Func K) (log : Log K) : Prop :=
  ∀ pre x v post, log = pre ++ (x, v) :: post → v = func pre x

theorem genuine_snoc (func : Func K) (log : Log K) (x : K) (h : Genuine func log) : Genuine func (log ++ [(x, func log x)]) := by
  intro pre y v post heq
  rcases List.append_eq_append_iff.1 heq with ⟨t, h1, h2⟩ | ⟨t, h1, h2⟩
  · cases t with
    | nil =>
      simp only [List.append_nil] at h1
      simp only [List.nil_append, List.cons.injEq, Prod.mk.injEq] at h2
      obtain ⟨⟨rfl, rfl⟩, -⟩ := h2
      rw [h1]
    | cons a t => simp at h2
  · cases t with
    | nil =>
      simp only [List.append_nil] at h1
      simp only [List.nil_append, List.cons.injEq, Prod.mk.injEq] at h2
      obtain ⟨⟨rfl, rfl⟩, -⟩ := h2
      rw [h1]
    | cons a t =>
      simp only [List.cons_append, List.cons.injEq] at h2
      exact h pre y v t (by rw [h1, h2.1])

theorem bracketLoop_spec (func : Func K) (cpt1 err1 m : K) (fs : List K) (log : Log K) (hg : Genuine func log)
    (cpt3 err3 : K) (log' : Log K) (h : bracketLoop func cpt1 err1 m fs log = .ok (cpt3, err3, log')) :
    Genuine func log' ∧ log <+: log' ∧ (cpt3, err3) ∈ log' ∧ err1 * err3 ≤ 0 := by
  induction fs generalizing log with
  | nil => cases h
  | cons b fs ih =>
    simp only [bracketLoop] at h
    have hg' := genuine_snoc func log (cpt1 - b * err1 / m) hg
    split at h
    · rename_i hs
      simp only [Except.ok.injEq, Prod.mk.injEq] at h
      obtain ⟨rfl, rfl, rfl⟩ := h
      exact ⟨hg', List.prefix_append _ _, by simp, hs⟩
    · obtain ⟨h1, h2, h3, h4⟩ := ih _ hg' h
      exact ⟨h1, (List.prefix_append _ _).trans h2, h3, h4⟩

theorem runFinder_spec (func : Func K) (tol cpt1 err1 cpt3 err3 : K) (fd : Finder K) (cpt : K) (log : Log K)
    (hg : Genuine func log) (h1 : (cpt1, err1) ∈ log) (h3 : (cpt3, err3) ∈ log) (hc : ∃ v, (cpt, v) ∈ log ∧ ¬ |v| ≤ tol)
    (cpt' : K) (conv : Bool) (log' : Log K)
    (h : runFinder func tol cpt1 err1 cpt3 err3 fd cpt log = .ok (cpt', conv, log')) :
    Genuine func log' ∧ log <+: log' ∧ (∃ v, (cpt', v) ∈ log' ∧ (conv = true ↔ |v| ≤ tol)) := by
  induction fd generalizing cpt log with
  | done res =>
    simp only [runFinder, Except.ok.injEq, Prod.mk.injEq] at h
    obtain ⟨rfl, rfl, rfl⟩ := h
    obtain ⟨v, hv, hn⟩ := hc
    exact ⟨hg, List.prefix_refl _, v, hv, by simpa using hn⟩
  | fail e => cases h
  | query x next ih =>
    simp only [runFinder] at h
    by_cases hx1 : x = cpt1
    · subst hx1
      simp only [if_true] at h
      split at h
      · rename_i ht
        simp only [Except.ok.injEq, Prod.mk.injEq] at h
        obtain ⟨rfl, rfl, rfl⟩ := h
        exact ⟨hg, List.prefix_refl _, err1, h1, by simpa using ht⟩
      · exact ih err1 x log hg h1 h3 ⟨_, h1, by assumption⟩ h
    · by_cases hx3 : x = cpt3
      · subst hx3
        simp only [if_neg hx1, if_true] at h
        split at h
        · rename_i ht
          simp only [Except.ok.injEq, Prod.mk.injEq] at h
          obtain ⟨rfl, rfl, rfl⟩ := h
          exact ⟨hg, List.prefix_refl _, err3, h3, by simpa using ht⟩
        · exact ih err3 x log hg h1 h3 ⟨_, h3, by assumption⟩ h
      · simp only [if_neg hx1, if_neg hx3] at h
        have hg' := genuine_snoc func log x hg
        split at h
        · rename_i ht
          simp only [Except.ok.injEq, Prod.mk.injEq] at h
          obtain ⟨rfl, rfl, rfl⟩ := h
          exact ⟨hg', List.prefix_append _ _, func log x, by simp, by simpa using ht⟩
        · obtain ⟨a, b, c⟩ := ih (func log x) x (log ++ [(x, func log x)]) hg' (by simp [h1]) (by simp [h3])
            ⟨func log x, by simp, by assumption⟩ h
          exact ⟨a, (List.prefix_append _ _).trans b, c⟩

/-- **C23.** For every (even stateful) function and every strategy of the root finder: the evaluations recorded are genuine; the
returned chemical potential is one at which the function was evaluated; convergence is reported exactly if the value obtained
there was within the tolerance; and the interval handed to the root finder has values of opposite sign (or zero) at its two ends. -/
theorem cpt_sound (func : Func K) (finder : K → K → Finder K) (cptInit tol : K) (robust : Bool) (r : Result K)
    (h : kernel func finder cptInit tol robust = .ok r) :
    Genuine func r.log ∧
    (∃ v, (r.ret, v) ∈ r.log ∧ (r.converged = true ↔ |v| ≤ tol)) ∧
    (∀ lo hi, r.bracket = some (lo, hi) → lo ≤ hi ∧ ∃ vlo vhi, (lo, vlo) ∈ r.log ∧ (hi, vhi) ∈ r.log ∧ vlo * vhi ≤ 0) := by
  unfold kernel at h
  have hg0 : Genuine func [(cptInit, func [] cptInit)] := genuine_snoc func [] cptInit (by intro pre x v post hh; simp at hh)
  simp only at h
  split at h
  · rename_i ht
    cases h
    exact ⟨hg0, ⟨func [] cptInit, by simp, by simpa using ht⟩, by simp⟩
  · rename_i hnt
    have hg1 := genuine_snoc func _ (cptInit + sgn (func [] cptInit) * (1 / 1000)) hg0
    split at h
    · cases h
    · generalize hm : (func [(cptInit, func [] cptInit)] (cptInit + sgn (func [] cptInit) * (1 / 1000)) - func [] cptInit) /
        (cptInit + sgn (func [] cptInit) * (1 / 1000) - cptInit) = m at h
      cases hb : bracketLoop func cptInit (func [] cptInit) m (factors robust)
          ([(cptInit, func [] cptInit)] ++ [(cptInit + sgn (func [] cptInit) * (1 / 1000),
            func [(cptInit, func [] cptInit)] (cptInit + sgn (func [] cptInit) * (1 / 1000)))]) with
      | error e => rw [hb] at h; cases h
      | ok t =>
        obtain ⟨cpt3, err3, log3⟩ := t
        rw [hb] at h
        simp only [Except.bind] at h
        obtain ⟨g3, p3, m3, s3⟩ := bracketLoop_spec func _ _ _ _ _ hg1 _ _ _ hb
        have m1 : (cptInit, func [] cptInit) ∈ log3 := p3.subset (by simp)
        cases hr : runFinder func tol cptInit (func [] cptInit) cpt3 err3 (finder (min cptInit cpt3) (max cptInit cpt3)) cptInit
            log3 with
        | error e => rw [hr] at h; cases h
        | ok t =>
          obtain ⟨cpt', conv, log'⟩ := t
          rw [hr] at h
          simp only [Except.map, Except.ok.injEq] at h
          subst h
          obtain ⟨g4, p4, hv⟩ := runFinder_spec func _ _ _ _ _ _ _ _ g3 m1 m3 ⟨_, m1, hnt⟩ _ _ _ hr
          refine ⟨g4, hv, ?_⟩
          intro lo hi hlh
          simp only [Option.some.injEq, Prod.mk.injEq] at hlh
          obtain ⟨rfl, rfl⟩ := hlh
          refine ⟨le_trans (min_le_left _ _) (le_max_left _ _), ?_⟩
          rcases le_total cptInit cpt3 with hle | hle
          · rw [min_eq_left hle, max_eq_right hle]
            exact ⟨_, _, p4.subset m1, p4.subset m3, s3⟩
          · rw [min_eq_right hle, max_eq_left hle]
            exact ⟨_, _, p4.subset m3, p4.subset m1, by rw [mul_comm]; exact s3⟩

section
variable [IsStrictOrderedRing K]

theorem sgn_ne (x : K) (h : x ≠ 0) : sgn x ≠ 0 := by
  unfold sgn
  split
  · exact one_ne_zero
  · split
    · exact neg_ne_zero.2 one_ne_zero
    · rename_i h1 h2
      exact absurd (le_antisymm (not_lt.1 h1) (not_lt.1 h2)) h

/-- A root finder that evaluates both ends of its interval and then the secant point between them, as `brentq` does. -/
def StartsWithSecant (finder : K → K → Finder K) : Prop :=
  ∀ lo hi, ∃ next : K → K → K → Finder K,
    finder lo hi = .query lo fun va => .query hi fun vb => .query (lo - va * (hi - lo) / (vb - va)) (next va vb)

/-- **C23, linear response.** If the electron-number error is a non-constant affine function of the chemical potential, the search
(robust or not, from any starting point) converges, and to the exact root unless the starting point is already within the
tolerance. -/
theorem cpt_linear (a b : K) (ha : a ≠ 0) (finder : K → K → Finder K) (hf : StartsWithSecant finder) (cptInit tol : K)
    (htol : 0 ≤ tol) (robust : Bool) (hnot : ¬ |a * cptInit + b| ≤ tol) :
    ∃ r, kernel (fun _ x => a * x + b) finder cptInit tol robust = .ok r ∧ r.converged = true ∧ a * r.ret + b = 0 := by
  have he : a * cptInit + b ≠ 0 := by
    intro h
    rw [h, abs_zero] at hnot
    exact hnot htol
  set e := a * cptInit + b with hedef
  have hs := sgn_ne e he
  have hd : cptInit + sgn e * (1 / 1000) - cptInit ≠ 0 := by
    have : cptInit + sgn e * (1 / 1000) - cptInit = sgn e / 1000 := by ring
    rw [this]
    exact div_ne_zero hs (by norm_num)
  have hm : (a * (cptInit + sgn e * (1 / 1000)) + b - e) / (cptInit + sgn e * (1 / 1000) - cptInit) = a := by
    rw [div_eq_iff hd, hedef]
    ring
  obtain ⟨f, fs, hfac, hf1 | hf2⟩ : ∃ f fs, (factors robust : List K) = f :: fs ∧ (f = 1 ∨ f = 2) := by
    cases robust
    · exact ⟨2, _, rfl, Or.inr rfl⟩
    · exact ⟨1, _, rfl, Or.inl rfl⟩
  · -- the first trial is the exact root
    subst hf1
    have h3 : a * (cptInit - 1 * e / a) + b = 0 := by
      rw [mul_sub, mul_div_cancel₀ _ ha, hedef]; ring
    have hz : |(0 : K)| ≤ tol := by simpa using htol
    have hne : cptInit - 1 * e / a ≠ cptInit := by
      intro h
      rw [h, ← hedef] at h3
      exact he h3
    obtain ⟨next, hnext⟩ := hf (min cptInit (cptInit - 1 * e / a)) (max cptInit (cptInit - 1 * e / a))
    have hk : kernel (fun _ x => a * x + b) finder cptInit tol robust = .ok ⟨cptInit - 1 * e / a, true,
        [(cptInit, e)] ++ [(cptInit + sgn e * (1 / 1000), a * (cptInit + sgn e * (1 / 1000)) + b)] ++
        [(cptInit - 1 * e / a, a * (cptInit - 1 * e / a) + b)],
        some (min cptInit (cptInit - 1 * e / a), max cptInit (cptInit - 1 * e / a))⟩ := by
      simp only [kernel, ← hedef, if_neg hnot, hm, if_neg ha, hfac, bracketLoop, h3, mul_zero, le_refl, if_true,
        Except.bind, hnext]
      rcases le_total cptInit (cptInit - 1 * e / a) with hle | hle
      · simp only [min_eq_left hle, max_eq_right hle, runFinder, if_true, if_neg hnot, if_neg hne, if_pos hz, Except.map]
      · simp only [min_eq_right hle, max_eq_left hle, runFinder, if_true, if_neg hne, if_pos hz, Except.map]
    exact ⟨_, hk, rfl, h3⟩
  · -- the first trial is the mirror image of the starting point
    subst hf2
    have h3 : a * (cptInit - 2 * e / a) + b = -e := by
      rw [mul_sub, mul_div_cancel₀ _ ha, hedef]; ring
    have hnot3 : ¬ |(-e)| ≤ tol := by rwa [abs_neg]
    have hz : |(0 : K)| ≤ tol := by simpa using htol
    have hne : cptInit - 2 * e / a ≠ cptInit := by
      intro h
      rw [h, ← hedef] at h3
      exact he (by linarith)
    have hneg : e * -e ≤ 0 := by nlinarith [mul_self_nonneg e]
    obtain ⟨next, hnext⟩ := hf (min cptInit (cptInit - 2 * e / a)) (max cptInit (cptInit - 2 * e / a))
    have hroot : a * (cptInit - e / a) + b = 0 := by
      rw [mul_sub, mul_div_cancel₀ _ ha, hedef]; ring
    have hr1 : cptInit - e / a ≠ cptInit := by
      intro h
      rw [h, ← hedef] at hroot
      exact he hroot
    have hr3 : cptInit - e / a ≠ cptInit - 2 * e / a := by
      intro h
      rw [h, h3] at hroot
      exact he (by linarith)
    have hsec1 : cptInit - e * (cptInit - 2 * e / a - cptInit) / (-e - e) = cptInit - e / a := by
      have : -e - e ≠ 0 := by intro h; exact he (by linarith)
      field_simp
      ring
    have hsec2 : cptInit - 2 * e / a - -e * (cptInit - (cptInit - 2 * e / a)) / (e - -e) = cptInit - e / a := by
      have : e - -e ≠ 0 := by intro h; exact he (by linarith)
      field_simp
      ring
    have hk : kernel (fun _ x => a * x + b) finder cptInit tol robust = .ok ⟨cptInit - e / a, true,
        [(cptInit, e)] ++ [(cptInit + sgn e * (1 / 1000), a * (cptInit + sgn e * (1 / 1000)) + b)] ++
        [(cptInit - 2 * e / a, -e)] ++ [(cptInit - e / a, 0)],
        some (min cptInit (cptInit - 2 * e / a), max cptInit (cptInit - 2 * e / a))⟩ := by
      simp only [kernel, ← hedef, if_neg hnot, hm, if_neg ha, hfac, bracketLoop, h3, if_pos hneg, Except.bind, hnext]
      rcases le_total cptInit (cptInit - 2 * e / a) with hle | hle
      · simp only [min_eq_left hle, max_eq_right hle, runFinder, if_true, if_neg hnot, if_neg hne, if_neg hnot3, hsec1, if_neg hr1,
          if_neg hr3, hroot, if_pos hz, Except.map]
      · simp only [min_eq_right hle, max_eq_left hle, runFinder, if_true, if_neg hnot, if_neg hne, if_neg hnot3, hsec2, if_neg hr1,
          if_neg hr3, hroot, if_pos hz, Except.map]
    exact ⟨_, hk, rfl, hroot⟩

end

/-- Example: the case in the file's own `__main__` block, `0.1 cpt + 1` from 0. -/
example : ¬ |(1/10 : ℚ) * 0 + 1| ≤ 1/100000000 := by norm_num
example : StartsWithSecant (K := ℚ) fun lo hi =>
    .query lo fun va => .query hi fun vb => .query (lo - va * (hi - lo) / (vb - va)) fun _ => .done lo :=
  fun _ _ => ⟨fun _ _ _ => .done _, rfl⟩
/-- Example: a root finder that stops without reaching the tolerance: not converged. -/
example : (kernel (fun _ x => x ^ 3 - 2) (fun lo _ => .query lo fun _ => .done lo) (0 : ℚ) (1/1000) false).toOption.map
    (fun r => r.converged) = some false := by
  norm_num [kernel, sgn, factors, bracketLoop, runFinder, Except.bind, Except.map, Except.toOption]
/-- A constant function has no gradient to extrapolate. -/
example : kernel (fun _ _ => (1 : ℚ)) (fun lo _ => .done lo) 0 (1/1000) false = .error .zeroDivisionError := by
  norm_num [kernel]

end Vayesta.Props
