import Verif.Model.Bno
import Mathlib.Algebra.BigOperators.Group.List.Basic
import Mathlib.Algebra.Order.BigOperators.Group.List
import Mathlib.Tactic.Linarith
import Mathlib.Tactic.Ring
import Mathlib.Tactic.NormNum
import Mathlib.Algebra.Order.Field.Rat
import Mathlib.Algebra.Order.Ring.Unbundled.Rat

/-! # C22: natural-orbital truncation -/

namespace Vayesta.Props
open Vayesta.Bno

variable {K : Type} [Field K] [LinearOrder K] [IsStrictOrderedRing K] {C : Type}

/-- The number of electrons in a list of occupations, negative occupations (numerical noise) counted as zero. -/
def electrons (occup : List K) : K := (occup.map fun x => max x 0).sum

/-- What each criterion demands of keeping the first `n` of the orbitals (docstring of `BNO_Threshold`): at most `x` electrons
ignored; at least `100 - x` percent of all electrons of the cluster captured; at least `100 - x` percent of the excited electrons
captured. -/
def BnoMeets (t : Threshold K) (total : K) (occup : List K) (n : Nat) : Prop :=
  match t with
  | .truncation x => electrons (occup.drop n) ≤ x
  | .electronPercent x => (1 - x) * total ≤ total - electrons (occup.drop n)
  | .excitedPercent x => (1 - x) * electrons occup ≤ electrons (occup.take n)
  | _ => True

theorem hsplit_append (coeff : List C) (n : Int) : (hsplit coeff n).1 ++ (hsplit coeff n).2 = coeff := by
  simp [hsplit]

/-- **C22, nothing is lost.** Whatever the criterion (also a negative or too large fixed number), kept ++ discarded = all. -/
theorem truncateBno_append (coeff : List C) (occup : List K) (a : Arg K) (nelec : K) (kept rest : List C)
    (h : truncateBno coeff occup a nelec = .ok (kept, rest)) : kept ++ rest = coeff := by
  have key : ∀ r : Except PyErr Int, r.map (hsplit coeff) = .ok (kept, rest) → kept ++ rest = coeff := by
    intro r hr
    cases r with
    | error e => cases hr
    | ok n =>
      simp only [Except.map, Except.ok.injEq] at hr
      rw [← hsplit_append coeff n, hr]
  cases a with
  | none => cases h
  | num x => exact key _ h
  | thr t => exact key _ h

theorem searchFrom_spec (nelec0 ntarget : K) (npos : List K) (fuel n : Nat) :
    (∀ k : Int, searchFrom nelec0 ntarget npos fuel n = .ok k → ∃ m : Nat, k = m ∧ n ≤ m ∧ m < n + fuel ∧
      ntarget ≤ nelec0 + (npos.take m).sum ∧ ∀ j, n ≤ j → j < m → ¬ ntarget ≤ nelec0 + (npos.take j).sum) ∧
    (∀ e, searchFrom nelec0 ntarget npos fuel n = .error e → e = .runtimeError ∧
      ∀ j, n ≤ j → j < n + fuel → ¬ ntarget ≤ nelec0 + (npos.take j).sum) := by
  induction fuel generalizing n with
  | zero =>
    refine ⟨(by intro k h; cases h), ?_⟩
    intro e h
    cases h
    exact ⟨rfl, fun j h1 h2 => by omega⟩
  | succ fuel ih =>
    obtain ⟨ih1, ih2⟩ := ih (n + 1)
    by_cases hc : ntarget ≤ nelec0 + (npos.take n).sum
    · simp only [searchFrom, if_pos hc]
      refine ⟨?_, by intro e h; cases h⟩
      intro k h
      cases h
      exact ⟨n, rfl, le_refl _, by omega, hc, fun j h1 h2 => by omega⟩
    · simp only [searchFrom, if_neg hc]
      constructor
      · intro k h
        obtain ⟨m, h1, h2, h3, h4, h5⟩ := ih1 k h
        refine ⟨m, h1, by omega, by omega, h4, fun j hj1 hj2 => ?_⟩
        rcases Nat.eq_or_lt_of_le hj1 with rfl | hlt
        · exact hc
        · exact h5 j hlt hj2
      · intro e h
        obtain ⟨h1, h2⟩ := ih2 e h
        refine ⟨h1, fun j hj1 hj2 => ?_⟩
        rcases Nat.eq_or_lt_of_le hj1 with rfl | hlt
        · exact hc
        · exact h2 j hlt (by omega)

theorem electrons_split (occup : List K) (n : Nat) :
    ((occup.map fun x => max x 0).take n).sum = electrons occup - electrons (occup.drop n) := by
  have : electrons occup = ((occup.map fun x => max x 0).take n).sum + electrons (occup.drop n) := by
    unfold electrons
    rw [List.map_drop, ← List.sum_append, List.take_append_drop]
  rw [this]; ring

/-- The loop condition is the documented criterion, whatever the target. -/
theorem target_iff (occup : List K) (total : K) (t : Threshold K) (n : Nat) :
    match t with
    | .truncation x => (electrons occup - x ≤ 0 + ((occup.map fun x => max x 0).take n).sum ↔ BnoMeets t total occup n)
    | .electronPercent x => ((1 - x) * total ≤ (total - electrons occup) + ((occup.map fun x => max x 0).take n).sum ↔
        BnoMeets t total occup n)
    | .excitedPercent x => ((1 - x) * electrons occup ≤ 0 + ((occup.map fun x => max x 0).take n).sum ↔ BnoMeets t total occup n)
    | _ => True := by
  cases t <;> simp only [BnoMeets]
  · rw [electrons_split]; constructor <;> intro h <;> linarith
  · rw [electrons_split]; constructor <;> intro h <;> linarith
  · rw [zero_add, ← List.map_take]; rfl

/-- The criteria that stop at the first number of orbitals reaching a target. -/
def isMinimising : Threshold K → Prop
  | .truncation _ | .electronPercent _ | .excitedPercent _ => True
  | _ => False

theorem getNumber_minimising (t : Threshold K) (ht : isMinimising t) (occup : List K) (hne : occup ≠ []) (total : K) :
    (∀ k, t.getNumber occup (some total) = .ok k → ∃ n : Nat, k = n ∧ n ≤ occup.length ∧ BnoMeets t total occup n ∧
      ∀ j < n, ¬ BnoMeets t total occup j) ∧
    (∀ e, t.getNumber occup (some total) = .error e → e = .runtimeError ∧ ∀ j ≤ occup.length, ¬ BnoMeets t total occup j) := by
  have h0 : occup.length ≠ 0 := by simpa using hne
  have hiff := target_iff occup total t
  cases t with
  | number n => exact ht.elim
  | occupation x => exact ht.elim
  | truncation x =>
    simp only [Threshold.getNumber, if_neg h0]
    obtain ⟨h1, h2⟩ := searchFrom_spec 0 ((occup.map fun x => max x 0).sum - x) (occup.map fun x => max x 0) (occup.length + 1) 0
    refine ⟨fun k hk => ?_, fun e he => ?_⟩
    · obtain ⟨m, a, -, c, d, f⟩ := h1 k hk
      exact ⟨m, a, by omega, (hiff m).1 d, fun j hj hm => f j (by omega) hj ((hiff j).2 hm)⟩
    · obtain ⟨a, b⟩ := h2 e he
      exact ⟨a, fun j hj hm => b j (by omega) (by omega) ((hiff j).2 hm)⟩
  | electronPercent x =>
    simp only [Threshold.getNumber, if_neg h0]
    obtain ⟨h1, h2⟩ := searchFrom_spec (total - (occup.map fun x => max x 0).sum) ((1 - x) * total)
      (occup.map fun x => max x 0) (occup.length + 1) 0
    refine ⟨fun k hk => ?_, fun e he => ?_⟩
    · obtain ⟨m, a, -, c, d, f⟩ := h1 k hk
      exact ⟨m, a, by omega, (hiff m).1 d, fun j hj hm => f j (by omega) hj ((hiff j).2 hm)⟩
    · obtain ⟨a, b⟩ := h2 e he
      exact ⟨a, fun j hj hm => b j (by omega) (by omega) ((hiff j).2 hm)⟩
  | excitedPercent x =>
    simp only [Threshold.getNumber, if_neg h0]
    obtain ⟨h1, h2⟩ := searchFrom_spec 0 ((1 - x) * (occup.map fun x => max x 0).sum) (occup.map fun x => max x 0)
      (occup.length + 1) 0
    refine ⟨fun k hk => ?_, fun e he => ?_⟩
    · obtain ⟨m, a, -, c, d, f⟩ := h1 k hk
      exact ⟨m, a, by omega, (hiff m).1 d, fun j hj hm => f j (by omega) hj ((hiff j).2 hm)⟩
    · obtain ⟨a, b⟩ := h2 e he
      exact ⟨a, fun j hj hm => b j (by omega) (by omega) ((hiff j).2 hm)⟩

/-- **C22, target criteria.** With a truncation or percentage criterion the number of kept orbitals is the smallest that meets the
criterion; if no number up to all of them meets it, RuntimeError. -/
theorem truncateBno_minimal (t : Threshold K) (ht : isMinimising t) (coeff : List C) (occup : List K)
    (hlen : coeff.length = occup.length) (hne : occup ≠ []) (nelec : K) :
    (∀ kept rest, truncateBno coeff occup (.thr t) nelec = .ok (kept, rest) →
      BnoMeets t nelec occup kept.length ∧ ∀ j < kept.length, ¬ BnoMeets t nelec occup j) ∧
    (∀ e, truncateBno coeff occup (.thr t) nelec = .error e → e = .runtimeError ∧ ∀ j ≤ occup.length, ¬ BnoMeets t nelec occup j) := by
  obtain ⟨h1, h2⟩ := getNumber_minimising t ht occup hne nelec
  simp only [truncateBno]
  cases hg : t.getNumber occup (some nelec) with
  | error e =>
    refine ⟨(by intro _ _ h; cases h), ?_⟩
    intro e' he'
    cases he'
    exact h2 e hg
  | ok k =>
    refine ⟨?_, by intro _ h; cases h⟩
    intro kept rest h
    obtain ⟨n, rfl, hn, hm⟩ := h1 k hg
    simp only [Except.map, Except.ok.injEq, hsplit, Prod.mk.injEq] at h
    have : kept.length = n := by rw [← h.1]; simp; omega
    rw [this]
    exact hm

/-- **C22, success.** For a non-negative threshold (and a non-negative number of electrons) a target criterion never fails. -/
theorem truncateBno_succeeds (t : Threshold K) (coeff : List C) (occup : List K) (nelec : K) (hn : 0 ≤ nelec)
    (ht : match t with | .truncation x | .electronPercent x | .excitedPercent x => 0 ≤ x | _ => True) :
    ∃ kept rest, truncateBno coeff occup (.thr t) nelec = .ok (kept, rest) := by
  simp only [truncateBno]
  cases hg : t.getNumber occup (some nelec) with
  | ok k => exact ⟨_, _, rfl⟩
  | error e =>
    exfalso
    by_cases hne : occup = []
    · subst hne; cases hg
    have hpos : 0 ≤ electrons occup := by
      unfold electrons
      apply List.sum_nonneg
      intro y hy
      obtain ⟨z, -, rfl⟩ := List.mem_map.1 hy
      exact le_max_right _ _
    have key : isMinimising t → BnoMeets t nelec occup occup.length → False := fun h1 h2 =>
      ((getNumber_minimising t h1 occup hne nelec).2 e hg).2 _ (le_refl _) h2
    have hz : electrons (occup.drop occup.length) = 0 := by simp [electrons]
    cases t with
    | number n => simp [Threshold.getNumber, hne] at hg
    | occupation x => simp [Threshold.getNumber, hne] at hg
    | truncation x => exact key trivial (by simp only [BnoMeets, hz]; exact ht)
    | electronPercent x => exact key trivial (by simp only [BnoMeets, hz]; nlinarith)
    | excitedPercent x => exact key trivial (by simp only [BnoMeets, List.take_length]; nlinarith)

theorem take_filter_desc (occup : List K) (x : K) (hs : occup.Pairwise fun a b => b ≤ a) (f : List C) (hl : f.length = occup.length) :
    f.take (occup.filter fun o => decide (x ≤ o)).length = ((f.zip occup).filter fun p => decide (x ≤ p.2)).map (·.1) := by
  induction occup generalizing f with
  | nil => cases f <;> simp at hl ⊢
  | cons a l ih =>
    cases f with
    | nil => simp at hl
    | cons c f =>
      have ih' := ih hs.of_cons f (by simpa using hl)
      by_cases h : x ≤ a
      · simp [List.filter_cons, h, ih']
      · have hnil : l.filter (fun o => decide (x ≤ o)) = [] := by
          rw [List.filter_eq_nil_iff]
          intro y hy
          have := (List.pairwise_cons.1 hs).1 y hy
          simp only [decide_eq_true_eq, not_le]
          exact lt_of_le_of_lt this (not_le.1 h)
        rw [hnil] at ih'
        simp only [List.filter_cons, h, decide_false, Bool.false_eq_true, if_false, hnil, List.length_nil, List.take_zero,
          List.zip_cons_cons] at ih' ⊢
        exact ih'

/-- **C22, occupation criterion.** For occupations in descending order exactly the orbitals with occupation at or above the
threshold are kept; a plain number means the same. -/
theorem truncateBno_occupation (coeff : List C) (occup : List K) (hlen : coeff.length = occup.length)
    (hs : occup.Pairwise fun a b => b ≤ a) (x nelec : K) :
    ∃ rest, truncateBno coeff occup (.thr (.occupation x)) nelec =
        .ok (((coeff.zip occup).filter fun p => decide (x ≤ p.2)).map (·.1), rest) ∧
      truncateBno coeff occup (.num x) nelec = truncateBno coeff occup (.thr (.occupation x)) nelec := by
  have h1 : (Threshold.occupation x).getNumber occup (some nelec) = .ok (((occup.filter fun o => decide (x ≤ o)).length : Nat) : Int) := by
    by_cases hne : occup = []
    · subst hne; rfl
    · simp [Threshold.getNumber, hne]
  refine ⟨coeff.drop (occup.filter fun o => decide (x ≤ o)).length, ?_, rfl⟩
  simp only [truncateBno, h1, Except.map, hsplit]
  rw [← take_filter_desc occup x hs coeff hlen]
  simp

/-- **C22, fixed number.** A non-negative number keeps exactly that many orbitals (all of them if there are fewer). -/
theorem truncateBno_number (coeff : List C) (occup : List K) (hlen : coeff.length = occup.length) (n : Nat) (nelec : K) :
    ∃ kept rest, truncateBno coeff occup (.thr (.number n)) nelec = .ok (kept, rest) ∧
      kept.length = min n coeff.length ∧ kept = coeff.take n := by
  by_cases hne : occup = []
  · subst hne
    have : coeff = [] := by simpa using hlen
    subst this
    exact ⟨[], [], by simp [truncateBno, Threshold.getNumber, Except.map, hsplit], by simp, by simp⟩
  · refine ⟨coeff.take n, coeff.drop n, ?_, by simp, rfl⟩
    simp [truncateBno, Threshold.getNumber, hne, Except.map, hsplit]

/-- **C22, invalid input.** No threshold at all is an error; an unknown criterion is a ValueError; the bosonic bath rejects the
percentage criteria. -/
theorem bno_invalid (coeff : List C) (occup : List K) (nelec x : K) (n : Int) (type : String) :
    truncateBno coeff occup .none nelec = .error .attributeError ∧
    (Threshold.make type x n = .error .valueError ↔
      type ∉ ["number", "occupation", "truncation", "electron-percent", "excited-percent"]) ∧
    (bosonThreshold type x n = .error .valueError ↔ type ∉ ["number", "occupation", "truncation"]) := by
  refine ⟨rfl, ?_, ?_⟩
  · unfold Threshold.make
    split_ifs <;> simp_all
  · unfold bosonThreshold Threshold.make
    by_cases h : type = "electron-percent" ∨ type = "excited-percent"
    · rw [if_pos h]
      rcases h with rfl | rfl <;> simp
    · rw [if_neg h]
      rw [not_or] at h
      simp only [h.1, h.2, if_false]
      split_ifs <;> simp_all

/-- **C22, criteria by name.** Each type string selects the criterion of that name, whose meaning is given by
`truncateBno_minimal`, `truncateBno_occupation` and `truncateBno_number`; a plain number means an occupation threshold. -/
theorem bno_criteria (coeff : List C) (occup : List K) (nelec x : K) (n : Int) :
    Threshold.make "number" x n = .ok (.number n) ∧
    Threshold.make "occupation" x n = .ok (.occupation x) ∧
    Threshold.make "truncation" x n = .ok (.truncation x) ∧
    Threshold.make "electron-percent" x n = .ok (.electronPercent x) ∧
    Threshold.make "excited-percent" x n = .ok (.excitedPercent x) ∧
    (∀ t, Threshold.make "occupation" x n = .ok t →
      truncateBno coeff occup (.num x) nelec = truncateBno coeff occup (.thr t) nelec) := by
  refine ⟨by simp [Threshold.make], by simp [Threshold.make], by simp [Threshold.make], by simp [Threshold.make],
    by simp [Threshold.make], ?_⟩
  intro t ht
  simp [Threshold.make] at ht
  subst ht
  rfl

/-- The bosonic truncation agrees with the fermionic one for every criterion it accepts. -/
theorem truncateBosons_eq (coeff : List C) (occup : List K) (nelec x : K) (n : Int) (type : String) (t : Threshold K)
    (ht : bosonThreshold type x n = .ok t) :
    truncateBosons coeff occup (.thr t) = truncateBno coeff occup (.thr t) nelec := by
  unfold bosonThreshold Threshold.make at ht
  split_ifs at ht with h1 h2 h3 h4 h5 h6 <;>
    first
    | (cases ht; rfl)
    | exact (h1 (Or.inl h5)).elim
    | exact (h1 (Or.inr h6)).elim

/-- Examples: dropping at most 0.15 electrons of `[0.5, 0.3, 0.1, 0.04]`, and reaching 80 % of them. -/
example : truncateBno ['a', 'b', 'c', 'd'] ([1/2, 3/10, 1/10, 1/25] : List ℚ) (.thr (.truncation (3/20))) 2 =
    .ok (['a', 'b'], ['c', 'd']) := by
  norm_num [truncateBno, Threshold.getNumber, searchFrom, Except.map, hsplit]
  exact ⟨rfl, rfl⟩
example : truncateBno ['a', 'b', 'c', 'd'] ([1/2, 3/10, 1/10, 1/25] : List ℚ) (.thr (.occupation (1/10))) 2 =
    .ok (['a', 'b', 'c'], ['d']) := by
  norm_num [truncateBno, Threshold.getNumber, Except.map, hsplit, List.filter]
  exact ⟨rfl, rfl⟩
/-- A negative threshold cannot be met. -/
example : truncateBno ['a'] ([1/2] : List ℚ) (.thr (.truncation (-1))) 2 = .error .runtimeError := by
  norm_num [truncateBno, Threshold.getNumber, searchFrom, Except.map, hsplit]

end Vayesta.Props
