import Verif.Model.DmetCpt
import Mathlib.Algebra.Ring.Parity
import Mathlib.Tactic.Linarith
import Mathlib.Tactic.Ring
import Mathlib.Tactic.NormNum
import Mathlib.Algebra.Order.Field.Rat
import Mathlib.Algebra.Order.Ring.Unbundled.Rat

/-! # C24: direction and bracket of the DMET chemical-potential search -/

namespace Vayesta.Props
open Vayesta.DmetCpt

variable {K : Type} [Field K] [LinearOrder K] [IsStrictOrderedRing K]

/-- Number of linear-algebra errors in a history. -/
def caught (log : Log K) : Nat := (log.filter fun p => match p.2 with | .error .linAlg => true | _ => false).length

/-- After the first evaluation (at `cpt`, with error `err`), the `i`-th evaluation point is displaced from `cpt` against the sign
of `err`, flipped once for each linear-algebra error before. -/
def Directed (cpt err : K) (log : Log K) : Prop :=
  ∀ pre x r post, log = pre ++ (x, r) :: post → pre ≠ [] → (x - cpt) * err * (-1) ^ caught pre < 0

theorem caught_snoc_ok (log : Log K) (x v : K) : caught (log ++ [(x, .ok v)]) = caught log := by
  simp [caught]
theorem caught_snoc_lin (log : Log K) (x : K) : caught (log ++ [(x, .error .linAlg)]) = caught log + 1 := by
  simp [caught]

theorem directed_snoc (cpt err : K) (log : Log K) (x : K) (r : Except EvalErr K) (h : Directed cpt err log)
    (hx : (x - cpt) * err * (-1) ^ caught log < 0) : Directed cpt err (log ++ [(x, r)]) := by
  intro pre y s post heq hne
  rcases List.append_eq_append_iff.1 heq with ⟨t, h1, h2⟩ | ⟨t, h1, h2⟩
  · cases t with
    | nil =>
      simp only [List.append_nil] at h1
      simp only [List.nil_append, List.cons.injEq, Prod.mk.injEq] at h2
      obtain ⟨⟨rfl, -⟩, -⟩ := h2
      rw [h1]; exact hx
    | cons a t => simp at h2
  · cases t with
    | nil =>
      simp only [List.append_nil] at h1
      simp only [List.nil_append, List.cons.injEq, Prod.mk.injEq] at h2
      obtain ⟨⟨rfl, -⟩, -⟩ := h2
      rw [← h1]; exact hx
    | cons a t =>
      simp only [List.cons_append, List.cons.injEq] at h2
      exact h pre y s t (by rw [h1, h2.1]) hne

/-- Loop invariant: the trial value was just obtained or is the old one, and the trial point continues in the current direction. -/
structure Inv (cpt err oldErr : K) (log : Log K) (newCpt newErr : K) : Prop where
  dir : Directed cpt err log
  next : (newCpt - cpt) * err * (-1) ^ caught log < 0
  fresh : (newCpt, .ok newErr) ∈ log ∨ newErr = oldErr

theorem tryEval_spec (func : Func K) (ccsd : Bool) (cpt err newCpt newErr : K) (log : Log K) (hd : Directed cpt err log)
    (hn : (newCpt - cpt) * err * (-1) ^ caught log < 0) :
    Directed cpt err (tryEval func ccsd cpt newCpt newErr log).2 ∧
    log <+: (tryEval func ccsd cpt newCpt newErr log).2 ∧
    ∀ a b, (tryEval func ccsd cpt newCpt newErr log).1 = .ok (a, b) →
      Inv cpt err newErr (tryEval func ccsd cpt newCpt newErr log).2 a b := by
  unfold tryEval
  have hd' := fun r => directed_snoc cpt err log newCpt r hd hn
  cases hr : func log newCpt with
  | ok v =>
    refine ⟨hd' _, List.prefix_append _ _, ?_⟩
    intro a b hab
    simp only [Except.ok.injEq, Prod.mk.injEq] at hab
    obtain ⟨rfl, rfl⟩ := hab
    exact ⟨hd' _, by simp only [caught_snoc_ok]; exact hn, Or.inl (by simp)⟩
  | error e =>
    cases e with
    | other e => exact ⟨hd' _, List.prefix_append _ _, by intro a b h; cases h⟩
    | linAlg =>
      cases ccsd with
      | false => exact ⟨hd' _, List.prefix_append _ _, by intro a b h; cases h⟩
      | true =>
        refine ⟨hd' _, List.prefix_append _ _, ?_⟩
        intro a b hab
        simp only [if_true, Except.ok.injEq, Prod.mk.injEq] at hab
        obtain ⟨rfl, rfl⟩ := hab
        refine ⟨hd' _, ?_, Or.inr rfl⟩
        simp only [if_true, caught_snoc_lin, pow_succ]
        have : (cpt - (newCpt - cpt) * 3 / 8 - cpt) * err * ((-1) ^ caught log * -1) =
          3 / 8 * ((newCpt - cpt) * err * (-1) ^ caught log) := by ring
        rw [this]
        linarith

theorem tryLoop_spec (func : Func K) (ccsd : Bool) (cpt err : K) (n : Nat) (newCpt newErr : K) (log : Log K)
    (hd : Directed cpt err log) (hnx : (newCpt - cpt) * err * (-1) ^ caught log < 0) (hs : 0 ≤ err * newErr) :
    Directed cpt err (tryLoop func ccsd cpt err n newCpt newErr log).2 ∧
    log <+: (tryLoop func ccsd cpt err n newCpt newErr log).2 ∧
    ∀ lo hi', (tryLoop func ccsd cpt err n newCpt newErr log).1 = .bracket lo hi' →
      ∃ x v, (x, .ok v) ∈ (tryLoop func ccsd cpt err n newCpt newErr log).2 ∧ lo = min cpt x ∧ hi' = max cpt x ∧ err * v ≤ 0 := by
  induction n generalizing newCpt newErr log with
  | zero => exact ⟨hd, List.prefix_refl _, by intro lo h' h; cases h⟩
  | succ n ih =>
    have hn : (cpt + (newCpt - cpt) * 2 - cpt) * err * (-1) ^ caught log < 0 := by
      have e : (cpt + (newCpt - cpt) * 2 - cpt) * err * (-1) ^ caught log = 2 * ((newCpt - cpt) * err * (-1) ^ caught log) := by ring
      rw [e]; linarith
    obtain ⟨h1, h2, h3⟩ := tryEval_spec func ccsd cpt err _ newErr log hd hn
    simp only [tryLoop]
    cases ht : tryEval func ccsd cpt (cpt + (newCpt - cpt) * 2) newErr log with
    | mk r log' =>
      rw [ht] at h1 h2 h3
      cases r with
      | error e => exact ⟨h1, h2, by intro lo h' h; cases h⟩
      | ok p =>
        obtain ⟨a, b⟩ := p
        have inv := h3 a b rfl
        simp only at inv h1 h2 ⊢
        by_cases hneg : err * b < 0
        · rw [if_pos hneg]
          refine ⟨h1, h2, ?_⟩
          intro lo h' hb
          simp only [Outcome.bracket.injEq] at hb
          obtain ⟨rfl, rfl⟩ := hb
          rcases inv.fresh with hm | hm
          · exact ⟨a, b, hm, rfl, rfl, le_of_lt hneg⟩
          · rw [hm] at hneg; linarith
        · rw [if_neg hneg]
          obtain ⟨i1, i2, i3⟩ := ih a b log' inv.dir inv.next (not_lt.1 hneg)
          exact ⟨i1, h2.trans i2, i3⟩

theorem sgn_mul_pos (x : K) (h : x ≠ 0) : 0 < Cpt.sgn x * x := by
  unfold Cpt.sgn
  split
  · rwa [one_mul]
  · split
    · linarith
    · rename_i h1 h2
      exact absurd (le_antisymm (not_lt.1 h1) (not_lt.1 h2)) h

theorem search_spec (func : Func K) (ccsd : Bool) (cpt maxErr : K) (hmax : 0 ≤ maxErr) :
    ∀ err, func [] cpt = .ok err →
    Directed cpt err (search func ccsd cpt maxErr).2 ∧ [(cpt, .ok err)] <+: (search func ccsd cpt maxErr).2 ∧
    ∀ lo hi, (search func ccsd cpt maxErr).1 = .bracket lo hi →
      ∃ x v, (x, .ok v) ∈ (search func ccsd cpt maxErr).2 ∧ lo = min cpt x ∧ hi = max cpt x ∧ err * v ≤ 0 := by
  intro err herr
  have hd0 : Directed cpt err [(cpt, .ok err)] := by
    intro pre x r post h hne
    cases pre with
    | nil => exact absurd rfl hne
    | cons a pre => simp at h
  unfold search
  rw [herr]
  simp only
  by_cases hbig : maxErr < |err|
  · rw [if_pos hbig]
    have hne : err ≠ 0 := by rintro rfl; rw [abs_zero] at hbig; linarith
    have hn : (cpt - Cpt.sgn err * (1 / 10) - cpt) * err * (-1) ^ caught ([(cpt, .ok err)] : Log K) < 0 := by
      have hc : caught ([(cpt, .ok err)] : Log K) = 0 := rfl
      have := sgn_mul_pos err hne
      rw [hc, pow_zero, mul_one]
      have e : (cpt - Cpt.sgn err * (1 / 10) - cpt) * err = -(1 / 10 * (Cpt.sgn err * err)) := by ring
      rw [e]; linarith
    obtain ⟨h1, h2, h3⟩ := tryEval_spec func ccsd cpt err _ err _ hd0 hn
    cases ht : tryEval func ccsd cpt (cpt - Cpt.sgn err * (1 / 10)) err [(cpt, .ok err)] with
    | mk r log' =>
      rw [ht] at h1 h2 h3
      cases r with
      | error e => exact ⟨h1, h2, by intro lo h' h; cases h⟩
      | ok p =>
        obtain ⟨a, b⟩ := p
        have inv := h3 a b rfl
        simp only at inv h1 h2 ⊢
        by_cases hpos : 0 < err * b
        · rw [if_pos hpos]
          obtain ⟨i1, i2, i3⟩ := tryLoop_spec func ccsd cpt err 10 a b log' inv.dir inv.next (le_of_lt hpos)
          exact ⟨i1, h2.trans i2, i3⟩
        · rw [if_neg hpos]
          refine ⟨h1, h2, ?_⟩
          intro lo h' hb
          simp only [Outcome.bracket.injEq] at hb
          obtain ⟨rfl, rfl⟩ := hb
          rcases inv.fresh with hm | hm
          · exact ⟨a, b, hm, rfl, rfl, not_lt.1 hpos⟩
          · rw [hm] at hpos
            exact absurd (mul_self_pos.2 hne) hpos
  · rw [if_neg hbig]
    exact ⟨hd0, List.prefix_refl _, by intro lo hi h; cases h⟩

theorem search_noLin (func : Func K) (ccsd : Bool) (cpt maxErr : K) (hno : ∀ log x, func log x ≠ .error .linAlg) :
    ∀ p ∈ (search func ccsd cpt maxErr).2, p.2 ≠ .error .linAlg := by
  have hE : ∀ a b (log : Log K), (∀ p ∈ log, p.2 ≠ .error .linAlg) →
      ∀ p ∈ (tryEval func ccsd cpt a b log).2, p.2 ≠ .error .linAlg := by
    intro a b log hl
    have hl' : ∀ p ∈ log ++ [(a, func log a)], p.2 ≠ .error .linAlg := by
      intro p hp
      rcases List.mem_append.1 hp with hp | hp
      · exact hl p hp
      · rw [List.mem_singleton] at hp
        subst hp
        exact hno log a
    unfold tryEval
    cases hr : func log a with
    | ok v => rw [hr] at hl'; exact hl'
    | error e =>
      rw [hr] at hl'
      cases e with
      | linAlg => cases ccsd <;> exact hl'
      | other e => exact hl'
  have hL : ∀ n err a b (log : Log K), (∀ p ∈ log, p.2 ≠ .error .linAlg) →
      ∀ p ∈ (tryLoop func ccsd cpt err n a b log).2, p.2 ≠ .error .linAlg := by
    intro n err
    induction n with
    | zero => intro a b log hl; exact hl
    | succ n ih =>
      intro a b log hl
      have h1 := hE (cpt + (a - cpt) * 2) b log hl
      simp only [tryLoop]
      cases ht : tryEval func ccsd cpt (cpt + (a - cpt) * 2) b log with
      | mk r log' =>
        rw [ht] at h1
        cases r with
        | error e => exact h1
        | ok p =>
          obtain ⟨c, d⟩ := p
          simp only
          split
          · exact h1
          · exact ih c d log' h1
  unfold search
  cases herr : func [] cpt with
  | error e =>
    simp only [List.mem_singleton]
    rintro p rfl
    rw [← herr]
    exact hno [] cpt
  | ok err =>
    have h0 : ∀ p ∈ ([(cpt, .ok err)] : Log K), p.2 ≠ .error .linAlg := by
      simp only [List.mem_singleton]
      rintro p rfl
      simp
    simp only
    split
    · have h1 := hE (cpt - Cpt.sgn err * (1 / 10)) err _ h0
      cases ht : tryEval func ccsd cpt (cpt - Cpt.sgn err * (1 / 10)) err [(cpt, .ok err)] with
      | mk r log' =>
        rw [ht] at h1
        cases r with
        | error e => exact h1
        | ok p =>
          obtain ⟨c, d⟩ := p
          simp only
          split
          · exact hL 10 err c d log' h1
          · exact h1
    · exact h0

/-- **C24, bracket.** Whenever the search hands an interval to the root finder, one end is the starting point, the other end is a
point at which the error was evaluated successfully, and the two errors have opposite sign (or one is zero). This holds also when
linear-algebra errors were caught on the way. -/
theorem dmet_cpt_bracket (func : Func K) (ccsd : Bool) (cpt maxErr : K) (hmax : 0 ≤ maxErr) (lo hi : K)
    (h : (search func ccsd cpt maxErr).1 = .bracket lo hi) :
    ∃ vlo vhi, lo ≤ hi ∧ (lo, .ok vlo) ∈ (search func ccsd cpt maxErr).2 ∧ (hi, .ok vhi) ∈ (search func ccsd cpt maxErr).2 ∧
      vlo * vhi ≤ 0 ∧ (lo = cpt ∨ hi = cpt) := by
  cases herr : func [] cpt with
  | error e => simp [search, herr] at h
  | ok err =>
    obtain ⟨-, h2, h3⟩ := search_spec func ccsd cpt maxErr hmax err herr
    obtain ⟨x, v, hx, rfl, rfl, hv⟩ := h3 lo hi h
    have hc : (cpt, .ok err) ∈ (search func ccsd cpt maxErr).2 := h2.subset (by simp)
    rcases le_total cpt x with hle | hle
    · rw [min_eq_left hle, max_eq_right hle]
      exact ⟨err, v, hle, hc, hx, hv, Or.inl rfl⟩
    · rw [min_eq_right hle, max_eq_left hle]
      exact ⟨v, err, hle, hx, hc, by rw [mul_comm]; exact hv, Or.inr rfl⟩

/-- The direction claim in full: every trial point of the search lies on the side of the starting chemical potential that is
opposite to the electron-number error. -/
def DirectionClaim (func : Func K) (ccsd : Bool) (cpt maxErr : K) : Prop :=
  ∀ err, func [] cpt = .ok err → ∀ x r, (x, r) ∈ (search func ccsd cpt maxErr).2.tail → (x - cpt) * err < 0

/-- **C24, direction (partial).** The direction claim holds as long as no linear-algebra error is raised. Missing: calculations in
which such an error is caught (see `dmet_cpt_direction_false`). -/
theorem dmet_cpt_direction_partial (func : Func K) (ccsd : Bool) (cpt maxErr : K) (hmax : 0 ≤ maxErr)
    (hno : ∀ log x, func log x ≠ .error .linAlg) : DirectionClaim func ccsd cpt maxErr := by
  intro err herr x r hx
  obtain ⟨h1, h2, -⟩ := search_spec func ccsd cpt maxErr hmax err herr
  obtain ⟨t, ht⟩ := h2
  rw [← ht] at hx
  simp only [List.cons_append, List.nil_append, List.tail_cons] at hx
  obtain ⟨pre, post, rfl⟩ := List.append_of_mem hx
  have h3 := h1 ((cpt, .ok err) :: pre) x r post (by rw [← ht]; simp) (by simp)
  have hgen : ∀ p ∈ (search func ccsd cpt maxErr).2, p.2 ≠ .error .linAlg := search_noLin func ccsd cpt maxErr hno
  have hz : caught ((cpt, .ok err) :: pre : Log K) = 0 := by
    unfold caught
    rw [List.length_eq_zero_iff, List.filter_eq_nil_iff]
    intro p hp
    have := hgen p (by rw [← ht]; simp only [List.cons_append, List.nil_append, List.mem_cons, List.mem_append] at hp ⊢; tauto)
    obtain ⟨y, q⟩ := p
    cases q with
    | ok v => simp
    | error e => cases e with
      | linAlg => exact absurd rfl this
      | other e => simp
  rwa [hz, pow_zero, mul_one] at h3

/-- **C24, direction, exact form.** In general the direction flips at every caught linear-algebra error: the trial point after `k`
of them is displaced against the error for even `k` and with the error for odd `k`. -/
theorem dmet_cpt_direction_flips (func : Func K) (ccsd : Bool) (cpt maxErr : K) (hmax : 0 ≤ maxErr) (err : K)
    (herr : func [] cpt = .ok err) (pre post : Log K) (x : K) (r : Except EvalErr K)
    (h : (search func ccsd cpt maxErr).2 = pre ++ (x, r) :: post) (hpre : pre ≠ []) :
    (Even (caught pre) → (x - cpt) * err < 0) ∧ (Odd (caught pre) → 0 < (x - cpt) * err) := by
  have h3 := (search_spec func ccsd cpt maxErr hmax err herr).1 pre x r post h hpre
  constructor
  · intro he
    rwa [he.neg_one_pow, mul_one] at h3
  · intro ho
    rw [ho.neg_one_pow] at h3
    linarith

/-- A system with one excess electron at every chemical potential, whose solver fails at the first trial point. -/
def failingOnce : Func ℚ := fun log _ => if log.length = 1 then .error .linAlg else .ok 1

/-- **C24, direction: false in general.** After the caught error the search moves to a larger chemical potential although there are
too many electrons. -/
theorem dmet_cpt_direction_false : ¬ DirectionClaim failingOnce true 0 (1 / 1000) := by
  intro h
  have := h 1 rfl (3 / 40) (.ok 1) (by
    norm_num [search, failingOnce, tryEval, tryLoop, Cpt.sgn])
  norm_num at this

/-- Example for the bracket theorem: error `1 + 4 cpt` from 0; the second trial gives the bracket. -/
example : ∃ lo hi, (search (fun _ x => .ok (1 + 4 * x)) true (0 : ℚ) (1 / 1000)).1 = .bracket lo hi := by
  refine ⟨-(2/5), 0, ?_⟩
  norm_num [search, tryEval, tryLoop, Cpt.sgn]

end Vayesta.Props
