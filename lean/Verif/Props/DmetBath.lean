import Verif.Model.DmetBath
import Mathlib.Tactic.Linarith
import Mathlib.Tactic.NormNum
import Mathlib.Data.List.Pairwise
import Mathlib.Data.Rat.Defs
import Mathlib.Algebra.Order.Field.Rat
import Mathlib.Algebra.Order.Ring.Unbundled.Rat

/-! # C20: the DMET bath classifies every environment orbital exactly once -/

namespace Vayesta.Props
open Vayesta.DmetBath

variable {K : Type} [Field K] [LinearOrder K] [IsStrictOrderedRing K] {C : Type}

/-- Descending eigenvalues without an eigenvalue strictly between `1 - tol` and `tol`: the three filters concatenate to the list. -/
theorem filters_append (tol : K) (l : List (K × C)) (hs : l.Pairwise fun a b => b.1 ≤ a.1)
    (hno : ∀ x ∈ l, ¬ (1 - tol < x.1 ∧ x.1 < tol)) :
    l.filter (fun x => decide (1 - tol < x.1)) ++ l.filter (fun x => decide (tol ≤ x.1) && decide (x.1 ≤ 1 - tol)) ++
      l.filter (fun x => decide (x.1 < tol)) = l := by
  induction l with
  | nil => rfl
  | cons a l ih =>
    have ih' := ih hs.of_cons fun x hx => hno x (by simp [hx])
    have ha := hno a (by simp)
    have hle : ∀ x ∈ l, x.1 ≤ a.1 := (List.pairwise_cons.1 hs).1
    by_cases h1 : 1 - tol < a.1
    · have h2 : ¬ a.1 < tol := fun h => ha ⟨h1, h⟩
      have h3 : ¬ a.1 ≤ 1 - tol := not_le.2 h1
      simp only [List.filter_cons, h1, h2, h3, decide_true, decide_false, Bool.and_false, if_true, List.cons_append]
      simpa using ih'
    · have hocc : l.filter (fun x => decide (1 - tol < x.1)) = [] := by
        rw [List.filter_eq_nil_iff]
        intro x hx
        simpa using (hle x hx).trans (not_lt.1 h1)
      by_cases h2 : a.1 < tol
      · have hb : l.filter (fun x => decide (tol ≤ x.1) && decide (x.1 ≤ 1 - tol)) = [] := by
          rw [List.filter_eq_nil_iff]
          intro x hx
          have := lt_of_le_of_lt (hle x hx) h2
          simp [this]
        rw [hocc, hb] at ih'
        simp only [List.filter_cons, h1, h2, decide_true, decide_false, not_le.2 h2, Bool.false_and, hocc, hb]
        simpa using ih'
      · rw [hocc] at ih'
        simp only [List.filter_cons, h1, h2, decide_false, not_lt.1 h2, not_lt.1 h1, decide_true, Bool.and_self, if_true, hocc]
        simpa using ih'

theorem mask_lengths (tol : K) (l : List (K × C)) :
    (l.filter (fun x => decide (tol ≤ x.1) && decide (x.1 ≤ 1 - tol))).length +
      (l.filter (fun x => decide (1 - tol < x.1))).length + (l.filter (fun x => decide (x.1 < tol))).length =
    l.length + (l.filter fun x => decide (1 - tol < x.1) && decide (x.1 < tol)).length := by
  induction l with
  | nil => rfl
  | cons a l ih =>
    by_cases h1 : 1 - tol < a.1 <;> by_cases h2 : a.1 < tol <;>
      simp [List.filter_cons, h1, h2, not_le.2, not_lt.1] <;>
      first
      | (simp [not_lt.1 h1, not_lt.1 h2]; omega)
      | (simp [not_lt.1 h1]; omega)
      | (simp [not_lt.1 h2]; omega)
      | omega

/-- Without environment orbitals there is no bath and no environment, whatever the tolerance and `nbath`. -/
theorem dmetBath_empty (tol : K) (nb : Option Nat) :
    makeDmetBath tol nb ([] : List (K × C)) = .ok ⟨[], [], [], []⟩ := rfl

/-- A requested number of bath orbitals is not implemented. -/
theorem dmetBath_nbath (tol : K) (n : Nat) (env : List (K × C)) (h : env ≠ []) :
    makeDmetBath tol (some n) env = .error .notImplementedError := by
  simp [makeDmetBath, h]

/-- **C20.** With any tolerance up to one half the construction succeeds: occupied environment, bath and virtual environment in
this order are exactly the environment orbitals by descending eigenvalue, every one once; an orbital is in the bath iff its
eigenvalue lies in `[tol, 1 - tol]`, in the occupied environment iff above, in the virtual environment iff below; the returned
occupations are the eigenvalues of the bath orbitals. -/
theorem dmetBath_partition (tol : K) (htol : tol ≤ 1 / 2) (env : List (K × C)) (hs : env.Pairwise fun a b => a.1 ≤ b.1) :
    ∃ occ bath vir : List (K × C),
      makeDmetBath tol none env = .ok ⟨bath.map (·.2), bath.map (·.1), occ.map (·.2), vir.map (·.2)⟩ ∧
      occ ++ bath ++ vir = env.reverse ∧
      (∀ x ∈ occ, 1 - tol < x.1) ∧ (∀ x ∈ bath, tol ≤ x.1 ∧ x.1 ≤ 1 - tol) ∧ (∀ x ∈ vir, x.1 < tol) := by
  have hno : ∀ x ∈ env.reverse, ¬ (1 - tol < x.1 ∧ x.1 < tol) := by
    rintro x - ⟨h1, h2⟩
    linarith
  have happ := filters_append tol env.reverse (List.pairwise_reverse.2 hs) hno
  refine ⟨_, _, _, ?_, happ, ?_, ?_, ?_⟩
  · unfold makeDmetBath
    by_cases h0 : env.length = 0
    · rw [List.length_eq_zero_iff] at h0
      subst h0
      simp
    · have hlen := congrArg List.length happ
      simp only [List.length_append] at hlen
      rw [if_neg h0]
      simp only [Option.isSome_none, Bool.false_eq_true, if_false]
      rw [if_pos (by omega)]
  · intro x hx; simpa using (List.mem_filter.1 hx).2
  · intro x hx; simpa using (List.mem_filter.1 hx).2
  · intro x hx; simpa using (List.mem_filter.1 hx).2

/-- **C20, any tolerance.** The construction raises the assertion error exactly when some eigenvalue lies strictly between
`1 - tol` and `tol` (possible only for a tolerance above one half); otherwise it partitions the environment in the same way. -/
theorem dmetBath_any_tol (tol : K) (env : List (K × C)) (hs : env.Pairwise fun a b => a.1 ≤ b.1) :
    (makeDmetBath tol none env = .error .assertionError ↔ ∃ x ∈ env, 1 - tol < x.1 ∧ x.1 < tol) ∧
    (∀ res, makeDmetBath tol none env = .ok res →
      res.cOccEnv ++ res.cBath ++ res.cVirEnv = (env.map (·.2)).reverse ∧ res.nDmet.length = res.cBath.length) ∧
    (∀ e, makeDmetBath tol none env = .error e → e = .assertionError) := by
  unfold makeDmetBath
  by_cases h0 : env.length = 0
  · rw [List.length_eq_zero_iff] at h0
    subst h0
    simp
  · have hl := mask_lengths tol env.reverse
    simp only [if_neg h0, Option.isSome_none, Bool.false_eq_true, if_false]
    have key : (env.reverse.filter fun x => decide (1 - tol < x.1) && decide (x.1 < tol)).length = 0 ↔
        ∀ x ∈ env.reverse, ¬ (1 - tol < x.1 ∧ x.1 < tol) := by
      rw [List.length_eq_zero_iff, List.filter_eq_nil_iff]
      simp
    split
    · rename_i h
      have hz := key.1 (by omega)
      have happ := filters_append tol env.reverse (List.pairwise_reverse.2 hs) hz
      refine ⟨?_, ?_, by simp⟩
      · simp only [reduceCtorEq, false_iff]
        rintro ⟨x, hx, h⟩
        exact hz x (by simpa using hx) h
      · rintro res h
        cases h
        simp only [List.length_map, and_true]
        rw [← List.map_append, ← List.map_append, happ, List.map_reverse]
    · rename_i h
      refine ⟨?_, by simp, by simp⟩
      simp only [true_iff]
      by_contra hno
      push Not at hno
      exact h (by have := key.2 (by intro x hx hh; exact absurd hh.2 (not_lt.2 (hno x (by simpa using hx) hh.1))); omega)

/-- Example: a four-orbital environment with tolerance 1/1000. -/
example : ∃ res, makeDmetBath (1/1000 : ℚ) none [(0, 'a'), (1/2, 'b'), (9/10, 'c'), (1, 'd')] = .ok res ∧
    res.cBath = ['c', 'b'] ∧ res.cOccEnv = ['d'] ∧ res.cVirEnv = ['a'] := by
  refine ⟨⟨['c', 'b'], [9/10, 1/2], ['d'], ['a']⟩, ?_, rfl, rfl, rfl⟩
  norm_num [makeDmetBath, List.filter]
/-- Example: with a tolerance of 3/4 an eigenvalue 1/2 makes it raise. -/
example : makeDmetBath (3/4 : ℚ) none [(1/2, 'b')] = .error .assertionError := by norm_num [makeDmetBath, List.filter]
example : ([(0, 'a'), (1/2, 'b'), (9/10, 'c'), (1, 'd')] : List (ℚ × Char)).Pairwise fun a b => a.1 ≤ b.1 := by
  simp; norm_num

end Vayesta.Props
