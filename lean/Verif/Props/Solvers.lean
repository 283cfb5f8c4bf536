import Verif.Spec.Solvers
import Mathlib.Tactic.Tauto
import Mathlib.Tactic.FinCases

/-! C40: solver selection. -/

namespace Vayesta.Props
open Vayesta Vayesta.Solvers

private theorem containsCC_iff : ∀ l : List Char, containsCC l = true ↔ ∃ a b, l = a ++ 'C' :: 'C' :: b
  | [] => by simp [containsCC]
  | [c] => by
    have h : containsCC [c] = false := by
      unfold containsCC
      split
      · rename_i h; cases h
      · rename_i h; injection h with _ h; subst h; rfl
      · rfl
    rw [h]
    simp only [Bool.false_eq_true, false_iff]
    rintro ⟨a, b, hab⟩
    have := congrArg List.length hab
    simp at this
    omega
  | c :: d :: cs => by
    have ih := containsCC_iff (d :: cs)
    by_cases hc : c = 'C' ∧ d = 'C'
    · obtain ⟨rfl, rfl⟩ := hc
      simp only [containsCC, true_iff]
      exact ⟨[], cs, rfl⟩
    · have h1 : containsCC (c :: d :: cs) = containsCC (d :: cs) := by
        rw [containsCC]
        intro b h1 h2
        injection h2 with h2 h3
        exact hc ⟨h1, h2⟩
      rw [h1, ih]
      constructor
      · rintro ⟨a, b, hab⟩; exact ⟨c :: a, b, by rw [hab]; rfl⟩
      · rintro ⟨a, b, hab⟩
        cases a with
        | nil =>
          simp only [List.nil_append, List.cons.injEq] at hab
          exact absurd ⟨hab.1, hab.2.1⟩ hc
        | cons x a =>
          simp only [List.cons_append, List.cons.injEq] at hab
          exact ⟨a, b, hab.2⟩

private theorem cc_iff (s : String) : containsCC s.toList = true ↔ NamesCC s := containsCC_iff _

private theorem dict_none (s : String) (uhf eb : Bool) (h : ¬Builtin s eb) : solverDict.lookup (s, uhf, eb) = none := by
  unfold Builtin builtinNames at h
  simp only [List.mem_cons, List.not_mem_nil, or_false, not_or, not_and] at h
  obtain ⟨h1, h2⟩ := h
  have hne : ∀ (n : String) (u e : Bool), (eb = e → s ≠ n) → ((s, uhf, eb) == (n, u, e)) = false := by
    intro n u e hn
    rw [beq_eq_false_iff_ne]
    intro hh
    injection hh with ha hb
    injection hb with hb hc
    exact hn hc ha
  unfold solverDict
  cases eb with
  | false =>
    obtain ⟨a1, a2, a3, a4, a5, a6, a7, a8, a9⟩ := h1 rfl
    simp only [List.lookup, hne _ _ _ (fun _ => a1), hne _ _ _ (fun _ => a2), hne _ _ _ (fun _ => a3), hne _ _ _ (fun _ => a4),
      hne _ _ _ (fun _ => a5), hne _ _ _ (fun _ => a6), hne _ _ _ (fun _ => a7), hne _ _ _ (fun _ => a8), hne _ _ _ (fun _ => a9)]
  | true =>
    have b := h2 rfl
    have hf : ∀ (n : String) (u : Bool), ((s, uhf, true) == (n, u, false)) = false := fun n u => hne n u false (fun h => by cases h)
    simp only [List.lookup, hf, hne _ _ _ (fun _ => b)]

/-- **C40**: whatever the name, a lookup that succeeds returns a class made for exactly the requested spin symmetry and bosons. -/
theorem solver_lookup_usable (hasEbcc : Bool) (s : String) (uhf eb : Bool) (f : Factory)
    (h : lookup hasEbcc s uhf eb = .ok f) : f.target.UsableFor uhf eb := by
  have key : ∀ (l : List ((String × Bool × Bool) × Entry)),
      (∀ x ∈ l, ∀ c, x.2 = .cls c → c.UsableFor x.1.2.1 x.1.2.2) → ∀ c, l.lookup (s, uhf, eb) = some (.cls c) → c.UsableFor uhf eb := by
    intro l
    induction l with
    | nil => intro _ c hc; cases hc
    | cons x l ih =>
      intro hx c hc
      obtain ⟨k, v⟩ := x
      rw [List.lookup_cons] at hc
      split at hc
      · rename_i hk
        have hk := eq_of_beq hk
        injection hc with hc
        have := hx (k, v) List.mem_cons_self c hc
        rw [← hk] at this
        exact this
      · exact ih (fun y hy => hx y (List.mem_cons_of_mem _ hy)) c hc
  have htab : ∀ x ∈ solverDict, ∀ c, x.2 = .cls c → c.UsableFor x.1.2.1 x.1.2.2 := by
    unfold solverDict
    intro x hx c hc
    fin_cases hx <;> first | (injection hc with hc; subst hc; exact ⟨by decide, by decide⟩) | cases hc
  have hebcc : (ebccDict uhf eb).UsableFor uhf eb := by
    cases uhf <;> cases eb <;> exact ⟨by decide, by decide⟩
  have hint : lookupInternal hasEbcc s uhf eb = .ok f := by
    unfold lookup at h
    split at h
    · rename_i g hg; rw [hg]; injection h with h; rw [h]
    · cases h
    · cases h
  unfold lookupInternal at hint
  split at hint
  · cases hint
  · rename_i c hc
    injection hint with hint
    rw [← hint]
    exact key solverDict htab c hc
  · split at hint
    · cases hint
    · unfold lookupEbcc at hint
      split at hint
      · cases hint
      · split at hint <;> (injection hint with hint; rw [← hint]; exact hebcc)

private theorem lookup_builtin (hasEbcc : Bool) (s : String) (uhf eb : Bool) (h : Builtin s eb) :
    (∃ c, lookup hasEbcc s uhf eb = .ok (.cls c) ∧ ¬(uhf = true ∧ eb = false ∧ s ∈ restrictedOnly)) ∨
    (lookup hasEbcc s uhf eb = .error .notImplementedError ∧ uhf = true ∧ eb = false ∧ s ∈ restrictedOnly) := by
  rcases h with ⟨rfl, h⟩ | ⟨rfl, rfl⟩
  · unfold builtinNames at h
    simp only [List.mem_cons, List.not_mem_nil, or_false] at h
    rcases h with rfl | rfl | rfl | rfl | rfl | rfl | rfl | rfl | rfl <;> cases uhf <;>
      first
      | (left; exact ⟨_, rfl, by decide⟩)
      | (right; exact ⟨rfl, by decide⟩)
  · cases uhf <;> exact .inl ⟨_, rfl, by decide⟩

private theorem lookup_other (hasEbcc : Bool) (s : String) (uhf eb : Bool) (h : ¬Builtin s eb) :
    lookup hasEbcc s uhf eb =
      (if containsCC s.toList = false then .error .valueError
       else if hasEbcc = false then .error .importError
       else if s = "EBCC" then .ok (.cls (ebccDict uhf eb))
       else .ok (.withAnsatz (ebccDict uhf eb) (ansatzOf s eb))) := by
  unfold lookup lookupInternal
  rw [dict_none s uhf eb h]
  unfold lookupEbcc
  simp only
  by_cases h1 : containsCC s.toList = false
  · simp only [h1, if_true]
  · simp only [if_neg h1]
    by_cases h2 : hasEbcc = false
    · simp only [h2, if_true]
    · simp only [if_neg h2]
      by_cases h3 : s = "EBCC"
      · simp only [if_pos h3]
      · simp only [if_neg h3]

/-- **C40**: for every name and setting, the lookup succeeds, or raises ValueError, NotImplementedError or ImportError, under exactly
these conditions. -/
theorem solver_lookup_decision (hasEbcc : Bool) (s : String) (uhf eb : Bool) :
    ((∃ f, lookup hasEbcc s uhf eb = .ok f) ↔
      (Builtin s eb ∧ ¬(uhf = true ∧ eb = false ∧ s ∈ restrictedOnly)) ∨ (¬Builtin s eb ∧ NamesCC s ∧ hasEbcc = true)) ∧
    (lookup hasEbcc s uhf eb = .error .notImplementedError ↔ uhf = true ∧ eb = false ∧ s ∈ restrictedOnly) ∧
    (lookup hasEbcc s uhf eb = .error .valueError ↔ ¬Builtin s eb ∧ ¬NamesCC s) ∧
    (lookup hasEbcc s uhf eb = .error .importError ↔ ¬Builtin s eb ∧ NamesCC s ∧ hasEbcc = false) := by
  by_cases hB : Builtin s eb
  · rcases lookup_builtin hasEbcc s uhf eb hB with ⟨c, h1, h2⟩ | ⟨h1, h2⟩
    · rw [h1]
      simp only [hB, not_true_eq_false, false_and, or_false, true_and, h2, not_false_eq_true, iff_true, reduceCtorEq]
      exact ⟨⟨_, rfl⟩, trivial⟩
    · rw [h1]
      have hB' : Builtin s false := by rw [← h2.2.1]; exact hB
      simp only [hB', not_true_eq_false, and_false, false_and, or_false, h2.1, h2.2.1, h2.2.2, and_self, Except.error.injEq,
        reduceCtorEq, exists_false]
  · rw [lookup_other hasEbcc s uhf eb hB, ← cc_iff]
    have hr : ¬(uhf = true ∧ eb = false ∧ s ∈ restrictedOnly) := by
      rintro ⟨-, h2, h3⟩
      apply hB
      left
      refine ⟨h2, ?_⟩
      unfold restrictedOnly at h3
      unfold builtinNames
      simp only [List.mem_cons, List.not_mem_nil, or_false] at h3 ⊢
      tauto
    simp only [hB, hr, not_false_eq_true, true_and, false_and, false_or]
    cases h1 : containsCC s.toList
    · simp
    · cases hasEbcc
      · simp
      · by_cases h3 : s = "EBCC"
        · simp [h3]
        · simp [h3]

/-- **C40**: the ansatz passed to ebcc is the solver name, without a leading `EB`, except that CCSD with bosons becomes CCSD-SD-1-1; an
`ansatz` option that differs is a ValueError at construction. -/
theorem solver_ansatz (s : String) (uhf eb : Bool) (hB : ¬Builtin s eb) (hC : NamesCC s) (hE : s ≠ "EBCC") :
    ∃ a, lookup true s uhf eb = .ok (.withAnsatz (ebccDict uhf eb) a) ∧
      (∀ t : String, s = "EB" ++ t → ¬(t = "CCSD" ∧ eb = true) → a = t) ∧
      ((∀ t : String, s ≠ "EB" ++ t) → ¬(s = "CCSD" ∧ eb = true) → a = s) ∧
      ((s = "CCSD" ∨ s = "EBCCSD") → eb = true → a = "CCSD-SD-1-1") ∧
      construct (.withAnsatz (ebccDict uhf eb) a) none = .ok (ebccDict uhf eb, some a) ∧
      ∀ b, (construct (.withAnsatz (ebccDict uhf eb) a) (some b) = .ok (ebccDict uhf eb, some a) ↔ b = a) ∧
        (construct (.withAnsatz (ebccDict uhf eb) a) (some b) = .error .valueError ↔ b ≠ a) := by
  refine ⟨ansatzOf s eb, ?_, ?_, ?_, ?_, rfl, ?_⟩
  · rw [lookup_other true s uhf eb hB, if_neg (by rw [(cc_iff s).2 hC]; simp), if_neg (by simp), if_neg hE]
  · rintro t rfl ht
    unfold ansatzOf
    have h1 : ("EB" ++ t).toList = 'E' :: 'B' :: t.toList := by rw [String.toList_append]; rfl
    have h2 : ("EB" ++ t).toList.take 2 = "EB".toList := by rw [h1]; rfl
    have h3 : String.ofList (("EB" ++ t).toList.drop 2) = t := by rw [h1]; simp
    rw [if_pos h2, h3, if_neg ht]
  · intro hs ht
    unfold ansatzOf
    have h2 : ¬ s.toList.take 2 = "EB".toList := by
      intro h2
      apply hs (String.ofList (s.toList.drop 2))
      apply String.toList_inj.1
      rw [String.toList_append, ← h2, String.toList_ofList, List.take_append_drop]
    simp only [if_neg h2, if_neg ht]
  · rintro (rfl | rfl) rfl <;> rfl
  · intro b
    unfold construct
    simp only
    by_cases hb : b = ansatzOf s eb
    · rw [if_neg (by simpa using hb)]; simp [hb]
    · rw [if_pos hb]; simp [hb]

/-- **C40** (partial): with no conflicting `ansatz` option, the check made up front accepts exactly the configurations for which the
solver is constructed, provided the system has at least two basis functions and the clusters get bosons exactly if "crpa_full" was
requested as screening. The two provisos are needed (`check_solver_one_orbital`, `check_solver_bosonic_bath`). -/
theorem check_solver_partial (hasEbcc : Bool) (mo : MoCoeff) (crpaFull incBosons : Bool) (s : String)
    (hmo : ∀ n, mo = .restricted n → 2 ≤ n) (hb : (crpaFull || incBosons) = crpaFull) :
    (checkSolver hasEbcc mo crpaFull s = .ok () ↔ ∃ r, getSolver hasEbcc mo crpaFull incBosons s none = .ok r) ∧
    ∀ e, checkSolver hasEbcc mo crpaFull s = .error e ↔ getSolver hasEbcc mo crpaFull incBosons s none = .error e := by
  have hu : checkUhf mo = .ok (hamUhf mo) := by
    cases mo with
    | restricted n => exact if_pos (hmo n rfl)
    | unrestricted => rfl
  unfold checkSolver getSolver
  rw [hu, hb]
  simp only
  cases h : lookup hasEbcc s (hamUhf mo) crpaFull with
  | error e => simp
  | ok f =>
    cases f with
    | cls c => simp [construct]
    | withAnsatz c a => simp [construct]

/-- **C40** (violated): for a restricted system with one basis function the check raises IndexError whatever the solver, although the
solver can be constructed. -/
theorem check_solver_one_orbital (hasEbcc crpaFull : Bool) (s : String) :
    checkSolver hasEbcc (.restricted 1) crpaFull s = .error .indexError ∧
    getSolver hasEbcc (.restricted 1) false false "FCI" none = .ok (.fci, none) := ⟨rfl, rfl⟩

/-- **C40** (violated): with a bosonic bath the check accepts a solver that cannot treat bosons; the error comes only when the clusters
are solved. It also accepts every name with the letters CC, whether or not ebcc knows it. -/
theorem check_solver_bosonic_bath (n : Nat) (hn : 2 ≤ n) :
    checkSolver true (.restricted n) false "MP2" = .ok () ∧
    getSolver true (.restricted n) false true "MP2" none = .error .valueError ∧
    ∀ s : String, NamesCC s → checkSolver true (.restricted n) false s = .ok () := by
  have hu : checkUhf (.restricted n) = .ok false := if_pos hn
  have hk : ∀ s, (∃ f, lookup true s false false = .ok f) → checkSolver true (.restricted n) false s = .ok () := by
    rintro s ⟨f, hf⟩
    unfold checkSolver
    rw [hu]
    simp only [hf]
  refine ⟨hk "MP2" ⟨_, rfl⟩, rfl, fun s hs => hk s ?_⟩
  rw [(solver_lookup_decision true s false false).1]
  by_cases hB : Builtin s false
  · exact .inl ⟨hB, by simp⟩
  · exact .inr ⟨hB, hs, rfl⟩

/-- **C40** (violated): a solver included in the package but not available with bosons is not rejected: it is passed to ebcc as if its
name were an ansatz. -/
theorem solver_boson_fallthrough : ∀ s ∈ ["TCCSD", "extCCSD", "coupledCCSD"], ∀ uhf,
    lookup true s uhf true = .ok (.withAnsatz (ebccDict uhf true) s) := by
  intro s hs uhf
  simp only [List.mem_cons, List.not_mem_nil, or_false] at hs
  rcases hs with rfl | rfl | rfl <;> cases uhf <;> rfl

/-- The three kinds of outcome occur. -/
example : lookup true "CCSDT" true false = .ok (.withAnsatz .uebcc "CCSDT") ∧ lookup false "CCSDT" true false = .error .importError ∧
    lookup true "TCCSD" true false = .error .notImplementedError ∧ lookup true "HF" false false = .error .valueError ∧
    lookup true "EBCCSD" false true = .ok (.withAnsatz .ebRebcc "CCSD-SD-1-1") := by decide

/-- Names that meet the premises of `solver_ansatz`. -/
example : ¬Builtin "EBCCSDT" false ∧ NamesCC "EBCCSDT" ∧ "EBCCSDT" ≠ "EBCC" := by
  refine ⟨?_, ⟨['E', 'B'], ['S', 'D', 'T'], rfl⟩, by decide⟩
  unfold Builtin
  decide

end Vayesta.Props
