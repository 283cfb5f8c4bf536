import Verif.Lemmas.Options

/-! # C07: option objects -/

namespace Vayesta.Props
open Vayesta.Options

variable {α : Type}

/-- Specification of "the new value of an option": a dictionary given for a dictionary option is merged key by key with the
new entries winning; anything else replaces the old value. -/
def IsNewValue (old given result : OptVal α) : Prop :=
  match given, old with
  | .dict g, .dict o => ∃ r, result = .dict r ∧ ∀ k, r.lookup k = (g.lookup k).or (o.lookup k)
  | g, _ => result = g

/-- A keyword is legal for `replace`: the option exists and, if a dictionary is merged into a dictionary, all its keys exist. -/
def LegalKeyword (self : List (String × OptVal α)) (key : String) (val : OptVal α) : Prop :=
  ∃ old, self.lookup key = some old ∧
    ∀ g o, val = .dict g → old = .dict o → ∀ k ∈ g.map Prod.fst, k ∈ o.map Prod.fst

/-- Keyword arguments and dictionaries have no repeated keys (guaranteed by Python). -/
def WellFormedKw (kw : List (String × OptVal α)) : Prop :=
  (kw.map Prod.fst).Nodup ∧ ∀ key g, (key, OptVal.dict g) ∈ kw → (g.map Prod.fst).Nodup

theorem isNewValue_newValue (s v : OptVal α) (h : ∀ g, v = .dict g → (g.map Prod.fst).Nodup) :
    IsNewValue s v (newValue s v) := by
  unfold IsNewValue newValue
  match v, s with
  | .dict g, .dict o => exact ⟨_, rfl, fun k => lookup_dictMerge o g (h g rfl) k⟩
  | .scalar _, _ => rfl
  | .dict g, .scalar _ => rfl

theorem accepted_iff (self : List (String × OptVal α)) (key : String) (val : OptVal α) :
    accepted self (key, val) = true ↔ LegalKeyword self key val := by
  unfold accepted LegalKeyword
  cases hl : self.lookup key with
  | none => simp
  | some s =>
    simp only [Option.some.injEq, exists_eq_left']
    unfold dictKeysOk
    match val, s with
    | .dict g, .dict o =>
      simp only [List.all_eq_true, OptVal.dict.injEq]
      constructor
      · rintro h _ _ rfl rfl k hk
        obtain ⟨x, hx, rfl⟩ := List.mem_map.1 hk
        exact mem_keys_of_lookup (h x hx)
      · intro h x hx
        exact lookup_isSome_of_mem (h g o rfl rfl x.1 (List.mem_map.2 ⟨x, hx, rfl⟩))
    | .scalar _, _ => simp
    | .dict g, .scalar _ => simp

/-- **C07.** `replace` returns normally exactly if every keyword is legal; otherwise it raises `TypeError`. -/
theorem options_replace_success_iff (self kw : List (String × OptVal α)) (hw : WellFormedKw kw) :
    ((replace self kw).2 = none ↔ ∀ key val, (key, val) ∈ kw → LegalKeyword self key val) ∧
    ((replace self kw).2 = none ∨ (replace self kw).2 = some .typeError) := by
  rw [replace_eq _ _ hw.1]
  simp only
  constructor
  · simp only [ite_eq_left_iff, reduceCtorEq, imp_false, not_not, List.all_eq_true, Prod.forall, accepted_iff]
  · split <;> simp

/-- **C07.** After a successful `replace` each named option has its new value and every other option its old value. -/
theorem options_replace_value (self kw : List (String × OptVal α)) (hw : WellFormedKw kw)
    (hok : (replace self kw).2 = none) :
    (∀ key val old, (key, val) ∈ kw → self.lookup key = some old →
      ∃ new, (replace self kw).1.lookup key = some new ∧ IsNewValue old val new) ∧
    (∀ key, key ∉ kw.map Prod.fst → (replace self kw).1.lookup key = self.lookup key) := by
  rw [replace_eq _ _ hw.1] at hok ⊢
  simp only [ite_eq_left_iff, reduceCtorEq, imp_false, not_not] at hok
  have : kw.takeWhile (accepted self) = kw := by
    rw [List.takeWhile_eq_self_iff]; simpa using hok
  simp only [this]
  constructor
  · intro key val old hm ho
    refine ⟨newValue old val, ?_, isNewValue_newValue _ _ fun g hg => hw.2 key g (hg ▸ hm)⟩
    rw [update_lookup _ _ hw.1, ho, lookup_of_mem_nodup hw.1 hm]
  · intro key hk
    rw [update_lookup _ _ hw.1, lookup_none_of_not_mem hk]
    cases self.lookup key <;> rfl

/-- **C07.** Whether or not it raises, `replace` never adds, removes or reorders options and never touches an option that
was not named. -/
theorem options_replace_frame (self kw : List (String × OptVal α)) (hw : WellFormedKw kw) :
    (replace self kw).1.map Prod.fst = self.map Prod.fst ∧
    (∀ key, key ∉ kw.map Prod.fst → (replace self kw).1.lookup key = self.lookup key) := by
  refine ⟨replace_keys _ _, ?_⟩
  intro key hk
  rw [replace_eq _ _ hw.1]
  simp only
  have hsub := List.takeWhile_sublist (p := accepted self) (l := kw)
  rw [update_lookup _ _ ((hsub.map _).nodup hw.1), lookup_none_of_not_mem (fun h => hk ((hsub.map _).subset h))]
  cases self.lookup key <;> rfl

/-- **C07.** `update` never raises; existing named options get their new value, unknown names are ignored, everything else is
unchanged. -/
theorem options_update_value (self kw : List (String × OptVal α)) (hw : WellFormedKw kw) :
    (update self kw).map Prod.fst = self.map Prod.fst ∧
    (∀ key val old, (key, val) ∈ kw → self.lookup key = some old →
      ∃ new, (update self kw).lookup key = some new ∧ IsNewValue old val new) ∧
    (∀ key, key ∉ kw.map Prod.fst → (update self kw).lookup key = self.lookup key) ∧
    (∀ key, self.lookup key = none → (update self kw).lookup key = none) := by
  refine ⟨update_keys _ _, ?_, ?_, ?_⟩
  · intro key val old hm ho
    refine ⟨newValue old val, ?_, isNewValue_newValue _ _ fun g hg => hw.2 key g (hg ▸ hm)⟩
    rw [update_lookup _ _ hw.1, ho, lookup_of_mem_nodup hw.1 hm]
  · intro key hk
    rw [update_lookup _ _ hw.1, lookup_none_of_not_mem hk]
    cases self.lookup key <;> rfl
  · intro key hk
    rw [update_lookup _ _ hw.1, hk]
    cases kw.lookup key <;> rfl

/-- **C07.** What `get` reports after a successful `replace`: the new value for a named option, the old value for every other
option, and the default exactly for names that are no options. -/
theorem options_get_after_replace (self kw : List (String × OptVal α)) (hw : WellFormedKw kw)
    (hok : (replace self kw).2 = none) (key : String) (default : OptVal α) :
    (∀ val, (key, val) ∈ kw → IsNewValue (Options.get self key default) val (Options.get (replace self kw).1 key default)) ∧
    (key ∉ kw.map Prod.fst → Options.get (replace self kw).1 key default = Options.get self key default) ∧
    (key ∉ self.map Prod.fst → Options.get (replace self kw).1 key default = default) ∧
    (∀ val, (key, val) ∈ self → (self.map Prod.fst).Nodup → Options.get self key default = val) := by
  refine ⟨?_, ?_, ?_, ?_⟩
  · intro val hm
    obtain ⟨old, ho, -⟩ := (options_replace_success_iff self kw hw).1.1 hok key val hm
    obtain ⟨new, hn, hv⟩ := (options_replace_value self kw hw hok).1 key val old hm ho
    simpa [Options.get, ho, hn] using hv
  · intro hk
    unfold Options.get
    rw [(options_replace_value self kw hw hok).2 key hk]
  · intro hk
    have : key ∉ (replace self kw).1.map Prod.fst := by rwa [(options_replace_frame self kw hw).1]
    simp [Options.get, lookup_none_of_not_mem this]
  · intro val hm hd
    simp [Options.get, lookup_of_mem_nodup hd hm]

example : Options.get (replace [("a", OptVal.scalar 1), ("b", .scalar 2)] [("b", .scalar 7)]).1 "b" (.scalar 0) = .scalar 7 := by decide

/-- **C07**, remark: a failing `replace` is not atomic: keywords before the illegal one have already been applied. -/
theorem options_replace_not_atomic :
    ∃ (self kw : List (String × OptVal Nat)), WellFormedKw kw ∧ (replace self kw).2 = some .typeError ∧
      (replace self kw).1 ≠ self :=
  ⟨[("a", .scalar 1), ("b", .scalar 2)], [("a", .scalar 7), ("c", .scalar 0)],
    ⟨by decide, by simp⟩, by decide, by decide⟩

example : replace [("a", .scalar 1), ("d", .dict [("x", 1), ("y", 2)])] [("d", .dict [("y", 5)]), ("a", .scalar 3)]
    = ([("a", .scalar 3), ("d", .dict [("x", 1), ("y", 5)])], none) := by decide
example : WellFormedKw [("d", OptVal.dict [("y", 5)]), ("a", .scalar 3)] := by
  constructor
  · decide
  · intro key g h; simp at h; simp [h.2]

end Vayesta.Props
