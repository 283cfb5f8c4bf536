import Verif.Model.Options
import Mathlib.Data.List.Basic
import Mathlib.Data.List.TakeWhile

namespace Vayesta.Options

variable {β : Type} {α : Type}

theorem lookup_dictSet (d : List (String × β)) (key k : String) (v : β) :
    (dictSet d key v).lookup k = if k = key then some v else d.lookup k := by
  induction d with
  | nil =>
    simp only [dictSet, List.lookup]
    split
    · next h => simp at h; simp [h]
    · next h => simp at h; simp [h]
  | cons x d ih =>
    obtain ⟨a, b⟩ := x
    simp only [dictSet]
    by_cases ha : a = key
    · subst ha
      simp only [if_true, List.lookup]
      by_cases hk : k = a
      · simp [hk]
      · have : (k == a) = false := by simp [hk]
        simp [this, hk]
    · simp only [ha, if_false, List.lookup]
      by_cases hk : k = a
      · subst hk
        simp [ha]
      · have : (k == a) = false := by simp [hk]
        simp [this, ih]

theorem keys_dictSet (d : List (String × β)) (key : String) (v : β) (h : (d.lookup key).isSome) :
    (dictSet d key v).map Prod.fst = d.map Prod.fst := by
  induction d with
  | nil => simp at h
  | cons x d ih =>
    obtain ⟨a, b⟩ := x
    simp only [dictSet]
    by_cases ha : a = key
    · simp [ha]
    · have : (key == a) = false := by simp; exact fun e => ha e.symm
      simp only [List.lookup, this] at h
      simp [ha, ih h]

theorem lookup_cons_ne {kw : List (String × β)} {k a : String} {v : β} (h : k ≠ a) :
    List.lookup k ((a, v) :: kw) = kw.lookup k := by
  simp [List.lookup, show (k == a) = false by simp [h]]

theorem lookup_none_of_not_mem {kw : List (String × β)} {k : String} (h : k ∉ kw.map Prod.fst) : kw.lookup k = none := by
  induction kw with
  | nil => rfl
  | cons x kw ih =>
    obtain ⟨a, v⟩ := x
    simp at h
    rw [lookup_cons_ne h.1]
    exact ih (by simpa using h.2)

theorem mem_keys_of_lookup {kw : List (String × β)} {k : String} (h : (kw.lookup k).isSome) : k ∈ kw.map Prod.fst := by
  by_contra hc
  rw [lookup_none_of_not_mem hc] at h
  simp at h

theorem lookup_isSome_of_mem {kw : List (String × β)} {k : String} (h : k ∈ kw.map Prod.fst) : (kw.lookup k).isSome := by
  induction kw with
  | nil => simp at h
  | cons x kw ih =>
    obtain ⟨a, v⟩ := x
    by_cases hk : k = a
    · simp [List.lookup, hk]
    · rw [lookup_cons_ne hk]
      simp [hk] at h
      exact ih (by simpa using h)

theorem lookup_of_mem_nodup {kw : List (String × β)} (hn : (kw.map Prod.fst).Nodup) {k : String} {v : β} (h : (k, v) ∈ kw) :
    kw.lookup k = some v := by
  induction kw with
  | nil => simp at h
  | cons x kw ih =>
    obtain ⟨a, w⟩ := x
    simp only [List.map_cons, List.nodup_cons] at hn
    rcases List.mem_cons.1 h with h2 | h2
    · obtain ⟨rfl, rfl⟩ := Prod.mk.inj h2
      simp [List.lookup]
    · have : k ≠ a := by
        rintro rfl
        exact hn.1 (List.mem_map.2 ⟨(k, v), h2, rfl⟩)
      rw [lookup_cons_ne this]
      exact ih hn.2 h2

/-- Reading a merged dictionary: the right operand wins. -/
theorem lookup_dictMerge (a b : List (String × β)) (hb : (b.map Prod.fst).Nodup) (k : String) :
    (dictMerge a b).lookup k = (b.lookup k).or (a.lookup k) := by
  unfold dictMerge
  induction b generalizing a with
  | nil => simp
  | cons x b ih =>
    obtain ⟨c, v⟩ := x
    simp only [List.map_cons, List.nodup_cons] at hb
    rw [List.foldl_cons, ih _ hb.2, lookup_dictSet]
    by_cases hk : k = c
    · subst hk
      simp [lookup_none_of_not_mem hb.1, List.lookup]
    · rw [lookup_cons_ne hk]
      simp [hk]

theorem update_lookup (self kw : List (String × OptVal α)) (hn : (kw.map Prod.fst).Nodup) (k : String) :
    (update self kw).lookup k = match self.lookup k, kw.lookup k with
      | some s, some v => some (newValue s v)
      | s, none => s
      | none, some _ => none := by
  induction kw generalizing self with
  | nil => cases h : self.lookup k <;> simp [update, h]
  | cons x kw ih =>
    obtain ⟨a, v⟩ := x
    simp only [List.map_cons, List.nodup_cons] at hn
    unfold update
    cases hl : self.lookup a with
    | none =>
      simp only
      rw [ih _ hn.2]
      by_cases hk : k = a
      · subst hk; simp [hl, lookup_none_of_not_mem hn.1, List.lookup]
      · rw [lookup_cons_ne hk]
    | some s =>
      simp only
      rw [ih _ hn.2, lookup_dictSet]
      by_cases hk : k = a
      · subst hk; simp [hl, lookup_none_of_not_mem hn.1, List.lookup]
      · rw [lookup_cons_ne hk]; simp [hk]

theorem update_keys (self kw : List (String × OptVal α)) : (update self kw).map Prod.fst = self.map Prod.fst := by
  induction kw generalizing self with
  | nil => rfl
  | cons x kw ih =>
    obtain ⟨a, v⟩ := x
    unfold update
    cases hl : self.lookup a with
    | none => exact ih self
    | some s => simp only; rw [ih, keys_dictSet _ _ _ (by simp [hl])]

theorem replace_keys (self kw : List (String × OptVal α)) : (replace self kw).1.map Prod.fst = self.map Prod.fst := by
  induction kw generalizing self with
  | nil => rfl
  | cons x kw ih =>
    obtain ⟨a, v⟩ := x
    unfold replace
    cases hl : self.lookup a with
    | none => rfl
    | some s =>
      simp only
      split
      · rw [ih, keys_dictSet _ _ _ (by simp [hl])]
      · rfl

/-- The keywords that are accepted by `replace`. -/
def accepted (self : List (String × OptVal α)) (x : String × OptVal α) : Bool :=
  match self.lookup x.1 with
  | none => false
  | some s => dictKeysOk s x.2

/-- `replace` processes the longest accepted prefix like `update` and raises at the first keyword that is not accepted. -/
theorem replace_eq (self kw : List (String × OptVal α)) (hn : (kw.map Prod.fst).Nodup) :
    replace self kw = (update self (kw.takeWhile (accepted self)),
      if kw.all (accepted self) then none else some .typeError) := by
  induction kw generalizing self with
  | nil => rfl
  | cons x kw ih =>
    obtain ⟨a, v⟩ := x
    simp only [List.map_cons, List.nodup_cons] at hn
    unfold replace
    cases hl : self.lookup a with
    | none => simp [accepted, hl, update]
    | some s =>
      simp only
      by_cases hd : dictKeysOk s v
      · rw [if_pos hd, ih _ hn.2]
        have hacc : ∀ y ∈ kw, accepted (dictSet self a (newValue s v)) y = accepted self y := by
          intro y hy
          have hne : y.1 ≠ a := by
            rintro rfl
            exact hn.1 (List.mem_map.2 ⟨y, hy, rfl⟩)
          unfold accepted
          rw [lookup_dictSet, if_neg hne]
        have h1 : kw.takeWhile (accepted (dictSet self a (newValue s v))) = kw.takeWhile (accepted self) := by
          clear ih hn
          induction kw with
          | nil => rfl
          | cons y kw ih2 =>
            have hy := hacc y (by simp)
            simp only [List.takeWhile_cons, hy]
            split
            · rw [ih2 (fun z hz => hacc z (by simp [hz]))]
            · rfl
        have h2 : kw.all (accepted (dictSet self a (newValue s v))) = kw.all (accepted self) := by
          apply Bool.eq_iff_iff.2
          simp only [List.all_eq_true]
          exact forall₂_congr fun y hy => by rw [hacc y hy]
        have h3 : accepted self (a, v) = true := by simp [accepted, hl, hd]
        rw [h1, h2]
        simp only [List.takeWhile_cons, h3, update, hl, List.all_cons, Bool.true_and, if_true]
      · have h3 : accepted self (a, v) = false := by simp [accepted, hl, hd]
        simp [hd, h3, update]

end Vayesta.Options
