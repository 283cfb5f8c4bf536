import Verif.Model.ReplaceAttr
import Mathlib.Data.List.Basic

namespace Vayesta.Attr

variable {V : Type}

/-- Effect of a sequence of successful assignments on an attribute. -/
theorem restore_spec (orig : List (String × V)) (o : Obj V) (hn : (orig.map Prod.fst).Nodup)
    (hw : ∀ x ∈ orig, o.readonly x.1 = false) :
    (restore o orig).2 = none ∧ (restore o orig).1.readonly = o.readonly ∧ (restore o orig).1.cls = o.cls ∧
    (∀ x ∈ orig, (restore o orig).1.inst x.1 = some x.2) ∧
    (∀ n, n ∉ orig.map Prod.fst → (restore o orig).1.inst n = o.inst n) := by
  induction orig generalizing o with
  | nil => simp [restore]
  | cons x orig ih =>
    obtain ⟨a, v⟩ := x
    simp only [List.map_cons, List.nodup_cons] at hn
    have ha : o.readonly a = false := hw (a, v) (by simp)
    have hs : o.setattr a v = .ok { o with inst := fun n => if n = a then some v else o.inst n } := by
      simp [Obj.setattr, ha]
    have := ih { o with inst := fun n => if n = a then some v else o.inst n } hn.2 (fun x hx => hw x (by simp [hx]))
    obtain ⟨h1, h2, h3, h4, h5⟩ := this
    simp only [restore, hs]
    refine ⟨h1, h2, h3, ?_, ?_⟩
    · intro x hx
      rcases List.mem_cons.1 hx with rfl | hx
      · rw [h5 _ hn.1]; simp
      · exact h4 x hx
    · intro n hnn
      simp at hnn
      rw [h5 n (by simpa using hnn.2)]
      simp [hnn.1]

/-- When the last name cannot be assigned, all earlier ones have already been written. -/
theorem restore_append_fail (orig : List (String × V)) (o : Obj V) (a : String) (v : V)
    (hn : (orig.map Prod.fst).Nodup)
    (hw : ∀ x ∈ orig, o.readonly x.1 = false) (ha : o.readonly a = true) :
    restore o (orig ++ [(a, v)]) = ((restore o orig).1, some .attributeError) := by
  induction orig generalizing o with
  | nil => simp [restore, Obj.setattr, ha]
  | cons x orig ih =>
    obtain ⟨b, w⟩ := x
    simp only [List.map_cons, List.nodup_cons] at hn
    have hb : o.readonly b = false := hw (b, w) (by simp)
    have hs : o.setattr b w = .ok { o with inst := fun n => if n = b then some w else o.inst n } := by
      simp [Obj.setattr, hb]
    simp only [List.cons_append, restore, hs]
    exact ih _ hn.2 (fun x hx => hw x (by simp [hx])) ha

/-- What `setup` leaves behind. `o0` is the object before the first assignment. -/
theorem setup_spec (bind : V → V) (o0 : Obj V) (kw : List (String × V)) (o : Obj V) (orig : List (String × V))
    (hn : (orig.map Prod.fst ++ kw.map Prod.fst).Nodup)
    (hr : o.readonly = o0.readonly) (hc : o.cls = o0.cls)
    (horig : ∀ x ∈ orig, o0.getattr x.1 = some x.2 ∧ o0.readonly x.1 = false)
    (hother : ∀ n, n ∉ orig.map Prod.fst → o.inst n = o0.inst n) :
    let s := setup bind o orig kw
    s.1.readonly = o0.readonly ∧ s.1.cls = o0.cls ∧
    ((s.2.2 = none ∧ s.2.1.map Prod.fst = orig.map Prod.fst ++ kw.map Prod.fst ∧
        (∀ x ∈ s.2.1, o0.getattr x.1 = some x.2 ∧ o0.readonly x.1 = false) ∧
        (∀ n, n ∉ s.2.1.map Prod.fst → s.1.inst n = o0.inst n)) ∨
     (∃ good, s.2.2 = some .attributeError ∧ (good.map Prod.fst).Nodup ∧
        (∀ x ∈ good, o0.getattr x.1 = some x.2 ∧ o0.readonly x.1 = false) ∧
        (∀ n, n ∉ good.map Prod.fst → s.1.inst n = o0.inst n) ∧
        (s.2.1 = good ∨ ∃ a v, s.2.1 = good ++ [(a, v)] ∧ o0.readonly a = true))) := by
  induction kw generalizing o orig with
  | nil =>
    simp only [setup]
    exact ⟨hr, hc, Or.inl ⟨trivial, by simp, horig, hother⟩⟩
  | cons x kw ih =>
    obtain ⟨name, attr⟩ := x
    have hnd : (orig.map Prod.fst).Nodup := (List.nodup_append.1 hn).1
    have hname : name ∉ orig.map Prod.fst := by
      intro hm
      exact (List.nodup_append.1 hn).2.2 name hm name (by simp) rfl
    simp only [setup]
    cases hg : o.getattr name with
    | none => exact ⟨hr, hc, Or.inr ⟨orig, rfl, hnd, horig, hother, Or.inl rfl⟩⟩
    | some old =>
      have hold : o0.getattr name = some old := by
        rw [← hg]; unfold Obj.getattr; rw [hc, hother name hname]
      by_cases hro : o0.readonly name
      · have hs : o.setattr name (bind attr) = .error .attributeError := by simp [Obj.setattr, hr, hro]
        simp only [hs]
        exact ⟨hr, hc, Or.inr ⟨orig, trivial, hnd, horig, hother, Or.inr ⟨name, old, rfl, hro⟩⟩⟩
      · have hs : o.setattr name (bind attr) =
            .ok { o with inst := fun n => if n = name then some (bind attr) else o.inst n } := by
          simp [Obj.setattr, hr, hro]
        simp only [hs]
        have hn' : ((orig ++ [(name, old)]).map Prod.fst ++ kw.map Prod.fst).Nodup := by simpa using hn
        have := ih { o with inst := fun n => if n = name then some (bind attr) else o.inst n } (orig ++ [(name, old)])
          hn' hr hc ?_ ?_
        · simpa using this
        · intro x hx
          rcases List.mem_append.1 hx with hx | hx
          · exact horig x hx
          · simp at hx; subst hx; exact ⟨hold, by simpa using hro⟩
        · intro n hnn
          simp at hnn
          have : n ≠ name := by tauto
          simp only [this, if_false]
          exact hother n (by simp; tauto)

end Vayesta.Attr
