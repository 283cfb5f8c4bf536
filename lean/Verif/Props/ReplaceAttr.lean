import Verif.Lemmas.ReplaceAttr

/-! # C08: temporarily replaced attributes -/

namespace Vayesta.Props
open Vayesta.Attr

variable {V : Type}

/-- **C08.** Whatever the block does to the object (as long as it does not turn attributes read-only), whether it returns or
raises, and wherever setting up the replacement fails: afterwards every named attribute that could be replaced reads as
before the `with` statement. -/
theorem replace_attr_restores (bind : V → V) (o : Obj V) (kw : List (String × V)) (body : Obj V → Obj V × Option PyErr)
    (hkw : (kw.map Prod.fst).Nodup)
    (hbody : ∀ o', (body o').1.readonly = o'.readonly) :
    ∀ name v, name ∈ kw.map Prod.fst → o.getattr name = some v → o.readonly name = false →
      (withReplaceAttr bind o kw body).1.getattr name = some v := by
  intro name v hname hv hrw
  have hs := setup_spec bind o kw o [] (by simpa using hkw) rfl rfl (by simp) (by simp)
  simp only [List.map_nil, List.nil_append] at hs
  obtain ⟨hr, hc, h | h⟩ := hs
  · obtain ⟨hnone, hkeys, horig, hother⟩ := h
    unfold withReplaceAttr
    simp only [hnone]
    have := restore_spec (setup bind o [] kw).2.1 (body (setup bind o [] kw).1).1 (by rw [hkeys]; exact hkw)
      (fun x hx => by rw [hbody, hr]; exact (horig x hx).2)
    obtain ⟨_, _, _, h4, _⟩ := this
    have hmem : name ∈ (setup bind o [] kw).2.1.map Prod.fst := by rw [hkeys]; exact hname
    obtain ⟨x, hx, rfl⟩ := List.mem_map.1 hmem
    have := (horig x hx).1
    unfold Obj.getattr
    rw [h4 x hx]
    simp only [Option.some_or]
    rw [← this, hv]
  · obtain ⟨good, herr, hnd, horig, hother, hcase⟩ := h
    have hfin : (withReplaceAttr bind o kw body).1 = (restore (setup bind o [] kw).1 good).1 := by
      unfold withReplaceAttr
      simp only [herr]
      rcases hcase with h | ⟨a, w, h, ha⟩
      · rw [h]
      · rw [h, restore_append_fail _ _ _ _ hnd (fun x hx => by rw [hr]; exact (horig x hx).2) (by rw [hr]; exact ha)]
    obtain ⟨_, _, h3, h4, h5⟩ := restore_spec good (setup bind o [] kw).1 hnd
      (fun x hx => by rw [hr]; exact (horig x hx).2)
    rw [hfin]
    unfold Obj.getattr
    by_cases hg : name ∈ good.map Prod.fst
    · obtain ⟨x, hx, rfl⟩ := List.mem_map.1 hg
      rw [h4 x hx, Option.some_or, ← (horig x hx).1, hv]
    · rw [h5 name hg, h3, hc, hother name hg]
      exact hv

/-- **C08.** Inside the block every named attribute reads as its (bound) replacement, and if all names exist and are
writable, the block is entered, its exception (if any) is the one that propagates, and attributes that were not named are
exactly as the block left them. -/
theorem replace_attr_block (bind : V → V) (o : Obj V) (kw : List (String × V)) (body : Obj V → Obj V × Option PyErr)
    (hkw : (kw.map Prod.fst).Nodup) (hbody : ∀ o', (body o').1.readonly = o'.readonly)
    (hex : ∀ x ∈ kw, (o.getattr x.1).isSome ∧ o.readonly x.1 = false) :
    ∃ o', (∀ x ∈ kw, o'.getattr x.1 = some (bind x.2)) ∧ (∀ n, n ∉ kw.map Prod.fst → o'.getattr n = o.getattr n) ∧
      (withReplaceAttr bind o kw body).2 = (body o').2 ∧
      (∀ n, n ∉ kw.map Prod.fst → (withReplaceAttr bind o kw body).1.getattr n = (body o').1.getattr n) := by
  have key : ∀ (kw : List (String × V)) (o1 : Obj V) (orig : List (String × V)), (kw.map Prod.fst).Nodup →
      (∀ x ∈ kw, (o1.getattr x.1).isSome ∧ o1.readonly x.1 = false) →
      (setup bind o1 orig kw).2.2 = none ∧ (∀ x ∈ kw, (setup bind o1 orig kw).1.inst x.1 = some (bind x.2)) ∧
      (∀ n, n ∉ kw.map Prod.fst → (setup bind o1 orig kw).1.inst n = o1.inst n) ∧
      (setup bind o1 orig kw).1.cls = o1.cls := by
    intro kw
    induction kw with
    | nil => intro o1 orig _ _; simp [setup]
    | cons x kw ih =>
      intro o1 orig hn hx
      obtain ⟨a, v⟩ := x
      simp only [List.map_cons, List.nodup_cons] at hn
      obtain ⟨h1, h2⟩ := hx (a, v) (by simp)
      obtain ⟨old, hold⟩ := Option.isSome_iff_exists.1 h1
      simp only at hold h2
      have hs : o1.setattr a (bind v) = .ok { o1 with inst := fun n => if n = a then some (bind v) else o1.inst n } := by
        simp [Obj.setattr, h2]
      simp only [setup, hold, hs]
      have := ih { o1 with inst := fun n => if n = a then some (bind v) else o1.inst n } (orig ++ [(a, old)]) hn.2 ?_
      · obtain ⟨i1, i2, i3, i4⟩ := this
        refine ⟨i1, ?_, ?_, i4⟩
        · intro x hx'
          rcases List.mem_cons.1 hx' with rfl | hx'
          · rw [i3 _ hn.1]; simp
          · exact i2 x hx'
        · intro n hnn
          simp at hnn
          rw [i3 n (by simpa using hnn.2)]
          simp [hnn.1]
      · intro x hx'
        have hne : x.1 ≠ a := fun e => hn.1 (e ▸ List.mem_map.2 ⟨x, hx', rfl⟩)
        have := hx x (by simp [hx'])
        simpa [Obj.getattr, hne] using this
  obtain ⟨k1, k2, k3, k4⟩ := key kw o [] hkw hex
  have hs := setup_spec bind o kw o [] (by simpa using hkw) rfl rfl (by simp) (by simp)
  simp only [List.map_nil, List.nil_append] at hs
  obtain ⟨hr, hc, h | ⟨_, h, _⟩⟩ := hs
  swap
  · rw [k1] at h; cases h
  obtain ⟨_, hkeys, horig, _⟩ := h
  obtain ⟨r1, _, r3, _, r5⟩ := restore_spec (setup bind o [] kw).2.1 (body (setup bind o [] kw).1).1 (by rw [hkeys]; exact hkw)
      (fun x hx => by rw [hbody, hr]; exact (horig x hx).2)
  refine ⟨(setup bind o [] kw).1, ?_, ?_, ?_, ?_⟩
  · intro x hx; simp [Obj.getattr, k2 x hx]
  · intro n hn; simp [Obj.getattr, k3 n hn, k4]
  · simp only [withReplaceAttr, k1, r1]
  · intro n hn
    simp only [withReplaceAttr, k1, Obj.getattr]
    rw [r5 n (by rw [hkeys]; exact hn), r3]

/-- **C08**, remark: restoring writes the *instance*, so an attribute that came from the class stays pinned to its old value:
a later change of the class attribute is no longer seen through the object. -/
theorem replace_attr_pins_class_attribute :
    ∃ (o : Obj Nat) (kw : List (String × Nat)) (name : String),
      o.inst name = none ∧ (withReplaceAttr id o kw (fun x => (x, none))).1.inst name = some 1 ∧ o.cls name = some 1 :=
  ⟨⟨fun _ => none, fun n => if n = "f" then some 1 else none, fun _ => false⟩, [("f", 2)], "f",
    by simp, by simp [withReplaceAttr, setup, restore, Obj.getattr, Obj.setattr], by simp⟩

/-- A concrete object with a failing third replacement and a body that overwrites attributes. -/
example : let o : Obj Nat := ⟨fun n => if n = "x" then some 1 else if n = "y" then some 2 else none, fun _ => none, fun _ => false⟩
    (withReplaceAttr id o [("x", 10), ("y", 20), ("z", 30)] (fun x => (x, none))).1.getattr "x" = some 1 ∧
    (withReplaceAttr id o [("x", 10), ("y", 20), ("z", 30)] (fun x => (x, none))).2 = some .attributeError ∧
    (withReplaceAttr id o [("x", 10)] (fun x => ({x with inst := fun _ => some 7}, some .valueError))).1.getattr "x" = some 1 := by
  decide

end Vayesta.Props
