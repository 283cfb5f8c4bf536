import Verif.Model.GetFragments
import Mathlib.Data.List.Basic
import Mathlib.Data.List.Nodup
import Mathlib.Data.List.Perm.Basic

/-! # C12, C13: fragment queries -/

namespace Vayesta.Props
open Vayesta.Frags

variable {F V : Type} [DecidableEq V]

/-- Specification: the value found under `key` satisfies the condition. -/
def Meets (get : String → Option V) (cond : String × Filt V) : Prop :=
  ∃ a, get cond.1 = some a ∧ match cond.2 with
    | .pred p => p a = true
    | .values vs => a ∈ vs

instance (get : String → Option V) (cond : String × Filt V) : Decidable (Meets get cond) :=
  match h : get cond.1 with
  | none => .isFalse (by rintro ⟨a, ha, _⟩; rw [h] at ha; cases ha)
  | some a =>
    match h2 : cond.2 with
    | .pred p => if hp : p a = true then .isTrue ⟨a, h, by rw [h2]; exact hp⟩
        else .isFalse (by rintro ⟨b, hb, hc⟩; rw [h2] at hc; rw [h] at hb; cases hb; exact hp hc)
    | .values vs => if hp : a ∈ vs then .isTrue ⟨a, h, by rw [h2]; exact hp⟩
        else .isFalse (by rintro ⟨b, hb, hc⟩; rw [h2] at hc; rw [h] at hb; cases hb; exact hp hc)

/-- All conditions are met. -/
def AllMeet (get : String → Option V) (conds : List (String × Filt V)) : Prop := ∀ c ∈ conds, Meets get c

instance (get : String → Option V) (conds : List (String × Filt V)) : Decidable (AllMeet get conds) := by
  unfold AllMeet; infer_instance

theorem allMeet_nil (get : String → Option V) : AllMeet get [] := by simp [AllMeet]

theorem allMeet_cons (get : String → Option V) (c : String × Filt V) (l : List (String × Filt V)) :
    AllMeet get (c :: l) ↔ Meets get c ∧ AllMeet get l := by simp [AllMeet]

/-- All looked-up attributes exist for this fragment. -/
def HasKeys (get : String → Option V) (conds : List (String × Filt V)) : Prop := ∀ c ∈ conds, (get c.1).isSome

theorem checkLoop_eq (get : String → Option V) (skip : Bool) (conds : List (String × Filt V)) (h : HasKeys get conds) :
    checkLoop get skip conds = .ok (if conds = [] then skip else !decide (AllMeet get conds)) := by
  induction conds generalizing skip with
  | nil => rfl
  | cons c conds ih =>
    obtain ⟨key, filt⟩ := c
    obtain ⟨a, ha⟩ := Option.isSome_iff_exists.1 (h (key, filt) (by simp))
    simp only at ha
    have ih' := ih false (fun c hc => h c (by simp [hc]))
    have hm : skipAttr a filt = true ↔ ¬ Meets get (key, filt) := by
      unfold Meets skipAttr
      simp only [ha]
      cases filt <;> simp
    simp only [checkLoop, ha]
    by_cases hs : skipAttr a filt = true
    · rw [if_pos hs]
      have := hm.1 hs
      simp [this, allMeet_cons]
    · rw [if_neg hs, ih']
      have hme : Meets get (key, filt) := by
        by_contra hc
        exact hs (hm.2 hc)
      by_cases hn : conds = []
      · subst hn; simp [hme, allMeet_cons, allMeet_nil]
      · simp [hn, hme, allMeet_cons]

/-- What `get_fragments` actually selects. -/
def Selected (L : Lookup F V) (filters options flags : List (String × Filt V)) (f : F) : Prop :=
  (AllMeet (L.attr f) filters) ∧
  (if flags = [] then AllMeet (L.opt f) options else AllMeet (L.flag f) flags)

instance (L : Lookup F V) (filters options flags : List (String × Filt V)) (f : F) :
    Decidable (Selected L filters options flags f) := by unfold Selected; infer_instance

theorem skipFragment_eq (L : Lookup F V) (filters options flags : List (String × Filt V)) (f : F)
    (h1 : HasKeys (L.attr f) filters) (h2 : HasKeys (L.opt f) options) (h3 : HasKeys (L.flag f) flags) :
    skipFragment L filters options flags f = .ok (!decide (Selected L filters options flags f)) := by
  unfold skipFragment Selected
  rw [checkLoop_eq _ _ _ h1, checkLoop_eq _ _ _ h2]
  by_cases hf : AllMeet (L.attr f) filters
  · have : (if filters = [] then false else !decide (AllMeet (L.attr f) filters)) = false := by
      split
      · rfl
      · simp [hf]
    rw [this]
    simp only
    rw [checkLoop_eq _ _ _ h3]
    by_cases hfl : flags = []
    · subst hfl
      by_cases ho : options = []
      · subst ho; simp [hf, allMeet_nil]
      · simp [hf, ho]
    · simp [hf, hfl]
  · have hne : filters ≠ [] := by rintro rfl; simp [allMeet_nil] at hf
    simp [hne, hf]

/-- Exact characterisation of the result: the fragments satisfying all filters and, if any flag condition is given, all flag
conditions, otherwise all options conditions; in the original order with multiplicity. -/
theorem get_fragments_exact (L : Lookup F V) (fragments : List F) (filters options flags : List (String × Filt V))
    (h : ∀ f ∈ fragments, HasKeys (L.attr f) filters ∧ HasKeys (L.opt f) options ∧ HasKeys (L.flag f) flags) :
    getFragments L fragments filters options flags =
      .ok (fragments.filter fun f => decide (Selected L filters options flags f)) := by
  have aux : ∀ fs : List F, (∀ f ∈ fs, HasKeys (L.attr f) filters ∧ HasKeys (L.opt f) options ∧ HasKeys (L.flag f) flags) →
      filterLoop L filters options flags fs = .ok (fs.filter fun f => decide (Selected L filters options flags f)) := by
    intro fs
    induction fs with
    | nil => intro _; rfl
    | cons f fs ih =>
      intro h
      obtain ⟨a, b, c⟩ := h f (by simp)
      simp only [filterLoop, skipFragment_eq L filters options flags f a b c, ih (fun g hg => h g (by simp [hg]))]
      by_cases hs : Selected L filters options flags f
      · simp [hs]
      · simp [hs]
  unfold getFragments
  split
  · next hc =>
    simp at hc
    obtain ⟨⟨rfl, rfl⟩, rfl⟩ := hc
    have : fragments.filter (fun f => decide (Selected L [] [] [] f)) = fragments := by
      rw [List.filter_eq_self]
      intro f _
      simp [Selected, allMeet_nil]
    rw [this]
  · exact aux fragments h

/-- **C12** (partial). With options conditions or flags conditions, but not both, `get_fragments` returns exactly the
fragments satisfying all conditions, in the original order and with multiplicity. Missing for the full claim: the case in
which both are given (see `get_fragments_ignores_options`). -/
theorem get_fragments_filters_partial (L : Lookup F V) (fragments : List F) (filters options flags : List (String × Filt V))
    (h : ∀ f ∈ fragments, HasKeys (L.attr f) filters ∧ HasKeys (L.opt f) options ∧ HasKeys (L.flag f) flags)
    (hone : options = [] ∨ flags = []) :
    getFragments L fragments filters options flags =
      .ok (fragments.filter fun f => decide ((AllMeet (L.attr f) filters) ∧ (AllMeet (L.opt f) options) ∧
        AllMeet (L.flag f) flags)) := by
  rw [get_fragments_exact L fragments filters options flags h]
  congr 1
  apply List.filter_congr
  intro f _
  rcases hone with rfl | rfl
  · simp only [Selected, decide_eq_decide]
    split
    · next hfl => subst hfl; simp [allMeet_nil]
    · simp [allMeet_nil]
  · simp [Selected, allMeet_nil]

/-- **C12** is false in general: when flags conditions are given, options conditions are ignored; here a fragment whose option
does not match is returned. -/
theorem get_fragments_ignores_options :
    ¬ ∀ (L : Lookup Nat Nat) (fragments : List Nat) (filters options flags : List (String × Filt Nat)),
      (∀ f ∈ fragments, HasKeys (L.attr f) filters ∧ HasKeys (L.opt f) options ∧ HasKeys (L.flag f) flags) →
      getFragments L fragments filters options flags =
        .ok (fragments.filter fun f => decide ((AllMeet (L.attr f) filters) ∧ (AllMeet (L.opt f) options) ∧
          AllMeet (L.flag f) flags)) := by
  intro h
  have := h ⟨fun f _ => some f, fun f _ => some f, fun f _ => some f⟩ [5] [] [("solver", .values [6])]
    [("is_secfrag", .values [5])] (by intro f _; simp [HasKeys])
  revert this
  decide

example : getFragments (F := Nat) (V := Nat) ⟨fun f _ => some (f % 3), fun f _ => some f, fun f _ => some f⟩ [4, 7, 5, 1, 4]
    [("mpi_rank", .values [1])] [("opt", .pred (fun x => x < 6))] [] = .ok [4, 1, 4] := by decide

/-! ## C13 -/

theorem appendAt_flatten_perm (cs : List (List SFrag)) (i : Nat) (f : SFrag) (h : i < cs.length) :
    (appendAt cs i f).flatten.Perm (f :: cs.flatten) := by
  induction cs generalizing i with
  | nil => simp at h
  | cons c cs ih =>
    cases i with
    | zero =>
      simp only [appendAt, List.flatten_cons, List.append_assoc]
      exact List.perm_middle
    | succ i =>
      simp only [appendAt, List.flatten_cons]
      have := ih i (by simpa using h)
      exact (List.Perm.append_left c this).trans List.perm_middle

theorem appendAt_getElem? (cs : List (List SFrag)) (i j : Nat) (f : SFrag) :
    (appendAt cs i f)[j]? = if i = j then (cs[j]?).map (· ++ [f]) else cs[j]? := by
  induction cs generalizing i j with
  | nil => simp [appendAt]
  | cons c cs ih =>
    cases i with
    | zero => cases j <;> simp [appendAt]
    | succ i =>
      cases j with
      | zero => simp [appendAt]
      | succ j => simp [appendAt, ih]

/-- The children of the parent with id `pid`, in fragment order. -/
def childrenOf (fs : List SFrag) (pid : Int) : List SFrag := fs.filter fun f => f.symParent = some pid

theorem childLoop_eq (ids : List Int) (hn : ids.Nodup) (fs : List SFrag) (children : List (List SFrag))
    (hl : children.length = ids.length) (h : ∀ f ∈ fs, ∀ p, f.symParent = some p → p ∈ ids) :
    ∃ out, childLoop ids children fs = .ok out ∧ out.length = ids.length ∧
      ∀ (j : Nat) pid, ids[j]? = some pid → out[j]? = (children[j]?).map (· ++ childrenOf fs pid) := by
  induction fs generalizing children with
  | nil =>
    refine ⟨children, rfl, hl, ?_⟩
    intro j pid _
    cases children[j]? <;> simp [childrenOf]
  | cons f fs ih =>
    cases hp : f.symParent with
    | none =>
      obtain ⟨out, h1, h2, h3⟩ := ih children hl (fun g hg => h g (by simp [hg]))
      refine ⟨out, by simp [childLoop, hp, h1], h2, ?_⟩
      intro j pid hj
      rw [h3 j pid hj]
      simp [childrenOf, hp]
    | some p =>
      have hm := h f (by simp) p hp
      obtain ⟨out, h1, h2, h3⟩ := ih (appendAt children (ids.idxOf p) f)
        (by
          rw [← hl]
          clear ih hl
          induction children generalizing ids with
          | nil => rfl
          | cons c cs ih2 =>
            have : ∀ (cs : List (List SFrag)) i, (appendAt cs i f).length = cs.length := by
              intro cs
              induction cs with
              | nil => intro i; rfl
              | cons c cs ih3 => intro i; cases i <;> simp [appendAt, ih3]
            exact this _ _)
        (fun g hg => h g (by simp [hg]))
      refine ⟨out, by simp [childLoop, hp, hm, h1], h2, ?_⟩
      intro j pid hj
      rw [h3 j pid hj, appendAt_getElem?]
      have hjl : j < ids.length := by
        by_contra hc
        rw [List.getElem?_eq_none (by omega)] at hj
        cases hj
      have hje : ids[j] = pid := by simpa [hjl] using hj
      by_cases he : p = pid
      · have hidx : ids.idxOf p = j := by
          rw [he, ← hje]
          exact hn.idxOf_getElem j hjl
        rw [if_pos hidx]
        cases hc : children[j]? with
        | none => rfl
        | some c => simp [childrenOf, hp, he]
      · have hidx : ids.idxOf p ≠ j := by
          rintro rfl
          rw [List.getElem_idxOf] at hje
          exact he hje
        rw [if_neg hidx]
        cases hc : children[j]? with
        | none => rfl
        | some c => simp [childrenOf, hp, he]

/-- Every symmetry parent is a listed fragment that has no parent of its own. -/
def ParentsListed (fs : List SFrag) : Prop :=
  ∀ f ∈ fs, ∀ p, f.symParent = some p → ∃ g ∈ fs, g.id = p ∧ g.symParent = none

/-- **C13.** If ids are unique and every parent is a listed root, then sublist `j` consists of exactly the children of root
`j`, in fragment order, preceded by the root itself if requested. -/
theorem symmetry_children_sublists (fs : List SFrag) (hn : (fs.map (·.id)).Nodup) (hp : ParentsListed fs) (incl : Bool) :
    symmetryChildren fs incl = .ok ((symmetryParents fs).map fun p =>
      (if incl then [p] else []) ++ fs.filter fun f => f.symParent = some p.id) := by
  have hsub : ((symmetryParents fs).map (·.id)).Nodup := (List.filter_sublist.map _).nodup hn
  obtain ⟨out, h1, h2, h3⟩ := childLoop_eq _ hsub fs ((symmetryParents fs).map fun p => if incl then [p] else [])
    (by simp) (by
      intro f hf p hfp
      obtain ⟨g, hg, rfl, hgn⟩ := hp f hf p hfp
      exact List.mem_map.2 ⟨g, List.mem_filter.2 ⟨hg, by simp [hgn]⟩, rfl⟩)
  unfold symmetryChildren
  simp only [h1]
  congr 1
  apply List.ext_getElem?
  intro j
  by_cases hj : j < (symmetryParents fs).length
  · rw [h3 j (symmetryParents fs)[j].id (by simp [hj])]
    simp [hj, childrenOf]
  · rw [List.getElem?_eq_none (by simp at h2; omega), List.getElem?_eq_none (by simp; omega)]

theorem perm_flatMap_children (ps fs : List SFrag) (hn : (ps.map (·.id)).Nodup)
    (h : ∀ f ∈ fs, ∀ p, f.symParent = some p → p ∈ ps.map (·.id)) :
    (ps.flatMap fun p => fs.filter fun f => f.symParent = some p.id).Perm (fs.filter fun f => f.symParent.isSome) := by
  induction fs with
  | nil => simp
  | cons f fs ih =>
    have ih' := ih (fun g hg => h g (by simp [hg]))
    cases hp : f.symParent with
    | none =>
      rw [List.filter_cons_of_neg (by simp [hp])]
      have : ∀ p : SFrag, (f :: fs).filter (fun f => f.symParent = some p.id) = fs.filter (fun f => f.symParent = some p.id) := by
        intro p; rw [List.filter_cons_of_neg (by simp [hp])]
      simp only [this]
      exact ih'
    | some q =>
      rw [List.filter_cons_of_pos (by simp [hp])]
      refine List.Perm.trans ?_ (List.Perm.cons f ih')
      obtain ⟨p0, hp0, hq⟩ := List.mem_map.1 (h f (by simp) q hp)
      clear ih ih' h
      induction ps with
      | nil => simp at hp0
      | cons a ps ih2 =>
        simp only [List.map_cons, List.nodup_cons] at hn
        rw [List.flatMap_cons, List.flatMap_cons]
        by_cases ha : a.id = q
        · rw [List.filter_cons_of_pos (by simp [hp, ha])]
          have hrest : (ps.flatMap fun p => (f :: fs).filter fun f => f.symParent = some p.id) =
              ps.flatMap fun p => fs.filter fun f => f.symParent = some p.id := by
            apply List.flatMap_congr
            intro p hpm
            have hne : p.id ≠ q := by
              intro e
              apply hn.1
              rw [ha, ← e]
              exact List.mem_map.2 ⟨p, hpm, rfl⟩
            rw [List.filter_cons_of_neg]
            simp [hp]
            exact fun e => hne e.symm
          rw [hrest]
          exact List.Perm.refl _
        · rw [List.filter_cons_of_neg (by simp [hp]; exact fun e => ha e.symm)]
          have hp0' : p0 ∈ ps := by
            rcases List.mem_cons.1 hp0 with rfl | h
            · exact absurd hq ha
            · exact h
          exact (List.Perm.append_left _ (ih2 hn.2 hp0')).trans List.perm_middle

/-- **C13.** The sublists with parents included list every fragment exactly once, the number of sublists is the number of
roots, and the sublist lengths add up to the number of fragments. -/
theorem symmetry_children_partition (fs : List SFrag) (hn : (fs.map (·.id)).Nodup) (hp : ParentsListed fs) :
    ∃ cs, symmetryChildren fs true = .ok cs ∧ cs.flatten.Perm fs ∧ cs.length = (symmetryParents fs).length ∧
      (cs.map List.length).sum = fs.length := by
  have key : ((symmetryParents fs).map fun p => (if true = true then [p] else []) ++
      fs.filter fun f => f.symParent = some p.id).flatten.Perm fs := by
    rw [← List.flatMap_def]
    simp only [if_true]
    have hsub : ((symmetryParents fs).map (·.id)).Nodup := (List.filter_sublist.map _).nodup hn
    have h1 := perm_flatMap_children (symmetryParents fs) fs hsub (by
      intro f hf p hfp
      obtain ⟨g, hg, rfl, hgn⟩ := hp f hf p hfp
      exact List.mem_map.2 ⟨g, List.mem_filter.2 ⟨hg, by simp [hgn]⟩, rfl⟩)
    have h2 : ((symmetryParents fs).flatMap fun p => [p] ++ fs.filter fun f => f.symParent = some p.id).Perm
        ((symmetryParents fs) ++ (symmetryParents fs).flatMap fun p => fs.filter fun f => f.symParent = some p.id) := by
      have := List.flatMap_append_perm (symmetryParents fs) (fun p => [p]) (fun p => fs.filter fun f => f.symParent = some p.id)
      refine this.symm.trans ?_
      simp
    refine h2.trans ((List.Perm.append_left _ h1).trans ?_)
    unfold symmetryParents
    have := List.filter_append_perm (fun f : SFrag => f.symParent.isNone) fs
    refine List.Perm.trans ?_ this
    apply List.Perm.append_left
    apply List.Perm.of_eq
    apply List.filter_congr
    intro f _
    cases f.symParent <;> rfl
  exact ⟨_, symmetry_children_sublists fs hn hp true, key, by simp, by rw [← List.length_flatten]; exact key.length_eq⟩

/-- **C13**, error branch: the call raises exactly if some parent is not a listed root, in particular for every fragment whose
parent is itself a child (nested symmetry operations). -/
theorem symmetry_children_raises_iff (fs : List SFrag) (incl : Bool) :
    symmetryChildren fs incl = .error .assertionError ↔
      ∃ f ∈ fs, ∃ p, f.symParent = some p ∧ p ∉ (symmetryParents fs).map (·.id) := by
  unfold symmetryChildren
  simp only
  generalize (symmetryParents fs).map (·.id) = ids
  generalize ((symmetryParents fs).map fun p => if incl then [p] else []) = cs
  induction fs generalizing cs with
  | nil => simp [childLoop]
  | cons f fs ih =>
    cases hp : f.symParent with
    | none =>
      simp only [childLoop, hp, ih]
      simp [hp]
    | some q =>
      by_cases hm : q ∈ ids
      · simp only [childLoop, hp, hm, if_true, ih]
        constructor
        · rintro ⟨g, hg, p, h1, h2⟩; exact ⟨g, by simp [hg], p, h1, h2⟩
        · rintro ⟨g, hg, p, h1, h2⟩
          rcases List.mem_cons.1 hg with rfl | hg
          · rw [hp] at h1; cases h1; exact absurd hm h2
          · exact ⟨g, hg, p, h1, h2⟩
      · simp only [childLoop, hp, hm, if_false, true_iff]
        exact ⟨f, by simp, q, hp, hm⟩

example : symmetryChildren [⟨0, none⟩, ⟨1, some 0⟩, ⟨2, none⟩, ⟨3, some 2⟩, ⟨4, some 0⟩] true =
    .ok [[⟨0, none⟩, ⟨1, some 0⟩, ⟨4, some 0⟩], [⟨2, none⟩, ⟨3, some 2⟩]] := by decide
example : ParentsListed [⟨0, none⟩, ⟨1, some 0⟩, ⟨2, none⟩, ⟨3, some 2⟩, ⟨4, some 0⟩] := by
  intro f hf p hp
  simp at hf
  rcases hf with rfl | rfl | rfl | rfl | rfl <;> simp at hp <;> subst hp <;> simp
example : symmetryChildren [⟨0, none⟩, ⟨1, some 0⟩, ⟨2, some 1⟩] false = .error .assertionError := by decide

end Vayesta.Props
