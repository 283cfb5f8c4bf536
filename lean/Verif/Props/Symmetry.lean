import Verif.Lemmas.SymmetryRun

/-! # C14, C15: symmetry contexts, traversals and symmetry-weighted sums -/

namespace Vayesta.Props
open Vayesta.Sym Vayesta.Spec

variable {O : Type}

/-- Fragments without a symmetry parent. -/
def roots (fs : List (Frag O)) : List (Frag O) := fs.filter fun f => f.parent.isNone

/-- C14: every properly nested script of contexts produces, for each added fragment, exactly one fragment per choice of identity
or an operation from each of the contexts open at that point. The labels (root, operation sequence) read off the parents and
operations of the resulting fragments are exactly these choices. -/
theorem symmetry_contexts_full_product (cmds : List (Cmd O)) (hc : Closed 0 cmds) :
    (roots (run cmds).fragments).length = (openAtAdds [] cmds).length ∧
    ∃ lab : Nat → Nat × List O, IsLabelling (run cmds).fragments lab ∧
      ((run cmds).fragments.map fun f => lab f.id).Perm
        (((roots (run cmds).fragments).zip (openAtAdds [] cmds)).flatMap fun x => (choices x.2).map fun seq => (x.1.id, seq)) := by
  obtain ⟨lab, more, h1, h2, h2b, h3⟩ := labels_run cmds {} (fun i => (i, [])) ⟨by simp, by simp, by simp, by simp⟩ hc
  have hroots : (roots (run cmds).fragments).map (·.id) = more := by
    have : rootIds (run cmds).fragments = more := by simpa [rootIds, run] using h2
    exact this
  refine ⟨?_, lab, h1, ?_⟩
  · rw [← List.length_map (f := fun f : Frag O => f.id), hroots, h2b]; rfl
  · rw [← Multiset.coe_eq_coe]
    have h3' : (((run cmds).fragments.map fun f => lab f.id : List _) : Multiset (Nat × List O)) = future more (openAtAdds [] cmds) := by
      have : labels lab (run cmds).fragments = _ := h3
      simpa [labels, regLabels, ev] using this
    rw [h3', future, ← hroots, List.zip_map_left, List.flatMap_map]
    rfl

/-- C14: the number of fragments is the sum over added fragments of the product of the orders of the open contexts. -/
theorem symmetry_contexts_count (cmds : List (Cmd O)) (hc : Closed 0 cmds) :
    (run cmds).fragments.length = expectedCount [] cmds := by
  obtain ⟨hl, lab, _, hp⟩ := symmetry_contexts_full_product cmds hc
  have := hp.length_eq
  rw [List.length_map] at this
  rw [this, show ([] : List Nat) = ([] : List (List O)).map fun ops => ops.length + 1 from rfl, expectedCount_eq]
  generalize openAtAdds [] cmds = ls at hl
  generalize roots (run cmds).fragments = rs at hl
  clear this hp
  induction rs generalizing ls with
  | nil => cases ls <;> simp at hl ⊢
  | cons r rs ih =>
    cases ls with
    | nil => simp at hl
    | cons l ls =>
      simp only [List.length_cons, Nat.add_right_cancel_iff] at hl
      simp [ih ls hl]

/-- C14: ids are unique after any script (closed or not). -/
theorem symmetry_contexts_ids_unique (cmds : List (Cmd O)) : ((run cmds).fragments.map (·.id)).Nodup := (run_inv cmds).nodup

/-- C14: looping over the symmetry children of all root fragments, the roots included, visits every fragment exactly once and
hands out the array carried along the operations that lead from the root to the visited fragment. -/
theorem loop_symmetry_children_exactly_once {A : Type} (act : O → A → A) (arr : Frag O → A) (cmds : List (Cmd O))
    (hdepth : maxNesting 0 cmds ≤ 1000) :
    let fs := (run cmds).fragments
    let visited := (roots fs).flatMap fun r => (r, arr r) :: loopChildren act fs 1000 r (arr r)
    (visited.map Prod.fst).Perm fs ∧ ∀ y ∈ visited, Image act fs arr y.1 y.2 := by
  intro fs visited
  have hF := (run_inv cmds).forest
  constructor
  · have : visited.map Prod.fst = (roots fs).flatMap fun r => r :: desc fs 1000 r := by
      simp only [visited, List.map_flatMap]
      apply List.flatMap_congr
      intro r _
      simp [loopChildren_fst]
    rw [this]
    exact (desc_perm_cum fs 1000 _).trans (cum_roots _ 1000 fs hF hdepth)
  · intro y hy
    obtain ⟨r, hr, hy⟩ := List.mem_flatMap.1 hy
    have hr' := List.mem_filter.1 hr
    have hroot : Image act fs arr r (arr r) := .root hr'.1 (by simpa using hr'.2)
    rcases List.mem_cons.1 hy with rfl | hy
    · exact hroot
    · exact loopChildren_image act fs arr hF.ops 1000 r _ hroot y hy

/-- The array handed out for a fragment is determined by the roots' arrays and the operations. -/
theorem image_unique {A : Type} (act : O → A → A) (arr : Frag O → A) (cmds : List (Cmd O)) (f : Frag O) (x y : A)
    (hx : Image act (run cmds).fragments arr f x) (hy : Image act (run cmds).fragments arr f y) : x = y := by
  have hn := (run_inv cmds).nodup
  induction hx generalizing y with
  | root _ hp =>
    cases hy with
    | root _ _ => rfl
    | child _ _ hp' _ => rw [hp] at hp'; cases hp'
  | @child p f op x hI _ hp ho ih =>
    cases hy with
    | root _ hp' => rw [hp] at hp'; cases hp'
    | @child p' _ op' x' hI' _ hp' ho' =>
      have : p' = p := eq_of_id hn hI'.mem hI.mem (by rw [hp] at hp'; simpa using hp'.symm)
      subst this
      rw [ih _ hI', show op' = op by rw [ho] at ho'; simpa using ho'.symm]

/-- C15: a sum over root fragments weighted by their symmetry factor equals the sum over all fragments, for every quantity that a
fragment shares with its symmetry parent. -/
theorem symmetry_weighted_sum {M : Type} [AddCommMonoid M] (cmds : List (Cmd O)) (hdepth : maxNesting 0 cmds ≤ 1000) (q : Frag O → M)
    (hq : ∀ f ∈ (run cmds).fragments, ∀ p ∈ (run cmds).fragments, f.parent = some p.id → q f = q p) :
    ((roots (run cmds).fragments).map fun r => symmetryFactor (run cmds).fragments r • q r).sum = ((run cmds).fragments.map q).sum := by
  have hF := (run_inv cmds).forest
  generalize hfs : (run cmds).fragments = fs at *
  have hperm : ((roots fs).flatMap fun f => cum fs 1000 [f]).Perm fs :=
    (cum_flatMap fs 1000 _).trans (cum_roots _ 1000 fs hF hdepth)
  rw [← (hperm.map q).sum_eq]
  have hsub : ∀ r ∈ roots fs, r ∈ fs := fun r hr => (List.mem_filter.1 hr).1
  generalize roots fs = rs at hsub
  clear hperm
  induction rs with
  | nil => simp
  | cons r rs ih =>
    rw [List.map_cons, List.sum_cons, List.flatMap_cons, List.map_append, List.sum_append, ih (fun r hr => hsub r (by simp [hr]))]
    congr 1
    have hconst := mem_cum_const fs q hq 1000 (q r) [r] (by simp [hsub])
    have hlen : symmetryFactor fs r = (cum fs 1000 [r]).length := by
      rw [← symmetryChildren_eq_cum]; simp [symmetryFactor]
    rw [hlen]
    generalize cum fs 1000 [r] = l at hconst
    induction l with
    | nil => simp
    | cons a l ih2 =>
      rw [List.length_cons, succ_nsmul', List.map_cons, List.sum_cons, hconst a (by simp), ih2 fun f hf => hconst f (by simp [hf])]

/-- C15: the symmetry factor is the number of fragments in the orbit listed, so the factors of the roots add up to the number of
fragments. -/
theorem symmetry_factors_sum (cmds : List (Cmd O)) (hdepth : maxNesting 0 cmds ≤ 1000) :
    ((roots (run cmds).fragments).map (symmetryFactor (run cmds).fragments)).sum = (run cmds).fragments.length := by
  have := symmetry_weighted_sum cmds hdepth (fun _ => (1 : Nat)) (by simp)
  simpa using this

/-! Non-vacuity: a rotation of order 3 inside an inversion, with one fragment in each and one outside. -/

def exampleScript : List (Cmd Nat) := [.add, .enter [9], .add, .enter [1, 2], .add, .exit, .exit]

example : Closed 0 exampleScript ∧ maxNesting 0 exampleScript ≤ 1000 := by simp [exampleScript, Closed, maxNesting]
example : (run exampleScript).fragments.length = 9 := by decide
example : ((run exampleScript).fragments.map fun f => (f.id, f.parent, f.op)) =
    [(0, none, none), (1, none, none), (2, none, none), (3, some 2, some 1), (4, some 2, some 2),
     (5, some 1, some 9), (6, some 2, some 9), (7, some 3, some 9), (8, some 4, some 9)] := by decide

end Vayesta.Props
