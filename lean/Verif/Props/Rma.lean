import Verif.Spec.Rma
import Mathlib.Data.List.Nodup
import Mathlib.Data.List.Basic

/-! C34: the dictionary of arrays shared between MPI processes. -/

namespace Vayesta.Props
open Vayesta Vayesta.Rma

section
variable {Key A : Type} [DecidableEq Key]

private theorem rma_lookup_set {V : Type} (d : List (Key × V)) (k k' : Key) (v : V) :
    (dictSet d k v).lookup k' = if k' = k then some v else d.lookup k' := by
  induction d with
  | nil =>
    rw [dictSet, List.lookup_cons]
    by_cases h : k' = k
    · rw [if_pos h, beq_iff_eq.2 h]
    · rw [if_neg h, beq_eq_false_iff_ne.2 h]
  | cons x d ih =>
    obtain ⟨a, b⟩ := x
    rw [dictSet]
    by_cases h : a = k
    · rw [if_pos h, List.lookup_cons, List.lookup_cons]
      subst h
      by_cases h2 : k' = a
      · rw [if_pos h2, beq_iff_eq.2 h2]
      · rw [if_neg h2, beq_eq_false_iff_ne.2 h2]
    · rw [if_neg h, List.lookup_cons, List.lookup_cons, ih]
      by_cases h2 : k' = a
      · have : k' ≠ k := by rw [h2]; exact h
        rw [beq_iff_eq.2 h2]
        exact (if_neg this).symm
      · rw [beq_eq_false_iff_ne.2 h2]

private theorem rma_keys_set {V : Type} (d : List (Key × V)) (k : Key) (v : V) (h : (d.map Prod.fst).Nodup) :
    ((dictSet d k v).map Prod.fst).Nodup ∧ ∀ x, x ∈ (dictSet d k v).map Prod.fst ↔ x = k ∨ x ∈ d.map Prod.fst := by
  induction d with
  | nil => simp [dictSet]
  | cons x d ih =>
    obtain ⟨a, b⟩ := x
    rw [List.map_cons, List.nodup_cons] at h
    obtain ⟨i1, i2⟩ := ih h.2
    rw [dictSet]
    by_cases ha : a = k
    · rw [if_pos ha]
      subst ha
      refine ⟨by rw [List.map_cons, List.nodup_cons]; exact h, fun x => ?_⟩
      simp
    · rw [if_neg ha]
      refine ⟨?_, fun x => ?_⟩
      · rw [List.map_cons, List.nodup_cons]
        refine ⟨?_, i1⟩
        rw [i2]
        rintro (h3 | h3)
        · exact ha h3
        · exact h.1 h3
      · rw [List.map_cons, List.mem_cons, i2, List.map_cons, List.mem_cons]
        exact ⟨fun h => by rcases h with h | h | h <;> simp [h], fun h => by rcases h with h | h | h <;> simp [h]⟩

private theorem rma_lookup_update {V : Type} (new d : List (Key × V)) (k : Key) (h : (new.map Prod.fst).Nodup) :
    (dictUpdate d new).lookup k = match new.lookup k with | some v => some v | none => d.lookup k := by
  induction new generalizing d with
  | nil => rfl
  | cons x new ih =>
    obtain ⟨a, b⟩ := x
    rw [List.map_cons, List.nodup_cons] at h
    have hstep : dictUpdate d ((a, b) :: new) = dictUpdate (dictSet d a b) new := rfl
    rw [hstep, ih _ h.2, rma_lookup_set, List.lookup_cons]
    by_cases hk : k = a
    · subst hk
      have hn : new.lookup k = none := by
        rw [List.lookup_eq_none_iff]
        intro p hp
        rw [bne_iff_ne]
        rintro rfl
        exact h.1 (List.mem_map.2 ⟨p, hp, rfl⟩)
      simp [hn]
    · rw [if_neg hk, beq_eq_false_iff_ne.2 hk]

private theorem rma_lookup_mem {V : Type} (d : List (Key × V)) (k : Key) (v : V) (h : (d.map Prod.fst).Nodup) :
    d.lookup k = some v ↔ (k, v) ∈ d := by
  induction d with
  | nil => simp
  | cons x d ih =>
    obtain ⟨a, b⟩ := x
    rw [List.map_cons, List.nodup_cons] at h
    rw [List.lookup_cons, List.mem_cons]
    by_cases hk : k = a
    · subst hk
      simp only [beq_self_eq_true, Option.some.injEq, Prod.mk.injEq, true_and]
      constructor
      · intro h'; exact .inl h'.symm
      · rintro (h' | h')
        · exact h'.symm
        · exact absurd (List.mem_map_of_mem (f := Prod.fst) h') h.1
    · rw [beq_eq_false_iff_ne.2 hk, ih h.2]
      simp [hk]

private theorem rma_lookup_isSome {V : Type} (d : List (Key × V)) (k : Key) :
    (d.lookup k).isSome ↔ k ∈ d.map Prod.fst := by
  induction d with
  | nil => simp
  | cons x d ih =>
    obtain ⟨a, b⟩ := x
    rw [List.lookup_cons, List.map_cons, List.mem_cons]
    by_cases hk : k = a
    · subst hk; simp
    · rw [beq_eq_false_iff_ne.2 hk, ih]; simp [hk]

/-- Elements as published. -/
private def rmaElems (l : List (Nat × Key × Option A)) : List (Key × Elem A) := l.map fun x => (x.2.1, ⟨x.1, x.2.2⟩)

omit [DecidableEq Key] in
private theorem rmaElems_keys (l : List (Nat × Key × Option A)) : (rmaElems l).map Prod.fst = l.map fun x => x.2.1 := by
  unfold rmaElems
  rw [List.map_map]
  rfl

private theorem rma_build (l : List (Nat × Key × Option A)) : ∀ acc : List (Key × Elem A),
    (((acc.map Prod.fst) ++ l.map fun x => x.2.1).Nodup → build l acc = .ok (acc ++ rmaElems l)) ∧
    ((acc.map Prod.fst).Nodup → ¬((acc.map Prod.fst) ++ l.map fun x => x.2.1).Nodup → build l acc = .error .attributeError) := by
  induction l with
  | nil =>
    intro acc
    refine ⟨fun _ => by simp [build, rmaElems], fun h1 h2 => ?_⟩
    simp only [List.map_nil, List.append_nil] at h2
    exact absurd h1 h2
  | cons x l ih =>
    intro acc
    obtain ⟨r, k, v⟩ := x
    obtain ⟨i1, i2⟩ := ih (acc ++ [(k, ⟨r, v⟩)])
    have hk : (acc ++ [(k, (⟨r, v⟩ : Elem A))]).map Prod.fst ++ l.map (fun x => x.2.1) =
        acc.map Prod.fst ++ ((r, k, v) :: l).map fun x => x.2.1 := by simp
    rw [build]
    constructor
    · intro h
      have hn : ¬((acc.lookup k).isSome = true) := by
        rw [rma_lookup_isSome]
        intro hm
        rw [List.nodup_append] at h
        exact h.2.2 k hm k (by simp) rfl
      rw [if_neg hn, i1 (by rw [hk]; exact h)]
      simp [rmaElems]
    · intro h1 h2
      by_cases hm : (acc.lookup k).isSome = true
      · rw [if_pos hm]
      · rw [if_neg hm]
        apply i2
        · rw [List.map_append, List.nodup_append]
          refine ⟨h1, by simp, ?_⟩
          intro a ha b hb
          simp only [List.map_cons, List.map_nil, List.mem_singleton] at hb
          rw [hb]
          rintro rfl
          exact hm ((rma_lookup_isSome acc a).2 ha)
        · rw [hk]; exact h2

/-- The concrete state of all processes represents the abstract dictionary. -/
private structure Rep (n : Nat) (w : World Key A) (s : Shared Key A) : Prop where
  writable : ∀ r < n, (w r).writable = s.writing r
  nodup : ∀ r < n, ((w r).localData.map Prod.fst).Nodup
  pending : ∀ r < n, ∀ k, (w r).localData.lookup k = s.pending r k
  view : ∀ r < n, ∀ k, ((w r).elements.lookup k).map (fun e => (e.location, e.data)) = s.view k

omit [DecidableEq Key] in
private theorem rma_gather_mem (n : Nat) (w : World Key A) (r : Nat) (k : Key) (v : Option A) :
    (r, k, v) ∈ gather n w ↔ r < n ∧ (k, v) ∈ (w r).localData := by
  unfold gather
  rw [List.mem_flatMap]
  constructor
  · rintro ⟨r', hr, h⟩
    rw [List.mem_map] at h
    obtain ⟨kv, h1, h2⟩ := h
    injection h2 with h2 h3
    subst h2
    rw [← h3]
    exact ⟨List.mem_range.1 hr, h1⟩
  · rintro ⟨h1, h2⟩
    exact ⟨r, List.mem_range.2 h1, List.mem_map.2 ⟨(k, v), h2, rfl⟩⟩

private theorem rma_gather_nodup (n : Nat) (w : World Key A) (s : Shared Key A) (h : Rep n w s) :
    ((gather n w).map fun x => x.2.1).Nodup ↔ ¬s.Conflict n := by
  have hmap : ((gather n w).map fun x => x.2.1) = (List.range n).flatMap fun r => (w r).localData.map Prod.fst := by
    unfold gather
    rw [List.map_flatMap]
    congr 1
    funext r
    rw [List.map_map]
    rfl
  have hkey : ∀ r < n, ∀ k, k ∈ (w r).localData.map Prod.fst ↔ (s.pending r k).isSome := by
    intro r hr k
    rw [← rma_lookup_isSome, h.pending r hr]
  rw [hmap, List.nodup_flatMap]
  constructor
  · rintro ⟨-, h2⟩ ⟨k, r, r', hr, hr', hne, p1, p2⟩
    have key : ∀ a b, a < b → b < n → (s.pending a k).isSome → (s.pending b k).isSome → False := by
      intro a b hab hb q1 q2
      rw [List.pairwise_iff_getElem] at h2
      have := h2 a b (by simp; omega) (by simp; omega) hab
      simp only [List.getElem_range, Function.onFun] at this
      exact this ((hkey a (by omega) k).2 q1) ((hkey b hb k).2 q2)
    rcases Nat.lt_or_gt_of_ne hne with h3 | h3
    · exact key r r' h3 hr' p1 p2
    · exact key r' r h3 hr p2 p1
  · intro hc
    refine ⟨fun r hr => h.nodup r (List.mem_range.1 hr), ?_⟩
    rw [List.pairwise_iff_getElem]
    intro i j hi hj hij
    simp only [List.getElem_range, Function.onFun]
    simp only [List.length_range] at hi hj
    intro k h1 h2
    exact hc ⟨k, i, j, hi, hj, by omega, (hkey i hi k).1 h1, (hkey j hj k).1 h2⟩

omit [DecidableEq Key] in
private theorem rma_published (n : Nat) (s : Shared Key A) (hc : ¬s.Conflict n) (k : Key) :
    (∀ r v, r < n → s.pending r k = some v → s.published n k = some (r, v)) ∧
    ((∀ r < n, s.pending r k = none) → s.published n k = s.view k) := by
  constructor
  · intro r v hr hp
    unfold Shared.published
    cases hf : (List.range n).findSome? fun r => (s.pending r k).map fun v => (r, v) with
    | none =>
      rw [List.findSome?_eq_none_iff] at hf
      have := hf r (List.mem_range.2 hr)
      rw [hp] at this
      cases this
    | some x =>
      obtain ⟨r', h1, h2⟩ := List.exists_of_findSome?_eq_some hf
      rw [List.mem_range] at h1
      cases hp' : s.pending r' k with
      | none => rw [hp'] at h2; cases h2
      | some v' =>
        rw [hp'] at h2
        injection h2 with h2
        have : r' = r := by
          by_contra hne
          exact hc ⟨k, r', r, h1, hr, hne, by simp [hp'], by simp [hp]⟩
        subst this
        rw [hp] at hp'
        injection hp' with hp'
        rw [← h2, hp']
  · intro h
    unfold Shared.published
    have : ((List.range n).findSome? fun r => (s.pending r k).map fun v => (r, v)) = none := by
      rw [List.findSome?_eq_none_iff]
      intro r hr
      rw [h r (List.mem_range.1 hr)]; rfl
    rw [this]

private theorem rma_step (n : Nat) (w : World Key A) (s : Shared Key A) (h : Rep n w s) (e : Event Key A) (hp : e.Plain n) :
    Rep n (step n w e).1 (s.step n e).1 ∧ (step n w e).2 = (s.step n e).2 := by
  cases e with
  | enter r =>
    refine ⟨⟨?_, ?_, ?_, ?_⟩, rfl⟩
    · intro i hi
      simp only [step, Shared.step, World.put]
      split
      · rfl
      · exact h.writable i hi
    · intro i hi
      simp only [step, World.put]
      split
      · rename_i hir; rw [← hir]; exact h.nodup i hi
      · exact h.nodup i hi
    · intro i hi k
      simp only [step, World.put, Shared.step]
      split
      · rename_i hir; rw [← hir]; exact h.pending i hi k
      · exact h.pending i hi k
    · intro i hi k
      simp only [step, World.put, Shared.step]
      split
      · rename_i hir; rw [← hir]; exact h.view i hi k
      · exact h.view i hi k
  | set r k v =>
    have hr : r < n := hp
    have hw := h.writable r hr
    cases v with
    | bad =>
      simp only [step, Shared.step]
      rw [← hw]
      cases (w r).writable
      · simp [h]
      · simp [h]
    | arr a =>
      simp only [step, Shared.step]
      rw [← hw]
      cases hb : (w r).writable
      · simp [h]
      · simp only [Bool.true_eq_false, if_false, if_true, and_true]
        refine ⟨?_, ?_, ?_, ?_⟩
        · intro i hi
          simp only [World.put]
          split
          · rename_i hir; subst hir; exact hw ▸ hb ▸ rfl
          · exact h.writable i hi
        · intro i hi
          simp only [World.put]
          split
          · rename_i hir; subst hir; exact (rma_keys_set _ k a (h.nodup i hi)).1
          · exact h.nodup i hi
        · intro i hi k'
          simp only [World.put]
          by_cases hir : i = r
          · subst hir
            simp only [if_true, true_and]
            rw [rma_lookup_set, h.pending i hi]
          · simp only [hir, false_and, if_false]
            exact h.pending i hi k'
        · intro i hi k'
          simp only [World.put]
          split
          · rename_i hir; subst hir; exact h.view i hi k'
          · exact h.view i hi k'
  | get r k =>
    have hr : r < n := hp
    have hw := h.writable r hr
    have hv := h.view r hr k
    simp only [step, Shared.step]
    rw [← hw]
    cases hb : (w r).writable
    · simp only [Bool.false_eq_true, if_false]
      cases hl : (w r).elements.lookup k with
      | none => rw [hl] at hv; rw [← hv]; exact ⟨h, rfl⟩
      | some e => rw [hl] at hv; rw [← hv]; exact ⟨h, rfl⟩
    · simp only [if_true, and_true]; exact h
  | del r k => exact hp.elim
  | clear r => exact hp.elim
  | sync =>
    simp only [step, Shared.step]
    have hbd := rma_build (gather n w) []
    have hnd := rma_gather_nodup n w s h
    by_cases hc : s.Conflict n
    · rw [if_pos hc, hbd.2 (by simp) (by simpa using fun h' => (hnd.1 h') hc)]
      exact ⟨⟨fun _ _ => rfl, h.nodup, h.pending, h.view⟩, rfl⟩
    · have hnd' := hnd.2 hc
      rw [if_neg hc, hbd.1 (by simpa using hnd')]
      refine ⟨⟨fun _ _ => rfl, fun _ _ => List.nodup_nil, fun _ _ _ => rfl, ?_⟩, rfl⟩
      intro r hr k
      simp only [List.nil_append]
      have hkn : ((rmaElems (gather n w)).map Prod.fst).Nodup := by rw [rmaElems_keys]; exact hnd'
      rw [rma_lookup_update _ _ _ hkn]
      obtain ⟨p1, p2⟩ := rma_published n s hc k
      cases hl : (rmaElems (gather n w)).lookup k with
      | some e =>
        rw [rma_lookup_mem _ _ _ hkn] at hl
        unfold rmaElems at hl
        rw [List.mem_map] at hl
        obtain ⟨⟨r', k', v'⟩, hm, he⟩ := hl
        injection he with he1 he2
        simp only at he1
        subst he1
        rw [rma_gather_mem] at hm
        have hp' : s.pending r' k' = some v' := by
          rw [← h.pending r' hm.1, rma_lookup_mem _ _ _ (h.nodup r' hm.1)]
          exact hm.2
        rw [p1 r' v' hm.1 hp', ← he2]
        rfl
      | none =>
        simp only
        rw [p2, h.view r hr k]
        intro r' hr'
        cases hp' : s.pending r' k with
        | none => rfl
        | some v' =>
          exfalso
          rw [← h.pending r' hr', rma_lookup_mem _ _ _ (h.nodup r' hr')] at hp'
          have hm : (r', k, v') ∈ gather n w := (rma_gather_mem n w r' k v').2 ⟨hr', hp'⟩
          have hm2 : (k, (⟨r', v'⟩ : Elem A)) ∈ rmaElems (gather n w) := List.mem_map.2 ⟨_, hm, rfl⟩
          rw [← rma_lookup_mem _ _ _ hkn, hl] at hm2
          cases hm2

private theorem rma_new (n : Nat) : Rep n (fun _ => (Rank.new : Rank Key A)) Shared.empty :=
  ⟨fun _ _ => rfl, fun _ _ => List.nodup_nil, fun _ _ _ => rfl, fun _ _ _ => rfl⟩

private theorem rma_run (n : Nat) : ∀ (es : List (Event Key A)) (w : World Key A) (s : Shared Key A), Rep n w s → (∀ e ∈ es, e.Plain n) →
    Rep n (run n w es).1 (s.run n es).1 ∧ (run n w es).2 = (s.run n es).2
  | [], _, _, h, _ => ⟨h, rfl⟩
  | e :: es, w, s, h, hp => by
    obtain ⟨h1, h2⟩ := rma_step n w s h e (hp e List.mem_cons_self)
    obtain ⟨h3, h4⟩ := rma_run n es _ _ h1 (fun e' he => hp e' (List.mem_cons_of_mem _ he))
    refine ⟨h3, ?_⟩
    rw [run, Shared.run]
    simp only
    rw [h2, h4]

/-- **C34**: for any number of processes and any schedule of writes, reads and phase ends, every process behaves as if there were one
shared dictionary: same values, same exceptions. -/
theorem rma_refines_shared (n : Nat) (es : List (Event Key A)) (hp : ∀ e ∈ es, e.Plain n) :
    (run n (fun _ => Rank.new) es).2 = (Shared.empty.run n es).2 := (rma_run n es _ _ (rma_new n) hp).2

/-- **C34**: at the end of a phase, nothing is lost and all processes hold the same elements, each with the process that wrote it. -/
theorem rma_processes_agree (n : Nat) (es : List (Event Key A)) (hp : ∀ e ∈ es, e.Plain n) (r r' : Nat) (hr : r < n) (hr' : r' < n)
    (k : Key) :
    ((run n (fun _ => Rank.new) es).1 r).elements.lookup k = ((run n (fun _ => Rank.new) es).1 r').elements.lookup k ∧
    (((run n (fun _ => Rank.new) es).1 r).elements.lookup k).map (fun e => (e.location, e.data)) =
      (Shared.empty.run n es).1.view k := by
  have h := (rma_run n es _ _ (rma_new n) hp).1
  refine ⟨?_, h.view r hr k⟩
  have h1 := h.view r hr k
  have h2 := h.view r' hr' k
  rw [← h2] at h1
  cases ha : ((run n (fun _ => Rank.new) es).1 r).elements.lookup k with
  | none =>
    rw [ha] at h1
    cases hb : ((run n (fun _ => Rank.new) es).1 r').elements.lookup k with
    | none => rfl
    | some b => rw [hb] at h1; cases h1
  | some a =>
    rw [ha] at h1
    cases hb : ((run n (fun _ => Rank.new) es).1 r').elements.lookup k with
    | none => rw [hb] at h1; cases h1
    | some b =>
      rw [hb] at h1
      obtain ⟨l, d⟩ := a
      obtain ⟨l', d'⟩ := b
      simp only [Option.map_some, Option.some.injEq, Prod.mk.injEq] at h1
      rw [h1.1, h1.2]

omit [DecidableEq Key] in
private theorem shared_run_append (n : Nat) : ∀ (es fs : List (Event Key A)) (s : Shared Key A),
    (s.run n (es ++ fs)).1 = ((s.run n es).1.run n fs).1 ∧ (s.run n (es ++ fs)).2 = (s.run n es).2 ++ ((s.run n es).1.run n fs).2
  | [], _, _ => ⟨rfl, rfl⟩
  | e :: es, fs, s => by
    obtain ⟨h1, h2⟩ := shared_run_append n es fs (s.step n e).1
    rw [List.cons_append, Shared.run, Shared.run]
    simp only
    exact ⟨h1, by rw [h2]; rfl⟩

omit [DecidableEq Key] in
private theorem shared_pending_keep (n : Nat) (k : Key) : ∀ (es : List (Event Key A)) (s : Shared Key A),
    (∀ e ∈ es, e.Plain n ∧ ¬e.Writes k ∧ ¬e.IsSync) → ∀ r, (s.run n es).1.pending r k = s.pending r k
  | [], _, _, _ => rfl
  | e :: es, s, h, r => by
    have ih := shared_pending_keep n k es (s.step n e).1 (fun e' he => h e' (List.mem_cons_of_mem _ he)) r
    rw [Shared.run]
    simp only
    rw [ih]
    obtain ⟨h1, h2, h3⟩ := h e List.mem_cons_self
    cases e with
    | enter r' => rfl
    | set r' k' v =>
      cases v with
      | bad => rfl
      | arr a =>
        simp only [Shared.step]
        split
        · simp only
          rw [if_neg]
          rintro ⟨-, rfl⟩
          exact h2 rfl
        · rfl
    | get r' k' => simp only [Shared.step]; split <;> rfl
    | del _ _ => exact h1.elim
    | clear _ => exact h1.elim
    | sync => exact absurd trivial h3

omit [DecidableEq Key] in
private theorem shared_view_keep (n : Nat) (k : Key) : ∀ (es : List (Event Key A)) (s : Shared Key A),
    (∀ r, s.pending r k = none) → (∀ e ∈ es, e.Plain n ∧ ¬e.Writes k) → (s.run n es).1.view k = s.view k
  | [], _, _, _ => rfl
  | e :: es, s, hp, h => by
    obtain ⟨h1, h2⟩ := h e List.mem_cons_self
    have hstep : (s.step n e).1.view k = s.view k ∧ ∀ r, (s.step n e).1.pending r k = none := by
      cases e with
      | enter r' => exact ⟨rfl, hp⟩
      | set r' k' v =>
        cases v with
        | bad => exact ⟨rfl, hp⟩
        | arr a =>
          simp only [Shared.step]
          split
          · refine ⟨rfl, fun r => ?_⟩
            simp only
            rw [if_neg]
            · exact hp r
            · rintro ⟨-, rfl⟩
              exact h2 rfl
          · exact ⟨rfl, hp⟩
      | get r' k' => simp only [Shared.step]; split <;> exact ⟨rfl, hp⟩
      | del _ _ => exact h1.elim
      | clear _ => exact h1.elim
      | sync =>
        simp only [Shared.step]
        split
        · exact ⟨rfl, hp⟩
        · rename_i hc
          exact ⟨(rma_published n s hc k).2 (fun r _ => hp r), fun _ => rfl⟩
    rw [Shared.run]
    simp only
    rw [shared_view_keep n k es _ hstep.2 (fun e' he => h e' (List.mem_cons_of_mem _ he)), hstep.1]

/-- **C34**: after process `r` wrote `a` under `k` in a phase whose end succeeded, every later read of `k`, by any process outside a
phase, returns `a`, until `k` is written again. -/
theorem rma_read_after_write (n : Nat) (es fs gs : List (Event Key A)) (r q : Nat) (k : Key) (a : Option A)
    (hes : ∀ e ∈ es, e.Plain n) (hr : r < n) (hq : q < n)
    (hfs : ∀ e ∈ fs, e.Plain n ∧ ¬e.Writes k ∧ ¬e.IsSync) (hgs : ∀ e ∈ gs, e.Plain n ∧ ¬e.Writes k)
    (hset : (step n (run n (fun _ => Rank.new) es).1 (.set r k (.arr a))).2 = .ok none)
    (hsync : (step n (run n (fun _ => Rank.new) (es ++ .set r k (.arr a) :: fs)).1 .sync).2 = .ok none)
    (hopen : ((run n (fun _ => Rank.new) (es ++ .set r k (.arr a) :: fs ++ .sync :: gs)).1 q).writable = false) :
    (step n (run n (fun _ => Rank.new) (es ++ .set r k (.arr a) :: fs ++ .sync :: gs)).1 (.get q k)).2 = .ok (some a) := by
  have hpl1 : ∀ e ∈ es ++ .set r k (.arr a) :: fs, e.Plain n := by
    intro e he
    rw [List.mem_append, List.mem_cons] at he
    rcases he with he | rfl | he
    · exact hes e he
    · exact hr
    · exact (hfs e he).1
  have hpl2 : ∀ e ∈ es ++ .set r k (.arr a) :: fs ++ .sync :: gs, e.Plain n := by
    intro e he
    rw [List.mem_append, List.mem_cons] at he
    rcases he with he | rfl | he
    · exact hpl1 e he
    · exact trivial
    · exact (hgs e he).1
  have R0 := (rma_run n es _ _ (rma_new n) hes).1
  have R1 := (rma_run n _ _ _ (rma_new n) hpl1).1
  have R2 := (rma_run n _ _ _ (rma_new n) hpl2).1
  have s0 := (rma_step n _ _ R0 (.set r k (.arr a)) hr).2
  have s1 := (rma_step n _ _ R1 .sync trivial).2
  have s2 := (rma_step n _ _ R2 (.get q k) hq).2
  rw [s0] at hset
  rw [s1] at hsync
  rw [s2]
  generalize hS : (Shared.empty.run n es).1 = S0 at *
  have hw : S0.writing r = true := by
    by_contra hw
    simp only [Shared.step, if_neg hw] at hset
    cases hset
  have e1 : (Shared.empty.run n (es ++ .set r k (.arr a) :: fs)).1 = ((S0.step n (.set r k (.arr a))).1.run n fs).1 := by
    rw [(shared_run_append n _ _ _).1, hS]; rfl
  have hpend : (Shared.empty.run n (es ++ .set r k (.arr a) :: fs)).1.pending r k = some a := by
    rw [e1, shared_pending_keep n k fs _ hfs r]
    simp [Shared.step, hw]
  generalize hS1 : (Shared.empty.run n (es ++ .set r k (.arr a) :: fs)).1 = S1 at *
  have hc : ¬S1.Conflict n := by
    intro hc
    simp only [Shared.step, if_pos hc] at hsync
    cases hsync
  have e2 : (Shared.empty.run n (es ++ .set r k (.arr a) :: fs ++ .sync :: gs)).1 = ((S1.step n .sync).1.run n gs).1 := by
    rw [(shared_run_append n _ _ _).1, hS1]; rfl
  have hview : (Shared.empty.run n (es ++ .set r k (.arr a) :: fs ++ .sync :: gs)).1.view k = some (r, a) := by
    rw [e2, shared_view_keep n k gs _ (by intro r'; simp [Shared.step, if_neg hc]) hgs]
    simp only [Shared.step, if_neg hc]
    exact (rma_published n S1 hc k).1 r a hr hpend
  have hwr := R2.writable q hq
  rw [hopen] at hwr
  simp only [Shared.step, ← hwr, Bool.false_eq_true, if_false, hview]

/-- **C34**: reading during a write phase, writing outside one and deleting outside one raise AttributeError and change nothing; a
value that is not an array is a ValueError. -/
theorem rma_phase_errors (n : Nat) (w : World Key A) (r : Nat) (k : Key) (v : Value A) :
    ((w r).writable = true → step n w (.get r k) = (w, .error .attributeError)) ∧
    ((w r).writable = false → step n w (.set r k v) = (w, .error .attributeError) ∧
      step n w (.del r k) = (w, .error .attributeError)) ∧
    ((w r).writable = true → step n w (.set r k .bad) = (w, .error .valueError)) := by
  refine ⟨fun h => by simp [step, h], fun h => ⟨by simp [step, h], by simp [step, h]⟩, fun h => by simp [step, h]⟩

/-- **C34**: the end of a phase is rejected exactly if two processes hold a value for the same key; then nothing is published. -/
theorem rma_conflict_iff (n : Nat) (es : List (Event Key A)) (hp : ∀ e ∈ es, e.Plain n) :
    ((step n (run n (fun _ => Rank.new) es).1 .sync).2 = .error .attributeError ↔
      ∃ k r r', r < n ∧ r' < n ∧ r ≠ r' ∧
        (((run n (fun _ => Rank.new) es).1 r).localData.lookup k).isSome ∧
        (((run n (fun _ => Rank.new) es).1 r').localData.lookup k).isSome) ∧
    ((step n (run n (fun _ => Rank.new) es).1 .sync).2 = .error .attributeError →
      ∀ r, ((step n (run n (fun _ => Rank.new) es).1 .sync).1 r).elements = ((run n (fun _ => Rank.new) es).1 r).elements) := by
  have R := (rma_run n es _ _ (rma_new n) hp).1
  have s1 := (rma_step n _ _ R .sync trivial).2
  constructor
  · rw [s1]
    have hiff : (∃ k r r', r < n ∧ r' < n ∧ r ≠ r' ∧
        (((run n (fun _ => (Rank.new : Rank Key A)) es).1 r).localData.lookup k).isSome ∧
        (((run n (fun _ => Rank.new) es).1 r').localData.lookup k).isSome) ↔ (Shared.empty.run n es).1.Conflict n := by
      constructor
      · rintro ⟨k, r, r', h1, h2, h3, h4, h5⟩
        rw [R.pending r h1] at h4
        rw [R.pending r' h2] at h5
        exact ⟨k, r, r', h1, h2, h3, h4, h5⟩
      · rintro ⟨k, r, r', h1, h2, h3, h4, h5⟩
        rw [← R.pending r h1] at h4
        rw [← R.pending r' h2] at h5
        exact ⟨k, r, r', h1, h2, h3, h4, h5⟩
    rw [hiff]
    by_cases hc : (Shared.empty.run n es).1.Conflict n
    · simp [Shared.step, hc]
    · simp [Shared.step, hc]
  · intro h r
    simp only [step] at h ⊢
    cases hb : build (gather n (run n (fun _ => Rank.new) es).1) [] with
    | error e => rfl
    | ok new => rw [hb] at h; cases h

omit [DecidableEq Key] in
private theorem conflict_keep (n : Nat) : ∀ (es : List (Event Key A)) (s : Shared Key A), (∀ e ∈ es, e.Plain n) → s.Conflict n →
    (s.run n es).1.Conflict n
  | [], _, _, h => h
  | e :: es, s, hp, h => by
    rw [Shared.run]
    simp only
    apply conflict_keep n es _ (fun e' he => hp e' (List.mem_cons_of_mem _ he))
    have hpl := hp e List.mem_cons_self
    obtain ⟨k, r, r', h1, h2, h3, h4, h5⟩ := h
    cases e with
    | enter _ => exact ⟨k, r, r', h1, h2, h3, h4, h5⟩
    | set q k' v =>
      cases v with
      | bad => exact ⟨k, r, r', h1, h2, h3, h4, h5⟩
      | arr a =>
        simp only [Shared.step]
        split
        · refine ⟨k, r, r', h1, h2, h3, ?_, ?_⟩
          · simp only; split <;> simp [h4]
          · simp only; split <;> simp [h5]
        · exact ⟨k, r, r', h1, h2, h3, h4, h5⟩
    | get _ _ => simp only [Shared.step]; split <;> exact ⟨k, r, r', h1, h2, h3, h4, h5⟩
    | del _ _ => exact hpl.elim
    | clear _ => exact hpl.elim
    | sync =>
      simp only [Shared.step]
      rw [if_pos ⟨k, r, r', h1, h2, h3, h4, h5⟩]
      exact ⟨k, r, r', h1, h2, h3, h4, h5⟩

/-- **C34** (limit): after one rejected phase the unpublished values are kept, so every later phase is rejected too, whatever is
written in it. -/
theorem rma_conflict_persists (n : Nat) (es fs : List (Event Key A)) (hp : ∀ e ∈ es, e.Plain n) (hq : ∀ e ∈ fs, e.Plain n)
    (h : (step n (run n (fun _ => Rank.new) es).1 .sync).2 = .error .attributeError) :
    (step n (run n (fun _ => Rank.new) (es ++ .sync :: fs)).1 .sync).2 = .error .attributeError := by
  have hp2 : ∀ e ∈ es ++ .sync :: fs, e.Plain n := by
    intro e he
    rw [List.mem_append, List.mem_cons] at he
    rcases he with he | rfl | he
    · exact hp e he
    · exact trivial
    · exact hq e he
  have R := (rma_run n es _ _ (rma_new n) hp).1
  have R2 := (rma_run n _ _ _ (rma_new n) hp2).1
  rw [(rma_step n _ _ R .sync trivial).2] at h
  rw [(rma_step n _ _ R2 .sync trivial).2]
  have hc : (Shared.empty.run n es).1.Conflict n := by
    by_contra hc
    simp only [Shared.step, if_neg hc] at h
    cases h
  have hc2 : (Shared.empty.run n (es ++ .sync :: fs)).1.Conflict n := by
    rw [(shared_run_append n _ _ _).1]
    exact conflict_keep n (.sync :: fs) _ (fun e he => by
      rw [List.mem_cons] at he
      rcases he with rfl | he
      · exact trivial
      · exact hq e he) hc
  simp only [Shared.step, if_pos hc2]

/-- Serial state and abstract dictionary with one process. -/
private structure SerialRep (t : Rank Key A) (s : Shared Key A) : Prop where
  writable : t.writable = s.writing 0
  view : ∀ k, (t.elements.lookup k).map (fun e => e.data) =
    match s.pending 0 k with | some v => some v | none => (s.view k).map Prod.snd
  clean : s.writing 0 = false → ∀ k, s.pending 0 k = none

/-- **C34**: without MPI the dictionary behaves like the shared dictionary of one process. -/
theorem rma_serial (es : List (Event Key A)) (hp : ∀ e ∈ es, e.Plain 1) :
    (serialRun Rank.new es).2 = (Shared.empty.run 1 es).2 := by
  have key : ∀ (es : List (Event Key A)) (t : Rank Key A) (s : Shared Key A), SerialRep t s → (∀ e ∈ es, e.Plain 1) →
      (serialRun t es).2 = (s.run 1 es).2 := by
    intro es
    induction es with
    | nil => intro _ _ _ _; rfl
    | cons e es ih =>
      intro t s h hp
      have hpl := hp e List.mem_cons_self
      have hstep : SerialRep (serialStep t e).1 (s.step 1 e).1 ∧ (serialStep t e).2 = (s.step 1 e).2 := by
        have hw := h.writable
        cases e with
        | enter r =>
          have hr : r = 0 := by have : r < 1 := hpl; omega
          subst hr
          exact ⟨⟨rfl, h.view, fun hh => by simp [Shared.step] at hh⟩, rfl⟩
        | set r k v =>
          have hr : r = 0 := by have : r < 1 := hpl; omega
          subst hr
          cases v with
          | bad =>
            simp only [serialStep, Shared.step]
            rw [← hw]
            cases t.writable <;> exact ⟨h, rfl⟩
          | arr a =>
            simp only [serialStep, Shared.step]
            rw [← hw]
            cases hb : t.writable
            · exact ⟨h, rfl⟩
            · simp only [Bool.true_eq_false, if_false, if_true, and_true]
              refine ⟨by simpa using hw ▸ hb ▸ rfl, ?_, ?_⟩
              · intro k'
                simp only [true_and]
                rw [rma_lookup_set]
                by_cases hk : k' = k
                · simp [hk]
                · simp only [if_neg hk]; exact h.view k'
              · intro hh
                simp only at hh
                rw [← hw, hb] at hh
                cases hh
        | get r k =>
          have hr : r = 0 := by have : r < 1 := hpl; omega
          subst hr
          simp only [serialStep, Shared.step]
          rw [← hw]
          cases hb : t.writable
          · simp only [Bool.false_eq_true, if_false]
            have hv := h.view k
            rw [h.clean (by rw [← hw, hb]) k] at hv
            simp only at hv
            cases hl : t.elements.lookup k with
            | none =>
              rw [hl] at hv
              cases hv2 : s.view k with
              | none => exact ⟨h, rfl⟩
              | some x => rw [hv2] at hv; cases hv
            | some e =>
              rw [hl] at hv
              cases hv2 : s.view k with
              | none => rw [hv2] at hv; cases hv
              | some x =>
                rw [hv2] at hv
                simp only [Option.map_some, Option.some.injEq] at hv
                refine ⟨h, ?_⟩
                simp only [hv]
          · exact ⟨h, rfl⟩
        | del _ _ => exact hpl.elim
        | clear _ => exact hpl.elim
        | sync =>
          have hc : ¬s.Conflict 1 := by
            rintro ⟨k, r, r', h1, h2, h3, -⟩
            omega
          simp only [serialStep, Shared.step, if_neg hc]
          refine ⟨⟨rfl, ?_, fun _ _ => rfl⟩, trivial⟩
          intro k
          simp only
          rw [h.view k]
          obtain ⟨p1, p2⟩ := rma_published 1 s hc k
          cases hp' : s.pending 0 k with
          | none =>
            rw [p2]
            intro r hr
            have : r = 0 := by omega
            rw [this, hp']
          | some v => rw [p1 0 v (by omega) hp']; rfl
      rw [serialRun, Shared.run]
      simp only
      rw [hstep.2, ih _ _ hstep.1 (fun e' he => hp e' (List.mem_cons_of_mem _ he))]
  exact key es _ _ ⟨rfl, fun _ => rfl, fun _ _ => rfl⟩ hp

end

/-- **C34** (limit): deletion is not collective: a key deleted by one process is still read by the others, and a key written in the
phase cannot be deleted in it. -/
theorem rma_delete_is_local :
    (run 2 (fun _ => (Rank.new : Rank Nat Nat)) [.enter 0, .enter 1, .set 0 7 (.arr (some 5)), .sync, .enter 0, .enter 1, .del 0 7, .sync,
      .get 0 7, .get 1 7]).2.drop 6 = [.ok none, .ok none, .error .keyError, .ok (some (some 5))] ∧
    (run 2 (fun _ => (Rank.new : Rank Nat Nat)) [.enter 0, .set 0 7 (.arr (some 5)), .del 0 7]).2.drop 2 = [.error .keyError] ∧
    (serialRun (Rank.new : Rank Nat Nat) [.enter 0, .set 0 7 (.arr (some 5)), .del 0 7]).2.drop 2 = [.ok none] := by
  refine ⟨rfl, rfl, rfl⟩

/-- **C34** (limit): a dictionary that holds a `None` value cannot be cleared. -/
theorem rma_clear_none :
    (run 2 (fun _ => (Rank.new : Rank Nat Nat)) [.enter 0, .enter 1, .set 0 7 (.arr none), .sync, .clear 0, .get 0 7]).2.drop 4 =
      [.error .attributeError, .ok (some none)] := rfl

/-- A schedule on three processes that meets the premises of `rma_read_after_write`. -/
example : let es : List (Event Nat Nat) := [.enter 0, .enter 1, .enter 2]
    let fs : List (Event Nat Nat) := [.set 2 8 (.arr (some 1))]
    let gs : List (Event Nat Nat) := [.enter 1, .set 1 9 (.arr none), .sync]
    (∀ e ∈ es, e.Plain 3) ∧ (∀ e ∈ fs, e.Plain 3 ∧ ¬e.Writes 7 ∧ ¬e.IsSync) ∧ (∀ e ∈ gs, e.Plain 3 ∧ ¬e.Writes 7) ∧
    (step 3 (run 3 (fun _ => Rank.new) es).1 (.set 0 7 (.arr (some 5)))).2 = .ok none ∧
    (step 3 (run 3 (fun _ => Rank.new) (es ++ .set 0 7 (.arr (some 5)) :: fs)).1 .sync).2 = .ok none ∧
    ((run 3 (fun _ => Rank.new) (es ++ .set 0 7 (.arr (some 5)) :: fs ++ .sync :: gs)).1 1).writable = false := by
  refine ⟨?_, ?_, ?_, rfl, rfl, rfl⟩ <;> intro e he <;> simp only [List.mem_cons, List.not_mem_nil, or_false] at he
  · rcases he with rfl | rfl | rfl <;> simp [Event.Plain]
  · subst he; simp [Event.Plain, Event.Writes, Event.IsSync]
  · rcases he with rfl | rfl | rfl <;> simp [Event.Plain, Event.Writes]

/-- A rejected phase. -/
example : (step 2 (run 2 (fun _ => (Rank.new : Rank Nat Nat)) [.enter 0, .enter 1, .set 0 7 (.arr (some 5)), .set 1 7 (.arr none)]).1
    .sync).2 = .error .attributeError := rfl

end Vayesta.Props
