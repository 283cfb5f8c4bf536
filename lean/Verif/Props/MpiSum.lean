import Verif.Spec.MpiSum
import Verif.Props.GetFragments
import Mathlib.Algebra.BigOperators.Group.List.Basic
import Mathlib.Algebra.BigOperators.Group.List.Lemmas
import Mathlib.Algebra.BigOperators.Ring.List
import Mathlib.Algebra.Field.Rat
import Mathlib.Tactic.FieldSimp
import Mathlib.Tactic.Ring
import Mathlib.Tactic.NormNum

/-! C35: sums over fragments distributed over MPI processes. -/

namespace Vayesta.Props
open Vayesta Vayesta.MpiSum

private theorem ms_step_sizes (s : State) (a : Action) : (s.step a).register.mpiSize = s.register.mpiSize := by
  cases a with
  | new aux => rfl
  | child pos =>
    simp only [State.step]
    cases s.frags[pos]? <;> rfl
  | setActive pos b => rfl

/-- What holds of the register and the fragments at any time. -/
private structure Inv (n : Nat) (s : State) : Prop where
  size : s.register.mpiSize = n
  ranks : ∀ f ∈ s.frags, 0 ≤ f.rank ∧ f.rank < n
  ids : (s.frags.map (·.id)).Nodup
  below : ∀ f ∈ s.frags, f.id ≤ s.register.nextId
  parents : ∀ f ∈ s.frags, ∀ p, f.parent = some p → ∃ g ∈ s.frags, g.id = p ∧ g.rank = f.rank

private theorem ms_modify_mem {f : Frag} {l : List Frag} {pos : Nat} {b : Bool}
    (h : f ∈ l.modify pos fun f => { f with active := b }) :
    ∃ g ∈ l, g.id = f.id ∧ g.rank = f.rank ∧ g.parent = f.parent ∧ g.auxiliary = f.auxiliary := by
  rw [List.mem_iff_getElem?] at h
  obtain ⟨i, hi⟩ := h
  rw [List.getElem?_modify] at hi
  cases hl : l[i]? with
  | none => rw [hl] at hi; simp at hi
  | some g =>
    rw [hl] at hi
    refine ⟨g, List.mem_iff_getElem?.2 ⟨i, hl⟩, ?_⟩
    simp only [Option.map_eq_map, Option.map_some, Option.some.injEq] at hi
    split at hi
    · rw [← hi]; exact ⟨rfl, rfl, rfl, rfl⟩
    · rw [← hi]; exact ⟨rfl, rfl, rfl, rfl⟩

private theorem ms_modify_mem' {g : Frag} {l : List Frag} {pos : Nat} {b : Bool} (h : g ∈ l) :
    ∃ f ∈ l.modify pos fun f => { f with active := b }, f.id = g.id ∧ f.rank = g.rank := by
  rw [List.mem_iff_getElem?] at h
  obtain ⟨i, hi⟩ := h
  by_cases hp : pos = i
  · refine ⟨{ g with active := b }, List.mem_iff_getElem?.2 ⟨i, ?_⟩, rfl, rfl⟩
    rw [List.getElem?_modify, hi]; simp [hp]
  · refine ⟨g, List.mem_iff_getElem?.2 ⟨i, ?_⟩, rfl, rfl⟩
    rw [List.getElem?_modify, hi]; simp [hp]

private theorem ms_modify_map {β : Type} (φ : Frag → β) (l : List Frag) (pos : Nat) (b : Bool)
    (h : ∀ f : Frag, φ { f with active := b } = φ f) : (l.modify pos fun f => { f with active := b }).map φ = l.map φ := by
  apply List.ext_getElem?
  intro i
  rw [List.getElem?_map, List.getElem?_map, List.getElem?_modify]
  cases l[i]? with
  | none => rfl
  | some g =>
    simp only [Option.map_eq_map, Option.map_some]
    split
    · rw [h]
    · rfl

private theorem ms_inv_step (n : Nat) (hn : 0 < n) (s : State) (h : Inv n s) (a : Action) : Inv n (s.step a) := by
  refine ⟨by rw [ms_step_sizes, h.size], ?_, ?_, ?_, ?_⟩
  · cases a with
    | new aux =>
      intro f hf
      simp only [State.step, Register.getNext, Register.getNextId, Register.getNextRank, Bool.false_eq_true, if_false, Except.map,
        List.mem_append, List.mem_singleton] at hf
      rcases hf with hf | rfl
      · exact h.ranks f hf
      · simp only [h.size]
        exact ⟨Int.emod_nonneg _ (by omega), Int.emod_lt_of_pos _ (by omega)⟩
    | child pos =>
      intro f hf
      simp only [State.step] at hf
      cases hp : s.frags[pos]? with
      | none => rw [hp] at hf; exact h.ranks f hf
      | some p =>
        rw [hp] at hf
        simp only [Register.getNextId, List.mem_append, List.mem_singleton] at hf
        rcases hf with hf | rfl
        · exact h.ranks f hf
        · exact h.ranks p (List.mem_of_getElem? hp)
    | setActive pos b =>
      intro f hf
      obtain ⟨g, h1, h2, h3, -⟩ := ms_modify_mem hf
      rw [← h3]
      exact h.ranks g h1
  · have hnew : ∀ g : Frag, g.id = s.register.nextId + 1 → ((s.frags ++ [g]).map (·.id)).Nodup := by
      intro g hg
      rw [List.map_append, List.nodup_append]
      refine ⟨h.ids, by simp, ?_⟩
      intro a ha b hb
      simp only [List.map_cons, List.map_nil, List.mem_singleton] at hb
      rw [List.mem_map] at ha
      obtain ⟨f, hf, rfl⟩ := ha
      have := h.below f hf
      omega
    cases a with
    | new aux => exact hnew _ rfl
    | child pos =>
      simp only [State.step]
      cases hp : s.frags[pos]? with
      | none => exact h.ids
      | some p => exact hnew _ rfl
    | setActive pos b =>
      show ((s.frags.modify pos fun f => { f with active := b }).map (·.id)).Nodup
      rw [ms_modify_map (fun f => f.id) _ _ _ (fun _ => rfl)]
      exact h.ids
  · cases a with
    | new aux =>
      intro f hf
      simp only [State.step, Register.getNext, Register.getNextId, Register.getNextRank, Bool.false_eq_true, if_false, Except.map,
        List.mem_append, List.mem_singleton] at hf ⊢
      rcases hf with hf | rfl
      · have := h.below f hf; omega
      · exact Int.le_refl _
    | child pos =>
      intro f hf
      simp only [State.step] at hf ⊢
      cases hp : s.frags[pos]? with
      | none => rw [hp] at hf; exact h.below f hf
      | some p =>
        rw [hp] at hf
        simp only [Register.getNextId, List.mem_append, List.mem_singleton] at hf ⊢
        rcases hf with hf | rfl
        · have := h.below f hf; omega
        · exact Int.le_refl _
    | setActive pos b =>
      intro f hf
      obtain ⟨g, h1, h2, -⟩ := ms_modify_mem hf
      rw [← h2]
      exact h.below g h1
  · cases a with
    | new aux =>
      intro f hf q hq
      simp only [State.step, Register.getNext, Register.getNextId, Register.getNextRank, Bool.false_eq_true, if_false, Except.map,
        List.mem_append, List.mem_singleton] at hf ⊢
      rcases hf with hf | rfl
      · obtain ⟨g, h1, h2⟩ := h.parents f hf q hq
        exact ⟨g, .inl h1, h2⟩
      · cases hq
    | child pos =>
      intro f hf q hq
      simp only [State.step] at hf ⊢
      cases hp : s.frags[pos]? with
      | none => rw [hp] at hf; exact h.parents f hf q hq
      | some p =>
        rw [hp] at hf
        simp only [Register.getNextId, List.mem_append, List.mem_singleton] at hf ⊢
        rcases hf with hf | rfl
        · obtain ⟨g, h1, h2⟩ := h.parents f hf q hq
          exact ⟨g, .inl h1, h2⟩
        · injection hq with hq
          exact ⟨p, .inl (List.mem_of_getElem? hp), hq, rfl⟩
    | setActive pos b =>
      intro f hf q hq
      obtain ⟨g, h1, h2, h3, h4, -⟩ := ms_modify_mem hf
      rw [← h4] at hq
      obtain ⟨g', k1, k2, k3⟩ := h.parents g h1 q hq
      obtain ⟨f', m1, m2, m3⟩ := ms_modify_mem' (pos := pos) (b := b) k1
      exact ⟨f', m1, m2.trans k2, by rw [m3, k3, h3]⟩

private theorem ms_inv (n : Nat) (hn : 0 < n) (as : List Action) : ∀ s, Inv n s → Inv n (as.foldl State.step s) := by
  induction as with
  | nil => intro s h; exact h
  | cons a as ih => intro s h; exact ih _ (ms_inv_step n hn s h a)

private theorem ms_inv_init (n : Nat) : Inv n (State.init n) :=
  ⟨rfl, (by intro f hf; cases hf), List.nodup_nil, (by intro f hf; cases hf), (by intro f hf; cases hf)⟩

/-- **C35**: whatever fragments are added, every fragment has its own id, belongs to exactly one of the `n` processes, and symmetry
children are on the process of their parent. -/
theorem fragments_on_one_rank (n : Nat) (hn : 0 < n) (as : List Action) :
    ((create n as).map (·.id)).Nodup ∧
    (∀ f ∈ create n as, ∃! r : Nat, r < n ∧ f.rank = r) ∧
    ∀ f ∈ create n as, ∀ p, f.parent = some p → ∃ g ∈ create n as, g.id = p ∧ g.rank = f.rank := by
  have h := ms_inv n hn as _ (ms_inv_init n)
  refine ⟨h.ids, fun f hf => ?_, h.parents⟩
  obtain ⟨h1, h2⟩ := h.ranks f hf
  refine ⟨f.rank.toNat, ⟨by omega, by omega⟩, ?_⟩
  rintro r ⟨-, hr⟩
  omega

private theorem ms_same_step (s t : State) (a : Action) (h1 : s.register.nextId = t.register.nextId) (h2 : SameButRank s.frags t.frags) :
    (s.step a).register.nextId = (t.step a).register.nextId ∧ SameButRank (s.step a).frags (t.step a).frags := by
  have hpos : ∀ pos : Nat, (s.frags[pos]?).map (fun f => (f.id, f.parent, f.active, f.auxiliary)) =
      (t.frags[pos]?).map fun f => (f.id, f.parent, f.active, f.auxiliary) := by
    intro pos
    rw [← List.getElem?_map, ← List.getElem?_map]
    rw [show s.frags.map _ = t.frags.map _ from h2]
  cases a with
  | new aux =>
    refine ⟨by simp [State.step, Register.getNext, Register.getNextId, Register.getNextRank, Except.map, h1], ?_⟩
    simp only [State.step, Register.getNext, Register.getNextId, Register.getNextRank, Bool.false_eq_true, if_false, Except.map]
    unfold SameButRank at *
    rw [List.map_append, List.map_append, h2]
    simp [h1]
  | child pos =>
    have hp := hpos pos
    simp only [State.step]
    cases hs : s.frags[pos]? with
    | none =>
      rw [hs] at hp
      cases ht : t.frags[pos]? with
      | none => exact ⟨h1, h2⟩
      | some q => rw [ht] at hp; cases hp
    | some p =>
      rw [hs] at hp
      cases ht : t.frags[pos]? with
      | none => rw [ht] at hp; cases hp
      | some q =>
        rw [ht] at hp
        simp only [Option.map_some, Option.some.injEq, Prod.mk.injEq] at hp
        refine ⟨by simp [Register.getNextId, h1], ?_⟩
        unfold SameButRank at *
        simp only [Register.getNextId, List.map_append, h2]
        simp [h1, hp.1, hp.2.2.2]
  | setActive pos b =>
    refine ⟨h1, ?_⟩
    show SameButRank (s.frags.modify pos _) (t.frags.modify pos _)
    unfold SameButRank
    apply List.ext_getElem?
    intro i
    rw [List.getElem?_map, List.getElem?_map, List.getElem?_modify, List.getElem?_modify]
    have hp := hpos i
    cases hs : s.frags[i]? with
    | none =>
      rw [hs] at hp
      cases ht : t.frags[i]? with
      | none => rfl
      | some q => rw [ht] at hp; cases hp
    | some p =>
      rw [hs] at hp
      cases ht : t.frags[i]? with
      | none => rw [ht] at hp; cases hp
      | some q =>
        rw [ht] at hp
        simp only [Option.map_some, Option.some.injEq, Prod.mk.injEq] at hp
        simp only [Option.map_eq_map, Option.map_some]
        split
        · simp [hp.1, hp.2.1, hp.2.2.2]
        · simp [hp.1, hp.2.1, hp.2.2.1, hp.2.2.2]

/-- **C35**: the fragments themselves do not depend on the number of processes. -/
theorem fragments_independent_of_size (n m : Nat) (as : List Action) : SameButRank (create n as) (create m as) := by
  have key : ∀ (as : List Action) (s t : State), s.register.nextId = t.register.nextId → SameButRank s.frags t.frags →
      SameButRank (as.foldl State.step s).frags (as.foldl State.step t).frags := by
    intro as
    induction as with
    | nil => intro _ _ _ h; exact h
    | cons a as ih =>
      intro s t h1 h2
      obtain ⟨h3, h4⟩ := ms_same_step s t a h1 h2
      exact ih _ _ h3 h4
  exact key as _ _ rfl rfl

section
variable {M : Type} [AddCommMonoid M]

private theorem ms_loop (frags : List Frag) (filters : List (String × Frags.Filt Val)) (P : Frag → Bool) (contrib : Int → M)
    (hk : ∀ f : Frag, HasKeys f.attr filters) (hP : ∀ f : Frag, AllMeet f.attr filters ↔ P f = true) (r : Nat) :
    loopSum frags filters contrib r = .ok (((frags.filter fun f => P f && decide (f.rank = r)).map fun f => contrib f.id).sum) := by
  have hkeys : ∀ f ∈ frags, HasKeys (lookup.attr f) (filters ++ [("mpi_rank", .values [.int r])]) ∧
      HasKeys (lookup.opt f) [] ∧ HasKeys (lookup.flag f) [] := by
    intro f _
    refine ⟨?_, (by intro c hc; cases hc), (by intro c hc; cases hc)⟩
    intro c hc
    rw [List.mem_append] at hc
    rcases hc with hc | hc
    · exact hk f c hc
    · rw [List.mem_singleton] at hc
      subst hc
      rfl
  unfold loopSum
  rw [get_fragments_exact lookup frags _ [] [] hkeys]
  simp only [Except.map]
  congr 3
  apply List.filter_congr
  intro f _
  have : Selected lookup (filters ++ [("mpi_rank", .values [.int r])]) [] [] f ↔ (P f && decide (f.rank = r)) = true := by
    simp only [Selected, if_true, allMeet_nil, and_true, Bool.and_eq_true, decide_eq_true_eq]
    rw [← hP f]
    have hm : Meets (lookup.attr f) ("mpi_rank", .values [.int (r : Int)]) ↔ f.rank = r := by
      unfold Meets
      constructor
      · rintro ⟨a, ha, hv⟩
        simp only [List.mem_singleton] at hv
        subst hv
        simpa [lookup, Frag.attr] using ha
      · intro h
        exact ⟨.int f.rank, rfl, by simp [h]⟩
    constructor
    · intro h
      refine ⟨fun c hc => h c (List.mem_append_left _ hc), hm.1 (h _ (List.mem_append_right _ (by simp)))⟩
    · rintro ⟨h1, h2⟩ c hc
      rw [List.mem_append, List.mem_singleton] at hc
      rcases hc with hc | rfl
      · exact h1 c hc
      · exact hm.2 h2
  by_cases hs : Selected lookup (filters ++ [("mpi_rank", .values [.int r])]) [] [] f
  · rw [decide_eq_true hs, this.1 hs]
  · rw [decide_eq_false hs]
    symm
    rw [Bool.eq_false_iff]
    exact fun h => hs (this.2 h)

private theorem ms_all (f : Frag) : HasKeys f.attr allFilters ∧ (AllMeet f.attr allFilters ↔
    (decide (f.active = true ∧ f.auxiliary = false)) = true) := by
  constructor
  · intro c hc
    simp only [allFilters, List.mem_singleton] at hc
    subst hc
    rfl
  · simp only [AllMeet, allFilters, List.mem_singleton, forall_eq, Meets]
    obtain ⟨i, r, p, a, b⟩ := f
    cases a <;> cases b <;> simp [Frag.attr, Frag.contributes]

private theorem ms_parent (f : Frag) : HasKeys f.attr parentFilters ∧ (AllMeet f.attr parentFilters ↔
    (decide (f.active = true ∧ f.auxiliary = false ∧ f.parent = none)) = true) := by
  constructor
  · intro c hc
    simp only [parentFilters, List.mem_cons, List.not_mem_nil, or_false] at hc
    rcases hc with rfl | rfl <;> rfl
  · simp only [AllMeet, parentFilters, List.mem_cons, List.not_mem_nil, or_false, forall_eq_or_imp, forall_eq, Meets]
    obtain ⟨i, r, p, a, b⟩ := f
    cases a <;> cases b <;> cases p <;> simp [Frag.attr, Frag.contributes]

private theorem ms_sum_ranks (n : Nat) (P : Frag → Bool) (g : Frag → M) : ∀ frags : List Frag,
    (∀ f ∈ frags, 0 ≤ f.rank ∧ f.rank < n) →
    ((List.range n).map fun (r : Nat) => ((frags.filter fun f => P f && decide (f.rank = (r : Int))).map g).sum).sum =
      ((frags.filter P).map g).sum
  | [], _ => by simp
  | f :: frags, h => by
    have ih := ms_sum_ranks n P g frags (fun f hf => h f (List.mem_cons_of_mem _ hf))
    have hstep : ∀ r : Nat, (((f :: frags).filter fun f => P f && decide (f.rank = (r : Int))).map g).sum =
        (if P f = true ∧ r = f.rank.toNat then g f else 0) +
          ((frags.filter fun f => P f && decide (f.rank = (r : Int))).map g).sum := by
      intro r
      obtain ⟨h1, h2⟩ := h f List.mem_cons_self
      rw [List.filter_cons]
      by_cases hp : P f = true
      · by_cases hr : f.rank = (r : Int)
        · rw [if_pos (by simp [hp, hr]), if_pos ⟨hp, by omega⟩]; simp
        · rw [if_neg (by simp [hr]), if_neg (by rintro ⟨-, h3⟩; omega)]; simp
      · rw [if_neg (by simp [hp]), if_neg (fun h3 => hp h3.1)]; simp
    have hd : ∀ m : Nat, f.rank.toNat < m → ((List.range m).map fun r => if P f = true ∧ r = f.rank.toNat then g f else 0).sum =
        if P f = true then g f else 0 := by
      intro m hm
      by_cases hp : P f = true
      · simp only [hp, true_and, if_true]
        induction m with
        | zero => omega
        | succ m ihm =>
          rw [List.range_succ, List.map_append, List.sum_append, List.map_singleton, List.sum_singleton]
          by_cases hlt : f.rank.toNat < m
          · rw [ihm hlt, if_neg (by omega), add_zero]
          · have : f.rank.toNat = m := by omega
            rw [if_pos this.symm]
            have hz : ((List.range m).map fun r => if r = f.rank.toNat then g f else 0).sum = 0 := by
              apply List.sum_eq_zero
              intro x hx
              rw [List.mem_map] at hx
              obtain ⟨r, hr, rfl⟩ := hx
              rw [List.mem_range] at hr
              rw [if_neg (by omega)]
            rw [hz, zero_add]
      · simp [hp]
    rw [show (fun r : Nat => (((f :: frags).filter fun f => P f && decide (f.rank = (r : Int))).map g).sum) =
      fun r : Nat => (if P f = true ∧ r = f.rank.toNat then g f else 0) +
          ((frags.filter fun f => P f && decide (f.rank = (r : Int))).map g).sum from funext hstep,
      List.sum_map_add, ih, hd n (by obtain ⟨h1, h2⟩ := h f List.mem_cons_self; omega), List.filter_cons]
    by_cases hp : P f = true
    · simp [hp]
    · simp [hp]

private theorem ms_filter_same (P : Int × Option Int × Bool × Bool → Bool) (contrib : Int → M) (a b : List Frag) (h : SameButRank a b) :
    ((a.filter fun f => P (f.id, f.parent, f.active, f.auxiliary)).map fun f => contrib f.id).sum =
      ((b.filter fun f => P (f.id, f.parent, f.active, f.auxiliary)).map fun f => contrib f.id).sum := by
  have key : ∀ l : List Frag, ((l.filter fun f => P (f.id, f.parent, f.active, f.auxiliary)).map fun f => contrib f.id) =
      ((l.map fun f => (f.id, f.parent, f.active, f.auxiliary)).filter P).map fun x => contrib x.1 := by
    intro l
    rw [List.filter_map, List.map_map]
    rfl
  rw [key, key, show a.map _ = b.map _ from h]

/-- **C35**: the sums of the processes, added up, are the sum over all fragments, which does not depend on the number of processes.
No process raises. -/
theorem distributed_sum (n : Nat) (hn : 0 < n) (as : List Action) (contrib : Int → M) :
    (∀ r, ∃ x, loopSum (create n as) allFilters contrib r = .ok x) ∧
    (∀ r, ∃ x, loopSum (create n as) parentFilters contrib r = .ok x) ∧
    ((List.range n).map fun r => (loopSum (create n as) allFilters contrib r).toOption.getD 0).sum = totalAll (create 1 as) contrib ∧
    ((List.range n).map fun r => (loopSum (create n as) parentFilters contrib r).toOption.getD 0).sum =
      totalParents (create 1 as) contrib := by
  have h := ms_inv n hn as _ (ms_inv_init n)
  have hr : ∀ f ∈ create n as, 0 ≤ f.rank ∧ f.rank < n := h.ranks
  have e1 := fun r => ms_loop (create n as) allFilters _ contrib (fun f => (ms_all f).1) (fun f => (ms_all f).2) r
  have e2 := fun r => ms_loop (create n as) parentFilters _ contrib (fun f => (ms_parent f).1) (fun f => (ms_parent f).2) r
  have hs := fragments_independent_of_size n 1 as
  refine ⟨fun r => ⟨_, e1 r⟩, fun r => ⟨_, e2 r⟩, ?_, ?_⟩
  · simp only [e1, Except.toOption, Option.getD_some]
    rw [ms_sum_ranks n _ (fun f => contrib f.id) _ hr]
    exact ms_filter_same (fun x => decide (x.2.2.1 = true ∧ x.2.2.2 = false)) contrib _ _ hs
  · simp only [e2, Except.toOption, Option.getD_some]
    rw [ms_sum_ranks n _ (fun f => contrib f.id) _ hr]
    exact ms_filter_same (fun x => decide (x.2.2.1 = true ∧ x.2.2.2 = false ∧ x.2.1 = none)) contrib _ _ hs

end

section
variable {K : Type} [Field K]

omit [Field K] in
private theorem ms_serial {M : Type} [AddCommMonoid M] (as : List Action) (contrib : Int → M) :
    (loopSum (create 1 as) allFilters contrib 0).toOption.getD 0 = totalAll (create 1 as) contrib ∧
    (loopSum (create 1 as) parentFilters contrib 0).toOption.getD 0 = totalParents (create 1 as) contrib := by
  have h := distributed_sum 1 (by omega) as contrib
  simpa using h.2.2

/-- **C35**: the projected correlation energy on every process is the serial result, the sum over all fragments per unit cell. -/
theorem mpi_wf_energy (n : Nat) (hn : 0 < n) (as : List Action) (energy : Int → K) (ncells : K) (r : Nat) (hr : r < n) :
    wfCorrEnergy n (create n as) energy ncells r = totalParents (create 1 as) energy / ncells ∧
    wfCorrEnergy n (create n as) energy ncells r = wfCorrEnergy 1 (create 1 as) energy ncells 0 := by
  have hser : wfCorrEnergy 1 (create 1 as) energy ncells 0 = totalParents (create 1 as) energy / ncells := by
    unfold wfCorrEnergy withAllreduce
    rw [if_pos (Nat.le_refl 1), (ms_serial as energy).2]
  rw [hser]
  refine ⟨?_, ?_⟩ <;>
  · unfold wfCorrEnergy withAllreduce
    by_cases h1 : n ≤ 1
    · have : n = 1 := by omega
      subst this
      have : r = 0 := by omega
      subst this
      rw [if_pos h1, (ms_serial as energy).2]
    · rw [if_neg h1]
      unfold allreduce
      simp only [div_eq_mul_inv]
      rw [List.sum_map_mul_right, (distributed_sum n hn as energy).2.2.2]

/-- **C35**: the energy of the cumulant from fragment contributions is the serial result on every process. -/
theorem mpi_cumulant_energy_partial (n : Nat) (hn : 0 < n) (as : List Action) (globalEnergy : K) (energy : Int → K) (ncells : K) (r : Nat)
    (hr : r < n) :
    dmCorrEnergyE2 n (create n as) .projectedLambda globalEnergy energy ncells r = totalParents (create 1 as) energy / ncells :=
  (mpi_wf_energy n hn as energy ncells r hr).1

/-- **C35** is false for the energy of the cumulant of the global density matrix: on `n > 1` processes the result is `n` times the
serial one. -/
theorem mpi_global_cumulant_energy_multiplied (n : Nat) (hn : 1 < n) (as : List Action) (globalEnergy : K) (energy : Int → K) (ncells : K)
    (r : Nat) :
    dmCorrEnergyE2 n (create n as) .globalWf globalEnergy energy ncells r =
      n * dmCorrEnergyE2 1 (create 1 as) .globalWf globalEnergy energy ncells 0 := by
  unfold dmCorrEnergyE2 withAllreduce allreduce
  rw [if_neg (by omega), if_pos (Nat.le_refl 1)]
  simp [List.map_const', List.sum_replicate]

end

section
variable {M : Type} [AddCommMonoid M]

/-- **C35**: the democratically partitioned density matrix without target is the serial one on every process. -/
theorem mpi_rdm1_demo (n : Nat) (hn : 0 < n) (as : List Action) (dm : Int → M) (addMf post : Option (M → M)) (r : Nat) (hr : r < n) :
    rdm1Demo n (create n as) dm addMf post none r =
      .ok (some ((post.getD id) ((addMf.getD id) (totalAll (create 1 as) dm)))) := by
  have hd := (distributed_sum n hn as dm).2.2.1
  have hx : (if n ≤ 1 then some ((loopSum (create n as) allFilters dm r).toOption.getD 0)
      else nreduce n (fun r => (loopSum (create n as) allFilters dm r).toOption.getD 0) none r) = some (totalAll (create 1 as) dm) := by
    split
    · rename_i h1
      have : n = 1 := by omega
      subst this
      have : r = 0 := by omega
      subst this
      rw [(ms_serial as dm).1]
    · unfold nreduce allreduce
      simp only
      rw [hd]
  unfold rdm1Demo
  simp only
  rw [hx]
  cases addMf <;> cases post <;> rfl

/-- **C35** (limit): with a target process, the target gets the serial result, but every other process raises a TypeError unless
neither the mean-field nor symmetrisation nor the AO basis is asked for. -/
theorem mpi_rdm1_demo_target (n : Nat) (hn : 1 < n) (as : List Action) (dm : Int → M) (addMf post : Option (M → M)) (t r : Nat) :
    rdm1Demo n (create n as) dm addMf post (some t) t =
      .ok (some ((post.getD id) ((addMf.getD id) (totalAll (create 1 as) dm)))) ∧
    (r ≠ t → rdm1Demo n (create n as) dm addMf post (some t) r =
      if addMf.isSome ∨ post.isSome then .error .typeError else .ok none) := by
  have hd := (distributed_sum n (by omega) as dm).2.2.1
  unfold rdm1Demo
  simp only
  rw [if_neg (by omega), if_neg (by omega)]
  constructor
  · unfold nreduce allreduce
    simp only [if_true]
    rw [hd]
    cases addMf <;> cases post <;> rfl
  · intro hr
    unfold nreduce
    simp only [if_neg hr]
    cases addMf <;> cases post <;> rfl

/-- **C35**: the projected-lambda density matrix: the serial result on all processes, or on the target only. -/
theorem mpi_rdm1_proj_lambda (n : Nat) (hn : 0 < n) (as : List Action) (dm : Int → M) (post : M → M) (target : Option Nat) (r : Nat)
    (hr : r < n) (ht : ∀ t, target = some t → t < n) :
    rdm1ProjLambda n (create n as) dm post target r =
      .ok (if target = none ∨ target = some r then some (post (totalAll (create 1 as) dm)) else none) := by
  have hd := (distributed_sum n hn as dm).2.2.1
  unfold rdm1ProjLambda
  simp only
  by_cases h1 : n ≤ 1
  · have : n = 1 := by omega
    subst this
    have : r = 0 := by omega
    subst this
    rw [if_neg (by omega), if_pos h1, (ms_serial as dm).1, if_pos]
    · rfl
    · cases target with
      | none => exact .inl rfl
      | some t =>
        right
        have := ht t rfl
        have : t = 0 := by omega
        rw [this]
  · rw [if_neg h1]
    unfold nreduce allreduce
    simp only [hd]
    cases target with
    | none => simp
    | some t =>
      by_cases hrt : r = t
      · subst hrt
        rw [if_neg (by simp), if_pos (.inr rfl)]
        simp
      · have hne : ¬(some t = some r) := fun h => hrt (by injection h with h; exact h.symm)
        rw [if_pos ⟨by omega, by simp, hne⟩, if_neg (by rintro (h | h); cases h; exact hne h)]

/-- **C35** (limit): on more than one process the global density matrix without singles (MP2) always raises. -/
theorem mpi_rdm1_global_mp2_raises (n : Nat) (hn : 1 < n) (doo dov dvv : Nat → M) (target : Option Nat) (r : Nat) :
    rdm1GlobalWfReduce n false doo dov dvv target r = .error .nameError ∧
    (∃ x, rdm1GlobalWfReduce 1 false doo dov dvv target r = .ok (some x)) ∧
    rdm1GlobalWfReduce n true doo dov dvv none r =
      .ok (some (((List.range n).map doo).sum, some ((List.range n).map dov).sum, ((List.range n).map dvv).sum)) := by
  unfold rdm1GlobalWfReduce
  refine ⟨by rw [if_neg (by omega), if_pos rfl], ⟨_, if_pos (Nat.le_refl 1)⟩, ?_⟩
  rw [if_neg (by omega), if_neg (by decide)]
  rfl

end

/-- Five fragments, one of them auxiliary, with symmetry children and one inactive, on three processes. -/
example : (create 3 [.new false, .new false, .child 1, .new true, .child 0, .new false, .new false, .setActive 5 false]).map
    (fun f => (f.id, f.rank, f.contributes)) =
    [(0, 0, true), (1, 1, true), (2, 1, true), (3, 2, false), (4, 0, true), (5, 0, false), (6, 1, true)] := by decide

example : wfCorrEnergy (K := ℚ) 3 (create 3 [.new false, .new false, .child 1, .new true, .new false]) (fun i => i + 1) 2 1 = 4 := by
  rw [(mpi_wf_energy 3 (by omega) _ _ _ 1 (by omega)).1]
  have : totalParents (M := ℚ) (create 1 [.new false, .new false, .child 1, .new true, .new false]) (fun i => i + 1) =
    (([0, 1, 4] : List Int).map fun i => (i : ℚ) + 1).sum := rfl
  rw [this]
  norm_num

/-- On two processes the energy of the global cumulant is twice the right one. -/
example : dmCorrEnergyE2 (K := ℚ) 2 (create 2 [.new false]) .globalWf (-1) (fun _ => 0) 1 0 = -2 := by
  rw [mpi_global_cumulant_energy_multiplied 2 (by omega)]
  norm_num [dmCorrEnergyE2, withAllreduce]

end Vayesta.Props
