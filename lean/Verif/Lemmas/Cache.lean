import Verif.Spec.Cache
import Mathlib.Data.List.Basic
import Mathlib.Data.List.Nodup

namespace Vayesta.Cache

variable {K V : Type} [DecidableEq K]

theorem mem_of_lookup {l : List (K × Nat)} {k : K} {r : Nat} (h : l.lookup k = some r) : (k, r) ∈ l := by
  induction l with
  | nil => simp at h
  | cons x l ih =>
    obtain ⟨a, b⟩ := x
    by_cases hk : k = a
    · subst hk; simp [List.lookup] at h; simp [h]
    · have : (k == a) = false := by simp [hk]
      simp only [List.lookup, this] at h
      simp [ih h]

theorem mem_lruCall_cache (maxsize : Option Nat) (f : K → V) (s : State K V) (k : K) {x : K × Nat}
    (hx : x ∈ (lruCall maxsize f s k).1.cache) : x ∈ s.cache ∨ x = (k, (lruCall maxsize f s k).2) := by
  unfold lruCall at hx ⊢
  cases hl : s.cache.lookup k with
  | some r =>
    simp only [hl] at hx ⊢
    rcases List.mem_cons.1 hx with h | h
    · exact Or.inr h
    · exact Or.inl (List.mem_filter.1 h).1
  | none =>
    simp only [hl, State.alloc] at hx ⊢
    have : x ∈ (k, s.store.length) :: s.cache := by
      cases maxsize with
      | none => exact hx
      | some m => exact List.mem_of_mem_take hx
    rcases List.mem_cons.1 this with h | h
    · exact Or.inr h
    · exact Or.inl h

/-- Every cached object still holds the value of the function. -/
def Good (f : K → V) (s : State K V) : Prop := ∀ k r, (k, r) ∈ s.cache → s.store[r]? = some (f k)

/-- Objects in the cache were never handed out. -/
def Private (s : State K V) : Prop := ∀ k r, (k, r) ∈ s.cache → r ∉ s.returned

/-- Returned references are allocated. -/
def Alloc (s : State K V) : Prop := ∀ r ∈ s.returned, r < s.store.length

theorem lruCall_good {maxsize : Option Nat} {f : K → V} {s : State K V} (h : Good f s) (k : K) :
    Good f (lruCall maxsize f s k).1 ∧ (lruCall maxsize f s k).1.store[(lruCall maxsize f s k).2]? = some (f k) := by
  have hres : (lruCall maxsize f s k).1.store[(lruCall maxsize f s k).2]? = some (f k) := by
    unfold lruCall
    cases hl : s.cache.lookup k with
    | some r => exact h k r (mem_of_lookup hl)
    | none => simp [State.alloc]
  refine ⟨?_, hres⟩
  intro k' r' hm
  rcases mem_lruCall_cache maxsize f s k hm with h1 | h1
  · have := h k' r' h1
    unfold lruCall
    cases hl : s.cache.lookup k with
    | some r => exact this
    | none =>
      simp only [State.alloc]
      rw [List.getElem?_append_left]
      · exact this
      · by_contra hc
        rw [List.getElem?_eq_none (by omega)] at this
        cases this
  · obtain ⟨rfl, rfl⟩ := Prod.mk.inj h1
    exact hres

theorem lruCall_returned (maxsize : Option Nat) (f : K → V) (s : State K V) (k : K) :
    (lruCall maxsize f s k).1.returned = s.returned := by
  unfold lruCall
  cases s.cache.lookup k <;> rfl

theorem lruCall_store_le (maxsize : Option Nat) (f : K → V) (s : State K V) (k : K) :
    s.store.length ≤ (lruCall maxsize f s k).1.store.length := by
  unfold lruCall
  cases s.cache.lookup k <;> simp [State.alloc]

theorem lruCall_private {maxsize : Option Nat} {f : K → V} {s : State K V} (hp : Private s) (ha : Alloc s) (k : K) :
    Private (lruCall maxsize f s k).1 := by
  intro k' r' hm hr
  rw [lruCall_returned] at hr
  rcases mem_lruCall_cache maxsize f s k hm with h1 | h1
  · exact hp k' r' h1 hr
  · obtain ⟨rfl, rfl⟩ := Prod.mk.inj h1
    revert hr
    unfold lruCall
    cases hl : s.cache.lookup k' with
    | some r => exact fun hr => hp k' r (mem_of_lookup hl) hr
    | none =>
      simp only [State.alloc]
      intro hr
      have := ha _ hr
      omega

/-- The list of (argument, correct result) of the calls of a program. -/
def expected (f : K → V) : List (Op K V) → List (K × Option V)
  | [] => []
  | .call k :: ops => (k, some (f k)) :: expected f ops
  | _ :: ops => expected f ops

theorem run_copy (maxsize : Option Nat) (f : K → V) (ops : List (Op K V)) (s : State K V)
    (hg : Good f s) (hp : Private s) (ha : Alloc s) : (run maxsize true f s ops).2 = expected f ops := by
  induction ops generalizing s with
  | nil => rfl
  | cons op ops ih =>
    cases op with
    | call k =>
      obtain ⟨g1, g2⟩ := lruCall_good (maxsize := maxsize) hg k
      have g3 := lruCall_private (maxsize := maxsize) (f := f) hp ha k
      have hret := lruCall_returned maxsize f s k
      have hle := lruCall_store_le maxsize f s k
      generalize hc : lruCall maxsize f s k = c at g1 g2 g3 hret hle
      obtain ⟨s1, r⟩ := c
      simp only at g1 g2 g3 hret hle
      have hstep : step maxsize true f s (.call k) =
          ({ s1 with store := s1.store ++ [f k], returned := s1.returned ++ [s1.store.length] }, some (k, some (f k))) := by
        simp [step, hc, g2, State.alloc]
      simp only [run, hstep, expected]
      rw [ih]
      · rfl
      · intro k' r' hm
        have := g1 k' r' hm
        simp only
        rw [List.getElem?_append_left]
        · exact this
        · by_contra hcon
          rw [List.getElem?_eq_none (by omega)] at this
          cases this
      · intro k' r' hm hr
        simp only [List.mem_append, List.mem_singleton] at hr
        rcases hr with hr | hr
        · exact g3 k' r' hm hr
        · have := g1 k' r' hm
          rw [hr, List.getElem?_eq_none (Nat.le_refl _)] at this
          cases this
      · intro r' hr
        simp only [List.mem_append, List.mem_singleton, hret] at hr
        simp only [List.length_append, List.length_singleton]
        rcases hr with hr | hr
        · have := ha r' hr; omega
        · omega
    | mutate i v =>
      simp only [run, step, expected]
      cases hi : s.returned[i]? with
      | none => simpa using ih s hg hp ha
      | some r =>
        simp only [Option.toList, List.nil_append]
        have hrm : r ∈ s.returned := List.mem_of_getElem? hi
        apply ih
        · intro k' r' hm
          have hne : r ≠ r' := fun e => hp k' r' hm (e ▸ hrm)
          simp only [List.getElem?_set_ne hne]
          exact hg k' r' hm
        · exact hp
        · intro r' hr'; simpa using ha r' hr'
    | clear =>
      simp only [run, step, expected, Option.toList, List.nil_append]
      exact ih _ (by intro _ _ h; simp at h) (by intro _ _ h; simp at h) ha

theorem run_nocopy (maxsize : Option Nat) (f : K → V) (ops : List (Op K V)) (s : State K V)
    (hm : ∀ i v, Op.mutate i v ∉ ops) (hg : Good f s) : (run maxsize false f s ops).2 = expected f ops := by
  induction ops generalizing s with
  | nil => rfl
  | cons op ops ih =>
    have hm' : ∀ i v, Op.mutate i v ∉ ops := fun i v h => hm i v (by simp [h])
    cases op with
    | call k =>
      obtain ⟨g1, g2⟩ := lruCall_good (maxsize := maxsize) hg k
      generalize hc : lruCall maxsize f s k = c at g1 g2
      obtain ⟨s1, r⟩ := c
      simp only at g1 g2
      have hstep : step maxsize false f s (.call k) =
          ({ s1 with returned := s1.returned ++ [r] }, some (k, some (f k))) := by
        simp [step, hc, g2]
      simp only [run, hstep, expected]
      rw [ih { s1 with returned := s1.returned ++ [r] } hm' g1]
      rfl
    | mutate i v => exact absurd (by simp) (hm i v)
    | clear =>
      simp only [run, step, expected, Option.toList, List.nil_append]
      exact ih _ hm' (by intro _ _ h; simp at h)

theorem filter_take_eq (n : Nat) (l : List K) (k : K) (hn : l.Nodup) (hk : k ∈ l.take (n + 1)) :
    (l.take (n + 1)).filter (· ≠ k) = (l.filter (· ≠ k)).take n := by
  induction l generalizing n with
  | nil => simp
  | cons a l ih =>
    simp only [List.nodup_cons] at hn
    rw [List.take_succ_cons]
    by_cases ha : a = k
    · subst ha
      have h1 : ∀ m : List K, a ∉ m → m.filter (· ≠ a) = m := by
        intro m hm
        rw [List.filter_eq_self]
        intro b hb
        simp
        rintro rfl
        exact hm hb
      rw [List.filter_cons_of_neg (by simp), List.filter_cons_of_neg (by simp), h1 _ hn.1,
        h1 _ (fun h => hn.1 (List.mem_of_mem_take h))]
    · rw [List.filter_cons_of_pos (by simp [ha]), List.filter_cons_of_pos (by simp [ha])]
      cases n with
      | zero => simp at hk; exact absurd hk.symm ha
      | succ n =>
        rw [List.take_succ_cons, ih n hn.2]
        have hk2 : k ∈ a :: l.take (n + 1) := by simpa using hk
        rcases List.mem_cons.1 hk2 with h | h
        · exact absurd h.symm ha
        · exact h

/-- The least-recently-used policy on keys. -/
def lruKeys (maxsize : Option Nat) (l : List K) : List K := match maxsize with
  | none => l
  | some m => l.take m

theorem lookup_none_iff {l : List (K × Nat)} {k : K} : l.lookup k = none ↔ k ∉ l.map Prod.fst := by
  induction l with
  | nil => simp
  | cons x l ih =>
    obtain ⟨a, b⟩ := x
    by_cases hk : k = a
    · subst hk; simp [List.lookup]
    · have : (k == a) = false := by simp [hk]
      simp only [List.lookup, this, List.map_cons, List.mem_cons, hk, false_or]
      exact ih

theorem filter_absent {l : List K} {k : K} (h : k ∉ l) : l.filter (· ≠ k) = l := by
  rw [List.filter_eq_self]
  intro b hb
  simp
  rintro rfl
  exact h hb

theorem take_filter_absent (n : Nat) (l : List K) (k : K) (hk : k ∉ l.take (n + 1)) :
    (l.filter (· ≠ k)).take n = l.take n := by
  induction l generalizing n with
  | nil => simp
  | cons a l ih =>
    simp only [List.take_succ_cons, List.mem_cons, not_or] at hk
    rw [List.filter_cons_of_pos (by simp; exact fun e => hk.1 e.symm)]
    cases n with
    | zero => simp
    | succ n => rw [List.take_succ_cons, List.take_succ_cons, ih n hk.2]

theorem lruCall_keys (maxsize : Option Nat) (f : K → V) (s : State K V) (ks : List K) (hn : ks.Nodup) (k : K)
    (h : s.cache.map Prod.fst = lruKeys maxsize ks) :
    (lruCall maxsize f s k).1.cache.map Prod.fst = lruKeys maxsize (k :: ks.filter (· ≠ k)) := by
  unfold lruCall
  cases hl : s.cache.lookup k with
  | some r =>
    have hk : k ∈ s.cache.map Prod.fst := by
      by_contra hc
      rw [lookup_none_iff.2 hc] at hl
      cases hl
    have hmap : (s.cache.filter (fun x => x.1 ≠ k)).map Prod.fst = (s.cache.map Prod.fst).filter (· ≠ k) := by
      rw [List.filter_map]; rfl
    simp only [List.map_cons, hmap, h]
    rw [h] at hk
    cases maxsize with
    | none => rfl
    | some m =>
      cases m with
      | zero => simp [lruKeys] at hk
      | succ n =>
        simp only [lruKeys, List.take_succ_cons] at hk ⊢
        rw [filter_take_eq n ks k hn hk]
  | none =>
    have hk := lookup_none_iff.1 hl
    rw [h] at hk
    simp only [State.alloc]
    cases maxsize with
    | none =>
      simp only [lruKeys] at hk h ⊢
      rw [List.map_cons, h, filter_absent hk]
    | some m =>
      cases m with
      | zero => simp [lruKeys]
      | succ n =>
        simp only [lruKeys] at hk h ⊢
        rw [List.map_take, List.map_cons, h, List.take_succ_cons, List.take_succ_cons, take_filter_absent n ks k hk,
          List.take_take]
        simp

theorem nodup_recent (ks : List K) (hn : ks.Nodup) (op : Op K V) : (recent ks op).Nodup := by
  cases op with
  | call k =>
    simp only [recent, List.nodup_cons]
    exact ⟨by simp, hn.filter _⟩
  | mutate _ _ => exact hn
  | clear => simp [recent]

theorem run_keys (maxsize : Option Nat) (copy : Bool) (f : K → V) (ops : List (Op K V)) (s : State K V) (ks : List K)
    (hn : ks.Nodup) (h : s.cache.map Prod.fst = lruKeys maxsize ks) :
    (run maxsize copy f s ops).1.cache.map Prod.fst = lruKeys maxsize (ops.foldl recent ks) := by
  induction ops generalizing s ks with
  | nil => simpa [run] using h
  | cons op ops ih =>
    simp only [run, List.foldl_cons]
    apply ih _ _ (nodup_recent ks hn op)
    cases op with
    | call k =>
      have := lruCall_keys maxsize f s ks hn k h
      simp only [step, recent]
      cases copy
      · simpa using this
      · simp only [if_true]
        split
        · simpa [State.alloc] using this
        · simpa using this
    | mutate i v =>
      simp only [step, recent]
      split
      · simpa using h
      · simpa using h
    | clear =>
      cases maxsize <;> simp [step, recent, lruKeys]

end Vayesta.Cache
