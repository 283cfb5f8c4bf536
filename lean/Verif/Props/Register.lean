import Verif.Model.Register
import Mathlib.Data.List.Basic
import Mathlib.Algebra.Order.Ring.Int
import Mathlib.Tactic.Ring

/-! # C11: fragment ids and MPI ranks -/

namespace Vayesta.Props
open Vayesta.Register

/-- Ids handed out, in order. -/
def idsOf (rs : List Resp) : List Int := rs.filterMap (·.id)
/-- Ranks handed out, in order. -/
def ranksOf (rs : List Resp) : List Int := rs.filterMap (·.rank)

/-- A request that raises, although it has drawn an id (`get_next` with an estimate). -/
def LosesId : Req → Bool
  | .both e => e
  | _ => false

theorem ids_aux (qs : List Req) (s : State) :
    (idsOf (run s qs).2).Pairwise (· < ·) ∧ (∀ i ∈ idsOf (run s qs).2, s.nextId < i) ∧
    ((∀ q ∈ qs, LosesId q = false) →
      idsOf (run s qs).2 = (List.range (idsOf (run s qs).2).length).map fun j : Nat => s.nextId + 1 + j) := by
  induction qs generalizing s with
  | nil => simp [run, idsOf]
  | cons q qs ih =>
    have hcons : ∀ s' (r : Resp), r.id = some (s.nextId + 1) → s'.nextId = s.nextId + 1 →
        (idsOf (r :: (run s' qs).2)).Pairwise (· < ·) ∧ (∀ i ∈ idsOf (r :: (run s' qs).2), s.nextId < i) ∧
        ((∀ q ∈ qs, LosesId q = false) → idsOf (r :: (run s' qs).2) =
          (List.range (idsOf (r :: (run s' qs).2)).length).map fun j : Nat => s.nextId + 1 + j) := by
      intro s' r hr hs'
      obtain ⟨i1, i2, i3⟩ := ih s'
      have he : idsOf (r :: (run s' qs).2) = (s.nextId + 1) :: idsOf (run s' qs).2 := by
        unfold idsOf; rw [List.filterMap_cons_some hr]
      rw [he]
      refine ⟨?_, ?_, ?_⟩
      · rw [List.pairwise_cons]
        exact ⟨fun i hi => by have := i2 i hi; omega, i1⟩
      · intro i hi
        rcases List.mem_cons.1 hi with rfl | hi
        · omega
        · have := i2 i hi; omega
      · intro hq
        have i3' := i3 hq
        generalize idsOf (run s' qs).2 = L at *
        rw [List.length_cons, List.range_succ_eq_map, List.map_cons, List.map_map]
        congr 1
        · simp
        · conv_lhs => rw [i3']
          apply List.map_congr_left
          intro j _
          simp only [Function.comp, hs']
          push_cast
          ring
    have hskip : ∀ s' (r : Resp), r.id = none → s.nextId ≤ s'.nextId → (LosesId q = false → s'.nextId = s.nextId) →
        (idsOf (r :: (run s' qs).2)).Pairwise (· < ·) ∧ (∀ i ∈ idsOf (r :: (run s' qs).2), s.nextId < i) ∧
        ((∀ x ∈ q :: qs, LosesId x = false) → idsOf (r :: (run s' qs).2) =
          (List.range (idsOf (r :: (run s' qs).2)).length).map fun j : Nat => s.nextId + 1 + j) := by
      intro s' r hr hs' hl
      obtain ⟨i1, i2, i3⟩ := ih s'
      have he : idsOf (r :: (run s' qs).2) = idsOf (run s' qs).2 := by
        unfold idsOf; rw [List.filterMap_cons_none hr]
      rw [he]
      refine ⟨i1, fun i hi => by have := i2 i hi; omega, ?_⟩
      intro hq
      have := i3 (fun x hx => hq x (by simp [hx]))
      rw [hl (hq q (by simp))] at this
      exact this
    cases q with
    | id =>
      have := hcons { s with nextId := s.nextId + 1 } { id := some (s.nextId + 1) } rfl rfl
      simp only [run, step, getNextId]
      exact ⟨this.1, this.2.1, fun h => this.2.2 (fun x hx => h x (by simp [hx]))⟩
    | rank e =>
      cases e
      · exact hskip { s with nextRank := (s.nextRank + 1) % s.mpiSize } _ rfl (by simp) (by simp)
      · exact hskip s _ rfl le_rfl (by simp)
    | both e =>
      cases e
      · have := hcons { s with nextId := s.nextId + 1, nextRank := (s.nextRank + 1) % s.mpiSize }
          { id := some (s.nextId + 1), rank := some ((s.nextRank + 1) % s.mpiSize) } rfl rfl
        simp only [run, step, getNext, getNextId, getNextRank]
        exact ⟨this.1, this.2.1, fun h => this.2.2 (fun x hx => h x (by simp [hx]))⟩
      · exact hskip { s with nextId := s.nextId + 1 } _ rfl (by simp) (by simp [LosesId])

/-- **C11.** For every request history the ids handed out are strictly increasing from 0 (so never repeated); if no
`get_next` request carried an estimate they are exactly `0, 1, 2, ...`. -/
theorem register_ids_unique (mpiSize : Int) (qs : List Req) :
    (idsOf (run (init mpiSize) qs).2).Pairwise (· < ·) ∧ (∀ i ∈ idsOf (run (init mpiSize) qs).2, 0 ≤ i) ∧
    ((∀ q ∈ qs, LosesId q = false) →
      idsOf (run (init mpiSize) qs).2 = (List.range (idsOf (run (init mpiSize) qs).2).length).map Int.ofNat) := by
  obtain ⟨h1, h2, h3⟩ := ids_aux qs (init mpiSize)
  refine ⟨h1, fun i hi => by have := h2 i hi; simp [init] at this; omega, fun h => ?_⟩
  have := h3 h
  rw [this]
  simp [init]

theorem ranks_aux (n : Int) (qs : List Req) (s : State) (k : Nat) (hm : s.mpiSize = n)
    (hr : (s.nextRank + 1) % n = (k : Int) % n) :
    ranksOf (run s qs).2 = (List.range (ranksOf (run s qs).2).length).map fun j : Nat => ((k + j : Nat) : Int) % n := by
  induction qs generalizing s k with
  | nil => simp [run, ranksOf]
  | cons q qs ih =>
    have hcons : ∀ s' (r : Resp), r.rank = some ((s.nextRank + 1) % s.mpiSize) → s'.mpiSize = n →
        s'.nextRank = (s.nextRank + 1) % s.mpiSize →
        ranksOf (r :: (run s' qs).2) =
          (List.range (ranksOf (r :: (run s' qs).2)).length).map fun j : Nat => ((k + j : Nat) : Int) % n := by
      intro s' r h1 h2 h3
      have he : ranksOf (r :: (run s' qs).2) = ((k : Int) % n) :: ranksOf (run s' qs).2 := by
        unfold ranksOf; rw [List.filterMap_cons_some h1, hm, hr]
      rw [he]
      have := ih s' (k + 1) h2 (by
        rw [h3, hm, hr]; push_cast; rw [Int.emod_add_emod])
      generalize ranksOf (run s' qs).2 = L at *
      rw [List.length_cons, List.range_succ_eq_map, List.map_cons, List.map_map]
      congr 1
      conv_lhs => rw [this]
      apply List.map_congr_left
      intro j _
      simp only [Function.comp]
      congr 2
      omega
    have hskip : ∀ s' (r : Resp), r.rank = none → s'.mpiSize = n → s'.nextRank = s.nextRank →
        ranksOf (r :: (run s' qs).2) =
          (List.range (ranksOf (r :: (run s' qs).2)).length).map fun j : Nat => ((k + j : Nat) : Int) % n := by
      intro s' r h1 h2 h3
      have he : ranksOf (r :: (run s' qs).2) = ranksOf (run s' qs).2 := by
        unfold ranksOf; rw [List.filterMap_cons_none h1]
      rw [he]
      exact ih s' k h2 (by rw [h3]; exact hr)
    cases q with
    | id => exact hskip { s with nextId := s.nextId + 1 } _ rfl hm rfl
    | rank e =>
      cases e
      · exact hcons { s with nextRank := (s.nextRank + 1) % s.mpiSize } _ rfl hm rfl
      · exact hskip s _ rfl hm rfl
    | both e =>
      cases e
      · exact hcons { s with nextId := s.nextId + 1, nextRank := (s.nextRank + 1) % s.mpiSize } _ rfl hm rfl
      · exact hskip { s with nextId := s.nextId + 1 } _ rfl hm rfl

/-- **C11.** For every MPI size `n ≥ 1` and every history the ranks handed out are `0, 1, ..., n-1, 0, 1, ...`. -/
theorem register_ranks_round_robin (n : Int) (_hn : 0 < n) (qs : List Req) :
    ranksOf (run (init n) qs).2 =
      (List.range (ranksOf (run (init n) qs).2).length).map fun j : Nat => (j : Int) % n := by
  have := ranks_aux n qs (init n) 0 rfl (by simp [init])
  simpa using this

/-- Number of `j < m` on rank `r`. -/
theorem count_mod (n : Nat) (hn : 0 < n) (m : Nat) (r : Nat) (hr : r < n) :
    ((List.range m).map fun j : Nat => (j : Int) % (n : Int)).count (r : Int) = (m + (n - 1 - r)) / n := by
  induction m with
  | zero =>
    simp only [List.range_zero, List.map_nil, List.count_nil, Nat.zero_add]
    exact (Nat.div_eq_of_lt (by omega)).symm
  | succ m ih =>
    rw [List.range_succ, List.map_append, List.count_append, ih, List.map_singleton]
    by_cases h : m % n = r
    · have h1 : ((m : Int) % (n : Int)) = (r : Int) := by exact_mod_cast h
      rw [h1]
      simp only [List.count_singleton_self]
      have hdm := Nat.div_add_mod m n
      have e1 : m + (n - 1 - r) = n * (m / n) + (n - 1) := by omega
      have e2 : m + 1 + (n - 1 - r) = n * (m / n + 1) := by rw [Nat.mul_add]; omega
      rw [e1, e2, Nat.mul_div_cancel_left _ hn, Nat.mul_add_div hn, Nat.div_eq_of_lt (by omega : n - 1 < n)]
    · have h1 : ((m : Int) % (n : Int)) ≠ (r : Int) := fun e => h (by exact_mod_cast e)
      rw [List.count_singleton, if_neg (by simpa using h1)]
      have hdm := Nat.div_add_mod m n
      have hlt := Nat.mod_lt m hn
      rcases Nat.lt_or_gt_of_ne h with h2 | h2
      · have e1 : m + (n - 1 - r) = n * (m / n) + (m % n + (n - 1 - r)) := by omega
        have e2 : m + 1 + (n - 1 - r) = n * (m / n) + (m % n + 1 + (n - 1 - r)) := by omega
        rw [e1, e2, Nat.mul_add_div hn, Nat.mul_add_div hn, Nat.div_eq_of_lt (show m % n + (n - 1 - r) < n by omega),
          Nat.div_eq_of_lt (show m % n + 1 + (n - 1 - r) < n by omega)]
      · have e1 : m + (n - 1 - r) = n * (m / n + 1) + (m % n - r - 1) := by rw [Nat.mul_add]; omega
        have e2 : m + 1 + (n - 1 - r) = n * (m / n + 1) + (m % n - r) := by rw [Nat.mul_add]; omega
        rw [e1, e2, Nat.mul_add_div hn, Nat.mul_add_div hn, Nat.div_eq_of_lt (show m % n - r - 1 < n by omega),
          Nat.div_eq_of_lt (show m % n - r < n by omega)]

/-- **C11.** Load balance: after any history the numbers of fragments assigned to two ranks differ by at most one, and every
rank handed out is a valid rank. -/
theorem register_ranks_balanced (n : Nat) (hn : 0 < n) (qs : List Req) :
    (∀ r ∈ ranksOf (run (init n) qs).2, 0 ≤ r ∧ r < n) ∧
    ∀ r r' : Nat, r < n → r' < n →
      (ranksOf (run (init n) qs).2).count (r : Int) ≤ (ranksOf (run (init n) qs).2).count (r' : Int) + 1 := by
  rw [register_ranks_round_robin n (by omega) qs]
  generalize (ranksOf (run (init n) qs).2).length = m
  constructor
  · intro r hr
    obtain ⟨j, _, rfl⟩ := List.mem_map.1 hr
    exact ⟨Int.emod_nonneg _ (by omega), Int.emod_lt_of_pos _ (by omega)⟩
  · intro r r' hr hr'
    rw [count_mod n hn m r hr, count_mod n hn m r' hr']
    have h1 : (m + (n - 1 - r)) / n ≤ (m + (n - 1 - r') + n) / n := Nat.div_le_div_right (by omega)
    rw [Nat.add_div_right _ hn] at h1
    exact h1

/-- **C11**, remark: `get_next` with an estimate raises and has already consumed an id. -/
theorem register_estimate_loses_id (s : State) :
    (step s (.both true)).2.err = some .notImplementedError ∧ (step s (.both true)).1.nextId = s.nextId + 1 :=
  ⟨rfl, rfl⟩

example : idsOf (run (init 3) [.both false, .id, .both false, .rank false, .both false]).2 = [0, 1, 2, 3] := by decide
example : ranksOf (run (init 3) [.both false, .id, .both false, .rank false, .both false]).2 = [0, 1, 2, 0] := by decide

end Vayesta.Props
