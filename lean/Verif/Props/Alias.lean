import Verif.Model.Alias
import Mathlib.Tactic.Ring
import Mathlib.Tactic.Set
import Mathlib.Data.List.Count
import Mathlib.Data.List.Nodup

/-! # C49: multiplying a wave function by a factor multiplies every amplitude by that factor -/

namespace Vayesta.Props
open Vayesta.Alias

variable {K : Type} [CommRing K]

theorem ne2 (n : Nat) : ¬ n = n + 1 + 1 := by omega
theorem ne3 (n : Nat) : ¬ n = n + 1 + 1 + 1 := by omega

theorem scale_get (f : K) (r s : Nat) (h : Heap K) :
    (h.scale f r).get s = if s = r then (h.get s).map (f * ·) else h.get s := by
  by_cases hs : s = r
  · subst hs; simp [Heap.scale]
  · simp [Heap.scale, hs]

theorem foldl_scale_get (f : K) (l : List Nat) (h : Heap K) (s : Nat) :
    (l.foldl (fun h r => h.scale f r) h).get s = (h.get s).map (f ^ l.count s * ·) := by
  induction l generalizing h with
  | nil => simp
  | cons r l ih =>
    rw [List.foldl_cons, ih, scale_get]
    by_cases hs : s = r
    · subst hs
      simp only [if_pos, List.map_map, List.count_cons_self]
      refine List.map_congr_left fun x _ => ?_
      simp only [Function.comp]
      ring
    · have : ¬ r = s := fun h => hs h.symm
      simp [hs, List.count_cons, this]

theorem multiply_eq_foldl (f : K) (w : RWf) (h : Heap K) : w.multiply f h = w.refs.foldl (fun h r => h.scale f r) h := by
  obtain ⟨t1, t2, l1, l2⟩ := w
  cases l1 <;> cases l2 <;> rfl

/-- C49, what the restricted code does: every array is multiplied by the factor once per attribute that refers to it; arrays the
wave function does not refer to are unchanged. -/
theorem rccsd_multiply_get (f : K) (w : RWf) (h : Heap K) (s : Nat) :
    (w.multiply f h).get s = (h.get s).map (f ^ w.refs.count s * ·) := by
  rw [multiply_eq_foldl, foldl_scale_get]

/-- C49, restricted (part of): if the amplitudes are different array objects, each is multiplied by the factor. (With shared
arrays the claim is false: `rccsd_multiply_shared`, `secondary_factor_lost`.) -/
theorem rccsd_multiply_partial (f : K) (w : RWf) (h : Heap K) (hd : w.refs.Nodup) :
    w.vals (w.multiply f h) = ((h.get w.t1).map (f * ·), (h.get w.t2).map (f * ·), w.l1.map fun r => (h.get r).map (f * ·),
      w.l2.map fun r => (h.get r).map (f * ·)) := by
  have key : ∀ s ∈ w.refs, (w.multiply f h).get s = (h.get s).map (f * ·) := by
    intro s hs
    rw [rccsd_multiply_get, List.count_eq_one_of_mem hd hs, pow_one]
  obtain ⟨t1, t2, l1, l2⟩ := w
  simp only [RWf.vals, Prod.mk.injEq]
  refine ⟨key _ (by simp [RWf.refs]), key _ (by simp [RWf.refs]), ?_, ?_⟩
  · cases l1 with
    | none => rfl
    | some r => simp only [Option.map_some]; rw [key _ (by simp [RWf.refs])]
  · cases l2 with
    | none => rfl
    | some r => simp only [Option.map_some]; rw [key _ (by simp [RWf.refs])]

/-- C49. A fragment solved with lambda equations gets all amplitudes multiplied by its factor. -/
theorem solver_factor_with_lambda (f : K) (sol : (List K × List K) × (List K × List K)) (h : Heap K) :
    (solverWf true sol h).2.vals (applyFactor (some f) (solverWf true sol h).2 (solverWf true sol h).1) =
      (sol.1.1.map (f * ·), sol.1.2.map (f * ·), some (sol.2.1.map (f * ·)), some (sol.2.2.map (f * ·))) := by
  have hd : (solverWf true sol h).2.refs.Nodup := by
    simp [solverWf, Heap.alloc, RWf.refs, ne2, ne3]
  rw [applyFactor, rccsd_multiply_partial _ _ _ hd]
  simp [solverWf, Heap.alloc, Function.update, ne2, ne3]

/-- C49 is false with the Lambda = T approximation (`solve_lambda=False`): the amplitudes are multiplied by the square. -/
theorem rccsd_multiply_shared (f : K) (sol : (List K × List K) × (List K × List K)) (h : Heap K) :
    (solverWf false sol h).2.vals (applyFactor (some f) (solverWf false sol h).2 (solverWf false sol h).1) =
      (sol.1.1.map (f ^ 2 * ·), sol.1.2.map (f ^ 2 * ·), some (sol.1.1.map (f ^ 2 * ·)), some (sol.1.2.map (f ^ 2 * ·))) := by
  have e : ∀ (w : RWf) (g : Heap K), applyFactor (some f) w g = w.multiply f g := fun _ _ => rfl
  simp only [RWf.vals, e, rccsd_multiply_get]
  simp [solverWf, Heap.alloc, Function.update, RWf.refs, List.count_cons, rccsd_multiply_get]

/-- C49 is false: the factor -1 that marks a subtracted secondary fragment has no effect at all when lambda amplitudes are not
solved for, so the fragment is added instead of subtracted. -/
theorem secondary_factor_lost (sol : (List K × List K) × (List K × List K)) (h : Heap K) :
    (solverWf false sol h).2.vals (applyFactor (some (-1)) (solverWf false sol h).2 (solverWf false sol h).1) =
      (solverWf false sol h).2.vals (solverWf false sol h).1 := by
  rw [rccsd_multiply_shared]
  have hn : ¬ h.next = h.next + 1 := by omega
  simp [solverWf, Heap.alloc, Function.update, RWf.vals]

/-- Copying first makes the factor effective: copies never share arrays, and have the same values. -/
theorem rccsd_copy (w : RWf) (h : Heap K) (hr : ∀ r ∈ w.refs, r < h.next) :
    (w.copy h).2.refs.Nodup ∧ (w.copy h).2.vals (w.copy h).1 = w.vals h ∧ ∀ r < h.next, (w.copy h).1.get r = h.get r := by
  obtain ⟨t1, t2, l1, l2⟩ := w
  have b1 : t1 < h.next := hr t1 (by simp [RWf.refs])
  have b2 : t2 < h.next := hr t2 (by simp [RWf.refs])
  cases l1 with
  | none =>
    cases l2 with
    | none =>
      refine ⟨by simp [RWf.copy, RWf.refs, Heap.alloc, ne2, ne3], ?_, ?_⟩
      · simp [RWf.copy, RWf.vals, Heap.alloc, Function.update, ne2, ne3, show ¬ t2 = h.next by omega]
      · intro r hr
        simp [RWf.copy, Heap.alloc, Function.update, show ¬ r = h.next by omega, show ¬ r = h.next + 1 by omega]
    | some s =>
      have b3 : s < h.next := hr s (by simp [RWf.refs])
      refine ⟨by simp [RWf.copy, RWf.refs, Heap.alloc, ne2, ne3], ?_, ?_⟩
      · simp [RWf.copy, RWf.vals, Heap.alloc, Function.update, ne2, ne3, show ¬ t2 = h.next by omega, show ¬ s = h.next by omega,
          show ¬ s = h.next + 1 by omega]
      · intro r hr
        simp [RWf.copy, Heap.alloc, Function.update, show ¬ r = h.next by omega, show ¬ r = h.next + 1 by omega,
          show ¬ r = h.next + 1 + 1 by omega]
  | some q =>
    have b4 : q < h.next := hr q (by simp [RWf.refs])
    cases l2 with
    | none =>
      refine ⟨by simp [RWf.copy, RWf.refs, Heap.alloc, ne2, ne3], ?_, ?_⟩
      · simp [RWf.copy, RWf.vals, Heap.alloc, Function.update, ne2, ne3, show ¬ t2 = h.next by omega, show ¬ q = h.next by omega,
          show ¬ q = h.next + 1 by omega]
      · intro r hr
        simp [RWf.copy, Heap.alloc, Function.update, show ¬ r = h.next by omega, show ¬ r = h.next + 1 by omega,
          show ¬ r = h.next + 1 + 1 by omega]
    | some s =>
      have b3 : s < h.next := hr s (by simp [RWf.refs])
      refine ⟨by simp [RWf.copy, RWf.refs, Heap.alloc, ne2, ne3], ?_, ?_⟩
      · simp [RWf.copy, RWf.vals, Heap.alloc, Function.update, ne2, ne3, show ¬ t2 = h.next by omega, show ¬ q = h.next by omega,
          show ¬ q = h.next + 1 by omega, show ¬ s = h.next by omega, show ¬ s = h.next + 1 by omega,
          show ¬ s = h.next + 1 + 1 by omega]
      · intro r hr
        simp [RWf.copy, Heap.alloc, Function.update, show ¬ r = h.next by omega, show ¬ r = h.next + 1 by omega,
          show ¬ r = h.next + 1 + 1 by omega, show ¬ r = h.next + 1 + 1 + 1 by omega]

theorem mulTuple_spec (f : K) (l : List Nat) (h : Heap K) (hl : ∀ r ∈ l, r < h.next) :
    h.next ≤ (mulTuple f l h).1.next ∧ (∀ r < h.next, (mulTuple f l h).1.get r = h.get r) ∧
      (∀ r ∈ (mulTuple f l h).2, r < (mulTuple f l h).1.next) ∧
      (mulTuple f l h).2.map (mulTuple f l h).1.get = l.map fun r => (h.get r).map (· * f) := by
  induction l generalizing h with
  | nil => simp [mulTuple]
  | cons r l ih =>
    have hr : r < h.next := hl r (by simp)
    let h1 : Heap K := ⟨Function.update h.get h.next ((h.get r).map (· * f)), h.next + 1⟩
    have e : mulTuple f (r :: l) h = ((mulTuple f l h1).1, h.next :: (mulTuple f l h1).2) := rfl
    have g : ∀ s < h.next, h1.get s = h.get s := by
      intro s hs
      simp [h1, Function.update, show ¬ s = h.next by omega]
    obtain ⟨i1, i2, i3, i4⟩ := ih h1 fun s hs => Nat.lt_succ_of_lt (hl s (by simp [hs]))
    have hn : h1.next = h.next + 1 := rfl
    rw [e]
    refine ⟨by simp only; omega, fun s hs => ?_, ?_, ?_⟩
    · rw [i2 s (by omega), g s hs]
    · intro s hs
      rcases List.mem_cons.1 hs with rfl | hs
      · show h.next < (mulTuple f l h1).1.next
        omega
      · exact i3 s hs
    · simp only [List.map_cons]
      rw [i4, i2 h.next (by omega)]
      congr 1
      · simp [h1]
      · refine List.map_congr_left fun s hs => ?_
        rw [g s (hl s (by simp [hs]))]

/-- C49, unrestricted: whatever arrays are shared, every amplitude is multiplied by the factor exactly once, and no existing array
is changed. -/
theorem uccsd_multiply (f : K) (w : UWf) (h : Heap K) (h1 : ∀ r ∈ w.t1, r < h.next) (h2 : ∀ r ∈ w.t2, r < h.next)
    (h3 : ∀ l, w.l1 = some l → ∀ r ∈ l, r < h.next) (h4 : ∀ l, w.l2 = some l → ∀ r ∈ l, r < h.next) :
    (w.multiply f h).2.vals (w.multiply f h).1 = (w.t1.map fun r => (h.get r).map (· * f), w.t2.map fun r => (h.get r).map (· * f),
        w.l1.map (·.map fun r => (h.get r).map (· * f)), w.l2.map (·.map fun r => (h.get r).map (· * f))) ∧
      ∀ r < h.next, (w.multiply f h).1.get r = h.get r := by
  obtain ⟨t1, t2, l1, l2⟩ := w
  obtain ⟨a1, a2, a3, a4⟩ := mulTuple_spec f t1 h h1
  set g1 := (mulTuple f t1 h).1 with hg1
  obtain ⟨b1, b2, b3, b4⟩ := mulTuple_spec f t2 g1 fun r hr => lt_of_lt_of_le (h2 r hr) a1
  set g2 := (mulTuple f t2 g1).1 with hg2
  have v1 : ∀ (g : Heap K), (∀ r < g1.next, g.get r = g1.get r) →
      (mulTuple f t1 h).2.map g.get = t1.map fun r => (h.get r).map (· * f) := by
    intro g hg
    rw [← a4]
    exact List.map_congr_left fun r hr => hg r (a3 r hr)
  have e2 : ∀ r < h.next, g2.get r = h.get r := fun r hr => by rw [b2 r (by omega), a2 r hr]
  have w2 : t2.map (fun r => (g1.get r).map (· * f)) = t2.map fun r => (h.get r).map (· * f) :=
    List.map_congr_left fun r hr => by rw [a2 r (h2 r hr)]
  have v2 : ∀ (g : Heap K), (∀ r < g2.next, g.get r = g2.get r) →
      (mulTuple f t2 g1).2.map g.get = t2.map fun r => (h.get r).map (· * f) := by
    intro g hg
    rw [← w2, ← b4]
    exact List.map_congr_left fun r hr => hg r (b3 r hr)
  cases l1 with
  | none =>
    cases l2 with
    | none =>
      refine ⟨?_, e2⟩
      simp only [UWf.vals, UWf.multiply, Option.map_none, Prod.mk.injEq, and_true]
      exact ⟨v1 g2 b2, v2 g2 fun _ _ => rfl⟩
    | some l =>
      obtain ⟨c1, c2, c3, c4⟩ := mulTuple_spec f l g2 fun r hr => lt_of_lt_of_le (h4 l rfl r hr) (a1.trans b1)
      have w3 : l.map (fun r => (g2.get r).map (· * f)) = l.map fun r => (h.get r).map (· * f) :=
        List.map_congr_left fun r hr => by rw [e2 r (h4 l rfl r hr)]
      refine ⟨?_, fun r hr => (c2 r (by omega)).trans (e2 r hr)⟩
      simp only [UWf.vals, UWf.multiply, Option.map_none, Option.map_some, Prod.mk.injEq, true_and, Option.some.injEq]
      exact ⟨v1 _ fun r hr => (c2 r (by omega)).trans (b2 r hr), v2 _ c2, c4.trans w3⟩
  | some k =>
    obtain ⟨c1, c2, c3, c4⟩ := mulTuple_spec f k g2 fun r hr => lt_of_lt_of_le (h3 k rfl r hr) (a1.trans b1)
    have w3 : k.map (fun r => (g2.get r).map (· * f)) = k.map fun r => (h.get r).map (· * f) :=
      List.map_congr_left fun r hr => by rw [e2 r (h3 k rfl r hr)]
    cases l2 with
    | none =>
      refine ⟨?_, fun r hr => (c2 r (by omega)).trans (e2 r hr)⟩
      simp only [UWf.vals, UWf.multiply, Option.map_none, Option.map_some, Prod.mk.injEq, and_true, Option.some.injEq]
      exact ⟨v1 _ fun r hr => (c2 r (by omega)).trans (b2 r hr), v2 _ c2, c4.trans w3⟩
    | some l =>
      set g3 := (mulTuple f k g2).1 with hg3
      have e3 : ∀ r < h.next, g3.get r = h.get r := fun r hr => (c2 r (by omega)).trans (e2 r hr)
      obtain ⟨d1, d2, d3, d4⟩ := mulTuple_spec f l g3 fun r hr => lt_of_lt_of_le (h4 l rfl r hr) (a1.trans (b1.trans c1))
      have w4 : l.map (fun r => (g3.get r).map (· * f)) = l.map fun r => (h.get r).map (· * f) :=
        List.map_congr_left fun r hr => by rw [e3 r (h4 l rfl r hr)]
      refine ⟨?_, fun r hr => (d2 r (by omega)).trans (e3 r hr)⟩
      simp only [UWf.vals, UWf.multiply, Option.map_some, Prod.mk.injEq, Option.some.injEq]
      refine ⟨v1 _ fun r hr => (d2 r (by omega)).trans ((c2 r (by omega)).trans (b2 r hr)),
        v2 _ fun r hr => (d2 r (by omega)).trans (c2 r hr), ?_, d4.trans w4⟩
      rw [← w3, ← c4]
      exact List.map_congr_left fun r hr => d2 r (c3 r hr)

/-- Concrete case of the loss: amplitudes `[3]`, `[5]`, factor -1, no lambda equations: still 3 and 5. -/
example : (solverWf false (([3], [5]), ([], [])) (⟨fun _ => [], 0⟩ : Heap ℤ)).2.vals
    (applyFactor (some (-1)) (solverWf false (([3], [5]), ([], [])) ⟨fun _ => [], 0⟩).2
      (solverWf false (([3], [5]), ([], [])) ⟨fun _ => [], 0⟩).1) = ([3], [5], some [3], some [5]) := by decide

end Vayesta.Props
