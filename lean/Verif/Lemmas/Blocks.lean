import Verif.Model.Blocks
import Verif.Spec.Blocks
import Mathlib.Tactic.Ring
import Mathlib.Tactic.Linarith
import Mathlib.Data.List.Basic

namespace Vayesta.Blocks
open Vayesta.Spec

theorem ints_append {a b c : Int} (h1 : a ≤ b) (h2 : b ≤ c) : ints a b ++ ints b c = ints a c := by
  unfold ints
  have : (c - a).toNat = (b - a).toNat + (c - b).toNat := by omega
  rw [this, List.range_add, List.map_append]
  congr 1
  rw [List.map_map]
  apply List.map_congr_left
  intro i _
  simp only [Function.comp]
  push_cast
  omega

theorem mem_ints {a b x : Int} : x ∈ ints a b ↔ a ≤ x ∧ x < b := by
  unfold ints
  simp only [List.mem_map, List.mem_range]
  constructor
  · rintro ⟨i, hi, rfl⟩; omega
  · rintro ⟨h1, h2⟩; exact ⟨(x - a).toNat, by omega, by omega⟩

/-- The blocks for a positive step. -/
theorem tile_aux {start stop c : Int} (hc : 0 < c) (h : start < stop) (k : Nat)
    (hk : k ≤ ((stop - start + c - 1) / c).toNat) :
    ((List.range k).map fun i : Nat => (start + c * i, min (start + c * i + c) stop)).flatMap (fun x => ints x.1 x.2)
      = ints start (min (start + c * k) stop) := by
  induction k with
  | zero => simp [ints]
  | succ k ih =>
    have hk' : k ≤ ((stop - start + c - 1) / c).toNat := by omega
    rw [List.range_succ, List.map_append, List.flatMap_append, ih hk']
    have hlt : start + c * k < stop := by
      have h1 : ((k + 1 : Nat) : Int) ≤ (stop - start + c - 1) / c := by
        have : 0 ≤ (stop - start + c - 1) / c := Int.ediv_nonneg (by omega) (by omega)
        omega
      have h2 := Int.mul_le_of_le_ediv hc h1
      push_cast at h2
      nlinarith
    have hmin : min (start + c * k) stop = start + c * k := by omega
    simp only [List.map_cons, List.map_nil, List.flatMap_cons, List.flatMap_nil, List.append_nil]
    have hnn : 0 ≤ c * (k : Int) := Int.mul_nonneg (by omega) (by omega)
    rw [hmin, ints_append (by omega) (by omega)]
    congr 2
    push_cast
    ring

theorem count_covers {start stop c : Int} (hc : 0 < c) (h : start < stop) :
    stop ≤ start + c * (((stop - start + c - 1) / c).toNat : Int) := by
  have h0 : 0 ≤ (stop - start + c - 1) / c := Int.ediv_nonneg (by omega) (by omega)
  rw [Int.toNat_of_nonneg h0]
  have := Int.emod_lt_of_pos (stop - start + c - 1) hc
  have h3 := Int.mul_ediv_add_emod (stop - start + c - 1) c
  omega

theorem index_inside {start stop c : Int} (hc : 0 < c) {i : Nat}
    (hi : i < ((stop - start + c - 1) / c).toNat) : start + c * i < stop := by
  have h1 : ((i + 1 : Nat) : Int) ≤ (stop - start + c - 1) / c := by omega
  have h2 := Int.mul_le_of_le_ediv hc h1
  push_cast at h2
  nlinarith

theorem brange_unfold {args : List Int} {s t st minstep : Int} {maxstep : Option Int}
    (hp : parsedArgs args = some (s, t, st)) : brange args minstep maxstep =
      if t ≤ s then .ok [] else
        (pyRange s t (clip st minstep (maxstep.getD (t - s)))).map fun l =>
          l.map fun i => (i, min (i + clip st minstep (maxstep.getD (t - s))) t) := by
  unfold parsedArgs at hp
  split at hp <;> simp at hp <;> obtain ⟨rfl, rfl, rfl⟩ := hp <;> rfl

theorem brange_pos {args : List Int} {start stop step minstep : Int} {maxstep : Option Int}
    (ha : parsedArgs args = some (start, stop, step)) (h : start < stop)
    (hc : 0 < clip step minstep (maxstep.getD (stop - start))) :
    brange args minstep maxstep = .ok ((List.range ((stop - start + clip step minstep (maxstep.getD (stop - start)) - 1) /
        clip step minstep (maxstep.getD (stop - start))).toNat).map
      fun i : Nat => (start + clip step minstep (maxstep.getD (stop - start)) * i,
        min (start + clip step minstep (maxstep.getD (stop - start)) * i + clip step minstep (maxstep.getD (stop - start))) stop)) := by
  rw [brange_unfold ha, if_neg (by omega)]
  unfold pyRange
  rw [if_neg (by omega), if_pos hc]
  simp only [Except.map, List.map_map]
  rfl

theorem pySlice_eq_ints {α : Type} (l : List α) (i j : Int) (hi : 0 ≤ i) (hij : i ≤ j) (hj : j ≤ l.length) :
    (pySlice l i j).map some = (ints i j).map fun k => l[k.toNat]? := by
  unfold pySlice ints
  apply List.ext_getElem
  · simp; omega
  · intro k h1 h2
    have hk : k < (j - i).toNat := by simpa using h2
    have hlt : i.toNat + k < l.length := by omega
    have e : (i + (k : Int)).toNat = i.toNat + k := by omega
    simp [e, hlt]

end Vayesta.Blocks
