import Verif.Lemmas.Blocks
import Mathlib.Tactic.Ring
import Mathlib.Tactic.Linarith
import Mathlib.Tactic.Set
import Mathlib.Data.List.Basic

/-! # C04, C05: block ranges tile the range; split arrays reassemble -/

namespace Vayesta.Props
open Vayesta.Spec Vayesta.Blocks

/-- **C04.** Whenever the clipped step is positive, `brange` succeeds; the concatenation of its blocks is exactly
`start, ..., stop-1`; every block is non-empty and no longer than the clipped step, and every block but the last has
exactly that length. -/
theorem brange_tiles (args : List Int) (start stop step minstep : Int) (maxstep : Option Int)
    (ha : parsedArgs args = some (start, stop, step)) (h : start < stop)
    (hc : 0 < clip step minstep (maxstep.getD (stop - start))) :
    ∃ blocks, brange args minstep maxstep = .ok blocks ∧
      blocks.flatMap (fun b => ints b.1 b.2) = ints start stop ∧
      (∀ b ∈ blocks, b.1 < b.2 ∧ b.2 - b.1 ≤ clip step minstep (maxstep.getD (stop - start))) ∧
      (∀ b ∈ blocks.dropLast, b.2 - b.1 = clip step minstep (maxstep.getD (stop - start))) := by
  refine ⟨_, brange_pos ha h hc, ?_, ?_, ?_⟩
  · rw [tile_aux hc h _ le_rfl]
    have := count_covers hc h
    rw [min_eq_right this]
  · intro b hb
    simp only [List.mem_map, List.mem_range] at hb
    obtain ⟨i, hi, rfl⟩ := hb
    have := index_inside hc hi
    simp only
    omega
  · intro b hb
    rw [← List.map_dropLast, List.mem_map] at hb
    obtain ⟨i, hi, rfl⟩ := hb
    have hn : 0 < ((stop - start + clip step minstep (maxstep.getD (stop - start)) - 1) /
        clip step minstep (maxstep.getD (stop - start))).toNat := by
      rcases Nat.eq_zero_or_pos ((stop - start + clip step minstep (maxstep.getD (stop - start)) - 1) /
        clip step minstep (maxstep.getD (stop - start))).toNat with h0 | h0
      · rw [h0] at hi; simp at hi
      · exact h0
    have hi' : i + 1 < ((stop - start + clip step minstep (maxstep.getD (stop - start)) - 1) /
        clip step minstep (maxstep.getD (stop - start))).toNat := by
      obtain ⟨m, hm⟩ : ∃ m, ((stop - start + clip step minstep (maxstep.getD (stop - start)) - 1) /
        clip step minstep (maxstep.getD (stop - start))).toNat = m + 1 := ⟨_, (Nat.succ_pred_eq_of_pos hn).symm⟩
      rw [hm, List.range_succ, List.dropLast_concat, List.mem_range] at hi
      omega
    have := index_inside hc hi'
    push_cast at this
    simp only
    rw [mul_add] at this
    omega

/-- **C04**, defaults: with the default `minstep = 1` and no `maxstep` every step, even zero or negative, is usable. -/
theorem brange_default_step_positive (start stop step : Int) (h : start < stop) :
    0 < clip step 1 ((none : Option Int).getD (stop - start)) := by
  simp [clip]; omega

/-- **C04**, empty or reversed range: nothing is yielded, whatever the step. -/
theorem brange_empty (args : List Int) (start stop step minstep : Int) (maxstep : Option Int)
    (ha : parsedArgs args = some (start, stop, step)) (h : stop ≤ start) :
    brange args minstep maxstep = .ok [] := by
  unfold parsedArgs at ha
  split at ha <;> simp at ha <;> obtain ⟨rfl, rfl, rfl⟩ := ha <;> simp [brange, h]

/-- **C04**, error branches: a clipped step of zero raises `ValueError`; a wrong number of arguments raises `ValueError`. -/
theorem brange_errors (args : List Int) (minstep : Int) (maxstep : Option Int) :
    (parsedArgs args = none → brange args minstep maxstep = .error .valueError) ∧
    (∀ start stop step, parsedArgs args = some (start, stop, step) → start < stop →
      clip step minstep (maxstep.getD (stop - start)) = 0 → brange args minstep maxstep = .error .valueError) := by
  constructor
  · intro h
    match args, h with
    | [], _ => rfl
    | [_], h => simp [parsedArgs] at h
    | [_, _], h => simp [parsedArgs] at h
    | [_, _, _], h => simp [parsedArgs] at h
    | _ :: _ :: _ :: _ :: _, _ => rfl
  · intro start stop step ha h h0
    rw [brange_unfold ha, if_neg (by omega), h0]
    rfl

example : brange [2, 12, 4] = .ok [(2, 6), (6, 10), (10, 12)] := by decide
example : parsedArgs [2, 12, 4] = some (2, 12, 4) ∧ (2 : Int) < 12 ∧ 0 < clip 4 1 ((none : Option Int).getD (12 - 2)) := by
  decide

/-- **C05.** For every explicit block size `≥ 1` and for every automatic block size (any memory limit `≥ 1`), the blocks
concatenate to the array along the axis, and each yielded slice selects exactly the block yielded with it. -/
theorem split_into_blocks_reassembles {α : Type} (array : List α) (nbytes maxMemory : Nat) (blocksize : Option Int)
    (hb : ∀ b, blocksize = some b → 1 ≤ b) (hm : 1 ≤ maxMemory) :
    ∃ out, splitIntoBlocks array nbytes blocksize maxMemory = .ok out ∧
      out.flatMap Prod.snd = array ∧
      ∀ x ∈ out, (x.1 = .full → x.2 = array) ∧
        (∀ i j, x.1 = .range i j → 0 ≤ i ∧ i < j ∧ j ≤ array.length ∧ x.2 = pySlice array i j) := by
  unfold splitIntoBlocks
  rw [if_neg (by omega)]
  generalize hbs : blockSizeFor array.length nbytes blocksize maxMemory = bs
  have hpos : array ≠ [] → 1 ≤ bs := by
    intro hne
    have hl : 1 ≤ array.length := List.length_pos_iff.2 hne
    subst hbs
    match blocksize, hb with
    | some b, hb => exact hb b rfl
    | none, _ =>
      unfold blockSizeFor ceilDiv
      have hd : 1 ≤ (array.length + max ((nbytes + maxMemory - 1) / maxMemory) 1 - 1) /
          max ((nbytes + maxMemory - 1) / maxMemory) 1 := by
        rw [Nat.le_div_iff_mul_le (by omega)]
        omega
      simp only [Option.getD_none]
      exact_mod_cast hd
  simp only
  by_cases hle : (array.length : Int) ≤ bs
  · rw [if_pos hle]
    exact ⟨_, rfl, by simp, by simp⟩
  · rw [if_neg hle]
    have hne : array ≠ [] := by
      rintro rfl
      subst hbs
      match blocksize, hb with
      | some b, hb => have := hb b rfl; simp [blockSizeFor] at hle; omega
      | none, _ => simp [blockSizeFor] at hle
    have hbs1 := hpos hne
    have hc : 0 < bs := by omega
    have h0 : (0 : Int) < array.length := by omega
    unfold pyRange
    rw [if_neg (by omega), if_pos hc]
    refine ⟨_, rfl, ?_, ?_⟩
    · have ht := tile_aux hc h0 _ le_rfl
      have hcov := count_covers hc h0
      rw [min_eq_right hcov] at ht
      apply List.map_injective_iff.2 (Option.some_injective α)
      simp only
      rw [List.map_flatMap, List.map_map, List.flatMap_map]
      have h3 : array.map some = (ints 0 array.length).map fun k => array[k.toNat]? := by
        have := pySlice_eq_ints array 0 array.length le_rfl (by omega) le_rfl
        rw [← this]
        simp [pySlice]
      rw [h3, ← ht, List.flatMap_map, List.map_flatMap]
      apply List.flatMap_congr
      intro i hi
      have hin := index_inside hc (List.mem_range.1 hi)
      have hnn : 0 ≤ bs * (i : Int) := Int.mul_nonneg (by omega) (by omega)
      simp only [Function.comp]
      exact pySlice_eq_ints array _ _ (by omega) (by omega) (by omega)
    · intro x hx
      simp only [List.mem_map, List.mem_range] at hx
      obtain ⟨y, ⟨i, hi, rfl⟩, rfl⟩ := hx
      have hin := index_inside hc hi
      have hnn : 0 ≤ bs * (i : Int) := Int.mul_nonneg (by omega) (by omega)
      refine ⟨by simp, ?_⟩
      intro a b hab
      simp only [Blk.range.injEq] at hab
      obtain ⟨rfl, rfl⟩ := hab
      refine ⟨by omega, by omega, by omega, rfl⟩

/-- **C05**, memory limit: with an automatic block size no block exceeds the limit by a whole slab (`slab` bytes per index along
the axis). -/
theorem split_into_blocks_memory {α : Type} (array : List α) (slab maxMemory : Nat) (hm : 1 ≤ maxMemory)
    (out : List (Blk × List α)) (h : splitIntoBlocks array (array.length * slab) none maxMemory = .ok out) :
    ∀ x ∈ out, (x.2.length - 1) * slab < maxMemory := by
  -- the block size satisfies the bound
  have key : ∀ b : Nat, b ≤ ceilDiv array.length (max (ceilDiv (array.length * slab) maxMemory) 1) → (b - 1) * slab < maxMemory := by
    intro b hb
    set n := max (ceilDiv (array.length * slab) maxMemory) 1 with hn
    have hn1 : 1 ≤ n := le_max_right _ _
    have hcap : array.length * slab ≤ n * maxMemory := by
      have h1 : ceilDiv (array.length * slab) maxMemory ≤ n := le_max_left _ _
      unfold ceilDiv at h1
      have h2 := Nat.lt_mul_div_succ (array.length * slab + maxMemory - 1) (b := maxMemory) (by omega)
      have h3 : maxMemory * ((array.length * slab + maxMemory - 1) / maxMemory + 1) ≤ maxMemory * (n + 1) :=
        Nat.mul_le_mul_left _ (by omega)
      have h4 : maxMemory * (n + 1) = n * maxMemory + maxMemory := by ring
      omega
    rcases Nat.eq_zero_or_pos slab with hs | hs
    · subst hs; omega
    rcases Nat.lt_or_ge 1 b with hb1 | hb1
    · have hlt : (b - 1) * n < array.length := by
        unfold ceilDiv at hb
        have h5 : b * n ≤ array.length + n - 1 := le_trans (Nat.mul_le_mul_right _ hb) (Nat.div_mul_le_self _ _)
        have h6 : b * n = (b - 1) * n + n := by
          obtain ⟨c, rfl⟩ : ∃ c, b = c + 1 := ⟨b - 1, by omega⟩
          simp only [Nat.add_sub_cancel]; ring
        omega
      have h7 : (b - 1) * n * slab < n * maxMemory := lt_of_lt_of_le (Nat.mul_lt_mul_of_pos_right hlt hs) hcap
      have h8 : (b - 1) * n * slab = n * ((b - 1) * slab) := by ring
      rw [h8] at h7
      exact Nat.lt_of_mul_lt_mul_left h7
    · have : b - 1 = 0 := by omega
      rw [this]; omega
  intro x hx
  unfold splitIntoBlocks at h
  rw [if_neg (by omega)] at h
  have hb0 : blockSizeFor array.length (array.length * slab) none maxMemory
    = ((ceilDiv array.length (max (ceilDiv (array.length * slab) maxMemory) 1) : Nat) : Int) := rfl
  simp only at h
  rw [hb0] at h
  by_cases hle : (array.length : Int) ≤ ((ceilDiv array.length (max (ceilDiv (array.length * slab) maxMemory) 1) : Nat) : Int)
  · rw [if_pos hle] at h
    cases h
    simp only [List.mem_singleton] at hx
    subst hx
    exact key _ (by exact_mod_cast hle)
  · rw [if_neg hle] at h
    cases hr : pyRange 0 (array.length : Int)
        ((ceilDiv array.length (max (ceilDiv (array.length * slab) maxMemory) 1) : Nat) : Int) with
    | error e => rw [hr] at h; simp [Except.map] at h
    | ok l =>
      rw [hr] at h
      simp only [Except.map, Except.ok.injEq] at h
      subst h
      obtain ⟨i, -, rfl⟩ := List.mem_map.1 hx
      apply key
      simp only [pySlice, List.length_take, List.length_drop]
      omega

/-- **C05**, remark: a block can exceed the memory limit (by less than one slab). -/
theorem split_into_blocks_exceeds_memory :
    ∃ (array : List Nat) (slab maxMemory : Nat) (out : List (Blk × List Nat)),
      splitIntoBlocks array (array.length * slab) none maxMemory = .ok out ∧ slab ≤ maxMemory ∧
        ∃ x ∈ out, maxMemory < x.2.length * slab :=
  ⟨[0, 1, 2, 3, 4], 8, 10, [(.range 0 2, [0, 1]), (.range 2 4, [2, 3]), (.range 4 5, [4])], by decide, by decide, by decide⟩

/-- **C05**, error branch: an explicit block size of zero raises unless the array is empty along the axis. -/
theorem split_into_blocks_zero {α : Type} (array : List α) (nbytes maxMemory : Nat) (h : array ≠ []) :
    splitIntoBlocks array nbytes (some 0) maxMemory = .error .valueError := by
  have hl : 1 ≤ array.length := List.length_pos_iff.2 h
  have h2 : ¬ (array.length : Int) ≤ 0 := by omega
  simp [splitIntoBlocks, blockSizeFor, h, pyRange, Except.map]

example : splitIntoBlocks [10, 11, 12, 13, 14] 40 none 17
    = .ok [(.range 0 2, [10, 11]), (.range 2 4, [12, 13]), (.range 4 5, [14])] := by decide

end Vayesta.Props
