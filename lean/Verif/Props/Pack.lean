import Verif.Model.Pack
import Mathlib.Data.List.Basic

/-! # C10: packing arrays for MPI -/

namespace Vayesta.Props
open Vayesta.Pack

/-- A well-formed array with an 8-byte element type: nonzero type code, at most 8 axes, one word per element. -/
def Packable (wpe : Int → Option Nat) (a : NArr) : Prop :=
  a.dtype ≠ 0 ∧ wpe a.dtype = some 1 ∧ a.shape.length ≤ 8 ∧ a.words.length = (a.shape.foldr (· * ·) 1)

theorem unpack_none (wpe : Int → Option Nat) (rest : List Int) :
    unpackArrays wpe 8 ([0, 0] ++ List.replicate 8 0 ++ rest) =
      (unpackArrays wpe 8 rest).map (none :: ·) := by
  rw [unpackArrays]
  simp

theorem unpack_some (wpe : Int → Option Nat) (a : NArr) (ha : Packable wpe a) (rest : List Int) :
    unpackArrays wpe 8 (([a.dtype, (a.shape.length : Int)] ++ a.shape.map Int.ofNat ++
        List.replicate (8 - a.shape.length) 0) ++ a.words ++ rest) =
      (unpackArrays wpe 8 rest).map (some a :: ·) := by
  obtain ⟨h1, h2, h3, h4⟩ := ha
  rw [unpackArrays]
  generalize hm : ([a.dtype, (a.shape.length : Int)] ++ a.shape.map Int.ofNat ++
        List.replicate (8 - a.shape.length) 0) = m
  have hlen : m.length = 10 := by rw [← hm]; simp; omega
  have htake : (m ++ a.words ++ rest).take (8 + 2) = m := by
    rw [List.append_assoc, List.take_append_of_le_length (by omega), List.take_of_length_le (by omega)]
  have hdrop : (m ++ a.words ++ rest).drop (8 + 2) = a.words ++ rest := by
    rw [List.append_assoc, List.drop_append_of_le_length (by omega), List.drop_of_length_le (by omega)]; simp
  have hne : m ++ a.words ++ rest ≠ [] := by
    intro h
    have := congrArg List.length h
    simp only [List.length_append, List.length_nil] at this
    omega
  rw [dif_neg hne]
  simp only [htake, hdrop]
  rw [List.take_of_length_le (by omega)]
  have hm2 : m = a.dtype :: (a.shape.length : Int) :: (a.shape.map Int.ofNat ++ List.replicate (8 - a.shape.length) 0) := by
    rw [← hm]; rfl
  rw [hm2]
  simp only [h1, h2, if_false]
  have hneg : ¬ ((a.shape.length : Int) < 0 ∨ ∃ x ∈ a.shape.map Int.ofNat ++ List.replicate (8 - a.shape.length) 0, x < 0) := by
    rintro (h | ⟨x, hx, h⟩)
    · omega
    · rcases List.mem_append.1 hx with hx | hx
      · obtain ⟨y, _, rfl⟩ := List.mem_map.1 hx
        simp at h
        omega
      · have := List.eq_of_mem_replicate hx; omega
  rw [if_neg hneg]
  have hshape : ((a.shape.map Int.ofNat ++ List.replicate (8 - a.shape.length) 0).take (a.shape.length : Int).toNat).map Int.toNat
      = a.shape := by
    rw [List.take_append_of_le_length (by simp), List.take_of_length_le (by simp), List.map_map]
    conv_rhs => rw [← List.map_id a.shape]
    apply List.map_congr_left
    intro x _
    simp
  rw [hshape]
  have hsz : size a.shape = a.words.length := by rw [h4]; rfl
  rw [hsz]
  simp

theorem pack_unpack_aux (wpe : Int → Option Nat) (arrays : List (Option NArr))
    (h : ∀ a, some a ∈ arrays → Packable wpe a) :
    ∃ p, packLoop arrays = .ok p ∧ unpackArrays wpe 8 p = .ok arrays := by
  induction arrays with
  | nil => exact ⟨[], rfl, by rw [unpackArrays]; simp⟩
  | cons x arrays ih =>
    obtain ⟨p, hp, hu⟩ := ih (fun a ha => h a (by simp [ha]))
    cases x with
    | none =>
      refine ⟨[0, 0] ++ List.replicate 8 0 ++ p, ?_, ?_⟩
      · simp [packLoop, packOne, packMetadata, hp]
      · rw [unpack_none, hu]; rfl
    | some a =>
      have ha := h a (by simp)
      refine ⟨([a.dtype, (a.shape.length : Int)] ++ a.shape.map Int.ofNat ++
        List.replicate (8 - a.shape.length) 0) ++ a.words ++ p, ?_, ?_⟩
      rotate_left
      · rw [unpack_some wpe a ha p, hu]; rfl
      · have : ¬ 8 < a.shape.length := by have := ha.2.2.1; omega
        simp [packLoop, packOne, packMetadata, hp, this]

/-- **C10.** Every nonempty list of arrays (with 8-byte element types, at most 8 axes, any shape including empty axes) and
`None`s is recovered exactly by `unpack_arrays(pack_arrays(...))`. -/
theorem pack_unpack_roundtrip (wpe : Int → Option Nat) (arrays : List (Option NArr)) (hne : arrays ≠ [])
    (h : ∀ a, some a ∈ arrays → Packable wpe a) :
    ∃ p, packArrays arrays = .ok p ∧ unpackArrays wpe 8 p = .ok arrays := by
  unfold packArrays
  rw [if_neg hne]
  exact pack_unpack_aux wpe arrays h

/-- **C10**, rejection: packing raises exactly if there is no array or one with more than 8 axes. -/
theorem pack_raises_iff (arrays : List (Option NArr)) :
    (∃ e, packArrays arrays = .error e) ↔ arrays = [] ∨ ∃ a, some a ∈ arrays ∧ 8 < a.shape.length := by
  have aux : ∀ l : List (Option NArr), (∃ e, packLoop l = .error e) ↔ ∃ a, some a ∈ l ∧ 8 < a.shape.length := by
    intro l
    induction l with
    | nil => simp [packLoop]
    | cons x l ih =>
      cases x with
      | none =>
        simp only [packLoop, packOne, packMetadata]
        constructor
        · rintro ⟨e, he⟩
          cases hl : packLoop l with
          | ok p => simp [hl] at he
          | error e' =>
            obtain ⟨a, h1, h2⟩ := ih.1 ⟨e', hl⟩
            exact ⟨a, by simp [h1], h2⟩
        · rintro ⟨a, h1, h2⟩
          obtain ⟨e, he⟩ := ih.2 ⟨a, by simpa using h1, h2⟩
          exact ⟨e, by simp [he]⟩
      | some b =>
        by_cases hb : 8 < b.shape.length
        · refine iff_of_true ⟨.notImplementedError, ?_⟩ ⟨b, by simp, hb⟩
          simp [packLoop, packOne, packMetadata, hb]
        · simp only [packLoop, packOne, packMetadata, hb, if_false]
          constructor
          · rintro ⟨e, he⟩
            cases hl : packLoop l with
            | ok p => simp [hl] at he
            | error e' =>
              obtain ⟨a, h1, h2⟩ := ih.1 ⟨e', hl⟩
              exact ⟨a, by simp [h1], h2⟩
          · rintro ⟨a, h1, h2⟩
            rcases List.mem_cons.1 h1 with h | h
            · simp at h; subst h; exact absurd h2 hb
            · obtain ⟨e, he⟩ := ih.2 ⟨a, h, h2⟩
              exact ⟨e, by simp [he]⟩
  unfold packArrays
  by_cases h : arrays = []
  · simp [h]
  · simp only [h, if_false, false_or]
    exact aux arrays

/-- **C10**, limits: a 16-byte element type (complex128, two words per element) is packed without complaint but cannot be
unpacked; and a `maxdim` other than 8 given to `unpack_arrays` breaks the round trip even for an 8-byte type. -/
theorem pack_unpack_limits :
    (∃ a : NArr, (packArrays [some a] = .ok ([68, 1, 1, 0, 0, 0, 0, 0, 0, 0] ++ [5, 6])) ∧
      unpackArrays (fun _ => some 2) 8 ([68, 1, 1, 0, 0, 0, 0, 0, 0, 0] ++ [5, 6]) = .error .valueError) ∧
    (∃ a : NArr, Packable (fun _ => some 1) a ∧ ∃ p, packArrays [some a] = .ok p ∧
      unpackArrays (fun _ => some 1) 9 p ≠ .ok [some a]) := by
  refine ⟨⟨⟨68, [1], [5, 6]⟩, by decide, ?_⟩, ⟨⟨100, [1], [5]⟩, ⟨by decide, rfl, by decide, rfl⟩, _, rfl, ?_⟩⟩
  · rw [unpackArrays]; simp [size]
  · rw [unpackArrays]; simp [size]

example : packArrays [some ⟨100, [2, 1], [7, 8]⟩, none] =
    .ok [100, 2, 2, 1, 0, 0, 0, 0, 0, 0, 7, 8, 0, 0, 0, 0, 0, 0, 0, 0, 0, 0] := by decide
example : Packable (fun _ => some 1) ⟨100, [2, 0, 3], []⟩ := ⟨by decide, rfl, by decide, rfl⟩

end Vayesta.Props
