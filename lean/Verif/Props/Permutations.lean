import Verif.Lemmas.Permutations

/-! # C01: signed permutations are complete and carry the right parity -/

namespace Vayesta.Props

open Equiv

/-- **C01.** For a sequence `f 0, ..., f (n-1)` the returned list is, up to order, the list with exactly one entry per
permutation `σ` of the positions: the rearranged sequence together with the sign of `σ`. -/
theorem permutations_with_signs_complete {α : Type} {n : Nat} (f : Fin n → α) :
    List.Perm (permutationsWithSigns (List.ofFn f))
      ((Finset.univ : Finset (Perm (Fin n))).toList.map
        fun σ => (List.ofFn (fun i => f (σ i)), (Perm.sign σ : Int))) := by
  have h1 : permutationsWithSigns (List.ofFn f)
      = (Perms.permList n).map fun σ => (List.ofFn (fun i => f (σ i)), (Perm.sign σ : Int)) := by
    unfold permutationsWithSigns
    rw [Perms.permsRev_eq, List.zipIdx_map, List.map_map]
    have h2 : (Perms.permList n).map (fun σ => (List.ofFn (fun i => f (σ i)), (Perm.sign σ : Int)))
        = (Perms.permList n).zipIdx.map
            (fun x => (List.ofFn (fun i => f (x.1 i)), (Perm.sign x.1 : Int))) := by
      conv_lhs => rw [← List.zipIdx_map_fst 0 (Perms.permList n), List.map_map]
      rfl
    rw [h2]
    apply List.map_congr_left
    rintro ⟨σ, i⟩ hx
    have hs := Perms.sign_permList n _ hx
    simp only [Function.comp, Prod.map_apply, id_eq, Prod.mk.injEq, true_and] at hs ⊢
    rw [hs]
    rcases Nat.even_or_odd i with h | h
    · rw [if_neg (by rw [Nat.even_iff] at h; omega)]
      simp [h.neg_one_pow]
    · rw [if_pos (by rw [Nat.odd_iff] at h; omega)]
      simp [h.neg_one_pow]
  rw [h1]
  apply List.Perm.map
  rw [List.perm_ext_iff_of_nodup (Perms.permList_nodup n) (Finset.nodup_toList _)]
  intro σ
  simp only [Finset.mem_toList, Finset.mem_univ, iff_true]
  have hcard : (Perms.permList n).toFinset = Finset.univ := by
    apply Finset.eq_univ_of_card
    rw [List.toFinset_card_of_nodup (Perms.permList_nodup n), Perms.permList_length, Fintype.card_perm, Fintype.card_fin]
  have : σ ∈ (Perms.permList n).toFinset := by rw [hcard]; simp
  simpa using this

/-- **C01**, count: `n!` entries. -/
theorem permutations_with_signs_length {α : Type} (seq : List α) :
    (permutationsWithSigns seq).length = seq.length.factorial := by
  have h := permutations_with_signs_complete (fun i : Fin seq.length => seq[i])
  have h2 := h.length_eq
  simp only [List.length_map, Finset.length_toList, Finset.card_univ, Fintype.card_perm, Fintype.card_fin] at h2
  rw [← h2]
  congr 2
  exact (List.ofFn_getElem (xs := seq)).symm

/-- Non-vacuity and a sanity check of the order and signs for three elements. -/
example : permutationsWithSigns ["a", "b", "c"] =
    [(["a", "b", "c"], 1), (["a", "c", "b"], -1), (["c", "a", "b"], 1),
     (["c", "b", "a"], -1), (["b", "c", "a"], 1), (["b", "a", "c"], -1)] := by decide

end Vayesta.Props
