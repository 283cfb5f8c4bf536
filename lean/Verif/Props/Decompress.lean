import Verif.Lemmas.Decompress

/-! # C02, C03: lower-triangular index enumeration and decompression of antisymmetric arrays -/

namespace Vayesta.Props

open Equiv Vayesta Vayesta.Spec

/-- **C02.** The index arrays returned by `tril_indices_ndim` are the columns of a list of index tuples that is sorted
lexicographically and contains exactly the strictly decreasing (non-increasing with the diagonal) tuples below `n`. -/
theorem tril_indices_exact (n dims : Nat) (incl : Bool) (hd : 0 < dims) :
    (trilIndices n dims incl).length = dims ∧
    ∃ tuples : List (List Nat),
      (∀ j, j < dims → (trilIndices n dims incl)[j]? = some (tuples.map fun t => t.getD j 0)) ∧
      tuples.Pairwise (List.Lex (· < ·)) ∧
      ∀ t, t ∈ tuples ↔
        t.length = dims ∧ (∀ x ∈ t, x < n) ∧ t.Pairwise (fun a b => if incl then a ≥ b else a > b) := by
  rw [Decomp.trilIndices_eq hd]
  refine ⟨by simp, Decomp.rows n dims incl, ?_, Decomp.rows_sorted n dims incl, fun t => Decomp.mem_rows⟩
  intro j hj
  simp [hj]

/-- **C02**, error-free corner case: zero dimensions give the empty tuple. -/
theorem tril_indices_zero_dims (n : Nat) (incl : Bool) : trilIndices n 0 incl = [] := rfl

example : trilIndices 4 2 false = [[1, 2, 2, 3, 3, 3], [0, 0, 1, 0, 1, 2]] := by decide

theorem tril_row {g : AxisGroup} (hk : 0 < g.k) {r : Nat} (hr : r < (Decomp.rows g.n g.k false).length) :
    (trilIndices g.n g.k false).map (fun c => c.getD r 0) = (Decomp.rows g.n g.k false)[r] := by
  rw [Decomp.trilIndices_eq hk]
  have hl := (Decomp.row_props hr).1
  apply List.ext_getElem
  · simp [hl]
  · intro j h1 h2
    have : j < ((Decomp.rows g.n g.k false)[r]).length := by rw [hl]; simpa using h1
    simp [hr, this]

theorem tril_head_length {g : AxisGroup} (hk : 0 < g.k) :
    (((trilIndices g.n g.k false).head?).getD []).length = (Decomp.rows g.n g.k false).length := by
  rw [Decomp.trilIndices_eq hk, List.head?_eq_getElem?]
  simp [hk]

theorem rearranged_hit {g : AxisGroup} {t t' : List Nat} {r : Nat} {s s' : Int}
    (h : Decomp.Hit g t r s) (hr : Rearranged g.anti t t' s') : Decomp.Hit g t' r (s * s') := by
  obtain ⟨σ, hlt, ht, hs⟩ := h
  obtain ⟨k, f, τ, h1, h2, h3⟩ := hr
  have hk : k = g.k := by
    have := congrArg List.length (h1.symm.trans ht)
    simpa [Decomp.permuted] using this
  subst hk
  have hf : f = fun i => ((Decomp.rows g.n g.k false)[r]).getD (σ i) 0 := by
    rw [h1] at ht
    exact List.ofFn_injective ht
  refine ⟨σ * τ, hlt, ?_, ?_⟩
  · rw [h2, hf]; rfl
  · rw [hs, h3, Decomp.gsign, Decomp.gsign]
    split <;> simp

theorem rearranged_hits {gs : List AxisGroup} {ts ts' : List (List Nat)} {rs : List Nat} {ss ss' : List Int}
    (h : Decomp.Hits gs ts rs ss) (hr : RearrangedAll gs ts ts' ss') :
    ∃ ss'', Decomp.Hits gs ts' rs ss'' ∧ ss''.prod = ss.prod * ss'.prod := by
  induction h generalizing ts' ss' with
  | nil => cases hr; exact ⟨[], Decomp.Hits.nil, by simp⟩
  | cons h1 h2 ih =>
    cases hr with
    | cons r1 r2 =>
      obtain ⟨s2, hs2, hp⟩ := ih r2
      refine ⟨_ :: s2, Decomp.Hits.cons (rearranged_hit h1 r1) hs2, ?_⟩
      simp only [List.prod_cons, hp]
      ring

/-- Every tuple without repetition is a rearrangement of a strictly decreasing one. -/
theorem hit_of_nodup {g : AxisGroup} {t : List Nat} (hl : t.length = g.k) (hx : ∀ x ∈ t, x < g.n) (hn : t.Nodup) :
    ∃ r s, Decomp.Hit g t r s ∧ s * s = 1 := by
  set u := t.mergeSort (fun a b => decide (a ≥ b)) with hu
  have hp : u.Perm t := List.mergeSort_perm t _
  have hsorted : u.Pairwise (fun a b => a ≥ b) := by
    have := List.pairwise_mergeSort (le := fun a b : Nat => decide (a ≥ b))
      (fun a b c h1 h2 => by simp at *; omega) (fun a b => by simp; omega) t
    simpa using this
  have hstrict : u.Pairwise (· > ·) := by
    have hnd : u.Nodup := hp.nodup_iff.2 hn
    refine (hsorted.and hnd).imp ?_
    rintro a b ⟨h1, h2⟩
    omega
  have hmem : u ∈ Decomp.rows g.n g.k false := by
    rw [Decomp.mem_rows]
    refine ⟨hp.length_eq.trans hl, fun x hxu => hx x (hp.mem_iff.1 hxu), by simpa using hstrict⟩
  obtain ⟨r, hr, he⟩ := List.getElem_of_mem hmem
  -- the permutation
  have hlu : u.length = g.k := hp.length_eq.trans hl
  have hex : ∃ σ : Perm (Fin g.k), t = Decomp.permuted u σ := by
    have hndu : u.Nodup := hp.nodup_iff.2 hn
    let φ : Fin g.k → Fin g.k := fun i =>
      ⟨u.idxOf (t[(i : Nat)]'(by rw [hl]; exact i.2)), by
        refine lt_of_lt_of_eq ?_ hlu
        rw [List.idxOf_lt_length_iff, hp.mem_iff]; exact List.getElem_mem _⟩
    have hinj : Function.Injective φ := by
      intro i j hij
      have h1 : u.idxOf (t[(i : Nat)]'(by rw [hl]; exact i.2)) = u.idxOf (t[(j : Nat)]'(by rw [hl]; exact j.2)) :=
        congrArg Fin.val hij
      have h2 := (List.idxOf_inj (by rw [hp.mem_iff]; exact List.getElem_mem _)).1 h1
      exact Fin.ext ((List.Nodup.getElem_inj_iff hn).1 h2)
    refine ⟨Equiv.ofBijective φ (Finite.injective_iff_bijective.1 hinj), ?_⟩
    apply List.ext_getElem
    · simp [Decomp.permuted, hl]
    · intro i h1 h2
      simp only [Decomp.permuted, List.getElem_ofFn, Equiv.ofBijective_apply, φ]
      have hlt : u.idxOf t[i] < u.length := by
        rw [List.idxOf_lt_length_iff, hp.mem_iff]; exact List.getElem_mem _
      simp [hlt]
  obtain ⟨σ, hσ⟩ := hex
  refine ⟨r, Decomp.gsign g σ, ⟨σ, hr, by rw [he]; exact hσ, rfl⟩, ?_⟩
  unfold Decomp.gsign
  split
  · rw [← Units.val_mul, Int.units_mul_self, Units.val_one]
  · simp

theorem hits_of_nodup {gs : List AxisGroup} {ts : List (List Nat)} (h : InRange gs ts) (hn : ∀ t ∈ ts, t.Nodup) :
    ∃ rs ss, Decomp.Hits gs ts rs ss ∧ ss.prod * ss.prod = 1 := by
  induction h with
  | nil => exact ⟨[], [], Decomp.Hits.nil, by simp⟩
  | cons h1 h2 ih =>
    obtain ⟨r, s, hh, hs⟩ := hit_of_nodup h1.1 h1.2 (hn _ (by simp))
    obtain ⟨rs, ss, hhs, hss⟩ := ih (fun t ht => hn t (by simp [ht]))
    refine ⟨r :: rs, s :: ss, Decomp.Hits.cons hh hhs, ?_⟩
    rw [List.prod_cons]
    calc s * ss.prod * (s * ss.prod) = (s * s) * (ss.prod * ss.prod) := by ring
      _ = 1 := by rw [hs, hss]; rfl

/-- The packed rows themselves are hits with sign 1. -/
theorem hits_of_pos {gs : List AxisGroup} (hk : ∀ g ∈ gs, 0 < g.k) {pos : List Nat} (h : PosInRange gs pos) :
    Decomp.Hits gs (List.zipWith (fun g r => (trilIndices g.n g.k false).map fun c => c.getD r 0) gs pos) pos
      (List.replicate gs.length 1) := by
  induction h with
  | nil => exact Decomp.Hits.nil
  | cons h1 h2 ih =>
    rename_i g r gs' pos'
    have hg := hk g (by simp)
    have hr : r < (Decomp.rows g.n g.k false).length := by rwa [tril_head_length hg] at h1
    rw [List.zipWith_cons_cons, List.length_cons, List.replicate_succ]
    refine Decomp.Hits.cons ⟨1, hr, ?_, by simp [Decomp.gsign]⟩ (ih fun g hg => hk g (by simp [hg]))
    rw [tril_row hg hr, Decomp.permuted_eq_map (Decomp.row_props hr).1]
    simp only [Perm.coe_one, id_eq]
    apply List.ext_getElem
    · simp [(Decomp.row_props hr).1]
    · intro i _ _; simp

/-- **C03**, symmetry: for all packed data the decompressed array changes by the sign of the rearrangement when the indices
of the groups are rearranged, and vanishes when an index is repeated within a group. -/
theorem decompress_has_symmetry {R : Type} [CommRing R] (gs : List AxisGroup) (hk : ∀ g ∈ gs, 0 < g.k)
    (data : List Nat → R) : HasPackingSymmetry gs (decompress false gs data) where
  permute := by
    intro ts ts' ss hr hre
    by_cases hn : ∀ t ∈ ts, t.Nodup
    · obtain ⟨rs, ss1, hh, _⟩ := hits_of_nodup hr hn
      obtain ⟨ss2, hh2, hp⟩ := rearranged_hits hh hre
      rw [Decomp.decompress_hit hk hh, Decomp.decompress_hit hk hh2, hp]
      push_cast
      ring
    · simp only [not_forall] at hn
      obtain ⟨t, ht, hd⟩ := hn
      rw [Decomp.decompress_miss hk hr ⟨t, ht, hd⟩]
      have key : InRange gs ts' ∧ ((∃ t ∈ ts, ¬ t.Nodup) → ∃ t ∈ ts', ¬ t.Nodup) := by
        clear ht hd t
        induction hre with
        | nil => exact ⟨List.Forall₂.nil, fun h => h⟩
        | cons r1 r2 ih =>
          cases hr with
          | cons a1 a2 =>
            obtain ⟨i1, i2⟩ := ih (fun g hg => hk g (by simp [hg])) a2
            obtain ⟨k, f, σ, e1, e2, _⟩ := r1
            have hperm : (List.ofFn (fun i => f (σ i))).Perm (List.ofFn f) := Equiv.Perm.ofFn_comp_perm σ f
            rw [← e1, ← e2] at hperm
            refine ⟨List.Forall₂.cons ⟨hperm.length_eq.trans a1.1, fun x hx => a1.2 x (hperm.mem_iff.1 hx)⟩ i1, ?_⟩
            rintro ⟨u, hu, hd⟩
            rcases List.mem_cons.1 hu with rfl | hu
            · exact ⟨_, by simp, fun h => hd (hperm.nodup_iff.1 h)⟩
            · obtain ⟨v, hv, hvd⟩ := i2 ⟨u, hu, hd⟩
              exact ⟨v, by simp [hv], hvd⟩
      rw [Decomp.decompress_miss hk key.1 (key.2 ⟨t, ht, hd⟩)]
      simp
  repeated := fun ts hr hd => Decomp.decompress_miss hk hr hd

/-- **C03**, packing a decompressed array returns the packed data. -/
theorem compress_decompress {R : Type} [CommRing R] (gs : List AxisGroup) (hk : ∀ g ∈ gs, 0 < g.k)
    (data : List Nat → R) (pos : List Nat) (hp : PosInRange gs pos) :
    compress gs (decompress false gs data) pos = data pos := by
  unfold compress
  rw [Decomp.decompress_hit hk (hits_of_pos hk hp)]
  simp

/-- **C03**, decompressing a packed array with the packing symmetry returns the array at every index. -/
theorem decompress_compress {R : Type} [CommRing R] (gs : List AxisGroup) (hk : ∀ g ∈ gs, 0 < g.k)
    (A : List (List Nat) → R) (hA : HasPackingSymmetry gs A) (ts : List (List Nat)) (hr : InRange gs ts) :
    decompress false gs (compress gs A) ts = A ts := by
  by_cases hn : ∀ t ∈ ts, t.Nodup
  · obtain ⟨rs, ss, hh, hs⟩ := hits_of_nodup hr hn
    rw [Decomp.decompress_hit hk hh]
    have key : ∃ us, InRange gs us ∧ RearrangedAll gs us ts ss ∧
        List.zipWith (fun (g : AxisGroup) r => (trilIndices g.n g.k false).map fun c => c.getD r 0) gs rs = us := by
      clear hs hA hn hr
      induction hh with
      | nil => exact ⟨[], List.Forall₂.nil, RearrangedAll.nil, rfl⟩
      | cons h1 h2 ih =>
        rename_i g t r s gs' ts' rs' ss'
        obtain ⟨us, i1, i2, i3⟩ := ih (fun g hg => hk g (by simp [hg]))
        obtain ⟨σ, hlt, ht, hs⟩ := h1
        obtain ⟨p1, p2, _⟩ := Decomp.row_props hlt
        refine ⟨(Decomp.rows g.n g.k false)[r] :: us, List.Forall₂.cons ⟨p1, p2⟩ i1, RearrangedAll.cons ?_ i2, ?_⟩
        · refine ⟨g.k, fun i => ((Decomp.rows g.n g.k false)[r]).getD i 0, σ, ?_, ht, hs⟩
          apply List.ext_getElem
          · simp [p1]
          · intro i h1 h2; simp [h1]
        · rw [List.zipWith_cons_cons, tril_row (hk g (by simp)) hlt, i3]
    obtain ⟨us, hus, hre, he⟩ := key
    unfold compress
    rw [he, hA.permute us ts ss hus hre]
  · simp only [not_forall] at hn
    obtain ⟨t, ht, hd⟩ := hn
    rw [Decomp.decompress_miss hk hr ⟨t, ht, hd⟩, hA.repeated ts hr ⟨t, ht, hd⟩]

/-- Non-vacuity: the groups of the subscript `"iiaajb"` used for the mixed-spin triples, and a concrete entry. -/
example : decompress false [⟨3, 2, true⟩, ⟨2, 2, true⟩, ⟨3, 1, true⟩, ⟨2, 1, true⟩]
    (fun p => (100 + 10 * (p.getD 0 0) + p.getD 2 0 : Int)) [[0, 2], [0, 1], [2], [1]] = 112 := by decide

/-- Non-vacuity of the symmetry hypothesis: a non-zero array with the packing symmetry. -/
example : ∃ A : List (List Nat) → Int, HasPackingSymmetry [⟨3, 3, true⟩, ⟨2, 1, true⟩] A ∧ A [[2, 1, 0], [0]] = 5 ∧
    A [[2, 0, 1], [0]] = -5 :=
  ⟨decompress false [⟨3, 3, true⟩, ⟨2, 1, true⟩] (fun _ => 5), decompress_has_symmetry _ (by simp) _, by decide, by decide⟩

end Vayesta.Props
