import Verif.Spec.Decompress
import Verif.Props.Permutations
import Mathlib.Data.List.Sort
import Mathlib.Data.List.Lex

namespace Vayesta.Decomp

open Equiv Vayesta.Spec

theorem mem_gridTuples {n d : Nat} {t : List Nat} :
    t ∈ gridTuples n d ↔ t.length = d ∧ ∀ x ∈ t, x < n := by
  induction d generalizing t with
  | zero => simp [gridTuples]; intro h; simp [h]
  | succ d ih =>
    simp only [gridTuples, List.mem_flatMap, List.mem_range, List.mem_map]
    constructor
    · rintro ⟨i, hi, u, hu, rfl⟩
      have := ih.1 hu
      simp [this.1]
      exact ⟨hi, this.2⟩
    · rintro ⟨hl, hx⟩
      cases t with
      | nil => simp at hl
      | cons i u =>
        refine ⟨i, hx i (by simp), u, ih.2 ⟨by simpa using hl, fun x hx' => hx x (by simp [hx'])⟩, rfl⟩

theorem gridTuples_sorted (n d : Nat) : (gridTuples n d).Pairwise (List.Lex (· < ·)) := by
  induction d with
  | zero => simp [gridTuples]
  | succ d ih =>
    rw [gridTuples, List.pairwise_flatMap]
    constructor
    · intro i _
      rw [List.pairwise_map]
      exact ih.imp fun h => List.Lex.cons h
    · refine List.pairwise_lt_range.imp ?_
      intro i j hij x hx y hy
      simp only [List.mem_map] at hx hy
      obtain ⟨u, _, rfl⟩ := hx
      obtain ⟨v, _, rfl⟩ := hy
      exact List.Lex.rel hij

theorem trilMask_iff {incl : Bool} {t : List Nat} :
    trilMask incl t = true ↔ t.Pairwise (fun a b => if incl then a ≥ b else a > b) := by
  have : IsTrans Nat (fun a b => if incl then a ≥ b else a > b) := by
    constructor
    intro a b c h1 h2
    cases incl <;> simp at * <;> omega
  rw [← List.isChain_iff_pairwise]
  induction t with
  | nil => simp [trilMask]
  | cons a t ih =>
    cases t with
    | nil => simp [trilMask]
    | cons b t =>
      refine Iff.trans ?_ List.isChain_cons_cons.symm
      refine Iff.trans ?_ (and_congr Iff.rfl ih)
      cases incl <;> simp [trilMask]

/-- The selected index tuples (rows). -/
def rows (n k : Nat) (incl : Bool) : List (List Nat) := (gridTuples n k).filter (trilMask incl)

theorem mem_rows {n k : Nat} {incl : Bool} {t : List Nat} :
    t ∈ rows n k incl ↔ t.length = k ∧ (∀ x ∈ t, x < n) ∧ t.Pairwise (fun a b => if incl then a ≥ b else a > b) := by
  rw [rows, List.mem_filter, mem_gridTuples, trilMask_iff, and_assoc]

theorem rows_sorted (n k : Nat) (incl : Bool) : (rows n k incl).Pairwise (List.Lex (· < ·)) :=
  (gridTuples_sorted n k).filter _

theorem lexIrrefl (a : List Nat) : ¬ List.Lex (· < ·) a a := by
  induction a with
  | nil => intro h; cases h
  | cons x a ih =>
    intro h
    cases h with
    | cons h => exact ih h
    | rel h => exact Nat.lt_irrefl _ h

theorem rows_nodup (n k : Nat) (incl : Bool) : (rows n k incl).Nodup := by
  refine (rows_sorted n k incl).imp ?_
  intro a b h e
  subst e
  exact lexIrrefl a h

theorem gridTuples_one (n : Nat) : gridTuples n 1 = (List.range n).map fun i => [i] := by
  simp [gridTuples, List.map_eq_flatMap]

theorem trilIndices_eq {n k : Nat} {incl : Bool} (hk : 0 < k) :
    trilIndices n k incl = (List.range k).map fun j => (rows n k incl).map fun t => t.getD j 0 := by
  unfold trilIndices
  rw [if_neg (by omega)]
  split
  · next h =>
    subst h
    have : rows n 1 incl = (List.range n).map fun i => [i] := by
      rw [rows, gridTuples_one, List.filter_eq_self]
      intro a ha
      simp at ha
      obtain ⟨i, _, rfl⟩ := ha
      simp [trilMask]
    rw [this]
    simp [List.range_succ, Function.comp_def]
  · rfl

theorem mem_permutationsWithSigns {α : Type} {n : Nat} {f : Fin n → α} {p : List α} {s : Int} :
    (p, s) ∈ permutationsWithSigns (List.ofFn f) ↔
      ∃ σ : Perm (Fin n), p = List.ofFn (fun i => f (σ i)) ∧ s = (Perm.sign σ : Int) := by
  rw [(Props.permutations_with_signs_complete f).mem_iff]
  simp only [List.mem_map, Finset.mem_toList, Finset.mem_univ, true_and, Prod.mk.injEq]
  constructor
  · rintro ⟨σ, h1, h2⟩; exact ⟨σ, h1.symm, h2.symm⟩
  · rintro ⟨σ, h1, h2⟩; exact ⟨σ, h1.symm, h2.symm⟩

theorem trilIndices_ofFn {n k : Nat} {incl : Bool} (hk : 0 < k) :
    trilIndices n k incl = List.ofFn fun j : Fin k => (rows n k incl).map fun t => t.getD j 0 := by
  rw [trilIndices_eq hk]
  apply List.ext_getElem <;> simp

/-- Sign recorded for a permutation in a group. -/
def gsign (g : AxisGroup) (σ : Perm (Fin g.k)) : Int := if g.anti then (Perm.sign σ : Int) else 1

/-- The row tuple `t` rearranged by `σ`. -/
def permuted {k : Nat} (t : List Nat) (σ : Perm (Fin k)) : List Nat := List.ofFn fun i => t.getD (σ i) 0

theorem mem_groupWrites {incl : Bool} {g : AxisGroup} (hk : 0 < g.k) {x : List Nat × Int} :
    x ∈ groupWrites incl g ↔ ∃ σ : Perm (Fin g.k),
      x.1 = (rows g.n g.k incl).map (fun t => ravel g.n (permuted t σ)) ∧ x.2 = gsign g σ := by
  obtain ⟨inds, s⟩ := x
  unfold groupWrites
  rw [trilIndices_ofFn hk]
  have hmap : ∀ σ : Perm (Fin g.k),
      (List.range ((((List.ofFn fun i : Fin g.k => (rows g.n g.k incl).map fun t => t.getD (σ i) 0).head?).getD []).length)).map
        (fun r => ravel g.n ((List.ofFn fun i : Fin g.k => (rows g.n g.k incl).map fun t => t.getD (σ i) 0).map
          fun c => c.getD r 0))
      = (rows g.n g.k incl).map (fun t => ravel g.n (permuted t σ)) := by
    intro σ
    have hlen : (((List.ofFn fun i : Fin g.k => (rows g.n g.k incl).map fun t => t.getD (σ i) 0).head?).getD []).length
        = (rows g.n g.k incl).length := by
      obtain ⟨k', hk'⟩ : ∃ k', g.k = k' + 1 := ⟨g.k - 1, by omega⟩
      rw [List.head?_eq_getElem?]
      have h0 : 0 < (List.ofFn fun i : Fin g.k => (rows g.n g.k incl).map fun t => t.getD (σ i) 0).length := by
        simp [hk]
      rw [List.getElem?_eq_getElem h0]
      simp
    rw [hlen]
    apply List.ext_getElem
    · simp
    · intro r h1 h2
      have hr : r < (rows g.n g.k incl).length := by simpa using h1
      simp only [List.getElem_map, List.getElem_range]
      congr 1
      apply List.ext_getElem
      · simp [permuted]
      · intro j hj1 hj2
        simp [permuted, hr]
  simp only [List.mem_map, Prod.mk.injEq, Prod.exists]
  constructor
  · rintro ⟨cols, s', hmem, h1, h2⟩
    obtain ⟨σ, hcols, hs⟩ := mem_permutationsWithSigns.1 hmem
    refine ⟨σ, ?_, ?_⟩
    · rw [← h1, hcols]; exact hmap σ
    · rw [← h2, hs]; rfl
  · rintro ⟨σ, h1, h2⟩
    refine ⟨_, _, mem_permutationsWithSigns.2 ⟨σ, rfl, rfl⟩, ?_, ?_⟩
    · rw [h1]; exact hmap σ
    · rw [h2]; rfl

theorem ravel_append (n : Nat) (t : List Nat) (x : Nat) : ravel n (t ++ [x]) = ravel n t * n + x := by
  simp [ravel, List.foldl_append]

theorem ravel_inj {n : Nat} {t u : List Nat} (hl : t.length = u.length) (ht : ∀ x ∈ t, x < n) (hu : ∀ x ∈ u, x < n)
    (h : ravel n t = ravel n u) : t = u := by
  induction t using List.reverseRecOn generalizing u with
  | nil => simp at hl; exact (List.length_eq_zero_iff.1 hl.symm).symm
  | append_singleton t x ih =>
    rcases List.eq_nil_or_concat u with rfl | ⟨u', y, rfl⟩
    · simp at hl
    · rw [List.concat_eq_append] at *
      rw [ravel_append, ravel_append] at h
      have hx := ht x (by simp)
      have hy := hu y (by simp)
      have hn : 0 < n := by omega
      have e1 : ravel n t = ravel n u' := by
        have : (ravel n t * n + x) / n = (ravel n u' * n + y) / n := by rw [h]
        rwa [Nat.mul_comm, Nat.mul_add_div hn, Nat.mul_comm (ravel n u'), Nat.mul_add_div hn, Nat.div_eq_of_lt hx,
          Nat.div_eq_of_lt hy] at this
      have e2 : x = y := by rw [e1] at h; omega
      rw [ih (by simpa using hl) (fun z hz => ht z (by simp [hz])) (fun z hz => hu z (by simp [hz])) e1, e2]

/-- `t` is reached from the packed row number `r` of group `g` by a rearrangement with sign `s`. -/
def Hit (g : AxisGroup) (t : List Nat) (r : Nat) (s : Int) : Prop :=
  ∃ σ : Perm (Fin g.k), ∃ h : r < (rows g.n g.k false).length,
    t = permuted (rows g.n g.k false)[r] σ ∧ s = gsign g σ

theorem row_props {g : AxisGroup} {r : Nat} (h : r < (rows g.n g.k false).length) :
    ((rows g.n g.k false)[r]).length = g.k ∧ (∀ x ∈ (rows g.n g.k false)[r], x < g.n) ∧
      ((rows g.n g.k false)[r]).Pairwise (· > ·) := by
  have := mem_rows.1 (List.getElem_mem h)
  simpa using this

theorem permuted_eq_map {k : Nat} {t : List Nat} (ht : t.length = k) (σ : Perm (Fin k)) :
    permuted t σ = List.ofFn fun i => t[(σ i : Nat)]'(by rw [ht]; exact (σ i).2) := by
  unfold permuted
  congr 1
  funext i
  have : (σ i : Nat) < t.length := by rw [ht]; exact (σ i).2
  simp [this]

theorem permuted_perm {k : Nat} {t : List Nat} (ht : t.length = k) (σ : Perm (Fin k)) : (permuted t σ).Perm t := by
  subst ht
  rw [permuted_eq_map rfl]
  have h1 : t = List.ofFn (fun i : Fin t.length => t[i]) := by simp
  conv_rhs => rw [h1]
  exact Equiv.Perm.ofFn_comp_perm σ (fun i : Fin t.length => t[i])

theorem Hit.mem_lt {g : AxisGroup} {t : List Nat} {r : Nat} {s : Int} (h : Hit g t r s) :
    t.length = g.k ∧ (∀ x ∈ t, x < g.n) ∧ t.Nodup := by
  obtain ⟨σ, hr, rfl, _⟩ := h
  obtain ⟨h1, h2, h3⟩ := row_props hr
  have hp := permuted_perm h1 σ
  refine ⟨by simp [permuted], fun x hx => h2 x (hp.mem_iff.1 hx), hp.nodup_iff.2 ?_⟩
  exact h3.imp fun h => by omega

theorem Hit.unique {g : AxisGroup} {t : List Nat} {r r' : Nat} {s s' : Int} (h : Hit g t r s) (h' : Hit g t r' s') :
    r = r' ∧ s = s' := by
  obtain ⟨σ, hr, e1, hs⟩ := h
  obtain ⟨σ', hr', e1', hs'⟩ := h'
  obtain ⟨h1, _, h3⟩ := row_props hr
  obtain ⟨h1', _, h3'⟩ := row_props hr'
  have hp : ((rows g.n g.k false)[r]).Perm ((rows g.n g.k false)[r']) :=
    (permuted_perm h1 σ).symm.trans ((List.Perm.of_eq (e1.symm.trans e1')).trans (permuted_perm h1' σ'))
  have hrow : (rows g.n g.k false)[r] = (rows g.n g.k false)[r'] :=
    hp.eq_of_pairwise (le := (· > ·)) (fun a b _ _ h1 h2 => by omega) h3 h3'
  have hrr : r = r' := (List.Nodup.getElem_inj_iff (rows_nodup g.n g.k false)).1 hrow
  refine ⟨hrr, ?_⟩
  subst hrr
  have hσ : σ = σ' := by
    have e := e1.symm.trans e1'
    rw [permuted_eq_map h1, permuted_eq_map h1, List.ofFn_inj] at e
    ext i
    have := congrFun e i
    rw [List.Nodup.getElem_inj_iff (h3.imp fun h => by omega)] at this
    exact this
  rw [hs, hs', hσ]

/-- `Hit` for a list of groups. -/
inductive Hits : List AxisGroup → List (List Nat) → List Nat → List Int → Prop
  | nil : Hits [] [] [] []
  | cons {g t r s gs ts rs ss} : Hit g t r s → Hits gs ts rs ss → Hits (g :: gs) (t :: ts) (r :: rs) (s :: ss)

/-- Flat positions of a full index. -/
def keyOf (gs : List AxisGroup) (ts : List (List Nat)) : List Nat := List.zipWith (fun g t => ravel g.n t) gs ts

theorem Hits.unique {gs ts rs ss} (h : Hits gs ts rs ss) : ∀ {ts' rs' ss'}, Hits gs ts' rs' ss' →
    keyOf gs ts = keyOf gs ts' → rs = rs' ∧ ss = ss' := by
  induction h with
  | nil => intro ts' rs' ss' h' _; cases h'; exact ⟨rfl, rfl⟩
  | cons h1 h2 ih =>
    intro ts' rs' ss' h' hk
    cases h' with
    | cons h1' h2' =>
      simp only [keyOf, List.zipWith_cons_cons, List.cons.injEq] at hk
      obtain ⟨hk1, hk2⟩ := hk
      have m := h1.mem_lt
      have m' := h1'.mem_lt
      have ht := ravel_inj (m.1.trans m'.1.symm) m.2.1 m'.2.1 hk1
      subst ht
      have hu := h1.unique h1'
      have hi := ih h2' hk2
      exact ⟨by rw [hu.1, hi.1], by rw [hu.2, hi.2]⟩

/-- All writes in order. -/
def allWrites {R : Type _} [Mul R] [IntCast R] (groups : List AxisGroup) (data : List Nat → R) : List (List Nat × R) :=
  (cartesian (groups.map (groupWrites false))).flatMap (writesFor data)

theorem foldl_writes {K R : Type _} [DecidableEq K] (l : List (K × R)) (init : K → R) (key : K) :
    (∀ v, (∀ w ∈ l, w.1 = key → w.2 = v) → (∃ w ∈ l, w.1 = key) →
      l.foldl (fun a w => fun k => if k = w.1 then w.2 else a k) init key = v) ∧
    ((∀ w ∈ l, w.1 ≠ key) → l.foldl (fun a w => fun k => if k = w.1 then w.2 else a k) init key = init key) := by
  induction l generalizing init with
  | nil => simp
  | cons w l ih =>
    refine ⟨?_, ?_⟩
    · intro v hv hex
      rw [List.foldl_cons]
      by_cases hl : ∃ w ∈ l, w.1 = key
      · exact (ih _).1 v (fun w hw => hv w (by simp [hw])) hl
      · rw [(ih _).2 (fun w hw he => hl ⟨w, hw, he⟩)]
        obtain ⟨w', hw', he⟩ := hex
        rcases List.mem_cons.1 hw' with rfl | hw''
        · simp [he, hv _ hw' he]
        · exact absurd ⟨w', hw'', he⟩ hl
    · intro hne
      rw [List.foldl_cons, (ih _).2 (fun w hw => hne w (by simp [hw]))]
      have := hne w (by simp)
      simp [Ne.symm this]

theorem decompressFlat_eq {R : Type _} [Mul R] [Zero R] [IntCast R] (groups : List AxisGroup) (data : List Nat → R) :
    decompressFlat false groups data
      = (allWrites groups data).foldl (fun a w => fun k => if k = w.1 then w.2 else a k) (fun _ => 0) := by
  unfold decompressFlat allWrites
  generalize cartesian (groups.map (groupWrites false)) = l
  generalize (fun _ => (0 : R)) = init
  induction l generalizing init with
  | nil => rfl
  | cons x l ih => rw [List.foldl_cons, ih, List.flatMap_cons, List.foldl_append]

theorem mem_writes_aux (gs : List AxisGroup) (hk : ∀ g ∈ gs, 0 < g.k) (key : List Nat) (pos : List Nat) (ss : List Int) :
    (∃ tup ∈ cartesian (gs.map (groupWrites false)),
        pos ∈ cartesian (tup.map fun x => List.range x.1.length) ∧
        key = List.zipWith (fun (x : List Nat × Int) r => x.1.getD r 0) tup pos ∧ ss = tup.map Prod.snd) ↔
      ∃ ts, Hits gs ts pos ss ∧ key = keyOf gs ts := by
  induction gs generalizing key pos ss with
  | nil =>
    simp only [List.map_nil, cartesian, List.mem_singleton, exists_eq_left, List.zipWith_nil_left]
    constructor
    · rintro ⟨rfl, rfl, rfl⟩; exact ⟨[], Hits.nil, rfl⟩
    · rintro ⟨ts, h, rfl⟩; cases h; exact ⟨rfl, rfl, rfl⟩
  | cons g gs ih =>
    have ihg := ih (fun g hg => hk g (by simp [hg]))
    have hkg := hk g (by simp)
    constructor
    · rintro ⟨tup, htup, hpos, hkey, hss⟩
      simp only [List.map_cons, cartesian, List.mem_flatMap, List.mem_map] at htup
      obtain ⟨x, hx, tup', htup', rfl⟩ := htup
      simp only [List.map_cons, cartesian, List.mem_flatMap, List.mem_map, List.mem_range] at hpos
      obtain ⟨r, hr, pos', hpos', rfl⟩ := hpos
      obtain ⟨ts, hts, hkey'⟩ := (ihg _ pos' (tup'.map Prod.snd)).1 ⟨tup', htup', hpos', rfl, rfl⟩
      obtain ⟨σ, hx1, hx2⟩ := (mem_groupWrites hkg).1 hx
      have hr' : r < (rows g.n g.k false).length := by rw [hx1] at hr; simpa using hr
      refine ⟨permuted (rows g.n g.k false)[r] σ :: ts, ?_, ?_⟩
      · rw [hss, List.map_cons]
        exact Hits.cons ⟨σ, hr', rfl, hx2⟩ hts
      · rw [hkey, List.zipWith_cons_cons, hkey', keyOf, keyOf, List.zipWith_cons_cons, hx1]
        simp [hr']
    · rintro ⟨ts, h, hkey⟩
      cases h with
      | cons h1 h2 =>
        rename_i t r s ts rs ss
        obtain ⟨tup', htup', hpos', hkey', hss'⟩ := (ihg _ rs ss).2 ⟨ts, h2, rfl⟩
        obtain ⟨σ, hr, rfl, rfl⟩ := h1
        refine ⟨((rows g.n g.k false).map (fun t => ravel g.n (permuted t σ)), gsign g σ) :: tup', ?_, ?_, ?_, ?_⟩
        · simp only [List.map_cons, cartesian, List.mem_flatMap, List.mem_map]
          exact ⟨_, (mem_groupWrites hkg).2 ⟨σ, rfl, rfl⟩, tup', htup', rfl⟩
        · simp only [List.map_cons, cartesian, List.mem_flatMap, List.mem_map, List.mem_range]
          exact ⟨r, by simpa using hr, rs, hpos', rfl⟩
        · rw [hkey, keyOf, List.zipWith_cons_cons, List.zipWith_cons_cons, ← hkey']
          simp [keyOf, hr]
        · rw [List.map_cons, hss']

theorem mem_allWrites {R : Type _} [Mul R] [IntCast R] {gs : List AxisGroup} (hk : ∀ g ∈ gs, 0 < g.k)
    {data : List Nat → R} {w : List Nat × R} :
    w ∈ allWrites gs data ↔ ∃ ts rs ss, Hits gs ts rs ss ∧ w.1 = keyOf gs ts ∧ w.2 = data rs * ((ss.prod : Int) : R) := by
  unfold allWrites writesFor
  simp only [List.mem_flatMap, List.mem_map]
  constructor
  · rintro ⟨tup, htup, pos, hpos, rfl⟩
    obtain ⟨ts, h, hkey⟩ := (mem_writes_aux gs hk _ pos _).1 ⟨tup, htup, hpos, rfl, rfl⟩
    exact ⟨ts, pos, _, h, hkey, rfl⟩
  · rintro ⟨ts, rs, ss, h, h1, h2⟩
    obtain ⟨tup, htup, hpos, hkey, hss⟩ := (mem_writes_aux gs hk _ rs ss).2 ⟨ts, h, rfl⟩
    refine ⟨tup, htup, rs, hpos, ?_⟩
    ext
    · simp [h1, hkey]
    · simp [h2, hss]

theorem decompress_hit {R : Type _} [Mul R] [Zero R] [IntCast R] {gs : List AxisGroup} (hk : ∀ g ∈ gs, 0 < g.k)
    {data : List Nat → R} {ts rs ss} (h : Hits gs ts rs ss) :
    decompress false gs data ts = data rs * ((ss.prod : Int) : R) := by
  unfold decompress
  rw [decompressFlat_eq]
  refine (foldl_writes _ _ _).1 _ ?_ ?_
  · intro w hw hkey
    obtain ⟨ts', rs', ss', h', h1, h2⟩ := (mem_allWrites hk).1 hw
    obtain ⟨e1, e2⟩ := h.unique h' (hkey.symm.trans h1)
    rw [h2, e1, e2]
  · exact ⟨(keyOf gs ts, _), (mem_allWrites hk).2 ⟨ts, rs, ss, h, rfl, rfl⟩, rfl⟩

theorem keyOf_inj {gs : List AxisGroup} {ts ts' : List (List Nat)} (h : InRange gs ts) (h' : InRange gs ts')
    (hk : keyOf gs ts = keyOf gs ts') : ts = ts' := by
  induction h generalizing ts' with
  | nil => cases h'; rfl
  | cons h1 h2 ih =>
    cases h' with
    | cons h1' h2' =>
      simp only [keyOf, List.zipWith_cons_cons, List.cons.injEq] at hk
      rw [ravel_inj (h1.1.trans h1'.1.symm) h1.2 h1'.2 hk.1, ih h2' hk.2]

theorem Hits.inRange {gs ts rs ss} (h : Hits gs ts rs ss) : InRange gs ts := by
  induction h with
  | nil => exact List.Forall₂.nil
  | cons h1 _ ih => exact List.Forall₂.cons ⟨h1.mem_lt.1, h1.mem_lt.2.1⟩ ih

theorem Hits.nodup {gs ts rs ss} (h : Hits gs ts rs ss) : ∀ t ∈ ts, t.Nodup := by
  induction h with
  | nil => simp
  | cons h1 _ ih =>
    intro t ht
    rcases List.mem_cons.1 ht with rfl | ht
    · exact h1.mem_lt.2.2
    · exact ih t ht

theorem decompress_miss {R : Type _} [Mul R] [Zero R] [IntCast R] {gs : List AxisGroup} (hk : ∀ g ∈ gs, 0 < g.k)
    {data : List Nat → R} {ts : List (List Nat)} (hr : InRange gs ts) (hd : ∃ t ∈ ts, ¬ t.Nodup) :
    decompress false gs data ts = 0 := by
  unfold decompress
  rw [decompressFlat_eq]
  refine (foldl_writes _ _ _).2 ?_
  intro w hw hkey
  obtain ⟨ts', rs', ss', h', h1, h2⟩ := (mem_allWrites hk).1 hw
  have := keyOf_inj hr h'.inRange (hkey.symm.trans h1)
  subst this
  obtain ⟨t, ht, hn⟩ := hd
  exact hn (h'.nodup t ht)

end Vayesta.Decomp
