import Verif.Lemmas.DemoChannel
import Verif.Lemmas.Tensor

/-! Two-body contributions of fragments. -/

namespace Vayesta.DemoRdm
open Vayesta Vayesta.Rdm Vayesta.Tensor Matrix

variable {K : Type} [Field K] {nao nmo : Nat}

theorem transform_L {a b a' b' : Nat} (c : Matrix (Fin a') (Fin a) K) (d : Matrix (Fin b') (Fin b) K) (t : Ten a b K) :
    transform c d t = L1 c (L2 c (L3 d (L4 d t))) := by
  funext p q r s
  simp only [transform, L1, L2, L3, L4, Finset.mul_sum]
  exact Finset.sum_congr rfl fun _ _ => Finset.sum_congr rfl fun _ _ => Finset.sum_congr rfl fun _ _ => Finset.sum_congr rfl fun _ _ => by ring

theorem project2_L {a b a' b' : Nat} (p : Matrix (Fin a) (Fin a) K) (t : Ten a b K) (c : Matrix (Fin a') (Fin a) K) (d : Matrix (Fin b') (Fin b) K) :
    project2 p t c d = L1 (c * p) (L2 c (L3 d (L4 d t))) := by
  have : L1 (c * p) (L2 c (L3 d (L4 d t))) = L1 c (L1 p (L2 c (L3 d (L4 d t)))) := (L1_L1 c p _).symm
  rw [this]
  funext p' q r s
  simp only [project2, L1, L2, L3, L4, Finset.mul_sum]
  exact Finset.sum_congr rfl fun _ _ => Finset.sum_congr rfl fun _ _ => Finset.sum_congr rfl fun _ _ => Finset.sum_congr rfl fun _ _ =>
    Finset.sum_congr rfl fun _ _ => by ring

theorem chain_L {n k : Nat} (x : Fin n → Fin k → K) (y : Fin n → Fin k → K) (z : Fin k → Fin n → K) (t : Fin n → Fin n → Fin n → Fin n → K) :
    L1 x (L2 y (L3 y (L4 y (L1 z (L2 z (L3 z (L4 z t))))))) = L1 (mm x z) (L2 (mm y z) (L3 (mm y z) (L4 (mm y z) t))) := by
  rw [L4_L1, L4_L2, L4_L3, L4_L4, L3_L1, L3_L2, L3_L3, L2_L1, L2_L2, L1_L1]

/-- The projected contribution of a tensor cut from the full space. -/
theorem project2_cut {k n : Nat} (p : Matrix (Fin k) (Fin k) K) (r : Matrix (Fin n) (Fin k) K) (pf : Matrix (Fin n) (Fin n) K)
    (hp : r * p = pf * r) (hq : pf * (r * r.transpose) = pf) (t : Ten n n K) :
    project2 p (transform r.transpose r.transpose t) r r = L1 pf (L2 (r * r.transpose) (L3 (r * r.transpose) (L4 (r * r.transpose) t))) := by
  rw [project2_L, transform_L]
  refine (chain_L (r * p) r r.transpose t).trans ?_
  have : mm (r * p) r.transpose = pf := by
    show r * p * r.transpose = pf
    rw [hp, Matrix.mul_assoc, hq]
  rw [this]
  rfl

theorem meanField_scale (m k : Nat) (y : K) : meanField m k y = y • meanField m k (1 : K) := by
  funext i j
  simp only [meanField, Matrix.smul_apply, smul_eq_mul]
  split <;> ring

theorem meanField_symm (m k : Nat) (y : K) : (meanField m k y).transpose = meanField m k y := by
  funext i j
  simp only [transpose_apply, meanField]
  by_cases h : i = j
  · subst h; rfl
  · simp [h, Ne.symm h]

theorem meanField_mul {n : Nat} (m k : Nat) (M : Matrix (Fin m) (Fin n) K) (y : K) (p : Fin m) (q : Fin n) :
    (meanField m k y * M) p q = if p.val < k then y * M p q else 0 := by
  rw [Matrix.mul_apply, Finset.sum_eq_single p]
  · simp only [meanField]; split <;> simp_all
  · intro j _ hj; simp [meanField, Ne.symm hj]
  · intro h; exact absurd (Finset.mem_univ p) h

theorem meanField_idem (m k : Nat) : meanField m k (1 : K) * meanField m k 1 = meanField m k 1 := by
  funext p q
  rw [meanField_mul]
  simp only [meanField]
  by_cases h : p.val < k <;> simp [h]

theorem moOcc_eq (e : Emb nao nmo K) : e.moOcc = e.mo * meanField nmo e.nocc (1 : K) := by
  funext a i
  rw [Matrix.mul_apply, Finset.sum_eq_single i]
  · simp only [Emb.moOcc, meanField]; split <;> simp_all
  · intro j _ hj; simp [meanField, hj]
  · intro h; exact absurd (Finset.mem_univ i) h

theorem moOccFragMo_eq (e : Emb nao nmo K) (x : Frag nao K) (hb : OrthonormalBasis e) :
    e.moOccFragMo x = meanField nmo e.nocc 1 * e.moFragMo x := by
  unfold Emb.moOccFragMo Emb.moFragMo
  rw [moOcc_eq, transpose_mul, meanField_symm]
  calc _ = (e.mo.transpose * e.ovlp * e.mo) * (meanField nmo e.nocc 1 * meanField nmo e.nocc 1) * ((e.mo.transpose * e.ovlp * x.cFrag) *
        (x.cFrag.transpose * e.ovlp * e.mo)) := by simp only [Matrix.mul_assoc]
    _ = _ := by rw [hb.orth, Matrix.one_mul, meanField_idem]

/-- The two updates of one pass through the loop. -/
theorem foldl_two {a : Nat} (nocc : Nat) (y z : Matrix (Fin a) (Fin a) K) (t : Ten a a K) :
    (occ a nocc).foldl (fun t i => addXiiX i z (addXXii i y t)) t =
      fun p q r s => t p q r s + (y p q * meanField a nocc 1 r s + z p s * meanField a nocc 1 q r) := by
  have h1 : ∀ (t : Ten a a K) (i : Fin a), addXiiX i z (addXXii i y t) = addIxxI i 0 (addXiiX i z (addXXii i y (addIIxx i 0 t))) := by
    intro t i
    funext p q r s
    simp [addXiiX, addXXii, addIxxI, addIIxx]
  rw [foldl_congr_fun h1, foldl_four]
  funext p q r s
  simp

/-- The non-cumulant part of one fragment. -/
theorem nonCumulantPart_eq (e : Emb nao nmo K) (x : Frag nao K) (hb : OrthonormalBasis e) (h : Matrix (Fin nmo) (Fin nmo) K)
    (hh : addDiag e.nocc 1 (e.moCluster x * x.wf.rdm1 false * (e.moCluster x).transpose) = h) :
    nonCumulantPart e x = fun p q r s => 2 * outer (meanField nmo e.nocc 1 * e.moFragMo x) h p q r s - outerX (meanField nmo e.nocc 1 * e.moFragMo x) h p q r s +
      (2 * outer (e.moFragMo x * h) (meanField nmo e.nocc 1) p q r s - outerX (e.moFragMo x * h) (meanField nmo e.nocc 1) p q r s) := by
  unfold nonCumulantPart
  simp only [hh, moOccFragMo_eq e x hb, foldl_two]
  funext p q r s
  simp only [outer, outerX, Matrix.smul_apply, Matrix.neg_apply, smul_eq_mul]
  ring

/-- Sum of tensors over a list. -/
def tsum {ι : Type} {a b : Nat} (l : List ι) (f : ι → Ten a b K) : Ten a b K := fun p q r s => (l.map fun x => f x p q r s).sum

theorem foldlM_ok {ι : Type} {a b : Nat} (g : ι → Except PyErr (Ten a b K)) (f : ι → Ten a b K) : ∀ (l : List ι) (t : Ten a b K),
    (∀ x ∈ l, g x = .ok (f x)) → l.foldlM (fun t x => (g x).map fun c => tadd t c) t = .ok (tadd t (tsum l f))
  | [], t, _ => by
    show Except.ok t = _
    congr 1
    funext p q r s
    simp [tadd, tsum]
  | x :: l, t, h => by
    rw [List.foldlM_cons, h x List.mem_cons_self]
    show l.foldlM _ (tadd t (f x)) = _
    rw [foldlM_ok g f l _ fun y hy => h y (List.mem_cons_of_mem _ hy)]
    congr 1
    funext p q r s
    simp only [tadd, tsum, List.map_cons, List.sum_cons]
    ring

theorem tsum_congr {ι : Type} {a b : Nat} (l : List ι) (f g : ι → Ten a b K) (h : ∀ x ∈ l, f x = g x) : tsum l f = tsum l g := by
  funext p q r s
  unfold tsum
  rw [List.map_congr_left fun x hx => by rw [h x hx]]

theorem matrix_list_sum {ι : Type} {n m : Nat} (l : List ι) (f : ι → Matrix (Fin n) (Fin m) K) (p : Fin n) (q : Fin m) :
    (l.map f).sum p q = (l.map fun x => f x p q).sum := by
  induction l with
  | nil => rfl
  | cons x l ih => rw [List.map_cons, List.sum_cons, Matrix.add_apply, ih, List.map_cons, List.sum_cons]

theorem tsum_L1 {ι : Type} {n : Nat} (l : List ι) (f : ι → Matrix (Fin n) (Fin n) K) (t : Ten n n K) :
    tsum l (fun x => L1 (f x) t) = L1 (l.map f).sum t := by
  funext p q r s
  unfold tsum
  refine (list_sum_mul l (fun x k => f x p k) (fun k => t k q r s)).trans ?_
  exact Finset.sum_congr rfl fun k _ => by rw [matrix_list_sum]

theorem tsum_add {ι : Type} {a b : Nat} (l : List ι) (f g : ι → Ten a b K) : tsum l (fun x => tadd (f x) (g x)) = tadd (tsum l f) (tsum l g) := by
  funext p q r s
  simp only [tsum, tadd]
  induction l with
  | nil => simp
  | cons x l ih => simp only [List.map_cons, List.sum_cons, ih]; ring

/-- The cumulant of a density matrix, exact or approximate. -/
def fullCumulant {n : Nat} (nocc : Nat) (d : Matrix (Fin n) (Fin n) K) (t : Ten n n K) (approx : Bool) : Ten n n K := fun p q r s =>
  t p q r s - if approx then onePartLinear (1 / 2) d (meanField n nocc 2) p q r s else onePart (1 / 2) d p q r s

theorem cumulant_value {n nocc : Nat} {w : ClusterWf n K} {d : Matrix (Fin n) (Fin n) K} {t : Ten n n K} (h : HasRdms w nocc d t) (approx : Bool) :
    cumulant w approx = .ok (fullCumulant nocc d t approx) := by
  cases approx
  · unfold cumulant
    simp only [Bool.false_eq_true, if_false]
    rcases h.exact with he | he
    · rw [he]; rfl
    · rw [he, h.rdm2]
      show Except.ok _ = _
      congr 1
      funext p q r s
      simp only [h.rdm1, fullCumulant, Bool.false_eq_true, if_false, onePart, wedge, outer, outerX]
      ring
  · unfold cumulant
    rw [if_pos rfl, h.approx]
    rfl

theorem transform_onePartLinear {a b : Nat} (c : Matrix (Fin b) (Fin a) K) (f : K) (d m : Matrix (Fin a) (Fin a) K) :
    transform c c (onePartLinear f d m) = onePartLinear f (c * d * c.transpose) (c * m * c.transpose) := by
  have : onePartLinear f d m = fun p q r s => (wedge f m d p q r s + wedge f d m p q r s) - wedge f m m p q r s := rfl
  rw [this, transform_sub, transform_add, transform_wedge, transform_wedge, transform_wedge]
  rfl

/-- The cumulant of a cluster is the cumulant of the whole system, cut to the cluster. -/
theorem cumulant_cut (e : Emb nao nmo K) (x : Frag nao K) (hb : OrthonormalBasis e) (hg : GoodCluster e x) (d : Matrix (Fin nmo) (Fin nmo) K)
    (t : Ten nmo nmo K) (approx : Bool) :
    fullCumulant x.nocc ((e.moCluster x).transpose * d * e.moCluster x) (transform (e.moCluster x).transpose (e.moCluster x).transpose t) approx =
      transform (e.moCluster x).transpose (e.moCluster x).transpose (fullCumulant e.nocc d t approx) := by
  cases approx
  · have : fullCumulant e.nocc d t false = fun p q r s => t p q r s - onePart (1 / 2) d p q r s := rfl
    rw [this, transform_sub]
    have h : transform (e.moCluster x).transpose (e.moCluster x).transpose (onePart (1 / 2) d) = onePart (1 / 2) ((e.moCluster x).transpose * d * e.moCluster x) := by
      have := transform_wedge (c := (e.moCluster x).transpose) (1 / 2) d d
      rw [transpose_transpose] at this
      exact this
    rw [h]
    rfl
  · have : fullCumulant e.nocc d t true = fun p q r s => t p q r s - onePartLinear (1 / 2) d (meanField nmo e.nocc 2) p q r s := rfl
    rw [this, transform_sub]
    have h : transform (e.moCluster x).transpose (e.moCluster x).transpose (onePartLinear (1 / 2) d (meanField nmo e.nocc 2)) =
        onePartLinear (1 / 2) ((e.moCluster x).transpose * d * e.moCluster x) (meanField x.ncl x.nocc 2) := by
      have := transform_onePartLinear (e.moCluster x).transpose (1 / 2) d (meanField nmo e.nocc 2)
      rw [transpose_transpose, meanField_cut e x hb hg] at this
      exact this
    rw [h]
    rfl

/-- What a fragment adds to the partitioned cumulant: the first index projected on the fragment, the others on the cluster. -/
theorem cumulant_contribution (e : Emb nao nmo K) (x : Frag nao K) (hb : OrthonormalBasis e) (hg : GoodCluster e x) {d : Matrix (Fin nmo) (Fin nmo) K}
    {t : Ten nmo nmo K} (hx : ExactCluster e d t x) (approx : Bool) :
    (cumulant x.wf approx).map (fun t => project2 (e.clusterFragCluster x) t (e.moCluster x) (e.moCluster x)) =
      .ok (L1 (e.moFragMo x) (L2 (e.moCluster x * (e.moCluster x).transpose) (L3 (e.moCluster x * (e.moCluster x).transpose)
        (L4 (e.moCluster x * (e.moCluster x).transpose) (fullCumulant e.nocc d t approx))))) := by
  rw [cumulant_value hx]
  show Except.ok (project2 _ (fullCumulant x.nocc ((e.moCluster x).transpose * d * e.moCluster x) (transform (e.moCluster x).transpose (e.moCluster x).transpose t) approx) _ _) = _
  rw [cumulant_cut e x hb hg, project2_cut _ _ _ (cluster_projector e x hb hg) (frag_cluster e x hb hg)]

end Vayesta.DemoRdm
