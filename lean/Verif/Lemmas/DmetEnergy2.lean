import Verif.Lemmas.DmetEnergy
import Mathlib.Tactic.Set

/-! The energy of one fragment in the basis of molecular orbitals. -/

namespace Vayesta.DmetEnergy
open Vayesta Vayesta.Rdm Vayesta.DemoRdm Vayesta.Tensor Matrix

variable {K : Type} [Field K] {nao nmo : Nat}

/-- One- and two-body integrals in the basis of molecular orbitals. -/
def hMo (e : Sys nao nmo K) : Matrix (Fin nmo) (Fin nmo) K := e.mo.transpose * e.hcore * e.mo
def gMo (e : Sys nao nmo K) : Ten nmo nmo K := transform e.mo.transpose e.mo.transpose e.eris

/-- Correlation part of the density matrix of a cluster. -/
def corr (e : Sys nao nmo K) (x : Frag nao K) : Matrix (Fin nmo) (Fin nmo) K := e.emb.moCluster x * x.wf.rdm1 false * (e.emb.moCluster x).transpose

theorem symmetric_mo {e : Sys nao nmo K} (hs : RealSymmetric e.hcore e.eris) : RealSymmetric (hMo e) (gMo e) := by
  refine ⟨?_, ?_, ?_, ?_⟩
  · unfold hMo
    rw [transpose_mul, transpose_mul, transpose_transpose, hs.core, Matrix.mul_assoc]
  · intro p q r s
    unfold gMo transform
    rw [Finset.sum_comm]
    refine Finset.sum_congr rfl fun i _ => Finset.sum_congr rfl fun j _ => Finset.sum_congr rfl fun k _ => Finset.sum_congr rfl fun l _ => ?_
    rw [hs.bra]; ring
  · intro p q r s
    unfold gMo transform
    refine Finset.sum_congr rfl fun i _ => Finset.sum_congr rfl fun j _ => ?_
    rw [Finset.sum_comm]
    refine Finset.sum_congr rfl fun k _ => Finset.sum_congr rfl fun l _ => ?_
    rw [hs.ket]; ring
  · intro p q r s
    unfold gMo transform
    rw [sum_last, sum_last]
    refine Finset.sum_congr rfl fun i _ => Finset.sum_congr rfl fun j _ => Finset.sum_congr rfl fun k _ => Finset.sum_congr rfl fun l _ => ?_
    rw [hs.pair]; ring

theorem cAct_eq (e : Sys nao nmo K) (hb : OrthonormalBasis e.emb) (x : Frag nao K) : x.cAct = e.mo * e.emb.moCluster x := by
  unfold Emb.moCluster
  have h : e.mo * e.mo.transpose * e.ovlp = 1 := hb.complete
  show x.cAct = e.mo * (e.mo.transpose * e.ovlp * x.cAct)
  rw [← Matrix.mul_assoc, ← Matrix.mul_assoc, h, Matrix.one_mul]

theorem clusterEris_eq (e : Sys nao nmo K) (hb : OrthonormalBasis e.emb) (x : Frag nao K) :
    e.clusterEris x = transform (e.emb.moCluster x).transpose (e.emb.moCluster x).transpose (gMo e) := by
  unfold Sys.clusterEris gMo
  rw [transform_comp, ← transpose_mul, ← cAct_eq e hb x]

theorem cut_cluster (e : Sys nao nmo K) (hb : OrthonormalBasis e.emb) (x : Frag nao K) (m : Matrix (Fin nao) (Fin nao) K) :
    x.cAct.transpose * m * x.cAct = (e.emb.moCluster x).transpose * (e.mo.transpose * m * e.mo) * e.emb.moCluster x := by
  rw [cAct_eq e hb x, transpose_mul]
  simp only [Matrix.mul_assoc]

theorem one_body (h p d : Matrix (Fin nmo) (Fin nmo) K) : ∑ a, ∑ i, ∑ j, h a j * p a i * d i j = dot2 h (p * d) := by
  unfold dot2
  refine Finset.sum_congr rfl fun a _ => ?_
  rw [Finset.sum_comm]
  refine Finset.sum_congr rfl fun j _ => ?_
  rw [Matrix.mul_apply, Finset.mul_sum]
  exact Finset.sum_congr rfl fun i _ => by ring

theorem two_body (g : Ten nmo nmo K) (p : Matrix (Fin nmo) (Fin nmo) K) (t : Ten nmo nmo K) :
    ∑ a, ∑ i, ∑ j, ∑ k, ∑ l, g a j k l * p a i * t i j k l = dot4 g (L1 p t) := by
  unfold dot4
  refine Finset.sum_congr rfl fun a _ => ?_
  rw [Finset.sum_comm]
  refine Finset.sum_congr rfl fun j _ => ?_
  rw [Finset.sum_comm]
  refine Finset.sum_congr rfl fun k _ => ?_
  rw [Finset.sum_comm]
  refine Finset.sum_congr rfl fun l _ => ?_
  unfold L1
  rw [Finset.mul_sum]
  exact Finset.sum_congr rfl fun i _ => by ring

theorem energy_shape (h p d : Matrix (Fin nmo) (Fin nmo) K) (g t : Ten nmo nmo K) :
    ∑ a, ∑ i, ∑ j, h a j * p a i * d i j + (∑ a, ∑ i, ∑ j, ∑ k, ∑ l, g a j k l * p a i * t i j k l) / 2 =
      dot2 h (p * d) + dot4 g (L1 p t) / 2 := by rw [one_body, two_body]

/-- The one-body energy of a fragment for a Hamiltonian cut to the cluster. -/
theorem one_body_cut (e : Sys nao nmo K) (hb : OrthonormalBasis e.emb) (x : Frag nao K) (hg : GoodCluster e.emb x)
    (m : Matrix (Fin nao) (Fin nao) K) (d : Matrix (Fin x.ncl) (Fin x.ncl) K) :
    dot2 (x.cAct.transpose * m * x.cAct) (e.emb.clusterFragCluster x * d) =
      dot2 (e.mo.transpose * m * e.mo) (e.emb.moFragMo x * (e.emb.moCluster x * d * (e.emb.moCluster x).transpose)) := by
  rw [cut_cluster e hb, dot2_cut]
  congr 1
  rw [← Matrix.mul_assoc, cluster_projector e.emb x hb hg]
  simp only [Matrix.mul_assoc]

theorem sum_occ_eq {n : Nat} (nocc : Nat) (f : Fin n → K) : ((occ n nocc).map f).sum = ∑ r, ∑ s, (if r = s then f r else 0) * meanField n nocc 1 r s := by
  have h1 : ∀ r, ∑ s, (if r = s then f r else 0) * meanField n nocc 1 r s = if r.val < nocc then f r else 0 := by
    intro r
    rw [Finset.sum_eq_single r]
    · simp only [if_true, meanField, true_and]; split <;> simp
    · intro s _ hs; rw [if_neg (Ne.symm hs), zero_mul]
    · intro h; exact absurd (Finset.mem_univ r) h
  simp only [h1]
  unfold occ
  have h2 : ∀ l : List (Fin n), ((l.filter fun i => decide (i.val < nocc)).map f).sum = (l.map fun r => if r.val < nocc then f r else 0).sum := by
    intro l
    induction l with
    | nil => rfl
    | cons i l ih =>
      by_cases h : i.val < nocc
      · rw [List.filter_cons_of_pos (by simpa using h), List.map_cons, List.sum_cons, ih, List.map_cons, List.sum_cons, if_pos h]
      · rw [List.filter_cons_of_neg (by simpa using h), ih, List.map_cons, List.sum_cons, if_neg h, zero_add]
  rw [h2]
  exact List.sum_ofFn (f := fun r : Fin n => if r.val < nocc then f r else 0) ▸ (by rw [List.ofFn_eq_map])

theorem vAct_eq {n : Nat} {h : Matrix (Fin n) (Fin n) K} {g : Ten n n K} (hs : RealSymmetric h g) (nocc : Nat) : vAct nocc g = veff g (meanField n nocc 1) := by
  have h1 : ∀ F : Fin n → Fin n → K, ((occ n nocc).map fun i => F i i).sum = ∑ r, ∑ s, F r s * meanField n nocc 1 r s := by
    intro F
    rw [sum_occ_eq nocc fun i => F i i]
    refine Finset.sum_congr rfl fun r _ => Finset.sum_congr rfl fun s _ => ?_
    by_cases hrs : r = s
    · subst hrs; rw [if_pos rfl]
    · rw [if_neg hrs, zero_mul, meanField, if_neg (fun h => hrs h.1), mul_zero]
  funext p q
  unfold vAct veff
  rw [h1 fun r s => g r s p q, h1 fun r s => g r q p s]
  congr 1
  · exact Finset.sum_congr rfl fun r _ => Finset.sum_congr rfl fun s _ => by rw [hs.pair]
  · congr 1
    rw [Finset.sum_comm]
    refine Finset.sum_congr rfl fun s _ => Finset.sum_congr rfl fun r _ => ?_
    have hm : meanField n nocc (1 : K) r s = meanField n nocc 1 s r := congrFun (congrFun (meanField_symm n nocc (1 : K)) s) r
    rw [hm, hs.pair]

/-- Energy of a product of density matrices. -/
def beta (e : Sys nao nmo K) (x y : Matrix (Fin nmo) (Fin nmo) K) : K := dot4 (gMo e) (wedge (1 / 2) x y)

section
variable (e : Sys nao nmo K)

theorem wedge_add_left {n : Nat} (f : K) (x y z : Matrix (Fin n) (Fin n) K) : wedge f (x + y) z = fun p q r s => wedge f x z p q r s + wedge f y z p q r s := by
  funext p q r s; simp only [wedge, Matrix.add_apply]; ring
theorem wedge_add_right {n : Nat} (f : K) (x y z : Matrix (Fin n) (Fin n) K) : wedge f x (y + z) = fun p q r s => wedge f x y p q r s + wedge f x z p q r s := by
  funext p q r s; simp only [wedge, Matrix.add_apply]; ring
theorem wedge_smul_left {n : Nat} (f c : K) (x y : Matrix (Fin n) (Fin n) K) : wedge f (c • x) y = fun p q r s => c * wedge f x y p q r s := by
  funext p q r s; simp only [wedge, Matrix.smul_apply, smul_eq_mul]; ring
theorem wedge_smul_right {n : Nat} (f c : K) (x y : Matrix (Fin n) (Fin n) K) : wedge f x (c • y) = fun p q r s => c * wedge f x y p q r s := by
  funext p q r s; simp only [wedge, Matrix.smul_apply, smul_eq_mul]; ring

theorem beta_add_left (x y z : Matrix (Fin nmo) (Fin nmo) K) : beta e (x + y) z = beta e x z + beta e y z := by
  unfold beta; rw [wedge_add_left, dot4_add]
theorem beta_add_right (x y z : Matrix (Fin nmo) (Fin nmo) K) : beta e x (y + z) = beta e x y + beta e x z := by
  unfold beta; rw [wedge_add_right, dot4_add]
theorem beta_smul_left (c : K) (x y : Matrix (Fin nmo) (Fin nmo) K) : beta e (c • x) y = c * beta e x y := by
  unfold beta; rw [wedge_smul_left, dot4_smul]
theorem beta_smul_right (c : K) (x y : Matrix (Fin nmo) (Fin nmo) K) : beta e x (c • y) = c * beta e x y := by
  unfold beta; rw [wedge_smul_right, dot4_smul]

/-- The potential of a density matrix in the AO basis. -/
theorem veff_ao (x y : Matrix (Fin nmo) (Fin nmo) K) :
    dot2 (e.mo * x * e.mo.transpose) (veff e.eris (e.mo * y * e.mo.transpose)) = beta e x y := by
  rw [dot2_veff, ← transform_wedge, ← dot4_cut]
  rfl

theorem veff_ao' (x y : Matrix (Fin nmo) (Fin nmo) K) :
    dot2 (veff e.eris (e.mo * y * e.mo.transpose)) (e.mo * x * e.mo.transpose) = beta e x y := by
  rw [dot2_comm, veff_ao]

theorem mfDm_eq : e.mfDm = e.mo * meanField nmo e.nocc (2 : K) * e.mo.transpose := by
  unfold Sys.mfDm; rw [addDiag_eq, zero_add]

theorem project2_wedge {n m : Nat} (p : Matrix (Fin n) (Fin n) K) (r : Matrix (Fin m) (Fin n) K) (f : K) (x y : Matrix (Fin n) (Fin n) K) :
    project2 p (wedge f x y) r r = wedge f (r * p * x * r.transpose) (r * y * r.transpose) := by
  have h1 : project2 p (wedge f x y) r r = transform r r (L1 p (wedge f x y)) := by
    rw [project2_L, transform_L]
    exact (chain_project r p (wedge f x y)).symm
  have h2 : L1 p (wedge f x y) = wedge f (p * x) y := by
    funext a b c d
    simp only [L1, wedge, Matrix.mul_apply, Finset.sum_mul, Finset.mul_sum]
    rw [← Finset.sum_sub_distrib]
    exact Finset.sum_congr rfl fun _ _ => by ring
  rw [h1, h2, transform_wedge]
  simp only [Matrix.mul_assoc]

theorem project2_add {n m : Nat} (p : Matrix (Fin n) (Fin n) K) (r : Matrix (Fin m) (Fin n) K) (t u : Ten n n K) :
    project2 p (fun a b c d => t a b c d + u a b c d) r r = fun a b c d => project2 p t r r a b c d + project2 p u r r a b c d := by
  funext a b c d
  simp only [project2, mul_add, add_mul, Finset.sum_add_distrib]
theorem project2_sub {n m : Nat} (p : Matrix (Fin n) (Fin n) K) (r : Matrix (Fin m) (Fin n) K) (t u : Ten n n K) :
    project2 p (fun a b c d => t a b c d - u a b c d) r r = fun a b c d => project2 p t r r a b c d - project2 p u r r a b c d := by
  funext a b c d
  simp only [project2, mul_sub, sub_mul, Finset.sum_sub_distrib]

variable (hb : OrthonormalBasis e.emb) (x : Frag nao K) (hg : GoodCluster e.emb x)
include hb hg

/-- Fragment energy with partitioned cumulant. -/
theorem fragment_part (approx : Int) (u : Ten x.ncl x.ncl K) (hu : x.wf.rdm2 false approx = .ok u) :
    e.fragmentEnergy true approx x = .ok (dot2 (hMo e) (e.emb.moFragMo x * (e.emb.moCluster x * x.wf.rdm1 true * (e.emb.moCluster x).transpose)) +
      dot4 (gMo e) (project2 (e.emb.clusterFragCluster x) u (e.emb.moCluster x) (e.emb.moCluster x)) / 2) := by
  unfold Sys.fragmentEnergy
  simp only [Bool.not_true]
  rw [hu]
  show Except.ok _ = _
  congr 1
  refine (energy_shape _ _ _ _ u).trans ?_
  rw [clusterEris_eq e hb, dot4_project]
  congr 1
  unfold Sys.h1eEff
  rw [if_pos rfl, one_body_cut e hb x hg]
  rfl

/-- The density matrix of a cluster, projected on the fragment, is the correlation part plus the mean field. -/
theorem projected_dm {d : Matrix (Fin x.ncl) (Fin x.ncl) K} {t : Ten x.ncl x.ncl K} (hx : HasRdms x.wf x.nocc d t) :
    e.emb.moFragMo x * (e.emb.moCluster x * x.wf.rdm1 true * (e.emb.moCluster x).transpose) =
      e.emb.moFragMo x * corr e x + e.emb.moFragMo x * meanField nmo e.nocc 2 := by
  have h : x.wf.rdm1 true = x.wf.rdm1 false + meanField x.ncl x.nocc 2 := by rw [hx.rdm1, hx.rdm1_corr, sub_add_cancel]
  rw [h, Matrix.mul_add, Matrix.add_mul, Matrix.mul_add]
  congr 1
  exact meanField_back e.emb x hb hg 2

/-- Fragment energy with the whole density matrix partitioned. -/
theorem fragment_whole [CharZero K] (hs : RealSymmetric e.hcore e.eris) (approx : Int) {d : Matrix (Fin x.ncl) (Fin x.ncl) K} {t : Ten x.ncl x.ncl K}
    (hx : HasRdms x.wf x.nocc d t) (u : Ten x.ncl x.ncl K) (hu : x.wf.rdm2 false 1 = .ok u) :
    e.fragmentEnergy false approx x = .ok (dot2 (hMo e) (e.emb.moFragMo x * corr e x + e.emb.moFragMo x * meanField nmo e.nocc 2) +
      (beta e (e.emb.moFragMo x * corr e x) (meanField nmo e.nocc 2) + beta e (e.emb.moFragMo x * meanField nmo e.nocc 2) (meanField nmo e.nocc 2) +
        beta e (e.emb.moFragMo x * meanField nmo e.nocc 2) (corr e x) +
        dot4 (gMo e) (project2 (e.emb.clusterFragCluster x) u (e.emb.moCluster x) (e.emb.moCluster x))) / 2) := by
  have h2 : (2 : K) ≠ 0 := two_ne_zero
  set P := e.emb.moFragMo x with hP
  set R := e.emb.moCluster x with hR
  set p := e.emb.clusterFragCluster x with hp
  have hpR : R * p = P * R := cluster_projector e.emb x hb hg
  have hpd := projected_dm e hb x hg hx
  rw [← hP, ← hR] at hpd
  have hM : P * (R * meanField x.ncl x.nocc (2 : K) * R.transpose) = P * meanField nmo e.nocc 2 := meanField_back e.emb x hb hg 2
  have hdd : R * x.wf.rdm1 true * R.transpose = corr e x + R * meanField x.ncl x.nocc (2 : K) * R.transpose := by
    have h : x.wf.rdm1 true = x.wf.rdm1 false + meanField x.ncl x.nocc 2 := by rw [hx.rdm1, hx.rdm1_corr, sub_add_cancel]
    rw [h, Matrix.mul_add, Matrix.add_mul]; rfl
  have hRp : ∀ m : Matrix (Fin x.ncl) (Fin x.ncl) K, R * p * m * R.transpose = P * (R * m * R.transpose) := by
    intro m; rw [hpR]; simp only [Matrix.mul_assoc]
  -- the density matrix in terms of the cumulant
  have ht : t = fun a b c f => u a b c f + ((wedge (1 / 2) (meanField x.ncl x.nocc 2) (x.wf.rdm1 true) a b c f +
      wedge (1 / 2) (x.wf.rdm1 true) (meanField x.ncl x.nocc 2) a b c f) - wedge (1 / 2) (meanField x.ncl x.nocc 2) (meanField x.ncl x.nocc 2) a b c f) := by
    have hu' : u = fun a b c f => t a b c f - onePartLinear (1 / 2) d (meanField x.ncl x.nocc 2) a b c f := by
      have := hx.approx
      rw [hu] at this
      exact Except.ok.inj this
    rw [hu', hx.rdm1]
    funext a b c f
    simp only [onePartLinear]
    ring
  have hE2 : dot4 (gMo e) (project2 p t R R) = dot4 (gMo e) (project2 p u R R) + (beta e (P * meanField nmo e.nocc 2) (corr e x) +
      beta e (P * corr e x + P * meanField nmo e.nocc 2) (R * meanField x.ncl x.nocc (2 : K) * R.transpose)) := by
    rw [ht, project2_add, dot4_add, project2_sub, project2_add, dot4_sub, dot4_add, project2_wedge, project2_wedge, project2_wedge, hRp, hRp, hM, hpd, hdd]
    congr 1
    have : dot4 (gMo e) (wedge (1 / 2) (P * meanField nmo e.nocc 2) (corr e x + R * meanField x.ncl x.nocc (2 : K) * R.transpose)) =
      beta e (P * meanField nmo e.nocc 2) (corr e x) + beta e (P * meanField nmo e.nocc 2) (R * meanField x.ncl x.nocc (2 : K) * R.transpose) :=
      beta_add_right e _ _ _
    rw [this]
    unfold beta
    ring
  -- the effective Hamiltonian
  have hsC : RealSymmetric (0 : Matrix (Fin x.ncl) (Fin x.ncl) K) (e.clusterEris x) := by
    have := symmetric_mo (e := (⟨e.ovlp, x.cAct, e.nocc, e.entries, 0, e.eris, e.ncells⟩ : Sys nao x.ncl K)) ⟨transpose_zero, hs.bra, hs.ket, hs.pair⟩
    exact ⟨transpose_zero, this.bra, this.ket, this.pair⟩
  have hE1 : dot2 (e.h1eEff false x) (p * x.wf.rdm1 true) = dot2 (hMo e) (P * corr e x + P * meanField nmo e.nocc 2) +
      (1 / 2) * beta e (P * corr e x + P * meanField nmo e.nocc 2) (meanField nmo e.nocc 2) -
      (1 / 2) * beta e (P * corr e x + P * meanField nmo e.nocc 2) (R * meanField x.ncl x.nocc (2 : K) * R.transpose) := by
    unfold Sys.h1eEff
    rw [if_neg (by simp), dot2_comm, dot2_sub, dot2_comm, one_body_cut e hb x hg, ← hP, ← hR, hpd]
    congr 1
    · rw [Matrix.mul_add, Matrix.add_mul, dot2_comm, dot2_add, dot2_comm]
      congr 1
      rw [Matrix.mul_smul, Matrix.smul_mul, dot2_smul, dot2_comm, dot2_cut, dot2_comm, mfDm_eq, veff_ao]
      ring
    · rw [vAct_eq hsC, dot2_veff, clusterEris_eq e hb, dot4_cut, transform_wedge, ← hR]
      have : R * (p * x.wf.rdm1 true) * R.transpose = P * corr e x + P * meanField nmo e.nocc 2 := by rw [← hpd, ← hRp]; simp only [Matrix.mul_assoc]
      rw [this, meanField_scale x.ncl x.nocc 2, Matrix.mul_smul, Matrix.smul_mul, beta_smul_right]
      unfold beta
      field_simp
  unfold Sys.fragmentEnergy
  simp only [Bool.not_false]
  rw [hx.rdm2]
  show Except.ok _ = _
  congr 1
  refine (energy_shape _ _ _ _ t).trans ?_
  rw [hE1, clusterEris_eq e hb, dot4_project, ← hR, hE2]
  rw [beta_add_left e (P * corr e x) _ (meanField nmo e.nocc 2)]
  ring

end

end Vayesta.DmetEnergy
