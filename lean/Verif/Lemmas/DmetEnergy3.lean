import Verif.Lemmas.DmetEnergy2

/-! Sums over fragments of energies and of density matrices. -/

namespace Vayesta.DmetEnergy
open Vayesta Vayesta.Rdm Vayesta.DemoRdm Vayesta.Tensor Matrix

variable {K : Type} [Field K] {nao nmo : Nat}

theorem dot2_list {ι : Type} {n m : Nat} (a : Matrix (Fin n) (Fin m) K) (f : ι → Matrix (Fin n) (Fin m) K) (l : List ι) :
    dot2 a (l.map f).sum = (l.map fun x => dot2 a (f x)).sum := by
  induction l with
  | nil => simp [dot2]
  | cons x l ih => rw [List.map_cons, List.sum_cons, dot2_add, ih, List.map_cons, List.sum_cons]

theorem dot4_zero {a b : Nat} (g : Ten a b K) : dot4 g (fun _ _ _ _ => 0) = 0 := by simp [dot4]

theorem dot4_tsum {ι : Type} {a b : Nat} (g : Ten a b K) (f : ι → Ten a b K) (l : List ι) :
    dot4 g (tsum l f) = (l.map fun x => dot4 g (f x)).sum := by
  induction l with
  | nil => exact dot4_zero g
  | cons x l ih =>
    have : tsum (x :: l) f = fun p q r s => f x p q r s + tsum l f p q r s := by
      funext p q r s; simp [tsum]
    rw [this, dot4_add, ih, List.map_cons, List.sum_cons]

theorem dot4_tadd {a b : Nat} (g t u : Ten a b K) : dot4 g (tadd t u) = dot4 g t + dot4 g u := dot4_add g t u

theorem sum_add_list {ι M : Type} [AddCommMonoid M] (f g : ι → M) (l : List ι) : (l.map fun x => f x + g x).sum = (l.map f).sum + (l.map g).sum := by
  induction l with
  | nil => simp
  | cons x l ih => simp only [List.map_cons, List.sum_cons, ih]; exact add_add_add_comm _ _ _ _

theorem sum_div_list {ι : Type} (f : ι → K) (c : K) (l : List ι) : (l.map fun x => f x / c).sum = (l.map f).sum / c := by
  induction l with
  | nil => simp
  | cons x l ih => simp only [List.map_cons, List.sum_cons, ih, add_div]

section
variable {e : Sys nao nmo K}

theorem plain_emb (hp : Plain e) : e.emb.frags = e.entries.map Entry.frag := by
  show (e.entries.filter fun x => x.active && !x.auxiliary).map Entry.frag = _
  rw [List.filter_eq_self.mpr]
  intro x hx
  rw [(hp x hx).1, (hp x hx).2.1]
  rfl

theorem plain_loop (hp : Plain e) : (e.entries.filter fun x => x.active && x.root) = e.entries := by
  rw [List.filter_eq_self]
  intro x hx
  rw [(hp x hx).1, (hp x hx).2.2.1]
  rfl

theorem loop_value (part : Bool) (approx : Int) (F : Frag nao K → K) : ∀ (l : List (Entry nao K)) (s : K),
    (∀ x ∈ l, x.weight = 1 ∧ e.fragmentEnergy part approx x.frag = .ok (F x.frag)) →
    l.foldlM (fun s x => (e.fragmentEnergy part approx x.frag).map fun y => s + x.weight * y) s = .ok (s + ((l.map Entry.frag).map F).sum)
  | [], s, _ => by show Except.ok s = _; simp
  | x :: l, s, h => by
    rw [List.foldlM_cons, (h x List.mem_cons_self).2, (h x List.mem_cons_self).1]
    show l.foldlM _ (s + 1 * F x.frag) = _
    rw [loop_value part approx F l _ fun y hy => h y (List.mem_cons_of_mem _ hy)]
    congr 1
    rw [List.map_cons, List.map_cons, List.sum_cons]
    ring

theorem loop_plain (hp : Plain e) (part : Bool) (approx : Int) (F : Frag nao K → K)
    (h : ∀ x ∈ e.entries, e.fragmentEnergy part approx x.frag = .ok (F x.frag)) :
    e.loopEnergy part approx = .ok (e.emb.frags.map F).sum := by
  unfold Sys.loopEnergy
  rw [plain_loop hp, plain_emb hp, loop_value part approx F _ 0 fun x hx => ⟨(hp x hx).2.2.2, h x hx⟩, zero_add]

theorem consistent_mem (hp : Plain e) (hc : Consistent e) {x : Frag nao K} (hx : x ∈ e.emb.frags) : GoodCluster e.emb x ∧
    ∃ (d : Matrix (Fin x.ncl) (Fin x.ncl) K) (t : Ten x.ncl x.ncl K), d.transpose = d ∧ HasRdms x.wf x.nocc d t := by
  rw [plain_emb hp] at hx
  obtain ⟨y, hy, rfl⟩ := List.mem_map.mp hx
  exact hc y hy

/-- Sum over the fragments of the correlation part of the one-body density matrix. -/
def corrSum (e : Sys nao nmo K) : Matrix (Fin nmo) (Fin nmo) K := (e.emb.frags.map fun x => e.emb.moFragMo x * corr e x).sum

variable (hb : OrthonormalBasis e.emb) (hp : Plain e) (hc : Consistent e)
include hb hp hc

theorem rdm1_corr : rdm1Channel 2 e.emb false false = corrSum e := by
  show e.emb.frags.foldl _ 0 = _
  rw [foldl_add, zero_add]
  unfold corrSum
  congr 1
  refine List.map_congr_left fun x hx => ?_
  rw [project1_eq, cluster_projector e.emb x hb (consistent_mem hp hc hx).1]
  simp only [corr, Matrix.mul_assoc]

theorem rdm1_full : rdm1Channel 2 e.emb true false = corrSum e + meanField nmo e.nocc 2 := by
  have := rdm1_corr hb hp hc
  show addDiag e.nocc 2 (rdm1Channel 2 e.emb false false) = _
  rw [addDiag_eq, this]

variable (hf : CompleteFragmentation e.emb)
include hf

theorem sum_projected (hs : RealSymmetric e.hcore e.eris) (m : Matrix (Fin nmo) (Fin nmo) K) :
    (e.emb.frags.map fun x => dot2 m (e.emb.moFragMo x * corr e x + e.emb.moFragMo x * meanField nmo e.nocc 2)).sum =
      dot2 m (corrSum e + meanField nmo e.nocc 2) := by
  rw [← dot2_list, sum_add_list, sum_mul_list, sum_moFragMo e.emb hb hf, Matrix.one_mul]
  rfl

end

theorem dot2_symmetrize [CharZero K] {n : Nat} {h : Matrix (Fin n) (Fin n) K} (hs : h.transpose = h) (d : Matrix (Fin n) (Fin n) K) :
    dot2 h (symmetrize1 d) = dot2 h d := by
  have h2 : (2 : K) ≠ 0 := two_ne_zero
  have : symmetrize1 d = (1 / 2 : K) • (d + d.transpose) := by
    funext p q; simp only [symmetrize1, Matrix.smul_apply, Matrix.add_apply, transpose_apply, smul_eq_mul]; ring
  rw [this, dot2_smul, dot2_add]
  have ht : dot2 h d.transpose = dot2 h d := by
    conv_lhs => rw [← hs]
    exact dot2_transpose h d
  rw [ht]
  field_simp
  ring

/-- One-body energy of the partitioned density matrix, symmetrised or not. -/
theorem one_body_demo [CharZero K] {e : Sys nao nmo K} (hb : OrthonormalBasis e.emb) (hp : Plain e) (hc : Consistent e)
    (m : Matrix (Fin nao) (Fin nao) K) (hm : m.transpose = m) (symm : Bool) :
    dot2 m (rdm1DemoAo e.emb true symm) = dot2 (e.mo.transpose * m * e.mo) (corrSum e + meanField nmo e.nocc 2) := by
  unfold rdm1DemoAo rdm1Demo
  show dot2 m (e.mo * _ * e.mo.transpose) = _
  rw [← dot2_cut]
  have hm' : (e.mo.transpose * m * e.mo).transpose = e.mo.transpose * m * e.mo := by
    rw [transpose_mul, transpose_mul, transpose_transpose, hm, Matrix.mul_assoc]
  cases symm
  · rw [rdm1_full hb hp hc]
  · rw [symm_eq, dot2_symmetrize hm', rdm1_full hb hp hc]

section
variable {n : Nat} {h : Matrix (Fin n) (Fin n) K} {g : Ten n n K} (hs : RealSymmetric h g)
include hs

theorem veff_symm (d : Matrix (Fin n) (Fin n) K) (hd : d.transpose = d) : (veff g d).transpose = veff g d := by
  funext p q
  rw [transpose_apply]
  unfold veff
  congr 1
  · exact Finset.sum_congr rfl fun r _ => Finset.sum_congr rfl fun s _ => by rw [hs.bra]
  · congr 1
    rw [Finset.sum_comm]
    refine Finset.sum_congr rfl fun r _ => Finset.sum_congr rfl fun s _ => ?_
    rw [show d s r = d r s from congrFun (congrFun hd r) s, hs.pair, hs.bra, hs.ket]

end

section
variable [CharZero K] {e : Sys nao nmo K} (hb : OrthonormalBasis e.emb) (hs : RealSymmetric e.hcore e.eris)
include hb hs

/-- The energy of what a fragment adds to the two-body density matrix when the whole density matrix is partitioned. -/
theorem nonCumulant_energy (x : Frag nao K) (hx : (x.wf.rdm1 false).transpose = x.wf.rdm1 false) :
    dot4 (gMo e) (nonCumulantPart e.emb x) = beta e (e.emb.moFragMo x * corr e x) (meanField nmo e.nocc 2) +
      beta e (e.emb.moFragMo x * meanField nmo e.nocc 2) (meanField nmo e.nocc 2) + beta e (e.emb.moFragMo x * meanField nmo e.nocc 2) (corr e x) := by
  have h2 : (2 : K) ≠ 0 := two_ne_zero
  have hh : addDiag e.nocc 1 (e.emb.moCluster x * x.wf.rdm1 false * (e.emb.moCluster x).transpose) = corr e x + meanField nmo e.nocc 1 := addDiag_eq ..
  have hsym : (corr e x + meanField nmo e.nocc 1).transpose = corr e x + meanField nmo e.nocc (1 : K) := by
    rw [transpose_add, meanField_symm]
    congr 1
    unfold corr
    rw [transpose_mul, transpose_mul, transpose_transpose, hx, Matrix.mul_assoc]
  rw [nonCumulantPart_eq e.emb x hb _ hh]
  have hw : (fun p q r s => 2 * outer (meanField nmo e.emb.nocc 1 * e.emb.moFragMo x) (corr e x + meanField nmo e.nocc 1) p q r s -
        outerX (meanField nmo e.emb.nocc 1 * e.emb.moFragMo x) (corr e x + meanField nmo e.nocc 1) p q r s +
      (2 * outer (e.emb.moFragMo x * (corr e x + meanField nmo e.nocc 1)) (meanField nmo e.emb.nocc 1) p q r s -
        outerX (e.emb.moFragMo x * (corr e x + meanField nmo e.nocc 1)) (meanField nmo e.emb.nocc 1) p q r s)) =
      fun p q r s => wedge (1 / 2) ((2 : K) • (e.emb.moFragMo x * meanField nmo e.nocc 1).transpose) (corr e x + meanField nmo e.nocc 1) p q r s +
        wedge (1 / 2) (e.emb.moFragMo x * (corr e x + meanField nmo e.nocc 1)) ((2 : K) • meanField nmo e.nocc (1 : K)) p q r s := by
    funext p q r s
    rw [transpose_mul, moFragMo_symm e.emb x hb, meanField_symm]
    show 2 * outer (meanField nmo e.nocc 1 * e.emb.moFragMo x) _ p q r s - outerX (meanField nmo e.nocc 1 * e.emb.moFragMo x) _ p q r s +
      (2 * outer _ (meanField nmo e.nocc 1) p q r s - outerX _ (meanField nmo e.nocc 1) p q r s) = _
    simp only [outer, outerX, wedge, Matrix.smul_apply, smul_eq_mul]
    field_simp
  rw [hw, dot4_add]
  have e1 : dot4 (gMo e) (wedge (1 / 2) ((2 : K) • (e.emb.moFragMo x * meanField nmo e.nocc 1).transpose) (corr e x + meanField nmo e.nocc 1)) =
      2 * beta e (e.emb.moFragMo x * meanField nmo e.nocc 1) (corr e x + meanField nmo e.nocc 1) := by
    rw [wedge_smul_left, dot4_smul, wedge_transpose (symmetric_mo hs) _ _ hsym]; rfl
  have e2 : dot4 (gMo e) (wedge (1 / 2) (e.emb.moFragMo x * (corr e x + meanField nmo e.nocc 1)) ((2 : K) • meanField nmo e.nocc (1 : K))) =
      2 * beta e (e.emb.moFragMo x * (corr e x + meanField nmo e.nocc 1)) (meanField nmo e.nocc 1) := by
    rw [wedge_smul_right, dot4_smul]; rfl
  rw [e1, e2, Matrix.mul_add, beta_add_left, beta_add_right, meanField_scale nmo e.nocc 2, Matrix.mul_smul]
  simp only [beta_smul_left, beta_smul_right]
  ring

end

section
variable {e : Sys nao nmo K}

theorem good_frag (hp : Plain e) (hc : Consistent e) {x : Entry nao K} (hx : x ∈ e.entries) : GoodCluster e.emb x.frag := (hc x hx).1

/-- The energies of the cumulant contributions. -/
def cumE (e : Sys nao nmo K) (u : (x : Frag nao K) → Ten x.ncl x.ncl K) (x : Frag nao K) : K :=
  dot4 (gMo e) (project2 (e.emb.clusterFragCluster x) (u x) (e.emb.moCluster x) (e.emb.moCluster x))

/-- Tensor of a result, zero for errors. -/
def okTen {n : Nat} (r : Except PyErr (Ten n n K)) : Ten n n K := match r with
  | .ok t => t
  | .error _ => fun _ _ _ _ => 0

theorem okTen_ok {n : Nat} {r : Except PyErr (Ten n n K)} {t : Ten n n K} (h : r = .ok t) : r = .ok (okTen r) := by subst h; rfl

variable (hb : OrthonormalBasis e.emb) (hp : Plain e) (hc : Consistent e) (hf : CompleteFragmentation e.emb) (hs : RealSymmetric e.hcore e.eris)
include hb hp hc hf hs

/-- The sum of fragment energies with the whole density matrix partitioned. -/
theorem loop_whole [CharZero K] (approx : Int) : e.loopEnergy false approx = .ok (dot2 (hMo e) (corrSum e + meanField nmo e.nocc 2) +
    (e.emb.frags.map fun x => dot4 (gMo e) (nonCumulantPart e.emb x) + cumE e (fun x => okTen (x.wf.rdm2 false 1)) x).sum / 2) := by
  rw [loop_plain hp false approx (fun x => dot2 (hMo e) (e.emb.moFragMo x * corr e x + e.emb.moFragMo x * meanField nmo e.nocc 2) +
    (dot4 (gMo e) (nonCumulantPart e.emb x) + cumE e (fun x => okTen (x.wf.rdm2 false 1)) x) / 2)]
  · rw [sum_add_list, sum_projected hb hp hc hf hs, sum_div_list]
  · intro x hx
    obtain ⟨hg, d, t, hd, hr⟩ := hc x hx
    rw [fragment_whole e hb x.frag hg hs approx hr _ (okTen_ok hr.approx), nonCumulant_energy hb hs x.frag]
    · rfl
    · rw [hr.rdm1_corr, transpose_sub, hd, meanField_symm]

/-- The sum of fragment energies with the cumulant partitioned. -/
theorem loop_part (approx : Int) (hu : ∀ x ∈ e.entries, ∃ u, x.frag.wf.rdm2 false approx = .ok u) :
    e.loopEnergy true approx = .ok (dot2 (hMo e) (corrSum e + meanField nmo e.nocc 2) +
    (e.emb.frags.map fun x => cumE e (fun x => okTen (x.wf.rdm2 false approx)) x).sum / 2) := by
  rw [loop_plain hp true approx (fun x => dot2 (hMo e) (e.emb.moFragMo x * corr e x + e.emb.moFragMo x * meanField nmo e.nocc 2) +
    cumE e (fun x => okTen (x.wf.rdm2 false approx)) x / 2)]
  · rw [sum_add_list, sum_projected hb hp hc hf hs, sum_div_list]
  · intro x hx
    obtain ⟨hg, d, t, hd, hr⟩ := hc x hx
    obtain ⟨u, hu⟩ := hu x hx
    rw [fragment_part e hb x.frag hg approx _ (okTen_ok hu), projected_dm e hb x.frag hg hr]
    rfl

omit hf hs in
/-- The sum of the fragment contributions to the two-body density matrix. -/
theorem demo_whole (approx : Bool) : e.emb.frags.foldlM (fun t x => (contribution2 e.emb true false approx x).map fun c => tadd t c) (fun _ _ _ _ => 0) =
    .ok (tadd (fun _ _ _ _ => 0) (tsum e.emb.frags fun x => tadd (nonCumulantPart e.emb x)
      (project2 (e.emb.clusterFragCluster x) (okTen (x.wf.rdm2 false 1)) (e.emb.moCluster x) (e.emb.moCluster x)))) := by
  refine foldlM_ok _ _ _ _ fun x hx => ?_
  obtain ⟨-, d, t, -, hr⟩ := consistent_mem hp hc hx
  unfold contribution2
  simp only [Bool.not_true, Bool.or_self, Bool.false_eq_true, if_false]
  rw [okTen_ok hr.approx]
  rfl

omit hf hs in
theorem demo_part (withDm1 part approx : Bool) (h : (part || !withDm1) = true) :
    e.emb.frags.foldlM (fun t x => (contribution2 e.emb withDm1 part approx x).map fun c => tadd t c) (fun _ _ _ _ => 0) =
    .ok (tadd (fun _ _ _ _ => 0) (tsum e.emb.frags fun x =>
      project2 (e.emb.clusterFragCluster x) (okTen (cumulant x.wf approx)) (e.emb.moCluster x) (e.emb.moCluster x))) := by
  refine foldlM_ok _ _ _ _ fun x hx => ?_
  obtain ⟨-, d, t, -, hr⟩ := consistent_mem hp hc hx
  unfold contribution2
  rw [if_pos h, okTen_ok (cumulant_value hr approx)]
  rfl

end

section
variable {e : Sys nao nmo K}

theorem symm_energy [CharZero K] (hs : RealSymmetric e.hcore e.eris) (symm : Bool) (t : Ten nmo nmo K) :
    dot4 (gMo e) (if symm then symmetrize2 t else t) = dot4 (gMo e) t := by
  cases symm
  · rfl
  · exact dot4_symmetrize (symmetric_mo hs) t

theorem energy_ao (d : Matrix (Fin nao) (Fin nao) K) (t : Ten nmo nmo K) :
    energyOf e.hcore e.eris d (transform e.mo e.mo t) = dot2 e.hcore d + dot4 (gMo e) t / 2 := by
  have : dot4 e.eris (transform e.mo e.mo t) = dot4 (gMo e) t := (dot4_cut e.mo e.mo e.eris t).symm
  rw [← this]
  rfl

theorem four_wedge [CharZero K] {n : Nat} (nocc : Nat) (d : Matrix (Fin n) (Fin n) K) (t : Ten n n K) :
    (occ n nocc).foldl (fun t i => addIxxI i (-d) (addXiiX i (-d) (addXXii i ((2 : K) • d) (addIIxx i ((2 : K) • d) t)))) t =
      fun p q r s => t p q r s + (wedge (1 / 2) d ((2 : K) • meanField n nocc (1 : K)) p q r s + wedge (1 / 2) ((2 : K) • meanField n nocc (1 : K)) d p q r s) := by
  have h2 : (2 : K) ≠ 0 := two_ne_zero
  rw [foldl_four]
  funext p q r s
  simp only [wedge, Matrix.neg_apply, Matrix.smul_apply, smul_eq_mul]
  field_simp
  ring

/-- Energy of the non-cumulant part added after the loop. -/
theorem addNonCumulant_energy [CharZero K] (hs : RealSymmetric e.hcore e.eris) (t : Ten nmo nmo K) :
    dot4 (gMo e) (addNonCumulant e.emb true t) = dot4 (gMo e) t + (2 * beta e (rdm1Demo e.emb false true) (meanField nmo e.nocc 2) +
      beta e (meanField nmo e.nocc 2) (meanField nmo e.nocc 2)) ∧
    dot4 (gMo e) (addNonCumulant e.emb false t) = dot4 (gMo e) t + beta e (rdm1Demo e.emb true true) (rdm1Demo e.emb true true) := by
  have h2 : (2 : K) ≠ 0 := two_ne_zero
  constructor
  · have hd : addDiag e.nocc 1 (rdm1Demo e.emb false true) = rdm1Demo e.emb false true + meanField nmo e.nocc 1 := addDiag_eq ..
    have : addNonCumulant e.emb true t = fun p q r s => t p q r s +
        (wedge (1 / 2) (rdm1Demo e.emb false true + meanField nmo e.nocc 1) ((2 : K) • meanField nmo e.nocc (1 : K)) p q r s +
         wedge (1 / 2) ((2 : K) • meanField nmo e.nocc (1 : K)) (rdm1Demo e.emb false true + meanField nmo e.nocc 1) p q r s) := by
      have h4 := four_wedge e.nocc (rdm1Demo e.emb false true + meanField nmo e.nocc 1) t
      rw [← hd] at h4
      exact h4.trans (by rw [hd])
    rw [this, dot4_add, dot4_add, wedge_comm (symmetric_mo hs) ((2 : K) • meanField nmo e.nocc (1 : K))]
    have : dot4 (gMo e) (wedge (1 / 2) (rdm1Demo e.emb false true + meanField nmo e.nocc 1) ((2 : K) • meanField nmo e.nocc (1 : K))) =
      beta e (rdm1Demo e.emb false true + meanField nmo e.nocc 1) ((2 : K) • meanField nmo e.nocc (1 : K)) := rfl
    rw [this, beta_add_left, meanField_scale nmo e.nocc 2]
    simp only [beta_smul_left, beta_smul_right]
    ring
  · have : addNonCumulant e.emb false t = fun p q r s => t p q r s + wedge (1 / 2) (rdm1Demo e.emb true true) (rdm1Demo e.emb true true) p q r s := by
      funext p q r s
      simp only [addNonCumulant, Bool.false_eq_true, if_false, tadd, outer, outerX, wedge]
      ring
    rw [this, dot4_add]
    rfl

end

end Vayesta.DmetEnergy
