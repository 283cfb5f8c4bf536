import Verif.Lemmas.DmetEnergy3
import Verif.Props.DemoRdm

/-! C30: projected (DMET) energies. -/

namespace Vayesta.Props
open Vayesta Vayesta.Rdm Vayesta.DemoRdm Vayesta.DmetEnergy Matrix

variable {K : Type} [Field K] {nao nmo : Nat}

private theorem full_symm [CharZero K] (e : Sys nao nmo K) : rdm1Demo e.emb true true = rdm1Demo e.emb false true + meanField nmo e.nocc 2 := by
  unfold rdm1Demo
  rw [symm_eq, symm_eq]
  have : rdm1Channel 2 e.emb true false = rdm1Channel 2 e.emb false false + meanField nmo e.nocc (2 : K) := by
    show addDiag e.nocc 2 (rdm1Channel 2 e.emb false false) = _
    rw [addDiag_eq]
  rw [this]
  funext p q
  have hm : meanField nmo e.nocc (2 : K) q p = meanField nmo e.nocc 2 p q := congrFun (congrFun (meanField_symm nmo e.nocc 2) p) q
  simp only [symmetrize1, Matrix.add_apply, hm]
  have h2 : (2 : K) ≠ 0 := two_ne_zero
  field_simp
  ring

private theorem rdm2_ao (e : Emb nao nmo K) (w p a s : Bool) {t : Ten nmo nmo K} (h : e.frags.foldlM (fun t x => (contribution2 e w p a x).map fun c => tadd t c) (fun _ _ _ _ => 0) = .ok t) :
    rdm2DemoAo e w p a s = .ok (transform e.mo e.mo (if s then symmetrize2 (if w && p then addNonCumulant e a t else t) else (if w && p then addNonCumulant e a t else t))) := by
  unfold rdm2DemoAo rdm2Demo
  rw [h]
  rfl

private theorem cum_ok {n : Nat} (w : ClusterWf n K) {u : Ten n n K} (h : w.rdm2 false 0 = .ok u) : cumulant w false = w.rdm2 false 0 := by
  simp only [cumulant, h, Bool.false_eq_true, if_false]

private theorem cum_sum (e : Sys nao nmo K) (approx : Bool) (hcum : ∀ x ∈ e.emb.frags, cumulant x.wf approx = x.wf.rdm2 false (if approx then 1 else 0)) :
    (e.emb.frags.map fun x => cumE e (fun x => okTen (x.wf.rdm2 false (if approx then 1 else 0))) x).sum =
      dot4 (gMo e) (tadd (fun _ _ _ _ => 0) (tsum e.emb.frags fun x =>
        project2 (e.emb.clusterFragCluster x) (okTen (cumulant x.wf approx)) (e.emb.moCluster x) (e.emb.moCluster x))) := by
  rw [dot4_tadd, dot4_zero, zero_add, dot4_tsum]
  refine congrArg List.sum (List.map_congr_left fun x hx => ?_)
  unfold cumE
  rw [hcum x hx]

/-- **C30**: the electronic energy equals the energy of the democratically partitioned one- and two-body density matrices with the same
options, per cell. Without partitioning of the cumulant this is the DMET energy of the literature. -/
theorem dmet_energy_of_density_matrices [CharZero K] (e : Sys nao nmo K) (hb : OrthonormalBasis e.emb) (hf : CompleteFragmentation e.emb)
    (hs : RealSymmetric e.hcore e.eris) (hp : Plain e) (hc : Consistent e) (part approx symm symm' : Bool)
    (hex : part = true → approx = false → ∀ x ∈ e.entries, ∃ u, x.frag.wf.rdm2 false 0 = .ok u) :
    ∃ t, rdm2DemoAo e.emb true part approx symm = .ok t ∧
      e.elecEnergy part (if approx then 1 else 0) = .ok (energyOf e.hcore e.eris (rdm1DemoAo e.emb true symm') t / e.ncells) := by
  have h2 : (2 : K) ≠ 0 := two_ne_zero
  have h1 : dot2 e.hcore (rdm1DemoAo e.emb true symm') = dot2 (hMo e) (corrSum e + meanField nmo e.nocc 2) := one_body_demo hb hp hc e.hcore hs.core symm'
  cases part
  · refine ⟨_, rdm2_ao e.emb true false approx symm (demo_whole hb hp hc approx), ?_⟩
    unfold Sys.elecEnergy
    rw [loop_whole hb hp hc hf hs]
    simp only [Bool.false_eq_true, if_false, Bool.and_false]
    congr 2
    refine Eq.trans ?_ (energy_ao _ _).symm
    rw [h1, symm_energy hs, dot4_tadd, dot4_zero, zero_add, dot4_tsum]
    simp only [dot4_tadd]
    rfl
  · have hu : ∀ x ∈ e.entries, ∃ u, x.frag.wf.rdm2 false (if approx then 1 else 0) = .ok u := by
      intro x hx
      cases approx
      · exact hex rfl rfl x hx
      · obtain ⟨-, d, t, -, hr⟩ := hc x hx
        exact ⟨_, hr.approx⟩
    have hcum : ∀ x ∈ e.emb.frags, cumulant x.wf approx = x.wf.rdm2 false (if approx then 1 else 0) := by
      intro x hx
      cases approx
      · rw [plain_emb hp] at hx
        obtain ⟨y, hy, rfl⟩ := List.mem_map.mp hx
        obtain ⟨u, hu⟩ := hu y hy
        exact cum_ok _ hu
      · simp [cumulant]
    refine ⟨_, rdm2_ao e.emb true true approx symm (demo_part hb hp hc true true approx rfl), ?_⟩
    unfold Sys.elecEnergy
    rw [loop_part hb hp hc hf hs _ hu, cum_sum e approx hcum]
    have hdm : rdm1DemoAo e.emb true true = e.mo * rdm1Demo e.emb true true * e.mo.transpose := rfl
    generalize tadd (fun _ _ _ _ => (0 : K)) (tsum e.emb.frags fun x =>
      project2 (e.emb.clusterFragCluster x) (okTen (cumulant x.wf approx)) (e.emb.moCluster x) (e.emb.moCluster x)) = T
    obtain ⟨a1, a2⟩ := addNonCumulant_energy hs T
    cases approx
    · simp only [Bool.false_eq_true, if_false, if_true, Bool.and_true]
      congr 2
      refine Eq.trans ?_ (energy_ao _ _).symm
      rw [h1, symm_energy hs, a2, hdm, veff_ao']
      ring
    · simp only [if_true, Bool.and_true]
      rw [if_neg (by decide : ¬ (1 : Int) = 0)]
      congr 2
      refine Eq.trans ?_ (energy_ao _ _).symm
      rw [h1, symm_energy hs, a1, dot2_sub, dot2_smul, hdm, mfDm_eq, veff_ao', veff_ao', full_symm, beta_add_left]
      ring

private theorem one_body_sum [CharZero K] {e : Sys nao nmo K} (m : Matrix (Fin nao) (Fin nao) K) (hm : m.transpose = m) (symm : Bool) :
    dot2 m (rdm1DemoAo e.emb false symm) = dot2 m (rdm1DemoAo e.emb false false) := by
  cases symm
  · rfl
  · unfold rdm1DemoAo rdm1Demo
    rw [← dot2_cut, ← dot2_cut, symm_eq]
    refine dot2_symmetrize ?_ _
    show (e.mo.transpose * m * e.mo).transpose = e.mo.transpose * m * e.mo
    rw [transpose_mul, transpose_mul, transpose_transpose, hm, Matrix.mul_assoc]

private theorem mf_rdm (e : Sys nao nmo K) (symm : Bool) [CharZero K] : rdm1DemoAo e.emb true symm = rdm1DemoAo e.emb false symm + e.mfDm := by
  rw [mfDm_eq]
  unfold rdm1DemoAo
  show e.mo * _ * e.mo.transpose = e.mo * _ * e.mo.transpose + _
  rw [← Matrix.add_mul, ← Matrix.mul_add]
  congr 2
  cases symm
  · show addDiag e.nocc 2 (rdm1Channel 2 e.emb false false) = rdm1Channel 2 e.emb false false + _
    rw [addDiag_eq]
  · exact full_symm e

/-- **C30**: the documented formulas in terms of the cumulant. With the approximate cumulant the energy is the mean-field energy plus the
correlation parts of the density matrices with Fock matrix and integrals. With the exact one it is half of core Hamiltonian plus correlated
Fock matrix, with the one-body density matrix, plus the cumulant with the integrals. -/
theorem dmet_energy_from_cumulant [CharZero K] (e : Sys nao nmo K) (hb : OrthonormalBasis e.emb) (hf : CompleteFragmentation e.emb)
    (hs : RealSymmetric e.hcore e.eris) (hp : Plain e) (hc : Consistent e) (part symm symm' : Bool) :
    (∃ ddm2, rdm2DemoAo e.emb false part true symm = .ok ddm2 ∧ e.elecEnergy true 1 = .ok
      ((energyOf e.hcore e.eris e.mfDm (onePart (1 / 2) e.mfDm) +
        energyOf (e.hcore + veff e.eris e.mfDm) e.eris (rdm1DemoAo e.emb false symm') ddm2) / e.ncells)) ∧
    ((∀ x ∈ e.entries, ∃ u, x.frag.wf.rdm2 false 0 = .ok u) →
      ∃ ddm2, rdm2DemoAo e.emb false part false symm = .ok ddm2 ∧ e.elecEnergy true 0 = .ok
        (energyOf ((1 / 2 : K) • (e.hcore + (e.hcore + veff e.eris (rdm1DemoAo e.emb true true)))) e.eris (rdm1DemoAo e.emb true true) ddm2 / e.ncells)) := by
  have h2 : (2 : K) ≠ 0 := two_ne_zero
  have hmf : e.mfDm.transpose = e.mfDm := by
    rw [mfDm_eq, transpose_mul, transpose_mul, transpose_transpose, meanField_symm, Matrix.mul_assoc]
  have hE : ∀ (h d : Matrix (Fin nao) (Fin nao) K) (t : Ten nmo nmo K), energyOf h e.eris d (transform e.mo e.mo t) = dot2 h d + dot4 (gMo e) t / 2 := by
    intro h d t
    have : dot4 e.eris (transform e.mo e.mo t) = dot4 (gMo e) t := (dot4_cut e.mo e.mo e.eris t).symm
    rw [← this]
    rfl
  have hdot : ∀ a b c : Matrix (Fin nao) (Fin nao) K, dot2 (a + b) c = dot2 a c + dot2 b c := by
    intro a b c; rw [dot2_comm, dot2_add, dot2_comm c, dot2_comm c]
  have key : ∀ (approx : Bool) (u : K), (∀ x ∈ e.emb.frags, cumulant x.wf approx = x.wf.rdm2 false (if approx then 1 else 0)) →
      ∃ t : Ten nmo nmo K, rdm2DemoAo e.emb false part approx symm = .ok (transform e.mo e.mo t) ∧
        dot4 (gMo e) t = (e.emb.frags.map fun x => cumE e (fun x => okTen (x.wf.rdm2 false (if approx then 1 else 0))) x).sum := by
    intro approx u hcum
    refine ⟨_, rdm2_ao e.emb false part approx symm (demo_part hb hp hc false part approx (by simp)), ?_⟩
    simp only [Bool.false_and, Bool.false_eq_true, if_false]
    rw [symm_energy hs, cum_sum e approx hcum]
  have h1 : dot2 (hMo e) (corrSum e + meanField nmo e.nocc 2) = dot2 e.hcore (rdm1DemoAo e.emb false false) + dot2 e.hcore e.mfDm := by
    have : dot2 e.hcore (rdm1DemoAo e.emb true false) = dot2 (hMo e) (corrSum e + meanField nmo e.nocc 2) := one_body_demo hb hp hc e.hcore hs.core false
    rw [← this, mf_rdm, dot2_add]
  constructor
  · obtain ⟨t, ht, hE2⟩ := key true 0 (fun x _ => by simp [cumulant])
    refine ⟨_, ht, ?_⟩
    have hu : ∀ x ∈ e.entries, ∃ u, x.frag.wf.rdm2 false 1 = .ok u := by
      intro x hx
      obtain ⟨-, d, t, -, hr⟩ := hc x hx
      exact ⟨_, hr.approx⟩
    unfold Sys.elecEnergy
    rw [loop_part hb hp hc hf hs _ hu]
    simp only [if_true]
    rw [if_neg (by decide : ¬ (1 : Int) = 0)]
    congr 2
    rw [hE, hE2, hdot, one_body_sum _ hs.core, one_body_sum _ (veff_symm hs _ hmf), h1]
    have hv : dot2 (veff e.eris e.mfDm) (rdm1DemoAo e.emb true true) =
        dot2 (veff e.eris e.mfDm) (rdm1DemoAo e.emb false false) + dot2 (veff e.eris e.mfDm) e.mfDm := by
      rw [mf_rdm, dot2_add, one_body_sum _ (veff_symm hs _ hmf)]
    have hmfE : energyOf e.hcore e.eris e.mfDm (onePart (1 / 2) e.mfDm) = dot2 e.hcore e.mfDm + dot2 (veff e.eris e.mfDm) e.mfDm / 2 := by
      rw [dot2_comm (veff e.eris e.mfDm), dot2_veff]
      rfl
    rw [hmfE, dot2_sub, dot2_smul, hv]
    simp only [if_true]
    field_simp
    ring
  · intro hu
    have hcum : ∀ x ∈ e.emb.frags, cumulant x.wf false = x.wf.rdm2 false (if false then 1 else 0) := by
      intro x hx
      rw [plain_emb hp] at hx
      obtain ⟨y, hy, rfl⟩ := List.mem_map.mp hx
      obtain ⟨u, hu⟩ := hu y hy
      exact cum_ok _ hu
    obtain ⟨t, ht, hE2⟩ := key false 0 hcum
    refine ⟨_, ht, ?_⟩
    unfold Sys.elecEnergy
    rw [loop_part hb hp hc hf hs _ hu]
    simp only [if_true]
    congr 2
    have hsm : ∀ (c : K) (a b : Matrix (Fin nao) (Fin nao) K), dot2 (c • a) b = c * dot2 a b := by
      intro c a b; rw [dot2_comm, dot2_smul, dot2_comm]
    rw [hE, hE2, hsm, hdot, hdot, h1]
    have : dot2 e.hcore (rdm1DemoAo e.emb true true) = dot2 e.hcore (rdm1DemoAo e.emb false false) + dot2 e.hcore e.mfDm := by
      rw [mf_rdm, dot2_add, one_body_sum _ hs.core]
    rw [this]
    simp only [Bool.false_eq_true, if_false]
    field_simp
    ring

/-- **C30**: exact clusters that span all orbitals give the exact energy with all options. -/
theorem dmet_energy_exact [CharZero K] (e : Sys nao nmo K) (hb : OrthonormalBasis e.emb) (hf : CompleteFragmentation e.emb)
    (hs : RealSymmetric e.hcore e.eris) (hp : Plain e) (hfull : FullClusters e.emb) (d : Matrix (Fin nmo) (Fin nmo) K) (t : Ten nmo nmo K)
    (hd : d.transpose = d) (ht : ∀ p q r s, t p q r s = t q p s r) (hx : ∀ x ∈ e.entries, GoodCluster e.emb x.frag ∧ ExactCluster e.emb d t x.frag)
    (part approx : Bool) (hex : part = true → approx = false → ∀ x ∈ e.entries, ∃ u, x.frag.wf.rdm2 false 0 = .ok u) :
    e.elecEnergy part (if approx then 1 else 0) =
      .ok (energyOf e.hcore e.eris (e.mo * d * e.mo.transpose) (transform e.mo e.mo t) / e.ncells) := by
  have hcons : Consistent e := by
    intro x hx'
    have hr : ∀ r : Matrix (Fin nmo) (Fin x.frag.ncl) K, (r.transpose * d * r).transpose = r.transpose * d * r := by
      intro r; rw [transpose_mul, transpose_mul, transpose_transpose, hd, Matrix.mul_assoc]
    exact ⟨(hx x hx').1, _, _, hr _, (hx x hx').2⟩
  have hx' : ∀ x ∈ e.emb.frags, GoodCluster e.emb x ∧ ExactCluster e.emb d t x := by
    intro x hxm
    rw [plain_emb hp] at hxm
    obtain ⟨y, hy, rfl⟩ := List.mem_map.mp hxm
    exact hx y hy
  obtain ⟨u, hu, hE⟩ := dmet_energy_of_density_matrices e hb hf hs hp hcons part approx false false hex
  obtain ⟨r2, -, -⟩ := rdm2_demo_exact e.emb hb hf hfull d t hd ht hx' part approx false
  obtain ⟨-, r1, -, -⟩ := rdm1_demo_full e.emb hb hf hfull d t hx'
  rw [hE, r1]
  unfold rdm2DemoAo at hu
  rw [r2] at hu
  rw [← Except.ok.inj hu]
  rfl

private theorem loop_error (e : Sys nao nmo K) (part : Bool) (approx : Int) (er : PyErr) : ∀ (l : List (Entry nao K)) (s : K),
    (∀ x ∈ l, (∃ y, e.fragmentEnergy part approx x.frag = .ok y) ∨ e.fragmentEnergy part approx x.frag = .error er) →
    (∃ x ∈ l, e.fragmentEnergy part approx x.frag = .error er) →
    l.foldlM (fun s x => (e.fragmentEnergy part approx x.frag).map fun y => s + x.weight * y) s = .error er
  | [], s, _, h => by obtain ⟨x, hx, -⟩ := h; cases hx
  | x :: l, s, h, h' => by
    rw [List.foldlM_cons]
    rcases h x List.mem_cons_self with ⟨y, hy⟩ | hy
    · rw [hy]
      refine loop_error e part approx er l _ (fun z hz => h z (List.mem_cons_of_mem _ hz)) ?_
      obtain ⟨z, hz, hz'⟩ := h'
      rcases List.mem_cons.mp hz with rfl | hz
      · rw [hy] at hz'; cases hz'
      · exact ⟨z, hz, hz'⟩
    · rw [hy]; rfl

/-- **C30**: if the exact cumulant of some cluster is not implemented, the energy with exact cumulants is an error, although the density
matrix with the same options can be made. -/
theorem dmet_energy_missing_cumulant (e : Sys nao nmo K) (hb : OrthonormalBasis e.emb) (hp : Plain e) (hc : Consistent e)
    (hx : ∃ x ∈ e.entries, x.frag.wf.rdm2 false 0 = .error .notImplementedError) (symm : Bool) :
    e.elecEnergy true 0 = .error .notImplementedError ∧ ∃ t, rdm2DemoAo e.emb true true false symm = .ok t := by
  constructor
  · have : e.loopEnergy true 0 = .error .notImplementedError := by
      unfold Sys.loopEnergy
      rw [plain_loop hp]
      refine loop_error e true 0 _ _ _ ?_ ?_
      · intro x hx'
        obtain ⟨-, d, t, -, hr⟩ := hc x hx'
        rcases hr.exact with h | h
        · left; exact ⟨_, by unfold Sys.fragmentEnergy; simp only [Bool.not_true, h]; rfl⟩
        · right; unfold Sys.fragmentEnergy; simp only [Bool.not_true, h]; rfl
      · obtain ⟨x, hx, h⟩ := hx
        exact ⟨x, hx, by unfold Sys.fragmentEnergy; simp only [Bool.not_true, h]; rfl⟩
    unfold Sys.elecEnergy
    rw [this]
  · exact ⟨_, rdm2_ao e.emb true true false symm (demo_part hb hp hc true true false rfl)⟩

/-- **C30**: without partitioning of the cumulant the kind of the cumulant does not matter; other kinds than exact and approximate are
errors if the cumulant is partitioned. -/
theorem dmet_energy_options (e : Sys nao nmo K) (hp : Plain e) (hc : Consistent e) :
    (∀ a b, e.elecEnergy false a = e.elecEnergy false b) ∧ (∀ a, a ≠ 0 → a ≠ 1 → ∃ er, e.elecEnergy true a = .error er) := by
  constructor
  · intro a b
    have : e.loopEnergy false a = e.loopEnergy false b := by
      unfold Sys.loopEnergy
      rw [plain_loop hp]
      have : ∀ (l : List (Entry nao K)) (s : K), (∀ x ∈ l, x ∈ e.entries) →
          l.foldlM (fun s x => (e.fragmentEnergy false a x.frag).map fun y => s + x.weight * y) s =
            l.foldlM (fun s x => (e.fragmentEnergy false b x.frag).map fun y => s + x.weight * y) s := by
        intro l
        induction l with
        | nil => intro s _; rfl
        | cons x l ih =>
          intro s h
          rw [List.foldlM_cons, List.foldlM_cons]
          obtain ⟨-, d, t, -, hr⟩ := hc x (h x List.mem_cons_self)
          have hab : e.fragmentEnergy false a x.frag = e.fragmentEnergy false b x.frag := by
            unfold Sys.fragmentEnergy
            simp only [Bool.not_false, hr.rdm2]
          rw [hab]
          congr 1
          funext y
          exact ih y fun z hz => h z (List.mem_cons_of_mem _ hz)
      exact this _ _ fun _ h => h
    unfold Sys.elecEnergy
    rw [this]
    rfl
  · intro a h0 h1
    unfold Sys.elecEnergy
    cases e.loopEnergy true a with
    | error er => exact ⟨er, rfl⟩
    | ok s => exact ⟨.valueError, by simp only [if_true]; rw [if_neg h0, if_neg h1]⟩

/-- **C30**: the mean-field energies of complete fragments add up to the mean-field energy. -/
theorem fragment_mf_energy_sum [CharZero K] (e : Sys nao nmo K) (hb : OrthonormalBasis e.emb) (hf : CompleteFragmentation e.emb) :
    (e.emb.frags.map e.fragmentMfEnergy).sum = energyOf e.hcore e.eris e.mfDm (onePart (1 / 2) e.mfDm) := by
  have h2 : (2 : K) ≠ 0 := two_ne_zero
  have hocc : ∀ m : Matrix (Fin nmo) (Fin nmo) K, ((occ nmo e.nocc).map fun i => m i i).sum = dot2 (meanField nmo e.nocc 1) m := by
    intro m
    rw [sum_occ_eq e.nocc fun i => m i i]
    unfold dot2
    refine Finset.sum_congr rfl fun r _ => Finset.sum_congr rfl fun s _ => ?_
    by_cases hrs : r = s
    · subst hrs; rw [if_pos rfl, mul_comm]
    · rw [if_neg hrs, zero_mul, meanField, if_neg (fun h => hrs h.1), zero_mul]
  have h : ∀ x, e.fragmentMfEnergy x = dot2 (meanField nmo e.nocc 1) (e.emb.moFragMo x * (e.mo.transpose * ((2 : K) • e.hcore + veff e.eris e.mfDm) * e.mo)) := fun x => hocc _
  rw [List.map_congr_left fun x _ => h x, ← dot2_list, sum_mul_list, sum_moFragMo e.emb hb hf, Matrix.one_mul, dot2_comm, dot2_cut]
  have hm : energyOf e.hcore e.eris e.mfDm (onePart (1 / 2) e.mfDm) = dot2 e.hcore e.mfDm + dot2 (veff e.eris e.mfDm) e.mfDm / 2 := by
    rw [dot2_comm (veff e.eris e.mfDm), dot2_veff]
    rfl
  rw [hm, mfDm_eq, meanField_scale nmo e.nocc 2, Matrix.mul_smul, Matrix.smul_mul]
  rw [dot2_comm, dot2_add, dot2_smul, dot2_smul, dot2_smul, dot2_comm e.hcore, dot2_comm (veff _ _)]
  field_simp

private theorem two_body_swap {n : Nat} (g : Ten n n K) (p : Matrix (Fin n) (Fin n) K) (hp : p.transpose = p) (t : Ten n n K) :
    dot4 g (Tensor.L1 p t) = ∑ a, ∑ t', ∑ q, ∑ r, ∑ s, p a t' * g t' q r s * t a q r s := by
  rw [← two_body, Finset.sum_comm]
  refine Finset.sum_congr rfl fun a _ => Finset.sum_congr rfl fun b _ => Finset.sum_congr rfl fun _ _ => Finset.sum_congr rfl fun _ _ => Finset.sum_congr rfl fun _ _ => ?_
  rw [show p b a = p a b from congrFun (congrFun hp a) b]
  ring

/-- **C30**: the two energy contributions of DMET fragments add up to the fragment energy with the whole density matrix partitioned, if the
Fock matrix is the one of the mean field and the density matrices are those of the wave function. -/
theorem dmet_contributions [CharZero K] (e : Sys nao nmo K) (hb : OrthonormalBasis e.emb) (hs : RealSymmetric e.hcore e.eris) (x : Frag nao K)
    (d : Matrix (Fin x.ncl) (Fin x.ncl) K) (t : Ten x.ncl x.ncl K) (hx : HasRdms x.wf x.nocc d t) (hd : d.transpose = d) (approx : Int) :
    let c := e.dmetContrib (e.hcore + veff e.eris e.mfDm) x d t
    e.fragmentEnergy false approx x = .ok (c.1 + c.2) := by
  have h2 : (2 : K) ≠ 0 := two_ne_zero
  have hsC : RealSymmetric (0 : Matrix (Fin x.ncl) (Fin x.ncl) K) (e.clusterEris x) := by
    have := symmetric_mo (e := (⟨e.ovlp, x.cAct, e.nocc, e.entries, 0, e.eris, e.ncells⟩ : Sys nao x.ncl K)) ⟨transpose_zero, hs.bra, hs.ket, hs.pair⟩
    exact ⟨transpose_zero, this.bra, this.ket, this.pair⟩
  have hmf : e.mfDm.transpose = e.mfDm := by
    rw [mfDm_eq, transpose_mul, transpose_mul, transpose_transpose, meanField_symm, Matrix.mul_assoc]
  have hp : (e.emb.clusterFragCluster x).transpose = e.emb.clusterFragCluster x := by
    rw [clusterFragCluster_eq e.emb x hb, transpose_mul, transpose_mul, transpose_transpose, moFragMo_symm e.emb x hb, Matrix.mul_assoc]
  intro c
  unfold Sys.fragmentEnergy
  simp only [Bool.not_false, hx.rdm2]
  show Except.ok _ = _
  congr 1
  refine (energy_shape _ _ _ _ t).trans ?_
  rw [hx.rdm1]
  congr 1
  · have hv : ∀ a b, 2 * ((occ x.ncl x.nocc).map fun i => e.clusterEris x i i a b).sum - ((occ x.ncl x.nocc).map fun i => e.clusterEris x i b a i).sum =
        ((2 : K) • vAct x.nocc (e.clusterEris x)) a b := by
      intro a b
      simp only [Matrix.smul_apply, smul_eq_mul, vAct]
      field_simp
    let V : Matrix (Fin x.ncl) (Fin x.ncl) K := fun a b => 2 * ((occ x.ncl x.nocc).map fun i => e.clusterEris x i i a b).sum - ((occ x.ncl x.nocc).map fun i => e.clusterEris x i b a i).sum
    have hA : x.cAct.transpose * e.hcore * x.cAct + (x.cAct.transpose * (e.hcore + veff e.eris e.mfDm) * x.cAct - V) =
        (2 : K) • e.h1eEff false x := by
      have hv' : V = (2 : K) • vAct x.nocc (e.clusterEris x) := by funext a b; exact hv a b
      rw [hv']
      unfold Sys.h1eEff
      rw [if_neg (by simp), smul_sub, ← Matrix.smul_mul, ← Matrix.mul_smul, smul_add, smul_smul, mul_inv_cancel₀ h2, one_smul, ← add_sub_assoc,
        ← Matrix.add_mul, ← Matrix.mul_add, two_smul K e.hcore, add_assoc]
    have hsy : (e.h1eEff false x).transpose = e.h1eEff false x := by
      unfold Sys.h1eEff
      rw [if_neg (by simp), transpose_sub, vAct_eq hsC, veff_symm hsC _ (meanField_symm _ _ _)]
      congr 1
      rw [transpose_mul, transpose_mul, transpose_transpose, transpose_add, transpose_smul, hs.core, veff_symm hs _ hmf, Matrix.mul_assoc]
    show _ = Matrix.trace (e.emb.clusterFragCluster x * (x.cAct.transpose * e.hcore * x.cAct + (x.cAct.transpose * (e.hcore + veff e.eris e.mfDm) * x.cAct - V)) * d) / 2
    rw [hA, Matrix.mul_smul, Matrix.smul_mul, trace_smul, smul_eq_mul, mul_div_cancel_left₀ _ h2, dot2_trace, hsy, ← trace_transpose, transpose_mul, transpose_mul,
      hp, hd, hsy, Matrix.mul_assoc, trace_mul_comm]
  · show _ = (∑ a, ∑ t', ∑ q, ∑ r, ∑ s, e.emb.clusterFragCluster x a t' * e.clusterEris x t' q r s * t a q r s) / 2
    congr 1
    have := two_body_swap (e.clusterEris x) (e.emb.clusterFragCluster x) hp t
    exact this

/-- The documented formula for the literature energy in terms of the cumulant (rdm.py:122-126), with the missing factor of one half for the
two-body energy. -/
def documentedLiteratureEnergy (e : Sys nao nmo K) (ddm2 : Ten nao nao K) : K :=
  energyOf e.hcore e.eris (rdm1DemoAo e.emb true true) ddm2 + energyOf (veff e.eris e.mfDm) e.eris ((2 : K) • rdm1DemoAo e.emb true true - e.mfDm) (fun _ _ _ _ => 0) / 2

/-- **C30**: the documented formula for the energy of the literature gives the energy with the partitioned cumulant instead. -/
theorem dmet_energy_documented [CharZero K] (e : Sys nao nmo K) (hb : OrthonormalBasis e.emb) (hf : CompleteFragmentation e.emb)
    (hs : RealSymmetric e.hcore e.eris) (hp : Plain e) (hc : Consistent e) (symm : Bool) :
    ∃ ddm2, rdm2DemoAo e.emb false false true symm = .ok ddm2 ∧ e.elecEnergy true 1 = .ok (documentedLiteratureEnergy e ddm2 / e.ncells) := by
  have h2 : (2 : K) ≠ 0 := two_ne_zero
  obtain ⟨⟨ddm2, h, hE⟩, -⟩ := dmet_energy_from_cumulant e hb hf hs hp hc false symm true
  refine ⟨ddm2, h, ?_⟩
  rw [hE]
  congr 2
  unfold documentedLiteratureEnergy
  have hmf : e.mfDm.transpose = e.mfDm := by
    rw [mfDm_eq, transpose_mul, transpose_mul, transpose_transpose, meanField_symm, Matrix.mul_assoc]
  have hE : ∀ (h d : Matrix (Fin nao) (Fin nao) K) (t : Ten nao nao K), energyOf h e.eris d t = dot2 h d + dot4 e.eris t / 2 := fun _ _ _ => rfl
  have hdot : ∀ a b c : Matrix (Fin nao) (Fin nao) K, dot2 (a + b) c = dot2 a c + dot2 b c := by
    intro a b c; rw [dot2_comm, dot2_add, dot2_comm c, dot2_comm c]
  have hw : dot4 e.eris (onePart (1 / 2) e.mfDm) = dot2 (veff e.eris e.mfDm) e.mfDm := by
    rw [dot2_comm, dot2_veff]; rfl
  rw [hE, hE, hE, hE, hw, mf_rdm, dot4_zero, dot2_sub, dot2_smul, dot2_add, dot2_add, hdot]
  field_simp
  ring

private def column (a b : ℚ) : Matrix (Fin 2) (Fin 1) ℚ := fun i _ => if i = 0 then a else b
private def dimerD : Matrix (Fin 2) (Fin 2) ℚ := !![3 / 2, 3 / 10; 3 / 10, 1 / 2]

private def cutWf (r : Matrix (Fin 2) (Fin n) ℚ) (nocc : Nat) : ClusterWf n ℚ :=
  let dc := r.transpose * dimerD * r
  let tc := transform r.transpose r.transpose (onePart (1 / 2) dimerD)
  ⟨fun b => if b then dc else dc - meanField n nocc 2, fun b a => if b then .ok tc else
    if a = 1 then .ok (fun p q r s => tc p q r s - onePartLinear (1 / 2) dc (meanField n nocc 2) p q r s) else .error .notImplementedError⟩

private def site (n nocc : Nat) (f : Matrix (Fin 2) (Fin 1) ℚ) (c : Matrix (Fin 2) (Fin n) ℚ) (aux : Bool) : Entry 2 ℚ :=
  ⟨⟨1, n, nocc, f, c, cutWf c nocc⟩, true, aux, true, 1⟩

private def dimer (l : List (Entry 2 ℚ)) : Sys 2 2 ℚ := ⟨1, 1, 1, l, !![-1, 1 / 5; 1 / 5, 0], fun p q r s => if p = q ∧ r = s ∧ p ≠ r then 1 else 0, 1⟩

private def dimerCut : Sys 2 2 ℚ := dimer [site 1 1 (column 1 0) (column 1 0) false, site 1 0 (column 0 1) (column 0 1) false]


private theorem dimer_basis (l : List (Entry 2 ℚ)) : OrthonormalBasis (dimer l).emb := by
  refine ⟨?_, ?_, ?_⟩ <;> simp [dimer, Sys.emb]

private theorem dimer_symmetric (l : List (Entry 2 ℚ)) : RealSymmetric (dimer l).hcore (dimer l).eris := by
  refine ⟨?_, ?_, ?_, ?_⟩
  · show (!![-1, 1 / 5; 1 / 5, 0] : Matrix (Fin 2) (Fin 2) ℚ).transpose = !![-1, 1 / 5; 1 / 5, 0]
    funext i j; fin_cases i <;> fin_cases j <;> rfl
  all_goals
    intro p q r s
    show (if _ then (1 : ℚ) else 0) = if _ then (1 : ℚ) else 0
    revert p q r s
    decide

private theorem cutWf_rdms {n : Nat} (r : Matrix (Fin 2) (Fin n) ℚ) (nocc : Nat) : (r.transpose * dimerD * r).transpose = r.transpose * dimerD * r ∧
    HasRdms (cutWf r nocc) nocc (r.transpose * dimerD * r) (transform r.transpose r.transpose (onePart (1 / 2) dimerD)) := by
  refine ⟨?_, rfl, rfl, fun _ => rfl, rfl, .inr rfl⟩
  have hd : dimerD.transpose = dimerD := by funext i j; fin_cases i <;> fin_cases j <;> rfl
  rw [transpose_mul, transpose_mul, transpose_transpose, hd, Matrix.mul_assoc]

private theorem cut_good : Consistent dimerCut := by
  have h1 : ∀ p i, ((1 : Matrix (Fin 2) (Fin 2) ℚ).transpose * (1 : Matrix (Fin 2) (Fin 2) ℚ) * column 1 0 : Matrix (Fin 2) (Fin 1) ℚ) p i ≠ 0 →
    (p.val < 1 ↔ i.val < 1) := by decide +kernel
  have h2 : ∀ p i, ((1 : Matrix (Fin 2) (Fin 2) ℚ).transpose * (1 : Matrix (Fin 2) (Fin 2) ℚ) * column 0 1 : Matrix (Fin 2) (Fin 1) ℚ) p i ≠ 0 →
    (p.val < 1 ↔ i.val < 0) := by decide +kernel
  have g1 : (column 1 0).transpose * (1 : Matrix (Fin 2) (Fin 2) ℚ) * column 1 0 = 1 := by decide +kernel
  have g2 : (column 0 1).transpose * (1 : Matrix (Fin 2) (Fin 2) ℚ) * column 0 1 = 1 := by decide +kernel
  have g3 : column 1 0 * (column 1 0).transpose * 1 * column 1 0 = column 1 0 := by decide +kernel
  have g4 : column 0 1 * (column 0 1).transpose * 1 * column 0 1 = column 0 1 := by decide +kernel
  intro x hx
  rcases List.mem_cons.mp hx with rfl | hx
  · exact ⟨⟨g1, g3, h1⟩, _, _, cutWf_rdms _ _⟩
  · rcases List.mem_cons.mp hx with rfl | hx
    · exact ⟨⟨g2, g4, h2⟩, _, _, cutWf_rdms _ _⟩
    · cases hx

private theorem cut_plain : Plain dimerCut := by
  intro x hx
  rcases List.mem_cons.mp hx with rfl | hx
  · exact ⟨rfl, rfl, rfl, rfl⟩
  · rcases List.mem_cons.mp hx with rfl | hx
    · exact ⟨rfl, rfl, rfl, rfl⟩
    · cases hx

private theorem cut_complete : CompleteFragmentation dimerCut.emb := by
  show ([column 1 0 * (column 1 0).transpose * 1, column 0 1 * (column 0 1).transpose * 1] : List (Matrix (Fin 2) (Fin 2) ℚ)).sum = 1
  decide +kernel

/-- The hypotheses are met by two sites with clusters of one orbital. -/
example : ∃ t, rdm2DemoAo dimerCut.emb true false true true = .ok t ∧ dimerCut.elecEnergy false 1 =
    .ok (energyOf dimerCut.hcore dimerCut.eris (rdm1DemoAo dimerCut.emb true true) t / (1 : Nat)) :=
  dmet_energy_of_density_matrices dimerCut (dimer_basis _) cut_complete (dimer_symmetric _) cut_plain cut_good false true true true (fun h => by cases h)

/-- **C30**: the energy of the literature and the one with the partitioned cumulant are different, so the documented formula of
`dmet_energy_documented` is wrong for the former. -/
theorem dmet_energy_kinds_differ : ∃ e : Sys 2 2 ℚ, OrthonormalBasis e.emb ∧ CompleteFragmentation e.emb ∧ RealSymmetric e.hcore e.eris ∧ Plain e ∧
    Consistent e ∧ e.elecEnergy false 1 = .ok (-1) ∧ e.elecEnergy true 1 = .ok (-1 / 2) := by
  have hopt : ∀ (r : Except PyErr ℚ) (q : ℚ), r.toOption = some q → r = .ok q := by
    intro r q h
    cases r with
    | error e => cases h
    | ok a => exact congrArg Except.ok (Option.some.inj h)
  exact ⟨dimerCut, dimer_basis _, cut_complete, dimer_symmetric _, cut_plain, cut_good, hopt _ _ (by decide +kernel), hopt _ _ (by decide +kernel)⟩

/-- **C30**: an auxiliary fragment does not change the density matrices but it does change the energy, although such fragments are documented
not to contribute to expectation values. Fragments marked auxiliary are thus excluded from the other theorems. -/
theorem dmet_energy_auxiliary_partial : ∃ (e e' : Sys 2 2 ℚ) (x : Entry 2 ℚ), Plain e ∧ Consistent e ∧ x.active = true ∧ x.auxiliary = true ∧
    GoodCluster e.emb x.frag ∧ e' = { e with entries := e.entries ++ [x] } ∧ e'.emb = e.emb ∧ e'.elecEnergy true 1 ≠ e.elecEnergy true 1 := by
  refine ⟨dimerCut, { dimerCut with entries := dimerCut.entries ++ [site 1 1 (column 1 0) (column 1 0) true] }, site 1 1 (column 1 0) (column 1 0) true,
    cut_plain, cut_good, rfl, rfl, (cut_good _ List.mem_cons_self).1, rfl, rfl, ?_⟩
  intro h
  have := congrArg Except.toOption h
  exact absurd this (by decide +kernel)

private def dimerFull : Sys 2 2 ℚ := dimer [site 2 1 (column (3 / 5) (4 / 5)) 1 false, site 2 1 (column (-4 / 5) (3 / 5)) 1 false]

/-- The hypotheses of the exactness theorem are met by two rotated fragments with full clusters; the exact cumulant is missing. -/
example : dimerFull.elecEnergy true 1 = .ok (energyOf dimerFull.hcore dimerFull.eris (1 * dimerD * (1 : Matrix (Fin 2) (Fin 2) ℚ).transpose)
    (transform 1 1 (onePart (1 / 2) dimerD)) / (1 : Nat)) ∧ dimerFull.elecEnergy true 0 = .error .notImplementedError := by
  have hd : dimerD.transpose = dimerD := by funext i j; fin_cases i <;> fin_cases j <;> rfl
  have hds : ∀ p q, dimerD q p = dimerD p q := fun p q => congrFun (congrFun hd p) q
  have hb := dimer_basis [site 2 1 (column (3 / 5) (4 / 5)) 1 false, site 2 1 (column (-4 / 5) (3 / 5)) 1 false]
  have hf : CompleteFragmentation dimerFull.emb := by
    show ([column (3 / 5) (4 / 5) * (column (3 / 5) (4 / 5)).transpose * 1, column (-4 / 5) (3 / 5) * (column (-4 / 5) (3 / 5)).transpose * 1] :
      List (Matrix (Fin 2) (Fin 2) ℚ)).sum = 1
    decide +kernel
  have hp : Plain dimerFull := by
    intro x hx
    rcases List.mem_cons.mp hx with rfl | hx
    · exact ⟨rfl, rfl, rfl, rfl⟩
    · rcases List.mem_cons.mp hx with rfl | hx
      · exact ⟨rfl, rfl, rfl, rfl⟩
      · cases hx
  have hg : ∀ f, GoodCluster dimerFull.emb (site 2 1 f 1 false).frag ∧ ExactCluster dimerFull.emb dimerD (onePart (1 / 2) dimerD) (site 2 1 f 1 false).frag := by
    intro f
    refine ⟨⟨?_, ?_, ?_⟩, ?_⟩
    · exact (by decide +kernel : (1 : Matrix (Fin 2) (Fin 2) ℚ).transpose * (1 : Matrix (Fin 2) (Fin 2) ℚ) * (1 : Matrix (Fin 2) (Fin 2) ℚ) = 1)
    · have h1 : (1 : Matrix (Fin 2) (Fin 2) ℚ) * (1 : Matrix (Fin 2) (Fin 2) ℚ).transpose * 1 = 1 := by decide +kernel
      exact (congrArg (· * f) h1).trans (Matrix.one_mul f)
    · show ∀ p i, ((1 : Matrix (Fin 2) (Fin 2) ℚ).transpose * (1 : Matrix (Fin 2) (Fin 2) ℚ) * 1 : Matrix (Fin 2) (Fin 2) ℚ) p i ≠ 0 → (p.val < 1 ↔ i.val < 1)
      decide +kernel
    · have h1 : (1 : Matrix (Fin 2) (Fin 2) ℚ).transpose * 1 * 1 = 1 := by simp
      show HasRdms (cutWf 1 1) 1 (((1 : Matrix (Fin 2) (Fin 2) ℚ).transpose * 1 * 1).transpose * dimerD * ((1 : Matrix (Fin 2) (Fin 2) ℚ).transpose * 1 * 1))
        (transform ((1 : Matrix (Fin 2) (Fin 2) ℚ).transpose * 1 * 1).transpose ((1 : Matrix (Fin 2) (Fin 2) ℚ).transpose * 1 * 1).transpose (onePart (1 / 2) dimerD))
      rw [h1]
      exact (cutWf_rdms 1 1).2
  have hx : ∀ x ∈ dimerFull.entries, GoodCluster dimerFull.emb x.frag ∧ ExactCluster dimerFull.emb dimerD (onePart (1 / 2) dimerD) x.frag := by
    intro x hx
    rcases List.mem_cons.mp hx with rfl | hx
    · exact hg _
    · rcases List.mem_cons.mp hx with rfl | hx
      · exact hg _
      · cases hx
  constructor
  · refine dmet_energy_exact dimerFull hb hf (dimer_symmetric _) hp ?_ dimerD _ hd ?_ hx true true (fun _ h => by cases h)
    · intro x hx
      rcases List.mem_cons.mp hx with rfl | hx
      · show (1 : Matrix (Fin 2) (Fin 2) ℚ) * (1 : Matrix (Fin 2) (Fin 2) ℚ).transpose * 1 = 1; simp
      · rcases List.mem_cons.mp hx with rfl | hx
        · show (1 : Matrix (Fin 2) (Fin 2) ℚ) * (1 : Matrix (Fin 2) (Fin 2) ℚ).transpose * 1 = 1; simp
        · cases hx
    · intro p q r s
      simp only [onePart, wedge, hds p q, hds r s]
      ring
  · refine (dmet_energy_missing_cumulant dimerFull hb hp ?_ ⟨_, List.mem_cons_self, rfl⟩ true).1
    intro x hx'
    rcases List.mem_cons.mp hx' with rfl | hx'
    · exact ⟨(hg _).1, _, _, cutWf_rdms _ _⟩
    · rcases List.mem_cons.mp hx' with rfl | hx'
      · exact ⟨(hg _).1, _, _, cutWf_rdms _ _⟩
      · cases hx'

end Vayesta.Props
