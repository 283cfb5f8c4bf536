import Verif.Lemmas.CcsdTCluster
import Verif.Props.GlobalAmplitudes
import Verif.Lemmas.EwfRdmTrace

/-! C85: perturbative triples energies. -/

set_option linter.unusedSectionVars false

namespace Vayesta.Props
open Vayesta.Amplitudes Vayesta.Tensor Vayesta.CcsdT

variable {K : Type} [Field K] {ι o v : Type} [Fintype ι] [Fintype o] [Fintype v]

private theorem no_virtuals [LinearOrder v] (h : Ham o v K) (q : o → o → K) (p : Target) (hv : Fintype.card v = 0) : h.energy q p = 0 := by
  haveI := Fintype.card_eq_zero_iff.mp hv
  unfold Ham.energy
  simp

private theorem rccsdT_projected [CharZero K] [LinearOrder v] (h : Ham o v K) {project : String} (hpr : project = "w" ∨ project = "z") :
    ∃ p : Target, ∀ q, h.rccsdT q project false = .ok (h.projected q p) := by
  rcases hpr with rfl | rfl
  · refine ⟨.w, fun q => ?_⟩
    unfold Ham.rccsdT
    rw [← energy_projected]
    split_ifs <;> simp_all
  · refine ⟨.z, fun q => ?_⟩
    unfold Ham.rccsdT
    rw [← energy_projected]
    split_ifs with h1 h2 <;> simp_all [no_virtuals]

private theorem delta_of {n : Type} [DecidableEq n] (f : n → n → K) (h : ∀ i j, (i = j → f i j = 1) ∧ (i ≠ j → f i j = 0)) : f = delta := by
  funext i j
  unfold delta
  split_ifs with e
  · exact (h i j).1 e
  · exact (h i j).2 e

/-- C85 (formula). For any cluster with real integrals and symmetric amplitudes, and any projectors that add up to the identity of its occupied space, the energies
of the two projections add up to the closed-shell expression for the perturbative triples. -/
theorem ccsd_t_partition [CharZero K] [LinearOrder v] (h : Ham o v K) (hr : h.Real) (l : List (o → o → K))
    (hp : ∀ i j, (i = j → (l.map fun q => q i j).sum = 1) ∧ (i ≠ j → (l.map fun q => q i j).sum = 0)) (project : String)
    (hpr : project = "w" ∨ project = "z") :
    EwfRdm.accumulate (fun q => h.rccsdT q project false) l = .ok h.triplesEnergy := by
  classical
  obtain ⟨p, e⟩ := rccsdT_projected h hpr
  rw [EwfRdm.accumulate_ok _ (fun q => h.projected q p) l fun q _ => e q]
  have := projected_list h p l (fun _ => 1) fun q => q
  simp only [one_mul] at this
  rw [this, delta_of _ hp, projected_delta h hr]

/-- C85 (rotations). The energy of a fragment does not change if canonical orbitals are chosen differently: orbitals of equal energy may be mixed, all may be
reordered or change sign. -/
theorem ccsd_t_rotation [CharZero K] [DecidableEq o] [LinearOrder v] {o' v' : Type} [Fintype o'] [Fintype v'] [LinearOrder v'] (h : Ham o v K) (h' : Ham o' v' K)
    (ro : o → o' → K) (rv : v → v' → K) (H : Rotated h h' ro rv) (ho : mm ro (tp ro) = delta) (hv : mm rv (tp rv) = delta) (q : o → o → K)
    (project : String) (hpr : project = "w" ∨ project = "z") :
    h'.rccsdT (mm (tp ro) (mm q ro)) project false = h.rccsdT q project false := by
  rcases hpr with rfl | rfl
  · have e : ∀ {o v : Type} [Fintype o] [Fintype v] [LinearOrder v] (h : Ham o v K) (q), h.rccsdT q "w" false = .ok (h.projected q .w) := by
      intro o v _ _ _ h q
      unfold Ham.rccsdT
      rw [← energy_projected]
      split_ifs <;> simp_all
    rw [e, e, projected_rot H ho hv]
  · have e : ∀ {o v : Type} [Fintype o] [Fintype v] [LinearOrder v] (h : Ham o v K) (q), h.rccsdT q "z" false = .ok (h.projected q .z) := by
      intro o v _ _ _ h q
      unfold Ham.rccsdT
      rw [← energy_projected]
      split_ifs with h1 h2 <;> simp_all [no_virtuals]
    rw [e, e, projected_rot H ho hv]

/-! ## Fragments -/

/-- Energy of a fragment with the singles of its cluster. -/
private def value (s : CcsdT.Sys ι o v K) (p : Target) (x : CcsdT.Frag ι K) : K := (s.ham x.cOcc x.cVir x.t1 x.t2).projected (x.cfc s) p

private theorem leaves_fock {U : ι → ι → K} {s : CcsdT.Sys ι o v K} (hU : CcsdT.Leaves U s) {m n : Type} (c : ι → m → K) (d : ι → n → K) :
    mm (tp (mm U c)) (mm s.fock (mm U d)) = mm (tp c) (mm s.fock d) := by
  conv_rhs => rw [← hU.fock]
  simp only [tp_mm, mm_assoc]

private theorem leaves_ovlp {U : ι → ι → K} {s : CcsdT.Sys ι o v K} (hU : CcsdT.Leaves U s) {m n : Type} (c : ι → m → K) (d : ι → n → K) :
    mm (tp (mm U c)) (mm s.ovlp (mm U d)) = mm (tp c) (mm s.ovlp d) := by
  conv_rhs => rw [← hU.ovlp]
  simp only [tp_mm, mm_assoc]

private theorem leaves_eri {U : ι → ι → K} {s : CcsdT.Sys ι o v K} (hU : CcsdT.Leaves U s) {m n p q : Type} (c₁ : ι → m → K) (c₂ : ι → n → K) (c₃ : ι → p → K)
    (c₄ : ι → q → K) : trafo s.eri (mm U c₁) (mm U c₂) (mm U c₃) (mm U c₄) = trafo s.eri c₁ c₂ c₃ c₄ := by
  rw [trafo_rot4]
  have e : trafo s.eri U U U U = s.eri := by
    funext p q r t
    rw [← hU.eri p q r t]
    simp only [trafo, L1, L2, L3, L4, tp, Finset.mul_sum]
  rw [e]
  rfl

private theorem value_image (s : CcsdT.Sys ι o v K) (p : Target) (x : CcsdT.Frag ι K) (U : ι → ι → K) (hU : CcsdT.Leaves U s) :
    value s p (x.image U) = value s p x := by
  have e1 : s.ham (mm U x.cOcc) (mm U x.cVir) x.t1 x.t2 = s.ham x.cOcc x.cVir x.t1 x.t2 := by
    unfold CcsdT.Sys.ham
    simp only [leaves_fock hU, leaves_eri hU]
  have e2 : (x.image U).cfc s = x.cfc s := by
    show mm (mm (tp (mm U x.cOcc)) (mm s.ovlp (mm U x.cFrag))) (tp (mm (tp (mm U x.cOcc)) (mm s.ovlp (mm U x.cFrag)))) = _
    rw [leaves_ovlp hU]
    rfl
  show (s.ham (mm U x.cOcc) (mm U x.cVir) x.t1 x.t2).projected ((x.image U).cfc s) p = _
  rw [e1, e2]
  rfl

section Exact
variable [DecidableEq o] [DecidableEq v]

private theorem overlaps {s : CcsdT.Sys ι o v K} (hs : CcsdT.Orthonormal s) {t1 : T1 o v K} {t2 : T2 o o v v K} {x : CcsdT.Frag ι K} {ro : o → x.co → K} {rv : v → x.cv → K}
    (h : CcsdT.Exact s t1 t2 x ro rv) : mm (tp s.moOcc) (mm s.ovlp x.cOcc) = ro ∧ mm (tp s.moVir) (mm s.ovlp x.cVir) = rv := by
  constructor
  · rw [h.occ, ← mm_assoc s.ovlp, ← mm_assoc, hs.occ, delta_mm]
  · rw [h.vir, ← mm_assoc s.ovlp, ← mm_assoc, hs.vir, delta_mm]

private theorem restrict1_mm {co cv : Type} (ro : o → co → K) (rv : v → cv → K) (t : T1 o v K) : EwfEnergy.restrict1 ro rv t = mm (tp ro) (mm t rv) := by
  funext k d
  unfold EwfEnergy.restrict1 mm tp
  simp only [Finset.mul_sum]
  exact Finset.sum_congr rfl fun _ _ => Finset.sum_congr rfl fun _ _ => by ring

private theorem value_exact {s : CcsdT.Sys ι o v K} (hco : Canonical s s.moOcc) (hcv : Canonical s s.moVir) {t1 : T1 o v K} {t2 : T2 o o v v K} (p : Target)
    {x : CcsdT.Frag ι K} (h : ∃ ro rv, CcsdT.Exact s t1 t2 x ro rv) : value s p x = (s.mos t1 t2).projected (x.weight s) p := by
  obtain ⟨ro, rv, h⟩ := h
  unfold value
  rw [cfc_rot s x ro h.occ, projected_rot (exact_rotated s hco hcv t1 t2 x ro rv h) h.spanOcc h.spanVir]

/-- The global singles of exact clusters. -/
private theorem global_singles {s : CcsdT.Sys ι o v K} (hs : CcsdT.Orthonormal s) (t1 : T1 o v K) (t2 : T2 o o v v K) (l : List (CcsdT.Frag ι K))
    (hx : ∀ x ∈ l, ∃ ro rv, CcsdT.Exact s t1 t2 x ro rv) (hp : CcsdT.Partitions s l) : globalT1 false (l.map (Frag.toAmp s)) = .ok t1 := by
  have hA : ∀ y ∈ l.map (Frag.toAmp s), y.t1Contrib false = .ok (mm (fragProj y (projOf y)) t1) := by
    intro y hy
    obtain ⟨x, hxl, rfl⟩ := List.mem_map.mp hy
    obtain ⟨ro, rv, h⟩ := hx x hxl
    obtain ⟨a, b⟩ := overlaps hs h
    have hsp : SpansAll (Frag.toAmp s x) := by
      refine ⟨?_, ?_⟩
      · show mm (mm (tp s.moOcc) (mm s.ovlp x.cOcc)) (tp (mm (tp s.moOcc) (mm s.ovlp x.cOcc))) = delta
        rw [a, h.spanOcc]
      · show mm (mm (tp s.moVir) (mm s.ovlp x.cVir)) (tp (mm (tp s.moVir) (mm s.ovlp x.cVir))) = delta
        rw [b, h.spanVir]
    have hb : _ = mm (fragProj (Frag.toAmp s x) (projOf (Frag.toAmp s x))) t1 := back_restored1 (Frag.toAmp s x) hsp (projOf (Frag.toAmp s x)) t1
    rw [← hb]
    have e1 : inCluster1 (Frag.toAmp s x).ro (Frag.toAmp s x).rv t1 = x.t1 := by
      show EwfEnergy.restrict1 (mm (tp s.moOcc) (mm s.ovlp x.cOcc)) (mm (tp s.moVir) (mm s.ovlp x.cVir)) t1 = x.t1
      rw [a, b, h.t1]
    rw [e1]
    rfl
  have hC : Complete (l.map (Frag.toAmp s)) := by
    intro i j
    have e : ((l.map (Frag.toAmp s)).map fun x => fragProj x (projOf x) i j).sum = (l.map fun x => x.weight s i j).sum := by
      rw [List.map_map]
      refine congrArg List.sum (List.map_congr_left fun x hxl => ?_)
      obtain ⟨ro, rv, h⟩ := hx x hxl
      obtain ⟨a, b⟩ := overlaps hs h
      have e1 : fragProj (Frag.toAmp s x) (projOf (Frag.toAmp s x)) =
          mm (mm ro (tp (mm (tp x.cFrag) (mm s.ovlp x.cOcc)))) (mm (mm (tp x.cFrag) (mm s.ovlp x.cOcc)) (tp ro)) := by
        refine (fragProj_eq (Frag.toAmp s x) (mm (tp x.cFrag) (mm s.ovlp x.cOcc))).trans ?_
        show mm (mm (mm (tp s.moOcc) (mm s.ovlp x.cOcc)) (tp (mm (tp x.cFrag) (mm s.ovlp x.cOcc)))) (mm (mm (tp x.cFrag) (mm s.ovlp x.cOcc))
          (tp (mm (tp s.moOcc) (mm s.ovlp x.cOcc)))) = _
        rw [a]
      have e2 : mm ro (tp (mm (tp x.cFrag) (mm s.ovlp x.cOcc))) = mm (tp s.moOcc) (mm s.ovlp x.cFrag) := by
        rw [h.occ]
        simp only [tp_mm, tp_tp, hs.symm, mm_assoc]
        rw [← mm_assoc ro, h.spanOcc, delta_mm]
      have e3 : mm (mm (tp x.cFrag) (mm s.ovlp x.cOcc)) (tp ro) = tp (mm ro (tp (mm (tp x.cFrag) (mm s.ovlp x.cOcc)))) := by
        rw [tp_mm, tp_tp]
      show fragProj (Frag.toAmp s x) (projOf (Frag.toAmp s x)) i j = _
      rw [e1, e3, e2]
      rfl
    rw [e]
    have := congrFun (congrFun (delta_of (fun i j : o => (l.map fun x : CcsdT.Frag ι K => x.weight s i j).sum) hp) i) j
    exact this
  rw [globalT1_ok false _ _ hA]
  congr 1
  funext i a
  exact complete_sum _ hC (fun k => t1 k a) i

/-- C85 (exactness). If the cluster of every fragment, including symmetry images, spans the whole space, has canonical orbitals and the amplitudes of the whole
system, and the fragments partition the occupied space, then the energy is the perturbative triples energy of the whole system, per cell; for both projections,
and with singles of the clusters or global ones. -/
theorem ccsd_t_exact [CharZero K] (s : CcsdT.Sys ι o v K) (hs : CcsdT.Orthonormal s) (hco : Canonical s s.moOcc) (hcv : Canonical s s.moVir)
    (hg : RealIntegrals s.eri) (t1 : T1 o v K) (t2 : T2 o o v v K) (ht : ∀ i j a b, t2 j i b a = t2 i j a b) (project : String)
    (hpr : project = "w" ∨ project = "z") (glob : Bool) (l : List (CcsdT.Frag ι K)) (ops : CcsdT.Frag ι K → List (ι → ι → K))
    (hn : ∀ x ∈ l, x.contributes = true → x.root = true → (ops x).length = x.symmetryFactor)
    (hU : ∀ x ∈ l, ∀ U ∈ ops x, CcsdT.Leaves U s) (all : List (CcsdT.Frag ι K))
    (hall : all = (l.filter fun x => x.contributes && x.root).flatMap fun x => (ops x).map fun U => x.image U)
    (hx : ∀ y ∈ all, ∃ ro rv, CcsdT.Exact s t1 t2 y ro rv) (hp : CcsdT.Partitions s all)
    (hglob : glob = true → CcsdT.Partitions s (l.filter fun x => x.contributes) ∧
      ∀ x ∈ l, x.contributes = true → ∃ ro rv, CcsdT.Exact s t1 t2 x ro rv) :
    ccsdTCorrEnergy s project glob l = .ok ((s.mos t1 t2).triplesEnergy / s.ncells) := by
  have hmem : ∀ x ∈ l.filter (fun x => x.contributes && x.root), x ∈ l ∧ x.contributes = true ∧ x.root = true := by
    intro x hxm
    simpa using hxm
  have hp' : ∃ p : Target, ∀ {o v : Type} [Fintype o] [Fintype v] [LinearOrder v] (h : Ham o v K) q, h.rccsdT q project false = .ok (h.projected q p) := by
    rcases hpr with rfl | rfl
    · refine ⟨.w, fun {o v} _ _ _ h q => ?_⟩
      unfold Ham.rccsdT
      rw [← energy_projected]
      split_ifs <;> simp_all
    · refine ⟨.z, fun {o v} _ _ _ h q => ?_⟩
      unfold Ham.rccsdT
      rw [← energy_projected]
      split_ifs with h1 h2 <;> simp_all [no_virtuals]
  obtain ⟨p, hp'⟩ := hp'
  have hterm : ∀ x ∈ l.filter (fun x => x.contributes && x.root), (do
      let t1 ← bif glob then (globalT1 false ((l.filter fun y => y.contributes).map (Frag.toAmp s))).map some else pure none
      let e ← x.ccsdT s t1 project
      pure ((x.symmetryFactor : K) * e) : Except PyErr K) = .ok ((x.symmetryFactor : K) * value s p x) := by
    intro x hxm
    obtain ⟨hxl, hc, hr⟩ := hmem x hxm
    cases glob with
    | false =>
      show (do let e ← x.ccsdT s none project; pure ((x.symmetryFactor : K) * e) : Except PyErr K) = _
      unfold CcsdT.Frag.ccsdT
      rw [hp']
      rfl
    | true =>
      obtain ⟨hpc, hxc⟩ := hglob rfl
      have hgt := global_singles hs t1 t2 (l.filter fun y => y.contributes) (fun y hy => by
        have := List.mem_filter.mp hy
        exact hxc y this.1 (by simpa using this.2)) hpc
      show (do
        let t1 ← (globalT1 false ((l.filter fun y => y.contributes).map (Frag.toAmp s))).map some
        let e ← x.ccsdT s t1 project
        pure ((x.symmetryFactor : K) * e) : Except PyErr K) = _
      rw [hgt]
      show (do let e ← x.ccsdT s (some t1) project; pure ((x.symmetryFactor : K) * e) : Except PyErr K) = _
      obtain ⟨ro, rv, hex⟩ := hxc x hxl hc
      have e1 : x.singles s (some t1) = x.t1 := by
        obtain ⟨a, b⟩ := overlaps hs hex
        show mm (tp (mm (tp s.moOcc) (mm s.ovlp x.cOcc))) (mm t1 (mm (tp s.moVir) (mm s.ovlp x.cVir))) = _
        rw [a, b, hex.t1, restrict1_mm]
      unfold CcsdT.Frag.ccsdT
      rw [hp', e1]
      rfl
  unfold ccsdTCorrEnergy
  rw [EwfRdm.accumulate_ok _ _ _ hterm]
  refine congrArg Except.ok (congrArg (· / s.ncells) ?_)
  have e1 : ((l.filter fun x => x.contributes && x.root).map fun x => (x.symmetryFactor : K) * value s p x).sum = (all.map fun y => value s p y).sum := by
    rw [hall, EwfRdm.sum_flatMap']
    refine congrArg List.sum (List.map_congr_left fun x hxm => ?_)
    obtain ⟨hxl, hc, hr⟩ := hmem x hxm
    have hc' : (((ops x).map fun U => x.image U).map fun y => value s p y) = List.replicate (ops x).length (value s p x) := by
      rw [List.map_map, ← List.map_const']
      refine List.map_congr_left fun U hUm => ?_
      exact value_image s p x U (hU x hxl U hUm)
    rw [hc', List.sum_replicate, nsmul_eq_mul, hn x hxl hc hr]
  rw [e1]
  have e2 : (all.map fun y => value s p y) = all.map fun y => (1 : K) * (s.mos t1 t2).projected (y.weight s) p :=
    List.map_congr_left fun y hy => by rw [value_exact hco hcv p (hx y hy), one_mul]
  rw [e2, projected_list (s.mos t1 t2) p all (fun _ => 1) fun y => y.weight s]
  simp only [one_mul]
  have e3 : (fun i j => (all.map fun y => y.weight s i j).sum) = delta := delta_of _ hp
  rw [e3, projected_delta _ (mos_real s hg t1 t2 ht)]

/-- C85 (no symmetry). The same for a calculation in which every fragment contributes and stands for itself. -/
theorem ccsd_t_exact_plain [CharZero K] (s : CcsdT.Sys ι o v K) (hs : CcsdT.Orthonormal s) (hco : Canonical s s.moOcc) (hcv : Canonical s s.moVir)
    (hg : RealIntegrals s.eri) (t1 : T1 o v K) (t2 : T2 o o v v K) (ht : ∀ i j a b, t2 j i b a = t2 i j a b) (project : String)
    (hpr : project = "w" ∨ project = "z") (glob : Bool) (l : List (CcsdT.Frag ι K))
    (hl : ∀ x ∈ l, x.contributes = true ∧ x.root = true ∧ x.symmetryFactor = 1) (hx : ∀ x ∈ l, ∃ ro rv, CcsdT.Exact s t1 t2 x ro rv)
    (hp : CcsdT.Partitions s l) :
    ccsdTCorrEnergy s project glob l = .ok ((s.mos t1 t2).triplesEnergy / s.ncells) := by
  classical
  have f1 : (l.filter fun x => x.contributes && x.root) = l := List.filter_eq_self.2 fun x hm => by simp [hl x hm]
  have f2 : (l.filter fun x => x.contributes) = l := List.filter_eq_self.2 fun x hm => by simp [hl x hm]
  have f3 : (l.flatMap fun x => [(delta : ι → ι → K)].map fun U => x.image U) = l := by
    have : ∀ x : CcsdT.Frag ι K, ([(delta : ι → ι → K)].map fun U => x.image U) = [x] := by
      intro x
      simp only [List.map_cons, List.map_nil, CcsdT.Frag.image, delta_mm]
    simp only [this]
    exact List.flatMap_singleton' l
  refine ccsd_t_exact s hs hco hcv hg t1 t2 ht project hpr glob l (fun _ => [delta]) (fun x hm _ _ => (hl x hm).2.2.symm) ?_ l (by rw [f1, f3]) hx hp
    fun _ => ⟨by rw [f2]; exact hp, fun x hm _ => hx x hm⟩
  intro x _ U hU
  rw [List.mem_singleton.1 hU]
  have hd : tp (delta : ι → ι → K) = delta := by
    funext i j
    simp only [tp, delta, eq_comm]
  refine ⟨by rw [hd, delta_mm, mm_delta], by rw [hd, delta_mm, mm_delta], fun p q r t => ?_⟩
  simp [delta]

/-! ## Calls that fail -/

/-- C85 (doubles). Passing doubles amplitudes never works in a cluster with virtual orbitals. -/
theorem ccsd_t_given_doubles [LinearOrder v] (h : Ham o v K) (q : o → o → K) (project : String) (hv : 0 < Fintype.card v) :
    h.rccsdT q project true = .error .nameError := by
  unfold Ham.rccsdT
  rw [if_neg (by omega), if_pos rfl]

/-- C85 (projection). A projection other than of `w` or `z` is an error as soon as one of the fragments whose energy is needed has virtual orbitals. -/
theorem ccsd_t_unknown_projection (s : CcsdT.Sys ι o v K) (project : String) (hw : project ≠ "w") (hz : project ≠ "z") (l : List (CcsdT.Frag ι K))
    (hl : ∃ x ∈ l, x.contributes = true ∧ x.root = true ∧ 0 < Fintype.card x.cv) :
    ccsdTCorrEnergy s project false l = .error .notImplementedError := by
  have key : ∀ x : CcsdT.Frag ι K, 0 < Fintype.card x.cv → x.ccsdT s none project = .error .notImplementedError := by
    intro x hv
    unfold CcsdT.Frag.ccsdT Ham.rccsdT
    rw [if_neg (by omega), if_neg (by simp), if_neg hw, if_neg hz]
  unfold ccsdTCorrEnergy
  rw [EwfRdm.accumulate_err .notImplementedError]
  · rfl
  · intro x _
    by_cases hv : 0 < Fintype.card x.cv
    · right
      show (do let e ← x.ccsdT s none project; pure ((x.symmetryFactor : K) * e) : Except PyErr K) = _
      rw [key x hv]; rfl
    · left
      refine ⟨(x.symmetryFactor : K) * (s.ham x.cOcc x.cVir (x.singles s none) x.t2).energy (x.cfc s) .w, ?_⟩
      show (do let e ← x.ccsdT s none project; pure ((x.symmetryFactor : K) * e) : Except PyErr K) = _
      unfold CcsdT.Frag.ccsdT Ham.rccsdT
      rw [if_pos (by omega)]
      rfl
  · obtain ⟨x, hm, hc, hr, hv⟩ := hl
    refine ⟨x, List.mem_filter.2 ⟨hm, by simp [hc, hr]⟩, ?_⟩
    show (do let e ← x.ccsdT s none project; pure ((x.symmetryFactor : K) * e) : Except PyErr K) = _
    rw [key x hv]; rfl

/-- C85 (option). Asking for the triples energy of a fragment with the option `calc_e_ccsd_t_corr` fails whatever the amplitudes are. -/
theorem ccsd_t_kernel_option_partial (e : Except PyErr K) : kernelTriples true e = .error .typeError ∧ kernelTriples false e = .ok none := ⟨rfl, rfl⟩

end Exact

/-! ## Examples -/

private def tHam : Ham (Fin 2) (Fin 2) ℚ where
  t1 := fun i a => if i = a then 1 else 2
  t2 := fun i j a b => if a = i ∧ b = j ∧ i = j then 2 else if a = 0 ∧ b = 0 ∨ i = 0 ∧ j = 0 then 1 else 0
  fvo := fun _ _ => 0
  eo := fun i => if i = 0 then -1 else 0
  ev := fun _ => 1
  ovvv := fun i a b c => if i = 0 ∧ b = c then 1 else if a = 0 then 2 else 0
  ovoo := fun _ _ _ _ => 0
  ovov := fun i a j b => if i = a ∧ j = b then 1 else 0

/-- The hypotheses of `ccsd_t_partition` can be met, and the energy is not zero. -/
example : EwfRdm.accumulate (fun q => tHam.rccsdT q "z" false) [(fun i j => if i = 0 ∧ j = 0 then 1 else 0), fun i j => if i = 1 ∧ j = 1 then 1 else 0] =
    .ok tHam.triplesEnergy ∧ 0 < -tHam.triplesEnergy :=
  ⟨ccsd_t_partition tHam ⟨by decide +kernel, by decide +kernel, by decide +kernel⟩ _ (by decide +kernel) "z" (.inr rfl), by decide +kernel⟩

private def tO : Fin 4 → Fin 2 → ℚ := fun p i => if p.val = i.val then 1 else 0
private def tV : Fin 4 → Fin 2 → ℚ := fun p i => if p.val = i.val + 2 then 1 else 0
private def tS : CcsdT.Sys (Fin 4) (Fin 2) (Fin 2) ℚ where
  ovlp := delta
  fock := fun p q => if p = q then (if p.val < 2 then -1 else 2) else 0
  eri := fun p q r t => (if p = q then 2 else 1) * (if r = t then 2 else 1)
  moOcc := tO
  moVir := tV
  ncells := 3
private def tFlip : Fin 2 → Fin 2 → ℚ := fun i j => if i = j then 0 else 1
private def tPerm (q : Fin 4) : Fin 4 := if q = 0 then 1 else if q = 1 then 0 else if q = 2 then 3 else 2
private def tU : Fin 4 → Fin 4 → ℚ := fun p q => if p = tPerm q then 1 else 0
private def tT1 : Fin 2 → Fin 2 → ℚ := fun i a => if i = a then 1 else 2
private def tT2 : Fin 2 → Fin 2 → Fin 2 → Fin 2 → ℚ := fun i j a b => if i = j then 1 else if a = i ∧ b = j then 3 else 0
private def tC : Fin 4 → Fin 1 → ℚ := fun p _ => if p.val = 0 then 1 else 0
private def tD : Fin 4 → Fin 1 → ℚ := fun p _ => if p.val = 1 then 1 else 0

private def tFrag (n : Nat) : CcsdT.Frag (Fin 4) ℚ :=
  { f := Fin 1, co := Fin 2, cv := Fin 2, cFrag := tC, cOcc := tO, cVir := tV, t1 := tT1, t2 := tT2, symmetryFactor := n, root := true, contributes := true }
private def tFrag' : CcsdT.Frag (Fin 4) ℚ :=
  { f := Fin 1, co := Fin 2, cv := Fin 2, cFrag := tD, cOcc := tO, cVir := tV, t1 := tT1, t2 := tT2, symmetryFactor := 1, root := true, contributes := true }

private theorem t_orth : CcsdT.Orthonormal tS := ⟨by decide +kernel, by decide +kernel, by decide +kernel⟩
private theorem t_occ : Canonical tS tS.moOcc := by
  show ∀ i j : Fin 2, _
  decide +kernel
private theorem t_vir : Canonical tS tS.moVir := by
  show ∀ i j : Fin 2, _
  decide +kernel
private theorem t_real : RealIntegrals tS.eri := ⟨by decide +kernel, by decide +kernel⟩
private theorem d_unit : mm (delta : Fin 2 → Fin 2 → ℚ) (tp delta) = delta := by decide +kernel
private theorem f_unit : mm tFlip (tp tFlip) = delta := by decide +kernel
private theorem t_id (n : Nat) : CcsdT.Exact tS tT1 tT2 (tFrag n) (delta : Fin 2 → Fin 2 → ℚ) (delta : Fin 2 → Fin 2 → ℚ) :=
  ⟨(by decide +kernel : tO = mm tO delta), (by decide +kernel : tV = mm tV delta), d_unit, d_unit, t_occ, t_vir,
    (by decide +kernel : tT1 = EwfEnergy.restrict1 delta delta tT1), (by decide +kernel : tT2 = EwfEnergy.restrict2 delta delta tT2)⟩
private theorem t_id' : CcsdT.Exact tS tT1 tT2 tFrag' (delta : Fin 2 → Fin 2 → ℚ) (delta : Fin 2 → Fin 2 → ℚ) :=
  ⟨(by decide +kernel : tO = mm tO delta), (by decide +kernel : tV = mm tV delta), d_unit, d_unit, t_occ, t_vir,
    (by decide +kernel : tT1 = EwfEnergy.restrict1 delta delta tT1), (by decide +kernel : tT2 = EwfEnergy.restrict2 delta delta tT2)⟩
private theorem t_flip (n : Nat) : CcsdT.Exact tS tT1 tT2 ((tFrag n).image tU) tFlip tFlip :=
  ⟨(by decide +kernel : mm tU tO = mm tO tFlip), (by decide +kernel : mm tU tV = mm tV tFlip), f_unit, f_unit,
    (show ∀ i j : Fin 2, i ≠ j → mm (tp (mm tU tO)) (mm tS.fock (mm tU tO)) i j = 0 by decide +kernel),
    (show ∀ i j : Fin 2, i ≠ j → mm (tp (mm tU tV)) (mm tS.fock (mm tU tV)) i j = 0 by decide +kernel),
    (by decide +kernel : tT1 = EwfEnergy.restrict1 tFlip tFlip tT1), (by decide +kernel : tT2 = EwfEnergy.restrict2 tFlip tFlip tT2)⟩
private theorem t_image : ∀ n, ((tFrag n).image delta) = tFrag n := by
  intro n
  simp only [CcsdT.Frag.image, delta_mm]
private theorem t_leaves : CcsdT.Leaves tU tS := by
  refine ⟨by decide +kernel, by decide +kernel, fun p q r t => ?_⟩
  simp only [← Finset.mul_sum]
  simp only [tU, ite_mul, one_mul, zero_mul, Finset.sum_ite_eq', Finset.mem_univ, if_true]
  have h : ∀ a b, tPerm a = tPerm b ↔ a = b := by decide
  simp only [tS, h]
private theorem t_leaves' : CcsdT.Leaves delta tS := by
  refine ⟨by decide +kernel, by decide +kernel, fun p q r t => ?_⟩
  simp only [← Finset.mul_sum]
  simp only [delta, ite_mul, one_mul, zero_mul, Finset.sum_ite_eq', Finset.mem_univ, if_true]

/-- The hypotheses of `ccsd_t_exact` can be met: one fragment that stands for two. -/
example (project : String) (hpr : project = "w" ∨ project = "z") : ccsdTCorrEnergy tS project false [tFrag 2] = .ok ((tS.mos tT1 tT2).triplesEnergy / 3) := by
  refine ccsd_t_exact tS t_orth t_occ t_vir t_real tT1 tT2 (by decide +kernel) project hpr false [tFrag 2] (fun _ => [delta, tU]) ?_ ?_
    [tFrag 2, (tFrag 2).image tU] ?_ ?_ ?_ (fun h => nomatch h)
  · intro x hx _ _
    rw [List.mem_singleton.1 hx]; rfl
  · intro x _ U hU
    simp only [List.mem_cons, List.not_mem_nil, or_false] at hU
    rcases hU with rfl | rfl
    · exact t_leaves'
    · exact t_leaves
  · show _ = [(tFrag 2).image delta, (tFrag 2).image tU]
    rw [t_image]
  · intro y hy
    simp only [List.mem_cons, List.not_mem_nil, or_false] at hy
    rcases hy with rfl | rfl
    · exact ⟨_, _, t_id 2⟩
    · exact ⟨_, _, t_flip 2⟩
  · show ∀ i j : Fin 2, _
    decide +kernel

/-- The hypotheses of `ccsd_t_exact_plain` can be met, with the singles of the global wave function. -/
example (project : String) (hpr : project = "w" ∨ project = "z") (glob : Bool) :
    ccsdTCorrEnergy tS project glob [tFrag 1, tFrag'] = .ok ((tS.mos tT1 tT2).triplesEnergy / 3) := by
  refine ccsd_t_exact_plain tS t_orth t_occ t_vir t_real tT1 tT2 (by decide +kernel) project hpr glob _ ?_ ?_ ?_
  · intro x hx
    simp only [List.mem_cons, List.not_mem_nil, or_false] at hx
    rcases hx with rfl | rfl <;> exact ⟨rfl, rfl, rfl⟩
  · intro x hx
    simp only [List.mem_cons, List.not_mem_nil, or_false] at hx
    rcases hx with rfl | rfl
    · exact ⟨_, _, t_id 1⟩
    · exact ⟨_, _, t_id'⟩
  · show ∀ i j : Fin 2, _
    decide +kernel

/-- The hypotheses of `ccsd_t_rotation` can be met: degenerate orbitals are exchanged. -/
example (q : Fin 2 → Fin 2 → ℚ) : (tS.ham (mm tU tO) (mm tU tV) tT1 tT2).rccsdT (mm (tp tFlip) (mm q tFlip)) "w" false = (tS.mos tT1 tT2).rccsdT q "w" false :=
  ccsd_t_rotation _ _ tFlip tFlip (exact_rotated tS t_occ t_vir tT1 tT2 ((tFrag 1).image tU) tFlip tFlip (t_flip 1)) (by decide +kernel) (by decide +kernel) q "w" (.inl rfl)

/-- The hypotheses of `ccsd_t_given_doubles` and `ccsd_t_unknown_projection` can be met. -/
example (q : Fin 2 → Fin 2 → ℚ) : tHam.rccsdT q "w" true = .error .nameError ∧ ccsdTCorrEnergy tS "r" false [tFrag 2] = .error .notImplementedError :=
  ⟨ccsd_t_given_doubles tHam q "w" (by simp),
    ccsd_t_unknown_projection tS "r" (by decide) (by decide) _ ⟨tFrag 2, by simp, rfl, rfl, by show 0 < Fintype.card (Fin 2); simp⟩⟩

end Vayesta.Props
