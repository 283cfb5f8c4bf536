import Verif.Spec.EwfEnergy
import Verif.Lemmas.DmetEnergy
import Verif.Props.GlobalAmplitudes

/-! C83: projected wave-function energies of EWF calculations. -/

set_option linter.unusedSectionVars false

namespace Vayesta.Props
open Vayesta Vayesta.EwfEnergy Vayesta.Amplitudes Vayesta.Tensor Vayesta.DmetEnergy

section
variable {K : Type} [Field K]

section Basis
variable {P Q O V : Type} [Fintype P] [Fintype Q] [Fintype O] [Fintype V]

/-- The kernel of the doubles energy. -/
private def kern (g : O → V → V → O → K) : O → O → V → V → K := fun i j a b => 2 * g i a b j - g i b a j

private def cut (c : P → O → K) (d : Q → V → K) (g : P → Q → Q → P → K) : O → V → V → O → K := fun i a b j =>
  ∑ p, ∑ q, ∑ r, ∑ t, c p i * (d q a * (d r b * (c t j * g p q r t)))

private theorem sum_cycle (f : P → Q → Q → P → K) : ∑ p, ∑ q, ∑ r, ∑ t, f p q r t = ∑ p, ∑ t, ∑ q, ∑ r, f p q r t := by
  refine Finset.sum_congr rfl fun p _ => ?_
  calc _ = ∑ q, ∑ t, ∑ r, f p q r t := Finset.sum_congr rfl fun _ _ => Finset.sum_comm
    _ = _ := Finset.sum_comm

private theorem cut_L (c : P → O → K) (d : Q → V → K) (g : P → Q → Q → P → K) :
    cut c d g = L1 (tp c) (L2 (tp d) (L3 (tp d) (L4 (tp c) g))) := by
  funext i a b j
  simp only [cut, L1, L2, L3, L4, tp, Finset.mul_sum]

private theorem kern_cut (c : P → O → K) (d : Q → V → K) (g : P → Q → Q → P → K) :
    kern (cut c d g) = L1 (tp c) (L2 (tp c) (L3 (tp d) (L4 (tp d) (kern g)))) := by
  funext i j a b
  have h1 : cut c d g i a b j = L1 (tp c) (L2 (tp c) (L3 (tp d) (L4 (tp d) fun p t q r => g p q r t))) i j a b := by
    simp only [cut, L1, L2, L3, L4, tp, Finset.mul_sum]
    rw [sum_cycle]
    exact Finset.sum_congr rfl fun _ _ => Finset.sum_congr rfl fun _ _ => Finset.sum_congr rfl fun _ _ =>
      Finset.sum_congr rfl fun _ _ => by ring
  have h2 : cut c d g i b a j = L1 (tp c) (L2 (tp c) (L3 (tp d) (L4 (tp d) fun p t q r => g p r q t))) i j a b := by
    simp only [cut, L1, L2, L3, L4, tp, Finset.mul_sum]
    rw [sum_cycle]
    refine Finset.sum_congr rfl fun _ _ => Finset.sum_congr rfl fun _ _ => ?_
    rw [Finset.sum_comm]
    exact Finset.sum_congr rfl fun _ _ => Finset.sum_congr rfl fun _ _ => by ring
  have h3 : L1 (tp c) (L2 (tp c) (L3 (tp d) (L4 (tp d) (kern g)))) i j a b =
      2 * L1 (tp c) (L2 (tp c) (L3 (tp d) (L4 (tp d) fun p t q r => g p q r t))) i j a b -
        L1 (tp c) (L2 (tp c) (L3 (tp d) (L4 (tp d) fun p t q r => g p r q t))) i j a b := by
    simp only [L1, L2, L3, L4, kern, Finset.mul_sum, ← Finset.sum_sub_distrib]
    exact Finset.sum_congr rfl fun _ _ => Finset.sum_congr rfl fun _ _ => Finset.sum_congr rfl fun _ _ =>
      Finset.sum_congr rfl fun _ _ => by ring
  rw [h3, ← h1, ← h2]
  rfl

/-- Sum of products of the elements of two matrices. -/
private def dotf (f t : O → V → K) : K := ∑ i, ∑ a, f i a * t i a

private theorem dotf_left (c : P → O → K) (f : P → V → K) (t : O → V → K) : dotf (mm (tp c) f) t = dotf f (mm c t) := by
  unfold dotf
  rw [Finset.sum_comm, Finset.sum_comm (f := fun p a => f p a * mm c t p a)]
  refine Finset.sum_congr rfl fun a _ => ?_
  have := sum_move (fun p => f p a) c (fun k => t k a)
  simp only [mm, tp] at this ⊢
  exact this.symm

private theorem dotf_tp (f t : O → V → K) : dotf (tp f) (tp t) = dotf f t := Finset.sum_comm

private theorem dotf_right (d : Q → V → K) (f : O → Q → K) (t : O → V → K) : dotf (mm f d) t = dotf f (mm t (tp d)) := by
  rw [← dotf_tp, tp_mm, dotf_left, ← dotf_tp f, tp_mm, tp_tp]

private theorem ciEnergy_eq (f : O → V → K) (g : O → V → V → O → K) (c1 : O → V → K) (c2 : O → O → V → V → K) :
    ciEnergy f g c1 c2 = 2 * dotf f c1 + pair (kern g) c2 := rfl

private theorem ciEnergy_cut (c : P → O → K) (d : Q → V → K) (F : P → Q → K) (g : P → Q → Q → P → K) (c1 : O → V → K) (c2 : O → O → V → V → K) :
    ciEnergy (mm (tp c) (mm F d)) (cut c d g) c1 c2 = ciEnergy F g (mm c (mm c1 (tp d))) (L1 c (L2 c (L3 d (L4 d c2)))) := by
  rw [ciEnergy_eq, ciEnergy_eq, kern_cut, pair_chain, dotf_left, dotf_right, mm_assoc]

private theorem ciEnergy_smul (f : O → V → K) (g : O → V → V → O → K) (w : K) (c1 : O → V → K) (c2 : O → O → V → V → K) :
    w * ciEnergy f g c1 c2 = ciEnergy f g (fun i a => w * c1 i a) (fun i j a b => w * c2 i j a b) := by
  unfold ciEnergy
  rw [mul_add]
  simp only [Finset.mul_sum]
  refine congrArg₂ (· + ·) (Finset.sum_congr rfl fun _ _ => Finset.sum_congr rfl fun _ _ => by ring)
    (Finset.sum_congr rfl fun _ _ => Finset.sum_congr rfl fun _ _ => Finset.sum_congr rfl fun _ _ =>
        Finset.sum_congr rfl fun _ _ => by ring)

private theorem ciEnergy_add (f : O → V → K) (g : O → V → V → O → K) (c1 d1 : O → V → K) (c2 d2 : O → O → V → V → K) :
    ciEnergy f g c1 c2 + ciEnergy f g d1 d2 = ciEnergy f g (fun i a => c1 i a + d1 i a) (fun i j a b => c2 i j a b + d2 i j a b) := by
  unfold ciEnergy
  simp only [mul_add, Finset.sum_add_distrib]
  ring

private theorem ciEnergy_list {α : Type*} (f : O → V → K) (g : O → V → V → O → K) (l : List α) (w : α → K) (c1 : α → O → V → K)
    (c2 : α → O → O → V → V → K) : (l.map fun x => w x * ciEnergy f g (c1 x) (c2 x)).sum =
      ciEnergy f g (fun i a => (l.map fun x => w x * c1 x i a).sum) (fun i j a b => (l.map fun x => w x * c2 x i j a b).sum) := by
  induction l with
  | nil => simp [ciEnergy]
  | cons y l ih =>
    simp only [List.map_cons, List.sum_cons, ih]
    rw [ciEnergy_smul, ciEnergy_add]

private theorem term_pair {f o' v' : Type} [Fintype f] [Fintype o'] [Fintype v'] (p : f → O → K) (c : f → o' → V → v' → K) (g : O → o' → V → v' → K) :
    ∑ y, ∑ i, ∑ j, ∑ a, ∑ b, p y i * c y j a b * g i j a b = pair g (L1 (tp p) c) := by
  rw [Finset.sum_comm]
  unfold pair L1 tp
  refine Finset.sum_congr rfl fun i _ => ?_
  simp only [Finset.mul_sum]
  rw [Finset.sum_comm]
  refine Finset.sum_congr rfl fun j _ => ?_
  rw [Finset.sum_comm]
  refine Finset.sum_congr rfl fun a _ => ?_
  rw [Finset.sum_comm]
  exact Finset.sum_congr rfl fun b _ => Finset.sum_congr rfl fun y _ => by ring

end Basis

variable {ι o v : Type} [Fintype ι] [Fintype o] [Fintype v]

private theorem energyCluster_eq (s : Sys ι o v K) (x : EwfEnergy.Frag ι K) (c1 : T1 x.co x.cv K) (c2 : T2 x.co x.co x.cv x.cv K) :
    (x.energyCluster s c1 c2).2.2 = x.symFactor * ciEnergy (x.fov s) (x.ovvo s) c1 c2 := by
  have h : 2 * (∑ i, ∑ j, ∑ a, ∑ b, c2 i j a b * x.ovvo s i a b j) - ∑ i, ∑ j, ∑ a, ∑ b, c2 i j a b * x.ovvo s i b a j =
      ∑ i, ∑ j, ∑ a, ∑ b, (2 * x.ovvo s i a b j - x.ovvo s i b a j) * c2 i j a b := by
    simp only [Finset.mul_sum, ← Finset.sum_sub_distrib]
    exact Finset.sum_congr rfl fun _ _ => Finset.sum_congr rfl fun _ _ => Finset.sum_congr rfl fun _ _ =>
      Finset.sum_congr rfl fun _ _ => by ring
  simp only [Frag.energyCluster, ciEnergy, h]
  ring

/-- The energy of projected coefficients is that of the coefficients transformed back from the fragment to the cluster. -/
private theorem energy_eq (s : Sys ι o v K) (x : EwfEnergy.Frag ι K) (c1 : T1 x.f x.cv K) (c2 : T2 x.f x.co x.cv x.cv K) :
    x.energy s c1 c2 = x.energyCluster s (projectC1 (tr (x.px s)) c1) (projectC2 (tr (x.px s)) c2) := by
  have h1 : ∑ i, ∑ a, ∑ y, x.fov s i a * x.px s y i * c1 y a = ∑ i, ∑ a, x.fov s i a * projectC1 (tr (x.px s)) c1 i a := by
    simp only [projectC1, tr, Finset.mul_sum]
    exact Finset.sum_congr rfl fun _ _ => Finset.sum_congr rfl fun _ _ => Finset.sum_congr rfl fun _ _ => by ring
  have h2 : ∀ g : x.co → x.co → x.cv → x.cv → K, ∑ y, ∑ i, ∑ j, ∑ a, ∑ b, x.px s y i * c2 y j a b * g i j a b =
      ∑ i, ∑ j, ∑ a, ∑ b, projectC2 (tr (x.px s)) c2 i j a b * g i j a b := by
    intro g
    rw [term_pair]
    unfold pair
    exact Finset.sum_congr rfl fun _ _ => Finset.sum_congr rfl fun _ _ => Finset.sum_congr rfl fun _ _ =>
      Finset.sum_congr rfl fun _ _ => mul_comm _ _
  have h3 := h2 fun i j a b => x.ovvo s i a b j
  have h4 := h2 fun i j a b => x.ovvo s i b a j
  beta_reduce at h3 h4
  simp only [Frag.energy, Frag.energyCluster, h1, h3, h4]

private theorem wfEnergy_eq (s : Sys ι o v K) (x : EwfEnergy.Frag ι K) :
    x.wfEnergy s = x.symFactor * ciEnergy (x.fov s) (x.ovvo s) (mm (tp (x.px s)) (mm (x.px s) x.wf.asCisd.1))
      (L1 (tp (x.px s)) (L1 (x.px s) x.wf.asCisd.2)) := by
  unfold Frag.wfEnergy
  rw [energy_eq, energyCluster_eq]
  rfl

private theorem aoSingles_eq (s : Sys ι o v K) (x : EwfEnergy.Frag ι K) :
    aoSingles s x = mm x.cOcc (mm (mm (tp (x.px s)) (mm (x.px s) x.wf.asCisd.1)) (tp x.cVir)) := by
  funext p q
  rw [← mm_assoc (tp (x.px s))]
  simp only [aoSingles, mm, tp, Finset.mul_sum, Finset.sum_mul]
  refine Finset.sum_congr rfl fun i _ => ?_
  rw [Finset.sum_comm]
  exact Finset.sum_congr rfl fun _ _ => Finset.sum_congr rfl fun _ _ => Finset.sum_congr rfl fun _ _ => by ring

private theorem aoDoubles_eq (s : Sys ι o v K) (x : EwfEnergy.Frag ι K) :
    aoDoubles s x = L1 x.cOcc (L2 x.cOcc (L3 x.cVir (L4 x.cVir (L1 (tp (x.px s)) (L1 (x.px s) x.wf.asCisd.2))))) := by
  rw [L1_L1, L4_L1, L3_L1, L2_L1]
  funext p q r t
  show ∑ i, ∑ k, ∑ j, ∑ a, ∑ b, x.cOcc p i * mm (tp (x.px s)) (x.px s) i k * x.cOcc q j * x.cVir r a * x.cVir t b * x.wf.asCisd.2 k j a b = _
  simp only [L1, L2, L3, L4, Finset.mul_sum]
  exact Finset.sum_congr rfl fun _ _ => Finset.sum_congr rfl fun _ _ => Finset.sum_congr rfl fun _ _ =>
    Finset.sum_congr rfl fun _ _ => Finset.sum_congr rfl fun _ _ => by ring

private theorem wfEnergy_ao (s : Sys ι o v K) (x : EwfEnergy.Frag ι K) :
    x.wfEnergy s = x.symFactor * ciEnergy s.fock s.eri (aoSingles s x) (aoDoubles s x) := by
  rw [wfEnergy_eq, aoSingles_eq, aoDoubles_eq, ← ciEnergy_cut]
  rfl

private theorem filter_kernel (s : Sys ι o v K) (c : EwfEnergy.Frag ι K → Bool) (l : List (EwfEnergy.Frag ι K)) :
    wfCorrEnergy s (l.map fun x => x.kernel s (c x)) =
      ((l.filter fun x => x.contributes && x.root).map fun x => (x.symmetryFactor : K) * x.wfEnergy s).sum / s.ncells := by
  unfold wfCorrEnergy
  rw [List.filter_map, List.map_map]
  congr 2
  refine List.map_congr_left fun x _ => ?_
  simp only [Function.comp, Frag.kernel]
  cases c x <;> rfl

/-- C83 (any clusters). The projected energy of a calculation, whether the fragments' energies were stored by the kernel or not, is
the energy functional of one set of coefficients: the sum of the fragment-projected coefficients of the contributing fragments
without symmetry parent, with their weights. -/
theorem wf_energy_assembled (s : Sys ι o v K) (stored : EwfEnergy.Frag ι K → Bool) (l : List (EwfEnergy.Frag ι K)) :
    wfCorrEnergy s (l.map fun x => x.kernel s (stored x)) =
      ciEnergy s.fock s.eri
        (fun p q => ((l.filter fun x => x.contributes && x.root).map fun x => (x.symmetryFactor : K) * x.symFactor * aoSingles s x p q).sum)
        (fun p q r t => ((l.filter fun x => x.contributes && x.root).map fun x =>
          (x.symmetryFactor : K) * x.symFactor * aoDoubles s x p q r t).sum) / s.ncells := by
  rw [filter_kernel]
  refine Eq.trans ?_ (congrArg (· / s.ncells) (ciEnergy_list s.fock s.eri (l.filter fun x => x.contributes && x.root)
    (fun x => (x.symmetryFactor : K) * x.symFactor) (aoSingles s) (aoDoubles s)))
  beta_reduce
  congr 2
  exact List.map_congr_left fun x _ => by rw [wfEnergy_ao, mul_assoc]

private theorem image_energy (s : Sys ι o v K) (U : ι → ι → K) (hU : Leaves U s) (x : EwfEnergy.Frag ι K) :
    (x.image U).wfEnergy s = x.wfEnergy s := by
  have hp : (x.image U).px s = x.px s := by
    show mm (tp (mm U x.cFrag)) (mm s.ovlp (mm U x.cOcc)) = mm (tp x.cFrag) (mm s.ovlp x.cOcc)
    rw [tp_mm, mm_assoc, ← mm_assoc s.ovlp, ← mm_assoc (tp U), hU.ovlp]
  have hf : (x.image U).fov s = x.fov s := by
    show mm (tp (mm U x.cOcc)) (mm s.fock (mm U x.cVir)) = mm (tp x.cOcc) (mm s.fock x.cVir)
    rw [tp_mm, mm_assoc, ← mm_assoc s.fock, ← mm_assoc (tp U), hU.fock]
  have he : cut U U s.eri = s.eri := by
    funext p q r t
    exact hU.eri p q r t
  have hg : (x.image U).ovvo s = x.ovvo s := by
    show cut (mm U x.cOcc) (mm U x.cVir) s.eri = cut x.cOcc x.cVir s.eri
    conv_rhs => rw [← he]
    simp only [cut_L, tp_mm, ← L1_L1, ← L2_L2, ← L3_L3, ← L4_L4]
    simp only [L4_L1, L4_L2, L4_L3, L3_L1, L3_L2, L2_L1]
  rw [wfEnergy_eq, wfEnergy_eq]
  show x.symFactor * ciEnergy ((x.image U).fov s) ((x.image U).ovvo s) (mm (tp ((x.image U).px s)) (mm ((x.image U).px s) x.wf.asCisd.1))
    (L1 (tp ((x.image U).px s)) (L1 ((x.image U).px s) x.wf.asCisd.2)) = _
  rw [hp, hf, hg]
  rfl

/-- C83 (symmetry). If every fragment that is calculated stands for its images under operations that leave the system unchanged,
then the weighted sum is the plain sum of the energies of all images. -/
theorem wf_energy_images (s : Sys ι o v K) (stored : EwfEnergy.Frag ι K → Bool) (l : List (EwfEnergy.Frag ι K))
    (ops : EwfEnergy.Frag ι K → List (ι → ι → K)) (hn : ∀ x ∈ l, x.symmetryFactor = (ops x).length)
    (hs : ∀ x ∈ l, ∀ U ∈ ops x, Leaves U s) :
    wfCorrEnergy s (l.map fun x => x.kernel s (stored x)) =
      (((l.filter fun x => x.contributes && x.root).flatMap fun x => (ops x).map fun U => x.image U).map fun y => y.wfEnergy s).sum / s.ncells := by
  rw [filter_kernel]
  congr 1
  generalize hm : l.filter (fun x => x.contributes && x.root) = m
  have hm' : ∀ x ∈ m, x ∈ l := fun x hx => by rw [← hm] at hx; exact (List.mem_filter.mp hx).1
  clear hm
  induction m with
  | nil => rfl
  | cons x m ih =>
    have hc : ((ops x).map fun U => (x.image U).wfEnergy s) = List.replicate (ops x).length (x.wfEnergy s) := by
      refine List.eq_replicate_iff.mpr ⟨by simp, ?_⟩
      intro b hb
      obtain ⟨U, hU, rfl⟩ := List.mem_map.mp hb
      exact image_energy s U (hs x (hm' x (by simp)) U hU) x
    simp only [List.map_cons, List.sum_cons, List.flatMap_cons, List.map_append, List.sum_append, List.map_map, Function.comp_def, hc]
    rw [ih fun y hy => hm' y (by simp [hy]), List.sum_replicate, nsmul_eq_mul, hn x (hm' x (by simp))]

section Exact
variable [DecidableEq o] [DecidableEq v]

/-- Weight of molecular orbitals in a fragment. -/
private def wgt (s : Sys ι o v K) (x : EwfEnergy.Frag ι K) : o → o → K :=
  mm (tp (mm (tp x.cFrag) (mm s.ovlp s.moOcc))) (mm (tp x.cFrag) (mm s.ovlp s.moOcc))

private theorem restrict1_eq {co cv : Type} (ro : o → co → K) (rv : v → cv → K) (c : T1 o v K) : restrict1 ro rv c = mm (tp ro) (mm c rv) := by
  funext k d
  simp only [restrict1, mm, tp, Finset.mul_sum]
  exact Finset.sum_congr rfl fun _ _ => Finset.sum_congr rfl fun _ _ => by ring

private theorem px_full (s : Sys ι o v K) (x : EwfEnergy.Frag ι K) (ro : o → x.co → K) (rv : v → x.cv → K) (h : FullCluster s x ro rv) :
    x.px s = mm (mm (tp x.cFrag) (mm s.ovlp s.moOcc)) ro := by
  unfold Frag.px
  rw [h.occ, mm_assoc, mm_assoc]

private theorem exact_energy (s : Sys ι o v K) (c1 : T1 o v K) (c2 : T2 o o v v K) (x : EwfEnergy.Frag ι K) (hx : ExactCluster s c1 c2 x) :
    x.wfEnergy s = x.symFactor * ciEnergy (mm (tp s.moOcc) (mm s.fock s.moVir)) s.ovvo (mm (wgt s x) c1) (L1 (wgt s x) c2) := by
  obtain ⟨ro, rv, h, hw⟩ := hx
  have hf : x.fov s = mm (tp ro) (mm (mm (tp s.moOcc) (mm s.fock s.moVir)) rv) := by
    unfold Frag.fov
    rw [h.occ, h.vir, tp_mm]
    simp only [mm_assoc]
  have hg : x.ovvo s = cut ro rv s.ovvo := by
    show cut x.cOcc x.cVir s.eri = cut ro rv (cut s.moOcc s.moVir s.eri)
    rw [h.occ, h.vir]
    simp only [cut_L, tp_mm, ← L1_L1, ← L2_L2, ← L3_L3, ← L4_L4]
    simp only [L4_L1, L4_L2, L4_L3, L3_L1, L3_L2, L2_L1]
  have hr : ∀ M : o → o → K, mm ro (mm (tp ro) M) = M := fun M => by rw [← mm_assoc, h.spanOcc, delta_mm]
  have hr' : ∀ M : o → v → K, mm ro (mm (tp ro) M) = M := fun M => by rw [← mm_assoc, h.spanOcc, delta_mm]
  rw [wfEnergy_eq, hf, hg, ciEnergy_cut, hw, px_full s x ro rv h]
  congr 2
  · simp only [restrict1_eq, wgt, tp_mm, mm_assoc, h.spanVir, mm_delta]
    rw [hr', hr']
  · have e : restrict2 ro rv c2 = L1 (tp ro) (L2 (tp ro) (L3 (tp rv) (L4 (tp rv) c2))) := inCluster2_eq ro rv c2
    rw [e]
    simp only [tp_mm, wgt, L4_L1, L4_L2, L4_L3, L3_L1, L3_L2, L2_L1, L1_L1, L2_L2, L3_L3, L4_L4, h.spanOcc, h.spanVir, L2_delta, L3_delta,
      L4_delta, mm_assoc, hr, mm_delta]

private theorem sum_exact (s : Sys ι o v K) (c1 : T1 o v K) (c2 : T2 o o v v K) (m : List (EwfEnergy.Frag ι K)) (hp : PartitionsOcc s m)
    (hx : ∀ x ∈ m, ExactCluster s c1 c2 x) : (m.map fun x => x.wfEnergy s).sum =
      ciEnergy (mm (tp s.moOcc) (mm s.fock s.moVir)) s.ovvo c1 c2 := by
  have e : (m.map fun x => x.wfEnergy s) = m.map fun x =>
      x.symFactor * ciEnergy (mm (tp s.moOcc) (mm s.fock s.moVir)) s.ovvo (mm (wgt s x) c1) (L1 (wgt s x) c2) :=
    List.map_congr_left fun x h => exact_energy s c1 c2 x (hx x h)
  have hw : ∀ i k : o, (m.map fun x => x.symFactor * wgt s x i k).sum = if i = k then 1 else 0 := hp
  have hs : ∀ (i : o) (t : o → K), (m.map fun x => x.symFactor * ∑ k, wgt s x i k * t k).sum = t i := by
    intro i t
    have : (m.map fun x => x.symFactor * ∑ k, wgt s x i k * t k) = m.map fun x => ∑ k, (x.symFactor * wgt s x i k) * t k :=
      List.map_congr_left fun x _ => by rw [Finset.mul_sum]; exact Finset.sum_congr rfl fun _ _ => by ring
    rw [this, Tensor.list_sum_mul m (fun x k => x.symFactor * wgt s x i k)]
    simp only [hw]
    simp
  rw [e, ciEnergy_list]
  congr 1
  · funext i a
    exact hs i fun k => c1 k a
  · funext i j a b
    exact hs i fun k => c2 k j a b

/-- C83 (exactness). If the cluster of every fragment, including symmetry images, spans the whole space and holds the exact singles and
doubles coefficients, and the fragments partition the occupied space, then the projected energy is the exact correlation energy
per cell: fragmentation introduces no error, and neither does the restriction to symmetry-unique fragments. -/
theorem wf_energy_exact (s : Sys ι o v K) (c1 : T1 o v K) (c2 : T2 o o v v K) (stored : EwfEnergy.Frag ι K → Bool) (l : List (EwfEnergy.Frag ι K))
    (ops : EwfEnergy.Frag ι K → List (ι → ι → K)) (hn : ∀ x ∈ l, x.symmetryFactor = (ops x).length)
    (hs : ∀ x ∈ l, ∀ U ∈ ops x, Leaves U s) (all : List (EwfEnergy.Frag ι K))
    (hall : all = (l.filter fun x => x.contributes && x.root).flatMap fun x => (ops x).map fun U => x.image U)
    (hp : PartitionsOcc s all) (hx : ∀ y ∈ all, ExactCluster s c1 c2 y) :
    wfCorrEnergy s (l.map fun x => x.kernel s (stored x)) =
      ciEnergy (mm (tp s.moOcc) (mm s.fock s.moVir)) s.ovvo c1 c2 / s.ncells := by
  rw [wf_energy_images s stored l ops hn hs, ← hall, sum_exact s c1 c2 all hp hx]

/-- The same without symmetry. -/
theorem wf_energy_exact_plain (s : Sys ι o v K) (c1 : T1 o v K) (c2 : T2 o o v v K) (stored : EwfEnergy.Frag ι K → Bool)
    (l : List (EwfEnergy.Frag ι K)) (hl : ∀ x ∈ l, x.contributes = true ∧ x.root = true ∧ x.symmetryFactor = 1)
    (hp : PartitionsOcc s l) (hx : ∀ y ∈ l, ExactCluster s c1 c2 y) :
    wfCorrEnergy s (l.map fun x => x.kernel s (stored x)) =
      ciEnergy (mm (tp s.moOcc) (mm s.fock s.moVir)) s.ovvo c1 c2 / s.ncells := by
  rw [filter_kernel, ← sum_exact s c1 c2 l hp hx]
  have : l.filter (fun x => x.contributes && x.root) = l := List.filter_eq_self.mpr fun x h => by simp [(hl x h).1, (hl x h).2.1]
  rw [this]
  congr 2
  exact List.map_congr_left fun x h => by rw [(hl x h).2.2]; simp

private theorem sum_flip {O V : Type} [Fintype O] [Fintype V] (f : O → O → V → V → K) :
    ∑ i, ∑ j, ∑ a, ∑ b, f j i b a = ∑ i, ∑ j, ∑ a, ∑ b, f i j a b := by
  rw [Finset.sum_comm]
  exact Finset.sum_congr rfl fun _ _ => Finset.sum_congr rfl fun _ _ => Finset.sum_comm

private theorem sum_symmetrized {O V : Type} [Fintype O] [Fintype V] (h2 : (2 : K) ≠ 0) (c g : O → O → V → V → K)
    (hg : ∀ i j a b, g i j a b = g j i b a) : ∑ i, ∑ j, ∑ a, ∑ b, symmetrizeC2 c i j a b * g i j a b = ∑ i, ∑ j, ∑ a, ∑ b, c i j a b * g i j a b := by
  have e : ∑ i, ∑ j, ∑ a, ∑ b, symmetrizeC2 c i j a b * g i j a b =
      (∑ i, ∑ j, ∑ a, ∑ b, c i j a b * g i j a b + ∑ i, ∑ j, ∑ a, ∑ b, c j i b a * g j i b a) / 2 := by
    simp only [← Finset.sum_add_distrib, Finset.sum_div]
    exact Finset.sum_congr rfl fun i _ => Finset.sum_congr rfl fun j _ => Finset.sum_congr rfl fun a _ =>
      Finset.sum_congr rfl fun b _ => by simp only [symmetrizeC2, transp]; rw [← hg i j a b]; ring
  rw [e, sum_flip fun i j a b => c i j a b * g i j a b]
  field_simp
  ring

private theorem ovvo_flip (s : Sys ι o v K) (hg : ∀ p q r t, s.eri p q r t = s.eri t r q p) (x : EwfEnergy.Frag ι K) (i j : x.co) (a b : x.cv) :
    x.ovvo s i a b j = x.ovvo s j b a i := by
  unfold Frag.ovvo
  have h : ∀ f : ι → ι → ι → ι → K, ∑ p, ∑ q, ∑ r, ∑ t, f p q r t = ∑ p, ∑ q, ∑ r, ∑ t, f t r q p := by
    intro f
    rw [sum_cycle, sum_cycle fun p q r t => f t r q p]
    rw [Finset.sum_comm]
    exact Finset.sum_congr rfl fun _ _ => Finset.sum_congr rfl fun _ _ => Finset.sum_comm
  rw [h]
  exact Finset.sum_congr rfl fun p _ => Finset.sum_congr rfl fun q _ => Finset.sum_congr rfl fun r _ =>
    Finset.sum_congr rfl fun t _ => by rw [hg t r q p]; ring

/-- C83 (symmetrised amplitudes). The energy of projected coefficients is that of the coefficients transformed back to the cluster
(`axis1="cluster"`), and for a real interaction it does not matter whether these are symmetrised afterwards. -/
theorem wf_energy_restored (h2 : (2 : K) ≠ 0) (s : Sys ι o v K) (x : EwfEnergy.Frag ι K) (hg : ∀ p q r t, s.eri p q r t = s.eri t r q p)
    (c0 : K) (c1 : T1 x.co x.cv K) (c2 : T2 x.co x.co x.cv x.cv K) (sym : Bool) (d0 : K) (d1 : T1 x.co x.cv K) (d2 : T2 x.co x.co x.cv x.cv K)
    (hd : (RCisd.project (x.px s) c0 c1 c2).restore sym = .ok (.full d0 d1 d2)) :
    x.energyCluster s d1 d2 = x.energy s (projectC1 (x.px s) c1) (projectC2 (x.px s) c2) := by
  rw [energy_eq]
  simp only [RCisd.project, RCisd.restore, Except.ok.injEq, RCisd.full.injEq] at hd
  obtain ⟨-, rfl, rfl⟩ := hd
  cases sym with
  | false => rfl
  | true =>
    have e1 := sum_symmetrized h2 (projectC2 (tr (x.px s)) (projectC2 (x.px s) c2)) (fun i j a b => x.ovvo s i a b j)
      (fun i j a b => ovvo_flip s hg x i j a b)
    have e2 := sum_symmetrized h2 (projectC2 (tr (x.px s)) (projectC2 (x.px s) c2)) (fun i j a b => x.ovvo s i b a j)
      (fun i j a b => ovvo_flip s hg x i j b a)
    beta_reduce at e1 e2
    simp only [Frag.energyCluster, if_true, e1, e2]

private theorem restrict2_eq {co cv : Type} (ro : o → co → K) (rv : v → cv → K) (c : T2 o o v v K) :
    restrict2 ro rv c = L1 (tp ro) (L2 (tp ro) (L3 (tp rv) (L4 (tp rv) c))) := inCluster2_eq ro rv c

omit [DecidableEq o] [DecidableEq v] in
private theorem restrict2_add {co cv : Type} (ro : o → co → K) (rv : v → cv → K) (c d : T2 o o v v K) :
    restrict2 ro rv (fun i j a b => c i j a b + d i j a b) = fun i j a b => restrict2 ro rv c i j a b + restrict2 ro rv d i j a b := by
  funext k l e f
  simp only [restrict2, mul_add, Finset.sum_add_distrib]

omit [DecidableEq o] [DecidableEq v] in
private theorem restrict2_outer {co cv : Type} (ro : o → co → K) (rv : v → cv → K) (c d : T1 o v K) :
    restrict2 ro rv (outer c d) = outer (restrict1 ro rv c) (restrict1 ro rv d) := by
  funext k l e f
  simp only [restrict2, restrict1, outer]
  rw [Finset.sum_mul_sum]
  refine Finset.sum_congr rfl fun i _ => Finset.sum_congr rfl fun j _ => ?_
  rw [Finset.sum_mul_sum]
  exact Finset.sum_congr rfl fun a _ => Finset.sum_congr rfl fun b _ => by ring

omit [DecidableEq o] [DecidableEq v] in
private theorem restrict_div {co cv : Type} (ro : o → co → K) (rv : v → cv → K) (c1 : T1 o v K) (c2 : T2 o o v v K) (z : K) :
    restrict1 ro rv (fun i a => c1 i a * 1 / z) = (fun i a => restrict1 ro rv c1 i a * 1 / z) ∧
      restrict2 ro rv (fun i j a b => c2 i j a b * 1 / z) = fun i j a b => restrict2 ro rv c2 i j a b * 1 / z := by
  constructor
  · funext k d
    simp only [restrict1, Finset.sum_div, Finset.sum_mul]
    exact Finset.sum_congr rfl fun _ _ => Finset.sum_congr rfl fun _ _ => by ring
  · funext k l d e
    simp only [restrict2, Finset.sum_div, Finset.sum_mul]
    exact Finset.sum_congr rfl fun _ _ => Finset.sum_congr rfl fun _ _ => Finset.sum_congr rfl fun _ _ => Finset.sum_congr rfl fun _ _ => by ring

omit [DecidableEq o] [DecidableEq v] in
private theorem asCisd_rotate {co cv : Type} (u : o → co → K) (w : v → cv → K) (x : EwfEnergy.Wf o v K) :
    (x.rotate u w).asCisd = (restrict1 u w x.asCisd.1, restrict2 u w x.asCisd.2) := by
  cases x with
  | mp2 t2 =>
    simp only [EwfEnergy.Wf.rotate, EwfEnergy.Wf.asCisd, mp2AsCisd, one_mul]
    refine Prod.ext ?_ rfl
    funext k d
    simp [restrict1]
  | ccsd t1 t2 =>
    simp only [EwfEnergy.Wf.rotate, EwfEnergy.Wf.asCisd, one_mul]
    refine Prod.ext rfl ?_
    rw [restrict2_add, restrict2_outer]
  | cisd c0 c1 c2 =>
    simp only [EwfEnergy.Wf.rotate, EwfEnergy.Wf.asCisd]
    exact Prod.ext (restrict_div u w c1 c2 c0).1.symm (restrict_div u w c1 c2 c0).2.symm

/-- C83 (choice of cluster orbitals). A fragment's energy does not depend on which orbitals span the occupied and the virtual space of
its cluster. -/
theorem wf_energy_rotation (s : Sys ι o v K) (x : EwfEnergy.Frag ι K) [DecidableEq x.co] [DecidableEq x.cv] {co' cv' : Type} [Fintype co'] [Fintype cv']
    (u : x.co → co' → K) (w : x.cv → cv' → K) (hu : mm u (tp u) = delta) (hw : mm w (tp w) = delta) :
    (x.rotate u w).wfEnergy s = x.wfEnergy s := by
  have hp : (x.rotate u w).px s = mm (x.px s) u := by
    show mm (tp x.cFrag) (mm s.ovlp (mm x.cOcc u)) = mm (mm (tp x.cFrag) (mm s.ovlp x.cOcc)) u
    simp only [mm_assoc]
  have hc : (x.rotate u w).wf.asCisd = (restrict1 u w x.wf.asCisd.1, restrict2 u w x.wf.asCisd.2) := asCisd_rotate u w x.wf
  have hr : ∀ M : x.co → x.co → K, mm u (mm (tp u) M) = M := fun M => by rw [← mm_assoc, hu, delta_mm]
  have hr' : ∀ M : x.co → x.cv → K, mm u (mm (tp u) M) = M := fun M => by rw [← mm_assoc, hu, delta_mm]
  have hr'' : ∀ M : x.co → ι → K, mm u (mm (tp u) M) = M := fun M => by rw [← mm_assoc, hu, delta_mm]
  have hw' : ∀ M : x.cv → ι → K, mm w (mm (tp w) M) = M := fun M => by rw [← mm_assoc, hw, delta_mm]
  rw [wfEnergy_ao, wfEnergy_ao]
  have h1 : aoSingles s (x.rotate u w) = aoSingles s x := by
    rw [aoSingles_eq, aoSingles_eq, hp, hc]
    show mm (mm x.cOcc u) (mm (mm (tp (mm (x.px s) u)) (mm (mm (x.px s) u) (restrict1 u w x.wf.asCisd.1))) (tp (mm x.cVir w))) = _
    simp only [restrict1_eq, tp_mm, mm_assoc, hw', hr'']
  have h2 : aoDoubles s (x.rotate u w) = aoDoubles s x := by
    rw [aoDoubles_eq, aoDoubles_eq, hp, hc]
    show L1 (mm x.cOcc u) (L2 (mm x.cOcc u) (L3 (mm x.cVir w) (L4 (mm x.cVir w) (L1 (tp (mm (x.px s) u)) (L1 (mm (x.px s) u)
      (restrict2 u w x.wf.asCisd.2)))))) = _
    rw [restrict2_eq]
    simp only [tp_mm, L4_L1, L4_L2, L4_L3, L3_L1, L3_L2, L2_L1, L1_L1, L2_L2, L3_L3, L4_L4, mm_assoc, hu, hw, hr, mm_delta]
  rw [h1, h2]
  rfl

private theorem amp_t1 (t1 : T1 o v K) (t2 : T2 o o v v K) (x : Amplitudes.Frag o v K) (hs : SpansAll x) (p : x.f → x.co → K)
    (hp : x.pwf = .ccsd (RCcsd.project p (inCluster1 x.ro x.rv t1) (inCluster2 x.ro x.rv t2) none none)) :
    x.t1Contrib false = .ok (mm (fragProj x (projOf x)) t1) ∧ x.t2Contrib false = .ok (symmetrizeC2 (L1 (fragProj x (projOf x)) t2)) := by
  have hpp : projOf x = p := by simp only [projOf, hp]; rfl
  constructor
  · rw [hpp, ← back_restored1 x hs]
    simp only [Frag.t1Contrib, hp]
    rfl
  · rw [hpp, ← back_restored2 x hs, ← back_sym]
    simp only [Frag.t2Contrib, hp]
    rfl

private theorem toAmp_overlaps (s : Sys ι o v K) (ho : mm (tp s.moOcc) (mm s.ovlp s.moOcc) = delta) (hv : mm (tp s.moVir) (mm s.ovlp s.moVir) = delta)
    (x : EwfEnergy.Frag ι K) (ro : o → x.co → K) (rv : v → x.cv → K) (h : FullCluster s x ro rv) :
    mm (tp s.moOcc) (mm s.ovlp x.cOcc) = ro ∧ mm (tp s.moVir) (mm s.ovlp x.cVir) = rv := by
  constructor
  · rw [h.occ, ← mm_assoc s.ovlp, ← mm_assoc, ho, delta_mm]
  · rw [h.vir, ← mm_assoc s.ovlp, ← mm_assoc, hv, delta_mm]

/-- The cluster spans the whole space and holds the CCSD amplitudes of the whole system. -/
def HoldsCcsd (s : Sys ι o v K) (t1 : T1 o v K) (t2 : T2 o o v v K) (x : EwfEnergy.Frag ι K) : Prop :=
  ∃ ro rv, FullCluster s x ro rv ∧ x.wf = .ccsd (restrict1 ro rv t1) (restrict2 ro rv t2)

private theorem holds_exact (s : Sys ι o v K) (t1 : T1 o v K) (t2 : T2 o o v v K) (x : EwfEnergy.Frag ι K) (h : HoldsCcsd s t1 t2 x) :
    ExactCluster s t1 (fun i j a b => t2 i j a b + t1 i a * t1 j b) x := by
  obtain ⟨ro, rv, hf, hw⟩ := h
  refine ⟨ro, rv, hf, ?_⟩
  have := asCisd_rotate ro rv (.ccsd t1 t2)
  simp only [EwfEnergy.Wf.rotate, EwfEnergy.Wf.asCisd, one_mul] at this
  rw [hw]
  simp only [EwfEnergy.Wf.asCisd, one_mul]
  exact this

private theorem amp_global (h2 : (2 : K) ≠ 0) (s : Sys ι o v K) (ho : mm (tp s.moOcc) (mm s.ovlp s.moOcc) = delta)
    (hv : mm (tp s.moVir) (mm s.ovlp s.moVir) = delta) (t1 : T1 o v K) (t2 : T2 o o v v K) (ht : ∀ i j a b, t2 j i b a = t2 i j a b)
    (l : List (EwfEnergy.Frag ι K)) (hsf : ∀ x ∈ l, x.symFactor = 1) (hp : PartitionsOcc s l) (hx : ∀ x ∈ l, HoldsCcsd s t1 t2 x) :
    globalT1 false (l.map (Frag.toAmp s)) = .ok t1 ∧ globalT2 false (l.map (Frag.toAmp s)) = .ok t2 := by
  have hA : ∀ y ∈ l.map (Frag.toAmp s), y.t1Contrib false = .ok (mm (fragProj y (projOf y)) t1) ∧
      y.t2Contrib false = .ok (symmetrizeC2 (L1 (fragProj y (projOf y)) t2)) := by
    intro y hy
    obtain ⟨x, hxl, rfl⟩ := List.mem_map.mp hy
    obtain ⟨ro, rv, hf, hw⟩ := hx x hxl
    obtain ⟨e1, e2⟩ := toAmp_overlaps s ho hv x ro rv hf
    refine amp_t1 t1 t2 (Frag.toAmp s x) ⟨?_, ?_⟩ (x.px s) ?_
    · show mm (mm (tp s.moOcc) (mm s.ovlp x.cOcc)) (tp (mm (tp s.moOcc) (mm s.ovlp x.cOcc))) = delta
      rw [e1, hf.spanOcc]
    · show mm (mm (tp s.moVir) (mm s.ovlp x.cVir)) (tp (mm (tp s.moVir) (mm s.ovlp x.cVir))) = delta
      rw [e2, hf.spanVir]
    · show x.wf.project (x.px s) = Pwf.ccsd (RCcsd.project (x.px s) (inCluster1 (mm (tp s.moOcc) (mm s.ovlp x.cOcc))
        (mm (tp s.moVir) (mm s.ovlp x.cVir)) t1) (inCluster2 (mm (tp s.moOcc) (mm s.ovlp x.cOcc)) (mm (tp s.moVir) (mm s.ovlp x.cVir)) t2) none none)
      rw [e1, e2, hw]
      rfl
  have hC : Complete (l.map (Frag.toAmp s)) := by
    intro i j
    rw [← hp i j, List.map_map]
    congr 1
    refine List.map_congr_left fun x hxl => ?_
    obtain ⟨ro, rv, hf, hw⟩ := hx x hxl
    obtain ⟨e1, e2⟩ := toAmp_overlaps s ho hv x ro rv hf
    have hpp : projOf (Frag.toAmp s x) = x.px s := by
      show projOf (Frag.toAmp s x) = x.px s
      have : (Frag.toAmp s x).pwf = .ccsd (RCcsd.project (x.px s) (restrict1 ro rv t1) (restrict2 ro rv t2) none none) := by
        show x.wf.project (x.px s) = _
        rw [hw]; rfl
      simp only [projOf, this]; rfl
    have hfp : fragProj (Frag.toAmp s x) (projOf (Frag.toAmp s x)) = mm (mm ro (tp (x.px s))) (mm (x.px s) (tp ro)) := by
      rw [hpp]
      refine (fragProj_eq (Frag.toAmp s x) (x.px s)).trans ?_
      show mm (mm (mm (tp s.moOcc) (mm s.ovlp x.cOcc)) (tp (x.px s))) (mm (x.px s) (tp (mm (tp s.moOcc) (mm s.ovlp x.cOcc)))) = _
      rw [e1]
    have hr : ∀ M : o → o → K, mm ro (mm (tp ro) M) = M := fun M => by rw [← mm_assoc, hf.spanOcc, delta_mm]
    show fragProj (Frag.toAmp s x) (projOf (Frag.toAmp s x)) i j = x.symFactor * wgt s x i j
    rw [hsf x hxl, one_mul, hfp, px_full s x ro rv hf]
    simp only [wgt, tp_mm, mm_assoc, hf.spanOcc, hr, mm_delta]
  refine ⟨?_, ?_⟩
  · rw [globalT1_ok false _ _ fun y hy => (hA y hy).1]
    congr 1; funext i a
    exact complete_sum _ hC (fun k => t1 k a) i
  · rw [globalT2_ok false _ _ fun y hy => (hA y hy).2]
    congr 1; funext i j a b
    exact complete_sum_sym h2 _ hC t2 ht i j a b

private theorem doubles_exact (s : Sys ι o v K) (ho : mm (tp s.moOcc) (mm s.ovlp s.moOcc) = delta)
    (hv : mm (tp s.moVir) (mm s.ovlp s.moVir) = delta) (t1 : T1 o v K) (t2 : T2 o o v v K) (x : EwfEnergy.Frag ι K) (hx : HoldsCcsd s t1 t2 x) :
    x.ccsdDoubles s t1 = (x.symmetryFactor : K) * x.wfEnergy { s with fock := fun _ _ => 0 } := by
  obtain ⟨ro, rv, hf, hw⟩ := hx
  obtain ⟨e1, e2⟩ := toAmp_overlaps s ho hv x ro rv hf
  have hc : ∀ (y : x.f) (j : x.co) (a b : x.cv), (x.wf.projectedCcsd (x.px s)).2 y j a b + outer (x.wf.projectedCcsd (x.px s)).1
      (mm (tp (mm (tp s.moOcc) (mm s.ovlp x.cOcc))) (mm t1 (mm (tp s.moVir) (mm s.ovlp x.cVir)))) y j a b =
      projectC2 (x.px s) x.wf.asCisd.2 y j a b := by
    intro y j a b
    rw [e1, e2, ← restrict1_eq, hw]
    simp only [EwfEnergy.Wf.projectedCcsd, EwfEnergy.Wf.asCisd, outer, projectC1, projectC2, one_mul, Finset.sum_mul, mul_add,
      Finset.sum_add_distrib, mul_assoc]
  have hg : ∀ (c : x.f → x.co → x.cv → x.cv → K) (G : x.co → x.co → x.cv → x.cv → K),
      ∑ y, ∑ j, ∑ a, ∑ b, c y j a b * (∑ i, x.px s y i * G i j a b) = ∑ y, ∑ i, ∑ j, ∑ a, ∑ b, x.px s y i * c y j a b * G i j a b := by
    intro c G
    refine Finset.sum_congr rfl fun y _ => ?_
    simp only [Finset.mul_sum]
    rw [eq_comm, Finset.sum_comm]
    refine Finset.sum_congr rfl fun j _ => ?_
    rw [Finset.sum_comm]
    refine Finset.sum_congr rfl fun a _ => ?_
    rw [Finset.sum_comm]
    exact Finset.sum_congr rfl fun b _ => Finset.sum_congr rfl fun i _ => by ring
  have g1 := hg (projectC2 (x.px s) x.wf.asCisd.2) fun i j a b => x.ovvo s i a b j
  have g2 := hg (projectC2 (x.px s) x.wf.asCisd.2) fun i j a b => x.ovvo s i b a j
  beta_reduce at g1 g2
  have hz : x.fov { s with fock := fun _ _ => (0 : K) } = fun _ _ => 0 := by
    funext i a
    simp [Frag.fov, mm]
  have hE : x.wfEnergy { s with fock := fun _ _ => (0 : K) } = x.symFactor *
      (2 * (∑ y, ∑ i, ∑ j, ∑ a, ∑ b, x.px s y i * projectC2 (x.px s) x.wf.asCisd.2 y j a b * x.ovvo s i a b j) -
        ∑ y, ∑ i, ∑ j, ∑ a, ∑ b, x.px s y i * projectC2 (x.px s) x.wf.asCisd.2 y j a b * x.ovvo s i b a j) := by
    show x.symFactor * _ + x.symFactor * _ = _
    rw [hz]
    simp only [zero_mul, Finset.sum_const_zero, mul_zero, zero_add]
    rfl
  rw [hE]
  simp only [Frag.ccsdDoubles, hc, g1, g2]
  ring

/-- C83 (CCSD energies). For CCSD amplitudes, `get_ccsd_corr_energy` from fragments or from global amplitudes gives the exact energy
expression of the CCSD amplitudes, if the clusters and fragments are as in `wf_energy_exact_plain`; with equal Fock matrices it is the same
as the projected energy. -/
theorem ccsd_energy_exact (h2 : (2 : K) ≠ 0) (s : Sys ι o v K) (ho : mm (tp s.moOcc) (mm s.ovlp s.moOcc) = delta)
    (hv : mm (tp s.moVir) (mm s.ovlp s.moVir) = delta) (t1 : T1 o v K) (t2 : T2 o o v v K) (ht : ∀ i j a b, t2 j i b a = t2 i j a b)
    (l : List (EwfEnergy.Frag ι K)) (hl : ∀ x ∈ l, x.contributes = true ∧ x.root = true ∧ x.symmetryFactor = 1 ∧ x.symFactor = 1)
    (hp : PartitionsOcc s l) (hx : ∀ x ∈ l, HoldsCcsd s t1 t2 x) (full : Bool) :
    ccsdCorrEnergy s full l =
        .ok (ciEnergy (mm (tp s.moOcc) (mm s.fockNoExx s.moVir)) s.ovvo t1 (fun i j a b => t2 i j a b + t1 i a * t1 j b) / s.ncells) ∧
      (mm (tp s.moOcc) (mm s.fockNoExx s.moVir) = mm (tp s.moOcc) (mm s.fock s.moVir) → ∀ stored : EwfEnergy.Frag ι K → Bool,
        ccsdCorrEnergy s full l = .ok (wfCorrEnergy s (l.map fun x => x.kernel s (stored x)))) := by
  have hmain : ccsdCorrEnergy s full l =
        .ok (ciEnergy (mm (tp s.moOcc) (mm s.fockNoExx s.moVir)) s.ovvo t1 (fun i j a b => t2 i j a b + t1 i a * t1 j b) / s.ncells) := by
    have f1 : l.filter (fun x => x.contributes) = l := List.filter_eq_self.mpr fun x h => (hl x h).1
    have f2 : l.filter (fun x => x.contributes && x.root) = l := List.filter_eq_self.mpr fun x h => by simp [(hl x h).1, (hl x h).2.1]
    obtain ⟨g1, g2⟩ := amp_global h2 s ho hv t1 t2 ht l (fun x h => (hl x h).2.2.2) hp hx
    unfold ccsdCorrEnergy
    rw [f1, f2, g1]
    have hd : ∀ (c : T2 o o v v K), 2 * (∑ i, ∑ j, ∑ a, ∑ b, c i j a b * s.ovvo i a b j) - ∑ i, ∑ j, ∑ a, ∑ b, c i j a b * s.ovvo i b a j =
        ∑ i, ∑ j, ∑ a, ∑ b, (2 * s.ovvo i a b j - s.ovvo i b a j) * c i j a b := by
      intro c
      simp only [Finset.mul_sum, ← Finset.sum_sub_distrib]
      exact Finset.sum_congr rfl fun _ _ => Finset.sum_congr rfl fun _ _ => Finset.sum_congr rfl fun _ _ =>
        Finset.sum_congr rfl fun _ _ => by ring
    cases full with
    | true =>
      rw [g2]
      refine congrArg Except.ok (congrArg (· / s.ncells) ?_)
      rw [hd]
      rfl
    | false =>
      refine congrArg Except.ok (congrArg (· / s.ncells) ?_)
      have e : (l.map (Frag.ccsdDoubles s t1)) = l.map fun x => x.wfEnergy { s with fock := fun _ _ => (0 : K) } :=
        List.map_congr_left fun x h => by rw [doubles_exact s ho hv t1 t2 x (hx x h), (hl x h).2.2.1]; simp
      rw [e, sum_exact { s with fock := fun _ _ => (0 : K) } t1 (fun i j a b => t2 i j a b + t1 i a * t1 j b) l hp
        (fun x h => holds_exact { s with fock := fun _ _ => (0 : K) } t1 t2 x (by
          obtain ⟨ro, rv, hf, hw⟩ := hx x h
          exact ⟨ro, rv, ⟨hf.occ, hf.vir, hf.spanOcc, hf.spanVir⟩, hw⟩))]
      have hz : (mm (tp s.moOcc) (mm (fun _ _ => (0 : K)) s.moVir)) = fun _ _ => 0 := by
        funext i a; simp [mm]
      simp only [ciEnergy, hz, zero_mul, Finset.sum_const_zero, mul_zero, zero_add]
      rfl
  refine ⟨hmain, fun hF stored => ?_⟩
  rw [hmain, hF, wf_energy_exact_plain s t1 (fun i j a b => t2 i j a b + t1 i a * t1 j b) stored l
    (fun x h => ⟨(hl x h).1, (hl x h).2.1, (hl x h).2.2.1⟩) hp (fun x h => holds_exact s t1 t2 x (hx x h))]

end Exact

section Unrestricted
variable {oa ob va vb : Type} [Fintype oa] [Fintype ob] [Fintype va] [Fintype vb]

/-- Order of indices as in the doubles coefficients. -/
private def ord {p q r t : Type} (g : p → q → r → t → K) : p → r → q → t → K := fun i j a b => g i a j b
private def ordx {p q : Type} (g : p → q → p → q → K) : p → p → q → q → K := fun i j a b => g i b j a

private theorem sum_mid {a b c d : Type} [Fintype a] [Fintype b] [Fintype c] [Fintype d] (f : a → b → c → d → K) :
    ∑ p, ∑ q, ∑ r, ∑ t, f p q r t = ∑ p, ∑ r, ∑ q, ∑ t, f p q r t := Finset.sum_congr rfl fun _ _ => Finset.sum_comm

private theorem ord_ovov {i₁ a₁ i₂ a₂ p q r t : Type} [Fintype p] [Fintype q] [Fintype r] [Fintype t] (g : p → q → r → t → K) (ca : p → i₁ → K)
    (da : q → a₁ → K) (cb : r → i₂ → K) (db : t → a₂ → K) (i : i₁) (j : i₂) (a : a₁) (b : a₂) :
    ∑ p, ∑ q, ∑ r, ∑ t, ca p i * (da q a * (cb r j * (db t b * g p q r t))) =
      L1 (tp ca) (L2 (tp cb) (L3 (tp da) (L4 (tp db) (ord g)))) i j a b := by
  simp only [L1, L2, L3, L4, tp, ord, Finset.mul_sum]
  rw [sum_mid]
  exact Finset.sum_congr rfl fun _ _ => Finset.sum_congr rfl fun _ _ => Finset.sum_congr rfl fun _ _ =>
    Finset.sum_congr rfl fun _ _ => by ring

private theorem pair_chain4 {i₁ a₁ i₂ a₂ p q r t : Type} [Fintype i₁] [Fintype a₁] [Fintype i₂] [Fintype a₂] [Fintype p] [Fintype q] [Fintype r]
    [Fintype t] (ca : p → i₁ → K) (cb : r → i₂ → K) (da : q → a₁ → K) (db : t → a₂ → K) (g : p → r → q → t → K) (c : i₁ → i₂ → a₁ → a₂ → K) :
    pair (L1 (tp ca) (L2 (tp cb) (L3 (tp da) (L4 (tp db) g)))) c = pair g (L1 ca (L2 cb (L3 da (L4 db c)))) := by
  rw [pair_L1, pair_L2, pair_L3, pair_L4, L2_L1, L3_L1, L4_L1, L3_L2, L4_L2, L4_L3]

private theorem ordx_ovov {i₁ a₁ p q : Type} [Fintype p] [Fintype q] (g : p → q → p → q → K) (c : p → i₁ → K) (d : q → a₁ → K)
    (i j : i₁) (a b : a₁) : ∑ p, ∑ q, ∑ r, ∑ t, c p i * (d q b * (c r j * (d t a * g p q r t))) =
      L1 (tp c) (L2 (tp c) (L3 (tp d) (L4 (tp d) (ordx g)))) i j a b := by
  rw [ord_ovov g c d c d i j b a, ← L4_L3]
  rfl

private theorem pair_flip {o₁ o₂ v₁ v₂ : Type} [Fintype o₁] [Fintype o₂] [Fintype v₁] [Fintype v₂] (g c : o₁ → o₂ → v₁ → v₂ → K) :
    pair (transp g) (transp c) = pair g c := by
  unfold pair transp
  rw [Finset.sum_comm]
  exact Finset.sum_congr rfl fun _ _ => Finset.sum_congr rfl fun _ _ => Finset.sum_comm

/-- The six terms of an unrestricted fragment energy. -/
private def six {oa ob va vb : Type} [Fintype oa] [Fintype ob] [Fintype va] [Fintype vb] (fa : oa → va → K) (fb : ob → vb → K)
    (gaa : oa → va → oa → va → K) (gab : oa → va → ob → vb → K) (gbb : ob → vb → ob → vb → K) (Wa : oa → oa → K) (Wb : ob → ob → K)
    (c1 : T1 oa va K × T1 ob vb K) (aa : T2 oa oa va va K) (ab : T2 oa ob va vb K) (bb : T2 ob ob vb vb K) : K :=
  dotf fa (mm Wa c1.1) + dotf fb (mm Wb c1.2) + (pair (ord gaa) (L1 Wa aa) / 4 - pair (ordx gaa) (L1 Wa aa) / 4 +
    pair (ord gbb) (L1 Wb bb) / 4 - pair (ordx gbb) (L1 Wb bb) / 4 + pair (ord gab) (L1 Wa ab) / 2 + pair (ord gab) (L2 Wb ab) / 2)

private theorem uenergy_eq (s : USys ι K) (x : UFrag ι K) (aa : T2 x.coa x.coa x.cva x.cva K) (ab : T2 x.coa x.cob x.cva x.cvb K)
    (bb : T2 x.cob x.cob x.cvb x.cvb K) (h : HasBlocks x.wf.asCisd.c2 aa ab bb) :
    x.wfEnergy s = x.symFactor * six (mm (tp x.cOcc.1) (mm s.fock.1 x.cVir.1)) (mm (tp x.cOcc.2) (mm s.fock.2 x.cVir.2))
      (ovov s.eri x.cOcc.1 x.cVir.1 x.cOcc.1 x.cVir.1) (ovov s.eri x.cOcc.1 x.cVir.1 x.cOcc.2 x.cVir.2)
      (ovov s.eri x.cOcc.2 x.cVir.2 x.cOcc.2 x.cVir.2) (mm (tp (x.px s).1) (x.px s).1) (mm (tp (x.px s).2) (x.px s).2) x.wf.asCisd.c1 aa ab bb := by
  have hc2 : (x.wf.asCisd.project (x.px s)).c2 =
      ⟨projectC2 (x.px s).1 aa, projectC2 (x.px s).1 ab, projectC2 (x.px s).2 (transp ab), projectC2 (x.px s).2 bb⟩ := by
    unfold UCisd.project projectUC2
    unfold HasBlocks at h
    cases hh : x.wf.asCisd.c2 with
    | three c =>
      rw [hh] at h
      obtain ⟨rfl, rfl, rfl⟩ := h
      rfl
    | four c =>
      rw [hh] at h
      obtain ⟨rfl, rfl, h3, rfl⟩ := h
      simp only [h3]
      rfl
  have hba : ∀ (g : x.coa → x.cva → x.cob → x.cvb → K), EwfEnergy.term (x.px s).2 (projectC2 (x.px s).2 (transp ab)) (fun i j a b => g j b i a) =
      pair (ord g) (L2 (mm (tp (x.px s).2) (x.px s).2) ab) := by
    intro g
    unfold EwfEnergy.term
    rw [term_pair, ← pair_flip, ← L2_L2]
    rfl
  have haa : ∀ {o v f p q : Type} [Fintype o] [Fintype v] [Fintype f] [Fintype p] [Fintype q] (w : f → o → K) (c : o → p → v → q → K)
      (g : o → p → v → q → K), EwfEnergy.term w (projectC2 w c) g = pair g (L1 (mm (tp w) w) c) := by
    intro o v f p q _ _ _ _ _ w c g
    unfold EwfEnergy.term
    rw [term_pair, ← L1_L1]
    rfl
  have h1 : ∀ {o v f : Type} [Fintype o] [Fintype v] [Fintype f] (F : o → v → K) (w : f → o → K) (c : o → v → K),
      ∑ i, ∑ a, ∑ y, F i a * w y i * projectC1 w c y a = dotf F (mm (mm (tp w) w) c) := by
    intro o v f _ _ _ F w c
    rw [mm_assoc]
    unfold dotf
    refine Finset.sum_congr rfl fun i _ => Finset.sum_congr rfl fun a _ => ?_
    rw [mm, Finset.mul_sum]
    exact Finset.sum_congr rfl fun y _ => by rw [mul_assoc]; rfl
  unfold UFrag.wfEnergy
  rw [hc2]
  show x.symFactor * ((∑ i, ∑ a, ∑ y, _ * _ * projectC1 (x.px s).1 x.wf.asCisd.c1.1 y a) +
    ∑ i, ∑ a, ∑ y, _ * _ * projectC1 (x.px s).2 x.wf.asCisd.c1.2 y a) + x.symFactor * _ = _
  rw [h1, h1, ← mul_add]
  congr 2
  rw [hba]
  simp only [haa]
  rfl

private theorem list_dotf {α : Type*} {O V : Type} [Fintype O] [Fintype V] (f : O → V → K) (l : List α) (w : α → K) (t : α → O → V → K) :
    (l.map fun x => w x * dotf f (t x)).sum = dotf f fun i a => (l.map fun x => w x * t x i a).sum := by
  induction l with
  | nil => simp [dotf]
  | cons y l ih =>
    simp only [List.map_cons, List.sum_cons, ih]
    simp only [dotf, mul_add, Finset.sum_add_distrib, Finset.mul_sum]
    congr 1
    exact Finset.sum_congr rfl fun _ _ => Finset.sum_congr rfl fun _ _ => by ring

private theorem list_pair {α : Type*} {a b c d : Type} [Fintype a] [Fintype b] [Fintype c] [Fintype d] (g : a → b → c → d → K) (l : List α)
    (w : α → K) (t : α → a → b → c → d → K) :
    (l.map fun x => w x * pair g (t x)).sum = pair g fun p q r s => (l.map fun x => w x * t x p q r s).sum := by
  induction l with
  | nil => simp [pair]
  | cons y l ih =>
    simp only [List.map_cons, List.sum_cons, ih]
    simp only [pair, mul_add, Finset.sum_add_distrib, Finset.mul_sum]
    refine congrArg₂ (· + ·) ?_ rfl
    exact Finset.sum_congr rfl fun _ _ => Finset.sum_congr rfl fun _ _ => Finset.sum_congr rfl fun _ _ => Finset.sum_congr rfl fun _ _ => by ring

variable [DecidableEq oa] [DecidableEq ob] [DecidableEq va] [DecidableEq vb]

omit [DecidableEq oa] [DecidableEq ob] [DecidableEq va] [DecidableEq vb] in
private theorem restrictAB_eq {coa cob cva cvb : Type} (ra : oa → coa → K) (rb : ob → cob → K) (wa : va → cva → K) (wb : vb → cvb → K)
    (c : T2 oa ob va vb K) : restrictAB ra rb wa wb c = L1 (tp ra) (L2 (tp rb) (L3 (tp wa) (L4 (tp wb) c))) := by
  funext k l d e
  simp only [restrictAB, L1, L2, L3, L4, tp, Finset.mul_sum]
  exact Finset.sum_congr rfl fun _ _ => Finset.sum_congr rfl fun _ _ => Finset.sum_congr rfl fun _ _ =>
    Finset.sum_congr rfl fun _ _ => by ring

private theorem mo_pair {coa cob cva cvb : Type} [Fintype coa] [Fintype cob] [Fintype cva] [Fintype cvb] (g : ι → ι → ι → ι → K)
    (ca : ι → oa → K) (cb : ι → ob → K) (da : ι → va → K) (db : ι → vb → K) (ra : oa → coa → K) (rb : ob → cob → K) (wa : va → cva → K)
    (wb : vb → cvb → K) (h1 : mm ra (tp ra) = delta) (h2 : mm rb (tp rb) = delta) (h3 : mm wa (tp wa) = delta) (h4 : mm wb (tp wb) = delta)
    (u : oa → oa → K) (z : ob → ob → K) (c : T2 oa ob va vb K) :
    pair (ord (ovov g (mm ca ra) (mm da wa) (mm cb rb) (mm db wb))) (L1 (mm (tp ra) (mm u ra)) (restrictAB ra rb wa wb c)) =
        pair (ord (ovov g ca da cb db)) (L1 u c) ∧
      pair (ord (ovov g (mm ca ra) (mm da wa) (mm cb rb) (mm db wb))) (L2 (mm (tp rb) (mm z rb)) (restrictAB ra rb wa wb c)) =
        pair (ord (ovov g ca da cb db)) (L2 z c) := by
  have e0 : ∀ {A B C D : Type} (ca : ι → A → K) (da : ι → B → K) (cb : ι → C → K) (db : ι → D → K),
      ord (ovov g ca da cb db) = L1 (tp ca) (L2 (tp cb) (L3 (tp da) (L4 (tp db) (ord g)))) := by
    intro A B C D ca da cb db
    funext i j a b
    exact ord_ovov g ca da cb db i j a b
  have e : ord (ovov g (mm ca ra) (mm da wa) (mm cb rb) (mm db wb)) =
      L1 (tp ra) (L2 (tp rb) (L3 (tp wa) (L4 (tp wb) (ord (ovov g ca da cb db))))) := by
    rw [e0, e0]
    simp only [tp_mm, ← L1_L1, ← L2_L2, ← L3_L3, ← L4_L4]
    simp only [L4_L1, L4_L2, L4_L3, L3_L1, L3_L2, L2_L1]
  have k1 : mm ra (mm (mm (tp ra) (mm u ra)) (tp ra)) = u := by
    simp only [mm_assoc, h1, mm_delta]
    rw [← mm_assoc, h1, delta_mm]
  have k2 : mm rb (mm (mm (tp rb) (mm z rb)) (tp rb)) = z := by
    simp only [mm_assoc, h2, mm_delta]
    rw [← mm_assoc, h2, delta_mm]
  constructor
  · rw [e, pair_chain4, restrictAB_eq]
    congr 1
    simp only [L4_L1, L4_L2, L4_L3, L3_L1, L3_L2, L2_L1, L1_L1, L2_L2, L3_L3, L4_L4, h2, h3, h4, L2_delta, L3_delta, L4_delta, k1]
  · rw [e, pair_chain4, restrictAB_eq]
    congr 1
    simp only [L4_L1, L4_L2, L4_L3, L3_L1, L3_L2, L2_L1, L1_L1, L2_L2, L3_L3, L4_L4, h1, h3, h4, L1_delta, L3_delta, L4_delta, k2]

private theorem mo_pairx {co cv : Type} [Fintype co] [Fintype cv] (g : ι → ι → ι → ι → K)
    (c : ι → oa → K) (d : ι → va → K) (r : oa → co → K) (w : va → cv → K) (h1 : mm r (tp r) = delta) (h3 : mm w (tp w) = delta)
    (u : oa → oa → K) (t : T2 oa oa va va K) :
    pair (ordx (ovov g (mm c r) (mm d w) (mm c r) (mm d w))) (L1 (mm (tp r) (mm u r)) (restrict2 r w t)) =
        pair (ordx (ovov g c d c d)) (L1 u t) := by
  have e0 : ∀ {A B : Type} (c : ι → A → K) (d : ι → B → K),
      ordx (ovov g c d c d) = L1 (tp c) (L2 (tp c) (L3 (tp d) (L4 (tp d) (ordx g)))) := by
    intro A B c d
    funext i j a b
    exact ordx_ovov g c d i j a b
  have e : ordx (ovov g (mm c r) (mm d w) (mm c r) (mm d w)) =
      L1 (tp r) (L2 (tp r) (L3 (tp w) (L4 (tp w) (ordx (ovov g c d c d))))) := by
    rw [e0, e0]
    simp only [tp_mm, ← L1_L1, ← L2_L2, ← L3_L3, ← L4_L4]
    simp only [L4_L1, L4_L2, L4_L3, L3_L1, L3_L2, L2_L1]
  have k1 : mm r (mm (mm (tp r) (mm u r)) (tp r)) = u := by
    simp only [mm_assoc, h1, mm_delta]
    rw [← mm_assoc, h1, delta_mm]
  rw [e, pair_chain4, restrict2_eq]
  congr 1
  simp only [L4_L1, L4_L2, L4_L3, L3_L1, L3_L2, L2_L1, L1_L1, L2_L2, L3_L3, L4_L4, h1, h3, L2_delta, L3_delta, L4_delta, k1]

private theorem mo_dotf {co cv : Type} [Fintype co] [Fintype cv] (F : ι → ι → K) (c : ι → oa → K) (d : ι → va → K) (r : oa → co → K) (w : va → cv → K)
    (h1 : mm r (tp r) = delta) (h3 : mm w (tp w) = delta) (u : oa → oa → K) (t : T1 oa va K) :
    dotf (mm (tp (mm c r)) (mm F (mm d w))) (mm (mm (tp r) (mm u r)) (restrict1 r w t)) = dotf (mm (tp c) (mm F d)) (mm u t) := by
  have e : mm (tp (mm c r)) (mm F (mm d w)) = mm (tp r) (mm (mm (tp c) (mm F d)) w) := by
    simp only [tp_mm, mm_assoc]
  have k : ∀ M : oa → va → K, mm r (mm (tp r) M) = M := fun M => by rw [← mm_assoc, h1, delta_mm]
  rw [e, dotf_left, dotf_right, restrict1_eq]
  congr 1
  simp only [mm_assoc, h3, mm_delta, k]

private theorem uexact_energy (s : USys ι K) (m : UMos ι oa ob va vb K) (c1 : T1 oa va K × T1 ob vb K)
    (aa : T2 oa oa va va K) (ab : T2 oa ob va vb K) (bb : T2 ob ob vb vb K) (x : UFrag ι K) (hx : UExactCluster m c1 aa ab bb x) :
    x.wfEnergy s = x.symFactor * six (mm (tp m.occA) (mm s.fock.1 m.virA)) (mm (tp m.occB) (mm s.fock.2 m.virB))
      (ovov s.eri m.occA m.virA m.occA m.virA) (ovov s.eri m.occA m.virA m.occB m.virB) (ovov s.eri m.occB m.virB m.occB m.virB)
      (mm (tp (mm (tp x.cFrag.1) (mm s.ovlp m.occA))) (mm (tp x.cFrag.1) (mm s.ovlp m.occA)))
      (mm (tp (mm (tp x.cFrag.2) (mm s.ovlp m.occB))) (mm (tp x.cFrag.2) (mm s.ovlp m.occB))) c1 aa ab bb := by
  obtain ⟨ra, rb, wa, wb, ho, hv, h1, h2, h3, h4, hc, hb⟩ := hx
  rw [uenergy_eq s x _ _ _ hb]
  have pa : mm (tp (x.px s).1) (x.px s).1 = mm (tp ra) (mm (mm (tp (mm (tp x.cFrag.1) (mm s.ovlp m.occA))) (mm (tp x.cFrag.1) (mm s.ovlp m.occA))) ra) := by
    simp only [UFrag.px, ho, tp_mm, mm_assoc]
  have pb : mm (tp (x.px s).2) (x.px s).2 = mm (tp rb) (mm (mm (tp (mm (tp x.cFrag.2) (mm s.ovlp m.occB))) (mm (tp x.cFrag.2) (mm s.ovlp m.occB))) rb) := by
    simp only [UFrag.px, ho, tp_mm, mm_assoc]
  rw [pa, pb, ho, hv, hc]
  dsimp only
  congr 1
  unfold six
  rw [mo_dotf _ _ _ _ _ h1 h3, mo_dotf _ _ _ _ _ h2 h4, mo_pairx _ _ _ _ _ h1 h3, mo_pairx _ _ _ _ _ h2 h4,
    (mo_pair _ _ _ _ _ _ _ _ _ h1 h2 h3 h4 _ (mm (tp (mm (tp x.cFrag.2) (mm s.ovlp m.occB))) (mm (tp x.cFrag.2) (mm s.ovlp m.occB))) ab).1,
    (mo_pair _ _ _ _ _ _ _ _ _ h1 h2 h3 h4 (mm (tp (mm (tp x.cFrag.1) (mm s.ovlp m.occA))) (mm (tp x.cFrag.1) (mm s.ovlp m.occA))) _ ab).2]
  have ea : restrict2 ra wa aa = restrictAB ra ra wa wa aa := rfl
  have eb : restrict2 rb wb bb = restrictAB rb rb wb wb bb := rfl
  rw [ea, eb, (mo_pair _ _ _ _ _ _ _ _ _ h1 h1 h3 h3 _ (fun _ _ => 0) aa).1, (mo_pair _ _ _ _ _ _ _ _ _ h2 h2 h4 h4 _ (fun _ _ => 0) bb).1]

/-- C83 (unrestricted). If the cluster of every fragment spans the whole space of both spins and holds the exact singles and doubles
coefficients, and the fragments partition the occupied space of each spin, the projected energy is the exact correlation energy per cell. -/
theorem uwf_energy_exact (h2 : (2 : K) ≠ 0) (s : USys ι K) (m : UMos ι oa ob va vb K) (c1 : T1 oa va K × T1 ob vb K)
    (aa : T2 oa oa va va K) (ab : T2 oa ob va vb K) (bb : T2 ob ob vb vb K) (stored : UFrag ι K → Bool) (l : List (UFrag ι K))
    (hl : ∀ x ∈ l, x.contributes = true ∧ x.root = true ∧ x.symmetryFactor = 1) (hp : UPartitionsOcc s m l)
    (hx : ∀ x ∈ l, UExactCluster m c1 aa ab bb x) :
    uwfCorrEnergy s (l.map fun x => x.kernel s (stored x)) =
      uciEnergy (mm (tp m.occA) (mm s.fock.1 m.virA)) (mm (tp m.occB) (mm s.fock.2 m.virB)) (ovov s.eri m.occA m.virA m.occA m.virA)
        (ovov s.eri m.occA m.virA m.occB m.virB) (ovov s.eri m.occB m.virB m.occB m.virB) c1.1 c1.2 aa ab bb / s.ncells := by
  have f0 : uwfCorrEnergy s (l.map fun x => x.kernel s (stored x)) = (l.map fun x => x.wfEnergy s).sum / s.ncells := by
    unfold uwfCorrEnergy
    have : l.filter ((fun x => x.contributes && x.root) ∘ fun x => x.kernel s (stored x)) = l := List.filter_eq_self.mpr fun x h => by
      simp only [Function.comp, UFrag.kernel, (hl x h).1, (hl x h).2.1]; rfl
    rw [List.filter_map, List.map_map, this]
    congr 2
    refine List.map_congr_left fun x h => ?_
    simp only [Function.comp, UFrag.kernel, (hl x h).2.2]
    cases stored x <;> simp [UFrag.wfEnergy, UFrag.energy, UFrag.px]
  rw [f0]
  refine congrArg (· / s.ncells) ?_
  let Wa : UFrag ι K → oa → oa → K := fun x => mm (tp (mm (tp x.cFrag.1) (mm s.ovlp m.occA))) (mm (tp x.cFrag.1) (mm s.ovlp m.occA))
  let Wb : UFrag ι K → ob → ob → K := fun x => mm (tp (mm (tp x.cFrag.2) (mm s.ovlp m.occB))) (mm (tp x.cFrag.2) (mm s.ovlp m.occB))
  have ha : ∀ (i : oa) (t : oa → K), (l.map fun x => x.symFactor * ∑ k, Wa x i k * t k).sum = t i := by
    intro i t
    have : (l.map fun x => x.symFactor * ∑ k, Wa x i k * t k) = l.map fun x => ∑ k, (x.symFactor * Wa x i k) * t k :=
      List.map_congr_left fun x _ => by rw [Finset.mul_sum]; exact Finset.sum_congr rfl fun _ _ => by ring
    have hw : ∀ k, (l.map fun x => x.symFactor * Wa x i k).sum = if i = k then 1 else 0 := fun k => hp.1 i k
    rw [this, Tensor.list_sum_mul l (fun x k => x.symFactor * Wa x i k)]
    simp only [hw]
    simp
  have hb : ∀ (i : ob) (t : ob → K), (l.map fun x => x.symFactor * ∑ k, Wb x i k * t k).sum = t i := by
    intro i t
    have : (l.map fun x => x.symFactor * ∑ k, Wb x i k * t k) = l.map fun x => ∑ k, (x.symFactor * Wb x i k) * t k :=
      List.map_congr_left fun x _ => by rw [Finset.mul_sum]; exact Finset.sum_congr rfl fun _ _ => by ring
    have hw : ∀ k, (l.map fun x => x.symFactor * Wb x i k).sum = if i = k then 1 else 0 := fun k => hp.2 i k
    rw [this, Tensor.list_sum_mul l (fun x k => x.symFactor * Wb x i k)]
    simp only [hw]
    simp
  have e : (l.map fun x => x.wfEnergy s) = l.map fun x => x.symFactor * six _ _ _ _ _ (Wa x) (Wb x) c1 aa ab bb :=
    List.map_congr_left fun x h => uexact_energy s m c1 aa ab bb x (hx x h)
  have d1 : ∀ (F : oa → va → K) (t : oa → va → K), (l.map fun x => x.symFactor * dotf F (mm (Wa x) t)).sum = dotf F t := fun F t => by
    rw [list_dotf]; congr 1; funext i a; exact ha i fun k => t k a
  have d2 : ∀ (F : ob → vb → K) (t : ob → vb → K), (l.map fun x => x.symFactor * dotf F (mm (Wb x) t)).sum = dotf F t := fun F t => by
    rw [list_dotf]; congr 1; funext i a; exact hb i fun k => t k a
  have d3 : ∀ (G t : oa → oa → va → va → K), (l.map fun x => x.symFactor * pair G (L1 (Wa x) t)).sum = pair G t := fun G t => by
    rw [list_pair]; congr 1; funext i j a b; exact ha i fun k => t k j a b
  have d4 : ∀ (G t : ob → ob → vb → vb → K), (l.map fun x => x.symFactor * pair G (L1 (Wb x) t)).sum = pair G t := fun G t => by
    rw [list_pair]; congr 1; funext i j a b; exact hb i fun k => t k j a b
  have d5 : ∀ (G t : oa → ob → va → vb → K), (l.map fun x => x.symFactor * pair G (L1 (Wa x) t)).sum = pair G t := fun G t => by
    rw [list_pair]; congr 1; funext i j a b; exact ha i fun k => t k j a b
  have d6 : ∀ (G t : oa → ob → va → vb → K), (l.map fun x => x.symFactor * pair G (L2 (Wb x) t)).sum = pair G t := fun G t => by
    rw [list_pair]; congr 1; funext i j a b; exact hb j fun k => t i k a b
  have split : ∀ (A B C D E F G H : UFrag ι K → K), (l.map fun x => x.symFactor * (A x + B x + (C x / 4 - D x / 4 + E x / 4 - F x / 4 + G x / 2 + H x / 2))).sum =
      (l.map fun x => x.symFactor * A x).sum + (l.map fun x => x.symFactor * B x).sum + ((l.map fun x => x.symFactor * C x).sum / 4 -
        (l.map fun x => x.symFactor * D x).sum / 4 + (l.map fun x => x.symFactor * E x).sum / 4 - (l.map fun x => x.symFactor * F x).sum / 4 +
        (l.map fun x => x.symFactor * G x).sum / 2 + (l.map fun x => x.symFactor * H x).sum / 2) := by
    intro A B C D E F G H
    clear * -
    induction l with
    | nil => simp
    | cons y l ih => simp only [List.map_cons, List.sum_cons, ih]; ring
  rw [e]
  unfold six
  rw [split, d1, d2, d3, d3, d4, d4, d5, d6]
  have k : ∀ {O V : Type} [Fintype O] [Fintype V] (g : O → V → O → V → K) (t : O → O → V → V → K),
      ∑ i, ∑ j, ∑ a, ∑ b, (g i a j b - g i b j a) * t i j a b = pair (ord g) t - pair (ordx g) t := by
    intro O V _ _ g t
    simp only [pair, ord, ordx, sub_mul, Finset.sum_sub_distrib]
  unfold uciEnergy
  rw [k, k]
  have k2 : ∑ i, ∑ j, ∑ a, ∑ b, ovov s.eri m.occA m.virA m.occB m.virB i a j b * ab i j a b = pair (ord (ovov s.eri m.occA m.virA m.occB m.virB)) ab := rfl
  rw [k2]
  unfold dotf
  field_simp
  ring

/-- C83 (unrestricted code on closed shells). For a closed-shell fragment the unrestricted code computes the energy of the restricted
code. -/
theorem uwf_energy_closed_shell (h2 : (2 : K) ≠ 0) (s : Sys ι o v K) (u : USys ι K) (hS : u.ovlp = s.ovlp) (hF : u.fock = (s.fock, s.fock))
    (hE : u.eri = s.eri) (hket : ∀ p q r t, s.eri p q r t = s.eri p q t r) (hpair : ∀ p q r t, s.eri p q r t = s.eri r t p q)
    (x : EwfEnergy.Frag ι K) (hc : ∀ i j a b, x.wf.asCisd.2 j i b a = x.wf.asCisd.2 i j a b) :
    x.unrestricted.wfEnergy u = x.wfEnergy s := by
  have hw : x.unrestricted.wf.asCisd = ⟨1, (x.wf.asCisd.1, x.wf.asCisd.1), .three ⟨fun i j a b => x.wf.asCisd.2 i j a b - x.wf.asCisd.2 i j b a,
      x.wf.asCisd.2, fun i j a b => x.wf.asCisd.2 i j a b - x.wf.asCisd.2 i j b a⟩⟩ := by
    simp only [Frag.unrestricted, UWf.asCisd, UCisd.asCisd, mul_one, div_one]
  have hb : HasBlocks x.unrestricted.wf.asCisd.c2 (fun i j a b => x.wf.asCisd.2 i j a b - x.wf.asCisd.2 i j b a) x.wf.asCisd.2
      (fun i j a b => x.wf.asCisd.2 i j a b - x.wf.asCisd.2 i j b a) := by
    rw [hw]; exact ⟨rfl, rfl, rfl⟩
  rw [uenergy_eq u x.unrestricted _ _ _ hb, wfEnergy_eq, hF, hE, hw]
  have hp : x.unrestricted.px u = (x.px s, x.px s) := by
    simp only [UFrag.px, hS]; rfl
  rw [hp]
  show x.symFactor * six (x.fov s) (x.fov s) (ovov s.eri x.cOcc x.cVir x.cOcc x.cVir) (ovov s.eri x.cOcc x.cVir x.cOcc x.cVir)
    (ovov s.eri x.cOcc x.cVir x.cOcc x.cVir) (mm (tp (x.px s)) (x.px s)) (mm (tp (x.px s)) (x.px s)) (x.wf.asCisd.1, x.wf.asCisd.1)
    (fun (i j : x.co) (a b : x.cv) => x.wf.asCisd.2 i j a b - x.wf.asCisd.2 i j b a) x.wf.asCisd.2
    (fun (i j : x.co) (a b : x.cv) => x.wf.asCisd.2 i j a b - x.wf.asCisd.2 i j b a) = _
  congr 1
  rw [L1_L1, ← mm_assoc]
  generalize mm (tp (x.px s)) (x.px s) = W
  have hg : ∀ i a j b, x.ovvo s i a b j = ovov s.eri x.cOcc x.cVir x.cOcc x.cVir i a j b := by
    intro i a j b
    unfold Frag.ovvo ovov
    refine Finset.sum_congr rfl fun p _ => Finset.sum_congr rfl fun q _ => ?_
    rw [Finset.sum_comm]
    exact Finset.sum_congr rfl fun r _ => Finset.sum_congr rfl fun t _ => by rw [hket p q t r]; ring
  have hgs : transp (ord (ovov s.eri x.cOcc x.cVir x.cOcc x.cVir)) = ord (ovov s.eri x.cOcc x.cVir x.cOcc x.cVir) := by
    funext i j a b
    show ovov s.eri x.cOcc x.cVir x.cOcc x.cVir j b i a = ovov s.eri x.cOcc x.cVir x.cOcc x.cVir i a j b
    unfold ovov
    have h : ∀ f : ι → ι → ι → ι → K, ∑ p, ∑ q, ∑ r, ∑ t, f p q r t = ∑ p, ∑ q, ∑ r, ∑ t, f r t p q := by
      intro f
      have e1 : ∑ p, ∑ q, ∑ r, ∑ t, f p q r t = ∑ a : ι × ι, ∑ b : ι × ι, f a.1 a.2 b.1 b.2 := by simp only [Fintype.sum_prod_type]
      have e2 : ∑ p, ∑ q, ∑ r, ∑ t, f r t p q = ∑ b : ι × ι, ∑ a : ι × ι, f a.1 a.2 b.1 b.2 := by simp only [Fintype.sum_prod_type]
      rw [e1, e2]
      exact Finset.sum_comm
    rw [h]
    exact Finset.sum_congr rfl fun p _ => Finset.sum_congr rfl fun q _ => Finset.sum_congr rfl fun r _ =>
      Finset.sum_congr rfl fun t _ => by rw [hpair r t p q]; ring
  generalize hgg : ovov s.eri x.cOcc x.cVir x.cOcc x.cVir = g at hg hgs
  have hcs : transp x.wf.asCisd.2 = x.wf.asCisd.2 := by
    funext i j a b
    exact hc i j a b
  generalize x.wf.asCisd.2 = c at hcs
  have hA : L1 W (fun i j a b => c i j a b - c i j b a) = fun i j a b => L1 W c i j a b - L1 W c i j b a := by
    funext i j a b
    simp only [L1, mul_sub, Finset.sum_sub_distrib]
  have hsw : ∀ (G t : x.co → x.co → x.cv → x.cv → K), pair G (fun i j a b => t i j b a) = pair (fun i j a b => G i j b a) t := by
    intro G t
    unfold pair
    exact Finset.sum_congr rfl fun i _ => Finset.sum_congr rfl fun j _ => Finset.sum_comm
  have hsub : ∀ (G t t' : x.co → x.co → x.cv → x.cv → K), pair G (fun i j a b => t i j a b - t' i j a b) = pair G t - pair G t' := by
    intro G t t'
    simp only [pair, mul_sub, Finset.sum_sub_distrib]
  have hL2 : pair (ord g) (L2 W c) = pair (ord g) (L1 W c) := by
    conv_lhs => rw [← pair_flip, hgs]
    have : transp (L2 W c) = L1 W (transp c) := rfl
    rw [this, hcs]
  have hk : pair (kern (x.ovvo s)) (L1 W c) = 2 * pair (ord g) (L1 W c) - pair (ordx g) (L1 W c) := by
    have : kern (x.ovvo s) = fun i j a b => 2 * ord g i j a b - ordx g i j a b := by
      funext i j a b
      simp only [kern, hg, ord, ordx]
    rw [this]
    simp only [pair, sub_mul, Finset.sum_sub_distrib, Finset.mul_sum, mul_assoc]
  have hx1 : pair (ord g) (fun i j a b => L1 W c i j b a) = pair (ordx g) (L1 W c) := hsw _ _
  have hx2 : pair (ordx g) (fun i j a b => L1 W c i j b a) = pair (ord g) (L1 W c) := hsw _ _
  rw [ciEnergy_eq, hk]
  unfold six
  rw [hA, hsub, hsub, hx1, hx2, hL2]
  have h4 : (4 : K) ≠ 0 := by
    have : (4 : K) = 2 * 2 := by ring
    rw [this]
    exact mul_ne_zero h2 h2
  dsimp only
  generalize dotf (x.fov s) (mm W x.wf.asCisd.1) = D
  generalize pair (ord g) (L1 W c) = X
  generalize pair (ordx g) (L1 W c) = Y
  field_simp
  ring

end Unrestricted

end

/-! Two fragments that are images of each other: three orthonormal AOs, the first two occupied and exchanged by a symmetry. -/

private def exMo (p : Fin 3) (i : Fin 2) : ℚ := if p.val = i.val then 1 else 0
private def exVir (p : Fin 3) (_ : Fin 1) : ℚ := if p.val = 2 then 1 else 0
private def exSys : EwfEnergy.Sys (Fin 3) (Fin 2) (Fin 1) ℚ where
  ovlp := delta
  fock p q := if p.val = 2 ∨ q.val = 2 then 3 else 1
  fockNoExx p q := if p.val = 2 ∨ q.val = 2 then 3 else 1
  eri p q r t := (if p.val = 2 then 2 else 1) * (if q.val = 2 then 2 else 1) + (if r.val = 2 then 2 else 1) * (if t.val = 2 then 2 else 1)
  moOcc := exMo
  moVir := exVir
  ncells := 2
private def exT2 (i j : Fin 2) (_ _ : Fin 1) : ℚ := if i = j then 1 / 3 else 1 / 5
private def exFrag : EwfEnergy.Frag (Fin 3) ℚ where
  f := Fin 1
  co := Fin 2
  cv := Fin 1
  cFrag p _ := if p.val = 0 then 1 else 0
  cOcc := exMo
  cVir := exVir
  wf := .ccsd (fun _ _ => 1 / 2) exT2
  symFactor := 1
  symmetryFactor := 2
  root := true
  contributes := true
  eCorr := none
private def exSwap (p q : Fin 3) : ℚ := if (p.val = 0 ∧ q.val = 1) ∨ (p.val = 1 ∧ q.val = 0) ∨ (p.val = 2 ∧ q.val = 2) then 1 else 0
private def exFlip (i j : Fin 2) : ℚ := if i = j then 0 else 1

/-- The hypotheses of `wf_energy_exact` can be met with a calculated fragment that stands for two. -/
example : ∃ (l : List (EwfEnergy.Frag (Fin 3) ℚ)) (ops : EwfEnergy.Frag (Fin 3) ℚ → List (Fin 3 → Fin 3 → ℚ)) (c1 : T1 (Fin 2) (Fin 1) ℚ)
    (c2 : T2 (Fin 2) (Fin 2) (Fin 1) (Fin 1) ℚ), (∀ x ∈ l, x.symmetryFactor = (ops x).length) ∧ (∀ x ∈ l, ∀ U ∈ ops x, Leaves U exSys) ∧
      PartitionsOcc exSys ((l.filter fun x => x.contributes && x.root).flatMap fun x => (ops x).map fun U => x.image U) ∧
      (∀ y ∈ (l.filter fun x => x.contributes && x.root).flatMap fun x => (ops x).map fun U => x.image U, ExactCluster exSys c1 c2 y) ∧
      wfCorrEnergy exSys (l.map fun x => x.kernel exSys false) ≠ 0 := by
  refine ⟨[exFrag], fun _ => [delta, exSwap], fun _ _ => 1 / 2, fun i j _ _ => exT2 i j 0 0 + 1 / 2 * (1 / 2), ?_, ?_, ?_, ?_, ?_⟩
  · intro x hx
    rw [List.mem_singleton.mp hx]
    rfl
  · intro x _ U hU
    simp only [List.mem_cons, List.not_mem_nil, or_false] at hU
    rcases hU with rfl | rfl
    · exact ⟨by decide +kernel, by decide +kernel, by decide +kernel⟩
    · exact ⟨by decide +kernel, by decide +kernel, by decide +kernel⟩
  · show ∀ i j : Fin 2, _
    decide +kernel
  · intro y hy
    have : y = exFrag.image delta ∨ y = exFrag.image exSwap := by
      simpa [exFrag] using hy
    rcases this with rfl | rfl
    · exact ⟨(delta : Fin 2 → Fin 2 → ℚ), (delta : Fin 1 → Fin 1 → ℚ), ⟨by decide +kernel, by decide +kernel, by decide +kernel, by decide +kernel⟩, by decide +kernel⟩
    · exact ⟨exFlip, (delta : Fin 1 → Fin 1 → ℚ), ⟨by decide +kernel, by decide +kernel, by decide +kernel, by decide +kernel⟩, by decide +kernel⟩
  · decide +kernel

private def exOne (n : Fin 2) : EwfEnergy.Frag (Fin 3) ℚ := { exFrag with cFrag := fun p _ => if p.val = n.val then 1 else 0, symmetryFactor := 1 }

/-- The hypotheses of `ccsd_energy_exact`, and with it of `wf_energy_exact_plain`, can be met, with a non-zero energy. -/
example : mm (tp exSys.moOcc) (mm exSys.ovlp exSys.moOcc) = delta ∧ mm (tp exSys.moVir) (mm exSys.ovlp exSys.moVir) = delta ∧
    PartitionsOcc exSys [exOne 0, exOne 1] ∧ (∀ x ∈ [exOne 0, exOne 1], HoldsCcsd exSys (fun _ _ => 1 / 2) exT2 x) ∧
    (∀ x ∈ [exOne 0, exOne 1], x.contributes = true ∧ x.root = true ∧ x.symmetryFactor = 1 ∧ x.symFactor = 1) ∧
    ccsdCorrEnergy exSys false [exOne 0, exOne 1] = .ok (wfCorrEnergy exSys ([exOne 0, exOne 1].map fun x => x.kernel exSys true)) ∧
    wfCorrEnergy exSys ([exOne 0, exOne 1].map fun x => x.kernel exSys true) ≠ 0 := by
  have h1 : mm (tp exSys.moOcc) (mm exSys.ovlp exSys.moOcc) = delta := by decide +kernel
  have h2 : mm (tp exSys.moVir) (mm exSys.ovlp exSys.moVir) = delta := by decide +kernel
  have h3 : PartitionsOcc exSys [exOne 0, exOne 1] := by
    show ∀ i j : Fin 2, _
    decide +kernel
  have h4 : ∀ x ∈ [exOne 0, exOne 1], HoldsCcsd exSys (fun _ _ => 1 / 2) exT2 x := by
    have hw : (.ccsd (fun _ _ => 1 / 2) exT2 : EwfEnergy.Wf (Fin 2) (Fin 1) ℚ) =
        .ccsd (restrict1 (delta : Fin 2 → Fin 2 → ℚ) (delta : Fin 1 → Fin 1 → ℚ) fun _ _ => 1 / 2) (restrict2 delta delta exT2) :=
      congrArg₂ EwfEnergy.Wf.ccsd (by decide +kernel) (by decide +kernel)
    intro x hx
    simp only [List.mem_cons, List.not_mem_nil, or_false] at hx
    rcases hx with rfl | rfl
    · exact ⟨(delta : Fin 2 → Fin 2 → ℚ), (delta : Fin 1 → Fin 1 → ℚ), ⟨by decide +kernel, by decide +kernel, by decide +kernel, by decide +kernel⟩, hw⟩
    · exact ⟨(delta : Fin 2 → Fin 2 → ℚ), (delta : Fin 1 → Fin 1 → ℚ), ⟨by decide +kernel, by decide +kernel, by decide +kernel, by decide +kernel⟩, hw⟩
  have h5 : ∀ x ∈ [exOne 0, exOne 1], x.contributes = true ∧ x.root = true ∧ x.symmetryFactor = 1 ∧ x.symFactor = 1 := by
    intro x hx
    simp only [List.mem_cons, List.not_mem_nil, or_false] at hx
    rcases hx with rfl | rfl <;> exact ⟨rfl, rfl, rfl, rfl⟩
  exact ⟨h1, h2, h3, h4, h5, (ccsd_energy_exact (by norm_num) exSys h1 h2 (fun _ _ => 1 / 2) exT2 (by decide +kernel) _ h5 h3 h4 false).2 rfl
    fun _ => true, by decide +kernel⟩

/-- The hypotheses of `uwf_energy_exact` can be met: the same fragments in the unrestricted code. -/
example : UPartitionsOcc ⟨delta, (exSys.fock, exSys.fock), exSys.eri, 2⟩ (⟨exMo, exMo, exVir, exVir⟩ : UMos (Fin 3) (Fin 2) (Fin 2) (Fin 1) (Fin 1) ℚ)
      [(exOne 0).unrestricted, (exOne 1).unrestricted] ∧
    ∃ c1 aa ab bb, ∀ x ∈ [(exOne 0).unrestricted, (exOne 1).unrestricted],
      UExactCluster (⟨exMo, exMo, exVir, exVir⟩ : UMos (Fin 3) (Fin 2) (Fin 2) (Fin 1) (Fin 1) ℚ) c1 aa ab bb x := by
  refine ⟨⟨by decide +kernel, by decide +kernel⟩, (exFrag.wf.asCisd.1, exFrag.wf.asCisd.1), fun i j a b => exFrag.wf.asCisd.2 i j a b - exFrag.wf.asCisd.2 i j b a,
    exFrag.wf.asCisd.2, fun i j a b => exFrag.wf.asCisd.2 i j a b - exFrag.wf.asCisd.2 i j b a, ?_⟩
  intro x hx
  simp only [List.mem_cons, List.not_mem_nil, or_false] at hx
  rcases hx with rfl | rfl
  · exact ⟨(delta : Fin 2 → Fin 2 → ℚ), (delta : Fin 2 → Fin 2 → ℚ), (delta : Fin 1 → Fin 1 → ℚ), (delta : Fin 1 → Fin 1 → ℚ), by decide +kernel,
      by decide +kernel, by decide +kernel, by decide +kernel, by decide +kernel, by decide +kernel, by decide +kernel,
      ⟨by decide +kernel, by decide +kernel, by decide +kernel⟩⟩
  · exact ⟨(delta : Fin 2 → Fin 2 → ℚ), (delta : Fin 2 → Fin 2 → ℚ), (delta : Fin 1 → Fin 1 → ℚ), (delta : Fin 1 → Fin 1 → ℚ), by decide +kernel,
      by decide +kernel, by decide +kernel, by decide +kernel, by decide +kernel, by decide +kernel, by decide +kernel,
      ⟨by decide +kernel, by decide +kernel, by decide +kernel⟩⟩

end Vayesta.Props
