import Verif.Lemmas.EwfRdmTotal

/-! Exact clusters, for `Verif/Model/EwfRdm.lean`. -/

set_option linter.unusedSectionVars false

namespace Vayesta.EwfRdm
open Vayesta.Amplitudes Vayesta.Tensor Vayesta.Props

variable {K : Type} [Field K] {ι o v : Type} [Fintype ι] [Fintype o] [Fintype v]

/-- Amplitudes in cluster orbitals. -/
theorem restrict1_eq {c d : Type} (ro : o → c → K) (rv : v → d → K) (t : T1 o v K) : EwfEnergy.restrict1 ro rv t = mm (tp ro) (mm t rv) := by
  funext k c
  simp only [EwfEnergy.restrict1, mm, tp, Finset.mul_sum]
  exact Finset.sum_congr rfl fun _ _ => Finset.sum_congr rfl fun _ _ => by ring

theorem restrict2_eq {c d : Type} (ro : o → c → K) (rv : v → d → K) (t : T2 o o v v K) :
    EwfEnergy.restrict2 ro rv t = L1 (tp ro) (L2 (tp ro) (L3 (tp rv) (L4 (tp rv) t))) := by
  funext k l c d
  simp only [EwfEnergy.restrict2, L1, L2, L3, L4, tp, Finset.mul_sum]
  exact Finset.sum_congr rfl fun _ _ => Finset.sum_congr rfl fun _ _ => Finset.sum_congr rfl fun _ _ =>
    Finset.sum_congr rfl fun _ _ => by ring

/-- Overlap of fragment orbitals with occupied orbitals. -/
def FO (s : Mf ι o v K) (x : Frag ι K) : x.f → o → K := mm (tp x.cFrag) (mm s.ovlp s.moOcc)

section
variable [DecidableEq o] [DecidableEq v] {s : Mf ι o v K} (hs : Orthonormal s) {t1 l1 : T1 o v K} {t2 l2 : T2 o o v v K}
  {x : Frag ι K} {ro : o → x.co → K} {rv : v → x.cv → K} (hx : Exact s t1 t2 l1 l2 x ro rv)
include hs hx

theorem ex_mco : x.mco s = ro := by
  rw [Frag.mco, hx.occ, ← mm_assoc s.ovlp, ← mm_assoc, hs.occ, delta_mm]
theorem ex_mcv : x.mcv s = rv := by
  rw [Frag.mcv, hx.vir, ← mm_assoc s.ovlp, ← mm_assoc, hs.vir, delta_mm]
theorem ex_px : x.px s = mm (FO s x) ro := by
  rw [Frag.px, hx.occ, FO, mm_assoc, mm_assoc]
theorem ex_mf : x.mf s = tp (FO s x) := by
  rw [Frag.mf, FO, tp_mm, tp_mm, tp_tp, hs.ovlp, mm_assoc]

theorem ex_t2 : x.t2 = L1 (FO s x) (L2 (tp ro) (L3 (tp rv) (L4 (tp rv) t2))) := by
  have h := hx.t2
  rw [restrict2_eq] at h
  refine h.trans ?_
  show L1 (x.px s) _ = _
  rw [L1_L1, ex_px hs hx, mm_assoc, hx.spanOcc, mm_delta]
theorem ex_t1 : x.t1 = mm (FO s x) (mm t1 rv) := by
  have h := hx.t1
  rw [restrict1_eq] at h
  refine h.trans ?_
  show mm (x.px s) _ = _
  rw [ex_px hs hx, mm_assoc, ← mm_assoc ro, hx.spanOcc, delta_mm]
theorem ex_l2 : x.l2 = some (L1 (FO s x) (L2 (tp ro) (L3 (tp rv) (L4 (tp rv) l2)))) := by
  have h := hx.l2
  rw [restrict2_eq] at h
  refine h.trans (congrArg some ?_)
  show L1 (x.px s) _ = _
  rw [L1_L1, ex_px hs hx, mm_assoc, hx.spanOcc, mm_delta]
theorem ex_l1 : x.l1 = some (mm (FO s x) (mm l1 rv)) := by
  have h := hx.l1
  rw [restrict1_eq] at h
  refine h.trans (congrArg some ?_)
  show mm (x.px s) _ = _
  rw [ex_px hs hx, mm_assoc, ← mm_assoc ro, hx.spanOcc, delta_mm]

end

/-- Projector of a fragment. -/
def PF (s : Mf ι o v K) (x : Frag ι K) : o → o → K := mm (tp (FO s x)) (FO s x)

theorem sum_PF [DecidableEq o] {s : Mf ι o v K} {l : List (Frag ι K)} (h : Partitions s l) : (l.map (PF s)).sum = delta := by
  funext i j
  rw [sum_apply2]
  exact h i j

theorem back_proj [DecidableEq o] [DecidableEq v] {f c d : Type} [Fintype f] [Fintype c] [Fintype d] (F : f → o → K) {ro : o → c → K} {rv : v → d → K}
    (hro : mm ro (tp ro) = delta) (hrv : mm rv (tp rv) = delta) (t : T2 o o v v K) :
    back ro rv (L1 (tp (mm F ro)) (L1 F (L2 (tp ro) (L3 (tp rv) (L4 (tp rv) t))))) = L1 (mm (tp F) F) t := by
  unfold back
  have h : mm ro (tp (mm F ro)) = tp F := by rw [tp_mm, ← mm_assoc, hro, delta_mm]
  simp only [L4_L1, L4_L2, L4_L3, L3_L1, L3_L2, L2_L1, L1_L1, L2_L2, L3_L3, L4_L4, hro, hrv, L2_delta, L3_delta, L4_delta]
  rw [← mm_assoc, h]

/-- Symmetrised action of a projector. -/
def symP (P : o → o → K) (t : T2 o o v v K) : T2 o o v v K := (1 / 2 : K) • (L1 P t + L2 P (transp t))

theorem back_restored [DecidableEq o] [DecidableEq v] {f c d : Type} [Fintype f] [Fintype c] [Fintype d] (F : f → o → K) {ro : o → c → K} {rv : v → d → K}
    (hro : mm ro (tp ro) = delta) (hrv : mm rv (tp rv) = delta) (t : T2 o o v v K) :
    back ro rv (restored (mm F ro) (L1 F (L2 (tp ro) (L3 (tp rv) (L4 (tp rv) t))))) = symP (mm (tp F) F) t := by
  have h := back_proj F hro hrv t
  have hb : ∀ (A : T2 c c d d K), back ro rv (transp A) = transp (back ro rv A) := by
    intro A
    have : transp (back ro rv A) = L2 ro (L1 ro (L4 rv (L3 rv (transp A)))) := rfl
    rw [this, L2_L1, L4_L3, back]
  have hr : ∀ A : T2 f c d d K, restored (mm F ro) A = (1 / 2 : K) • (L1 (tp (mm F ro)) A + transp (L1 (tp (mm F ro)) A)) := fun A => restored_eq _ _
  have hl : ∀ A B : T2 c c d d K, back ro rv ((1 / 2 : K) • (A + B)) = (1 / 2 : K) • (back ro rv A + back ro rv B) := by
    intro A B
    simp only [back, L4_smul, L3_smul, L2_smul, L1_smul, L4_add, L3_add, L2_add, L1_add]
  rw [hr, hl, hb, h]
  rfl

theorem symP_sum [DecidableEq o] (h2 : (2 : K) ≠ 0) {s : Mf ι o v K} {l : List (Frag ι K)} (h : Partitions s l) (t : T2 o o v v K) (ht : transp t = t) :
    (l.map fun x => symP (PF s x) t).sum = t := by
  have e := map_sum_add (fun P : o → o → K => symP P t) ?_ ?_ (PF s) l
  · rw [← e, sum_PF h]
    funext i j a b
    show (1 / 2 : K) * (L1 delta t i j a b + L2 delta (transp t) i j a b) = _
    rw [L1_delta, L2_delta, ht]
    field_simp
    ring
  · funext i j a b
    simp [symP, L1, L2]
  · intro P Q
    funext i j a b
    simp only [symP, L1, L2, Pi.smul_apply, Pi.add_apply, smul_eq_mul, add_mul, Finset.sum_add_distrib]
    ring

theorem mm_sum [DecidableEq o] {n : Type} {s : Mf ι o v K} {l : List (Frag ι K)} (h : Partitions s l) (t : o → n → K) : (l.map fun x => mm (PF s x) t).sum = t := by
  have e := map_sum_add (fun P : o → o → K => mm P t) ?_ ?_ (PF s) l
  · rw [← e, sum_PF h, delta_mm]
  · funext i a; simp [mm]
  · intro P Q
    exact mm_add_l P Q t

/-- All fragments are exact. -/
def AllExact [DecidableEq o] [DecidableEq v] (s : Mf ι o v K) (t1 : T1 o v K) (t2 : T2 o o v v K) (l1 : T1 o v K) (l2 : T2 o o v v K) (l : List (Frag ι K)) : Prop :=
  ∀ z ∈ l, ∃ ro rv, Exact s t1 t2 l1 l2 z ro rv

section
variable [DecidableEq o] [DecidableEq v] {s : Mf ι o v K} (hs : Orthonormal s) (h2 : (2 : K) ≠ 0) {t1 l1 : T1 o v K} {t2 l2 : T2 o o v v K}
  {l : List (Frag ι K)} (hx : AllExact s t1 t2 l1 l2 (l.flatMap Frag.family)) (hp : Partitions s (l.flatMap Frag.family))
include hs hx hp

theorem contrib1 {c d f : Type} [Fintype c] [Fintype d] [Fintype f] (F : f → o → K) {ro : o → c → K} {rv : v → d → K}
    (hro : mm ro (tp ro) = delta) (hrv : mm rv (tp rv) = delta) (t : T1 o v K) :
    backT1 ro rv (projectC1 (tr (mm F ro)) (mm F (mm t rv))) = mm (mm (tp F) F) t := by
  have h3 : ∀ c : T1 c d K, backT1 ro rv c = mm ro (mm c (tp rv)) := by
    intro c
    funext k c
    simp only [backT1, mm, tp, Finset.mul_sum]
    exact Finset.sum_congr rfl fun _ _ => Finset.sum_congr rfl fun _ _ => by ring
  rw [h3]
  show mm ro (mm (mm (tp (mm F ro)) (mm F (mm t rv))) (tp rv)) = _
  rw [tp_mm]
  simp only [mm_assoc]
  rw [hrv, mm_delta, ← mm_assoc ro, hro, delta_mm]

theorem globT1_exact (hlam : ∀ z ∈ l.flatMap Frag.family, z.tAsLambda = false) : globT1 s false l = .ok t1 ∧ globT1 s true l = .ok l1 := by
  have e : ∀ g, globT1 s g l = accumulate (fun z : Frag ι K => (z.toAmp s).t1Contrib g) (l.flatMap Frag.family) := by
    intro g
    unfold globT1 globalT1 accumulate
    rw [List.foldlM_map]
    rfl
  refine ⟨?_, ?_⟩
  · rw [e, accumulate_ok _ (fun z => mm (PF s z) t1), mm_sum hp]
    intro z hz
    obtain ⟨ro, rv, h⟩ := hx z hz
    have h1 : (z.toAmp s).t1Contrib false = .ok (backT1 (z.mco s) (z.mcv s) (projectC1 (tr (z.px s)) z.t1)) := rfl
    rw [h1, ex_mco hs h, ex_mcv hs h, ex_px hs h, ex_t1 hs h, contrib1 hs hx hp _ h.spanOcc h.spanVir]
    rfl
  · rw [e, accumulate_ok _ (fun z => mm (PF s z) l1), mm_sum hp]
    intro z hz
    obtain ⟨ro, rv, h⟩ := hx z hz
    have ha : z.toAmp s = { ro := z.mco s, rv := z.mcv s, pwf := .ccsd (.proj (z.px s) z.t1 z.t2 (some (mm (FO s z) (mm l1 rv))) z.l2), tAsLambda := false } := by
      unfold Frag.toAmp; rw [hlam z hz, ex_l1 hs h]
    have h1 : (z.toAmp s).t1Contrib true = .ok (backT1 (z.mco s) (z.mcv s) (projectC1 (tr (z.px s)) (mm (FO s z) (mm l1 rv)))) := by
      rw [ha]; rfl
    rw [h1, ex_mco hs h, ex_mcv hs h, ex_px hs h, contrib1 hs hx hp _ h.spanOcc h.spanVir]
    rfl

theorem globT1_exact_t : globT1 s false l = .ok t1 := by
  have e : ∀ g, globT1 s g l = accumulate (fun z : Frag ι K => (z.toAmp s).t1Contrib g) (l.flatMap Frag.family) := by
    intro g
    unfold globT1 globalT1 accumulate
    rw [List.foldlM_map]
    rfl
  rw [e, accumulate_ok _ (fun z => mm (PF s z) t1), mm_sum hp]
  intro z hz
  obtain ⟨ro, rv, h⟩ := hx z hz
  have h1 : (z.toAmp s).t1Contrib false = .ok (backT1 (z.mco s) (z.mcv s) (projectC1 (tr (z.px s)) z.t1)) := rfl
  rw [h1, ex_mco hs h, ex_mcv hs h, ex_px hs h, ex_t1 hs h, contrib1 hs hx hp _ h.spanOcc h.spanVir]
  rfl

include h2

theorem Tg_exact (ht : transp t2 = t2) : Tg s l = t2 := by
  unfold Tg
  refine Eq.trans (congrArg List.sum (List.map_congr_left fun z hz => ?_)) (symP_sum h2 hp t2 ht)
  obtain ⟨ro, rv, h⟩ := hx z hz
  unfold Bt
  rw [ex_mco hs h, ex_mcv hs h, ex_px hs h, ex_t2 hs h, back_restored _ h.spanOcc h.spanVir]
  rfl

theorem Lg_exact (w : Opts K) (ht : transp t2 = t2) (hl : transp l2 = l2) (hmp : ∀ z ∈ l.flatMap Frag.family, z.mp2 = true → l2 = t2) :
    Lg s w l = if w.tAsLambda then t2 else l2 := by
  have key : ∀ z ∈ l.flatMap Frag.family, Bl s w.tAsLambda z = symP (PF s z) (if w.tAsLambda then t2 else l2) := by
    intro z hz
    obtain ⟨ro, rv, h⟩ := hx z hz
    have hla : lamA w.tAsLambda z = L1 (FO s z) (L2 (tp ro) (L3 (tp rv) (L4 (tp rv) (if w.tAsLambda then t2 else l2)))) := by
      unfold lamA
      cases hw : w.tAsLambda with
      | true => simpa using ex_t2 hs h
      | false =>
        cases hm : z.mp2 with
        | true => rw [hmp z hz hm]; simpa using ex_t2 hs h
        | false => rw [ex_l2 hs h]; rfl
    unfold Bl
    rw [ex_mco hs h, ex_mcv hs h, ex_px hs h, hla, back_restored _ h.spanOcc h.spanVir]
    rfl
  unfold Lg
  refine Eq.trans (congrArg List.sum (List.map_congr_left key)) (symP_sum h2 hp _ ?_)
  split_ifs <;> assumption

end

/-! ### `make_rdm1_ccsd` -/

/-- The last two axes swapped. -/
def sw {m n a b : Type} (t : m → n → a → b → K) : m → n → b → a → K := fun i j a b => t i j b a

theorem theta_L {f c d m n : Type} [Fintype f] [Fintype c] [Fintype d] {p : Type} (F : p → f → K) (A : m → c → K) (B : n → d → K) (t : T2 f c d d K) :
    theta (L1 F (L2 A (L3 B (L4 B t)))) = L1 F (L2 A (L3 B (L4 B (theta t)))) := by
  have h : L1 F (L2 A (L3 B (L4 B (sw t)))) = sw (L1 F (L2 A (L3 B (L4 B t)))) := by
    have : L1 F (L2 A (L3 B (L4 B (sw t)))) = sw (L1 F (L2 A (L4 B (L3 B t)))) := rfl
    rw [this, L4_L3]
  have e : ∀ {f c d : Type} (t : T2 f c d d K), theta t = (2 : K) • t + (-1 : K) • sw t := by
    intro f c d t
    funext i j a b
    simp only [theta, sw, Pi.add_apply, Pi.smul_apply, smul_eq_mul]; ring
  rw [e t, e (L1 F _), ← h]
  simp only [L4_add, L3_add, L2_add, L1_add, L4_smul, L3_smul, L2_smul, L1_smul]

section
variable {f c d : Type} [Fintype f] [Fintype c] [Fintype d] (th l2 : T2 f c d d K) (co : o → c → K) (cv : v → d → K) (fo : o → f → K)

theorem fdoo : (fun p q => -∑ k, ∑ i, ∑ j, ∑ b, ∑ a, th k i b a * l2 k j b a * co p i * co q j : o → o → K) =
    -dotO (L1 co (transp th)) (L1 co (transp l2)) := by
  funext p q
  refine congrArg (- ·) (Finset.sum_congr rfl fun k _ => ?_)
  show _ = ∑ a, ∑ b, (∑ i, co p i * th k i b a) * (∑ j, co q j * l2 k j b a)
  simp only [Finset.sum_mul_sum]
  rw [← sum3_comm1 (fun i a b => ∑ j, co p i * th k i b a * (co q j * l2 k j b a))]
  refine Finset.sum_congr rfl fun i _ => ?_
  rw [← sum3_comm1 (fun j a b => co p i * th k i b a * (co q j * l2 k j b a))]
  refine Finset.sum_congr rfl fun j _ => ?_
  rw [Finset.sum_comm]
  exact Finset.sum_congr rfl fun _ _ => Finset.sum_congr rfl fun _ _ => by ring

theorem fvv1 : (fun p q => ∑ i, ∑ j, ∑ c, ∑ a, ∑ b, th i j c a * l2 i j c b * cv p a * cv q b : v → v → K) = dotV (L4 cv th) (L4 cv l2) := by
  funext p q
  refine Finset.sum_congr rfl fun i _ => Finset.sum_congr rfl fun j _ => Finset.sum_congr rfl fun c _ => ?_
  show _ = (∑ a, cv p a * th i j c a) * (∑ b, cv q b * l2 i j c b)
  rw [Finset.sum_mul_sum]
  exact Finset.sum_congr rfl fun _ _ => Finset.sum_congr rfl fun _ _ => by ring

theorem fvv2 : (fun p q => ∑ i, ∑ j, ∑ c, ∑ a, ∑ b, th i j a c * l2 i j b c * cv p a * cv q b : v → v → K) = dotV (L4 cv (sw th)) (L4 cv (sw l2)) :=
  fvv1 (sw th) (sw l2) cv

theorem fov1 (l1x : c → d → K) : (fun p q => ∑ i, ∑ j, ∑ a, ∑ b, th i j a b * fo p i * cv q a * l1x j b : o → v → K) = dotS (L1 fo (L3 cv th)) l1x := by
  funext p q
  show _ = ∑ j, ∑ b, (∑ i, fo p i * ∑ a, cv q a * th i j a b) * l1x j b
  simp only [Finset.mul_sum, Finset.sum_mul]
  rw [← sum3_comm1 (fun i j b => ∑ a, fo p i * (cv q a * th i j a b) * l1x j b)]
  refine Finset.sum_congr rfl fun i _ => Finset.sum_congr rfl fun j _ => ?_
  rw [Finset.sum_comm]
  exact Finset.sum_congr rfl fun _ _ => Finset.sum_congr rfl fun _ _ => by ring

theorem fov2 (M : f → d → K) : (fun p q => ∑ j, ∑ i, ∑ b, ∑ a, th j i b a * co p i * cv q a * M j b : o → v → K) = dotS (L1 co (L3 cv (transp th))) M := by
  funext p q
  show _ = ∑ j, ∑ b, (∑ i, co p i * ∑ a, cv q a * th j i b a) * M j b
  refine Finset.sum_congr rfl fun j _ => ?_
  simp only [Finset.mul_sum, Finset.sum_mul]
  rw [Finset.sum_comm]
  exact Finset.sum_congr rfl fun _ _ => Finset.sum_congr rfl fun _ _ => Finset.sum_congr rfl fun _ _ => by ring

end

section
variable [DecidableEq o] [DecidableEq v] {f c d : Type} [Fintype f] [Fintype c] [Fintype d] (F : f → o → K) {ro : o → c → K} {rv : v → d → K}
  (hro : mm ro (tp ro) = delta) (hrv : mm rv (tp rv) = delta) (th l2 : T2 o o v v K)
include hro hrv

theorem exO : L1 ro (transp (L1 F (L2 (tp ro) (L3 (tp rv) (L4 (tp rv) th))))) = L2 F (L3 (tp rv) (L4 (tp rv) (transp th))) := by
  show L1 ro (L2 F (L1 (tp ro) (L4 (tp rv) (L3 (tp rv) (transp th))))) = _
  rw [L2_L1, L1_L1, hro, L1_delta, L4_L3]

theorem exDoo (hl : transp l2 = l2) (ht : transp th = th) : dotO (L1 ro (transp (L1 F (L2 (tp ro) (L3 (tp rv) (L4 (tp rv) th))))))
    (L1 ro (transp (L1 F (L2 (tp ro) (L3 (tp rv) (L4 (tp rv) l2)))))) = dotO th (L2 (mm (tp F) F) l2) := by
  rw [exO F hro hrv, exO F hro hrv, hl, ht, dotO_L2, dotO_L3, dotO_L4, L3_L2, L3_L2, L3_L3, L4_L2, L4_L2, L4_L3, L4_L4, tp_tp, hrv, L3_delta, L4_delta, L2_L2]

theorem exVV : dotV (L4 rv (L1 F (L2 (tp ro) (L3 (tp rv) (L4 (tp rv) th))))) (L4 rv (L1 F (L2 (tp ro) (L3 (tp rv) (L4 (tp rv) l2))))) =
    dotV th (L1 (mm (tp F) F) l2) := by
  rw [L4_L1, L4_L2, L4_L3, L4_L4, L4_L1, L4_L2, L4_L3, L4_L4, hrv, L4_delta, L4_delta, dotV_L1, dotV_L2, dotV_L3, L2_L1, L2_L1, L3_L1, L3_L1, L2_L2,
    L3_L2, L3_L3, tp_tp, tp_tp, hro, hrv, L2_delta, L3_delta, L1_L1]

theorem exOV1 (l1 : T1 o v K) : dotS (L1 (tp F) (L3 rv (L1 F (L2 (tp ro) (L3 (tp rv) (L4 (tp rv) th)))))) (mm (tp ro) (mm l1 rv)) =
    mm (mm (tp F) F) (dotS th l1) := by
  rw [L3_L1, L3_L2, L3_L3, hrv, L3_delta, L1_L1, dotS_L1, dotS_L2, dotS_L4, tp_tp, ← mm_assoc ro, hro, delta_mm, mm_assoc l1, hrv, mm_delta]

theorem exOV2 (l1 : T1 o v K) : dotS (L1 ro (L3 rv (transp (L1 F (L2 (tp ro) (L3 (tp rv) (L4 (tp rv) th))))))) (mm F (mm l1 rv)) =
    dotS (transp th) (mm (mm (tp F) F) l1) := by
  rw [← L3_L1, exO F hro hrv, L3_L2, L3_L3, hrv, L3_delta, dotS_L2, dotS_L4, mm_assoc, mm_assoc F, mm_assoc l1, hrv, mm_delta, mm_assoc]

end

theorem sw_L {f c d m n p : Type} [Fintype f] [Fintype c] [Fintype d] (F : p → f → K) (A : m → c → K) (B : n → d → K) (t : T2 f c d d K) :
    sw (L1 F (L2 A (L3 B (L4 B t)))) = L1 F (L2 A (L3 B (L4 B (sw t)))) := by
  have : L1 F (L2 A (L3 B (L4 B (sw t)))) = sw (L1 F (L2 A (L4 B (L3 B t)))) := rfl
  rw [this, L4_L3]

/-- Swapping both pairs of axes of symmetric arrays. -/
theorem dotV_sw (A B : T2 o o v v K) (hA : transp A = A) (hB : transp B = B) : dotV (sw A) (sw B) = dotV A B := by
  have h : dotV (sw A) (sw B) = dotV (transp A) (transp B) := by
    funext a b
    show ∑ i, ∑ j, ∑ c, A i j a c * B i j b c = ∑ i, ∑ j, ∑ c, A j i a c * B j i b c
    exact Finset.sum_comm
  rw [h, hA, hB]

theorem transp_theta {f d : Type} (t : T2 f f d d K) (ht : transp t = t) : transp (theta t) = theta t := by
  have h : ∀ i j a b, t j i b a = t i j a b := fun i j a b => congrFun (congrFun (congrFun (congrFun ht i) j) a) b
  funext i j a b
  show 2 * t j i b a - t j i a b = 2 * t i j a b - t i j b a
  rw [h i j a b, h i j b a]

theorem half_eq {A B : Type} (f g : A → B → K) : (fun p q => f p q / 2 + g p q / 2) = (1 / 2 : K) • (f + g) := by
  funext p q
  simp only [Pi.smul_apply, Pi.add_apply, smul_eq_mul]; ring

theorem fragBlocks_eq (s : Mf ι o v K) (sym mp2 : Bool) (m1 : T1 o v K) (x : Frag ι K) (l2 : T2 x.f x.co x.cv x.cv K) :
    fragBlocks s sym mp2 m1 x l2 = (-dotO (L1 (x.mco s) (transp (theta x.t2))) (L1 (x.mco s) (transp l2)),
      if sym then (1 / 2 : K) • (dotV (L4 (x.mcv s) (theta x.t2)) (L4 (x.mcv s) l2) + dotV (L4 (x.mcv s) (sw (theta x.t2))) (L4 (x.mcv s) (sw l2)))
        else dotV (L4 (x.mcv s) (theta x.t2)) (L4 (x.mcv s) l2),
      if mp2 then 0 else if sym then (1 / 2 : K) • (dotS (L1 (x.mf s) (L3 (x.mcv s) (theta x.t2))) (mm (tp (x.mco s)) (mm m1 (x.mcv s))) +
          dotS (L1 (x.mco s) (L3 (x.mcv s) (transp (theta x.t2)))) (mm (tp (x.mf s)) (mm m1 (x.mcv s))))
        else dotS (L1 (x.mf s) (L3 (x.mcv s) (theta x.t2))) (mm (tp (x.mco s)) (mm m1 (x.mcv s)))) := by
  cases sym with
  | true =>
    refine Prod.ext (fdoo (theta x.t2) l2 (x.mco s)) (Prod.ext ?_ ?_)
    · show _ = (1 / 2 : K) • (_ + _)
      rw [← fvv1, ← fvv2, ← half_eq]
      rfl
    · cases mp2 with
      | true => rfl
      | false =>
        show _ = (1 / 2 : K) • (_ + _)
        rw [← fov1, ← fov2, ← half_eq]
        rfl
  | false =>
    refine Prod.ext (fdoo (theta x.t2) l2 (x.mco s)) (Prod.ext (fvv1 (theta x.t2) l2 (x.mcv s)) ?_)
    cases mp2 with
    | true => rfl
    | false => exact fov1 (theta x.t2) (x.mcv s) (x.mf s) _

section
variable [DecidableEq o] [DecidableEq v] {s : Mf ι o v K} (hs : Orthonormal s) {t1 l1 : T1 o v K} {t2 l2 : T2 o o v v K}

theorem fragTerm_exact (hs : Orthonormal s) (tl sym mp2 : Bool) (m1 : T1 o v K) (ht : transp t2 = t2) (hl : transp l2 = l2) {x : Frag ι K}
    {ro : o → x.co → K} {rv : v → x.cv → K} (hx : Exact s t1 t2 l1 l2 x ro rv) (h2 : (2 : K) ≠ 0) :
    fragTerm s tl sym mp2 m1 x = .ok (-dotO (theta t2) (L2 (PF s x) (if tl then t2 else l2)),
      if sym then (1 / 2 : K) • (dotV (theta t2) (L1 (PF s x) (if tl then t2 else l2)) +
        dotV (sw (theta t2)) (L1 (PF s x) (sw (if tl then t2 else l2)))) else dotV (theta t2) (L1 (PF s x) (if tl then t2 else l2)),
      if mp2 then 0 else if sym then (1 / 2 : K) • (mm (PF s x) (dotS (theta t2) m1) + dotS (theta t2) (mm (PF s x) m1))
        else mm (PF s x) (dotS (theta t2) m1)) := by
  have hth := transp_theta t2 ht
  have hlam : x.lamPlain tl = .ok (L1 (FO s x) (L2 (tp ro) (L3 (tp rv) (L4 (tp rv) (if tl then t2 else l2))))) := by
    unfold Frag.lamPlain
    cases tl with
    | true => exact congrArg Except.ok (ex_t2 hs hx)
    | false =>
      rw [ex_l2 hs hx]
      rfl
  have hsym : transp (if tl then t2 else l2) = if tl then t2 else l2 := by split_ifs <;> assumption
  generalize hm : (if tl then t2 else l2) = m2 at *
  unfold fragTerm
  rw [hlam]
  refine congrArg Except.ok ?_
  rw [fragBlocks_eq, ex_mco hs hx, ex_mcv hs hx, ex_mf hs hx, tp_tp, ex_t2 hs hx, theta_L, exDoo _ hx.spanOcc hx.spanVir _ _ hsym hth,
    exVV _ hx.spanOcc hx.spanVir, sw_L, sw_L, exVV _ hx.spanOcc hx.spanVir, exOV1 _ hx.spanOcc hx.spanVir, exOV2 _ hx.spanOcc hx.spanVir, hth]
  rfl

theorem sum_half {α : Type*} {A B : Type} (l : List α) (f g : α → A → B → K) :
    (l.map fun x => (1 / 2 : K) • (f x + g x)).sum = (1 / 2 : K) • ((l.map f).sum + (l.map g).sum) := by
  have h1 := map_sum_add (fun p : (A → B → K) × (A → B → K) => (1 / 2 : K) • (p.1 + p.2)) (by simp) ?_ (fun x => (f x, g x)) l
  · rw [sum_prod] at h1
    exact h1.symm
  · intro a b
    show (1 / 2 : K) • (a.1 + b.1 + (a.2 + b.2)) = (1 / 2 : K) • (a.1 + a.2) + (1 / 2 : K) • (b.1 + b.2)
    rw [← smul_add]
    congr 1
    abel

theorem half_double (h2 : (2 : K) ≠ 0) {A B : Type} (f : A → B → K) : (1 / 2 : K) • (f + f) = f := by
  funext a b
  show (1 / 2 : K) * (f a b + f a b) = f a b
  field_simp
  ring

theorem mm_PF_sum {l : List (Frag ι K)} (hp : Partitions s l) {n : Type} (A : o → n → K) : (l.map fun x => mm (PF s x) A).sum = A := mm_sum hp A

theorem L1_sum {l : List (Frag ι K)} (hp : Partitions s l) (t : T2 o o v v K) (th : T2 o o v v K) :
    (l.map fun x => dotV th (L1 (PF s x) t)).sum = dotV th t := by
  have e := map_sum_add (fun P : o → o → K => dotV th (L1 P t)) ?_ ?_ (PF s) l
  · rw [← e, sum_PF hp, L1_delta]
  · rw [L1_zero']; funext i j; simp [dotV]
  · intro P Q
    have : L1 (P + Q) t = L1 P t + L1 Q t := by
      funext i j a b; simp only [L1, Pi.add_apply, add_mul, Finset.sum_add_distrib]
    show dotV th (L1 (P + Q) t) = _
    rw [this, dotV_add_r]

theorem L2_sum {l : List (Frag ι K)} (hp : Partitions s l) (t : T2 o o v v K) (th : T2 o o v v K) :
    (l.map fun x => -dotO th (L2 (PF s x) t)).sum = -dotO th t := by
  have e := map_sum_add (fun P : o → o → K => -dotO th (L2 P t)) ?_ ?_ (PF s) l
  · rw [← e, sum_PF hp, L2_delta]
  · rw [L2_zero', dotO_zero, neg_zero]
  · intro P Q
    have : L2 (P + Q) t = L2 P t + L2 Q t := by
      funext i j a b; simp only [L2, Pi.add_apply, add_mul, Finset.sum_add_distrib]
    show -dotO th (L2 (P + Q) t) = _
    rw [this, dotO_add_r, neg_add]

theorem dotS_add_r {p q m a : Type} [Fintype m] [Fintype a] (A : p → m → q → a → K) (B C : m → a → K) : dotS A (B + C) = dotS A B + dotS A C := by
  funext i x
  simp only [dotS, Pi.add_apply, mul_add, Finset.sum_add_distrib]

theorem dotS_sum {l : List (Frag ι K)} (hp : Partitions s l) (m1 : T1 o v K) (th : T2 o o v v K) :
    (l.map fun x => dotS th (mm (PF s x) m1)).sum = dotS th m1 := by
  have e := map_sum_add (fun P : o → o → K => dotS th (mm P m1)) ?_ ?_ (PF s) l
  · rw [← e, sum_PF hp, delta_mm]
  · funext i a; simp [dotS, mm]
  · intro P Q
    show dotS th (mm (P + Q) m1) = _
    rw [mm_add_l, dotS_add_r]

theorem rdm1Ccsd_total (hs : Orthonormal s) (h2 : (2 : K) ≠ 0) (tl sym mp2 : Bool) (m1 : T1 o v K) (ht : transp t2 = t2) (hl : transp l2 = l2)
    {l : List (Frag ι K)} (hx : AllExact s t1 t2 l1 l2 l) (hp : Partitions s l) :
    accumulate (fragTerm s tl sym mp2 m1) l = .ok (-dotO (theta t2) (if tl then t2 else l2), dotV (theta t2) (if tl then t2 else l2),
      if mp2 then 0 else dotS (theta t2) m1) := by
  have hth := transp_theta t2 ht
  have hsym : transp (if tl then t2 else l2) = if tl then t2 else l2 := by split_ifs <;> assumption
  rw [accumulate_ok _ (fun x => (-dotO (theta t2) (L2 (PF s x) (if tl then t2 else l2)),
      if sym then (1 / 2 : K) • (dotV (theta t2) (L1 (PF s x) (if tl then t2 else l2)) +
        dotV (sw (theta t2)) (L1 (PF s x) (sw (if tl then t2 else l2)))) else dotV (theta t2) (L1 (PF s x) (if tl then t2 else l2)),
      if mp2 then 0 else if sym then (1 / 2 : K) • (mm (PF s x) (dotS (theta t2) m1) + dotS (theta t2) (mm (PF s x) m1))
        else mm (PF s x) (dotS (theta t2) m1))) l ?_]
  · rw [sum_prod, sum_prod, L2_sum hp]
    refine congrArg Except.ok (Prod.ext rfl (Prod.ext ?_ ?_))
    · dsimp only
      cases sym with
      | false => exact L1_sum hp _ _
      | true =>
        simp only [if_true]
        rw [sum_half, L1_sum hp, L1_sum hp, dotV_sw _ _ hth hsym, half_double h2]
    · dsimp only
      cases mp2 with
      | true =>
        simp only [if_true]
        apply List.sum_eq_zero
        intro y hy
        obtain ⟨u, -, rfl⟩ := List.mem_map.1 hy
        rfl
      | false =>
        simp only [Bool.false_eq_true, if_false]
        cases sym with
        | false => exact mm_sum hp _
        | true =>
          simp only [if_true]
          rw [sum_half, mm_sum hp, dotS_sum hp, half_double h2]
  · intro x hx'
    obtain ⟨ro, rv, h⟩ := hx x hx'
    exact fragTerm_exact hs tl sym mp2 m1 ht hl h h2

end

end Vayesta.EwfRdm
