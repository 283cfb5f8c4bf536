import Verif.Lemmas.EwfURdmTotal
import Verif.Lemmas.EwfRdmTrace

/-! Exact clusters of unrestricted calculations, for `Verif/Model/EwfURdm.lean`. -/

set_option linter.unusedSectionVars false

namespace Vayesta.EwfURdm
open Vayesta.Amplitudes Vayesta.Tensor Vayesta.EwfRdm

section
variable {K : Type} [Field K] {O O' V V' c c' d d' f f' : Type} [Fintype O] [Fintype O'] [Fintype V] [Fintype V'] [Fintype c] [Fintype c'] [Fintype d] [Fintype d']
  [Fintype f] [Fintype f']

theorem restrict2U_eq (ro : O → c → K) (ro' : O' → c' → K) (rv : V → d → K) (rv' : V' → d' → K) (t : T2 O O' V V' K) :
    restrict2U ro ro' rv rv' t = L1 (tp ro) (L2 (tp ro') (L3 (tp rv) (L4 (tp rv') t))) := by
  funext k l c d
  simp only [restrict2U, L1, L2, L3, L4, tp, Finset.mul_sum]
  exact Finset.sum_congr rfl fun _ _ => Finset.sum_congr rfl fun _ _ => Finset.sum_congr rfl fun _ _ => Finset.sum_congr rfl fun _ _ => by ring

/-- Amplitudes projected onto a fragment, in cluster orbitals. -/
def cutG (F : f → O → K) (ro' : O' → c' → K) (rv : V → d → K) (rv' : V' → d' → K) (t : T2 O O' V V' K) : T2 f c' d d' K :=
  L1 F (L2 (tp ro') (L3 (tp rv) (L4 (tp rv') t)))

theorem transp_cutG (F : f → O → K) (ro' : O' → c' → K) (rv : V → d → K) (rv' : V' → d' → K) (t : T2 O O' V V' K) :
    transp (cutG F ro' rv rv' t) = L1 (tp ro') (L2 F (L3 (tp rv') (L4 (tp rv) (transp t)))) := by
  show L2 F (L1 (tp ro') (L4 (tp rv) (L3 (tp rv') (transp t)))) = _
  rw [L2_L1, L4_L3]

section
variable [DecidableEq O] [DecidableEq O'] [DecidableEq V] [DecidableEq V'] (F : f → O → K) (F' : f' → O' → K) {ro : O → c → K} {ro' : O' → c' → K}
  {rv : V → d → K} {rv' : V' → d' → K} (ho : mm ro (tp ro) = delta) (ho' : mm ro' (tp ro') = delta) (hv : mm rv (tp rv) = delta) (hv' : mm rv' (tp rv') = delta)
include ho ho' hv hv'

theorem backG_cut (t : T2 O O' V V' K) (tr : T2 O' O V' V K) :
    backG ro ro' rv rv' (restoredG (mm F ro) (mm F' ro') (cutG F ro' rv rv' t) (cutG F' ro rv' rv tr)) =
      (1 / 2 : K) • (L1 (mm (tp F) F) t + L2 (mm (tp F') F') (transp tr)) := by
  have h : mm ro (tp (mm F ro)) = tp F := by rw [tp_mm, ← mm_assoc, ho, delta_mm]
  have h' : mm ro' (tp (mm F' ro')) = tp F' := by rw [tp_mm, ← mm_assoc, ho', delta_mm]
  unfold backG restoredG
  rw [transp_cutG]
  unfold cutG
  simp only [L4_smul, L3_smul, L2_smul, L1_smul, L4_add, L3_add, L2_add, L1_add]
  simp only [L4_L1, L4_L2, L4_L3, L3_L1, L3_L2, L2_L1, L1_L1, L2_L2, L3_L3, L4_L4, ho, ho', hv, hv', L1_delta, L2_delta, L3_delta, L4_delta]
  rw [← mm_assoc, h, ← mm_assoc, h']

theorem cut_oo (t l : T2 O' O V' V K) : dotO (L1 ro (transp (cutG F' ro rv' rv l))) (L1 ro (transp (cutG F' ro rv' rv t))) = dotO (transp l) (L2 (mm (tp F') F') (transp t)) := by
  rw [transp_cutG, transp_cutG, L1_L1, L1_L1, ho, L1_delta, L1_delta, dotO_L2, dotO_L3, dotO_L4]
  simp only [L4_L1, L4_L2, L4_L3, L3_L1, L3_L2, L2_L1, L1_L1, L2_L2, L3_L3, L4_L4, tp_tp, hv, hv', L3_delta, L4_delta]

theorem cut_vv1 (t l : T2 O O' V V' K) : dotW (L3 rv (cutG F ro' rv rv' t)) (L3 rv (cutG F ro' rv rv' l)) = dotW t (L1 (mm (tp F) F) l) := by
  unfold cutG
  rw [L3_L1, L3_L2, L3_L3, L3_L1, L3_L2, L3_L3, hv, L3_delta, L3_delta, dotW_L1, dotW_L2, dotW_L4]
  simp only [L4_L1, L4_L2, L4_L3, L3_L1, L3_L2, L2_L1, L1_L1, L2_L2, L3_L3, L4_L4, tp_tp, ho', hv', L2_delta, L4_delta]

theorem cut_vv2 (t l : T2 O O' V V' K) : dotV (L4 rv' (cutG F ro' rv rv' t)) (L4 rv' (cutG F ro' rv rv' l)) = dotV t (L1 (mm (tp F) F) l) := by
  unfold cutG
  rw [L4_L1, L4_L2, L4_L3, L4_L4, L4_L1, L4_L2, L4_L3, L4_L4, hv', L4_delta, L4_delta, dotV_L1, dotV_L2, dotV_L3]
  simp only [L3_L1, L3_L2, L2_L1, L1_L1, L2_L2, L3_L3, tp_tp, ho', hv, L2_delta, L3_delta]

theorem cut_ov1 (t : T2 O O' V V' K) (l1 : T1 O' V' K) : dotS (L1 (tp F) (L3 rv (cutG F ro' rv rv' t))) (mm (tp ro') (mm l1 rv')) = mm (mm (tp F) F) (dotS t l1) := by
  unfold cutG
  rw [L3_L1, L3_L2, L3_L3, hv, L3_delta, L1_L1, dotS_L1, dotS_L2, dotS_L4, tp_tp, ← mm_assoc ro', ho', delta_mm, mm_assoc l1, hv', mm_delta]

theorem cut_ov2 (t : T2 O' O V' V K) (l1 : T1 O' V' K) : dotS (L1 ro (L3 rv (transp (cutG F' ro rv' rv t)))) (mm F' (mm l1 rv')) =
    dotS (transp t) (mm (mm (tp F') F') l1) := by
  rw [transp_cutG, L3_L1, L1_L1, ho, L1_delta, L3_L2, L3_L3, hv, L3_delta, dotS_L2, dotS_L4, mm_assoc, mm_assoc F', mm_assoc l1, hv', mm_delta, mm_assoc]

end

section
variable (A B : T2 f c d d' K) (co : O → c → K) (cv : V → d → K) (cv' : V' → d' → K) (fo : O' → f → K)

theorem sum_oo : (fun p q => ∑ k, ∑ i, ∑ j, ∑ a, ∑ b, A k i a b * B k j a b * co p i * co q j : O → O → K) = dotO (L1 co (transp A)) (L1 co (transp B)) := by
  funext p q
  refine Finset.sum_congr rfl fun k _ => ?_
  show _ = ∑ b, ∑ a, (∑ i, co p i * A k i a b) * (∑ j, co q j * B k j a b)
  simp only [Finset.sum_mul_sum]
  rw [← sum3_comm1 (fun i b a => ∑ j, co p i * A k i a b * (co q j * B k j a b))]
  refine Finset.sum_congr rfl fun i _ => ?_
  rw [← sum3_comm1 (fun j b a => co p i * A k i a b * (co q j * B k j a b))]
  refine Finset.sum_congr rfl fun j _ => ?_
  rw [Finset.sum_comm]
  exact Finset.sum_congr rfl fun _ _ => Finset.sum_congr rfl fun _ _ => by ring

theorem sum_vv1 : (fun p q => ∑ i, ∑ j, ∑ a, ∑ b, ∑ e, A i j a e * B i j b e * cv p a * cv q b : V → V → K) = dotW (L3 cv A) (L3 cv B) := by
  funext p q
  refine Finset.sum_congr rfl fun i _ => Finset.sum_congr rfl fun j _ => ?_
  show _ = ∑ e, (∑ a, cv p a * A i j a e) * (∑ b, cv q b * B i j b e)
  simp only [Finset.sum_mul_sum]
  rw [sum3_comm1 (fun e a b => cv p a * A i j a e * (cv q b * B i j b e))]
  exact Finset.sum_congr rfl fun _ _ => Finset.sum_congr rfl fun _ _ => Finset.sum_congr rfl fun _ _ => by ring

theorem sum_vv2 : (fun p q => ∑ i, ∑ j, ∑ a, ∑ b, ∑ e, A i j e a * B i j e b * cv' p a * cv' q b : V' → V' → K) = dotV (L4 cv' A) (L4 cv' B) := by
  funext p q
  refine Finset.sum_congr rfl fun i _ => Finset.sum_congr rfl fun j _ => ?_
  show _ = ∑ e, (∑ a, cv' p a * A i j e a) * (∑ b, cv' q b * B i j e b)
  simp only [Finset.sum_mul_sum]
  rw [sum3_comm1 (fun e a b => cv' p a * A i j e a * (cv' q b * B i j e b))]
  exact Finset.sum_congr rfl fun _ _ => Finset.sum_congr rfl fun _ _ => Finset.sum_congr rfl fun _ _ => by ring

theorem sum_ov1 (l1x : c → d' → K) : (fun p q => ∑ i, ∑ j, ∑ a, ∑ b, A i j a b * fo p i * cv q a * l1x j b : O' → V → K) = dotS (L1 fo (L3 cv A)) l1x := by
  funext p q
  show _ = ∑ j, ∑ b, (∑ i, fo p i * ∑ a, cv q a * A i j a b) * l1x j b
  simp only [Finset.mul_sum, Finset.sum_mul]
  rw [← sum3_comm1 (fun i j b => ∑ a, fo p i * (cv q a * A i j a b) * l1x j b)]
  refine Finset.sum_congr rfl fun i _ => Finset.sum_congr rfl fun j _ => ?_
  rw [Finset.sum_comm]
  exact Finset.sum_congr rfl fun _ _ => Finset.sum_congr rfl fun _ _ => by ring

theorem sum_ov2 (M : f → d → K) : (fun p q => ∑ j, ∑ i, ∑ b, ∑ a, A j i b a * co p i * cv' q a * M j b : O → V' → K) = dotS (L1 co (L3 cv' (transp A))) M := by
  funext p q
  show _ = ∑ j, ∑ b, (∑ i, co p i * ∑ a, cv' q a * A j i b a) * M j b
  refine Finset.sum_congr rfl fun j _ => ?_
  simp only [Finset.mul_sum, Finset.sum_mul]
  rw [Finset.sum_comm]
  exact Finset.sum_congr rfl fun _ _ => Finset.sum_congr rfl fun _ _ => Finset.sum_congr rfl fun _ _ => by ring

end

end

variable {K : Type} [Field K] {ι : Type} {o v : Spin → Type} [Fintype ι] [∀ σ, Fintype (o σ)] [∀ σ, Fintype (v σ)]

/-- Fragment orbitals and occupied orbitals; the projector. -/
def FOu (s : UMf ι o v K) (x : UFrag ι K) (σ : Spin) : x.f σ → o σ → K := FO (s.spin σ) (x.spin σ)
def PFu (s : UMf ι o v K) (x : UFrag ι K) (σ : Spin) : o σ → o σ → K := PF (s.spin σ) (x.spin σ)

section
variable [∀ σ, DecidableEq (o σ)] [∀ σ, DecidableEq (v σ)] {s : UMf ι o v K} (hs : ∀ σ, Orthonormal (s.spin σ)) {t1 l1 : U1 o v K}
  {t2 l2 : ∀ σ τ, T2 (o σ) (o τ) (v σ) (v τ) K} {x : UFrag ι K} {ro : ∀ σ, o σ → x.c σ → K} {rv : ∀ σ, v σ → x.d σ → K} (hx : UExact s t1 t2 l1 l2 x ro rv)
include hs hx

theorem exU_mco (σ : Spin) : x.mco s σ = ro σ := by
  have h : mm (tp (s.moOcc σ)) (mm s.ovlp (s.moOcc σ)) = delta := (hs σ).occ
  rw [UFrag.mco, hx.occ, ← mm_assoc s.ovlp, ← mm_assoc, h, delta_mm]
theorem exU_mcv (σ : Spin) : x.mcv s σ = rv σ := by
  have h : mm (tp (s.moVir σ)) (mm s.ovlp (s.moVir σ)) = delta := (hs σ).vir
  rw [UFrag.mcv, hx.vir, ← mm_assoc s.ovlp, ← mm_assoc, h, delta_mm]
theorem exU_px (σ : Spin) : x.px s σ = mm (FOu s x σ) (ro σ) := by
  show mm (tp (x.cFrag σ)) (mm s.ovlp (x.cOcc σ)) = mm (mm (tp (x.cFrag σ)) (mm s.ovlp (s.moOcc σ))) (ro σ)
  rw [hx.occ, mm_assoc, mm_assoc]
theorem exU_mf (σ : Spin) : x.mf s σ = tp (FOu s x σ) := by
  have h : tp s.ovlp = s.ovlp := (hs σ).ovlp
  show mm (tp (s.moOcc σ)) (mm s.ovlp (x.cFrag σ)) = tp (mm (tp (x.cFrag σ)) (mm s.ovlp (s.moOcc σ)))
  rw [tp_mm, tp_mm, tp_tp, h, mm_assoc]

theorem cutU2 (t : ∀ σ τ, T2 (o σ) (o τ) (v σ) (v τ) K) : (fun σ τ => projectC2 (mm (tp (x.cFrag σ)) (mm s.ovlp (x.cOcc σ))) (restrict2U (ro σ) (ro τ) (rv σ) (rv τ) (t σ τ))) =
    (fun σ τ => cutG (FOu s x σ) (ro τ) (rv σ) (rv τ) (t σ τ) : ∀ σ τ, T2 (x.f σ) (x.c τ) (x.d σ) (x.d τ) K) := by
  funext σ τ
  rw [restrict2U_eq]
  show L1 (x.px s σ) _ = _
  rw [L1_L1, exU_px hs hx, mm_assoc, hx.spanOcc, mm_delta]
  rfl
theorem cutU1 (t : U1 o v K) : (fun σ => projectC1 (mm (tp (x.cFrag σ)) (mm s.ovlp (x.cOcc σ))) (EwfEnergy.restrict1 (ro σ) (rv σ) (t σ))) =
    (fun σ => mm (FOu s x σ) (mm (t σ) (rv σ)) : ∀ σ, T1 (x.f σ) (x.d σ) K) := by
  funext σ
  rw [restrict1_eq]
  show mm (x.px s σ) _ = _
  rw [exU_px hs hx, mm_assoc, ← mm_assoc (ro σ), hx.spanOcc, delta_mm]

theorem exU_t2 : x.t2 = fun σ τ => cutG (FOu s x σ) (ro τ) (rv σ) (rv τ) (t2 σ τ) := hx.t2.trans (cutU2 hs hx t2)
theorem exU_t1 : x.t1 = fun σ => mm (FOu s x σ) (mm (t1 σ) (rv σ)) := hx.t1.trans (cutU1 hs hx t1)
theorem exU_l2 : x.l2 = some fun σ τ => cutG (FOu s x σ) (ro τ) (rv σ) (rv τ) (l2 σ τ) := hx.l2.trans (congrArg some (cutU2 hs hx l2))
theorem exU_l1 : x.l1 = some fun σ => mm (FOu s x σ) (mm (l1 σ) (rv σ)) := hx.l1.trans (congrArg some (cutU1 hs hx l1))

theorem Bg_exact (t : ∀ σ τ, T2 (o σ) (o τ) (v σ) (v τ) K) (ht : ∀ σ τ, transp (t τ σ) = t σ τ) (σ τ : Spin) :
    Bg s x (fun σ τ => cutG (FOu s x σ) (ro τ) (rv σ) (rv τ) (t σ τ)) σ τ = (1 / 2 : K) • (L1 (PFu s x σ) (t σ τ) + L2 (PFu s x τ) (t σ τ)) := by
  unfold Bg Rg
  rw [exU_mco hs hx, exU_mco hs hx, exU_mcv hs hx, exU_mcv hs hx, exU_px hs hx, exU_px hs hx,
    backG_cut _ _ (hx.spanOcc σ) (hx.spanOcc τ) (hx.spanVir σ) (hx.spanVir τ), ht]
  rfl

theorem B1_exact (t : U1 o v K) (σ : Spin) : B1 s x (fun σ => mm (FOu s x σ) (mm (t σ) (rv σ))) σ = mm (PFu s x σ) (t σ) := by
  unfold B1
  rw [exU_mco hs hx, exU_mcv hs hx, exU_px hs hx, tp_mm]
  simp only [mm_assoc]
  rw [hx.spanVir, mm_delta, ← mm_assoc (ro σ), hx.spanOcc, delta_mm]
  exact (mm_assoc _ _ _).symm

end

/-! ### Sums over fragments -/

/-- All fragments are exact and partition the occupied space of both spins. -/
def AllExactU [∀ σ, DecidableEq (o σ)] [∀ σ, DecidableEq (v σ)] (s : UMf ι o v K) (t1 : U1 o v K) (t2 : ∀ σ τ, T2 (o σ) (o τ) (v σ) (v τ) K) (l1 : U1 o v K)
    (l2 : ∀ σ τ, T2 (o σ) (o τ) (v σ) (v τ) K) (l : List (UFrag ι K)) : Prop := ∀ z ∈ l, ∃ ro rv, UExact s t1 t2 l1 l2 z ro rv
def PartU [∀ σ, DecidableEq (o σ)] (s : UMf ι o v K) (l : List (UFrag ι K)) : Prop := ∀ σ, Partitions (s.spin σ) (l.map fun z => z.spin σ)

section
variable [∀ σ, DecidableEq (o σ)] {s : UMf ι o v K} {l : List (UFrag ι K)} (hp : PartU s l)
include hp

/-- A linear expression of projectors. -/
theorem sum_lin {M : Type} [AddMonoid M] (σ : Spin) (F : (o σ → o σ → K) → M) (h0 : F 0 = 0) (ha : ∀ P Q, F (P + Q) = F P + F Q) :
    (l.map fun z => F (PFu s z σ)).sum = F delta := by
  have e := map_sum_add F h0 ha (PF (s.spin σ)) (l.map fun z => z.spin σ)
  rw [sum_PF (hp σ), List.map_map] at e
  exact e.symm

theorem sumL1 {m a b : Type} (σ : Spin) (t : o σ → m → a → b → K) : (l.map fun z => L1 (PFu s z σ) t).sum = t := by
  rw [sum_lin hp σ (fun P => L1 P t) (by funext i j a b; simp [L1]) (by intro P Q; funext i j a b; simp [L1, add_mul, Finset.sum_add_distrib]), L1_delta]
theorem sumL2 {m a b : Type} (σ : Spin) (t : m → o σ → a → b → K) : (l.map fun z => L2 (PFu s z σ) t).sum = t := by
  rw [sum_lin hp σ (fun P => L2 P t) (by funext i j a b; simp [L2]) (by intro P Q; funext i j a b; simp [L2, add_mul, Finset.sum_add_distrib]), L2_delta]
theorem sumMm {n : Type} (σ : Spin) (t : o σ → n → K) : (l.map fun z => mm (PFu s z σ) t).sum = t := by
  rw [sum_lin hp σ (fun P => mm P t) (by funext i j; simp [mm]) (fun P Q => mm_add_l P Q t), delta_mm]

end

section
variable [∀ σ, DecidableEq (o σ)] [∀ σ, DecidableEq (v σ)] {s : UMf ι o v K} (hs : ∀ σ, Orthonormal (s.spin σ)) (h2 : (2 : K) ≠ 0) {t1 l1 : U1 o v K}
  {t2 l2 : ∀ σ τ, T2 (o σ) (o τ) (v σ) (v τ) K} {l : List (UFrag ι K)} (hx : AllExactU s t1 t2 l1 l2 (l.flatMap UFrag.family)) (hp : PartU s (l.flatMap UFrag.family))
include hs hx hp

theorem Tg1_exact : Tg1 s l = t1 := by
  funext σ
  unfold Tg1
  rw [sum_pi]
  refine Eq.trans (congrArg List.sum (List.map_congr_left fun z hz => ?_)) (sumMm hp σ (t1 σ))
  obtain ⟨ro, rv, h⟩ := hx z hz
  rw [exU_t1 hs h, B1_exact hs h]

theorem Lg1_exact (tl : Bool) (ho : ∀ z ∈ l.flatMap UFrag.family, z.tAsLambda = true → l1 = t1) : Lg1 s tl l = if tl then t1 else l1 := by
  funext σ
  unfold Lg1
  rw [sum_pi]
  refine Eq.trans (congrArg List.sum (List.map_congr_left fun z hz => ?_)) (sumMm hp σ _)
  obtain ⟨ro, rv, h⟩ := hx z hz
  have e : lamA1 tl z = fun σ => mm (FOu s z σ) (mm ((if tl then t1 else l1) σ) (rv σ)) := by
    unfold lamA1
    cases tl with
    | true => exact exU_t1 hs h
    | false =>
      cases hz' : z.tAsLambda with
      | true => rw [ho z hz hz']; exact exU_t1 hs h
      | false => rw [exU_l1 hs h]; rfl
  rw [e, B1_exact hs h]

include h2

theorem block_sum_exact (t : ∀ σ τ, T2 (o σ) (o τ) (v σ) (v τ) K) (σ τ : Spin) :
    ((l.flatMap UFrag.family).map fun z => (1 / 2 : K) • (L1 (PFu s z σ) (t σ τ) + L2 (PFu s z τ) (t σ τ))).sum = t σ τ := by
  have e := map_sum_add (fun p : T2 (o σ) (o τ) (v σ) (v τ) K => (1 / 2 : K) • p) (smul_zero _) (fun a b => smul_add _ a b)
    (fun z => L1 (PFu s z σ) (t σ τ) + L2 (PFu s z τ) (t σ τ)) (l.flatMap UFrag.family)
  refine e.symm.trans ?_
  rw [List.sum_map_add, sumL1 hp, sumL2 hp]
  funext i j a b
  show (1 / 2 : K) * (t σ τ i j a b + t σ τ i j a b) = _
  field_simp
  ring

theorem Tg_exactU (ht : ∀ σ τ, transp (t2 τ σ) = t2 σ τ) : block (TgU s l) = t2 := by
  funext σ τ
  rw [block_Tg]
  refine Eq.trans (congrArg List.sum (List.map_congr_left fun z hz => ?_)) (block_sum_exact hs h2 hx hp t2 σ τ)
  obtain ⟨ro, rv, h⟩ := hx z hz
  rw [exU_t2 hs h, Bg_exact hs h t2 ht]

theorem Lg_exactU (tl : Bool) (ht : ∀ σ τ, transp (t2 τ σ) = t2 σ τ) (hl : ∀ σ τ, transp (l2 τ σ) = l2 σ τ)
    (ho : ∀ z ∈ l.flatMap UFrag.family, (z.tAsLambda = true ∨ z.mp2 = true) → l2 = t2) : block (LgU s tl l) = if tl then t2 else l2 := by
  funext σ τ
  rw [block_Lg]
  refine Eq.trans (congrArg List.sum (List.map_congr_left fun z hz => ?_)) (block_sum_exact hs h2 hx hp _ σ τ)
  obtain ⟨ro, rv, h⟩ := hx z hz
  have e : lamA tl z = fun σ τ => cutG (FOu s z σ) (ro τ) (rv σ) (rv τ) ((if tl then t2 else l2) σ τ) := by
    unfold lamA
    cases tl with
    | true => exact exU_t2 hs h
    | false =>
      cases hz' : z.tAsLambda with
      | true => rw [ho z hz (.inl hz')]; exact exU_t2 hs h
      | false =>
        cases hm : z.mp2 with
        | true => rw [ho z hz (.inr hm)]; exact exU_t2 hs h
        | false => rw [exU_l2 hs h]; rfl
  rw [e, Bg_exact hs h _ (by intro σ τ; cases tl; exact hl σ τ; exact ht σ τ)]

end

/-! ### make_rdm1_ccsd -/

theorem fragBlocksU_eq (s : UMf ι o v K) (sym mp2 : Bool) (l1 : U1 o v K) (x : UFrag ι K) (l2 : ∀ σ τ, T2 (x.f σ) (x.c τ) (x.d σ) (x.d τ) K) (σ : Spin) :
    fragBlocksU s sym mp2 l1 x l2 σ =
      (-half (dotO (L1 (x.mco s σ) (transp (l2 σ σ))) (L1 (x.mco s σ) (transp (x.t2 σ σ))))
          (dotO (L1 (x.mco s σ) (transp (l2 σ.other σ))) (L1 (x.mco s σ) (transp (x.t2 σ.other σ)))),
        half (dotW (L3 (x.mcv s σ) (x.t2 σ σ)) (L3 (x.mcv s σ) (l2 σ σ))) (dotV (L4 (x.mcv s σ) (x.t2 σ.other σ)) (L4 (x.mcv s σ) (l2 σ.other σ))),
        if mp2 then 0 else
          let u (τ : Spin) : o σ → v σ → K := dotS (L1 (x.mf s σ) (L3 (x.mcv s σ) (x.t2 σ τ))) (mm (tp (x.mco s τ)) (mm (l1 τ) (x.mcv s τ)))
          let w (τ : Spin) : o σ → v σ → K := dotS (L1 (x.mco s σ) (L3 (x.mcv s σ) (transp (x.t2 τ σ)))) (mm (tp (x.mf s τ)) (mm (l1 τ) (x.mcv s τ)))
          if sym then (1 / 2 : K) • (u σ + w σ) + (1 / 2 : K) • (u σ.other + w σ.other) else u σ + u σ.other) := by
  refine Prod.ext ?_ (Prod.ext ?_ ?_)
  · rw [← sum_oo, ← sum_oo]
    funext I J
    simp only [fragBlocksU, half, Pi.neg_apply]
    ring
  · rw [← sum_vv1, ← sum_vv2]
    funext I J
    simp only [fragBlocksU, half]
    ring
  · cases mp2 with
    | true => rfl
    | false =>
      cases sym with
      | false => exact congrArg₂ (fun A B : o σ → v σ → K => A + B) (sum_ov1 _ _ _ _) (sum_ov1 _ _ _ _)
      | true =>
        have e : ∀ A B C D : o σ → v σ → K, (fun i a => A i a / 2 + B i a / 2 + (C i a / 2 + D i a / 2)) = (1 / 2 : K) • (A + B) + (1 / 2 : K) • (C + D) := by
          intro A B C D
          funext i a
          simp only [Pi.add_apply, Pi.smul_apply, smul_eq_mul]
          ring
        refine (e _ _ _ _).trans ?_
        exact congrArg₂ (fun A B : o σ → v σ → K => (1 / 2 : K) • A + (1 / 2 : K) • B) (congrArg₂ (fun A B : o σ → v σ → K => A + B) (sum_ov1 _ _ _ _) (sum_ov2 _ _ _ _))
          (congrArg₂ (fun A B : o σ → v σ → K => A + B) (sum_ov1 _ _ _ _) (sum_ov2 _ _ _ _))

section
variable [∀ σ, DecidableEq (o σ)] [∀ σ, DecidableEq (v σ)] {s : UMf ι o v K} (hs : ∀ σ, Orthonormal (s.spin σ)) {t1 l1 : U1 o v K}
  {t2 l2 : ∀ σ τ, T2 (o σ) (o τ) (v σ) (v τ) K}
include hs

theorem fragTermU_exact (tl sym mp2 : Bool) (m1 : U1 o v K) (ht : ∀ σ τ, transp (t2 τ σ) = t2 σ τ) (hl : ∀ σ τ, transp (l2 τ σ) = l2 σ τ) {x : UFrag ι K}
    {ro : ∀ σ, o σ → x.c σ → K} {rv : ∀ σ, v σ → x.d σ → K} (hx : UExact s t1 t2 l1 l2 x ro rv) :
    fragTermU s tl sym mp2 m1 x = .ok fun σ =>
      (-half (dotO ((if tl then t2 else l2) σ σ) (L2 (PFu s x σ) (t2 σ σ))) (dotO ((if tl then t2 else l2) σ σ.other) (L2 (PFu s x σ.other) (t2 σ σ.other))),
        half (dotW (t2 σ σ) (L1 (PFu s x σ) ((if tl then t2 else l2) σ σ))) (dotV (t2 σ.other σ) (L1 (PFu s x σ.other) ((if tl then t2 else l2) σ.other σ))),
        if mp2 then 0 else if sym then (1 / 2 : K) • (mm (PFu s x σ) (dotS (t2 σ σ) (m1 σ)) + dotS (t2 σ σ) (mm (PFu s x σ) (m1 σ))) +
            (1 / 2 : K) • (mm (PFu s x σ) (dotS (t2 σ σ.other) (m1 σ.other)) + dotS (t2 σ σ.other) (mm (PFu s x σ.other) (m1 σ.other)))
          else mm (PFu s x σ) (dotS (t2 σ σ) (m1 σ)) + mm (PFu s x σ) (dotS (t2 σ σ.other) (m1 σ.other))) := by
  have hlam : (if tl then some x.t2 else x.l2) = some fun σ τ => cutG (FOu s x σ) (ro τ) (rv σ) (rv τ) ((if tl then t2 else l2) σ τ) := by
    cases tl with
    | true => exact congrArg some (exU_t2 hs hx)
    | false => exact exU_l2 hs hx
  have hm : ∀ σ τ, transp ((if tl then t2 else l2) τ σ) = (if tl then t2 else l2) σ τ := by
    intro σ τ; cases tl; exact hl σ τ; exact ht σ τ
  generalize (if tl then t2 else l2) = m2 at *
  unfold fragTermU
  rw [hlam]
  refine congrArg Except.ok ?_
  funext σ
  have hO := hx.spanOcc
  have hV := hx.spanVir
  rw [fragBlocksU_eq, exU_t2 hs hx]
  simp only [exU_mco hs hx, exU_mcv hs hx, exU_mf hs hx, tp_tp]
  simp only [cut_oo _ (hO _) (hO _) (hV _) (hV _), cut_vv1 _ (hO _) (hO _) (hV _) (hV _), cut_vv2 _ (hO _) (hO _) (hV _) (hV _),
    cut_ov1 _ (hO _) (hO _) (hV _) (hV _), cut_ov2 _ (hO _) (hO _) (hV _) (hV _), ht, hm]
  rfl

theorem rdm1CcsdU_total (h2 : (2 : K) ≠ 0) (tl sym mp2 : Bool) (m1 : U1 o v K) (ht : ∀ σ τ, transp (t2 τ σ) = t2 σ τ) (hl : ∀ σ τ, transp (l2 τ σ) = l2 σ τ)
    {l : List (UFrag ι K)} (hx : AllExactU s t1 t2 l1 l2 l) (hp : PartU s l) :
    accumulate (fragTermU s tl sym mp2 m1) l = .ok fun σ => (-tp (OOu t2 (if tl then t2 else l2) σ), VVu t2 (if tl then t2 else l2) σ, if mp2 then 0 else OVu t2 m1 σ) := by
  have hm : ∀ σ τ, transp ((if tl then t2 else l2) τ σ) = (if tl then t2 else l2) σ τ := by
    intro σ τ; cases tl; exact hl σ τ; exact ht σ τ
  have hterm := fun x (hx' : x ∈ l) => (hx x hx').elim fun ro h => h.elim fun rv h => fragTermU_exact hs tl sym mp2 m1 ht hl h
  generalize (if tl then t2 else l2) = m2 at *
  rw [accumulate_ok _ _ _ hterm]
  refine congrArg Except.ok ?_
  funext σ
  rw [sum_pi, sum_prod, sum_prod]
  refine Prod.ext ?_ (Prod.ext ?_ ?_)
  · dsimp only
    have e : ∀ τ, (l.map fun x => dotO (m2 σ τ) (L2 (PFu s x τ) (t2 σ τ))).sum = tp (dotO (t2 σ τ) (m2 σ τ)) := by
      intro τ
      rw [sum_lin hp τ (fun P => dotO (m2 σ τ) (L2 P (t2 σ τ))) (by rw [L2_zero', dotO_zero])
        (by intro P Q
            have : L2 (P + Q) (t2 σ τ) = L2 P (t2 σ τ) + L2 Q (t2 σ τ) := by funext i j a b; simp only [L2, Pi.add_apply, add_mul, Finset.sum_add_distrib]
            rw [this, dotO_add_r]), L2_delta, dotO_swap]
    rw [← map_sum_add (fun A : o σ → o σ → K => -A) neg_zero neg_add, half_sum, e, e]
    rfl
  · dsimp only
    have e1 : (l.map fun x => dotW (t2 σ σ) (L1 (PFu s x σ) (m2 σ σ))).sum = dotW (t2 σ σ) (m2 σ σ) := by
      rw [sum_lin hp σ (fun P => dotW (t2 σ σ) (L1 P (m2 σ σ))) (by rw [L1_zero', dotW_zero])
        (by intro P Q
            have : L1 (P + Q) (m2 σ σ) = L1 P (m2 σ σ) + L1 Q (m2 σ σ) := by funext i j a b; simp only [L1, Pi.add_apply, add_mul, Finset.sum_add_distrib]
            rw [this, dotW_add_r]), L1_delta]
    have e2 : (l.map fun x => dotV (t2 σ.other σ) (L1 (PFu s x σ.other) (m2 σ.other σ))).sum = dotW (t2 σ σ.other) (m2 σ σ.other) := by
      rw [sum_lin hp σ.other (fun P => dotV (t2 σ.other σ) (L1 P (m2 σ.other σ))) (by funext a b; simp [dotV, L1])
        (by intro P Q
            have : L1 (P + Q) (m2 σ.other σ) = L1 P (m2 σ.other σ) + L1 Q (m2 σ.other σ) := by funext i j a b; simp only [L1, Pi.add_apply, add_mul, Finset.sum_add_distrib]
            rw [this, dotV_add_r]), L1_delta, dotW_eq, ht, hm]
    rw [half_sum, e1, e2]
    rfl
  · dsimp only
    cases mp2 with
    | true =>
      simp only [if_true]
      apply List.sum_eq_zero
      intro y hy
      obtain ⟨u, -, rfl⟩ := List.mem_map.1 hy
      rfl
    | false =>
      have e : ∀ τ, (l.map fun x => dotS (t2 σ τ) (mm (PFu s x τ) (m1 τ))).sum = dotS (t2 σ τ) (m1 τ) := by
        intro τ
        rw [sum_lin hp τ (fun P => dotS (t2 σ τ) (mm P (m1 τ))) (by funext i a; simp [dotS, mm])
          (fun P Q => by show dotS (t2 σ τ) (mm (P + Q) (m1 τ)) = _; rw [mm_add_l, dotS_add_r]), delta_mm]
      simp only [Bool.false_eq_true, if_false]
      cases sym with
      | false =>
        simp only [Bool.false_eq_true, if_false]
        rw [List.sum_map_add, sumMm hp, sumMm hp]
        rfl
      | true =>
        simp only [if_true]
        rw [List.sum_map_add, sum_half, sum_half, sumMm hp, sumMm hp, e, e, half_double h2, half_double h2]
        rfl

end

/-- The end of the function. -/
theorem combineF_false (t1 l1 : U1 o v K) (t l : ∀ σ τ, T2 (o σ) (o τ) (v σ) (v τ) K) (σ : Spin) :
    combineF false (t1 σ) (l1 σ) (-tp (OOu t l σ), VVu t l σ, OVu t l1 σ) = ccRdm1U t1 t l1 l σ := by
  have hov : ∀ i a, OVu t l1 σ i a + (∑ m, (-tp (OOu t l σ)) m i * t1 σ m a) - (∑ e, t1 σ i e * (VVu t l σ a e + ∑ m, t1 σ m a * l1 σ m e)) + (t1 σ i a + l1 σ i a) =
      t1 σ i a + l1 σ i a + OVu t l1 σ i a - (∑ e, ∑ m, t1 σ i e * l1 σ m e * t1 σ m a) - (∑ m, OOu t l σ i m * t1 σ m a) - ∑ e, t1 σ i e * VVu t l σ a e := by
    intro i a
    have e : (∑ e, t1 σ i e * (VVu t l σ a e + ∑ m, t1 σ m a * l1 σ m e)) =
        (∑ e, t1 σ i e * VVu t l σ a e) + ∑ e, ∑ m, t1 σ i e * l1 σ m e * t1 σ m a := by
      rw [← Finset.sum_add_distrib]
      refine Finset.sum_congr rfl fun e _ => ?_
      rw [mul_add, Finset.mul_sum]
      exact congrArg _ (Finset.sum_congr rfl fun _ _ => by ring)
    rw [e]
    simp only [Pi.neg_apply, tp, neg_mul, Finset.sum_neg_distrib]
    ring
  funext p q
  rcases p with i | a <;> rcases q with j | b
  · rw [ccU_oo]
    show (-OOu t l σ j i - (∑ e, l1 σ i e * t1 σ j e) + (-OOu t l σ i j - ∑ e, l1 σ j e * t1 σ i e)) / 2 = _
    rw [Finset.sum_add_distrib]
    simp only [mul_comm (l1 σ _ _)]
    ring
  · rw [ccU_ov, ← hov]
    rfl
  · rw [ccU_vo, ccU_ov, ← hov]
    rfl
  · rw [ccU_vv]
    show (VVu t l σ a b + (∑ m, t1 σ m a * l1 σ m b) + (VVu t l σ b a + ∑ m, t1 σ m b * l1 σ m a)) / 2 = _
    rw [Finset.sum_add_distrib]
    ring

theorem combineF_true (t l : ∀ σ τ, T2 (o σ) (o τ) (v σ) (v τ) K) (σ : Spin) (t1 l1 z : o σ → v σ → K) :
    combineF true t1 l1 (-tp (OOu t l σ), VVu t l σ, z) = ccRdm1U 0 t 0 l σ := by
  rw [← combineF_false]
  have e : OVu t (0 : U1 o v K) σ = 0 := by funext i a; simp [OVu, dotS]
  rw [e]
  funext p q
  rcases p with i | a <;> rcases q with j | b <;> simp [combineF, blocks]

end Vayesta.EwfURdm
