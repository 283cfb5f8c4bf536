import Verif.Lemmas.EwfRdmExact

/-! Projected-lambda density matrices and traces, for `Verif/Model/EwfRdm.lean`. -/

set_option linter.unusedSectionVars false

namespace Vayesta.EwfRdm
open Vayesta.Amplitudes Vayesta.Tensor Vayesta.Props

variable {K : Type} [Field K] {ι o v : Type} [Fintype ι] [Fintype o] [Fintype v]

/-- Density matrix with separate amplitudes `r1` in the term without lambda amplitudes. -/
def G {c d : Type} [Fintype c] [Fintype d] (t1 : T1 c d K) (th : T2 c c d d K) (r1 l1 : T1 c d K) (l2 : T2 c c d d K) : c ⊕ d → c ⊕ d → K :=
  blocks (-(mm l1 (tp t1) + mm t1 (tp l1)) - (dotO th l2 + tp (dotO th l2)))
    (l1 + r1 - mm t1 (mm (tp l1) t1) + dotS th l1 - mm (dotO th l2) t1 - mm t1 (tp (dotV (sw th) (sw l2))))
    (mm (tp t1) l1 + mm (tp l1) t1 + (dotV th l2 + tp (dotV th l2)))

theorem G_gamma {c d : Type} [Fintype c] [Fintype d] (t1 : T1 c d K) (t2 : T2 c c d d K) (r1 l1 : T1 c d K) (l2 : T2 c c d d K) :
    makeRdm1 { gamma1 t1 t2 l1 l2 with dvo := fun a i => (gamma1 t1 t2 l1 l2).dvo a i + (r1 i a - t1 i a) } = G t1 (theta t2) r1 l1 l2 := by
  have hov : ∀ i a, l1 i a + (t1 i a - (∑ m, (∑ e, t1 i e * l1 m e) * t1 m a) + (∑ m, ∑ e, theta t2 i m a e * l1 m e) -
      (∑ m, (∑ n, ∑ e, ∑ f, l2 m n e f * theta t2 i n e f) * t1 m a) - (∑ e, t1 i e * (∑ m, ∑ n, ∑ f, l2 m n e f * theta t2 m n a f)) + (r1 i a - t1 i a)) =
      (l1 + r1 - mm t1 (mm (tp l1) t1) + dotS (theta t2) l1 - mm (dotO (theta t2) l2) t1 - mm t1 (tp (dotV (sw (theta t2)) (sw l2)))) i a := by
    intro i a
    show _ = l1 i a + r1 i a - mm t1 (mm (tp l1) t1) i a + dotS (theta t2) l1 i a - mm (dotO (theta t2) l2) t1 i a - mm t1 (tp (dotV (sw (theta t2)) (sw l2))) i a
    have e1 : (∑ m, (∑ e, t1 i e * l1 m e) * t1 m a) = mm t1 (mm (tp l1) t1) i a := by
      rw [← mm_assoc]; rfl
    have e2 : (∑ m, (∑ n, ∑ e, ∑ f, l2 m n e f * theta t2 i n e f) * t1 m a) = mm (dotO (theta t2) l2) t1 i a :=
      Finset.sum_congr rfl fun m _ => congrArg (· * t1 m a) (Finset.sum_congr rfl fun _ _ => Finset.sum_congr rfl fun _ _ =>
        Finset.sum_congr rfl fun _ _ => mul_comm _ _)
    have e3 : (∑ e, t1 i e * (∑ m, ∑ n, ∑ f, l2 m n e f * theta t2 m n a f)) = mm t1 (tp (dotV (sw (theta t2)) (sw l2))) i a :=
      Finset.sum_congr rfl fun e _ => congrArg (t1 i e * ·) (Finset.sum_congr rfl fun _ _ => Finset.sum_congr rfl fun _ _ =>
        Finset.sum_congr rfl fun _ _ => mul_comm _ _)
    rw [e1, e2, e3]
    show l1 i a + (t1 i a - mm t1 (mm (tp l1) t1) i a + dotS (theta t2) l1 i a - _ - _ + (r1 i a - t1 i a)) = _
    ring
  funext p q
  rcases p with i | a <;> rcases q with j | b
  · show -(∑ a, t1 j a * l1 i a) - dotO (theta t2) l2 j i + (-(∑ a, t1 i a * l1 j a) - dotO (theta t2) l2 i j) =
      -((∑ a, l1 i a * t1 j a) + ∑ a, t1 i a * l1 j a) - (dotO (theta t2) l2 i j + dotO (theta t2) l2 j i)
    have : (∑ a, t1 j a * l1 i a) = ∑ a, l1 i a * t1 j a := Finset.sum_congr rfl fun _ _ => mul_comm _ _
    rw [this]; ring
  · exact hov i b
  · exact hov j a
  · show (∑ i, t1 i a * l1 i b) + dotV (theta t2) l2 a b + ((∑ i, t1 i b * l1 i a) + dotV (theta t2) l2 b a) =
      (∑ i, t1 i a * l1 i b) + (∑ i, l1 i a * t1 i b) + (dotV (theta t2) l2 a b + dotV (theta t2) l2 b a)
    have : (∑ i, t1 i b * l1 i a) = ∑ i, l1 i a * t1 i b := Finset.sum_congr rfl fun _ _ => mul_comm _ _
    rw [this]; ring

theorem G_plain (t1 : T1 o v K) (t2 : T2 o o v v K) (l1 : T1 o v K) (l2 : T2 o o v v K) :
    G t1 (theta t2) t1 l1 l2 = makeRdm1 (gamma1 t1 t2 l1 l2) := by
  rw [← G_gamma]
  have : (fun a i => (gamma1 t1 t2 l1 l2).dvo a i + (t1 i a - t1 i a)) = (gamma1 t1 t2 l1 l2).dvo := by
    funext a i; rw [sub_self, add_zero]
  rw [this]

/-- Transformation of a block matrix. -/
theorem blocks_back {c d : Type} [Fintype c] [Fintype d] (ro : o → c → K) (rv : v → d → K) (mc : o ⊕ v → c ⊕ d → K)
    (h1 : ∀ i k, mc (.inl i) (.inl k) = ro i k) (h2 : ∀ i k, mc (.inl i) (.inr k) = 0) (h3 : ∀ i k, mc (.inr i) (.inl k) = 0)
    (h4 : ∀ i k, mc (.inr i) (.inr k) = rv i k) (oo : c → c → K) (ov : c → d → K) (vv : d → d → K) :
    mm mc (mm (blocks oo ov vv) (tp mc)) = blocks (mm ro (mm oo (tp ro))) (mm ro (mm ov (tp rv))) (mm rv (mm vv (tp rv))) := by
  have hov : ∀ i b, ∑ k : c, ro i k * (∑ l : d, ov k l * rv b l) = mm ro (mm ov (tp rv)) i b := fun _ _ => rfl
  funext p q
  rcases p with i | a <;> rcases q with j | b <;> simp only [mm, tp, Fintype.sum_sum_type, h1, h2, h3, h4, blocks, mul_zero, zero_mul, Finset.sum_const_zero, add_zero, zero_add]
  simp only [Finset.mul_sum]
  rw [Finset.sum_comm]
  exact Finset.sum_congr rfl fun _ _ => Finset.sum_congr rfl fun _ _ => by ring

/-- Amplitudes in cluster orbitals. -/
def in1 {c d : Type} (ro : o → c → K) (rv : v → d → K) (t : T1 o v K) : T1 c d K := mm (tp ro) (mm t rv)
def in2 {c d : Type} (ro : o → c → K) (rv : v → d → K) (t : T2 o o v v K) : T2 c c d d K := L1 (tp ro) (L2 (tp ro) (L3 (tp rv) (L4 (tp rv) t)))

section
variable [DecidableEq o] [DecidableEq v] {c d : Type} [Fintype c] [Fintype d] {ro : o → c → K} {rv : v → d → K}
  (hro : mm ro (tp ro) = delta) (hrv : mm rv (tp rv) = delta) (t1 m1 : T1 o v K) (th m2 : T2 o o v v K)
include hro hrv

theorem in1_back : mm ro (mm (in1 ro rv t1) (tp rv)) = t1 := by
  unfold in1
  rw [mm_assoc, mm_assoc, hrv, mm_delta, ← mm_assoc, hro, delta_mm]

theorem b1 : mm ro (mm (mm (in1 ro rv m1) (tp (in1 ro rv t1))) (tp ro)) = mm m1 (tp t1) := by
  have h : mm ro (mm (mm (in1 ro rv m1) (tp (in1 ro rv t1))) (tp ro)) = mm (mm ro (tp ro)) (mm m1 (mm (mm rv (tp rv)) (mm (tp t1) (mm ro (tp ro))))) := by
    simp only [in1, tp_mm, tp_tp, mm_assoc]
  rw [h, hro, hrv, delta_mm, delta_mm, mm_delta]

theorem b2 : mm rv (mm (mm (tp (in1 ro rv t1)) (in1 ro rv m1)) (tp rv)) = mm (tp t1) m1 := by
  have h : mm rv (mm (mm (tp (in1 ro rv t1)) (in1 ro rv m1)) (tp rv)) = mm (mm rv (tp rv)) (mm (tp t1) (mm (mm ro (tp ro)) (mm m1 (mm rv (tp rv))))) := by
    simp only [in1, tp_mm, tp_tp, mm_assoc]
  rw [h, hro, hrv, delta_mm, delta_mm, mm_delta]

theorem inO : dotO (in2 ro rv th) (in2 ro rv m2) = mm (tp ro) (mm (dotO th m2) ro) := by
  unfold in2
  rw [dotO_L1l, dotO_L1r, dotO_L2, dotO_L3, dotO_L4]
  have : L4 (tp (tp rv)) (L3 (tp (tp rv)) (L2 (tp (tp ro)) (L2 (tp ro) (L3 (tp rv) (L4 (tp rv) m2))))) = m2 := by
    simp only [tp_tp, L2_L2, hro, L2_delta, L3_L3, hrv, L3_delta, L4_L4, L4_delta]
  rw [this, tp_tp]

theorem inV : dotV (in2 ro rv th) (in2 ro rv m2) = mm (tp rv) (mm (dotV th m2) rv) := by
  unfold in2
  have e : ∀ A : T2 o o v v K, L1 (tp ro) (L2 (tp ro) (L3 (tp rv) (L4 (tp rv) A))) = L4 (tp rv) (L1 (tp ro) (L2 (tp ro) (L3 (tp rv) A))) := by
    intro A; rw [L4_L1, L4_L2, L4_L3]
  rw [e, e, dotV_L4l, dotV_L4r, dotV_L1, dotV_L2, dotV_L3]
  have : L3 (tp (tp rv)) (L2 (tp (tp ro)) (L1 (tp (tp ro)) (L1 (tp ro) (L2 (tp ro) (L3 (tp rv) m2))))) = m2 := by
    simp only [tp_tp, L1_L1, hro, L1_delta, L2_L2, L2_delta, L3_L3, hrv, L3_delta]
  rw [this, tp_tp]

theorem inVsw : dotV (sw (in2 ro rv th)) (sw (in2 ro rv m2)) = mm (tp rv) (mm (dotV (sw th) (sw m2)) rv) := by
  have e : ∀ A : T2 o o v v K, sw (in2 ro rv A) = in2 ro rv (sw A) := fun A => sw_L _ _ _ A
  rw [e, e, inV hro hrv]

theorem inS : dotS (in2 ro rv th) (in1 ro rv m1) = mm (tp ro) (mm (dotS th m1) rv) := by
  unfold in2 in1
  rw [dotS_L1, dotS_L2, dotS_L3, dotS_L4, tp_tp, tp_tp, ← mm_assoc ro, hro, delta_mm, mm_assoc m1, hrv, mm_delta]

theorem mm_sub_l {k p q : Type} [Fintype k] (A A' : p → k → K) (B : k → q → K) : mm (A - A') B = mm A B - mm A' B := by
  funext i j
  simp only [mm, Pi.sub_apply, sub_mul, Finset.sum_sub_distrib]
theorem mm_sub_r {k p q : Type} [Fintype k] (A : p → k → K) (B B' : k → q → K) : mm A (B - B') = mm A B - mm A B' := by
  funext i j
  simp only [mm, Pi.sub_apply, mul_sub, Finset.sum_sub_distrib]
theorem mm_neg_l {k p q : Type} [Fintype k] (A : p → k → K) (B : k → q → K) : mm (-A) B = -mm A B := by
  funext i j
  simp [mm]

theorem outO (X : o → o → K) : mm ro (mm (mm (tp ro) (mm X ro)) (tp ro)) = X := by
  have : mm ro (mm (mm (tp ro) (mm X ro)) (tp ro)) = mm (mm ro (tp ro)) (mm X (mm ro (tp ro))) := by simp only [mm_assoc]
  rw [this, hro, delta_mm, mm_delta]
theorem outV (X : v → v → K) : mm rv (mm (mm (tp rv) (mm X rv)) (tp rv)) = X := by
  have : mm rv (mm (mm (tp rv) (mm X rv)) (tp rv)) = mm (mm rv (tp rv)) (mm X (mm rv (tp rv))) := by simp only [mm_assoc]
  rw [this, hrv, delta_mm, mm_delta]
theorem outOV (X : o → v → K) : mm ro (mm (mm (tp ro) (mm X rv)) (tp rv)) = X := by
  have : mm ro (mm (mm (tp ro) (mm X rv)) (tp rv)) = mm (mm ro (tp ro)) (mm X (mm rv (tp rv))) := by simp only [mm_assoc]
  rw [this, hro, hrv, delta_mm, mm_delta]

theorem tpO (X : o → o → K) : tp (mm (tp ro) (mm X ro)) = mm (tp ro) (mm (tp X) ro) := by rw [tp_mm, tp_mm, tp_tp, mm_assoc]
theorem tpV (X : v → v → K) : tp (mm (tp rv) (mm X rv)) = mm (tp rv) (mm (tp X) rv) := by rw [tp_mm, tp_mm, tp_tp, mm_assoc]

/-- The density matrix does not depend on the orbitals used. -/
theorem G_back (r1 : T1 o v K) (mc : o ⊕ v → c ⊕ d → K)
    (h1 : ∀ i k, mc (.inl i) (.inl k) = ro i k) (h2 : ∀ i k, mc (.inl i) (.inr k) = 0) (h3 : ∀ i k, mc (.inr i) (.inl k) = 0)
    (h4 : ∀ i k, mc (.inr i) (.inr k) = rv i k) :
    mm mc (mm (G (in1 ro rv t1) (in2 ro rv th) (in1 ro rv r1) (in1 ro rv m1) (in2 ro rv m2)) (tp mc)) = G t1 th r1 m1 m2 := by
  unfold G
  rw [blocks_back ro rv mc h1 h2 h3 h4, inO hro hrv, inV hro hrv, inVsw hro hrv, inS hro hrv, tpO hro hrv, tpV hro hrv, tpV hro hrv]
  congr 1
  · rw [mm_sub_l hro hrv, mm_sub_r hro hrv, mm_neg_l hro hrv, mm_neg_r, mm_add_l, mm_add_r, mm_add_l, mm_add_r, b1 hro hrv, b1 hro hrv, outO hro hrv, outO hro hrv]
  · have e1 : mm ro (mm (mm (in1 ro rv t1) (mm (tp (in1 ro rv m1)) (in1 ro rv t1))) (tp rv)) = mm t1 (mm (tp m1) t1) := by
      have h : mm ro (mm (mm (in1 ro rv t1) (mm (tp (in1 ro rv m1)) (in1 ro rv t1))) (tp rv)) =
          mm (mm ro (tp ro)) (mm t1 (mm (mm rv (tp rv)) (mm (tp m1) (mm (mm ro (tp ro)) (mm t1 (mm rv (tp rv))))))) := by
        simp only [in1, tp_mm, tp_tp, mm_assoc]
      rw [h, hro, hrv, delta_mm, delta_mm, delta_mm, mm_delta]
    have e2 : mm ro (mm (mm (mm (tp ro) (mm (dotO th m2) ro)) (in1 ro rv t1)) (tp rv)) = mm (dotO th m2) t1 := by
      have h : mm ro (mm (mm (mm (tp ro) (mm (dotO th m2) ro)) (in1 ro rv t1)) (tp rv)) =
          mm (mm ro (tp ro)) (mm (dotO th m2) (mm (mm ro (tp ro)) (mm t1 (mm rv (tp rv))))) := by
        simp only [in1, mm_assoc]
      rw [h, hro, hrv, delta_mm, delta_mm, mm_delta]
    have e3 : mm ro (mm (mm (in1 ro rv t1) (mm (tp rv) (mm (tp (dotV (sw th) (sw m2))) rv))) (tp rv)) = mm t1 (tp (dotV (sw th) (sw m2))) := by
      have h : mm ro (mm (mm (in1 ro rv t1) (mm (tp rv) (mm (tp (dotV (sw th) (sw m2))) rv))) (tp rv)) =
          mm (mm ro (tp ro)) (mm t1 (mm (mm rv (tp rv)) (mm (tp (dotV (sw th) (sw m2))) (mm rv (tp rv))))) := by
        simp only [in1, mm_assoc]
      rw [h, hro, hrv, delta_mm, delta_mm, mm_delta]
    rw [mm_sub_l hro hrv, mm_sub_r hro hrv, mm_sub_l hro hrv, mm_sub_r hro hrv, mm_add_l, mm_add_r, mm_sub_l hro hrv, mm_sub_r hro hrv, mm_add_l, mm_add_r,
      in1_back hro hrv, in1_back hro hrv, outOV hro hrv, e1, e2, e3]
  · rw [mm_add_l, mm_add_r, mm_add_l, mm_add_r, mm_add_l, mm_add_r, b2 hro hrv, b2 hro hrv, outV hro hrv, outV hro hrv]

end

theorem G_add (t1 : T1 o v K) (th : T2 o o v v K) (r r' m m' : T1 o v K) (l l' : T2 o o v v K) :
    G t1 th (r + r') (m + m') (l + l') = G t1 th r m l + G t1 th r' m' l' := by
  have tpa : ∀ {A B : Type} (X Y : A → B → K), tp (X + Y) = tp X + tp Y := fun _ _ => rfl
  have swa : ∀ X Y : T2 o o v v K, sw (X + Y) = sw X + sw Y := fun _ _ => rfl
  unfold G
  rw [dotO_add_r, dotV_add_r, swa, dotV_add_r, dotS_add_r]
  simp only [tpa, mm_add_l, mm_add_r]
  funext p q
  rcases p with i | a <;> rcases q with j | b <;> simp only [blocks, Pi.add_apply, Pi.sub_apply, Pi.neg_apply] <;> ring

theorem G_zero (t1 : T1 o v K) (th : T2 o o v v K) : G t1 th 0 0 0 = 0 := by
  have h := G_add t1 th 0 0 0 0 0 0
  rw [add_zero, add_zero] at h
  exact left_eq_add.mp h

/-- A fragment whose cluster is exact: also the unprojected amplitudes. -/
def ExactL [DecidableEq o] [DecidableEq v] (s : Mf ι o v K) (t1 : T1 o v K) (t2 : T2 o o v v K) (l1 : T1 o v K) (l2 : T2 o o v v K) (y : LFrag ι K) : Prop :=
  ∃ ro rv, Exact s t1 t2 l1 l2 y.x ro rv ∧ y.t1 = EwfEnergy.restrict1 ro rv t1 ∧ y.t2 = EwfEnergy.restrict2 ro rv t2

section
variable [DecidableEq o] [DecidableEq v] {s : Mf ι o v K} {t1 l1 : T1 o v K} {t2 l2 : T2 o o v v K}

theorem dm1_exact (hs : Orthonormal s) (tl symT2 : Bool) {y : LFrag ι K} (h : ExactL s t1 t2 l1 l2 y) :
    ∃ d, y.dm1 s tl symT2 = .ok d ∧ mm (y.mc s) (mm d (tp (y.mc s))) =
      G t1 (theta t2) (mm (PF s y.x) t1) (mm (PF s y.x) (if tl then t1 else l1))
        (if symT2 then symP (PF s y.x) (if tl then t2 else l2) else L1 (PF s y.x) (if tl then t2 else l2)) := by
  obtain ⟨ro, rv, hx, ht1, ht2⟩ := h
  have hl : y.x.lamPair tl = .ok (mm (FO s y.x) (mm (if tl then t1 else l1) rv), L1 (FO s y.x) (L2 (tp ro) (L3 (tp rv) (L4 (tp rv) (if tl then t2 else l2))))) := by
    unfold Frag.lamPair
    cases tl with
    | true =>
      rw [if_pos rfl, ex_t1 hs hx, ex_t2 hs hx]
      rfl
    | false =>
      rw [ex_l1 hs hx, ex_l2 hs hx]
      rfl
  refine ⟨_, by unfold LFrag.dm1; rw [hl]; rfl, ?_⟩
  unfold LFrag.dm1With
  dsimp only
  rw [G_gamma]
  have r1 : ∀ m : T1 o v K, projectC1 (tr (y.x.px s)) (mm (FO s y.x) (mm m rv)) = in1 ro rv (mm (PF s y.x) m) := by
    intro m
    show mm (tp (y.x.px s)) (mm (FO s y.x) (mm m rv)) = _
    rw [ex_px hs hx, tp_mm]
    simp only [in1, PF, mm_assoc]
  have rp : ∀ m : T2 o o v v K, L1 (tp (y.x.px s)) (L1 (FO s y.x) (L2 (tp ro) (L3 (tp rv) (L4 (tp rv) m)))) = in2 ro rv (L1 (PF s y.x) m) := by
    intro m
    rw [ex_px hs hx, tp_mm, L1_L1]
    unfold in2
    rw [L4_L1, L3_L1, L2_L1, L1_L1]
    simp only [PF, mm_assoc]
  have r2 : ∀ m : T2 o o v v K, (if symT2 then restored (y.x.px s) (L1 (FO s y.x) (L2 (tp ro) (L3 (tp rv) (L4 (tp rv) m)))) else
      projectC2 (tr (y.x.px s)) (L1 (FO s y.x) (L2 (tp ro) (L3 (tp rv) (L4 (tp rv) m))))) =
      in2 ro rv (if symT2 then symP (PF s y.x) m else L1 (PF s y.x) m) := by
    intro m
    cases symT2 with
    | false => exact rp m
    | true =>
      rw [if_pos rfl, if_pos rfl]
      have hr : ∀ A : T2 y.x.f y.x.co y.x.cv y.x.cv K, restored (y.x.px s) A = (1 / 2 : K) • (L1 (tp (y.x.px s)) A + transp (L1 (tp (y.x.px s)) A)) :=
        fun A => restored_eq _ _
      rw [hr, rp]
      have ht : transp (in2 ro rv (L1 (PF s y.x) m)) = in2 ro rv (L2 (PF s y.x) (transp m)) := by
        have : transp (in2 ro rv (L1 (PF s y.x) m)) = L2 (tp ro) (L1 (tp ro) (L4 (tp rv) (L3 (tp rv) (L2 (PF s y.x) (transp m))))) := rfl
        rw [this, L2_L1, L4_L3]; rfl
      rw [ht]
      unfold symP in2
      simp only [L4_add, L3_add, L2_add, L1_add, L4_smul, L3_smul, L2_smul, L1_smul]
  have hth : theta y.t2 = in2 ro rv (theta t2) := by
    rw [ht2, restrict2_eq, theta_L]; rfl
  have ht1' : y.t1 = in1 ro rv t1 := by rw [ht1, restrict1_eq]; rfl
  rw [r1, r2, ex_t1 hs hx, r1, hth, ht1']
  refine G_back hx.spanOcc hx.spanVir t1 _ _ _ _ (y.mc s) ?_ ?_ ?_ ?_
  · intro i k
    exact congrFun (congrFun (ex_mco hs hx) i) k
  · intro i k
    show mm (tp s.moOcc) (mm s.ovlp y.x.cVir) i k = 0
    rw [hx.vir, ← mm_assoc s.ovlp, ← mm_assoc, hs.mixed]
    simp [mm]
  · intro i k
    show mm (tp s.moVir) (mm s.ovlp y.x.cOcc) i k = 0
    have h0 : mm (tp s.moVir) (mm s.ovlp s.moOcc) = 0 := by
      have := congrArg tp hs.mixed
      rw [tp_mm, tp_mm, tp_tp, hs.ovlp, mm_assoc] at this
      exact this
    rw [hx.occ, ← mm_assoc s.ovlp, ← mm_assoc, h0]
    simp [mm]
  · intro i k
    exact congrFun (congrFun (ex_mcv hs hx) i) k

theorem L1_PF_sum {l : List (Frag ι K)} (hp : Partitions s l) (t : T2 o o v v K) : (l.map fun x => L1 (PF s x) t).sum = t := by
  have e := map_sum_add (fun P : o → o → K => L1 P t) (L1_zero' t) ?_ (PF s) l
  · rw [← e, sum_PF hp, L1_delta]
  · intro P Q
    funext i j a b; simp only [L1, Pi.add_apply, add_mul, Finset.sum_add_distrib]

theorem projLambda_total (hs : Orthonormal s) (h2 : (2 : K) ≠ 0) (tl symT2 : Bool) (ht : transp t2 = t2) (hl : transp l2 = l2)
    {l : List (LFrag ι K)} (hx : ∀ y ∈ l, ExactL s t1 t2 l1 l2 y) (hp : Partitions s (l.map LFrag.x)) :
    rdm1ProjLambda s tl symT2 l = .ok (G t1 (theta t2) t1 (if tl then t1 else l1) (if tl then t2 else l2)) := by
  unfold rdm1ProjLambda
  rw [accumulate_ok _ (fun y => G t1 (theta t2) (mm (PF s y.x) t1) (mm (PF s y.x) (if tl then t1 else l1))
        (if symT2 then symP (PF s y.x) (if tl then t2 else l2) else L1 (PF s y.x) (if tl then t2 else l2)))]
  · have e := map_sum_add (fun p : T1 o v K × T1 o v K × T2 o o v v K => G t1 (theta t2) p.1 p.2.1 p.2.2) (G_zero t1 (theta t2))
      (fun p q => G_add t1 (theta t2) _ _ _ _ _ _) (fun x : Frag ι K => (mm (PF s x) t1, mm (PF s x) (if tl then t1 else l1),
        if symT2 then symP (PF s x) (if tl then t2 else l2) else L1 (PF s x) (if tl then t2 else l2))) (l.map LFrag.x)
    rw [sum_prod, sum_prod, mm_sum hp, mm_sum hp] at e
    have e' : (l.map fun y => G t1 (theta t2) (mm (PF s y.x) t1) (mm (PF s y.x) (if tl then t1 else l1))
        (if symT2 then symP (PF s y.x) (if tl then t2 else l2) else L1 (PF s y.x) (if tl then t2 else l2))) =
        (l.map LFrag.x).map fun x => G t1 (theta t2) (mm (PF s x) t1) (mm (PF s x) (if tl then t1 else l1))
        (if symT2 then symP (PF s x) (if tl then t2 else l2) else L1 (PF s x) (if tl then t2 else l2)) := by
      rw [List.map_map]; rfl
    rw [e']
    refine congrArg Except.ok (Eq.trans e.symm ?_)
    dsimp only
    congr 1
    cases symT2 with
    | true =>
      refine symP_sum h2 hp _ ?_
      split_ifs <;> assumption
    | false => exact L1_PF_sum hp _
  · intro y hy
    obtain ⟨d, hd, e⟩ := dm1_exact hs tl symT2 (hx y hy)
    rw [hd, ← e]
    rfl

end

end Vayesta.EwfRdm
