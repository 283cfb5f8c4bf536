import Verif.Props.CcUOpen

/-! Unrestricted density matrices of coupled cluster for one electron of either spin, where coupled cluster is exact. -/

namespace Vayesta.Props
open Vayesta.CcURdm2 Vayesta.Diagram
open Vayesta.CcRdm2 (occEq)

set_option linter.unusedSectionVars false
set_option linter.unusedSimpArgs false

variable {va vb K : Type} [Fintype va] [Fintype vb] [Field K] [CharZero K]

/-! ## Specification -/

/-- The wave function `exp(T)|0>`: amplitude for the first electron in `p` with one spin and the second in `r` with the other. -/
def rightPair (x : UAmps Unit Unit va vb K) : Unit ⊕ va → Unit ⊕ vb → K
  | .inl _, .inl _ => 1
  | .inl _, .inr b => x.t1b () b
  | .inr a, .inl _ => x.t1a () a
  | .inr a, .inr b => x.t2ab () () a b + x.t1a () a * x.t1b () b

/-- The left wave function `<0|(1 + Λ) exp(-T)`. -/
def leftPair (x : UAmps Unit Unit va vb K) : Unit ⊕ va → Unit ⊕ vb → K
  | .inl _, .inl _ => 1 - ∑ a, x.l1a () a * x.t1a () a - ∑ b, x.l1b () b * x.t1b () b - ∑ a, ∑ b, x.l2ab () () a b * (x.t2ab () () a b - x.t1a () a * x.t1b () b)
  | .inl _, .inr b => x.l1b () b - ∑ a, x.l2ab () () a b * x.t1a () a
  | .inr a, .inl _ => x.l1a () a - ∑ b, x.l2ab () () a b * x.t1b () b
  | .inr a, .inr b => x.l2ab () () a b

private theorem usum (f : Unit → K) : ∑ i, f i = f () := by simp

private theorem uall {v : Type} {P : Unit ⊕ v → Prop} (h : P (.inl ())) (h' : ∀ a, P (.inr a)) : ∀ p, P p
  | .inl _ => h
  | .inr a => h' a

private theorem pauli_unit {v : Type} {t : Unit → Unit → v → v → K} (h : Pauli t) : t = fun _ _ _ _ => 0 := by
  funext i j a b
  have := h.occ i j a b
  have e : t i j a b = -t i j a b := this
  have : 2 * t i j a b = 0 := by linear_combination e
  simpa using this

private theorem exact_pair (t1a l1a : Unit → va → K) (t1b l1b : Unit → vb → K) (t2ab l2ab : Unit → Unit → va → vb → K) :
    let x : UAmps Unit Unit va vb K := ⟨t1a, t1b, fun _ _ _ _ => 0, t2ab, fun _ _ _ _ => 0, l1a, l1b, fun _ _ _ _ => 0, l2ab, fun _ _ _ _ => 0⟩
    ∑ p, ∑ r, leftPair x p r * rightPair x p r = 1
      ∧ (∀ p q r s, rdm2ab x true p q r s = (leftPair x p r * rightPair x q s + leftPair x q s * rightPair x p r) / 2)
      ∧ (∀ p q r s, rdm2aa x true p q r s = 0) ∧ ∀ p q r s, rdm2bb x true p q r s = 0 := by
  intro x
  refine ⟨?_, ?_, ?_, ?_⟩
  · simp only [x, Fintype.sum_sum_type, usum, leftPair, rightPair]
    diagram []
  · refine uall ?_ fun a => ?_ <;> refine uall ?_ fun b => ?_ <;> refine uall ?_ fun c => ?_ <;> refine uall ?_ fun d => ?_ <;>
      simp only [x, cond_true, occEq, if_true, Bool.false_eq_true, false_and, if_false, leftPair, rightPair, usum,
        tmpA, tmpB, tmpC, tmpD, dooa, doob, dvva, dvvb, xt1a, xt2a, xt1b, xt2b, dvoa, dvob, dova, dovb, tauaa, tauab, taubb, miajb, miaJB, mIAjb, mIAJB, miAjB, mIaJb, tmpa, tmpb, tmpa_2, tmpb_2, tmpa_3, tmpb_3, tmpa_4, tmpb_4, tmpa_5, tmpb_5, tmpaa, tmpbb, tmpabab, goovv, goOvV, gOOVV, gvvvv, gvVvV, gVVVV, goooo, goOoO, gOOOO, tmpa_6, tmpb_6, gooov, goOoV, gOoOv, gOOOV, tmpa_7, tmpb_7, govvv, goVvV, gOvVv, gOVVV, govvo, goVvO, gOvVo, gOVVO, goVoV, gOvOv, dovov, dvvvv, doooo, dovvv, dooov, dovvo, dovov_2, dvvvv_2, doooo_2, dovvo_2, doovv, dOVOV, dVVVV, dOOOO, dOVVV, dOOOV, dOVVO, dOVOV_2, dVVVV_2, dOOOO_2, dOVVO_2, dOOVV, dovOV, dvvVV, dooOO, dovVV, dooOV, dovVO, dOVvv, dOOov, dOVvo, dooVV, dOOvv, dvvVV_2, dooOO_2, dovVO_2, dooVV_2, dOVvo_2, dOOvv_2, place1, rdm1a, rdm1b, place, blocksAA, blocksBB, blocksAB, withDm1, rdm2aa, rdm2bb, rdm2ab, mul_zero, zero_mul, Finset.sum_const_zero, zero_div, sub_zero]
    all_goals diagram []
  · refine uall ?_ fun a => ?_ <;> refine uall ?_ fun b => ?_ <;> refine uall ?_ fun c => ?_ <;> refine uall ?_ fun d => ?_ <;>
      simp only [x, cond_true, occEq, if_true, Bool.false_eq_true, false_and, if_false, usum,
        tmpA, tmpB, tmpC, tmpD, dooa, doob, dvva, dvvb, xt1a, xt2a, xt1b, xt2b, dvoa, dvob, dova, dovb, tauaa, tauab, taubb, miajb, miaJB, mIAjb, mIAJB, miAjB, mIaJb, tmpa, tmpb, tmpa_2, tmpb_2, tmpa_3, tmpb_3, tmpa_4, tmpb_4, tmpa_5, tmpb_5, tmpaa, tmpbb, tmpabab, goovv, goOvV, gOOVV, gvvvv, gvVvV, gVVVV, goooo, goOoO, gOOOO, tmpa_6, tmpb_6, gooov, goOoV, gOoOv, gOOOV, tmpa_7, tmpb_7, govvv, goVvV, gOvVv, gOVVV, govvo, goVvO, gOvVo, gOVVO, goVoV, gOvOv, dovov, dvvvv, doooo, dovvv, dooov, dovvo, dovov_2, dvvvv_2, doooo_2, dovvo_2, doovv, dOVOV, dVVVV, dOOOO, dOVVV, dOOOV, dOVVO, dOVOV_2, dVVVV_2, dOOOO_2, dOVVO_2, dOOVV, dovOV, dvvVV, dooOO, dovVV, dooOV, dovVO, dOVvv, dOOov, dOVvo, dooVV, dOOvv, dvvVV_2, dooOO_2, dovVO_2, dooVV_2, dOVvo_2, dOOvv_2, place1, rdm1a, rdm1b, place, blocksAA, blocksBB, blocksAB, withDm1, rdm2aa, rdm2bb, rdm2ab, mul_zero, zero_mul, Finset.sum_const_zero, zero_div, sub_zero]
    all_goals diagram []
  · refine uall ?_ fun a => ?_ <;> refine uall ?_ fun b => ?_ <;> refine uall ?_ fun c => ?_ <;> refine uall ?_ fun d => ?_ <;>
      simp only [x, cond_true, occEq, if_true, Bool.false_eq_true, false_and, if_false, usum,
        tmpA, tmpB, tmpC, tmpD, dooa, doob, dvva, dvvb, xt1a, xt2a, xt1b, xt2b, dvoa, dvob, dova, dovb, tauaa, tauab, taubb, miajb, miaJB, mIAjb, mIAJB, miAjB, mIaJb, tmpa, tmpb, tmpa_2, tmpb_2, tmpa_3, tmpb_3, tmpa_4, tmpb_4, tmpa_5, tmpb_5, tmpaa, tmpbb, tmpabab, goovv, goOvV, gOOVV, gvvvv, gvVvV, gVVVV, goooo, goOoO, gOOOO, tmpa_6, tmpb_6, gooov, goOoV, gOoOv, gOOOV, tmpa_7, tmpb_7, govvv, goVvV, gOvVv, gOVVV, govvo, goVvO, gOvVo, gOVVO, goVoV, gOvOv, dovov, dvvvv, doooo, dovvv, dooov, dovvo, dovov_2, dvvvv_2, doooo_2, dovvo_2, doovv, dOVOV, dVVVV, dOOOO, dOVVV, dOOOV, dOVVO, dOVOV_2, dVVVV_2, dOOOO_2, dOVVO_2, dOOVV, dovOV, dvvVV, dooOO, dovVV, dooOV, dovVO, dOVvv, dOOov, dOVvo, dooVV, dOOvv, dvvVV_2, dooOO_2, dovVO_2, dooVV_2, dOVvo_2, dOOvv_2, place1, rdm1a, rdm1b, place, blocksAA, blocksBB, blocksAB, withDm1, rdm2aa, rdm2bb, rdm2ab, mul_zero, zero_mul, Finset.sum_const_zero, zero_div, sub_zero]
    all_goals diagram []

/-- **One electron of either spin.** Here coupled cluster is exact: whatever the amplitudes and multipliers, which may differ between the spins, the two-body density matrix of opposite spins is that
of the left and right wave functions (symmetrised, as the code does), which are normalised against each other. Those of equal spins vanish. -/
theorem urdm2_one_of_each (x : UAmps Unit Unit va vb K) (h : Fermionic x) :
    ∑ p, ∑ r, leftPair x p r * rightPair x p r = 1
      ∧ (∀ p q r s, rdm2ab x true p q r s = (leftPair x p r * rightPair x q s + leftPair x q s * rightPair x p r) / 2)
      ∧ (∀ p q r s, rdm2aa x true p q r s = 0) ∧ ∀ p q r s, rdm2bb x true p q r s = 0 := by
  obtain ⟨t1a, t1b, t2aa, t2ab, t2bb, l1a, l1b, l2aa, l2ab, l2bb⟩ := x
  obtain ⟨h1, h2, h3, h4⟩ := h
  have e1 := pauli_unit h1
  have e2 := pauli_unit h2
  have e3 := pauli_unit h3
  have e4 := pauli_unit h4
  simp only at e1 e2 e3 e4
  clear h1 h2 h3 h4
  subst e1 e2 e3 e4
  exact exact_pair t1a l1a t1b l1b t2ab l2ab

example : Fermionic (oa := Unit) (ob := Unit) (va := Fin 2) (vb := Fin 3) (K := ℚ)
    ⟨fun _ a => a + 1, fun _ a => 2 * a + 3, fun _ _ _ _ => 0, fun _ _ a b => a + 2 * b + 1, fun _ _ _ _ => 0, fun _ a => 3 - a, fun _ a => a + 2, fun _ _ _ _ => 0,
      fun _ _ a b => a * b + 1, fun _ _ _ _ => 0⟩ :=
  ⟨⟨fun _ _ _ _ => by simp, fun _ _ _ _ => by simp⟩, ⟨fun _ _ _ _ => by simp, fun _ _ _ _ => by simp⟩, ⟨fun _ _ _ _ => by simp, fun _ _ _ _ => by simp⟩,
    ⟨fun _ _ _ _ => by simp, fun _ _ _ _ => by simp⟩⟩

end Vayesta.Props
