import Verif.Model.Mp2
import Verif.Spec.Mp2
import Verif.Spec.DmetEnergy
import Verif.Lemmas.DmetEnergy
import Mathlib.Algebra.BigOperators.Fin
import Mathlib.Tactic.FieldSimp

/-! Lemmas on MP2 density matrices. -/

namespace Vayesta.Mp2
open Vayesta.Rdm Vayesta.DemoRdm Vayesta.DmetEnergy Matrix

variable {K : Type} [Field K] {no nv : Nat}

@[simp] theorem rdm1_oo (t2 : T2 no nv K) (m : Bool) (i j : Fin no) : makeRdm1 t2 m (o nv i) (o nv j) = doo t2 m i j + doo t2 m j i := by
  simp [makeRdm1, o]
@[simp] theorem rdm1_ov (t2 : T2 no nv K) (m : Bool) (i : Fin no) (a : Fin nv) : makeRdm1 t2 m (o nv i) (v no a) = 0 := by
  simp [makeRdm1, o, v]
@[simp] theorem rdm1_vo (t2 : T2 no nv K) (m : Bool) (i : Fin no) (a : Fin nv) : makeRdm1 t2 m (v no a) (o nv i) = 0 := by
  simp [makeRdm1, o, v]
@[simp] theorem rdm1_vv (t2 : T2 no nv K) (m : Bool) (a b : Fin nv) : makeRdm1 t2 m (v no a) (v no b) = dvv t2 a b + dvv t2 b a := by
  simp [makeRdm1, v]

theorem split_cases {P : Fin (no + nv) → Prop} (ho : ∀ i : Fin no, P (o nv i)) (hv : ∀ a : Fin nv, P (v no a)) : ∀ p, P p :=
  Fin.addCases ho hv

@[simp] theorem mf_oo (x : K) (i j : Fin no) : meanField (no + nv) no x (o nv i) (o nv j) = if i = j then x else 0 := by
  simp [meanField, o]
@[simp] theorem mf_ov (x : K) (i : Fin no) (a : Fin nv) : meanField (no + nv) no x (o nv i) (v no a) = 0 := by
  have : (Fin.castAdd nv i : Fin (no + nv)) ≠ Fin.natAdd no a := by
    intro h; have := congrArg Fin.val h; simp at this; omega
  simp [meanField, o, v, this]
@[simp] theorem mf_vp (x : K) (a : Fin nv) (p : Fin (no + nv)) : meanField (no + nv) no x (v no a) p = 0 := by
  simp [meanField, v]

theorem doo_mf (t2 : T2 no nv K) (i j : Fin no) : doo t2 true i j = doo t2 false i j + if i = j then 1 else 0 := by
  simp [doo]

theorem rdm1_mf (t2 : T2 no nv K) : makeRdm1 t2 true = makeRdm1 t2 false + meanField (no + nv) no 2 := by
  funext p q
  revert p q
  refine split_cases (fun i => split_cases (fun j => ?_) fun b => ?_) fun a => split_cases (fun j => ?_) fun b => ?_
  · rw [Matrix.add_apply, rdm1_oo, rdm1_oo, mf_oo, doo_mf, doo_mf]
    by_cases h : i = j
    · subst h; simp; ring
    · simp [h, Ne.symm h]
  · rw [Matrix.add_apply, rdm1_ov, rdm1_ov, mf_ov, add_zero]
  · rw [Matrix.add_apply, rdm1_vo, rdm1_vo, mf_vp, add_zero]
  · rw [Matrix.add_apply, rdm1_vv, rdm1_vv, mf_vp, add_zero]

theorem rdm1_symm (t2 : T2 no nv K) (m : Bool) : (makeRdm1 t2 m).transpose = makeRdm1 t2 m := by
  funext p q
  rw [transpose_apply]
  revert p q
  refine split_cases (fun i => split_cases (fun j => ?_) fun b => ?_) fun a => split_cases (fun j => ?_) fun b => ?_
  · rw [rdm1_oo, rdm1_oo, add_comm]
  · rw [rdm1_vo, rdm1_ov]
  · rw [rdm1_vo, rdm1_ov]
  · rw [rdm1_vv, rdm1_vv, add_comm]

/-- Sum over amplitudes. -/
def sum4 (f : Fin no → Fin no → Fin nv → Fin nv → K) : K := ∑ i, ∑ j, ∑ a, ∑ b, f i j a b

theorem sum4_add (f g : Fin no → Fin no → Fin nv → Fin nv → K) : sum4 (fun i j a b => f i j a b + g i j a b) = sum4 f + sum4 g := by
  simp only [sum4, Finset.sum_add_distrib]
theorem sum4_sub (f g : Fin no → Fin no → Fin nv → Fin nv → K) : sum4 (fun i j a b => f i j a b - g i j a b) = sum4 f - sum4 g := by
  simp only [sum4, Finset.sum_sub_distrib]
theorem sum4_mul (x : K) (f : Fin no → Fin no → Fin nv → Fin nv → K) : sum4 (fun i j a b => x * f i j a b) = x * sum4 f := by
  simp only [sum4, Finset.mul_sum]
theorem sum4_congr {f g : Fin no → Fin no → Fin nv → Fin nv → K} (h : ∀ i j a b, f i j a b = g i j a b) : sum4 f = sum4 g := by
  simp only [sum4, h]
theorem sum4_swap_o (f : Fin no → Fin no → Fin nv → Fin nv → K) : sum4 (fun i j a b => f j i a b) = sum4 f := Finset.sum_comm
theorem sum4_swap_v (f : Fin no → Fin no → Fin nv → Fin nv → K) : sum4 (fun i j a b => f i j b a) = sum4 f :=
  Finset.sum_congr rfl fun _ _ => Finset.sum_congr rfl fun _ _ => Finset.sum_comm
/-- Virtual indices outermost. -/
theorem sum4_vir (f : Fin no → Fin no → Fin nv → Fin nv → K) : ∑ a, ∑ i, ∑ j, ∑ b, f i j a b = sum4 f := by
  unfold sum4
  rw [Finset.sum_comm]
  refine Finset.sum_congr rfl fun i _ => ?_
  rw [Finset.sum_comm]

/-- Occupied part of a weighted trace. -/
theorem trace_oo (t2 : T2 no nv K) (e : Fin no → K) :
    ∑ i, e i * doo t2 false i i = -sum4 fun i j a b => e i * (t2 i j a b * (2 * t2 i j a b - t2 j i a b)) := by
  have : ∀ i, e i * doo t2 false i i = -∑ j, ∑ a, ∑ b, e i * (t2 i j a b * (2 * t2 i j a b - t2 j i a b)) := by
    intro i
    simp only [doo, Bool.false_eq_true, false_and, if_false, add_zero, Finset.mul_sum, ← Finset.sum_sub_distrib, mul_neg]
    rw [neg_inj]
    exact Finset.sum_congr rfl fun _ _ => Finset.sum_congr rfl fun _ _ => Finset.sum_congr rfl fun _ _ => by ring
  simp only [this, Finset.sum_neg_distrib]
  rfl

/-- Virtual part of a weighted trace. -/
theorem trace_vv (t2 : T2 no nv K) (e : Fin nv → K) :
    ∑ a, e a * dvv t2 a a = sum4 fun i j a b => e a * (t2 i j a b * (2 * t2 i j a b - t2 i j b a)) := by
  rw [← sum4_vir]
  refine Finset.sum_congr rfl fun a _ => ?_
  simp only [dvv, Finset.mul_sum, ← Finset.sum_sub_distrib]
  exact Finset.sum_congr rfl fun _ _ => Finset.sum_congr rfl fun _ _ => Finset.sum_congr rfl fun _ _ => by ring

/-- The trace for any amplitudes. -/
theorem trace_false (t2 : T2 no nv K) : (makeRdm1 t2 false).trace = 2 * sum4 fun i j a b => t2 i j a b * (t2 j i a b - t2 i j b a) := by
  have ho := trace_oo t2 fun _ => 1
  have hv := trace_vv t2 fun _ => 1
  simp only [one_mul] at ho hv
  unfold Matrix.trace
  rw [Fin.sum_univ_add]
  simp only [diag_apply]
  have a1 : ∀ i : Fin no, makeRdm1 t2 false (Fin.castAdd nv i) (Fin.castAdd nv i) = 2 * doo t2 false i i := fun i => by rw [rdm1_oo]; ring
  have a2 : ∀ a : Fin nv, makeRdm1 t2 false (Fin.natAdd no a) (Fin.natAdd no a) = 2 * dvv t2 a a := fun i => by rw [rdm1_vv]; ring
  simp only [a1, a2, ← Finset.mul_sum]
  rw [ho, hv, ← mul_add, neg_add_eq_sub, ← sum4_sub]
  congr 1
  exact sum4_congr fun i j a b => by ring

theorem trace_mf : (meanField (no + nv) no (2 : K)).trace = 2 * no := by
  unfold Matrix.trace
  rw [Fin.sum_univ_add]
  simp only [diag_apply]
  have a1 : ∀ i : Fin no, meanField (no + nv) no (2 : K) (Fin.castAdd nv i) (Fin.castAdd nv i) = 2 := fun i => by rw [mf_oo]; simp
  have a2 : ∀ a : Fin nv, meanField (no + nv) no (2 : K) (Fin.natAdd no a) (Fin.natAdd no a) = 0 := fun i => by rw [mf_vp]
  simp only [a1, a2]
  simp [mul_comm]

/-- With exchange symmetry nothing is left. -/
theorem exchange_zero (t2 : T2 no nv K) (h : ExchangeSymmetric t2) : (sum4 fun i j a b => t2 i j a b * (t2 j i a b - t2 i j b a)) = 0 := by
  have : ∀ i j a b, t2 i j a b * (t2 j i a b - t2 i j b a) = 0 := by
    intro i j a b; rw [h i j b a, sub_self, mul_zero]
  simp [sum4, this]

theorem smul_mf (x y : K) : meanField (no + nv) no (x * y) = x • meanField (no + nv) no y := by
  funext p q
  simp only [meanField, Matrix.smul_apply, smul_eq_mul]
  split <;> simp

/-- Closed form of the two-body density matrix. -/
theorem rdm2_eq [CharZero K] (t2 : T2 no nv K) (a : Int) :
    makeRdm2 t2 true a = .ok fun p q r s => ovovBlocks t2 p q r s + onePartLinear (1 / 2) (makeRdm1 t2 true) (meanField (no + nv) no 2) p q r s := by
  have h2 : (2 : K) ≠ 0 := two_ne_zero
  unfold makeRdm2
  rw [if_pos rfl]
  refine congrArg Except.ok ?_
  rw [foldl_four]
  funext p q r s
  have hs : ∀ p q : Fin (no + nv), makeRdm1 t2 false q p = makeRdm1 t2 false p q := fun p q => congrFun (congrFun (rdm1_symm t2 false) p) q
  have hm : meanField (no + nv) no (2 : K) = (2 : K) • meanField (no + nv) no 1 := by rw [← smul_mf, mul_one]
  rw [rdm1_mf, hm, addDiag_eq]
  simp only [onePartLinear, wedge, Matrix.add_apply, Matrix.smul_apply, Matrix.neg_apply, smul_eq_mul]
  field_simp
  ring

theorem rdm2_false (t2 : T2 no nv K) : makeRdm2 t2 false 1 = .ok (ovovBlocks t2) := by
  simp [makeRdm2]

/-- Fock matrix and mean-field potential. -/
theorem fock_eq [CharZero K] (h : Matrix (Fin (no + nv)) (Fin (no + nv)) K) (g : Ten (no + nv) (no + nv) K) (p q : Fin (no + nv)) :
    fock h g p q = h p q + veff g (meanField (no + nv) no 2) p q := by
  have h2 : (2 : K) ≠ 0 := two_ne_zero
  have key : ∀ f : Fin (no + nv) → Fin (no + nv) → K, ∑ r, ∑ s, f r s * meanField (no + nv) no (2 : K) r s = ∑ i : Fin no, 2 * f (o nv i) (o nv i) := by
    intro f
    rw [Fin.sum_univ_add]
    have a1 : ∀ a : Fin nv, ∑ s, f (Fin.natAdd no a) s * meanField (no + nv) no (2 : K) (Fin.natAdd no a) s = 0 := by
      intro a
      refine Finset.sum_eq_zero fun s _ => ?_
      rw [mf_vp, mul_zero]
    have a2 : ∀ i : Fin no, ∑ s, f (Fin.castAdd nv i) s * meanField (no + nv) no (2 : K) (Fin.castAdd nv i) s = 2 * f (o nv i) (o nv i) := by
      intro i
      rw [Fin.sum_univ_add]
      have b1 : ∀ a : Fin nv, meanField (no + nv) no (2 : K) (Fin.castAdd nv i) (Fin.natAdd no a) = 0 := fun a => mf_ov 2 i a
      have b2 : ∀ j : Fin no, meanField (no + nv) no (2 : K) (Fin.castAdd nv i) (Fin.castAdd nv j) = if i = j then 2 else 0 := fun j => mf_oo 2 i j
      simp only [b1, b2, mul_zero, Finset.sum_const_zero, add_zero, mul_ite, Finset.sum_ite_eq, Finset.mem_univ, if_true]
      ring
    simp only [a1, a2, Finset.sum_const_zero, add_zero]
  unfold fock veff
  rw [key fun r s => g p q r s, key fun r s => g p r s q, Finset.sum_sub_distrib, ← Finset.mul_sum, ← Finset.mul_sum]
  field_simp

theorem energy_split [CharZero K] (h : Matrix (Fin (no + nv)) (Fin (no + nv)) K) (g : Ten (no + nv) (no + nv) K) (hs : RealSymmetric h g)
    (t2 : T2 no nv K) {t : Ten (no + nv) (no + nv) K} (ht : makeRdm2 t2 true 0 = .ok t) :
    energyOf h g (makeRdm1 t2 true) t = energyOf h g (meanField (no + nv) no 2) (onePart (1 / 2) (meanField (no + nv) no 2)) +
      dot2 (makeRdm1 t2 false) (h + veff g (meanField (no + nv) no 2)) + dot4 g (ovovBlocks t2) / 2 := by
  have h2 : (2 : K) ≠ 0 := two_ne_zero
  rw [rdm2_eq] at ht
  cases ht
  set m := meanField (no + nv) no (2 : K) with hm
  set d := makeRdm1 t2 false with hd
  have e1 : ∀ (x : Matrix (Fin (no + nv)) (Fin (no + nv)) K) (y : Ten (no + nv) (no + nv) K), energyOf h g x y = dot2 h x + dot4 g y / 2 := fun _ _ => rfl
  have hw : ∀ x y z : Matrix (Fin (no + nv)) (Fin (no + nv)) K, dot4 g (wedge (1 / 2) (x + y) z) = dot4 g (wedge (1 / 2) x z) + dot4 g (wedge (1 / 2) y z) := by
    intro x y z
    rw [← dot4_add]
    congr 1
    funext p q r s
    simp only [wedge, Matrix.add_apply]; ring
  have hl : dot4 g (fun p q r s => ovovBlocks t2 p q r s + onePartLinear (1 / 2) (makeRdm1 t2 true) m p q r s) =
      dot4 g (ovovBlocks t2) + (dot4 g (wedge (1 / 2) m (d + m)) + dot4 g (wedge (1 / 2) (d + m) m) - dot4 g (wedge (1 / 2) m m)) := by
    rw [rdm1_mf, ← hd, ← hm, dot4_add]
    congr 1
    rw [← dot4_add, ← dot4_sub]
    rfl
  rw [e1, hl, rdm1_mf, ← hd, ← hm, e1, wedge_comm hs m, hw, dot2_add, dot2_add, dot2_veff, dot2_comm d]
  have : dot4 g (onePart (1 / 2) m) = dot4 g (wedge (1 / 2) m m) := rfl
  rw [this]
  field_simp
  ring

theorem ovov_energy (h : Matrix (Fin (no + nv)) (Fin (no + nv)) K) (g : Ten (no + nv) (no + nv) K) (hs : RealSymmetric h g) (t2 : T2 no nv K) :
    dot4 g (ovovBlocks t2) = 2 * (2 * mp2Energy g t2) := by
  have hsum : ∀ f : Fin no → Fin nv → Fin no → Fin nv → K, ∑ i, ∑ a, ∑ j, ∑ b, f i a j b = ∑ i, ∑ j, ∑ a, ∑ b, f i a j b :=
    fun f => Finset.sum_congr rfl fun i _ => Finset.sum_comm
  have e0 : 2 * mp2Energy g t2 = ∑ i, ∑ a, ∑ j, ∑ b, g (o nv i) (v no a) (o nv j) (v no b) * dovov t2 i a j b := by
    rw [hsum]
    unfold mp2Energy dovov
    simp only [Finset.mul_sum]
    exact Finset.sum_congr rfl fun _ _ => Finset.sum_congr rfl fun _ _ => Finset.sum_congr rfl fun _ _ => Finset.sum_congr rfl fun _ _ => by ring
  have e1 : ∑ a : Fin nv, ∑ i : Fin no, ∑ b : Fin nv, ∑ j : Fin no, g (v no a) (o nv i) (v no b) (o nv j) * dovov t2 i a j b = 2 * mp2Energy g t2 := by
    rw [e0, Finset.sum_comm]
    refine Finset.sum_congr rfl fun i _ => Finset.sum_congr rfl fun a _ => ?_
    rw [Finset.sum_comm]
    refine Finset.sum_congr rfl fun j _ => Finset.sum_congr rfl fun b _ => ?_
    rw [hs.bra, hs.ket]
  unfold dot4 ovovBlocks
  simp only [Fin.sum_univ_add, Fin.addCases_left, Fin.addCases_right, mul_zero, Finset.sum_const_zero, zero_add, add_zero]
  rw [two_mul]
  nth_rewrite 2 [← e1]
  rw [e0]

end Vayesta.Mp2
