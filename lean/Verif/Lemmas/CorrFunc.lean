import Verif.Model.CorrFunc
import Verif.Spec.CorrFunc
import Verif.Lemmas.DmetEnergy

/-! Lemmas on contractions in correlation functions. -/

namespace Vayesta.CorrFunc
open Vayesta.Rdm Vayesta.DmetEnergy Vayesta.CorrFuncSpec

variable {K : Type} [Field K] {n a b : Nat}

/-- `tr(p x q y)`. -/
def tr4 (p x q y : Mat n K) : K := (p * x * q * y).trace

theorem tr4_add2 (p x x' q y : Mat n K) : tr4 p (x + x') q y = tr4 p x q y + tr4 p x' q y := by
  simp only [tr4, Matrix.mul_add, Matrix.add_mul, Matrix.trace_add]
theorem tr4_smul2 (c : K) (p x q y : Mat n K) : tr4 p (c • x) q y = c * tr4 p x q y := by
  simp only [tr4, Matrix.mul_smul, Matrix.smul_mul, Matrix.trace_smul, smul_eq_mul]
theorem tr4_add4 (p x q y y' : Mat n K) : tr4 p x q (y + y') = tr4 p x q y + tr4 p x q y' := by
  simp only [tr4, Matrix.mul_add, Matrix.trace_add]
theorem tr4_smul4 (c : K) (p x q y : Mat n K) : tr4 p x q (c • y) = c * tr4 p x q y := by
  simp only [tr4, Matrix.mul_smul, Matrix.trace_smul, smul_eq_mul]

theorem tr4_swap (p x q y : Mat n K) (hp : p.transpose = p) (hx : x.transpose = x) (hq : q.transpose = q) (hy : y.transpose = y) :
    tr4 p x q y = tr4 p y q x := by
  unfold tr4
  rw [← Matrix.trace_transpose]
  simp only [Matrix.transpose_mul, hp, hx, hq, hy]
  rw [Matrix.trace_mul_comm]
  simp only [← Matrix.mul_assoc]
  rw [Matrix.trace_mul_comm]
  simp only [← Matrix.mul_assoc]
  rw [Matrix.trace_mul_comm]
  simp only [← Matrix.mul_assoc]

theorem dot2_smul_left {n m : Nat} (x : K) (a b : Matrix (Fin n) (Fin m) K) : dot2 (x • a) b = x * dot2 a b := by rw [dot2_comm, dot2_smul, dot2_comm]

theorem contract2_eq (p : Mat n K) (t : Ten n n K) (q : Mat n K) : contract2 p t q = dot4 (outer p q) t := by
  unfold contract2 dot4 outer
  refine Finset.sum_congr rfl fun _ _ => Finset.sum_congr rfl fun _ _ => Finset.sum_congr rfl fun _ _ => Finset.sum_congr rfl fun _ _ => ?_
  ring

theorem contractAb_eq (p : Mat a K) (t : Ten a b K) (q : Mat b K) : contractAb t p q = dot4 (outer p q) t := by
  unfold contractAb dot4 outer
  refine Finset.sum_congr rfl fun _ _ => Finset.sum_congr rfl fun _ _ => Finset.sum_congr rfl fun _ _ => Finset.sum_congr rfl fun _ _ => ?_
  ring

theorem pairPart_eq (p : Mat a K) (t : Ten a b K) (q : Mat b K) : pairPart t p q = dot4 (outer p q) t := rfl

theorem mean_eq (p d : Mat n K) : mean p d = dot2 p d := rfl

/-- The one-body part of `<A B>` as a trace. -/
theorem one_eq (p q d : Mat n K) (hp : p.transpose = p) (hq : q.transpose = q) (hd : d.transpose = d) :
    (∑ i, ∑ j, ∑ l, p i j * q j l * d i l) = (p * d * q).trace := by
  have e : (∑ i, ∑ j, ∑ l, p i j * q j l * d i l) = (p * q * d.transpose).trace := by
    simp only [Matrix.trace, Matrix.diag, Matrix.mul_apply, Matrix.transpose_apply]
    refine Finset.sum_congr rfl fun i _ => ?_
    rw [Finset.sum_comm]
    refine Finset.sum_congr rfl fun l _ => ?_
    rw [Finset.sum_mul]
  rw [e, hd, ← Matrix.trace_transpose]
  simp only [Matrix.transpose_mul, hp, hq, hd]
  rw [Matrix.trace_mul_comm, Matrix.mul_assoc, Matrix.trace_mul_comm]

theorem contract1_eq (p q d : Mat n K) (hp : p.transpose = p) (hq : q.transpose = q) (hd : d.transpose = d) : contract1 d p q = (p * d * q).trace := by
  rw [← one_eq p q d hp hq hd]
  unfold contract1
  refine Finset.sum_congr rfl fun i _ => ?_
  rw [Finset.sum_comm]
  refine Finset.sum_congr rfl fun k _ => Finset.sum_congr rfl fun j _ => ?_
  have : q j k = q k j := congrFun (congrFun hq k) j
  rw [this]; ring

theorem oneDot_eq (p q d : Mat n K) (hq : q.transpose = q) : dot2 (p * d) q = (p * d * q).trace := by
  rw [dot2_comm, dot2_trace, hq, Matrix.trace_mul_comm]

theorem dot4_outer (p x : Mat a K) (q y : Mat b K) : dot4 (outer p q) (outer x y) = dot2 p x * dot2 q y := by
  unfold dot4 outer dot2
  rw [Finset.sum_mul]
  refine Finset.sum_congr rfl fun i _ => ?_
  rw [Finset.sum_mul]
  refine Finset.sum_congr rfl fun j _ => ?_
  rw [Finset.mul_sum]
  refine Finset.sum_congr rfl fun k _ => ?_
  rw [Finset.mul_sum]
  exact Finset.sum_congr rfl fun l _ => by ring

theorem dot4_wedge (f : K) (p q x y : Mat n K) (hp : p.transpose = p) (hq : q.transpose = q) (hy : y.transpose = y) :
    dot4 (outer p q) (wedge f x y) = dot2 p x * dot2 q y - f * tr4 p x q y := by
  have e : tr4 p x q y = ∑ i, ∑ j, ∑ k, ∑ l, p i j * q k l * (x i l * y j k) := by
    have h1 : tr4 p x q y = tr4 p.transpose x q.transpose y.transpose := by rw [hp, hq, hy]
    rw [h1]
    simp only [tr4, Matrix.trace, Matrix.diag, Matrix.mul_apply, Matrix.transpose_apply, Finset.sum_mul]
    -- sum over j k l i
    calc (∑ j, ∑ k, ∑ l, ∑ i, p i j * x i l * q k l * y j k)
        = ∑ j, ∑ k, ∑ i, ∑ l, p i j * x i l * q k l * y j k :=
          Finset.sum_congr rfl fun _ _ => Finset.sum_congr rfl fun _ _ => Finset.sum_comm
      _ = ∑ j, ∑ i, ∑ k, ∑ l, p i j * x i l * q k l * y j k := Finset.sum_congr rfl fun _ _ => Finset.sum_comm
      _ = ∑ i, ∑ j, ∑ k, ∑ l, p i j * x i l * q k l * y j k := Finset.sum_comm
      _ = _ := Finset.sum_congr rfl fun _ _ => Finset.sum_congr rfl fun _ _ => Finset.sum_congr rfl fun _ _ => Finset.sum_congr rfl fun _ _ => by ring
  have e2 : tr4 p x q y = dot4 (outer p q) (outerX x y) := e
  rw [e2, ← dot4_outer p x q y, ← dot4_smul, ← dot4_sub]
  rfl

theorem mf_transpose (nocc : Nat) (x : K) : (meanField n nocc x).transpose = meanField n nocc x := by
  funext p q
  simp only [Matrix.transpose_apply, meanField]
  by_cases h : p = q
  · subst h; rfl
  · rw [if_neg fun c => h c.1.symm, if_neg fun c => h c.1]

theorem mf_smul (nocc : Nat) (x : K) : meanField n nocc x = x • meanField n nocc (1 : K) := by
  funext p q
  simp only [Matrix.smul_apply, meanField, smul_eq_mul, mul_ite, mul_one, mul_zero]

theorem rowsDot_eq (nocc : Nat) (x y : Mat n K) : rowsDot nocc x y = (meanField n nocc (1 : K) * x * y.transpose).trace := by
  unfold rowsDot
  simp only [Matrix.trace, Matrix.diag]
  refine Finset.sum_congr rfl fun i _ => ?_
  have e : ∀ j, (meanField n nocc (1 : K) * x) i j = if i.val < nocc then x i j else 0 := by
    intro j
    rw [Matrix.mul_apply, Finset.sum_eq_single i]
    · simp only [meanField, true_and]; split <;> simp
    · intro k _ hk; simp [meanField, Ne.symm hk]
    · simp
  rw [Matrix.mul_apply]
  simp only [e, Matrix.transpose_apply]
  split <;> simp

theorem occTrace_eq (nocc : Nat) (p : Mat n K) : occTrace nocc p = dot2 p (meanField n nocc 1) := by
  unfold occTrace dot2
  refine Finset.sum_congr rfl fun i _ => ?_
  rw [Finset.sum_eq_single i]
  · simp [meanField]
  · intro k _ hk; simp [meanField, Ne.symm hk]
  · simp

theorem rows_tr4 (nocc : Nat) (p q d : Mat n K) (hq : q.transpose = q) : rowsDot nocc (p * d) q = tr4 p d q (meanField n nocc 1) := by
  rw [rowsDot_eq, hq]
  unfold tr4
  rw [Matrix.mul_assoc, Matrix.trace_mul_comm]

/-- Contraction with projectors in a cluster basis is contraction of the transformed array. -/
theorem contract2_rotate {m : Nat} (r : Matrix (Fin m) (Fin n) K) (p q : Mat n K) (t : Ten m m K) :
    contract2 (r * p * r.transpose) t (r * q * r.transpose) = dot4 (outer p q) (transform r.transpose r.transpose t) := by
  rw [contract2_eq, ← dot4_cut]
  congr 1
  funext i j k l
  rw [transform_outer]
  rfl

end Vayesta.CorrFunc
