import Verif.Model.Rdm
import Verif.Spec.Rdm
import Mathlib.Algebra.BigOperators.Ring.Finset
import Mathlib.Algebra.BigOperators.Group.Finset.Sigma
import Mathlib.Data.List.FinRange
import Mathlib.Tactic.Ring
import Mathlib.Tactic.Tauto
import Mathlib.Tactic.LinearCombination

/-! Closed forms of the loops of `Verif.Model.Rdm` and of the transformations. -/

namespace Vayesta.Rdm

variable {K : Type} [Field K]

theorem addDiag_eq {n : Nat} (nocc : Nat) (x : K) (d : Matrix (Fin n) (Fin n) K) : addDiag nocc x d = d + meanField n nocc x := by
  funext p q; rfl

theorem foldl_pointwise {a b : Nat} {ι : Type} (f : ι → Ten a b K) : ∀ (l : List ι) (t : Ten a b K),
    l.foldl (fun t i => fun p q r s => t p q r s + f i p q r s) t = fun p q r s => t p q r s + (l.map fun i => f i p q r s).sum
  | [], t => by funext p q r s; simp
  | i :: l, t => by
    rw [List.foldl_cons, foldl_pointwise f l]
    funext p q r s
    simp only [List.map_cons, List.sum_cons]; ring

theorem mem_occ {n nocc : Nat} (i : Fin n) : i ∈ occ n nocc ↔ i.val < nocc := by simp [occ]

theorem nodup_occ (n nocc : Nat) : (occ n nocc).Nodup := (List.nodup_finRange n).filter _

theorem sum_pick {n : Nat} (p q : Fin n) (x : K) : ∀ l : List (Fin n), l.Nodup →
    (l.map fun i => if p = i ∧ q = i then x else 0).sum = if p = q ∧ p ∈ l then x else 0
  | [], _ => by simp
  | i :: l, h => by
    rw [List.map_cons, List.sum_cons, sum_pick p q x l h.of_cons]
    have hn := (List.nodup_cons.1 h).1
    by_cases hp : p = i
    · subst hp
      by_cases hq : q = p
      · subst hq; simp [hn]
      · simp [hq, Ne.symm hq]
    · simp [hp]

theorem sum_occ_pick {n : Nat} (nocc : Nat) (p q : Fin n) (x : K) :
    ((occ n nocc).map fun i => if p = i ∧ q = i then x else 0).sum = meanField n nocc 1 p q * x := by
  rw [sum_pick p q x _ (nodup_occ n nocc)]
  simp only [mem_occ, meanField]
  split <;> simp

theorem foldl_congr_fun {α β : Type} {f g : α → β → α} (h : ∀ a b, f a b = g a b) (l : List β) (a : α) : l.foldl f a = l.foldl g a := by
  have : f = g := funext fun a => funext fun b => h a b
  rw [this]

theorem foldl_IIxx {a b : Nat} (nocc : Nat) (x : Matrix (Fin b) (Fin b) K) (t : Ten a b K) :
    (occ a nocc).foldl (fun t i => addIIxx i x t) t = fun p q r s => t p q r s + meanField a nocc 1 p q * x r s := by
  refine (foldl_pointwise (fun i p q r s => if p = i ∧ q = i then x r s else 0) _ t).trans ?_
  funext p q r s
  rw [sum_occ_pick]

theorem foldl_XXii {a b : Nat} (nocc : Nat) (x : Matrix (Fin a) (Fin a) K) (t : Ten a b K) :
    (occ b nocc).foldl (fun t i => addXXii i x t) t = fun p q r s => t p q r s + x p q * meanField b nocc 1 r s := by
  refine (foldl_pointwise (fun i p q r s => if r = i ∧ s = i then x p q else 0) _ t).trans ?_
  funext p q r s
  rw [sum_occ_pick, mul_comm]

/-- The four updates of one pass through the loop. -/
theorem foldl_four {a : Nat} (nocc : Nat) (x y z w : Matrix (Fin a) (Fin a) K) (t : Ten a a K) :
    (occ a nocc).foldl (fun t i => addIxxI i w (addXiiX i z (addXXii i y (addIIxx i x t)))) t =
      fun p q r s => t p q r s + (meanField a nocc 1 p q * x r s + y p q * meanField a nocc 1 r s + z p s * meanField a nocc 1 q r +
        meanField a nocc 1 p s * w q r) := by
  have h1 : ∀ (t : Ten a a K) (i : Fin a), addIxxI i w (addXiiX i z (addXXii i y (addIIxx i x t))) = fun p q r s => t p q r s +
      ((if p = i ∧ q = i then x r s else 0) + (if r = i ∧ s = i then y p q else 0) + (if q = i ∧ r = i then z p s else 0) +
        (if p = i ∧ s = i then w q r else 0)) := by
    intro t i
    funext p q r s
    simp only [addIxxI, addXiiX, addXXii, addIIxx]; ring
  rw [foldl_congr_fun h1]
  refine (foldl_pointwise (fun i p q r s => (if p = i ∧ q = i then x r s else 0) + (if r = i ∧ s = i then y p q else 0) +
    (if q = i ∧ r = i then z p s else 0) + (if p = i ∧ s = i then w q r else 0)) _ t).trans ?_
  funext p q r s
  have hs : ∀ (f g : Fin a → K) (l : List (Fin a)), (l.map fun i => f i + g i).sum = (l.map f).sum + (l.map g).sum := by
    intro f g l
    induction l with
    | nil => simp
    | cons i l ih => simp only [List.map_cons, List.sum_cons, ih]; ring
  rw [hs, hs, hs, sum_occ_pick, sum_occ_pick, sum_occ_pick, sum_occ_pick]
  ring

theorem addIIjj_eq {a b : Nat} (na nb : Nat) (x : K) (t : Ten a b K) :
    addIIjj na nb x t = fun p q r s => t p q r s + meanField a na 1 p q * meanField b nb 1 r s * x := by
  unfold addIIjj
  have h : ∀ (t : Ten a b K) (i : Fin a), (occ b nb).foldl (fun t j => fun p q r s => t p q r s + if p = i ∧ q = i ∧ r = j ∧ s = j then x else 0) t =
      fun p q r s => t p q r s + if p = i ∧ q = i then meanField b nb 1 r s * x else 0 := by
    intro t i
    refine (foldl_pointwise (fun j p q r s => if p = i ∧ q = i ∧ r = j ∧ s = j then x else 0) _ t).trans ?_
    funext p q r s
    by_cases hpq : p = i ∧ q = i
    · have : ∀ j, (p = i ∧ q = i ∧ r = j ∧ s = j) ↔ (r = j ∧ s = j) := by tauto
      simp only [this]
      rw [if_pos hpq, sum_occ_pick]
    · have : ∀ j, ¬(p = i ∧ q = i ∧ r = j ∧ s = j) := by tauto
      simp [this, hpq]
  rw [foldl_congr_fun h]
  refine (foldl_pointwise (fun i p q r s => if p = i ∧ q = i then meanField b nb 1 r s * x else 0) _ t).trans ?_
  funext p q r s
  rw [sum_occ_pick]; ring

theorem addIjjI_eq {a : Nat} (na : Nat) (x : K) (t : Ten a a K) :
    addIjjI na x t = fun p q r s => t p q r s + meanField a na 1 p s * meanField a na 1 q r * x := by
  unfold addIjjI
  have h : ∀ (t : Ten a a K) (i : Fin a), (occ a na).foldl (fun t j => fun p q r s => t p q r s + if p = i ∧ q = j ∧ r = j ∧ s = i then x else 0) t =
      fun p q r s => t p q r s + if p = i ∧ s = i then meanField a na 1 q r * x else 0 := by
    intro t i
    refine (foldl_pointwise (fun j p q r s => if p = i ∧ q = j ∧ r = j ∧ s = i then x else 0) _ t).trans ?_
    funext p q r s
    by_cases hpq : p = i ∧ s = i
    · have : ∀ j, (p = i ∧ q = j ∧ r = j ∧ s = i) ↔ (q = j ∧ r = j) := by tauto
      simp only [this]
      rw [if_pos hpq, sum_occ_pick]
    · have : ∀ j, ¬(p = i ∧ q = j ∧ r = j ∧ s = i) := by tauto
      simp [this, hpq]
  rw [foldl_congr_fun h]
  refine (foldl_pointwise (fun i p q r s => if p = i ∧ s = i then meanField a na 1 q r * x else 0) _ t).trans ?_
  funext p q r s
  rw [sum_occ_pick]; ring

/-! Transformations. -/

variable {a b a' b' : Nat} (c : Matrix (Fin a') (Fin a) K) (d : Matrix (Fin b') (Fin b) K)

theorem transform_add (t u : Ten a b K) : transform c d (fun p q r s => t p q r s + u p q r s) = fun p q r s => transform c d t p q r s + transform c d u p q r s := by
  funext p q r s
  simp only [transform, add_mul, Finset.sum_add_distrib]

theorem transform_smul (x : K) (t : Ten a b K) : transform c d (fun p q r s => x * t p q r s) = fun p q r s => x * transform c d t p q r s := by
  funext p q r s
  simp only [transform, Finset.mul_sum, mul_assoc]

theorem transform_sub (t u : Ten a b K) : transform c d (fun p q r s => t p q r s - u p q r s) = fun p q r s => transform c d t p q r s - transform c d u p q r s := by
  funext p q r s
  simp only [transform, sub_mul, Finset.sum_sub_distrib]

theorem triple_apply (x : Matrix (Fin a) (Fin a) K) (p q : Fin a') : (c * x * c.transpose) p q = ∑ i, ∑ j, x i j * c p i * c q j := by
  simp only [Matrix.mul_apply, Matrix.transpose_apply, Finset.sum_mul]
  rw [Finset.sum_comm]
  exact Finset.sum_congr rfl fun _ _ => Finset.sum_congr rfl fun _ _ => by ring

theorem transform_outer (x : Matrix (Fin a) (Fin a) K) (y : Matrix (Fin b) (Fin b) K) (p q : Fin a') (r s : Fin b') :
    transform c d (outer x y) p q r s = (c * x * c.transpose) p q * (d * y * d.transpose) r s := by
  rw [triple_apply, triple_apply]
  simp only [transform, outer, Finset.sum_mul]
  simp only [Finset.mul_sum]
  exact Finset.sum_congr rfl fun _ _ => Finset.sum_congr rfl fun _ _ => Finset.sum_congr rfl fun _ _ => Finset.sum_congr rfl fun _ _ => by ring

theorem transform_outerX (x y : Matrix (Fin a) (Fin a) K) (p q r s : Fin a') :
    transform c c (outerX x y) p q r s = (c * x * c.transpose) p s * (c * y * c.transpose) q r := by
  rw [triple_apply, triple_apply]
  simp only [transform, outerX, Finset.sum_mul]
  simp only [Finset.mul_sum]
  refine Finset.sum_congr rfl fun i _ => ?_
  calc _ = ∑ j, ∑ l, ∑ k, x i l * y j k * c p i * c q j * c r k * c s l :=
        Finset.sum_congr rfl fun _ _ => Finset.sum_comm
    _ = ∑ l, ∑ j, ∑ k, x i l * y j k * c p i * c q j * c r k * c s l := Finset.sum_comm
    _ = _ := Finset.sum_congr rfl fun _ _ => Finset.sum_congr rfl fun _ _ => Finset.sum_congr rfl fun _ _ => by ring

theorem transform_wedge (f : K) (x y : Matrix (Fin a) (Fin a) K) :
    transform c c (wedge f x y) = wedge f (c * x * c.transpose) (c * y * c.transpose) := by
  have : wedge f x y = fun p q r s => outer x y p q r s - f * outerX x y p q r s := rfl
  rw [this, transform_sub, transform_smul]
  funext p q r s
  beta_reduce
  rw [transform_outer, transform_outerX]; rfl

end Vayesta.Rdm
