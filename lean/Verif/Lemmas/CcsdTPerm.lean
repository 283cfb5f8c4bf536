import Verif.Lemmas.CcsdTCluster

/-! Permutations of arrays with six axes, and the unrestricted energy in terms of antisymmetric arrays. -/

set_option linter.unusedSectionVars false

namespace Vayesta.CcsdT
open Vayesta.Amplitudes Vayesta.Tensor

variable {K : Type} [Field K] {o v : Type} [Fintype o] [Fintype v]

theorem p6_pairSum {o v : Type} (t : T6 o o o v v v K) : p6 t = pairSum t := by
  funext i j k a b c
  unfold p6 pairSum
  ring

section
variable {o₁ o₂ o₃ v₁ v₂ v₃ : Type} [Fintype o₁] [Fintype o₂] [Fintype o₃] [Fintype v₁] [Fintype v₂] [Fintype v₃]

theorem dot6_eq (x y : T6 o₁ o₂ o₃ v₁ v₂ v₃ K) : dot6 x y = sum6 fun i j k a b c => x i j k a b c * y i j k a b c := rfl

theorem dot6_comm (x y : T6 o₁ o₂ o₃ v₁ v₂ v₃ K) : dot6 x y = dot6 y x := sum6_congr fun _ _ _ _ _ _ => mul_comm _ _

theorem dot6_add (x y z : T6 o₁ o₂ o₃ v₁ v₂ v₃ K) : dot6 (x + y) z = dot6 x z + dot6 y z := by
  rw [dot6_eq, dot6_eq, dot6_eq, ← sum6_add]
  exact sum6_congr fun i j k a b c => add_mul _ _ _

theorem dot6_mul (n : K) (x z : T6 o₁ o₂ o₃ v₁ v₂ v₃ K) : dot6 (fun i j k a b c => n * x i j k a b c) z = n * dot6 x z := by
  rw [dot6_eq, dot6_eq, ← sum6_mul]
  exact sum6_congr fun i j k a b c => mul_assoc _ _ _

/-- Division by a common denominator can be moved. -/
theorem dot6_div (x y d : T6 o₁ o₂ o₃ v₁ v₂ v₃ K) :
    dot6 (fun i j k a b c => x i j k a b c / d i j k a b c) y = dot6 x fun i j k a b c => y i j k a b c / d i j k a b c :=
  sum6_congr fun i j k a b c => by ring

end

/-! ## Self-adjoint permutation operators -/

theorem p6_adj (x y : T6 o o o v v v K) : dot6 (p6 x) y = dot6 x (p6 y) := by
  have e1 : dot6 (p6 x) y = sum6 (fun i j k a b c => x i j k a b c * y i j k a b c) + sum6 (fun i j k a b c => x k i j c a b * y i j k a b c) +
      sum6 (fun i j k a b c => x j k i b c a * y i j k a b c) + sum6 (fun i j k a b c => x i k j a c b * y i j k a b c) +
      sum6 (fun i j k a b c => x k j i c b a * y i j k a b c) + sum6 (fun i j k a b c => x j i k b a c * y i j k a b c) := by
    simp only [← sum6_add]
    exact sum6_congr fun i j k a b c => by unfold p6; ring
  have e2 : dot6 x (p6 y) = sum6 (fun i j k a b c => x i j k a b c * y i j k a b c) + sum6 (fun i j k a b c => x i j k a b c * y k i j c a b) +
      sum6 (fun i j k a b c => x i j k a b c * y j k i b c a) + sum6 (fun i j k a b c => x i j k a b c * y i k j a c b) +
      sum6 (fun i j k a b c => x i j k a b c * y k j i c b a) + sum6 (fun i j k a b c => x i j k a b c * y j i k b a c) := by
    simp only [← sum6_add]
    exact sum6_congr fun i j k a b c => by unfold p6; ring
  rw [e1, e2]
  have f1 := sum6_312 fun i j k a b c => x i j k a b c * y j k i b c a
  have f2 := sum6_231 fun i j k a b c => x i j k a b c * y k i j c a b
  have f3 := sum6_23 fun i j k a b c => x i j k a b c * y i k j a c b
  have f4 := sum6_13 fun i j k a b c => x i j k a b c * y k j i c b a
  have f5 := sum6_12 fun i j k a b c => x i j k a b c * y j i k b a c
  rw [f1, f2, f3, f4, f5]
  ring

private theorem occ231 (f : T6 o o o v v v K) : sum6 (fun i j k a b c => f j k i a b c) = sum6 f :=
  (sum6_occ12 fun i j k a b c => f i k j a b c).trans (sum6_occ23 f)

private theorem occ312 (f : T6 o o o v v v K) : sum6 (fun i j k a b c => f k i j a b c) = sum6 f :=
  (sum6_occ23 fun i j k a b c => f j i k a b c).trans (sum6_occ12 f)

private theorem occ13 (f : T6 o o o v v v K) : sum6 (fun i j k a b c => f k j i a b c) = sum6 f :=
  (sum6_occ12 fun i j k a b c => f k i j a b c).trans (occ312 f)

theorem r6_adj (x y : T6 o o o v v v K) : dot6 (r6 x) y = dot6 x (r6 y) := by
  have n : ∀ f : T6 o o o v v v K, sum6 (fun i j k a b c => -1 * f i j k a b c) = -sum6 f := fun f => by rw [sum6_mul, neg_one_mul]
  have e1 : dot6 (r6 x) y = sum6 (fun i j k a b c => x i j k a b c * y i j k a b c) + sum6 (fun i j k a b c => x j k i a b c * y i j k a b c) +
      sum6 (fun i j k a b c => x k i j a b c * y i j k a b c) + -1 * sum6 (fun i j k a b c => x k j i a b c * y i j k a b c) +
      -1 * sum6 (fun i j k a b c => x i k j a b c * y i j k a b c) + -1 * sum6 (fun i j k a b c => x j i k a b c * y i j k a b c) := by
    simp only [← sum6_add, ← sum6_mul]
    exact sum6_congr fun i j k a b c => by unfold r6; ring
  have e2 : dot6 x (r6 y) = sum6 (fun i j k a b c => x i j k a b c * y i j k a b c) + sum6 (fun i j k a b c => x i j k a b c * y j k i a b c) +
      sum6 (fun i j k a b c => x i j k a b c * y k i j a b c) + -1 * sum6 (fun i j k a b c => x i j k a b c * y k j i a b c) +
      -1 * sum6 (fun i j k a b c => x i j k a b c * y i k j a b c) + -1 * sum6 (fun i j k a b c => x i j k a b c * y j i k a b c) := by
    simp only [← sum6_add, ← sum6_mul]
    exact sum6_congr fun i j k a b c => by unfold r6; ring
  rw [e1, e2]
  have f1 := occ231 fun i j k a b c => x i j k a b c * y k i j a b c
  have f2 := occ312 fun i j k a b c => x i j k a b c * y j k i a b c
  have f3 := sum6_occ23 fun i j k a b c => x i j k a b c * y i k j a b c
  have f4 := occ13 fun i j k a b c => x i j k a b c * y k j i a b c
  have f5 := sum6_occ12 fun i j k a b c => x i j k a b c * y j i k a b c
  rw [f1, f2, f3, f4, f5]
  ring

section
variable {o₁ v₁ : Type} [Fintype o₁] [Fintype v₁]

private theorem pair23 (f : T6 o₁ o o v₁ v v K) : sum6 (fun i j k a b c => f i k j a c b) = sum6 f :=
  (sum6_occ23 fun i j k a b c => f i j k a c b).trans (sum6_vir23 f)

theorem r2_adj (x y : T6 o₁ o o v₁ v v K) : dot6 (r2 x) y = dot6 x (r2 y) := by
  have e1 : dot6 (r2 x) y = sum6 (fun i j k a b c => x i j k a b c * y i j k a b c) + -1 * sum6 (fun i j k a b c => x i k j a b c * y i j k a b c) +
      sum6 (fun i j k a b c => x i k j a c b * y i j k a b c) + -1 * sum6 (fun i j k a b c => x i j k a c b * y i j k a b c) := by
    simp only [← sum6_add, ← sum6_mul]
    exact sum6_congr fun i j k a b c => by unfold r2; ring
  have e2 : dot6 x (r2 y) = sum6 (fun i j k a b c => x i j k a b c * y i j k a b c) + -1 * sum6 (fun i j k a b c => x i j k a b c * y i k j a b c) +
      sum6 (fun i j k a b c => x i j k a b c * y i k j a c b) + -1 * sum6 (fun i j k a b c => x i j k a b c * y i j k a c b) := by
    simp only [← sum6_add, ← sum6_mul]
    exact sum6_congr fun i j k a b c => by unfold r2; ring
  rw [e1, e2]
  have f1 := sum6_occ23 fun i j k a b c => x i j k a b c * y i k j a b c
  have f2 := pair23 fun i j k a b c => x i j k a b c * y i k j a c b
  have f3 := sum6_vir23 fun i j k a b c => x i j k a b c * y i j k a c b
  rw [f1, f2, f3]

theorem r2_r2 (x : T6 o₁ o o v₁ v v K) (i : o₁) (j k : o) (a : v₁) (b c : v) : r2 (r2 x) i j k a b c = 4 * r2 x i j k a b c := by
  unfold r2; ring

theorem r2_proj (p : o₁ → o₁ → K) (q : o → o → K) (x : T6 o₁ o o v₁ v v K) : r2 (usymProj p q q x) = usymProj p q q (r2 x) := by
  funext i j k a b c
  unfold r2 usymProj
  simp only [mul_sub, mul_add, Finset.sum_sub_distrib, Finset.sum_add_distrib]
  ring

theorem r2_div (x d : T6 o₁ o o v₁ v v K) (h1 : ∀ i j k a b c, d i k j a b c = d i j k a b c) (h2 : ∀ i j k a b c, d i j k a c b = d i j k a b c) :
    r2 (fun i j k a b c => x i j k a b c / d i j k a b c) = fun i j k a b c => r2 x i j k a b c / d i j k a b c := by
  funext i j k a b c
  unfold r2
  simp only [h1 i j k, h2 i j k]
  ring

end

theorem p6_p6 {o v : Type} (x : T6 o o o v v v K) (i j k : o) (a b c : v) : p6 (p6 x) i j k a b c = 6 * p6 x i j k a b c := by
  unfold p6; ring

theorem r6_r6 {o v : Type} (x : T6 o o o v v v K) (i j k : o) (a b c : v) : r6 (r6 x) i j k a b c = 6 * r6 x i j k a b c := by
  unfold r6; ring

theorem p6_r6 {o v : Type} (x : T6 o o o v v v K) : p6 (r6 x) = r6 (p6 x) := by
  funext i j k a b c
  unfold p6 r6; ring

theorem p6_proj (q : o → o → K) (x : T6 o o o v v v K) : p6 (usymProj q q q x) = usymProj q q q (p6 x) := by
  funext i j k a b c
  unfold p6 usymProj
  simp only [mul_add, Finset.sum_add_distrib]
  ring

theorem r6_proj (q : o → o → K) (x : T6 o o o v v v K) : r6 (usymProj q q q x) = usymProj q q q (r6 x) := by
  funext i j k a b c
  unfold r6 usymProj
  simp only [mul_sub, mul_add, Finset.sum_sub_distrib, Finset.sum_add_distrib]
  ring

/-- Denominators: unchanged by permutations of either kind of index. -/
structure Den6 {o v : Type} (d : T6 o o o v v v K) : Prop where
  o12 : ∀ i j k a b c, d j i k a b c = d i j k a b c
  o23 : ∀ i j k a b c, d i k j a b c = d i j k a b c
  v12 : ∀ i j k a b c, d i j k b a c = d i j k a b c
  v23 : ∀ i j k a b c, d i j k a c b = d i j k a b c

theorem Den6.o231 {o v : Type} {d : T6 o o o v v v K} (h : Den6 d) (i j k : o) (a b c : v) : d j k i a b c = d i j k a b c := by rw [h.o23, h.o12]
theorem Den6.o312 {o v : Type} {d : T6 o o o v v v K} (h : Den6 d) (i j k : o) (a b c : v) : d k i j a b c = d i j k a b c := by rw [h.o12, h.o23]
theorem Den6.o13 {o v : Type} {d : T6 o o o v v v K} (h : Den6 d) (i j k : o) (a b c : v) : d k j i a b c = d i j k a b c := by rw [h.o23, h.o312]
theorem Den6.v231 {o v : Type} {d : T6 o o o v v v K} (h : Den6 d) (i j k : o) (a b c : v) : d i j k b c a = d i j k a b c := by rw [h.v23, h.v12]
theorem Den6.v312 {o v : Type} {d : T6 o o o v v v K} (h : Den6 d) (i j k : o) (a b c : v) : d i j k c a b = d i j k a b c := by rw [h.v12, h.v23]
theorem Den6.v13 {o v : Type} {d : T6 o o o v v v K} (h : Den6 d) (i j k : o) (a b c : v) : d i j k c b a = d i j k a b c := by rw [h.v23, h.v312]

theorem r6_div {o v : Type} {d : T6 o o o v v v K} (h : Den6 d) (x : T6 o o o v v v K) :
    r6 (fun i j k a b c => x i j k a b c / d i j k a b c) = fun i j k a b c => r6 x i j k a b c / d i j k a b c := by
  funext i j k a b c
  unfold r6
  simp only [h.o12 i j k, h.o23 i j k, h.o231 i j k, h.o312 i j k, h.o13 i j k]
  ring

theorem p6_div {o v : Type} {d : T6 o o o v v v K} (h : Den6 d) (x : T6 o o o v v v K) :
    p6 (fun i j k a b c => x i j k a b c / d i j k a b c) = fun i j k a b c => p6 x i j k a b c / d i j k a b c := by
  funext i j k a b c
  unfold p6
  simp only [h.o12 i j k, h.o23 i j k, h.o231 i j k, h.o312 i j k, h.o13 i j k, h.v12 i j k a, h.v23 i j k a, h.v231 i j k a, h.v312 i j k a, h.v13 i j k a]
  ring

/-! ## Energies of equal and of different spins in terms of antisymmetric arrays -/

section
variable {o₁ o₂ o₃ v₁ v₂ v₃ : Type} [Fintype o₁] [Fintype o₂] [Fintype o₃] [Fintype v₁] [Fintype v₂] [Fintype v₃]

theorem usym_mul (p : o₁ → o₁ → K) (q : o₂ → o₂ → K) (r : o₃ → o₃ → K) (n : K) (t : T6 o₁ o₂ o₃ v₁ v₂ v₃ K) :
    usymProj p q r (fun i j k a b c => n * t i j k a b c) = fun i j k a b c => n * usymProj p q r t i j k a b c := by
  funext i j k a b c
  unfold usymProj
  simp only [mul_left_comm _ n, ← Finset.mul_sum]
  ring

theorem dot6_mul' (n : K) (x z : T6 o₁ o₂ o₃ v₁ v₂ v₃ K) : dot6 z (fun i j k a b c => n * x i j k a b c) = n * dot6 z x := by
  rw [dot6_comm, dot6_mul, dot6_comm]

end

private theorem p6_quot {u d : T6 o o o v v v K} (hd : Den6 d) :
    p6 (fun i j k a b c => p6 u i j k a b c / d i j k a b c) = fun i j k a b c => 6 * (p6 u i j k a b c / d i j k a b c) := by
  rw [p6_div hd]
  funext i j k a b c
  rw [p6_p6]
  ring

private theorem r6_six (w : T6 o o o v v v K) : r6 (r6 w) = fun i j k a b c => 6 * r6 w i j k a b c := by
  funext i j k a b c; exact r6_r6 _ i j k a b c

theorem same_spin [CharZero K] (q : o → o → K) (u w : T6 o o o v v v K) {d : T6 o o o v v v K} (hd : Den6 d) (t : UTarget) :
    uPair t q q q (fun i j k a b c => p6 u i j k a b c / d i j k a b c) (r6 w) =
      1 / 36 * uPair t q q q (fun i j k a b c => r6 (p6 u) i j k a b c / d i j k a b c) (r6 (p6 w)) := by
  rw [show (fun i j k a b c => r6 (p6 u) i j k a b c / d i j k a b c) = r6 fun i j k a b c => p6 u i j k a b c / d i j k a b c from (r6_div hd _).symm]
  cases t with
  | w =>
    show dot6 (usymProj q q q _) _ = 1 / 36 * dot6 (usymProj q q q _) _
    rw [← r6_proj, r6_adj, r6_six, dot6_mul', ← p6_r6, ← p6_adj, p6_proj, p6_quot hd, usym_mul, dot6_mul]
    field_simp
    ring
  | r =>
    show dot6 _ (usymProj q q q _) = 1 / 36 * dot6 _ (usymProj q q q _)
    rw [r6_adj, r6_proj, r6_six, usym_mul, dot6_mul', ← p6_r6, ← p6_proj, ← p6_adj, p6_quot hd, dot6_mul]
    field_simp
    ring

theorem diff_spin [CharZero K] {o₁ v₁ : Type} [Fintype o₁] [Fintype v₁] (p : o₁ → o₁ → K) (q : o → o → K) (u w d : T6 o₁ o o v₁ v v K)
    (h1 : ∀ i j k a b c, d i k j a b c = d i j k a b c) (h2 : ∀ i j k a b c, d i j k a c b = d i j k a b c) (t : UTarget) :
    uPair t p q q u (fun i j k a b c => r2 w i j k a b c / d i j k a b c) =
      1 / 4 * uPair t p q q (r2 u) (fun i j k a b c => r2 w i j k a b c / d i j k a b c) := by
  have e : r2 (fun i j k a b c => r2 w i j k a b c / d i j k a b c) = fun i j k a b c => 4 * (r2 w i j k a b c / d i j k a b c) := by
    rw [r2_div _ _ h1 h2]
    funext i j k a b c
    rw [r2_r2]
    ring
  cases t with
  | w =>
    show dot6 (usymProj p q q _) _ = 1 / 4 * dot6 (usymProj p q q _) _
    rw [← r2_proj, r2_adj, e, dot6_mul']
    field_simp
  | r =>
    show dot6 _ (usymProj p q q _) = 1 / 4 * dot6 _ (usymProj p q q _)
    rw [r2_adj, r2_proj, e, usym_mul, dot6_mul']
    field_simp

end Vayesta.CcsdT
