import Verif.Spec.DmetEnergy
import Verif.Lemmas.DemoRdm2
import Mathlib.Tactic.FieldSimp

/-! Energy expressions: pairing of density matrices with integrals. -/

namespace Vayesta.DmetEnergy
open Vayesta Vayesta.Rdm Vayesta.DemoRdm Vayesta.Tensor Matrix

variable {K : Type} [Field K]

theorem dot2_trace {n m : Nat} (a b : Matrix (Fin n) (Fin m) K) : dot2 a b = (a.transpose * b).trace := by
  unfold dot2 Matrix.trace
  simp only [diag_apply, Matrix.mul_apply, transpose_apply]
  exact Finset.sum_comm

theorem dot2_comm {n m : Nat} (a b : Matrix (Fin n) (Fin m) K) : dot2 a b = dot2 b a := by
  unfold dot2
  exact Finset.sum_congr rfl fun _ _ => Finset.sum_congr rfl fun _ _ => mul_comm _ _

theorem dot2_add {n m : Nat} (a b c : Matrix (Fin n) (Fin m) K) : dot2 a (b + c) = dot2 a b + dot2 a c := by
  simp only [dot2_trace, Matrix.mul_add, trace_add]
theorem dot2_sub {n m : Nat} (a b c : Matrix (Fin n) (Fin m) K) : dot2 a (b - c) = dot2 a b - dot2 a c := by
  simp only [dot2_trace, Matrix.mul_sub, trace_sub]
theorem dot2_smul {n m : Nat} (x : K) (a b : Matrix (Fin n) (Fin m) K) : dot2 a (x • b) = x * dot2 a b := by
  simp only [dot2_trace, Matrix.mul_smul, trace_smul, smul_eq_mul]
theorem dot2_transpose {n m : Nat} (a b : Matrix (Fin n) (Fin m) K) : dot2 a.transpose b.transpose = dot2 a b := by
  unfold dot2; exact Finset.sum_comm

theorem dot2_cut {n m : Nat} (x : Matrix (Fin n) (Fin n) K) (c : Matrix (Fin n) (Fin m) K) (d : Matrix (Fin m) (Fin m) K) :
    dot2 (c.transpose * x * c) d = dot2 x (c * d * c.transpose) := by
  rw [dot2_trace, dot2_trace, transpose_mul, transpose_mul, transpose_transpose]
  rw [Matrix.mul_assoc, Matrix.mul_assoc, trace_mul_comm]
  simp only [Matrix.mul_assoc]

theorem dot4_add {a b : Nat} (g t u : Ten a b K) : dot4 g (fun p q r s => t p q r s + u p q r s) = dot4 g t + dot4 g u := by
  simp only [dot4, mul_add, Finset.sum_add_distrib]
theorem dot4_sub {a b : Nat} (g t u : Ten a b K) : dot4 g (fun p q r s => t p q r s - u p q r s) = dot4 g t - dot4 g u := by
  simp only [dot4, mul_sub, Finset.sum_sub_distrib]
theorem dot4_smul {a b : Nat} (x : K) (g t : Ten a b K) : dot4 g (fun p q r s => x * t p q r s) = x * dot4 g t := by
  simp only [dot4, Finset.mul_sum]
  exact Finset.sum_congr rfl fun _ _ => Finset.sum_congr rfl fun _ _ => Finset.sum_congr rfl fun _ _ => Finset.sum_congr rfl fun _ _ => by ring

section
variable {a b c d a' : Type} [Fintype a] [Fintype b] [Fintype c] [Fintype d] [Fintype a']

/-- `np.sum(g*t)` for any index types. -/
def pair (g t : a → b → c → d → K) : K := ∑ p, ∑ q, ∑ r, ∑ s, g p q r s * t p q r s

theorem sum_last {M : Type} [AddCommMonoid M] (f : a → b → c → d → M) : ∑ p, ∑ q, ∑ r, ∑ s, f p q r s = ∑ q, ∑ r, ∑ s, ∑ p, f p q r s := by
  rw [Finset.sum_comm]
  refine Finset.sum_congr rfl fun q _ => ?_
  rw [Finset.sum_comm]
  refine Finset.sum_congr rfl fun r _ => ?_
  rw [Finset.sum_comm]

theorem sum_move (f : a' → K) (M : a' → a → K) (u : a → K) : ∑ p, f p * ∑ k, M p k * u k = ∑ k, (∑ p, M p k * f p) * u k := by
  rw [sum_mm]
  exact Finset.sum_congr rfl fun k _ => congrArg (· * u k) (Finset.sum_congr rfl fun p _ => mul_comm _ _)

theorem pair_L1 (M : a' → a → K) (g : a' → b → c → d → K) (t : a → b → c → d → K) : pair g (L1 M t) = pair (L1 (tp M) g) t := by
  unfold pair
  rw [sum_last, sum_last (fun p q r s => L1 (tp M) g p q r s * t p q r s)]
  exact Finset.sum_congr rfl fun q _ => Finset.sum_congr rfl fun r _ => Finset.sum_congr rfl fun s _ => sum_move _ _ _

/-- Move the first index to the end. -/
def rot (t : a → b → c → d → K) : b → c → d → a → K := fun q r s p => t p q r s

theorem pair_rot (g t : a → b → c → d → K) : pair g t = pair (rot g) (rot t) := sum_last _

theorem pair_L2 (M : a' → b → K) (g : a → a' → c → d → K) (t : a → b → c → d → K) : pair g (L2 M t) = pair (L2 (tp M) g) t := by
  rw [pair_rot, pair_rot (L2 (tp M) g)]
  exact pair_L1 M (rot g) (rot t)
theorem pair_L3 (M : a' → c → K) (g : a → b → a' → d → K) (t : a → b → c → d → K) : pair g (L3 M t) = pair (L3 (tp M) g) t := by
  rw [pair_rot, pair_rot (L3 (tp M) g)]
  exact pair_L2 M (rot g) (rot t)
theorem pair_L4 (M : a' → d → K) (g : a → b → c → a' → K) (t : a → b → c → d → K) : pair g (L4 M t) = pair (L4 (tp M) g) t := by
  rw [pair_rot, pair_rot (L4 (tp M) g)]
  exact pair_L3 M (rot g) (rot t)

end

section
variable {a b a' b' : Type} [Fintype a] [Fintype b] [Fintype a'] [Fintype b']

theorem pair_chain (c : a' → a → K) (d : b' → b → K) (g : a' → a' → b' → b' → K) (t : a → a → b → b → K) :
    pair g (L1 c (L2 c (L3 d (L4 d t)))) = pair (L1 (tp c) (L2 (tp c) (L3 (tp d) (L4 (tp d) g)))) t := by
  rw [pair_L1, pair_L2, pair_L3, pair_L4, L2_L1, L3_L1, L4_L1, L3_L2, L4_L2, L4_L3]

theorem chain_project (c : a' → a → K) (p : a → a → K) (t : a → a → a → a → K) :
    L1 c (L2 c (L3 c (L4 c (L1 p t)))) = L1 (mm c p) (L2 c (L3 c (L4 c t))) := by
  rw [L4_L1, L3_L1, L2_L1, L1_L1]

theorem chain_comp {a'' b'' : Type} (c : a'' → a' → K) (d : b'' → b' → K) (c' : a' → a → K) (d' : b' → b → K) (t : a → a → b → b → K) :
    L1 c (L2 c (L3 d (L4 d (L1 c' (L2 c' (L3 d' (L4 d' t))))))) = L1 (mm c c') (L2 (mm c c') (L3 (mm d d') (L4 (mm d d') t))) := by
  rw [L4_L1, L4_L2, L4_L3, L4_L4, L3_L1, L3_L2, L3_L3, L2_L1, L2_L2, L1_L1]

end

theorem transform_comp {a b a' b' a'' b'' : Nat} (c : Matrix (Fin a'') (Fin a') K) (d : Matrix (Fin b'') (Fin b') K) (c' : Matrix (Fin a') (Fin a) K)
    (d' : Matrix (Fin b') (Fin b) K) (t : Ten a b K) : transform c d (transform c' d' t) = transform (c * c') (d * d') t := by
  rw [transform_L, transform_L, transform_L]
  exact chain_comp c d c' d' t

/-- Integrals and density matrix can be transformed to another basis. -/
theorem dot4_cut {a b a' b' : Nat} (c : Matrix (Fin a') (Fin a) K) (d : Matrix (Fin b') (Fin b) K) (g : Ten a' b' K) (t : Ten a b K) :
    dot4 (transform c.transpose d.transpose g) t = dot4 g (transform c d t) := by
  rw [transform_L, transform_L]
  exact (pair_chain c d g t).symm

/-- The energy of a fragment's two-body density matrix. -/
theorem dot4_project {a a' : Nat} (p : Matrix (Fin a) (Fin a) K) (c : Matrix (Fin a') (Fin a) K) (g : Ten a' a' K) (t : Ten a a K) :
    dot4 (transform c.transpose c.transpose g) (L1 p t) = dot4 g (project2 p t c c) := by
  rw [dot4_cut, transform_L, project2_L]
  congr 1
  exact chain_project c p t

/-- The mean-field potential is the derivative of the energy of a product of density matrices. -/
theorem dot2_veff {n : Nat} (g : Ten n n K) (x y : Matrix (Fin n) (Fin n) K) : dot2 x (veff g y) = dot4 g (wedge (1 / 2) x y) := by
  have h1 : ∑ p, ∑ q, x p q * ∑ r, ∑ s, g p q r s * y r s = ∑ p, ∑ q, ∑ r, ∑ s, g p q r s * (x p q * y r s) := by
    simp only [Finset.mul_sum]
    exact Finset.sum_congr rfl fun _ _ => Finset.sum_congr rfl fun _ _ => Finset.sum_congr rfl fun _ _ => Finset.sum_congr rfl fun _ _ => by ring
  have h2 : ∑ p, ∑ q, x p q * ∑ r, ∑ s, g p r s q * y r s = ∑ p, ∑ q, ∑ r, ∑ s, g p q r s * (x p s * y q r) := by
    refine Finset.sum_congr rfl fun p _ => ?_
    have : ∑ q, ∑ r, ∑ s, g p q r s * (x p s * y q r) = ∑ s, ∑ q, ∑ r, g p q r s * (x p s * y q r) := by
      calc _ = ∑ q, ∑ s, ∑ r, g p q r s * (x p s * y q r) := Finset.sum_congr rfl fun _ _ => Finset.sum_comm
        _ = _ := Finset.sum_comm
    rw [this]
    simp only [Finset.mul_sum]
    exact Finset.sum_congr rfl fun _ _ => Finset.sum_congr rfl fun _ _ => Finset.sum_congr rfl fun _ _ => by ring
  have h3 : dot4 g (wedge (1 / 2) x y) = dot4 g (fun p q r s => x p q * y r s) - (1 / 2) * dot4 g (fun p q r s => x p s * y q r) := by
    rw [← dot4_smul, ← dot4_sub]; rfl
  rw [h3]
  unfold dot4
  rw [← h1, ← h2]
  simp only [dot2, veff, mul_sub, Finset.sum_sub_distrib, Finset.mul_sum]
  congr 1
  refine Finset.sum_congr rfl fun _ _ => Finset.sum_congr rfl fun _ _ => ?_
  rw [div_eq_mul_inv, Finset.sum_mul, Finset.mul_sum]
  refine Finset.sum_congr rfl fun _ _ => ?_
  rw [Finset.sum_mul, Finset.mul_sum]
  refine Finset.sum_congr rfl fun _ _ => ?_
  ring

section
variable {n : Nat} {g : Ten n n K} {h : Matrix (Fin n) (Fin n) K} (hs : RealSymmetric h g)
include hs

theorem dot4_symm (t : Ten n n K) : dot4 g (fun p q r s => t q p s r) = dot4 g t := by
  unfold dot4
  rw [Finset.sum_comm]
  refine Finset.sum_congr rfl fun p _ => Finset.sum_congr rfl fun q _ => ?_
  rw [Finset.sum_comm]
  refine Finset.sum_congr rfl fun r _ => Finset.sum_congr rfl fun s _ => ?_
  rw [hs.bra q p s r, hs.ket p q s r]

theorem dot4_symmetrize [CharZero K] (t : Ten n n K) : dot4 g (symmetrize2 t) = dot4 g t := by
  have h2 : (2 : K) ≠ 0 := two_ne_zero
  have : symmetrize2 t = fun p q r s => (1 / 2 : K) * (t p q r s + (fun p q r s => t q p s r) p q r s) := by
    funext p q r s; simp only [symmetrize2]; ring
  rw [this, dot4_smul, dot4_add, dot4_symm hs]
  field_simp
  ring

/-- The energy of a product is symmetric. -/
theorem wedge_comm (x y : Matrix (Fin n) (Fin n) K) : dot4 g (wedge (1 / 2) x y) = dot4 g (wedge (1 / 2) y x) := by
  have h3 : ∀ x y : Matrix (Fin n) (Fin n) K, dot4 g (wedge (1 / 2) x y) = dot4 g (fun p q r s => x p q * y r s) - (1 / 2) * dot4 g (fun p q r s => x p s * y q r) := by
    intro x y
    rw [← dot4_smul, ← dot4_sub]; rfl
  rw [h3, h3]
  congr 1
  · unfold dot4
    have : ∑ p, ∑ q, ∑ r, ∑ s, g p q r s * (y p q * x r s) = ∑ r, ∑ s, ∑ p, ∑ q, g p q r s * (y p q * x r s) := by
      rw [sum_last, sum_last]
    rw [this]
    refine Finset.sum_congr rfl fun r _ => Finset.sum_congr rfl fun s _ => Finset.sum_congr rfl fun p _ => Finset.sum_congr rfl fun q _ => ?_
    beta_reduce
    rw [hs.pair, mul_comm (x r s)]
  · congr 1
    rw [← dot4_symm hs]
    unfold dot4
    refine Finset.sum_congr rfl fun r _ => Finset.sum_congr rfl fun s _ => Finset.sum_congr rfl fun p _ => Finset.sum_congr rfl fun q _ => ?_
    beta_reduce
    rw [mul_comm (x s p)]

/-- A factor may be transposed if the other one is symmetric. -/
theorem wedge_transpose (x y : Matrix (Fin n) (Fin n) K) (hy : y.transpose = y) : dot4 g (wedge (1 / 2) x.transpose y) = dot4 g (wedge (1 / 2) x y) := by
  have hy' : ∀ p q, y q p = y p q := fun p q => congrFun (congrFun hy p) q
  have h3 : ∀ x y : Matrix (Fin n) (Fin n) K, dot4 g (wedge (1 / 2) x y) = dot4 g (fun p q r s => x p q * y r s) - (1 / 2) * dot4 g (fun p q r s => x p s * y q r) := by
    intro x y
    rw [← dot4_smul, ← dot4_sub]; rfl
  rw [h3, h3]
  congr 1
  · unfold dot4
    rw [Finset.sum_comm]
    refine Finset.sum_congr rfl fun p _ => Finset.sum_congr rfl fun q _ => Finset.sum_congr rfl fun r _ => Finset.sum_congr rfl fun s _ => ?_
    rw [hs.bra]; rfl
  · congr 1
    unfold dot4
    -- exchange the first and the last, and the second and the third index
    have : ∀ f : Fin n → Fin n → Fin n → Fin n → K, ∑ p, ∑ q, ∑ r, ∑ s, f p q r s = ∑ p, ∑ q, ∑ r, ∑ s, f s r q p := by
      intro f
      rw [sum_last]
      calc _ = ∑ q, ∑ s, ∑ r, ∑ p, f p q r s := Finset.sum_congr rfl fun _ _ => Finset.sum_comm
        _ = ∑ s, ∑ q, ∑ r, ∑ p, f p q r s := Finset.sum_comm
        _ = ∑ s, ∑ r, ∑ q, ∑ p, f p q r s := Finset.sum_congr rfl fun _ _ => Finset.sum_comm
    rw [this]
    refine Finset.sum_congr rfl fun r _ => Finset.sum_congr rfl fun s _ => Finset.sum_congr rfl fun p _ => Finset.sum_congr rfl fun q _ => ?_
    beta_reduce
    rw [hs.pair q p s r, hs.bra s r q p, hs.ket r s q p, transpose_apply, hy']

end

end Vayesta.DmetEnergy
