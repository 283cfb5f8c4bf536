import Mathlib.Algebra.BigOperators.Ring.Finset
import Mathlib.Algebra.BigOperators.Group.Finset.Sigma
import Mathlib.Algebra.BigOperators.Group.List.Basic
import Mathlib.Algebra.Ring.Basic
import Mathlib.Data.Fintype.Basic
import Mathlib.Tactic.Ring

/-! One-index contractions of tensors with matrices, both written as plain functions. -/

namespace Vayesta.Tensor

section
variable {K : Type} [CommRing K] {m n o p q r : Type}

/-- Matrix product. -/
def mm [Fintype n] (M : m → n → K) (N : n → o → K) : m → o → K := fun i k => ∑ j, M i j * N j k

/-- Identity matrix. -/
def delta [DecidableEq m] : m → m → K := fun i j => if i = j then 1 else 0

/-- Transpose. -/
def tp {m n : Type} (M : m → n → K) : n → m → K := fun i j => M j i

def L1 [Fintype n] (M : m → n → K) (t : n → o → p → q → K) : m → o → p → q → K := fun i j a b => ∑ k, M i k * t k j a b
def L2 [Fintype n] (M : m → n → K) (t : o → n → p → q → K) : o → m → p → q → K := fun i j a b => ∑ k, M j k * t i k a b
def L3 [Fintype n] (M : m → n → K) (t : o → p → n → q → K) : o → p → m → q → K := fun i j a b => ∑ k, M a k * t i j k b
def L4 [Fintype n] (M : m → n → K) (t : o → p → q → n → K) : o → p → q → m → K := fun i j a b => ∑ k, M b k * t i j a k

variable {m' n' : Type}

theorem sum_swap [Fintype m] [Fintype n] (f : m → K) (g : n → K) (t : m → n → K) :
    ∑ k, f k * ∑ l, g l * t k l = ∑ l, g l * ∑ k, f k * t k l := by
  simp only [Finset.mul_sum]
  rw [Finset.sum_comm]
  exact Finset.sum_congr rfl fun _ _ => Finset.sum_congr rfl fun _ _ => by ring

theorem sum_mm [Fintype n] [Fintype o] (f : n → K) (N : n → o → K) (t : o → K) : ∑ k, f k * ∑ l, N k l * t l = ∑ l, (∑ k, f k * N k l) * t l := by
  simp only [Finset.mul_sum, Finset.sum_mul]
  rw [Finset.sum_comm]
  exact Finset.sum_congr rfl fun _ _ => Finset.sum_congr rfl fun _ _ => by ring

theorem sum_delta [Fintype n] [DecidableEq n] (i : n) (t : n → K) : ∑ k, (delta i k : K) * t k = t i := by
  simp [delta]

theorem L1_L1 [Fintype n] [Fintype o] (M : m → n → K) (N : n → o → K) (t : o → p → q → r → K) : L1 M (L1 N t) = L1 (mm M N) t := by
  funext i j a b; exact sum_mm _ _ _
theorem L2_L2 [Fintype n] [Fintype o] (M : m → n → K) (N : n → o → K) (t : p → o → q → r → K) : L2 M (L2 N t) = L2 (mm M N) t := by
  funext i j a b; exact sum_mm _ _ _
theorem L3_L3 [Fintype n] [Fintype o] (M : m → n → K) (N : n → o → K) (t : p → q → o → r → K) : L3 M (L3 N t) = L3 (mm M N) t := by
  funext i j a b; exact sum_mm _ _ _
theorem L4_L4 [Fintype n] [Fintype o] (M : m → n → K) (N : n → o → K) (t : p → q → r → o → K) : L4 M (L4 N t) = L4 (mm M N) t := by
  funext i j a b; exact sum_mm _ _ _

theorem L2_L1 [Fintype n] [Fintype n'] (M : m → n → K) (N : m' → n' → K) (t : n → n' → q → r → K) : L2 N (L1 M t) = L1 M (L2 N t) := by
  funext i j a b; exact sum_swap _ _ _
theorem L3_L1 [Fintype n] [Fintype n'] (M : m → n → K) (N : m' → n' → K) (t : n → q → n' → r → K) : L3 N (L1 M t) = L1 M (L3 N t) := by
  funext i j a b; exact sum_swap _ _ _
theorem L4_L1 [Fintype n] [Fintype n'] (M : m → n → K) (N : m' → n' → K) (t : n → q → r → n' → K) : L4 N (L1 M t) = L1 M (L4 N t) := by
  funext i j a b; exact sum_swap _ _ _
theorem L3_L2 [Fintype n] [Fintype n'] (M : m → n → K) (N : m' → n' → K) (t : q → n → n' → r → K) : L3 N (L2 M t) = L2 M (L3 N t) := by
  funext i j a b; exact sum_swap _ _ _
theorem L4_L2 [Fintype n] [Fintype n'] (M : m → n → K) (N : m' → n' → K) (t : q → n → r → n' → K) : L4 N (L2 M t) = L2 M (L4 N t) := by
  funext i j a b; exact sum_swap _ _ _
theorem L4_L3 [Fintype n] [Fintype n'] (M : m → n → K) (N : m' → n' → K) (t : q → r → n → n' → K) : L4 N (L3 M t) = L3 M (L4 N t) := by
  funext i j a b; exact sum_swap _ _ _

theorem L1_delta [Fintype n] [DecidableEq n] (t : n → p → q → r → K) : L1 delta t = t := by funext i j a b; exact sum_delta _ _
theorem L2_delta [Fintype n] [DecidableEq n] (t : p → n → q → r → K) : L2 delta t = t := by funext i j a b; exact sum_delta _ _
theorem L3_delta [Fintype n] [DecidableEq n] (t : p → q → n → r → K) : L3 delta t = t := by funext i j a b; exact sum_delta _ _
theorem L4_delta [Fintype n] [DecidableEq n] (t : p → q → r → n → K) : L4 delta t = t := by funext i j a b; exact sum_delta _ _

theorem mm_assoc [Fintype n] [Fintype o] (M : m → n → K) (N : n → o → K) (P : o → p → K) : mm (mm M N) P = mm M (mm N P) := by
  funext i k; exact (sum_mm _ _ _).symm

theorem mm_delta [Fintype n] [DecidableEq n] (M : m → n → K) : mm M delta = M := by
  funext i k; simp [mm, delta]

theorem delta_mm [Fintype m] [DecidableEq m] (M : m → n → K) : mm delta M = M := by
  funext i k; exact sum_delta _ _

theorem tp_mm [Fintype n] (M : m → n → K) (N : n → o → K) : tp (mm M N) = mm (tp N) (tp M) := by
  funext i k
  exact Finset.sum_congr rfl fun _ _ => by simp only [tp]; ring

theorem tp_tp {m n : Type} (M : m → n → K) : tp (tp M) = M := rfl

/-- Sum over a list of matrices acting on a vector. -/
theorem list_sum_mul [Fintype n] {ι : Type*} (l : List ι) (g : ι → n → K) (t : n → K) :
    (l.map fun x => ∑ k, g x k * t k).sum = ∑ k, (l.map fun x => g x k).sum * t k := by
  induction l with
  | nil => simp
  | cons a l ih => simp only [List.map_cons, List.sum_cons, ih, ← Finset.sum_add_distrib, add_mul]

end
end Vayesta.Tensor
