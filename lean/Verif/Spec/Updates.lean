import Verif.Model.Updates
import Mathlib.Algebra.BigOperators.Group.Finset.Basic
import Mathlib.Algebra.BigOperators.Group.List.Basic

/-! Vocabulary for the properties of parameter updates. -/

namespace Vayesta.Updates

section
variable {K : Type}

mutual
/-- All array elements, in order. -/
def elements : Params K → List K
  | .arr _ d => d
  | .node xs => elementsOf xs
/-- All array elements of a list of entries, in order. -/
def elementsOf : List (Params K) → List K
  | [] => []
  | x :: xs => elements x ++ elementsOf xs
end

mutual
/-- A nested list that can be updated: every array has at least one axis and as many elements as its shape says, and no list
inside is empty. -/
def Valid : Params K → Prop
  | .arr ds d => ds ≠ [] ∧ d.length = prod ds
  | .node xs => xs ≠ [] ∧ ValidAll xs
/-- Every entry is valid. -/
def ValidAll : List (Params K) → Prop
  | [] => True
  | x :: xs => Valid x ∧ ValidAll xs
end

variable [CommRing K]

/-- Elementwise linear mixing. -/
def mixed (α : K) (old new : List K) : List K := old.zipWith (fun p x => (1 - α) * p + α * x) new

/-- Squared Euclidean distance. -/
def distSq (a b : List K) : K := ((a.zipWith (· - ·) b).map fun x => x * x).sum

/-- Trace of a square matrix stored in C order. -/
def trace (n : Nat) (d : List K) : K := ∑ i ∈ Finset.range n, d.getD (i * n + i) 0

/-- A list of square matrices. -/
def Matrices (sizes : List Nat) (ps : List (Params K)) : Prop :=
  List.Forall₂ (fun n p => ∃ d : List K, p = .arr [n, n] d ∧ d.length = n * n) sizes ps

/-- Sum of the traces of a list of square matrices. -/
def totalTrace : List (Params K) → K
  | .arr [n, _] d :: ps => trace n d + totalTrace ps
  | _ :: ps => totalTrace ps
  | [] => 0

end

end Vayesta.Updates
