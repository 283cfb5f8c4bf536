import Mathlib.Algebra.Ring.Defs
import Mathlib.Algebra.BigOperators.Group.Finset.Basic

/-! What a Hubbard lattice should look like, stated without reference to how the matrices are filled. -/

namespace Vayesta.HubbardSpec

/-- Number of bonds between sites `a` and `c` of a chain of `n` sites closed to a ring, where the closing bond, which joins the
first and last site, counts `b` (1 periodic, -1 antiperiodic, 0 open). -/
def ringBonds (n : Nat) (b : Int) (a c : Nat) : Int :=
  (if c = a + 1 then 1 else 0) + (if a = c + 1 then 1 else 0)
    + (if a = 0 ∧ c + 1 = n then b else 0) + (if a + 1 = n ∧ c = 0 then b else 0)

/-- Number of bonds between sites `(i, j)` and `(k, l)` of an `n0 x n1` lattice. -/
def latticeBonds (n0 n1 : Nat) (b0 b1 : Int) (i j k l : Nat) : Int :=
  (if i = k then ringBonds n1 b1 j l else 0) + (if j = l then ringBonds n0 b0 i k else 0)

/-- The original number of the site at position `a` of a reordered lattice. -/
def origSite (order : Option (List Nat)) (a : Nat) : Nat :=
  match order with
  | none => a
  | some l => l.getD a 0

/-- `v` is an eigenvector of the `n x n` matrix `h` with eigenvalue `e`. -/
def IsEigenvector {K : Type} [CommRing K] (n : Nat) (h : Nat → Nat → K) (e : K) (v : Nat → K) : Prop :=
  (∃ a, a < n ∧ v a ≠ 0) ∧ ∀ a, a < n → ∑ c ∈ Finset.range n, h a c * v c = e * v a

/-- The spectrum is symmetric about zero and zero is not an eigenvalue: at half filling every orbital is either doubly occupied
or empty, whatever (non-zero) hopping. -/
def ClosedShellHalfFilled {K : Type} [CommRing K] (n : Nat) (h : Nat → Nat → K) : Prop :=
  (∃ σ : Nat → K, (∀ a, σ a = 1 ∨ σ a = -1) ∧
      ∀ e v, IsEigenvector n h e v → IsEigenvector n h (-e) fun a => σ a * v a) ∧
    ∀ v, ¬ IsEigenvector n h 0 v

end Vayesta.HubbardSpec
