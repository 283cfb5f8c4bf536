import Mathlib.Algebra.Field.Defs
import Mathlib.Algebra.BigOperators.Group.List.Basic

/-! Specification of the exponential ansatz for spin-orbitals, for any rank of excitations. An excitation replaces the occupied spin-orbitals of a list
by the virtual spin-orbitals of another. -/

namespace Vayesta.ExpT

variable {K : Type} [Field K]

/-- All ways to divide a list in two parts, with the sign of the permutation which moves the first part to the front. -/
def splits {α : Type} : List α → List (K × List α × List α)
  | [] => [(1, [], [])]
  | x :: l => ((splits l).map fun s => (s.1, x :: s.2.1, s.2.2)) ++ (splits l).map fun s => ((-1) ^ s.2.1.length * s.1, s.2.1, x :: s.2.2)

/-- Sum over all ways to split off the part of an excitation which contains the first occupied orbital. -/
def expStep {O V : Type} (t c : List O → List V → K) (i : O) (l : List O) (a : List V) : K :=
  ((splits l).map fun s => ((splits a).map fun r =>
    if r.2.1.length = s.2.1.length + 1 then s.1 * r.1 * t (i :: s.2.1) r.2.1 * c s.2.2 r.2.2 else 0).sum).sum

/-- Coefficient of exp(T) for at most `n` occupied orbitals. -/
def expRank {O V : Type} (t : List O → List V → K) : Nat → List O → List V → K
  | _, [], a => if a.length = 0 then 1 else 0
  | 0, _ :: _, _ => 0
  | n + 1, i :: l, a => expStep t (expRank t n) i l a

/-- Coefficient of exp(T): the sum over all ways to divide an excitation into connected ones, with amplitudes `t` and the sign of the permutations. -/
def expCoeff {O V : Type} (t : List O → List V → K) (l : List O) (a : List V) : K := expRank t l.length l a

/-- Antisymmetric in neighbouring orbitals. -/
structure Antisymmetric {O V : Type} (t : List O → List V → K) : Prop where
  occ : ∀ l i j m a, t (l ++ i :: j :: m) a = -t (l ++ j :: i :: m) a
  vir : ∀ l a i j b, t l (a ++ i :: j :: b) = -t l (a ++ j :: i :: b)

/-- Number of spin-orbitals with alpha spin. -/
def alphas {X Y : Type} (l : List (X ⊕ Y)) : Nat := (l.filter Sum.isLeft).length

/-- Excitations which do not conserve the spin projection are zero. -/
def ConservesSpin {O P V W : Type} (t : List (O ⊕ P) → List (V ⊕ W) → K) : Prop := ∀ l a, l.length = a.length → alphas l ≠ alphas a → t l a = 0

/-- One spin-orbital changed from alpha to beta, in all possible ways. -/
def lowered {X : Type} : List (X ⊕ X) → List (List (X ⊕ X))
  | [] => []
  | .inl x :: l => (.inr x :: l) :: (lowered l).map (.inl x :: ·)
  | .inr x :: l => (lowered l).map (.inr x :: ·)

/-- One spin-orbital changed from beta to alpha, in all possible ways. -/
def raised {X : Type} : List (X ⊕ X) → List (List (X ⊕ X))
  | [] => []
  | .inl x :: l => (raised l).map (.inl x :: ·)
  | .inr x :: l => (.inl x :: l) :: (raised l).map (.inr x :: ·)

/-- The amplitudes of a closed-shell state: they commute with the total spin (raising operator) and are unchanged if the spins are exchanged. -/
structure ClosedShell {O V : Type} (t : List (O ⊕ O) → List (V ⊕ V) → K) : Prop where
  spin : ∀ l a, l.length = a.length → ((lowered a).map fun b => t l b).sum = ((raised l).map fun m => t m a).sum
  flip : ∀ l a, t (l.map Sum.swap) (a.map Sum.swap) = t l a

end Vayesta.ExpT
