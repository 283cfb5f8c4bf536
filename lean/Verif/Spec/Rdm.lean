import Mathlib.Data.Matrix.Mul
import Mathlib.Algebra.Field.Defs

/-! Specification of one-body parts of two-body density matrices, by formulas for single elements. -/

namespace Vayesta.Rdm

variable {K : Type} [Field K]

/-- Mean-field density matrix with `x` electrons in each of the first `nocc` orbitals. -/
def meanField (n nocc : Nat) (x : K) : Matrix (Fin n) (Fin n) K := fun p q => if p = q ∧ p.val < nocc then x else 0

/-- Antisymmetrised product of density matrices: Coulomb minus `f` times exchange. -/
def wedge {n : Nat} (f : K) (x y : Matrix (Fin n) (Fin n) K) (p q r s : Fin n) : K := x p q * y r s - f * (x p s * y q r)

/-- One-body part of a two-body density matrix. -/
def onePart {n : Nat} (f : K) (d : Matrix (Fin n) (Fin n) K) (p q r s : Fin n) : K := wedge f d d p q r s

/-- One-body part to first order in the difference to the mean field `m`. -/
def onePartLinear {n : Nat} (f : K) (d m : Matrix (Fin n) (Fin n) K) (p q r s : Fin n) : K :=
  wedge f m d p q r s + wedge f d m p q r s - wedge f m m p q r s

/-- The same for different spins: no exchange. -/
def onePartLinearOpposite {a b : Nat} (da ma : Matrix (Fin a) (Fin a) K) (db mb : Matrix (Fin b) (Fin b) K) (p q : Fin a) (r s : Fin b) : K :=
  ma p q * db r s + da p q * mb r s - ma p q * mb r s

end Vayesta.Rdm
