import Mathlib.Data.Matrix.Mul
import Mathlib.Algebra.Field.Defs

/-! Textbook closed- and open-shell mean-field potentials, and symmetries of two-electron integrals. -/

namespace Vayesta.ClusterHamSpec

variable {K : Type} [Field K] {n a b : Nat}

/-- `(pq|rs) = (rs|pq)`. -/
def PairSymmetric (g : Fin n → Fin n → Fin n → Fin n → K) : Prop := ∀ p q r s, g p q r s = g r s p q

/-- Density matrix of a determinant: `x` electrons in each of the first `nocc` orbitals. -/
def dm (n nocc : Nat) (x : K) : Matrix (Fin n) (Fin n) K := fun r s => if r = s ∧ r.val < nocc then x else 0

/-- Closed-shell potential `J - K / 2` of the density matrix `d`: `sum_rs d_rs [(pq|rs) - (ps|rq) / 2]`. -/
def potential (g : Fin n → Fin n → Fin n → Fin n → K) (d : Matrix (Fin n) (Fin n) K) : Matrix (Fin n) (Fin n) K := fun p q =>
  ∑ r, ∑ s, d r s * (g p q r s - g p s r q / 2)

/-- Open-shell potential for alpha electrons: `sum_rs da_rs [(pq|rs) - (ps|rq)] + sum_rs db_rs (pq|rs)`. -/
def potentialA (aa : Fin a → Fin a → Fin a → Fin a → K) (ab : Fin a → Fin a → Fin b → Fin b → K) (da : Matrix (Fin a) (Fin a) K)
    (db : Matrix (Fin b) (Fin b) K) : Matrix (Fin a) (Fin a) K := fun p q =>
  (∑ r, ∑ s, da r s * (aa p q r s - aa p s r q)) + ∑ r, ∑ s, db r s * ab p q r s

/-- Open-shell potential for beta electrons. -/
def potentialB (bb : Fin b → Fin b → Fin b → Fin b → K) (ab : Fin a → Fin a → Fin b → Fin b → K) (da : Matrix (Fin a) (Fin a) K)
    (db : Matrix (Fin b) (Fin b) K) : Matrix (Fin b) (Fin b) K := fun p q =>
  (∑ r, ∑ s, db r s * (bb p q r s - bb p s r q)) + ∑ r, ∑ s, da r s * ab r s p q

/-- The matrix plus the external potential, if there is one. -/
def plus (m : Matrix (Fin n) (Fin n) K) : Option (Matrix (Fin n) (Fin n) K) → Matrix (Fin n) (Fin n) K
  | none => m
  | some v => m + v

end Vayesta.ClusterHamSpec
