import Mathlib.Algebra.BigOperators.Group.Finset.Basic
import Mathlib.Algebra.Field.Defs
import Mathlib.Data.Fintype.Basic
import Mathlib.Data.Matrix.Mul

/-! Specification for MP2: amplitudes, Fock matrix and correlation energy in terms of integrals in chemists' notation. -/

namespace Vayesta.Mp2

variable {K : Type} [Field K] {no nv : Nat}

/-- Exchange symmetry of amplitudes. -/
def ExchangeSymmetric (t : Fin no → Fin no → Fin nv → Fin nv → K) : Prop := ∀ i j a b, t i j a b = t j i b a

/-- Occupied orbital `i` and virtual orbital `a` among all orbitals. -/
abbrev o (nv : Nat) (i : Fin no) : Fin (no + nv) := Fin.castAdd nv i
abbrev v (no : Nat) (a : Fin nv) : Fin (no + nv) := Fin.natAdd no a

/-- Closed-shell Fock matrix. -/
def fock (h : Matrix (Fin (no + nv)) (Fin (no + nv)) K) (g : Fin (no + nv) → Fin (no + nv) → Fin (no + nv) → Fin (no + nv) → K)
    (p q : Fin (no + nv)) : K := h p q + ∑ i : Fin no, (2 * g p q (o nv i) (o nv i) - g p (o nv i) (o nv i) q)

/-- Closed-shell Hartree-Fock energy. -/
def hfEnergy (h : Matrix (Fin (no + nv)) (Fin (no + nv)) K) (g : Fin (no + nv) → Fin (no + nv) → Fin (no + nv) → Fin (no + nv) → K) : K :=
  2 * (∑ i : Fin no, h (o nv i) (o nv i)) + ∑ i : Fin no, ∑ j : Fin no, (2 * g (o nv i) (o nv i) (o nv j) (o nv j) - g (o nv i) (o nv j) (o nv j) (o nv i))

/-- MP2 correlation energy of amplitudes. -/
def mp2Energy (g : Fin (no + nv) → Fin (no + nv) → Fin (no + nv) → Fin (no + nv) → K) (t : Fin no → Fin no → Fin nv → Fin nv → K) : K :=
  ∑ i, ∑ j, ∑ a, ∑ b, g (o nv i) (v no a) (o nv j) (v no b) * (2 * t i j a b - t i j b a)

end Vayesta.Mp2
