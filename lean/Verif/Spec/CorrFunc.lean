import Mathlib.Data.Matrix.Mul
import Mathlib.Algebra.Field.Defs

/-! Correlation functions of one-body operators, from one- and two-body density matrices `γ_ij = <a†_i a_j>`, `Γ_ijkl = <a†_i a†_k a_l a_j>`:
`<A B> = Σ A_ij B_kl Γ_ijkl + Σ A_ij B_jl γ_il`. -/

namespace Vayesta.CorrFuncSpec

variable {K : Type} [Field K] {n a b : Nat}

/-- `<A>`. -/
def mean (p d : Matrix (Fin n) (Fin n) K) : K := ∑ i, ∑ j, p i j * d i j

/-- Two-body part, `Σ A_ij B_kl Γ_ijkl`. -/
def pairPart (g : Fin a → Fin a → Fin b → Fin b → K) (p : Matrix (Fin a) (Fin a) K) (q : Matrix (Fin b) (Fin b) K) : K :=
  ∑ i, ∑ j, ∑ k, ∑ l, p i j * q k l * g i j k l

/-- `<A B>` for spin-summed operators and density matrices, or for one spin. -/
def twoPoint (d : Matrix (Fin n) (Fin n) K) (g : Fin n → Fin n → Fin n → Fin n → K) (p q : Matrix (Fin n) (Fin n) K) : K :=
  pairPart g p q + ∑ i, ∑ j, ∑ l, p i j * q j l * d i l

/-- `<S_z(A) S_z(B)>` with `S_z(A) = (A_alpha - A_beta) / 2`, from the density matrices of the spins. -/
def spinSpin (da : Matrix (Fin a) (Fin a) K) (db : Matrix (Fin b) (Fin b) K) (aa : Fin a → Fin a → Fin a → Fin a → K) (ab : Fin a → Fin a → Fin b → Fin b → K)
    (bb : Fin b → Fin b → Fin b → Fin b → K) (pa : Matrix (Fin a) (Fin a) K) (pb : Matrix (Fin b) (Fin b) K) (qa : Matrix (Fin a) (Fin a) K)
    (qb : Matrix (Fin b) (Fin b) K) : K :=
  (twoPoint da aa pa qa + twoPoint db bb pb qb - pairPart ab pa qb - pairPart ab qa pb) / 4

/-- Two-body density matrices of a singlet: the same-spin part is the antisymmetrised opposite-spin part, spins can be exchanged, and `g` is
the sum over spins. -/
structure Singlet (g aa ab : Fin n → Fin n → Fin n → Fin n → K) : Prop where
  same : ∀ i j k l, aa i j k l = ab i j k l - ab i l k j
  flip : ∀ i j k l, ab i j k l = ab k l i j
  total : ∀ i j k l, g i j k l = 2 * aa i j k l + 2 * ab i j k l

end Vayesta.CorrFuncSpec
