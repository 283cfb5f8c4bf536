import Mathlib.LinearAlgebra.Matrix.ConjTranspose
import Mathlib.Data.Matrix.Mul
import Verif.Model.EbFci

/-! Coupled electron-boson Hamiltonians as matrices on the truncated space, written with the generators `E_pq = p† q` of both spins
and with boson creation operators. -/

namespace Vayesta.Spec.EbFci

open Matrix Vayesta.EbFci

section
variable {n K : Type} [Fintype n] [DecidableEq n] [Field K] {k na nb nbos m : Nat}

/-- The table lists the matrix elements `⟨str1| a† i |str0⟩`. -/
def Tabulates (tab : Table n k K) (E : n → n → Matrix (Fin k) (Fin k) K) : Prop :=
  ∀ (a i : n) (s1 s0 : Fin k), E a i s1 s0 = (((tab s0).filter fun e => e.a = a ∧ e.i = i ∧ e.str1 = s1).map fun e => e.sign).sum

/-- Operators `E_pq = p† q` for `N` electrons: adjoints, particle number, and the commutators that follow from the
anticommutation rules. -/
structure Generators (E : n → n → Matrix (Fin k) (Fin k) K) (N : Nat) : Prop where
  adjoint : ∀ p q : n, (E p q)ᵀ = E q p
  number : ∑ p, E p p = (N : K) • (1 : Matrix (Fin k) (Fin k) K)
  commutator : ∀ p q r s : n, E p q * E r s - E r s * E p q = (if q = r then E p s else 0) - if p = s then E r q else 0

/-- Square roots of the boson occupations up to `m`. -/
def Roots (sq : Nat → K) (m : Nat) : Prop := ∀ j : Nat, j ≤ m → sq j * sq j = (j : K)

/-- An operator on the alpha strings, on the full space. -/
def onA (M : Matrix (Fin na) (Fin na) K) : Matrix (Idx na nb nbos m) (Idx na nb nbos m) K :=
  fun x y => if x.2 = y.2 then M x.1 y.1 else 0

/-- An operator on the beta strings, on the full space. -/
def onB (M : Matrix (Fin nb) (Fin nb) K) : Matrix (Idx na nb nbos m) (Idx na nb nbos m) K :=
  fun x y => if x.1 = y.1 ∧ x.2.2 = y.2.2 then M x.2.1 y.2.1 else 0

/-- The boson creation operator `b†` on the truncated space: `⟨…, v+1, …| b† |…, v, …⟩ = √(v+1)`. -/
def create (sq : Nat → K) (b : Fin nbos) : Matrix (Idx na nb nbos m) (Idx na nb nbos m) K :=
  fun x y => if x.1 = y.1 ∧ x.2.1 = y.2.1 ∧ (x.2.2 b).val = (y.2.2 b).val + 1 ∧ ∀ b' : Fin nbos, b' ≠ b → x.2.2 b' = y.2.2 b'
    then sq (x.2.2 b).val else 0

/-- The boson annihilation operator. -/
def annihilate (sq : Nat → K) (b : Fin nbos) : Matrix (Idx na nb nbos m) (Idx na nb nbos m) K := (create sq b)ᵀ

/-- Spin-summed `E_pq`. -/
def spinSum (Ea : n → n → Matrix (Fin na) (Fin na) K) (Eb : n → n → Matrix (Fin nb) (Fin nb) K) (p q : n) :
    Matrix (Idx na nb nbos m) (Idx na nb nbos m) K := onA (Ea p q) + onB (Eb p q)

/-- `p† r† s q = E_pq E_rs - δ_qr E_ps`. -/
def normal {X : Type} [Fintype X] (E : n → n → Matrix X X K) (p q r s : n) : Matrix X X K := E p q * E r s - if q = r then E p s else 0

/-- Coupling of one spin: `Σ V_npq (b†_n p† q + b_n q† p)`. -/
def coupling (sq : Nat → K) (E : n → n → Matrix (Idx na nb nbos m) (Idx na nb nbos m) K) (v : Fin nbos → n → n → K) :
    Matrix (Idx na nb nbos m) (Idx na nb nbos m) K :=
  ∑ b, ∑ p, ∑ q, v b p q • (create sq b * E p q + annihilate sq b * E q p)

/-- `Σ ω_nm b†_n b_m`. -/
def bosons (sq : Nat → K) (w : Fin nbos → Fin nbos → K) : Matrix (Idx na nb nbos m) (Idx na nb nbos m) K :=
  ∑ b, ∑ b', w b b' • (create sq b * annihilate sq b')

/-- Electronic Hamiltonian with one set of orbitals. -/
def electrons (Ea : n → n → Matrix (Fin na) (Fin na) K) (Eb : n → n → Matrix (Fin nb) (Fin nb) K) (h : n → n → K) (g : n → n → n → n → K) :
    Matrix (Idx na nb nbos m) (Idx na nb nbos m) K :=
  (∑ p, ∑ q, h p q • spinSum Ea Eb p q) + (1 / 2 : K) • ∑ p, ∑ q, ∑ r, ∑ s, g p q r s • normal (spinSum Ea Eb) p q r s

/-- Electronic Hamiltonian with different orbitals for different spins. -/
def uelectrons (Ea : n → n → Matrix (Fin na) (Fin na) K) (Eb : n → n → Matrix (Fin nb) (Fin nb) K) (ha hb : n → n → K)
    (aa ab bb : n → n → n → n → K) : Matrix (Idx na nb nbos m) (Idx na nb nbos m) K :=
  (∑ p, ∑ q, (ha p q • onA (Ea p q) + hb p q • onB (Eb p q)))
  + (1 / 2 : K) • (∑ p, ∑ q, ∑ r, ∑ s, aa p q r s • normal (fun p q => onA (Ea p q)) p q r s)
  + (∑ p, ∑ q, ∑ r, ∑ s, ab p q r s • (onA (Ea p q) * onB (Eb r s)))
  + (1 / 2 : K) • (∑ p, ∑ q, ∑ r, ∑ s, bb p q r s • normal (fun p q => onB (Eb p q)) p q r s)

/-- The Hamiltonian of electrons and bosons, given its electronic part. -/
def total (sq : Nat → K) (Ea : n → n → Matrix (Fin na) (Fin na) K) (Eb : n → n → Matrix (Fin nb) (Fin nb) K)
    (va vb : Fin nbos → n → n → K) (w : Fin nbos → Fin nbos → K) (el : Matrix (Idx na nb nbos m) (Idx na nb nbos m) K) :
    Matrix (Idx na nb nbos m) (Idx na nb nbos m) K :=
  el + coupling sq (fun p q => onA (Ea p q)) va + coupling sq (fun p q => onB (Eb p q)) vb + bosons sq w

/-- Expectation value `⟨c| M |c⟩`. -/
def expect {X : Type} [Fintype X] (c : X → K) (M : Matrix X X K) : K := c ⬝ᵥ (M *ᵥ c)

/-- Symmetries of real two-electron integrals of one spin: exchange of the particles, and of bra and ket. -/
def Symmetric4 (g : n → n → n → n → K) : Prop := ∀ p q r s : n, g p q r s = g r s p q ∧ g p q r s = g q p s r

end

end Vayesta.Spec.EbFci
