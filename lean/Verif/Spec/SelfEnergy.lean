import Verif.Model.SelfEnergy
import Mathlib.LinearAlgebra.Matrix.PosDef

/-! Specification for self-energies: what the numerical routines have to do, the self-energy of the whole system, exact clusters, symmetry images. -/

namespace Vayesta.SelfEnergy

open Matrix Lowdin

/-- `m = u diag(s) vt` with orthogonal `u` and `vt` and non-negative `s`. -/
structure IsSvd {n : Nat} (m : Matrix (Fin n) (Fin n) ℝ) (g : Svd n) : Prop where
  left : g.uᵀ * g.u = 1
  right : g.vt * g.vtᵀ = 1
  nonneg : ∀ i, 0 ≤ g.s i
  product : m = g.u * diagonal g.s * g.vt

/-- Singular values of all matrices, eigenvectors of all symmetric ones, sorting by energy. -/
structure RightRoutines {nmo : Nat} (t : Routines nmo) : Prop where
  svd : ∀ (n : Nat) (m : Matrix (Fin n) (Fin n) ℝ), IsSvd m (t.svd n m)
  eigh : ∀ (n : Nat) (m : Matrix (Fin n) (Fin n) ℝ), mᵀ = m →
    (t.eigh n m).vecᵀ * (t.eigh n m).vec = 1 ∧ m * (t.eigh n m).vec = (t.eigh n m).vec * diagonal (t.eigh n m).val
  sortC : ∀ x, (t.sortC x).Perm x ∧ (t.sortC x).Pairwise fun a b => a.e ≤ b.e
  sort : ∀ x, (t.sort x).Perm x

/-- All non-zero singular values of a matrix are above a threshold (always so for the threshold 0). -/
def Significant {n : Nat} (tol : ℝ) (m : Matrix (Fin n) (Fin n) ℝ) : Prop :=
  ∀ (μ : ℝ) (v : Fin n → ℝ), v ≠ 0 → (mᵀ * m) *ᵥ v = μ • v → μ = 0 ∨ tol ^ 2 < μ

/-- Different energies of poles are at least `tol` apart. -/
def Separated (tol : ℝ) (energies : List ℝ) : Prop := ∀ a ∈ energies, ∀ b ∈ energies, |a - b| < tol → a = b

variable {ι : Type} [Fintype ι] {nmo : Nat}

/-- A complete orthonormal set of orbitals of a symmetric overlap, and a symmetric Fock matrix. -/
structure Orbitals [DecidableEq ι] (s : Sys ι nmo) : Prop where
  overlap : s.ovlpᵀ = s.ovlp
  fock : s.fockᵀ = s.fock
  orthonormal : s.moᵀ * s.ovlp * s.mo = 1
  complete : Fintype.card ι = nmo

/-- The self-energy of the whole system in molecular orbitals: poles, static part (of which the Fock matrix has not been subtracted: the sum of the
first moments of both spectral functions), static potential. -/
structure Whole (nmo : Nat) where
  poles : List (ℝ × (Fin nmo → ℝ))
  first : Matrix (Fin nmo) (Fin nmo) ℝ
  pot : Matrix (Fin nmo) (Fin nmo) ℝ

/-- Its frequency dependence, with weights `f(energy)`. -/
def Whole.dynamic (w : Whole nmo) (f : ℝ → ℝ) : Matrix (Fin nmo) (Fin nmo) ℝ := (w.poles.map fun a => f a.1 • vecMulVec a.2 a.2).sum

/-- The cluster spans all orbitals, and its solver has found the exact self-energy. -/
structure ExactSelfEnergy [DecidableEq ι] (s : Sys ι nmo) (stat : AsStatic) (w : Whole nmo) (x : Frag ι) : Prop where
  complete : x.cAct * x.cActᵀ * s.ovlp = 1
  poles : x.se = .array (w.poles.map fun a => (a.1, (s.moᵀ * s.ovlp * x.cAct)ᵀ *ᵥ a.2))
  first : x.th1 + x.tp1 = (s.moᵀ * s.ovlp * x.cAct)ᵀ * w.first * (s.moᵀ * s.ovlp * x.cAct)
  pot : stat x.nc x.se (fun i => (x.cActᵀ * s.fock * x.cAct) i i) = (s.moᵀ * s.ovlp * x.cAct)ᵀ * w.pot * (s.moᵀ * s.ovlp * x.cAct)

/-- The fragments are a partition of all orbitals. -/
def PartitionOfUnity [DecidableEq ι] (s : Sys ι nmo) (l : List (Frag ι)) : Prop := (l.map fun x => x.cFrag * x.cFragᵀ * s.ovlp).sum = 1

/-- Projector onto a fragment, in molecular orbitals. -/
def projector (s : Sys ι nmo) (x : Frag ι) : Matrix (Fin nmo) (Fin nmo) ℝ := s.moᵀ * s.ovlp * x.cFrag * x.cFragᵀ * s.ovlp * s.mo

/-- The sum over fragments of the self-energies of clusters, half of it with the left and half of it with the right index projected onto the
fragment, with weights `f(energy)`. -/
noncomputable def democratic (s : Sys ι nmo) (f : ℝ → ℝ) (l : List (Frag ι)) : Matrix (Fin nmo) (Fin nmo) ℝ :=
  (l.map fun x =>
    let r := s.moᵀ * s.ovlp * x.cAct
    let p := (x.cFragᵀ * s.ovlp * x.cAct)ᵀ * (x.cFragᵀ * s.ovlp * x.cAct)
    r * ((1 / 2 : ℝ) • (p * weighted f x.se.poles + weighted f x.se.poles * p)) * rᵀ).sum

/-- Weight 1 for one energy, 0 for all others: `democratic s (only E)` is the residue at the energy `E`. -/
noncomputable def only (E : ℝ) : ℝ → ℝ := fun e => if e = E then 1 else 0

/-- The image of a fragment. -/
def Frag.image (u : Matrix ι ι ℝ) (x : Frag ι) : Frag ι :=
  { nf := x.nf, nc := x.nc, cFrag := u * x.cFrag, cAct := u * x.cAct, th1 := x.th1, tp1 := x.tp1, se := x.se, root := false, ops := [] }

/-- All fragments without symmetry: parents, each followed by its images. -/
def allImages (l : List (Frag ι)) : List (Frag ι) :=
  (l.filter fun x => x.root).flatMap fun x => { x with ops := [] } :: x.ops.map fun u => x.image u

/-- Symmetry operations leave the overlap and the Fock matrix invariant. -/
def SymmetryOf (s : Sys ι nmo) (u : Matrix ι ι ℝ) : Prop := uᵀ * s.ovlp * u = s.ovlp ∧ uᵀ * s.fock * u = s.fock

end Vayesta.SelfEnergy
