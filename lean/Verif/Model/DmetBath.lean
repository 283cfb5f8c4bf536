import Verif.Model.Blocks
import Mathlib.Algebra.Order.Field.Basic
import Mathlib.Data.Matrix.Block
import Mathlib.Data.Real.Basic
import Mathlib.Data.Matrix.ColumnRowPartitioned
import Mathlib.LinearAlgebra.Matrix.Trace

/-! Model of the DMET bath construction (`vayesta/core/bath/dmet.py`) and of the occupied/virtual split of the cluster
(`vayesta/core/qemb/fragment.py:541-576`). Arithmetic is exact (an ordered field, or ℝ for the matrix part); the eigensolver is
external: its result is a parameter and what it promises (ascending eigenvalues, orthogonal eigenvectors) is a hypothesis. -/

namespace Vayesta.DmetBath

section Masks
variable {K : Type} [Field K] [LinearOrder K] {C : Type}

/-- The four values returned by `make_dmet_bath` (dmet.py:175). -/
structure BathResult (K C : Type) where
  cBath : List C
  nDmet : List K
  cOccEnv : List C
  cVirEnv : List C

/-- `make_dmet_bath` (dmet.py:122-175) after the diagonalisation, for `c_ref = None`. `env` are the environment orbitals rotated
by the eigenvectors, each with its eigenvalue, in the order returned by `eigh`; the code reverses them (line 139). Error logging
for eigenvalues outside [0,1] and the sign fixing (line 145, column-wise ±1) have no effect on the selection and are left out.
* no environment columns: four empty results (dmet.py:123-125), before anything else;
* `nbath` given: NotImplementedError (dmet.py:147-149);
* masks (dmet.py:160-162), the assertion on their sizes (dmet.py:168) and the selected columns (dmet.py:169-175). -/
def makeDmetBath (tol : K) (nbath : Option Nat) (env : List (K × C)) : Except PyErr (BathResult K C) :=
  if env.length = 0 then .ok ⟨[], [], [], []⟩
  else
    let cEnv := env.reverse
    if nbath.isSome then .error .notImplementedError
    else
      let bath := cEnv.filter fun x => decide (tol ≤ x.1) && decide (x.1 ≤ 1 - tol)
      let occEnv := cEnv.filter fun x => decide (1 - tol < x.1)
      let virEnv := cEnv.filter fun x => decide (x.1 < tol)
      if bath.length + occEnv.length + virEnv.length = cEnv.length then
        .ok ⟨bath.map (·.2), bath.map (·.1), occEnv.map (·.2), virEnv.map (·.2)⟩
      else .error .assertionError

end Masks

section Matrices
open Matrix
variable {ao fr en m : Type} [Fintype ao] [Fintype fr] [Fintype en] [Fintype m]

/-- The density matrix in a set of orbitals: `sc = dot(ovlp, c); dm = dot(sc.T, dm1, sc)` (dmet.py:130-133, fragment.py:565-566). -/
def dmIn (S γ : Matrix ao ao ℝ) (c : Matrix ao m ℝ) : Matrix m m ℝ :=
  let sc := S * c
  scᵀ * γ * sc

/-- `dm_env` (dmet.py:133): the environment block divided by two. -/
noncomputable def dmEnv (S γ : Matrix ao ao ℝ) (cEnv : Matrix ao en ℝ) : Matrix en en ℝ := (1 / 2 : ℝ) • dmIn S γ cEnv

/-- The bath mask (dmet.py:160). -/
def IsBath (tol e : ℝ) : Prop := tol ≤ e ∧ e ≤ 1 - tol

/-- `hstack(c_frag, c_bath)` (dmet.py:47 and fragment.py:564), with `c_bath = c_env[:, mask_bath]` after rotation
`c_env = dot(c_env, r)` (dmet.py:144,169). -/
def clusterCoeff (cFrag : Matrix ao fr ℝ) (cEnv : Matrix ao en ℝ) (r : Matrix en en ℝ) (e : en → ℝ) (tol : ℝ) :
    Matrix ao (fr ⊕ {i : en // IsBath tol (e i)}) ℝ :=
  fromCols cFrag ((cEnv * r).submatrix id Subtype.val)

/-- Number of occupied cluster orbitals, `count_nonzero(e >= norm/2)` with `norm = 2` (fragment.py:573). -/
noncomputable def nocc (w : m → ℝ) : Nat :=
  open scoped Classical in (Finset.univ.filter fun i => (2 : ℝ) / 2 ≤ w i).card

/-- `get_cluster_electrons` (dmet.py:25-27). -/
noncomputable def clusterElectrons (w : m → ℝ) : Nat := 2 * nocc w

end Matrices
end Vayesta.DmetBath
