import Verif.Model.OrbitalSign
import Mathlib.Data.Matrix.Basic
import Mathlib.Data.Matrix.ColumnRowPartitioned
import Mathlib.Data.Fintype.Card
import Mathlib.Data.Fintype.Sum

/-! Model of the orbitals of fragmentations: symmetric orthogonalisation (`vayesta/core/fragmentation/fragmentation.py:347-358`), symmetric
atomic orbitals (`sao.py`), intrinsic atomic orbitals with virtuals (`iao.py`) and with projected atomic orbitals (`iaopao.py`). Arithmetic
is exact; the eigenvalue solver and the square root are parameters. -/

namespace Vayesta.Lowdin

variable {K : Type} [Field K] [LinearOrder K]

/-- Result of `eigh`: eigenvalues and, as columns, eigenvectors. -/
structure Eig (n : Type) (K : Type) where
  val : n → K
  vec : Matrix n n K

/-- Sign of a column in `fix_orbital_sign` (util.py:713-727): minus one if its entry of largest magnitude is negative. -/
def colSign {n : Nat} {J : Type} (c : Matrix (Fin n) J K) (j : J) : K :=
  if OrbitalSign.swap ⟨n, 1, fun i _ => if h : i < n then c ⟨i, h⟩ j else 0⟩ 0 then -1 else 1

/-- `fix_orbital_sign(c)[0]`. -/
def fixSign {n : Nat} {J : Type} (c : Matrix (Fin n) J K) : Matrix (Fin n) J K := fun i j => c i j * colSign c j

/-- `x = dot(v / np.sqrt(e), v.T)` over the eigenvalues which are kept (fragmentation.py:354-356). -/
def invSqrt {n : Nat} (sqrt : K → K) (tol : K) (g : Eig (Fin n) K) : Matrix (Fin n) (Fin n) K := fun i j =>
  ∑ k, if tol ≤ g.val k then g.vec i k / sqrt (g.val k) * g.vec j k else 0

/-- `symmetric_orth` (fragmentation.py:347-358), the transformation only; the minimum of no eigenvalues raises ValueError. -/
def symmetricOrth {a n : Nat} (sqrt : K → K) (eigh : Matrix (Fin n) (Fin n) K → Eig (Fin n) K) (tol : K) (c : Matrix (Fin a) (Fin n) K)
    (s : Matrix (Fin a) (Fin a) K) : Except PyErr (Matrix (Fin n) (Fin n) K) :=
  if n = 0 then .error .valueError else .ok (fixSign (invSqrt sqrt tol (eigh (c.transpose * s * c))))

/-- `SAO_Fragmentation.get_coeff` (sao.py:10-22); `close` stands for `np.allclose`. -/
def saoCoeff {a : Nat} (sqrt : K → K) (eigh : Matrix (Fin a) (Fin a) K → Eig (Fin a) K) (tol : K) (close : Matrix (Fin a) (Fin a) K → Bool)
    (s : Matrix (Fin a) (Fin a) K) : Except PyErr (Matrix (Fin a) (Fin a) K) :=
  if close s then .ok 1 else symmetricOrth sqrt eigh tol 1 s

/-- Columns of the remaining space in `get_virtual_coeff` (iao.py:184): eigenvalues above one half. -/
abbrev Rest {m : Nat} (g : Eig (Fin m) K) := { k : Fin m // 1 / 2 < g.val k }

/-- `get_virtual_coeff` (iao.py:165-214): eigenvectors of the projector out of the intrinsic orbitals `c`, in the space of molecular orbitals
`mo`; RuntimeError if their number is wrong. -/
def virtualCoeff {a m n : Nat} (eigh : Matrix (Fin m) (Fin m) K → Eig (Fin m) K) (mo : Matrix (Fin a) (Fin m) K) (s : Matrix (Fin a) (Fin a) K)
    (c : Matrix (Fin a) (Fin n) K) :
    let cmo := mo.transpose * s * c
    let g := eigh (1 - cmo * cmo.transpose)
    Except PyErr (Matrix (Fin a) (Rest g) K) :=
  let cmo := mo.transpose * s * c
  let g := eigh (1 - cmo * cmo.transpose)
  if Fintype.card (Rest g) + n ≠ m then .error .runtimeError
  else .ok (fixSign (mo * Matrix.of fun i (k : Rest g) => g.vec i k.1))

/-- `IAO_Fragmentation.get_coeff` (iao.py:69-112) with virtual orbitals; `iao` are the orbitals from pyscf. -/
def iaoCoeff {a m n : Nat} (sqrt : K → K) (eigh : (d : Nat) → Matrix (Fin d) (Fin d) K → Eig (Fin d) K) (tol : K) (mo : Matrix (Fin a) (Fin m) K)
    (s : Matrix (Fin a) (Fin a) K) (iao : Matrix (Fin a) (Fin n) K) : Except PyErr (Σ J : Type, Matrix (Fin a) (Fin n ⊕ J) K) :=
  match symmetricOrth sqrt (eigh n) tol iao s with
  | .error e => .error e
  | .ok x =>
    match virtualCoeff (eigh m) mo s (iao * x) with
    | .error e => .error e
    | .ok v => .ok ⟨_, Matrix.fromCols (iao * x) v⟩

/-- `get_pao_coeff` (iaopao.py:26-58): the atomic orbitals `rydberg` projected out of the intrinsic orbitals and orthogonalised; RuntimeError if
the numbers of orbitals do not add up. Without such orbitals no matrix is built (`p = 0`). -/
def paoCoeff {a n p : Nat} (sqrt : K → K) (eigh : Matrix (Fin p) (Fin p) K → Eig (Fin p) K) (tol : K) (s : Matrix (Fin a) (Fin a) K)
    (c : Matrix (Fin a) (Fin n) K) (rydberg : Fin p → Fin a) : Except PyErr (Matrix (Fin a) (Fin p) K) :=
  if n + p ≠ a then .error .runtimeError
  else if p = 0 then .ok 0
  else
    let q := (1 - c * c.transpose * s) * Matrix.of fun i (k : Fin p) => if i = rydberg k then (1 : K) else 0
    (symmetricOrth sqrt eigh tol q s).map fun x => q * x

/-- `IAOPAO_Fragmentation.get_coeff` (iaopao.py:60-72), with the order of the columns; `nmo` is the number of molecular orbitals. -/
def iaopaoCoeff {a n p : Nat} (sqrt : K → K) (eigh : (d : Nat) → Matrix (Fin d) (Fin d) K → Eig (Fin d) K) (tol : K) (nmo : Nat)
    (s : Matrix (Fin a) (Fin a) K) (iao : Matrix (Fin a) (Fin n) K) (rydberg : Fin p → Fin a) (order : Fin (n + p) → Fin n ⊕ Fin p) :
    Except PyErr (Matrix (Fin a) (Fin (n + p)) K) :=
  match symmetricOrth sqrt (eigh n) tol iao s with
  | .error e => .error e
  | .ok x =>
    match paoCoeff sqrt (eigh p) tol s (iao * x) rydberg with
    | .error e => .error e
    | .ok v => if n + p ≠ nmo then .error .assertionError else .ok fun i j => Matrix.fromCols (iao * x) v i (order j)

/-- Order of the columns (iaopao.py:14-24): for each atomic orbital the first position of its label; ValueError if there is none,
AssertionError if the labels found are not those of the atomic orbitals. -/
def labelOrder {L : Type} [DecidableEq L] (labels aoLabels : List L) : Except PyErr (List Nat) :=
  match aoLabels.mapM (m := Except PyErr) fun l => if l ∈ labels then .ok (labels.idxOf l) else .error .valueError with
  | .error e => .error e
  | .ok order => if order.map (fun i => labels[i]?) ≠ aoLabels.map some then .error .assertionError else .ok order

end Vayesta.Lowdin
