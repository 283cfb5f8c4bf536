import Verif.Model.SymOp
import Mathlib.Algebra.Order.Floor.Ring
import Mathlib.Algebra.Group.Int.Even

/-! Model of `vayesta/core/symmetry/tsymmetry.py`: boundary conditions of `reorder_atoms`, meshes of translation vectors, and
translationally equivalent atoms. Arithmetic is exact. -/

namespace Vayesta.TSym

open Vayesta.SymOp

/-! ### Boundary conditions of `reorder_atoms` -/

/-- Entry of a list of boundary conditions: a string, or a number put there by an earlier call. -/
inductive Entry
  | str (s : String)
  | int (n : Int)
  deriving DecidableEq

/-- Boundary conditions: one string, or a list object. -/
inductive Bnd
  | one (s : String)
  | list (l : List Entry)
  deriving DecidableEq

/-- Loop converting the names in place (tsymmetry.py:157-163): the list object afterwards, and the error if there is one. `"".upper` does not
exist for numbers. -/
def convert : List Nat → List Entry → List Entry × Option PyErr
  | [], l => (l, none)
  | d :: ds, l =>
    match l[d]? with
    | none => (l, some .indexError)
    | some (.int _) => (l, some .attributeError)
    | some (.str s) =>
      if s.toUpper = "PBC" then convert ds (l.set d (.int 1))
      else if s.toUpper = "APBC" then convert ds (l.set d (.int (-1)))
      else (l, some .valueError)

/-- Signs of the converted list (`np.asarray(boundary)`). -/
def signs (l : List Entry) : List Int := l.map fun e => match e with | .int n => n | .str _ => 0

/-- The list object on which the loop works (tsymmetry.py:141-144): new for a string and for two entries, otherwise the object itself. -/
def working : Bnd → List Entry × Bool
  | .one s => ([.str s, .str s, .str s], false)
  | .list [x, y] => ([x, y, .str "PBC"], false)
  | .list l => (l, true)

/-- One call with boundary object `b`: the object afterwards, and the signs used. -/
def convertBnd (b : Bnd) : Bnd × Except PyErr (List Int) :=
  let w := working b
  let r := convert [0, 1, 2] w.1
  (if w.2 then .list r.1 else b, match r.2 with | some e => .error e | none => .ok (signs r.1))

/-- Boundary conditions in a call of `reorder_atoms` (tsymmetry.py:136-164); `cell` is the attribute `boundary` of the cell, if it has one,
and `arg` the argument. Returns both after the call, and the signs used. -/
def reorderSigns (cell arg : Option Bnd) : Option Bnd × Option Bnd × Except PyErr (List Int) :=
  match arg, cell with
  | some b, _ => let r := convertBnd b; (cell, some r.1, r.2)
  | none, some b => let r := convertBnd b; (some r.1, none, r.2)
  | none, none => (none, none, (convertBnd (.one "PBC")).2)

/-- Several calls after each other on the same cell, without argument (`reorder_aos`): the signs used in each. -/
def repeatedSigns : Nat → Option Bnd → List (Except PyErr (List Int))
  | 0, _ => []
  | n + 1, cell => let r := reorderSigns cell none; r.2.2 :: repeatedSigns n r.1

/-! ### Meshes of translation vectors -/

variable {K : Type} [Field K] [LinearOrder K] [FloorRing K]

/-- `np.round`, `np.rint`: nearest integer, halves to the even one. -/
def rint (x : K) : Int :=
  if x - ⌊x⌋ < 1 / 2 then ⌊x⌋ else if 1 / 2 < x - ⌊x⌋ then ⌊x⌋ + 1 else if Even ⌊x⌋ then ⌊x⌋ else ⌊x⌋ + 1

/-- `get_mesh_tvecs` for three numbers (tsymmetry.py:20-23). -/
def meshFromCounts (rvecs : Fin 3 → Pt K) (mesh : Fin 3 → Int) : (Fin 3 → Int) × (Fin 3 → Pt K) :=
  (mesh, fun d => ((mesh d : K)⁻¹) • rvecs d)

/-- Number of cells in one direction (tsymmetry.py:31-34) from the lengths of lattice and translation vector: division by a length rounded
to zero gives infinity, `int` of which is an OverflowError (`other`). -/
def meshCount (tol rlen tlen : K) : Except PyErr Int :=
  if rint tlen = 0 then .error .other
  else
    let nd := rint (rlen / (rint tlen : K))
    if tol < |(nd : K) - ((nd : Int) : K)| then .error .valueError else .ok nd

/-- `get_mesh_tvecs` for three vectors (tsymmetry.py:24-34): zero vectors are replaced, then units are converted (factor `u`). `norm` is the
length of a vector. -/
def meshFromVectors (norm : Pt K → K) (tol u : K) (rvecs tvecs : Fin 3 → Pt K) : Except PyErr ((Fin 3 → Int) × (Fin 3 → Pt K)) :=
  let t : Fin 3 → Pt K := fun d => u • (if tvecs d = 0 then rvecs d else tvecs d)
  match meshCount tol (norm (rvecs 0)) (norm (t 0)) with
  | .error e => .error e
  | .ok n0 =>
    match meshCount tol (norm (rvecs 1)) (norm (t 1)) with
    | .error e => .error e
    | .ok n1 =>
      match meshCount tol (norm (rvecs 2)) (norm (t 2)) with
      | .error e => .error e
      | .ok n2 => .ok (![n0, n1, n2], t)

/-- `loop_tvecs` (tsymmetry.py:40-48): indices and vectors, in the order of the generator. -/
def loopTvecs (mesh : Fin 3 → Int) (tvecs : Fin 3 → Pt K) (includeOrigin : Bool) : List ((Nat × Nat × Nat) × Pt K) :=
  (List.range (mesh 2).toNat).flatMap fun dz => (List.range (mesh 1).toNat).flatMap fun dy => (List.range (mesh 0).toNat).flatMap fun dx =>
    if includeOrigin = false ∧ dx + dy + dz = 0 then []
    else [((dx, dy, dz), (dx : K) • tvecs 0 + (dy : K) • tvecs 1 + (dz : K) • tvecs 2)]

/-! ### Translationally equivalent atoms -/

/-- Position difference modulo lattice vectors, in internal coordinates (tsymmetry.py:95-96). -/
def reduced (d : Pt K) : Pt K := fun i => d i - (rint (d i) : K)

/-- Comparison of two atoms (tsymmetry.py:84-97). -/
def equivalent (m : Mol K) (xtol : K) (checkElement checkBasis : Bool) (i j : Nat) : Bool :=
  match m.atoms[i]?, m.atoms[j]? with
  | some a, some b =>
    if checkElement ∧ a.pure ≠ b.pure then false
    else if checkBasis ∧ m.basis a.symbol ≠ m.basis b.symbol then false
    else decide (norm2 (reduced (b.coord - a.coord)) < xtol ^ 2)
  | _, _ => false

/-- One atom of the loop of `tsymmetric_atoms` (tsymmetry.py:77-104); `order` is the order in which a set is iterated. -/
def tsymStep (order : List Nat → List Nat) (eq : Nat → Nat → Bool) (indices : List Nat) (i : Nat) : List Nat :=
  match (order indices).find? fun j => eq i j with
  | some j => indices ++ [j]
  | none => indices ++ [i]

/-- `tsymmetric_atoms` (tsymmetry.py:51-106); coordinates of `m` are internal ones. -/
def tsymmetricAtoms (order : List Nat → List Nat) (m : Mol K) (xtol : K) (checkElement checkBasis : Bool) : List Nat :=
  ((List.range (m.natm - 1)).map (· + 1)).foldl (tsymStep order (equivalent m xtol checkElement checkBasis)) [0]

end Vayesta.TSym
