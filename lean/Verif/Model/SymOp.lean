import Verif.Model.Blocks
import Mathlib.Algebra.Order.Field.Basic
import Mathlib.Algebra.BigOperators.Fin

/-! Model of symmetry operations (`vayesta/core/symmetry/operation.py`, `group.py`, `tsymmetry.py`): the atom and orbital reordering they
find, and their action on orbital coefficients. Arithmetic is exact; distances are compared through their squares. Within an atom the
orbitals are ordered by its basis (a list of shells), as in pyscf, and angular functions are spherical. -/

namespace Vayesta.SymOp

variable {K : Type} [Field K] [LinearOrder K]

/-- Points. -/
abbrev Pt (K : Type) := Fin 3 → K

/-- Squared length. -/
def norm2 (p : Pt K) : K := p 0 * p 0 + p 1 * p 1 + p 2 * p 2

/-- Shells of a basis: angular momentum and number of contracted functions, each with `2 l + 1` components. -/
abbrev Shells := List (Nat × Nat)

/-- Number of orbitals of a list of shells. -/
def size (s : Shells) : Nat := (s.map fun x => x.2 * (2 * x.1 + 1)).sum

/-- An atom: `atom_symbol`, `atom_pure_symbol` and coordinates. -/
structure Atom (K : Type) where
  symbol : String
  pure : String
  coord : Pt K

/-- Molecule: atoms and `_basis[symbol]`. -/
structure Mol (K : Type) where
  atoms : List (Atom K)
  basis : String → Shells

def Mol.natm (m : Mol K) : Nat := m.atoms.length
/-- Basis of atom `i`. -/
def Mol.shells (m : Mol K) (i : Nat) : Shells := ((m.atoms[i]?).map fun a => m.basis a.symbol).getD []
/-- Number of orbitals of atom `i`, and of the atoms before atom `i` (`aoslice_by_atom`). -/
def Mol.count (m : Mol K) (i : Nat) : Nat := size (m.shells i)
def Mol.offset (m : Mol K) (i : Nat) : Nat := ((List.range i).map m.count).sum
def Mol.nao (m : Mol K) : Nat := m.offset m.natm

/-- `SymmetryGroup.__init__` options (group.py:11-16). -/
structure Opts (K : Type) where
  xtol : K
  checkBasis : Bool := true
  checkLabel : Bool := false

/-- `compare_atoms` (group.py:30-48). -/
def compareAtoms (m : Mol K) (o : Opts K) (i j : Nat) : Bool :=
  match m.atoms[i]?, m.atoms[j]? with
  | some a, some b =>
    let t1 := if o.checkLabel then a.symbol else a.pure
    let t2 := if o.checkLabel then b.symbol else b.pure
    if t1 ≠ t2 then false else if o.checkBasis = false then true else m.basis a.symbol == m.basis b.symbol
  | _, _ => false

/-- `np.argmin` with the minimum: the first smallest element after position `k`, `best` at `i` so far. -/
def argminFrom (best : K) (i k : Nat) : List K → Nat × K
  | [] => (i, best)
  | x :: xs => if x < best then argminFrom x k (k + 1) xs else argminFrom best i (k + 1) xs
/-- `np.argmin`; raises for an empty array (`none`). -/
def argmin : List K → Option (Nat × K)
  | [] => none
  | x :: xs => some (argminFrom x 0 1 xs)

/-- `get_closest_atom` (group.py:50-54) with the squared distance. -/
def closest (pts : List (Pt K)) (r : Pt K) : Option (Nat × K) := argmin (pts.map fun c => norm2 (c - r))

/-! ### Atom reordering of point-group operations -/

/-- `np.full(n, -1)`: `none` stands for `-1`. -/
abbrev Arr := Nat → Option Nat
def Arr.empty : Arr := fun _ => none
/-- `a[i] = v`. -/
def Arr.set (a : Arr) (i v : Nat) : Arr := fun j => if j = i then some v else a j
/-- `not np.any(a == -1)`. -/
def Arr.full (n : Nat) (a : Arr) : Bool := (List.range n).all fun i => (a i).isSome
/-- `np.all(np.arange(n)[reorder][inverse] == np.arange(n))`. -/
def Arr.undone (n : Nat) (reorder inverse : Arr) : Bool := (List.range n).all fun i => (inverse i).bind reorder == some i

/-- Partner of atom `i` (operation.py:77-93): the closest atom to the image, if close enough and of the same kind. -/
def pointPartner (m : Mol K) (o : Opts K) (f : Pt K → Pt K) (i : Nat) : Option Nat :=
  match m.atoms[i]? with
  | none => none
  | some a =>
    match closest (m.atoms.map Atom.coord) (f a.coord) with
    | none => none
    | some (j, d) => if o.xtol ^ 2 < d then none else if compareAtoms m o i j = false then none else some j

/-- One pass of the loop in `assign` (operation.py:77-96). -/
def assignStep (partner : Nat → Option Nat) (s : Bool × Arr × Arr) (i : Nat) : Bool × Arr × Arr :=
  match partner i with
  | none => (false, s.2)
  | some j => (s.1, s.2.1.set j i, s.2.2.set i j)

/-- `SymmetryOperation.get_atom_reorder` (operation.py:61-104). -/
def atomReorder (m : Mol K) (o : Opts K) (f : Pt K → Pt K) : Except PyErr (Option (Arr × Arr)) :=
  let s := (List.range m.natm).foldl (assignStep (pointPartner m o f)) (true, Arr.empty, Arr.empty)
  if s.1 = false then .ok none
  else if s.2.1.full m.natm = false ∨ s.2.2.full m.natm = false ∨ Arr.undone m.natm s.2.1 s.2.2 = false then .error .assertionError
  else .ok (some s.2)

/-! ### Orbital reordering -/

/-- `a[s:s+len] = [t, ..., t+len-1]`. -/
def Arr.setRange (a : Arr) (s len t : Nat) : Arr := fun i => if s ≤ i ∧ i < s + len then some (t + (i - s)) else a i

/-- One pass of the loop of `get_ao_reorder` (operation.py:112-117): `aos0[0]` of an atom without orbitals raises IndexError, different
numbers of orbitals ValueError. -/
def aoStep (m : Mol K) (r : Arr) (s : Arr × Arr) (i : Nat) : Except PyErr (Arr × Arr) :=
  match r i with
  | none => .error .indexError
  | some j =>
    if m.count i = 0 then .error .indexError
    else if m.count i ≠ m.count j then .error .valueError
    else .ok (s.1.setRange (m.offset i) (m.count i) (m.offset j), s.2.setRange (m.offset j) (m.count j) (m.offset i))

/-- `get_ao_reorder` (operation.py:106-121). -/
def aoReorder (m : Mol K) (r : Arr) : Except PyErr (Arr × Arr) :=
  match (List.range m.natm).foldlM (m := Except PyErr) (fun (s : Arr × Arr) (i : Nat) => aoStep m r s i) (Arr.empty, Arr.empty) with
  | .error e => .error e
  | .ok s =>
    if s.1.full m.nao = false ∨ s.2.full m.nao = false ∨ Arr.undone m.nao s.1 s.2 = false then .error .assertionError else .ok s

/-- Constructors of inversion, reflection and rotation (operation.py:165-169, 189-193, 229-233): the orbital reordering. -/
def construct (m : Mol K) (o : Opts K) (f : Pt K → Pt K) : Except PyErr Arr :=
  match atomReorder m o f with
  | .error e => .error e
  | .ok none => .error .runtimeError
  | .ok (some (r, _)) => (aoReorder m r).map Prod.fst

/-! ### Action on orbital coefficients -/

/-- `a[reorder]` along the first axis, for one element of the remaining axes. -/
def take (r : Arr) (a : Nat → K) : Nat → K := fun i => match r i with | some j => a j | none => 0

/-- `einsum("x...,xy->y...", a[shell], rot)` for all shells beginning at `start` (operation.py:123-148); shells with `l = 0` are left as
they are. -/
def rotateFrom (rot : Nat → Nat → Nat → K) (start : Nat) : Shells → (Nat → K) → Nat → K
  | [], a, i => a i
  | (l, c) :: rest, a, i =>
    if start ≤ i ∧ i < start + c * (2 * l + 1) then
      if l = 0 then a i
      else
        let first := start + (i - start) / (2 * l + 1) * (2 * l + 1)
        ∑ x : Fin (2 * l + 1), a (first + x) * rot l x ((i - start) % (2 * l + 1))
    else rotateFrom rot (start + c * (2 * l + 1)) rest a i

/-- Shells of all atoms, in order. -/
def Mol.allShells (m : Mol K) : Shells := (List.range m.natm).flatMap m.shells

/-- `__call__` of a point-group operation (operation.py:36-54, 171-224): reorder, then rotate within the shells. -/
def apply (m : Mol K) (r : Arr) (rot : Nat → Nat → Nat → K) (a : Nat → K) : Nat → K := rotateFrom rot 0 m.allShells (take r a)

/-- `apply_to_point` of the inversion (operation.py:174-175). -/
def invertPoint (center : Pt K) (r : Pt K) : Pt K := (2 : K) • center - r
/-- Angular matrices of the inversion, `(-1) ** l * np.eye(2 l + 1)` (operation.py:178). -/
def invertRot : Nat → Nat → Nat → K := fun l x y => if x = y then (-1) ^ l else 0
/-- `np.dot(x, y)`. -/
def dot3 (x y : Pt K) : K := x 0 * y 0 + x 1 * y 1 + x 2 * y 2
/-- `apply_to_point` of a reflection (operation.py:214-217); `axis` is normalised. -/
def reflectPoint (axis center r : Pt K) : Pt K := r - (2 * dot3 axis (r - center)) • axis
/-- Angular matrices of a reflection: those of the rotation by 180 degrees times `(-1) ** l` (operation.py:195-205). -/
def reflectRot (c2 : Nat → Nat → Nat → K) : Nat → Nat → Nat → K := fun l x y => (-1) ^ l * c2 l x y
/-- `apply_to_point` of a rotation (operation.py:244-246). -/
def rotatePoint (mat : Fin 3 → Fin 3 → K) (center r : Pt K) : Pt K := (fun i => ∑ j, mat i j * (r j - center j)) + center

/-! ### Translations -/

/-- Boundary condition per direction: one string, or a list of two or three (operation.py:261-266); lists of other lengths fail when
indexed and are not modelled. -/
inductive Boundary
  | one (s : String)
  | two (x y : String)
  | three (x y z : String)

/-- Normalised list. -/
def Boundary.list : Boundary → Fin 3 → String
  | .one s => ![s, s, s]
  | .two x y => ![x, y, "PBC"]
  | .three x y z => ![x, y, z]

/-- `1 if b.lower() == "pbc" else -1` (operation.py:299-301). -/
def boundaryPhase (b : Fin 3 → String) (d : Fin 3) : Int := if (b d).toLower = "pbc" then 1 else -1

/-- `itertools.product([0, -1, 1], repeat=3)`. -/
def allShifts : List (Fin 3 → Int) :=
  [0, -1, 1].flatMap fun x => [0, -1, 1].flatMap fun y => [0, -1, 1].map fun z => ![x, y, z]
/-- Shifts within the periodic dimensions (operation.py:332-337). -/
def shifts (dim : Nat) : List (Fin 3 → Int) :=
  allShifts.filter fun dr => !((dim == 1 || dim == 2) && dr 2 != 0) && !(dim == 1 && dr 1 != 0)

/-- `np.prod(self.boundary_phases[dr != 0])`. -/
def shiftPhase (b : Fin 3 → String) (dr : Fin 3 → Int) : Int := ∏ d, if dr d ≠ 0 then boundaryPhase b d else 1

/-- Shift as a vector. -/
def shiftPt (dr : Fin 3 → Int) : Pt K := fun d => dr d

/-- `get_atom_at` (operation.py:329-344). -/
def atomAt (pts : List (Pt K)) (xtol : K) (b : Fin 3 → String) (pos : Pt K) : List (Fin 3 → Int) → Option (Nat × Int)
  | [] => none
  | dr :: rest =>
    match argmin (pts.map fun c => norm2 (c + shiftPt dr - pos)) with
    | none => none
    | some (i, d) => if d < xtol ^ 2 then some (i, shiftPhase b dr) else atomAt pts xtol b pos rest

/-- A periodic system: the molecule with internal coordinates (those multiplied by the inverse lattice vectors), dimension and boundary
conditions. -/
structure Cell (K : Type) where
  mol : Mol K
  dim : Nat
  boundary : Boundary

/-- Partner and phase of atom `i` (operation.py:350-354). -/
def transPartner (c : Cell K) (o : Opts K) (v : Pt K) (i : Nat) : Option (Nat × Int) :=
  match c.mol.atoms[i]? with
  | none => none
  | some a =>
    match atomAt (c.mol.atoms.map Atom.coord) o.xtol c.boundary.list (a.coord + v) (shifts c.dim) with
    | none => none
    | some (j, p) => if compareAtoms c.mol o i j = false then none else some (j, p)

/-- The loop with early return (operation.py:349-357). -/
def transLoop (partner : Nat → Option (Nat × Int)) : List Nat → Arr × Arr × (Nat → Int) → Option (Arr × Arr × (Nat → Int))
  | [], s => some s
  | i :: rest, s =>
    match partner i with
    | none => none
    | some (j, p) => transLoop partner rest (s.1.set j i, s.2.1.set i j, fun k => if k = i then p else s.2.2 k)

/-- `SymmetryTranslation.get_atom_reorder` (operation.py:313-362); phases start from zero. -/
def transReorder (c : Cell K) (o : Opts K) (v : Pt K) : Except PyErr (Option (Arr × Arr × (Nat → Int))) :=
  match transLoop (transPartner c o v) (List.range c.mol.natm) (Arr.empty, Arr.empty, fun _ => 0) with
  | none => .ok none
  | some (r, inv, p) =>
    if r.full c.mol.natm = false ∨ inv.full c.mol.natm = false ∨ ((List.range c.mol.natm).all fun i => p i != 0) = false ∨
      Arr.undone c.mol.natm r inv = false then .error .assertionError
    else .ok (some (r, inv, p))

/-- Phases of the orbitals (operation.py:383-384): those of orbitals of atom `i` are the phase of atom `r[i]`. -/
def aoPhases (m : Mol K) (r : Arr) (p : Nat → Int) : Nat → Int := fun x =>
  (List.range m.natm).foldl (fun acc i => if m.offset i ≤ x ∧ x < m.offset i + m.count i then (match r i with | some j => p j | none => 0) else acc) 0

/-- `SymmetryTranslation.__init__` (operation.py:254-279): orbital reordering and phases. -/
def translation (c : Cell K) (o : Opts K) (v : Pt K) : Except PyErr (Arr × (Nat → Int)) :=
  match transReorder c o v with
  | .error e => .error e
  | .ok none => .error .assertionError
  | .ok (some (r, _, p)) =>
    match aoReorder c.mol r with
    | .error e => .error e
    | .ok (ao, _) =>
      let ph := aoPhases c.mol r p
      if ((List.range c.mol.nao).all fun x => ph x != 0) = false then .error .assertionError else .ok (ao, ph)

/-- `__call__` of a translation (operation.py:36-54, 284-287). -/
def translate (t : Arr × (Nat → Int)) (a : Nat → K) : Nat → K := fun i => take t.1 a i * (t.2 i : K)

/-! ### Inverse of a translation -/

/-- First argument of a constructor: a symmetry group, or a molecule. A molecule has neither an attribute `mol` nor `natom`. -/
inductive GroupArg (K : Type)
  | group (c : Cell K) (o : Opts K)
  | mol (m : Mol K)

/-- `self.mol`, the attribute `mol` of the first argument (operation.py:21-22). -/
def GroupArg.getMol : GroupArg K → Except PyErr (Mol K)
  | .group c _ => .ok c.mol
  | .mol _ => .error .attributeError

/-- `np.argsort` of a permutation of `0, ..., n-1`. -/
def argsort (n : Nat) (r : Arr) : Arr := fun k => (List.range n).find? fun i => r i == some k

/-- `SymmetryTranslation.__init__` (operation.py:255-279) with a boundary and, optionally, an atom reordering; without the latter the first
argument has to be a group. -/
def translationInit (g : GroupArg K) (v : Pt K) (atomReorder : Option Arr) : Except PyErr (Arr × Option (Nat → Int)) :=
  match atomReorder, g with
  | none, .group c o => (translation c o v).map fun t => (t.1, some t.2)
  | none, .mol _ => .error .attributeError
  | some r, g =>
    match g.getMol with
    | .error e => .error e
    | .ok m => (aoReorder m r).map fun s => (s.1, none)

/-- `SymmetryTranslation.inverse` (operation.py:289-290): the molecule is passed in place of the group. -/
def translationInverse (c : Cell K) (v : Pt K) (r : Arr) : Except PyErr (Arr × Option (Nat → Int)) :=
  translationInit (.mol c.mol) (-v) (some (argsort c.mol.natm r))

/-- `call_kernel` (operation.py:284-287) after the reordering; without phases only the reordering. -/
def translateWith (t : Arr × Option (Nat → Int)) (a : Nat → K) : Nat → K :=
  match t.2 with
  | none => take t.1 a
  | some p => translate (t.1, p) a

end Vayesta.SymOp
