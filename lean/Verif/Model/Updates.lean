import Verif.Model.Blocks
import Mathlib.Algebra.Ring.Defs

/-! Model of `vayesta/dmet/updates.py`: flattening of nested lists of arrays and the linear mixing update. Exact arithmetic; an
array is its shape and its elements in C order. -/

namespace Vayesta.Updates

/-- A nested list of arrays. -/
inductive Params (K : Type)
  | arr (shape : List Nat) (data : List K)
  | node (xs : List (Params K))

/-- A nested list of shapes, as built by `get_shape` (updates.py:12-13): a tuple of integers or a list. -/
inductive Shape
  | dims (ds : List Nat)
  | list (xs : List Shape)

/-- `np.prod(shape)`. -/
def prod (ds : List Nat) : Nat := ds.foldr (· * ·) 1

section
variable {K : Type}

mutual
/-- `get_shape` (updates.py:12-13) of one entry. -/
def shapeOf : Params K → Shape
  | .arr ds _ => .dims ds
  | .node xs => .list (shapesOf xs)
/-- `get_shape` of a list. -/
def shapesOf : List (Params K) → List Shape
  | [] => []
  | x :: xs => shapeOf x :: shapesOf xs
end

mutual
/-- `get_flat` (updates.py:15-16) of one entry; `np.concatenate` of an empty list raises ValueError. -/
def flat : Params K → Except PyErr (List K)
  | .arr _ d => .ok d
  | .node [] => .error .valueError
  | .node (x :: xs) => flats (x :: xs)
/-- The pieces of a list, concatenated. -/
def flats : List (Params K) → Except PyErr (List K)
  | [] => .ok []
  | x :: xs =>
    match flat x with
    | .error e => .error e
    | .ok a =>
      match flats xs with
      | .error e => .error e
      | .ok b => .ok (a ++ b)
end

/-- Lists to traverse in `get_nonflat`: the result and the position after it. -/
abbrev Piece (K : Type) := Except PyErr (Params K × Nat)

mutual
/-- `get_nonflat` (updates.py:30-38). `type(shapes[0]) == int` decides between an array and a list; `shapes[0]` of an empty tuple or
list raises IndexError; `reshape` of a slice of the wrong length raises ValueError. -/
def nonflat (v : List K) : Shape → Nat → Piece K
  | .dims [], _ => .error .indexError
  | .dims (d :: ds), x =>
    let n := prod (d :: ds)
    let seg := (v.drop x).take n
    if seg.length = n then .ok (.arr (d :: ds) seg, x + n) else .error .valueError
  | .list [], _ => .error .indexError
  | .list (s :: ss), x =>
    match nonflats v (s :: ss) x with
    | .error e => .error e
    | .ok (l, x) => .ok (.node l, x)
/-- The loop over the entries of a list. -/
def nonflats (v : List K) : List Shape → Nat → Except PyErr (List (Params K) × Nat)
  | [], x => .ok ([], x)
  | s :: ss, x =>
    match nonflat v s x with
    | .error e => .error e
    | .ok (p, x) =>
      match nonflats v ss x with
      | .error e => .error e
      | .ok (ps, x) => .ok (p :: ps, x)
end

/-- `Update._unflatten_params` (updates.py:26-42); `params` is the flat vector. -/
def unflatten (shape : List Shape) (v : List K) : Except PyErr (List (Params K)) :=
  match nonflat v (.list shape) 0 with
  | .error e => .error e
  | .ok (.arr _ _, _) => .error .other
  | .ok (.node l, x) => if x = v.length then .ok l else .error .assertionError

/-- State of an updater: `param_shape` and `prev_params`, both unset at first (updates.py:6-9). -/
structure State (K : Type) where
  shape : List Shape
  prev : List K

variable [CommRing K]

/-- `Update._flatten_params` (updates.py:11-24): the shapes are stored by the first call only. `params` is a list (an array passed in
place of the outermost list is not modelled). -/
def flatten (st : Option (State K)) (params : List (Params K)) : Except PyErr (State K × List K) :=
  match flat (.node params) with
  | .error e => .error e
  | .ok v =>
    match st with
    | none => .ok (⟨shapesOf params, v.map fun _ => 0⟩, v)
    | some s => .ok (s, v)

/-- Broadcasting of two one-dimensional arrays. -/
def bcast (a b : List K) : Except PyErr (List K × List K) :=
  if a.length = b.length then .ok (a, b)
  else if a.length = 1 then .ok (b.map fun _ => a.getD 0 0, b)
  else if b.length = 1 then .ok (a, a.map fun _ => b.getD 0 0)
  else .error .valueError

/-- `MixUpdate.update` (updates.py:66-71): the nested list returned, the squared norm of the change (the code returns its square
root), and the new state. The state is kept if an earlier line raises; `prev_params` is already replaced when `_unflatten_params`
raises. -/
def mixUpdate (α : K) (st : Option (State K)) (params : List (Params K)) :
    Option (State K) × Except PyErr (List (Params K) × K) :=
  match flatten st params with
  | .error e => (st, .error e)
  | .ok (s, v) =>
    match bcast v s.prev with
    | .error e => (some s, .error e)
    | .ok (v', p') =>
      let diff := ((v'.zipWith (· - ·) p').map fun x => x * x).sum
      let upd := p'.zipWith (fun p x => (1 - α) * p + α * x) v'
      let s' : State K := ⟨s.shape, v⟩
      match unflatten s.shape upd with
      | .error e => (some s', .error e)
      | .ok r => (some s', .ok (r, diff))

/-- A sequence of updates. -/
def mixRun (α : K) : Option (State K) → List (List (Params K)) → Option (State K) × List (Except PyErr (List (Params K) × K))
  | st, [] => (st, [])
  | st, p :: ps =>
    let r := mixUpdate α st p
    let rest := mixRun α r.1 ps
    (rest.1, r.2 :: rest.2)

end

end Vayesta.Updates
