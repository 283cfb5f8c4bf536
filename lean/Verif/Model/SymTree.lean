import Verif.Model.Blocks

/-! Model of the symmetry tree of fragments (`vayesta/core/qemb/fragment.py:722-820`). -/

namespace Vayesta.SymTree

/-- A fragment: only the id, the id of the symmetry parent and whether it contributes. -/
structure Frag where
  id : Nat
  parent : Option Nat
  contributes : Bool := true
  deriving DecidableEq, Repr

/-- `self.base.get_fragments(fragments, sym_parent=x)`; objects are compared by identity, which is the id here. -/
def directChildren (fs : List Frag) (x : Frag) : List Frag := fs.filter fun f => f.parent = some x.id

/-- The loop over further generations (fragment.py:741-748). -/
def genLoop (fs : List Frag) : Nat → List Frag → List (List Frag)
  | 0, _ => []
  | n + 1, last =>
    let newgen := last.flatMap (directChildren fs)
    if newgen.isEmpty then [] else newgen :: genLoop fs n newgen

/-- `Fragment.get_symmetry_generations` (fragment.py:732-749); `fs` are the fragments left by the filters; `maxgen or 1000` generations
at most. -/
def generations (fs : List Frag) (maxgen : Option Nat) (x : Frag) : List (List Frag) :=
  if maxgen = some 0 then []
  else
    let lastgen := directChildren fs x
    lastgen :: genLoop fs (maxgen.getD 1000 - 1) lastgen

/-- `Fragment.get_symmetry_children` (fragment.py:751-755). -/
def symmetryChildren (fs : List Frag) (maxgen : Option Nat) (x : Frag) : List Frag := (generations fs maxgen x).flatten

/-- `Fragment.n_symmetry_children`, `Fragment.symmetry_factor` (fragment.py:812-820). -/
def symmetryFactor (fs : List Frag) (x : Frag) : Nat := (symmetryChildren fs none x).length + 1

/-- `Fragment.get_symmetry_parent` (fragment.py:722-725); `n` bounds the recursion depth. -/
def symmetryParent (fs : List Frag) : Nat → Frag → Option Frag
  | 0, _ => none
  | n + 1, x =>
    match x.parent with
    | none => some x
    | some p => (fs.find? fun f => f.id = p).bind (symmetryParent fs n)

/-- A symmetry tree: `(x, [children of x])`. -/
inductive Tree
  | node (x : Frag) (children : List Tree)

/-- `Fragment.get_symmetry_tree` (fragment.py:757-771) with `maxgen` given; the children are those of one generation. -/
def tree (fs : List Frag) : Nat → Frag → List Tree
  | 0, _ => []
  | n + 1, x => (symmetryChildren fs (some 1) x).map fun y => .node y (tree fs n y)

/-- The loop of `Fragment.loop_symmetry_children` over the tree (fragment.py:803-811), with `op y` the symmetry operation of `y`:
the arrays of a fragment are those of its parent, transformed. -/
def treeLoop {A : Type} (op : Frag → A → A) : Nat → List Tree → A → List (Frag × A)
  | 0, _, _ => []
  | n + 1, ts, a => ts.flatMap fun t =>
    match t with
    | .node y grandchildren => (y, op y a) :: (if grandchildren.isEmpty then [] else treeLoop op n grandchildren (op y a))

/-- `Fragment.loop_symmetry_children` (fragment.py:773-811): the generated list. The number of arrays and the axes are not
modelled. -/
def loopSymmetryChildren {A : Type} (fs : List Frag) (op : Frag → A → A) (maxgen : Option Nat) (includeSelf : Bool) (x : Frag) (a : A) :
    List (Frag × A) :=
  (if includeSelf then [(x, a)] else []) ++
    (if maxgen = some 0 then [] else treeLoop op (maxgen.getD 1000) (tree fs 1000 x) a)

/-- The energy sums of `ewf.py:333-349` without MPI: contributing fragments without parent, weighted with their symmetry factor. -/
def weightedSum {K : Type} [Add K] [Zero K] [Mul K] [NatCast K] (fs : List Frag) (e : Frag → K) : K :=
  ((fs.filter fun f => f.contributes ∧ f.parent = none).map fun x => (symmetryFactor fs x : K) * e x).sum

end Vayesta.SymTree
