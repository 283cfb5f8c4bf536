import Verif.Model.Blocks
import Mathlib.Algebra.Order.Field.Basic

/-! Model of the checks in `create_symmetric_fragments` (`vayesta/core/qemb/qemb.py:805-974`): fragments are represented by their orbitals
(of any type `C`). The bookkeeping (ids, parents, order) is in `Verif/Model/Symmetry.lean`. -/

namespace Vayesta.SymImages

/-- Kinds of symmetry (qemb.py:854-881) with the numbers that matter here. -/
inductive Kind
  | inversion
  | reflection
  | rotation (order : Nat)
  | translation (n0 n1 n2 : Nat)

/-- `symlist` (qemb.py:858, 866, 874, 878): the images other than the fragment itself; one number for inversion, reflection and rotation,
written in the first component. -/
def symlist : Kind → List (Nat × Nat × Nat)
  | .inversion => [(1, 0, 0)]
  | .reflection => [(1, 0, 0)]
  | .rotation order => (List.range' 1 (order - 1)).map fun i => (i, 0, 0)
  | .translation n0 n1 n2 =>
    ((List.range n0).flatMap fun x => (List.range n1).flatMap fun y => (List.range n2).map fun z => (x, y, z)).tail

variable {K C : Type} [LinearOrder K]

/-- The tolerances, the largest overlap between two sets of orbitals, and the mean-field error between two fragments. -/
structure Checks (K C : Type) where
  tol : K
  overlap : C → C → K
  mfTol : K
  mfError : C → C → K
  checkMf : Bool

/-- One image (qemb.py:916-970): RuntimeError if it overlaps with the parent, or, for the first rotation and primitive translations, if the
mean-field differs. -/
def image (ck : Checks K C) (act : Nat × Nat × Nat → C → C) (sym : Nat × Nat × Nat) (parent : C) : Except PyErr C :=
  if ck.tol < ck.overlap parent (act sym parent) then .error .runtimeError
  else if ck.checkMf = true ∧ sym.1 + sym.2.1 + sym.2.2 = 1 ∧ ck.mfTol < ck.mfError parent (act sym parent) then .error .runtimeError
  else .ok (act sym parent)

/-- Inner loop over the lists of a parent and its images (qemb.py:904-972). -/
def round (ck : Checks K C) (act : Nat × Nat × Nat → C → C) (sym : Nat × Nat × Nat) : List (C × List C) → Except PyErr (List (C × List C))
  | [] => .ok []
  | (p, l) :: rest =>
    match image ck act sym p with
    | .error e => .error e
    | .ok c =>
      match round ck act sym rest with
      | .error e => .error e
      | .ok r => .ok ((p, l ++ [c]) :: r)

/-- Outer loop over the operations (qemb.py:890). -/
def rounds (ck : Checks K C) (act : Nat × Nat × Nat → C → C) : List (Nat × Nat × Nat) → List (C × List C) → Except PyErr (List (C × List C))
  | [], t => .ok t
  | s :: ss, t =>
    match round ck act s t with
    | .error e => .error e
    | .ok t' => rounds ck act ss t'

/-- `create_symmetric_fragments` (qemb.py:889-974): for each fragment its images. -/
def create (ck : Checks K C) (act : Nat × Nat × Nat → C → C) (k : Kind) (fragments : List C) : Except PyErr (List (C × List C)) :=
  rounds ck act (symlist k) (fragments.map fun f => (f, []))

end Vayesta.SymImages
