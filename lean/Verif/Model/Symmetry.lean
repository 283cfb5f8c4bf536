/-! Model of symmetry-related fragments: contexts of `vayesta/core/fragmentation/fragmentation.py:173-242`,
`create_symmetric_fragments` of `vayesta/core/qemb/qemb.py:805-974` and the traversals of
`vayesta/core/qemb/fragment.py:722-820`.

Simplifications: a fragment is its id, the id of its symmetry parent and its symmetry operation (`O` is any type of
operations). The overlap and mean-field checks (which raise) are assumed to pass. The three kinds of contexts differ only in
their list of operations (inversion and reflection: one; rotation of order n: n-1; translation: n0*n1*n2-1). -/

namespace Vayesta.Sym

structure Frag (O : Type) where
  id : Nat
  parent : Option Nat
  op : Option O
  deriving DecidableEq, Repr

variable {O : Type}

/-- Inner loop `for flist in ftree` (qemb.py:904-972): one new fragment per tree entry, appended to it; ids come from the
register in this order. -/
def symRound (next : Nat) (op : O) : List (List (Frag O)) → List (List (Frag O)) × Nat
  | [] => ([], next)
  | flist :: ftree =>
    match flist with
    | [] => let (t, n) := symRound next op ftree; ([] :: t, n)
    | parent :: rest =>
      let frag : Frag O := ⟨next, some parent.id, some op⟩
      let (t, n) := symRound (next + 1) op ftree
      ((parent :: rest ++ [frag]) :: t, n)

/-- Outer loop `for i, sym in enumerate(symlist)` (qemb.py:890). -/
def symRounds (next : Nat) : List O → List (List (Frag O)) → List (List (Frag O)) × Nat
  | [], ftree => (ftree, next)
  | op :: ops, ftree => let (t, n) := symRound next op ftree; symRounds n ops t

/-- `create_symmetric_fragments` (qemb.py:889-974): `ftree = [[fx] for fx in fragments]`, the loops, and
`[fx for flist in ftree for fx in flist[1:]]`. -/
def createSymmetric (next : Nat) (ops : List O) (fragments : List (Frag O)) : List (Frag O) × Nat :=
  let (t, n) := symRounds next ops (fragments.map fun f => [f])
  (t.flatMap List.tail, n)

/-- State of a fragmentation: the fragments added so far, the next id of the register, and `sym_register`, innermost context
first, with the operations of each open context. -/
structure State (O : Type) where
  fragments : List (Frag O) := []
  next : Nat := 0
  register : List (List O × List (Frag O)) := []

/-- Commands of a fragmentation script: adding a fragment, entering and leaving a symmetry context. -/
inductive Cmd (O : Type)
  | add
  | enter (ops : List O)
  | exit

/-- `_create_fragment` (fragmentation.py:173-194) and the context managers (fragmentation.py:198-242). Leaving a context that is
not open cannot happen in Python; it is a no-op here. -/
def step (s : State O) : Cmd O → State O
  | .add =>
    let f : Frag O := ⟨s.next, none, none⟩
    { fragments := s.fragments ++ [f], next := s.next + 1, register := s.register.map fun x => (x.1, x.2 ++ [f]) }
  | .enter ops => { s with register := (ops, []) :: s.register }
  | .exit =>
    match s.register with
    | [] => s
    | (ops, fragments) :: register =>
      let (new, next) := createSymmetric s.next ops fragments
      { fragments := s.fragments ++ new, next := next, register := register.map fun x => (x.1, x.2 ++ new) }

def run (cmds : List (Cmd O)) : State O := cmds.foldl step {}

/-- `self.base.get_fragments(fragments, sym_parent=fx)` (fragment.py:738, 744): the direct children, in order. -/
def children (fs : List (Frag O)) (p : Frag O) : List (Frag O) := fs.filter fun f => f.parent = some p.id

/-- `loop_symmetry_children` (fragment.py:772-810) on the tree built by `get_symmetry_tree` (fragment.py:757-770), for one array.
The tree is not materialised: the loop asks for the children directly. `maxgen` is the number of generations (1000 by default). -/
def loopChildren {A : Type} (act : O → A → A) (fs : List (Frag O)) : Nat → Frag O → A → List (Frag O × A)
  | 0, _, _ => []
  | maxgen + 1, f, arr =>
    (children fs f).flatMap fun c =>
      let x := match c.op with
        | some op => act op arr
        | none => arr
      (c, x) :: loopChildren act fs maxgen c x

/-- The loop over generations in `get_symmetry_generations` (fragment.py:742-749), from the last generation. -/
def generationsLoop (fs : List (Frag O)) : Nat → List (Frag O) → List (List (Frag O))
  | 0, _ => []
  | n + 1, lastgen =>
    let newgen := lastgen.flatMap (children fs)
    if newgen.isEmpty then [] else newgen :: generationsLoop fs n newgen

/-- `get_symmetry_generations` (fragment.py:732-749) for `maxgen=None` (at most 1000 generations). -/
def generations (fs : List (Frag O)) (f : Frag O) : List (List (Frag O)) :=
  children fs f :: generationsLoop fs 999 (children fs f)

/-- `get_symmetry_children` (fragment.py:751-755). -/
def symmetryChildren (fs : List (Frag O)) (f : Frag O) : List (Frag O) := (generations fs f).flatten

/-- `symmetry_factor` (fragment.py:812-820). -/
def symmetryFactor (fs : List (Frag O)) (f : Frag O) : Nat := (symmetryChildren fs f).length + 1

/-- `get_symmetry_parent` (fragment.py:722-725), with fuel for the recursion along parents. -/
def symmetryParent (fs : List (Frag O)) : Nat → Frag O → Option (Frag O)
  | 0, _ => none
  | n + 1, f =>
    match f.parent with
    | none => some f
    | some p => match fs.find? (fun g => g.id = p) with
      | none => none
      | some g => symmetryParent fs n g

end Vayesta.Sym
