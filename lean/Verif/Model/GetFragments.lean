import Verif.Model.Blocks

/-! Model of the fragment queries in `vayesta/core/qemb/qemb.py:1050-1164`. -/

namespace Vayesta.Frags

/-- A filter value: a callable, or a list of admissible values (`np.atleast_1d`). -/
inductive Filt (V : Type)
  | pred (p : V → Bool)
  | values (vs : List V)

variable {F V : Type} [DecidableEq V]

/-- `_skip` (qemb.py:1131-1134). -/
def skipAttr (attr : V) : Filt V → Bool
  | .pred p => !p attr
  | .values vs => !(vs.contains attr)

/-- One of the three checking loops (qemb.py:1140-1144, 1148-1152, 1154-1158): `skip` is the value of the variable before the
loop; a missing attribute raises `AttributeError`. -/
def checkLoop (get : String → Option V) (skip : Bool) : List (String × Filt V) → Except PyErr Bool
  | [] => .ok skip
  | (key, filt) :: l =>
    match get key with
    | none => .error .attributeError
    | some attr => if skipAttr attr filt then .ok true else checkLoop get false l

/-- How a fragment answers the three kinds of attribute lookups: `getattr(frag, key)`, `getattr_recursive(frag.opts, key)`,
`getattr_recursive(frag.flags, key)`. -/
structure Lookup (F V : Type) where
  attr : F → String → Option V
  opt : F → String → Option V
  flag : F → String → Option V

/-- The body of the loop over fragments (qemb.py:1137-1161): `true` means the fragment is skipped. There is no
`if skip: continue` between the options loop and the flags loop. -/
def skipFragment (L : Lookup F V) (filters options flags : List (String × Filt V)) (frag : F) : Except PyErr Bool :=
  match checkLoop (L.attr frag) false filters with
  | .error e => .error e
  | .ok true => .ok true
  | .ok false =>
    match checkLoop (L.opt frag) false options with
    | .error e => .error e
    | .ok skip => checkLoop (L.flag frag) skip flags

/-- The loop over fragments. -/
def filterLoop (L : Lookup F V) (filters options flags : List (String × Filt V)) : List F → Except PyErr (List F)
  | [] => .ok []
  | f :: fs =>
    match skipFragment L filters options flags f with
    | .error e => .error e
    | .ok skip =>
      match filterLoop L filters options flags fs with
      | .error e => .error e
      | .ok l => .ok (if skip then l else f :: l)

/-- `Embedding.get_fragments` (qemb.py:1095-1164). -/
def getFragments (L : Lookup F V) (fragments : List F) (filters options flags : List (String × Filt V)) :
    Except PyErr (List F) :=
  if filters.isEmpty && options.isEmpty && flags.isEmpty then .ok fragments
  else filterLoop L filters options flags fragments

/-- A fragment as seen by the symmetry queries: its id and the id of its symmetry parent. -/
structure SFrag where
  id : Int
  symParent : Option Int
  deriving DecidableEq, Repr

/-- `get_symmetry_parent_fragments` (qemb.py:1050-1062). -/
def symmetryParents (fs : List SFrag) : List SFrag := fs.filter fun f => f.symParent.isNone

/-- `children[idx].append(f)`. -/
def appendAt : List (List SFrag) → Nat → SFrag → List (List SFrag)
  | [], _, _ => []
  | c :: cs, 0, f => (c ++ [f]) :: cs
  | c :: cs, i + 1, f => c :: appendAt cs i f

/-- The loop of `get_symmetry_child_fragments` (qemb.py:1085-1092), with its assertion. -/
def childLoop (parentIds : List Int) (children : List (List SFrag)) : List SFrag → Except PyErr (List (List SFrag))
  | [] => .ok children
  | f :: fs =>
    match f.symParent with
    | none => childLoop parentIds children fs
    | some pid =>
      if pid ∈ parentIds then childLoop parentIds (appendAt children (parentIds.idxOf pid) f) fs
      else .error .assertionError

/-- `get_symmetry_child_fragments` (qemb.py:1064-1093). -/
def symmetryChildren (fs : List SFrag) (includeParents : Bool) : Except PyErr (List (List SFrag)) :=
  let parents := symmetryParents fs
  let children := parents.map fun p => if includeParents then [p] else []
  childLoop (parents.map (·.id)) children fs

end Vayesta.Frags
