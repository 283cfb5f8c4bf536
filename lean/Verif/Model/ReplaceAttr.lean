import Verif.Model.Blocks

/-! Model of `replace_attr` (`vayesta/core/util.py:569-584`). -/

namespace Vayesta.Attr

/-- A Python object: instance attributes shadow class attributes. `readonly` names cannot be assigned (`setattr` raises
`AttributeError`), e.g. properties without setter. -/
structure Obj (V : Type) where
  inst : String → Option V
  cls : String → Option V
  readonly : String → Bool

variable {V : Type}

/-- `getattr(obj, name)`. -/
def Obj.getattr (o : Obj V) (name : String) : Option V := (o.inst name).or (o.cls name)

/-- `setattr(obj, name, v)`: always writes the instance dictionary. -/
def Obj.setattr (o : Obj V) (name : String) (v : V) : Except PyErr (Obj V) :=
  if o.readonly name then .error .attributeError
  else .ok { o with inst := fun n => if n = name then some v else o.inst n }

/-- The assignments before the `yield` (util.py:572-579): the object, the saved originals in order, and an exception if one
occurred. `bind` models `attr.__get__(obj)` for callables and the identity otherwise. -/
def setup (bind : V → V) (o : Obj V) (orig : List (String × V)) :
    List (String × V) → Obj V × List (String × V) × Option PyErr
  | [] => (o, orig, none)
  | (name, attr) :: kw =>
    match o.getattr name with
    | none => (o, orig, some .attributeError)
    | some old =>
      match o.setattr name (bind attr) with
      | .error e => (o, orig ++ [(name, old)], some e)
      | .ok o' => setup bind o' (orig ++ [(name, old)]) kw

/-- The `finally` block (util.py:582-584). -/
def restore (o : Obj V) : List (String × V) → Obj V × Option PyErr
  | [] => (o, none)
  | (name, v) :: orig =>
    match o.setattr name v with
    | .error e => (o, some e)
    | .ok o' => restore o' orig

/-- `with replace_attr(obj, **kw): body` (util.py:569-584). The body may change the object arbitrarily and may raise.
Result: final object and exception. An exception raised in `finally` replaces the pending one. -/
def withReplaceAttr (bind : V → V) (o : Obj V) (kw : List (String × V)) (body : Obj V → Obj V × Option PyErr) :
    Obj V × Option PyErr :=
  let s := setup bind o [] kw
  let b := match s.2.2 with
    | some e => (s.1, some e)
    | none => body s.1
  let r := restore b.1 s.2.1
  (r.1, match r.2 with | some e => some e | none => b.2)

end Vayesta.Attr
