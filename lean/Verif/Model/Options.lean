import Verif.Model.Blocks

/-! Model of `OptionsBase` (`vayesta/core/util.py:628-710`). -/

namespace Vayesta.Options

/-- An option value: a dictionary with string keys, or anything else. Dictionaries are association lists in insertion order. -/
inductive OptVal (α : Type)
  | scalar (a : α)
  | dict (d : List (String × α))
  deriving DecidableEq, Repr

/-- `d[key] = val` on a Python dictionary: overwrites in place, or appends a new key at the end. -/
def dictSet {β : Type} (d : List (String × β)) (key : String) (val : β) : List (String × β) :=
  match d with
  | [] => [(key, val)]
  | (k, v) :: d => if k = key then (key, val) :: d else (k, v) :: dictSet d key val

/-- `{**a, **b}` (util.py:687, 700). -/
def dictMerge {β : Type} (a b : List (String × β)) : List (String × β) :=
  b.foldl (fun d x => dictSet d x.1 x.2) a

/-- The new value of an option (util.py:683-689 and 698-702): merge if both are dictionaries, otherwise the given value. -/
def newValue {α : Type} (selfval val : OptVal α) : OptVal α :=
  match val, selfval with
  | .dict v, .dict s => .dict (dictMerge s v)
  | v, _ => v

/-- The key check of `replace` for dictionaries (util.py:684-686). -/
def dictKeysOk {α : Type} (selfval val : OptVal α) : Bool :=
  match val, selfval with
  | .dict v, .dict s => v.all fun x => (s.lookup x.1).isSome
  | _, _ => true

/-- `OptionsBase.replace` (util.py:676-690): the object after the call and the exception, if any. The options object is its
`__dict__`. -/
def replace {α : Type} (self : List (String × OptVal α)) :
    List (String × OptVal α) → List (String × OptVal α) × Option PyErr
  | [] => (self, none)
  | (key, val) :: kw =>
    match self.lookup key with
    | none => (self, some .typeError)
    | some selfval =>
      if dictKeysOk selfval val then replace (dictSet self key (newValue selfval val)) kw
      else (self, some .typeError)

/-- `OptionsBase.update` (util.py:692-703). -/
def update {α : Type} (self : List (String × OptVal α)) : List (String × OptVal α) → List (String × OptVal α)
  | [] => self
  | (key, val) :: kw =>
    match self.lookup key with
    | none => update self kw
    | some selfval => update (dictSet self key (newValue selfval val)) kw

/-- `OptionsBase.get` (util.py:640-646), for attributes held in `__dict__`. -/
def get {α : Type} (self : List (String × OptVal α)) (attr : String) (default : OptVal α) : OptVal α :=
  (self.lookup attr).getD default

end Vayesta.Options
