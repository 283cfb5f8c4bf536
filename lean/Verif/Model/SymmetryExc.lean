import Verif.Model.Symmetry

/-! Symmetry contexts with exceptions: `vayesta/core/fragmentation/fragmentation.py:198-242`. The context managers have no
`try/finally`, so when the body of a context raises, the lines after `yield` do not run. -/

namespace Vayesta.SymExc
open Vayesta.Sym

variable {O : Type}

/-- State as in `Sym.State`, with `sym_register` (innermost first) holding only the lists, as in the code; the operations of a
context live in its generator. -/
structure State (O : Type) where
  fragments : List (Frag O) := []
  next : Nat := 0
  register : List (List (Frag O)) := []
  deriving DecidableEq, Repr

/-- A script: adding fragments and `with` blocks. If `raises`, the body raises after its last command and the exception is caught
right outside of the block. -/
inductive Script (O : Type)
  | done
  | add (rest : Script O)
  | block (ops : List O) (body : Script O) (raises : Bool) (rest : Script O)

/-- `_create_fragment` (fragmentation.py:173-194), reduced to the bookkeeping. -/
def addFrag (s : State O) : State O :=
  let f : Frag O := ⟨s.next, none, none⟩
  { fragments := s.fragments ++ [f], next := s.next + 1, register := s.register.map (· ++ [f]) }

/-- The lines after `yield` (fragmentation.py:204-212 and the same lines of the other contexts). Popping an empty list raises
IndexError in Python; here a no-op (never reached, see `exec_register_length`). -/
def leave (ops : List O) (s : State O) : State O :=
  match s.register with
  | [] => s
  | frs :: register =>
    let (new, next) := createSymmetric s.next ops frs
    { fragments := s.fragments ++ new, next := next, register := register.map (· ++ new) }

/-- Execution of a script. -/
def exec : Script O → State O → State O
  | .done, s => s
  | .add rest, s => exec rest (addFrag s)
  | .block ops body raises rest, s =>
    let s' := exec body { s with register := [] :: s.register }
    exec rest (if raises then s' else leave ops s')

end Vayesta.SymExc
