import Verif.Model.Blocks

/-! Model of `vayesta/mpi/rma.py`: the dictionary of arrays shared between MPI processes.

Processes are numbered `0 .. n-1`. Windows are written once, when they are created, so an element is modelled by its location and the
array in its window. Arrays are values (contiguity, data types and the sharing of arrays in the serial case are not modelled). -/

namespace Vayesta.Rma

variable {Key A : Type} [DecidableEq Key]

/-- Assignment to a Python dictionary. -/
def dictSet {V : Type} : List (Key × V) → Key → V → List (Key × V)
  | [], k, v => [(k, v)]
  | (k', v') :: d, k, v => if k' = k then (k, v) :: d else (k', v') :: dictSet d k v

/-- `dict.update`. -/
def dictUpdate {V : Type} (d : List (Key × V)) (new : List (Key × V)) : List (Key × V) :=
  new.foldl (fun d kv => dictSet d kv.1 kv.2) d

/-- `RMA_DictElement` (rma.py:24-109): rank and array; `None` values have no window. -/
structure Elem (A : Type) where
  location : Nat
  data : Option A

/-- State of one process (rma.py:10-14). -/
structure Rank (Key A : Type) where
  writable : Bool
  localData : List (Key × Option A)
  elements : List (Key × Elem A)

/-- A new dictionary. -/
def Rank.new : Rank Key A := ⟨false, [], []⟩

/-- Something one process does, or the collective end of a write phase. Values that are neither arrays nor `None` are `.bad`. -/
inductive Value (A : Type)
  | arr (a : Option A)
  | bad

inductive Event (Key A : Type)
  | enter (r : Nat)
  | set (r : Nat) (k : Key) (v : Value A)
  | get (r : Nat) (k : Key)
  | del (r : Nat) (k : Key)
  | clear (r : Nat)
  | sync

/-- Result of an event: an exception, nothing, or the value read. -/
abbrev Output (A : Type) := Except PyErr (Option (Option A))

/-- The state of all processes. -/
abbrev World (Key A : Type) := Nat → Rank Key A

/-- Replace the state of one process. -/
def World.put (w : World Key A) (r : Nat) (s : Rank Key A) : World Key A := fun i => if i = r then s else w i

/-- `self.mpi.world.allgather(mdata)` with the ranks, in the order of the two loops of `synchronize` (rma.py:212-216). -/
def gather (n : Nat) (w : World Key A) : List (Nat × Key × Option A) :=
  (List.range n).flatMap fun r => (w r).localData.map fun kv => (r, kv)

/-- The loops of `synchronize` (rma.py:214-225). -/
def build : List (Nat × Key × Option A) → List (Key × Elem A) → Except PyErr (List (Key × Elem A))
  | [], acc => .ok acc
  | (r, k, v) :: rest, acc =>
    if (acc.lookup k).isSome then .error .attributeError else build rest (acc ++ [(k, ⟨r, v⟩)])

/-- One event for `n > 1` processes.
* `enter` – `__enter__` (rma.py:150-152)
* `set` – `__setitem__` (rma.py:134-143)
* `get` – `__getitem__` (rma.py:115-132)
* `del` – `__delitem__` (rma.py:145-148)
* `clear` – `clear` (rma.py:158-162): windows of `None` elements cannot be freed (AttributeError on `self.win.Free()`); the windows
  freed before that are not modelled
* `sync` – `__exit__` of all processes (rma.py:154-156, 206-228): `synchronize` is collective -/
def step (n : Nat) (w : World Key A) : Event Key A → World Key A × Output A
  | .enter r => (w.put r { w r with writable := true }, .ok none)
  | .set r k v =>
    if (w r).writable = false then (w, .error .attributeError)
    else
      match v with
      | .bad => (w, .error .valueError)
      | .arr a => (w.put r { w r with localData := dictSet (w r).localData k a }, .ok none)
  | .get r k =>
    if (w r).writable = true then (w, .error .attributeError)
    else
      match (w r).elements.lookup k with
      | none => (w, .error .keyError)
      | some e => (w, .ok (some e.data))
  | .del r k =>
    if (w r).writable = false then (w, .error .attributeError)
    else if ((w r).elements.lookup k).isNone then (w, .error .keyError)
    else (w.put r { w r with elements := (w r).elements.filter fun e => e.1 ≠ k }, .ok none)
  | .clear r =>
    if (w r).writable = true then (w, .error .runtimeError)
    else if (w r).elements.all (fun e => e.2.data.isSome) = false then (w, .error .attributeError)
    else (w.put r { w r with elements := [] }, .ok none)
  | .sync =>
    match build (gather n w) [] with
    | .error e => (fun r => { w r with writable := false }, .error e)
    | .ok new => (fun r => ⟨false, [], dictUpdate (w r).elements new⟩, .ok none)

/-- One event without MPI (one process): values are stored at once and `synchronize` does nothing (rma.py:140-142, 208-209). -/
def serialStep (s : Rank Key A) : Event Key A → Rank Key A × Output A
  | .enter _ => ({ s with writable := true }, .ok none)
  | .set _ k v =>
    if s.writable = false then (s, .error .attributeError)
    else
      match v with
      | .bad => (s, .error .valueError)
      | .arr a => ({ s with elements := dictSet s.elements k ⟨0, a⟩ }, .ok none)
  | .get _ k =>
    if s.writable = true then (s, .error .attributeError)
    else
      match s.elements.lookup k with
      | none => (s, .error .keyError)
      | some e => (s, .ok (some e.data))
  | .del _ k =>
    if s.writable = false then (s, .error .attributeError)
    else if (s.elements.lookup k).isNone then (s, .error .keyError)
    else ({ s with elements := s.elements.filter fun e => e.1 ≠ k }, .ok none)
  | .clear _ => ({ s with elements := [] }, .ok none)
  | .sync => ({ s with writable := false }, .ok none)

/-- A schedule of events: the final state and the outputs. -/
def run (n : Nat) : World Key A → List (Event Key A) → World Key A × List (Output A)
  | w, [] => (w, [])
  | w, e :: es =>
    let r := step n w e
    let rest := run n r.1 es
    (rest.1, r.2 :: rest.2)

/-- A schedule of events without MPI. -/
def serialRun : Rank Key A → List (Event Key A) → Rank Key A × List (Output A)
  | s, [] => (s, [])
  | s, e :: es =>
    let r := serialStep s e
    let rest := serialRun r.1 es
    (rest.1, r.2 :: rest.2)

end Vayesta.Rma
