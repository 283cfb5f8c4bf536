import Verif.Model.Blocks

/-! Model of `FragmentRegister` (`vayesta/core/qemb/register.py`). -/

namespace Vayesta.Register

structure State where
  nextId : Int
  nextRank : Int
  mpiSize : Int

/-- `__init__` (register.py:5-10). -/
def init (mpiSize : Int) : State := ⟨-1, -1, mpiSize⟩

/-- `get_next_id` (register.py:12-14). -/
def getNextId (s : State) : State × Int := ({ s with nextId := s.nextId + 1 }, s.nextId + 1)

/-- `get_next_mpi_rank` (register.py:16-23); `estimate` says whether a runtime or memory estimate was passed. Python's `%` for a
positive divisor is `Int.emod`. -/
def getNextRank (s : State) (estimate : Bool) : State × Except PyErr Int :=
  if estimate then (s, .error .notImplementedError)
  else ({ s with nextRank := (s.nextRank + 1) % s.mpiSize }, .ok ((s.nextRank + 1) % s.mpiSize))

/-- `get_next` (register.py:25-27): the id is drawn first. -/
def getNext (s : State) (estimate : Bool) : State × Except PyErr (Int × Int) :=
  let (s, i) := getNextId s
  let (s, r) := getNextRank s estimate
  (s, r.map fun r => (i, r))

/-- The requests that can be made of a register. -/
inductive Req
  | id
  | rank (estimate : Bool)
  | both (estimate : Bool)

/-- What a request reveals: the id drawn and handed out, the rank handed out, or an exception. -/
structure Resp where
  id : Option Int := none
  rank : Option Int := none
  err : Option PyErr := none

def step (s : State) : Req → State × Resp
  | .id => let (s, i) := getNextId s; (s, { id := some i })
  | .rank e => match getNextRank s e with
    | (s, .ok r) => (s, { rank := some r })
    | (s, .error x) => (s, { err := some x })
  | .both e => match getNext s e with
    | (s, .ok (i, r)) => (s, { id := some i, rank := some r })
    | (s, .error x) => (s, { err := some x })

def run : State → List Req → State × List Resp
  | s, [] => (s, [])
  | s, q :: qs => let (s', r) := step s q; let (s'', rs) := run s' qs; (s'', r :: rs)

end Vayesta.Register
