import Verif.Model.Blocks

/-! Model of `MPI_Interface.with_send` (`vayesta/mpi/interface.py:185-217`), the wrapper around fragment functions that are computed on
the process of the fragment and sent to one process. -/

namespace Vayesta.WithSend

/-- A call of a wrapped function: the tag of the function (drawn when it is decorated, interface.py:191), the process of the fragment
(`source(*args)`), and the value the function has there. -/
structure Call (V : Type) where
  tag : Nat
  src : Nat
  val : V

/-- Position of each process in its program, messages under way (by source and tag, oldest first; they all go to `dest`), and what the
calls returned on each process. -/
structure State (V : Type) where
  pc : Nat → Nat
  queue : Nat → Nat → List V
  out : Nat → List (Option V)

variable {V : Type}

/-- Nothing happened yet. -/
def State.init : State V := ⟨fun _ => 0, fun _ _ => [], fun _ => []⟩

/-- Update at one process. -/
def upd {B : Type} (f : Nat → B) (r : Nat) (b : B) : Nat → B := fun i => if i = r then b else f i

/-- The next call of process `r` (interface.py:194-213): the source computes and sends unless it is the destination, the destination
receives, the others get `None`. `none`: the process is finished or waits for a message. `send` is taken as buffered. -/
def step (prog : Nat → List (Call V)) (dest : Nat) (s : State V) (r : Nat) : Option (State V) :=
  match (prog r)[s.pc r]? with
  | none => none
  | some c =>
    if r = c.src then
      some ⟨upd s.pc r (s.pc r + 1),
        if r = dest then s.queue else fun i t => if i = r ∧ t = c.tag then s.queue i t ++ [c.val] else s.queue i t,
        upd s.out r (s.out r ++ [some c.val])⟩
    else if r = dest then
      match s.queue c.src c.tag with
      | [] => none
      | v :: q =>
        some ⟨upd s.pc r (s.pc r + 1), fun i t => if i = c.src ∧ t = c.tag then q else s.queue i t, upd s.out r (s.out r ++ [some v])⟩
    else some ⟨upd s.pc r (s.pc r + 1), s.queue, upd s.out r (s.out r ++ [none])⟩

/-- A schedule: the processes in the order in which they get to make progress; a waiting process stays where it is. -/
def exec (prog : Nat → List (Call V)) (dest : Nat) (s : State V) (schedule : List Nat) : State V :=
  schedule.foldl (fun s r => (step prog dest s r).getD s) s

/-- The calls in the fragment loop of `Embedding.get_dmet_elec_energy` (qemb.py:1288-1291): each process only calls the wrapped
`get_fragment_dmet_energy` for its own fragments. -/
def ownCalls (calls : List (Call V)) (r : Nat) : List (Call V) := calls.filter fun c => c.src = r

end Vayesta.WithSend
