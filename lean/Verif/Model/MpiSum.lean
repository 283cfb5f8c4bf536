import Verif.Model.Register
import Verif.Model.GetFragments
import Mathlib.Algebra.Field.Defs

/-! Model of the fragment sums over MPI processes: creation of fragments (`vayesta/core/fragmentation/fragmentation.py`,
`vayesta/core/qemb/qemb.py`), the reductions of `vayesta/mpi/interface.py` and the functions using them in `vayesta/ewf` and
`vayesta/core/qemb`. Arithmetic is exact. -/

namespace Vayesta.MpiSum

/-- Values of the fragment attributes used as filters. -/
inductive Val
  | int (i : Int)
  | bool (b : Bool)
  | none
  deriving DecidableEq, Repr

/-- A fragment (`core/qemb/fragment.py:108-230`): only id, MPI rank, id of the symmetry parent, `active` and the option
`auxiliary`. -/
structure Frag where
  id : Int
  rank : Int
  parent : Option Int
  active : Bool
  auxiliary : Bool
  deriving DecidableEq, Repr

/-- `Fragment.contributes` (fragment.py:449-452). -/
def Frag.contributes (f : Frag) : Bool := f.active && !f.auxiliary

/-- `getattr(frag, key)` for the keys that are used. -/
def Frag.attr (f : Frag) (key : String) : Option Val :=
  if key = "id" then some (.int f.id)
  else if key = "mpi_rank" then some (.int f.rank)
  else if key = "sym_parent" then some (f.parent.elim .none .int)
  else if key = "active" then some (.bool f.active)
  else if key = "contributes" then some (.bool f.contributes)
  else none

/-- Attribute access for `Embedding.get_fragments`. -/
def lookup : Frags.Lookup Frag Val := ⟨Frag.attr, fun _ _ => none, fun _ _ => none⟩

/-- What a user can do to the list of fragments. -/
inductive Action
  /-- Add a fragment. -/
  | new (auxiliary : Bool)
  /-- Add a symmetry child of the fragment at this position. -/
  | child (pos : Nat)
  /-- Set `active` of the fragment at this position. -/
  | setActive (pos : Nat) (b : Bool)

/-- The register and the list of fragments. -/
structure State where
  register : Register.State
  frags : List Frag

/-- The state before any fragment is added, on `n` processes (register.py:5-10). -/
def State.init (n : Nat) : State := ⟨Register.init n, []⟩

/-- * `new` – `_create_fragment` (fragmentation.py:173-180): id and rank from the register; fragments are active by default
  (fragment.py:118).
* `child` – `create_symmetric_fragments` (qemb.py:933-947) and `add_tsymmetric_fragments` (fragment.py:680-692): only an id is
  drawn, the rank and the options are those of the parent. Positions that do not exist change nothing.
* `setActive` – assignment to the attribute.
The order in which children are inserted into the list is not modelled: new fragments go to the end. -/
def State.step (s : State) : Action → State
  | .new aux =>
    match Register.getNext s.register false with
    | (reg, .ok (i, r)) => ⟨reg, s.frags ++ [⟨i, r, none, true, aux⟩]⟩
    | (reg, .error _) => ⟨reg, s.frags⟩
  | .child pos =>
    match s.frags[pos]? with
    | none => s
    | some p =>
      let (reg, i) := Register.getNextId s.register
      ⟨reg, s.frags ++ [⟨i, p.rank, some p.id, true, p.auxiliary⟩]⟩
  | .setActive pos b => ⟨s.register, s.frags.modify pos fun f => { f with active := b }⟩

/-- The fragments after a sequence of actions on `n` processes; all processes execute the same actions. -/
def create (n : Nat) (as : List Action) : List Frag := (as.foldl State.step (State.init n)).frags

section
variable {M : Type} [AddCommMonoid M]

/-- `world.allreduce(x)` with the default operation (interface.py:84, 160): all processes get the sum. -/
def allreduce (n : Nat) (x : Nat → M) : Nat → M := fun _ => ((List.range n).map x).sum

/-- `MPI_Interface.nreduce` of one argument (interface.py:70-92): without target all processes get the sum, with a target the other
processes get `None`. -/
def nreduce (n : Nat) (x : Nat → M) (target : Option Nat) : Nat → Option M := fun r =>
  match target with
  | none => some (allreduce n x r)
  | some t => if r = t then some (allreduce n x r) else none

/-- `MPI_Interface.with_allreduce` (interface.py:150-164). -/
def withAllreduce (n : Nat) (f : Nat → M) : Nat → M := if n ≤ 1 then f else allreduce n f

/-- The loop `for x in get_fragments(**filters, mpi_rank=mpi.rank)` adding a contribution of each fragment. The contribution depends
on the fragment's id. -/
def loopSum (frags : List Frag) (filters : List (String × Frags.Filt Val)) (contrib : Int → M) (r : Nat) : Except PyErr M :=
  (Frags.getFragments lookup frags (filters ++ [("mpi_rank", .values [.int r])]) [] []).map fun l =>
    (l.map fun x => contrib x.id).sum

end

/-- `contributes=True, sym_parent=None`. -/
def parentFilters : List (String × Frags.Filt Val) := [("contributes", .values [.bool true]), ("sym_parent", .values [.none])]

/-- `contributes=True`. -/
def allFilters : List (String × Frags.Filt Val) := [("contributes", .values [.bool true])]

section
variable {K : Type} [Field K]

/-- `EWF.get_wf_corr_energy` (ewf.py:333-349) on each of `n` processes; `energy` is the weighted energy of the fragment
(`symmetry_factor * e_corr`). An exception in the loop is taken as no value. -/
def wfCorrEnergy (n : Nat) (frags : List Frag) (energy : Int → K) (ncells : K) : Nat → K :=
  withAllreduce n fun r => ((loopSum frags parentFilters energy r).toOption.getD 0) / ncells

/-- The two ways of `get_dm_corr_energy_e2` to get the energy. -/
inductive Dm2
  | globalWf
  | projectedLambda

/-- `EWF.get_dm_corr_energy_e2` (ewf.py:397-425): for `dm2="global-wf"`, every process computes the energy of the global 2-DM, which is
known on all processes (the amplitudes are all-reduced in `get_global_t1`, `get_global_t2`); the result is all-reduced in both
cases. -/
def dmCorrEnergyE2 (n : Nat) (frags : List Frag) (kind : Dm2) (globalEnergy : K) (energy : Int → K) (ncells : K) : Nat → K :=
  withAllreduce n fun r =>
    match kind with
    | .globalWf => globalEnergy / ncells
    | .projectedLambda => ((loopSum frags parentFilters energy r).toOption.getD 0) / ncells

end

section
variable {M : Type} [AddCommMonoid M]

/-- An operation on an array (if it is requested) applied to what a reduction returned: `None` raises a TypeError. -/
def useArray (f : Option (M → M)) (x : Option M) : Except PyErr (Option M) :=
  match f, x with
  | none, x => .ok x
  | some f, some x => .ok (some (f x))
  | some _, none => .error .typeError

/-- `make_rdm1_demo_rhf` (core/qemb/rdm.py:32-49): the sum of the projected density matrices, reduced; `None` cannot be used
afterwards. `addMf` adds the mean-field (`with_mf=True`), `post` are symmetrisation and basis change (`symmetrize or ao_basis`). -/
def rdm1Demo (n : Nat) (frags : List Frag) (dm : Int → M) (addMf post : Option (M → M)) (target : Option Nat) (r : Nat) :
    Except PyErr (Option M) :=
  let partSum := fun r => (loopSum frags allFilters dm r).toOption.getD 0
  let dm1 := if n ≤ 1 then some (partSum r) else nreduce n partSum target r
  (useArray addMf dm1).bind (useArray post)

/-- `make_rdm1_ccsd_proj_lambda` (ewf/rdm.py:143-157): processes other than the target return `None`. -/
def rdm1ProjLambda (n : Nat) (frags : List Frag) (dm : Int → M) (post : M → M) (target : Option Nat) (r : Nat) :
    Except PyErr (Option M) :=
  let partSum := fun r => (loopSum frags allFilters dm r).toOption.getD 0
  let dm1 := if n ≤ 1 then some (partSum r) else nreduce n partSum target r
  if 1 < n ∧ target ≠ none ∧ target ≠ some r then .ok none
  else .ok (dm1.map post)

/-- The reduction of `make_rdm1_ccsd_global_wf` (ewf/rdm.py:246-247, 435-440): `dov` only exists with `with_t1=True`, but is always
passed to the reduction. The result is the three reduced blocks. -/
def rdm1GlobalWfReduce (n : Nat) (withT1 : Bool) (doo dov dvv : Nat → M) (target : Option Nat) (r : Nat) :
    Except PyErr (Option (M × Option M × M)) :=
  if n ≤ 1 then .ok (some (doo r, if withT1 then some (dov r) else none, dvv r))
  else if withT1 = false then .error .nameError
  else
    match nreduce n doo target r, nreduce n dov target r, nreduce n dvv target r with
    | some a, some b, some c => .ok (some (a, some b, c))
    | _, _, _ => .ok none

end

end Vayesta.MpiSum
