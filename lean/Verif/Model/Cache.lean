/-! Model of the `cache` decorator (`vayesta/core/util.py:72-111`) on top of `functools.lru_cache`.

Results are mutable objects: a call returns a reference into a store, and the caller may later overwrite the contents of
any object it has been given. -/

namespace Vayesta.Cache

/-- What a program can do with a decorated function: call it, overwrite the contents of the object returned by the `i`-th
call so far, or call `cache_clear`. -/
inductive Op (K V : Type)
  | call (k : K)
  | mutate (i : Nat) (v : V)
  | clear

/-- `store`: contents of all objects; `cache`: key to object, most recently used first; `returned`: the objects handed to the
caller, oldest first. -/
structure State (K V : Type) where
  store : List V := []
  cache : List (K × Nat) := []
  returned : List Nat := []

variable {K V : Type} [DecidableEq K]

/-- Allocate a new object. -/
def State.alloc (s : State K V) (v : V) : State K V × Nat := ({ s with store := s.store ++ [v] }, s.store.length)

/-- `functools.lru_cache(maxsize)(func)` applied to `k`: a hit moves the entry to the front and returns the cached object; a miss
calls the function, stores a fresh object and evicts the least recently used entry when full. `maxsize = none` is unbounded,
`maxsize = 0` disables caching. -/
def lruCall (maxsize : Option Nat) (f : K → V) (s : State K V) (k : K) : State K V × Nat :=
  match s.cache.lookup k with
  | some r => ({ s with cache := (k, r) :: s.cache.filter (fun x => x.1 ≠ k) }, r)
  | none =>
    let (s, r) := s.alloc (f k)
    ({ s with cache := match maxsize with
        | none => (k, r) :: s.cache
        | some m => ((k, r) :: s.cache).take m }, r)

/-- One step of a program. With `copy` the wrapper returns `deepcopy(cached_func(...))` (util.py:101-102), otherwise the cached
object itself (util.py:91-95). Also returns the value that the caller sees (for calls). -/
def step (maxsize : Option Nat) (copy : Bool) (f : K → V) (s : State K V) : Op K V → State K V × Option (K × Option V)
  | .call k =>
    let (s, r) := lruCall maxsize f s k
    let (s, r) := if copy then
        match s.store[r]? with
        | some v => s.alloc v
        | none => (s, r)
      else (s, r)
    ({ s with returned := s.returned ++ [r] }, some (k, s.store[r]?))
  | .mutate i v =>
    match s.returned[i]? with
    | some r => ({ s with store := s.store.set r v }, none)
    | none => (s, none)
  | .clear => ({ s with cache := [] }, none)

/-- Run a program; the list of (argument, observed result) of all calls, and the final state. -/
def run (maxsize : Option Nat) (copy : Bool) (f : K → V) : State K V → List (Op K V) → State K V × List (K × Option V)
  | s, [] => (s, [])
  | s, op :: ops =>
    let (s', o) := step maxsize copy f s op
    let (s'', os) := run maxsize copy f s' ops
    (s'', o.toList ++ os)

end Vayesta.Cache
