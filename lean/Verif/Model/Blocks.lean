/-! Model of `brange` and `split_into_blocks` of `vayesta/core/util.py`. -/

namespace Vayesta

/-- Python exceptions that occur in the modelled functions (message texts are not modelled). -/
inductive PyErr
  | valueError | typeError | indexError | attributeError | keyError | runtimeError | notImplementedError
  | assertionError | importError | zeroDivisionError | nameError | recursionError | other
  deriving DecidableEq, Repr

/-- Python's `range(start, stop, step)` as a list; a zero step raises `ValueError`. -/
def pyRange (start stop step : Int) : Except PyErr (List Int) :=
  if step = 0 then .error .valueError
  else if 0 < step then
    .ok ((List.range ((stop - start + step - 1) / step).toNat).map fun i : Nat => start + step * i)
  else
    .ok ((List.range ((start - stop + (-step) - 1) / (-step)).toNat).map fun i : Nat => start + step * i)

/-- `np.clip(x, lo, hi)` = `minimum(maximum(x, lo), hi)`. -/
def clip (x lo hi : Int) : Int := min (max x lo) hi

/-- `brange` (core/util.py:368-393); a slice is modelled by its `start` and `stop`. `args` are the positional arguments. -/
def brange (args : List Int) (minstep : Int := 1) (maxstep : Option Int := none) : Except PyErr (List (Int × Int)) :=
  let run (start stop step : Int) : Except PyErr (List (Int × Int)) :=
    if stop ≤ start then .ok []
    else
      let maxstep := maxstep.getD (stop - start)
      let step := clip step minstep maxstep
      (pyRange start stop step).map fun l => l.map fun i => (i, min (i + step) stop)
  match args with
  | [stop] => run 0 stop 1
  | [start, stop] => run start stop 1
  | [start, stop, step] => run start stop step
  | _ => .error .valueError

/-- The slices yielded together with the blocks: `slice(None)` or `i:j`. -/
inductive Blk
  | full
  | range (start stop : Int)
  deriving DecidableEq, Repr

/-- Ceiling division of natural numbers, `int(np.ceil(a / b))` for `b > 0`. -/
def ceilDiv (a b : Nat) : Nat := (a + b - 1) / b

/-- Python slicing `l[i:j]` for `0 <= i`. -/
def pySlice {α : Type _} (l : List α) (i j : Int) : List α := (l.drop i.toNat).take (j.toNat - i.toNat)

/-- The block size used (core/util.py:398-401): the given one, or `ceil(size / max(ceil(nbytes / max_memory), 1))`. -/
def blockSizeFor (size nbytes : Nat) (blocksize : Option Int) (maxMemory : Nat) : Int :=
  blocksize.getD (ceilDiv size (max (ceilDiv nbytes maxMemory) 1))

/-- `split_into_blocks` (core/util.py:396-408). The array is the list of its slabs along `axis`; `nbytes` is `array.nbytes`.
`max_memory = 0` without explicit block size raises `ZeroDivisionError`. -/
def splitIntoBlocks {α : Type _} (array : List α) (nbytes : Nat) (blocksize : Option Int) (maxMemory : Nat) :
    Except PyErr (List (Blk × List α)) :=
  let size : Int := array.length
  if blocksize = none ∧ maxMemory = 0 then .error .zeroDivisionError
  else
    let bs := blockSizeFor array.length nbytes blocksize maxMemory
    if size ≤ bs then .ok [(.full, array)]
    else (pyRange 0 size bs).map fun l =>
      l.map fun i => (.range i (min (i + bs) size), pySlice array i (min (i + bs) size))

end Vayesta
