import Verif.Model.Blocks

/-! Model of the array packing in `vayesta/core/helper.py`.

A packed array is a list of 8-byte words. A word is modelled as an integer; `view`s reinterpret words without changing them. -/

namespace Vayesta.Pack

/-- A NumPy array with a nonzero `dtype.char` code, 8-byte words per element (1 for float64/int64, 2 for complex128), shape,
and the flattened data as words. -/
structure NArr where
  dtype : Int
  shape : List Nat
  words : List Int
  deriving DecidableEq, Repr

/-- Number of elements, `np.prod(shape)`. -/
def size (shape : List Nat) : Nat := shape.foldr (· * ·) 1

/-- `pack_metadata` (helper.py:36-47) for the default `maxdim=8`; `None` has type code 0. -/
def packMetadata : Option NArr → Except PyErr (List Int)
  | none => .ok ([0, 0] ++ List.replicate 8 0)
  | some a =>
    if 8 < a.shape.length then .error .notImplementedError
    else .ok ([a.dtype, (a.shape.length : Int)] ++ a.shape.map Int.ofNat ++ List.replicate (8 - a.shape.length) 0)

/-- The inner function `pack` (helper.py:62-67). -/
def packOne (a : Option NArr) : Except PyErr (List Int) :=
  match packMetadata a with
  | .error e => .error e
  | .ok m => match a with
    | none => .ok m
    | some a => .ok (m ++ a.words)

/-- The loop collecting the packed parts (helper.py:69-71). -/
def packLoop : List (Option NArr) → Except PyErr (List Int)
  | [] => .ok []
  | a :: as => match packOne a with
    | .error e => .error e
    | .ok p => match packLoop as with
      | .error e => .error e
      | .ok ps => .ok (p ++ ps)

/-- `pack_arrays` (helper.py:57-72); `np.hstack([])` raises `ValueError`. The `maxdim` argument is not forwarded to
`pack_metadata`, so it has no effect and is omitted. -/
def packArrays (arrays : List (Option NArr)) : Except PyErr (List Int) :=
  if arrays = [] then .error .valueError else packLoop arrays

/-- `unpack_arrays` (helper.py:75-92). `wpe` gives the number of words per element of a data type code (`np.dtype(...)` raises
`TypeError` for an unknown code). `np.hsplit` never raises; `view`/`reshape` raise `ValueError` on a size mismatch.
Negative numbers in the metadata are read as Python would slice them; they cannot occur after `pack_arrays` and raise here. -/
def unpackArrays (wpe : Int → Option Nat) (maxdim : Nat) (packed : List Int) : Except PyErr (List (Option NArr)) :=
  if _h : packed = [] then .ok []
  else
    let metadata := packed.take (maxdim + 2)
    let rest := packed.drop (maxdim + 2)
    let metadata := metadata.take 10
    match metadata with
    | dt :: ndim :: shape =>
      if dt = 0 then
        (unpackArrays wpe maxdim rest).map (none :: ·)
      else
        match wpe dt with
        | none => .error .typeError
        | some w =>
          if ndim < 0 ∨ ∃ x ∈ shape, x < 0 then .error .valueError
          else
            let shape := (shape.take ndim.toNat).map Int.toNat
            let n := size shape
            let data := rest.take n
            let rest := rest.drop n
            if data.length = n * w then
              (unpackArrays wpe maxdim rest).map (some ⟨dt, shape, data⟩ :: ·)
            else .error .valueError
    | _ => .error .indexError
termination_by packed.length
decreasing_by
  all_goals
    have : 0 < packed.length := List.length_pos_iff.2 _h
    simp only [List.length_drop]
    omega

end Vayesta.Pack
