import Verif.Model.Permutations

/-! Model of `tril_indices_ndim` and `decompress_axes` of `vayesta/core/util.py`. -/

namespace Vayesta

/-- All index tuples of an `n^dims` grid in C order (`np.indices`, boolean-mask selection order; core/util.py:165-167). -/
def gridTuples (n : Nat) : Nat → List (List Nat)
  | 0 => [[]]
  | d + 1 => (List.range n).flatMap fun i => (gridTuples n d).map fun t => i :: t

/-- `reduce(logical_and, [func(a, b) for a, b in zip(casted[:-1], casted[1:])])` at one grid point
(core/util.py:157-165); `func` is `>=` with `include_diagonal`, else `>`. -/
def trilMask (inclDiag : Bool) (t : List Nat) : Bool :=
  (t.zip t.tail).all fun (a, b) => if inclDiag then decide (a ≥ b) else decide (a > b)

/-- `tril_indices_ndim` (core/util.py:144-169). The result is the tuple of index arrays, one per dimension. -/
def trilIndices (n dims : Nat) (inclDiag : Bool) : List (List Nat) :=
  if dims = 0 then []
  else if dims = 1 then [List.range n]
  else
    let selected := (gridTuples n dims).filter (trilMask inclDiag)
    (List.range dims).map fun j => selected.map fun t => t.getD j 0

/-- `np.ravel_multi_index` of one index tuple for the shape `(n, ..., n)`. -/
def ravel (n : Nat) (t : List Nat) : Nat := t.foldl (fun acc i => acc * n + i) 0

/-- One group of equal characters in the subscript of `decompress_axes`: the common axis size, the number of axes and
whether the symmetry character of the group is `-` (core/util.py:200-217). -/
structure AxisGroup where
  n : Nat
  k : Nat
  anti : Bool

/-- `itertools.product(*lists)`. -/
def cartesian {α : Type _} : List (List α) → List (List α)
  | [] => [[]]
  | l :: ls => l.flatMap fun x => (cartesian ls).map fun xs => x :: xs

/-- The signed flat index arrays of one group: every signed permutation of the index arrays, ravelled
(core/util.py:219-234), with the sign dropped for a symmetric group. -/
def groupWrites (incl : Bool) (g : AxisGroup) : List (List Nat × Int) :=
  (permutationsWithSigns (trilIndices g.n g.k incl)).map fun (cols, s) =>
    ((List.range (((cols.head?).getD []).length)).map fun r => ravel g.n (cols.map fun c => c.getD r 0),
     if g.anti then s else 1)

/-- All single-element writes performed for one element `tup` of the product of signed permutations
(core/util.py:226-240): `array[ix_(ind_1, ..., ind_G)] = array_flat.reshape(shape) * prod(signs)`.
`data` is `array_flat`, indexed by one position per group. -/
def writesFor {R : Type _} [Mul R] [IntCast R] (data : List Nat → R) (tup : List (List Nat × Int)) :
    List (List Nat × R) :=
  (cartesian (tup.map fun (inds, _) => List.range inds.length)).map fun pos =>
    (List.zipWith (fun (x : List Nat × Int) r => x.1.getD r 0) tup pos,
     data pos * ((tup.map Prod.snd).prod : Int))

/-- `decompress_axes` (core/util.py:172-249) on the array reshaped to one flat axis per group, as a function of the list of
flat positions. Simplified: the axes of a group are adjacent in the subscript, as in every call in the code base, so the
initial and final transposes are the identity. -/
def decompressFlat {R : Type _} [Mul R] [Zero R] [IntCast R] (incl : Bool) (groups : List AxisGroup)
    (data : List Nat → R) : List Nat → R :=
  (cartesian (groups.map (groupWrites incl))).foldl
    (fun arr tup => (writesFor data tup).foldl (fun a w => fun key => if key = w.1 then w.2 else a key) arr)
    (fun _ => 0)

/-- The decompressed array at one full index: one index tuple per group (final reshape, core/util.py:242-243). -/
def decompress {R : Type _} [Mul R] [Zero R] [IntCast R] (incl : Bool) (groups : List AxisGroup)
    (data : List Nat → R) (idx : List (List Nat)) : R :=
  decompressFlat incl groups data (List.zipWith (fun g t => ravel g.n t) groups idx)

end Vayesta
