/-! Model of the signed-permutation generator of `vayesta/core/util.py`. -/

namespace Vayesta

/-- `item[:i] + seq[-1:] + item[i:]` (core/util.py:761): put `x` at position `i` of `item`. -/
def insertAt {α : Type _} (item : List α) (x : α) (i : Nat) : List α :=
  item.take i ++ [x] ++ item.drop i

/-- The insertion positions for the `i`-th shorter permutation (core/util.py:758-760):
`range(len(item) + 1)`, reversed when `i` is even. -/
def insertPositions (i len : Nat) : List Nat :=
  if i % 2 = 0 then (List.range (len + 1)).reverse else List.range (len + 1)

/-- Inner function `_permutations` (core/util.py:752-763). The Python recursion goes over `seq[:-1]` and inserts `seq[-1]`;
here the sequence is handed over reversed, so that this is the structural recursion over head and tail. -/
def permsRev {α : Type _} : List α → List (List α)
  | [] => [[]]
  | x :: xs =>
    (permsRev xs).zipIdx.flatMap fun (item, i) =>
      (insertPositions i item.length).map fun p => insertAt item x p

/-- `permutations_with_signs` (core/util.py:744-765). -/
def permutationsWithSigns {α : Type _} (seq : List α) : List (List α × Int) :=
  (permsRev seq.reverse).zipIdx.map fun (item, i) => (item, if i % 2 ≠ 0 then -1 else 1)

end Vayesta
