import Verif.Model.SymTree

/-! Specification: descendants of a fragment. -/

namespace Vayesta.SymTree

/-- `y` is in the `k`-th generation below `x` (`k = 1`: children). -/
inductive Below (fs : List Frag) (x : Frag) : Nat → Frag → Prop
  | child {y : Frag} : y ∈ fs → y.parent = some x.id → Below fs x 1 y
  | step {k : Nat} {z y : Frag} : Below fs x k z → y ∈ fs → y.parent = some z.id → Below fs x (k + 1) y

/-- `y` is in the `k`-th generation below `x`, and `b` arises from `a` by the operations of all fragments on the way, in order. -/
inductive Image {A : Type} (fs : List Frag) (op : Frag → A → A) (x : Frag) (a : A) : Nat → Frag → A → Prop
  | child {y : Frag} : y ∈ fs → y.parent = some x.id → Image fs op x a 1 y (op y a)
  | step {k : Nat} {z y : Frag} {b : A} : Image fs op x a k z b → y ∈ fs → y.parent = some z.id → Image fs op x a (k + 1) y (op y b)

/-- Ids are unique and a parent has a smaller id than its child (ids are handed out in increasing order). -/
structure WF (fs : List Frag) : Prop where
  ids : (fs.map (·.id)).Nodup
  older : ∀ f ∈ fs, ∀ p, f.parent = some p → p < f.id

/-- All parents are in the list. -/
def ParentsIn (fs : List Frag) : Prop := ∀ f ∈ fs, ∀ p, f.parent = some p → ∃ g ∈ fs, g.id = p

end Vayesta.SymTree
