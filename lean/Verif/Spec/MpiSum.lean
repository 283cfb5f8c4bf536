import Verif.Model.MpiSum

/-! Specification: the sum over all fragments, with no reference to processes. -/

namespace Vayesta.MpiSum

/-- Sum over the contributing fragments. -/
def totalAll {M : Type} [AddCommMonoid M] (frags : List Frag) (contrib : Int → M) : M :=
  ((frags.filter fun f => f.active = true ∧ f.auxiliary = false).map fun f => contrib f.id).sum

/-- Sum over the contributing fragments without symmetry parent. -/
def totalParents {M : Type} [AddCommMonoid M] (frags : List Frag) (contrib : Int → M) : M :=
  ((frags.filter fun f => f.active = true ∧ f.auxiliary = false ∧ f.parent = none).map fun f => contrib f.id).sum

/-- Two lists of fragments that differ only in the processes. -/
def SameButRank (a b : List Frag) : Prop := a.map (fun f => (f.id, f.parent, f.active, f.auxiliary)) =
  b.map fun f => (f.id, f.parent, f.active, f.auxiliary)

end Vayesta.MpiSum
