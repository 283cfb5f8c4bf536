import Verif.Spec.Icmp2
import Verif.Model.Icmp2U

/-! Specification of the unrestricted intercluster MP2 energy: the energy of a pair of fragments in the whole system, spin by spin. -/

namespace Vayesta.Icmp2
open Vayesta.Tensor

variable {K : Type} [Field K] {ι L N o v o' v' : Type} [Fintype ι] [Fintype L] [Fintype N] [Fintype o] [Fintype v] [Fintype o'] [Fintype v']

/-- Integrals `(ia|jb)`, with `i`, `a` of one spin and `j`, `b` of another. -/
def spinEri {o v o' v' : Type} (s : Sys ι L N K) (m : Mf ι o v K) (m' : Mf ι o' v' K) (i : o) (a : v) (j : o') (b : v') : K :=
  ∑ l, m.three s.cderi l i a * m'.three s.cderi l j b

/-- Their first-order amplitudes. -/
def spinT {o v o' v' : Type} (s : Sys ι L N K) (m : Mf ι o v K) (m' : Mf ι o' v' K) (i : o) (j : o') (a : v) (b : v') : K :=
  spinEri s m m' i a j b / ((m.whole s).eo i + (m'.whole s).eo j - (m.whole s).ev a - (m'.whole s).ev b)

/-- `½ Σ t_ij^ab (ia|jb)` with `i`, `j` and `b` of `(ia|jb)` projected with `P`, `W` and `Q`. -/
def spinDirect (s : Sys ι L N K) (m : Mf ι o v K) (m' : Mf ι o' v' K) (P : o → o → K) (W : o' → o' → K) (Q : v' → v' → K) : K :=
  (∑ i, ∑ j, ∑ a, ∑ b, spinT s m m' i j a b * ∑ i', P i i' * ∑ j', W j j' * ∑ b', Q b b' * spinEri s m m' i' a j' b') / 2

/-- `-½ Σ t_ij^ba (ia|jb)`, projected in the same way. -/
def spinExchange (s : Sys ι L N K) (m : Mf ι o v K) (P W : o → o → K) (Q : v → v → K) : K :=
  -(∑ i, ∑ j, ∑ a, ∑ b, spinT s m m i j b a * ∑ i', P i i' * ∑ j', W j j' * ∑ b', Q b b' * spinEri s m m i' a j' b') / 2

/-- Energy of a pair of fragments, given by their regions for spin up and spin down: four direct terms and two exchange terms. The virtual orbital `b` is outside of the
cluster of the first fragment. -/
def spinPair [DecidableEq v] [DecidableEq v'] (s : Sys ι L N K) (m : Mf ι o v K) (m' : Mf ι o' v' K) (d e : Bool) (X Y : Region ι K × Region ι K) : K :=
  let P := m.inOcc s X.1.frag
  let P' := m'.inOcc s X.2.frag
  let W := m.inOcc s Y.1.frag
  let W' := m'.inOcc s Y.2.frag
  let Q := Dc.vir.onVir s m X.1
  let Q' := Dc.vir.onVir s m' X.2
  (if d then spinDirect s m m P W Q + spinDirect s m m' P W' Q' + spinDirect s m' m P' W Q + spinDirect s m' m' P' W' Q' else 0) +
  (if e then spinExchange s m P W Q + spinExchange s m' P' W' Q' else 0)

/-- The regions of a fragment. -/
def URoot.region {ι L : Type} (x : URoot ι L K) : Region ι K × Region ι K := (x.alpha.region, x.beta.region)

/-- The regions of the fragments of a family. -/
def URoot.members (x : URoot ι L K) : List (Region ι K × Region ι K) :=
  x.region :: x.children.map fun y => (x.alpha.region.image y.op.ao, x.beta.region.image y.op.ao)

/-- As `Family`, for both spins. -/
structure UFamily [DecidableEq L] (s : Sys ι L N K) (m : Mf ι o v K) (m' : Mf ι o' v' K) (x : URoot ι L K) : Prop where
  passes : x.tag.passes = true
  factor : x.tag.symFactor = 1
  child : ∀ y ∈ x.children, y.tag.passes = true ∧ y.tag.symFactor = 1 ∧ y.direct = true ∧ y.cProjA = mm y.op.ao x.alpha.cProj ∧ y.cProjB = mm y.op.ao x.beta.cProj ∧
    Leaves s m y.op ∧ Leaves s m' y.op

end Vayesta.Icmp2
