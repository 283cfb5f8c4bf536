import Verif.Model.EwfRdm
import Verif.Spec.EwfEnergy

/-! Specification for the one-body density matrices: the coupled-cluster density matrix as a functional of amplitudes, conditions on fragments and
symmetry operations. -/

namespace Vayesta.EwfRdm
open Vayesta.Amplitudes Vayesta.Tensor

variable {K : Type} [Field K] {ι o v : Type} [Fintype ι] [Fintype o] [Fintype v]

/-- Correlation part of the spin-summed one-body density matrix of a closed-shell coupled-cluster wave function with doubles, with singles `t1`,
doubles `t2` and lambda amplitudes `l1`, `l2` (symmetrised). With `θ_ijab = 2 t_ijab - t_ijba`:
`γ_ij = Σ θ_imef l_jmef`, `η_ab = Σ θ_mnea l_mneb`. -/
def ccRdm1 (t1 : o → v → K) (t2 : o → o → v → v → K) (l1 : o → v → K) (l2 : o → o → v → v → K) : o ⊕ v → o ⊕ v → K :=
  let θ : o → o → v → v → K := fun i j a b => 2 * t2 i j a b - t2 i j b a
  let γ : o → o → K := fun i j => ∑ m, ∑ e, ∑ f, θ i m e f * l2 j m e f
  let η : v → v → K := fun a b => ∑ m, ∑ n, ∑ e, θ m n e a * l2 m n e b
  let ov : o → v → K := fun i a => t1 i a + l1 i a + (∑ m, ∑ e, θ i m a e * l1 m e) - (∑ e, ∑ m, t1 i e * l1 m e * t1 m a) -
    (∑ m, γ i m * t1 m a) - ∑ e, t1 i e * η a e
  fun p q => match p, q with
    | .inl i, .inl j => -(∑ a, (t1 i a * l1 j a + t1 j a * l1 i a)) - (γ i j + γ j i)
    | .inl i, .inr a => ov i a
    | .inr a, .inl i => ov i a
    | .inr a, .inr b => (∑ i, (t1 i a * l1 i b + t1 i b * l1 i a)) + (η a b + η b a)

/-- Molecular orbitals are orthonormal. -/
structure Orthonormal [DecidableEq o] [DecidableEq v] (s : Mf ι o v K) : Prop where
  ovlp : tp s.ovlp = s.ovlp
  occ : mm (tp s.moOcc) (mm s.ovlp s.moOcc) = delta
  vir : mm (tp s.moVir) (mm s.ovlp s.moVir) = delta
  mixed : mm (tp s.moOcc) (mm s.ovlp s.moVir) = 0

/-- The occupied part of the fragment orbitals lies in the occupied space of the cluster: projection onto this space does not change overlaps with occupied
molecular orbitals. -/
def OccInCluster (s : Mf ι o v K) (x : Frag ι K) : Prop :=
  mm (tp s.moOcc) (mm s.ovlp x.cFrag) = mm (tp s.moOcc) (mm s.ovlp (mm x.cOcc (mm (tp x.cOcc) (mm s.ovlp x.cFrag))))

/-- Amplitudes needed with `t_as_lambda` as argument are there. For MP2 fragments the lambda amplitudes are the amplitudes. The option of the fragment is
not set if the argument is not. -/
def HasLambda (tAsLambda : Bool) (x : Frag ι K) : Prop :=
  tAsLambda = true ∨ (x.tAsLambda = false ∧ x.l1.isSome ∧ x.l2.isSome ∧ (x.mp2 = true → x.l2 = some x.t2))

/-- The operation on the AOs conserves overlaps and maps occupied to occupied and virtual to virtual orbitals. -/
structure Operation (s : Mf ι o v K) (u : ι → ι → K) : Prop where
  ovlp : mm (tp u) (mm s.ovlp u) = s.ovlp
  occ : ∃ d : o → o → K, mm u s.moOcc = mm s.moOcc d
  vir : ∃ d : v → v → K, mm u s.moVir = mm s.moVir d

/-- Representation of the operation in the space of orbitals `c`. -/
def rep {n : Type} (s : Mf ι o v K) (u : ι → ι → K) (c : ι → n → K) : n → n → K := mm (tp c) (mm s.ovlp (mm u c))

/-- Doubles amplitudes in the basis of molecular orbitals do not change under the operation. -/
def Invariant (s : Mf ι o v K) (u : ι → ι → K) (t : o → o → v → v → K) : Prop := ∀ i j a b,
  ∑ k, ∑ l, ∑ c, ∑ d, rep s u s.moOcc i k * (rep s u s.moOcc j l * (rep s u s.moVir a c * (rep s u s.moVir b d * t k l c d))) = t i j a b

/-- The same for singles. -/
def Invariant1 (s : Mf ι o v K) (u : ι → ι → K) (t : o → v → K) : Prop := ∀ i a,
  ∑ k, ∑ c, rep s u s.moOcc i k * (rep s u s.moVir a c * t k c) = t i a

/-- The cluster of the fragment spans the whole space and the fragment holds the amplitudes of the whole system, in the orbitals of the cluster,
projected onto the fragment in the first index. -/
structure Exact [DecidableEq o] [DecidableEq v] (s : Mf ι o v K) (t1 : o → v → K) (t2 : o → o → v → v → K) (l1 : o → v → K)
    (l2 : o → o → v → v → K) (x : Frag ι K) (ro : o → x.co → K) (rv : v → x.cv → K) : Prop where
  occ : x.cOcc = mm s.moOcc ro
  vir : x.cVir = mm s.moVir rv
  spanOcc : mm ro (tp ro) = delta
  spanVir : mm rv (tp rv) = delta
  t1 : x.t1 = projectC1 (mm (tp x.cFrag) (mm s.ovlp x.cOcc)) (EwfEnergy.restrict1 ro rv t1)
  t2 : x.t2 = projectC2 (mm (tp x.cFrag) (mm s.ovlp x.cOcc)) (EwfEnergy.restrict2 ro rv t2)
  l1 : x.l1 = some (projectC1 (mm (tp x.cFrag) (mm s.ovlp x.cOcc)) (EwfEnergy.restrict1 ro rv l1))
  l2 : x.l2 = some (projectC2 (mm (tp x.cFrag) (mm s.ovlp x.cOcc)) (EwfEnergy.restrict2 ro rv l2))

/-- The fragments partition the occupied space. -/
def Partitions [DecidableEq o] (s : Mf ι o v K) (l : List (Frag ι K)) : Prop := ∀ i j : o,
  (l.map fun x => ∑ y, mm (tp x.cFrag) (mm s.ovlp s.moOcc) y i * mm (tp x.cFrag) (mm s.ovlp s.moOcc) y j).sum = if i = j then 1 else 0

/-- Overlaps of two clusters in the occupied and in the virtual space, via molecular orbitals. -/
def occOvlp (s : Mf ι o v K) (x y : Frag ι K) : x.co → y.co → K := mm (tp (mm (tp s.moOcc) (mm s.ovlp x.cOcc))) (mm (tp s.moOcc) (mm s.ovlp y.cOcc))
def virOvlp (s : Mf ι o v K) (x y : Frag ι K) : x.cv → y.cv → K := mm (tp (mm (tp s.moVir) (mm s.ovlp x.cVir))) (mm (tp s.moVir) (mm s.ovlp y.cVir))

/-- Only singular values that are zero are removed, and only pairs without overlap of occupied or of virtual orbitals are left out. -/
structure NoLoss (s : Mf ι o v K) (w : Opts K) (l : List (Frag ι K)) : Prop where
  occ : ∀ g, w.svd = some g → ∀ x ∈ l, ∀ y ∈ l, mm (g _ _ (occOvlp s x y)).u (g _ _ (occOvlp s x y)).w = occOvlp s x y
  vir : ∀ g, w.svd = some g → ∀ x ∈ l, ∀ y ∈ l, mm (g _ _ (virOvlp s x y)).u (g _ _ (virOvlp s x y)).w = virOvlp s x y
  smallOcc : ∀ g, w.small = some g → ∀ x ∈ l, ∀ y ∈ l, g _ _ (occOvlp s x y) = true → occOvlp s x y = 0
  smallVir : ∀ g, w.small = some g → ∀ x ∈ l, ∀ y ∈ l, g _ _ (virOvlp s x y) = true → virOvlp s x y = 0

end Vayesta.EwfRdm
