import Verif.Model.EwfURdm
import Verif.Spec.EwfRdm

/-! Specification for the one-body density matrices of unrestricted calculations: the coupled-cluster density matrix as a functional of amplitudes, and
conditions on fragments, which are those of `Verif/Spec/EwfRdm.lean` for each of the spins. -/

namespace Vayesta.EwfURdm
open Vayesta.Amplitudes Vayesta.Tensor Vayesta.EwfRdm

variable {K : Type} [Field K] {ι : Type} {o v : Spin → Type} [Fintype ι] [∀ σ, Fintype (o σ)] [∀ σ, Fintype (v σ)]

/-- Correlation part of the one-body density matrix of spin `σ` of a coupled-cluster wave function with doubles: singles `t1`, doubles `t2 σ τ` with indices
of spins `σ τ σ τ`, lambda amplitudes `l1`, `l2` (symmetrised).
`γ_ij = ½ Σ t_imef l_jmef` (equal spins) `+ Σ t_imef l_jmef` (different spins), `η_ab` accordingly. -/
def ccRdm1U (t1 : ∀ σ, o σ → v σ → K) (t2 : ∀ σ τ, o σ → o τ → v σ → v τ → K) (l1 : ∀ σ, o σ → v σ → K) (l2 : ∀ σ τ, o σ → o τ → v σ → v τ → K) (σ : Spin) :
    o σ ⊕ v σ → o σ ⊕ v σ → K :=
  let τ := σ.other
  let γ : o σ → o σ → K := fun i j => (∑ m, ∑ e, ∑ f, t2 σ σ i m e f * l2 σ σ j m e f) / 2 + ∑ m, ∑ e, ∑ f, t2 σ τ i m e f * l2 σ τ j m e f
  let η : v σ → v σ → K := fun a b => (∑ m, ∑ n, ∑ e, t2 σ σ m n a e * l2 σ σ m n b e) / 2 + ∑ m, ∑ n, ∑ e, t2 σ τ m n a e * l2 σ τ m n b e
  let ov : o σ → v σ → K := fun i a => t1 σ i a + l1 σ i a + (∑ m, ∑ e, t2 σ σ i m a e * l1 σ m e) + (∑ m, ∑ e, t2 σ τ i m a e * l1 τ m e) -
    (∑ e, ∑ m, t1 σ i e * l1 σ m e * t1 σ m a) - (∑ m, γ i m * t1 σ m a) - ∑ e, t1 σ i e * η a e
  fun p q => match p, q with
    | .inl i, .inl j => (-(∑ a, (t1 σ i a * l1 σ j a + t1 σ j a * l1 σ i a)) - (γ i j + γ j i)) / 2
    | .inl i, .inr a => ov i a / 2
    | .inr a, .inl i => ov i a / 2
    | .inr a, .inr b => ((∑ i, (t1 σ i a * l1 σ i b + t1 σ i b * l1 σ i a)) + (η a b + η b a)) / 2

/-- What the fragment holds of one spin: orbitals, singles and doubles of equal spins. -/
def UFrag.spin (x : UFrag ι K) (σ : Spin) : EwfRdm.Frag ι K where
  cFrag := x.cFrag σ
  cOcc := x.cOcc σ
  cVir := x.cVir σ
  t1 := x.t1 σ
  t2 := x.t2 σ σ
  l1 := x.l1.map fun l => l σ
  l2 := x.l2.map fun l => l σ σ
  mp2 := x.mp2
  tAsLambda := x.tAsLambda
  ops := x.ops

/-- Amplitudes needed with `t_as_lambda` as argument are there. For MP2 fragments the lambda amplitudes are the amplitudes. -/
def UHasLambda (tAsLambda : Bool) (x : UFrag ι K) : Prop :=
  tAsLambda = true ∨ x.tAsLambda = true ∨ (x.l1.isSome ∧ x.l2.isSome ∧ (x.mp2 = true → x.l2 = some x.t2))

/-- Doubles do not change under the operation. -/
def UInvariant (s : UMf ι o v K) (u : ι → ι → K) (t : ∀ σ τ, o σ → o τ → v σ → v τ → K) : Prop := ∀ σ τ i j a b,
  ∑ k, ∑ l, ∑ c, ∑ d, rep (s.spin σ) u (s.moOcc σ) i k * (rep (s.spin τ) u (s.moOcc τ) j l * (rep (s.spin σ) u (s.moVir σ) a c *
    (rep (s.spin τ) u (s.moVir τ) b d * t σ τ k l c d))) = t σ τ i j a b

/-- An array with four axes in the orbitals of a cluster. -/
def restrict2U {o o' v v' c c' d d' : Type} [Fintype o] [Fintype o'] [Fintype v] [Fintype v'] (ro : o → c → K) (ro' : o' → c' → K) (rv : v → d → K) (rv' : v' → d' → K)
    (t : o → o' → v → v' → K) : c → c' → d → d' → K :=
  fun k l e g => ∑ i, ∑ j, ∑ a, ∑ b, t i j a b * ro i k * ro' j l * rv a e * rv' b g

/-- The cluster of the fragment spans the whole space of both spins and the fragment holds the amplitudes of the whole system, in the orbitals of the cluster,
projected onto the fragment in the first index. -/
structure UExact [∀ σ, DecidableEq (o σ)] [∀ σ, DecidableEq (v σ)] (s : UMf ι o v K) (t1 : ∀ σ, o σ → v σ → K) (t2 : ∀ σ τ, o σ → o τ → v σ → v τ → K)
    (l1 : ∀ σ, o σ → v σ → K) (l2 : ∀ σ τ, o σ → o τ → v σ → v τ → K) (x : UFrag ι K) (ro : ∀ σ, o σ → x.c σ → K) (rv : ∀ σ, v σ → x.d σ → K) : Prop where
  occ : ∀ σ, x.cOcc σ = mm (s.moOcc σ) (ro σ)
  vir : ∀ σ, x.cVir σ = mm (s.moVir σ) (rv σ)
  spanOcc : ∀ σ, mm (ro σ) (tp (ro σ)) = delta
  spanVir : ∀ σ, mm (rv σ) (tp (rv σ)) = delta
  t1 : x.t1 = fun σ => projectC1 (mm (tp (x.cFrag σ)) (mm s.ovlp (x.cOcc σ))) (EwfEnergy.restrict1 (ro σ) (rv σ) (t1 σ))
  t2 : x.t2 = fun σ τ => projectC2 (mm (tp (x.cFrag σ)) (mm s.ovlp (x.cOcc σ))) (restrict2U (ro σ) (ro τ) (rv σ) (rv τ) (t2 σ τ))
  l1 : x.l1 = some fun σ => projectC1 (mm (tp (x.cFrag σ)) (mm s.ovlp (x.cOcc σ))) (EwfEnergy.restrict1 (ro σ) (rv σ) (l1 σ))
  l2 : x.l2 = some fun σ τ => projectC2 (mm (tp (x.cFrag σ)) (mm s.ovlp (x.cOcc σ))) (restrict2U (ro σ) (ro τ) (rv σ) (rv τ) (l2 σ τ))

/-- Only singular values that are zero are removed, and pairs are only left out if occupied or virtual orbitals of both spins have no overlap. -/
structure UNoLoss (s : UMf ι o v K) (w : Opts K) (l : List (UFrag ι K)) : Prop where
  occ : ∀ g, w.svd = some g → ∀ x ∈ l, ∀ y ∈ l, ∀ σ, mm (g _ _ (occOvlp (s.spin σ) (x.spin σ) (y.spin σ))).u (g _ _ (occOvlp (s.spin σ) (x.spin σ) (y.spin σ))).w =
    occOvlp (s.spin σ) (x.spin σ) (y.spin σ)
  vir : ∀ g, w.svd = some g → ∀ x ∈ l, ∀ y ∈ l, ∀ σ, mm (g _ _ (virOvlp (s.spin σ) (x.spin σ) (y.spin σ))).u (g _ _ (virOvlp (s.spin σ) (x.spin σ) (y.spin σ))).w =
    virOvlp (s.spin σ) (x.spin σ) (y.spin σ)
  smallOcc : ∀ g, w.small = some g → ∀ x ∈ l, ∀ y ∈ l, (∀ σ, g _ _ (occOvlp (s.spin σ) (x.spin σ) (y.spin σ)) = true) → ∀ σ, occOvlp (s.spin σ) (x.spin σ) (y.spin σ) = 0
  smallVir : ∀ g, w.small = some g → ∀ x ∈ l, ∀ y ∈ l, (∀ σ, g _ _ (virOvlp (s.spin σ) (x.spin σ) (y.spin σ)) = true) → ∀ σ, virOvlp (s.spin σ) (x.spin σ) (y.spin σ) = 0

end Vayesta.EwfURdm
