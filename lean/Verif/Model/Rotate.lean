import Verif.Model.Amplitudes
import Mathlib.Algebra.Order.Field.Basic
import Mathlib.Algebra.BigOperators.Group.Finset.Basic
import Mathlib.Data.Fintype.Card
import Mathlib.Data.Fintype.Sum

/-! Model of orbital rotations of CCSD wave functions (`rotate`, `rotate_ov` in `vayesta/core/types/wf/ccsd.py` with
`transform_*` of `project.py` and `basis_transform` of `core/types/orbitals.py`). Orbitals are numbered occupied first, as
`block_diag(to, tv)` presupposes. Exact arithmetic. -/

namespace Vayesta.Rotate
open Vayesta.Amplitudes

section
variable {o v o' v' K : Type} [CommRing K]

/-- `transform_c1` (project.py:65-68) of an array. -/
def transformC1 [Fintype o] [Fintype v] (c1 : T1 o v K) (uo : o → o' → K) (tv : v → v' → K) : T1 o' v' K :=
  fun i a => ∑ k, ∑ c, uo k i * c1 k c * tv c a

/-- `transform_c2` (project.py:71-79): `einsum("ijab,iI,jJ,aA,bB->IJAB", c2, to, to2, tv, tv2)`. The defaults `to2 = to`,
`tv2 = tv` are filled in by the caller. -/
def transformC2 {p q p' q' : Type} [Fintype o] [Fintype v] [Fintype p] [Fintype q] (c2 : T2 o p v q K) (uo : o → o' → K)
    (uo2 : p → p' → K) (tv : v → v' → K) (tv2 : q → q' → K) : T2 o' p' v' q' K :=
  fun i j a b => ∑ k, ∑ l, ∑ c, ∑ d, c2 k l c d * uo k i * uo2 l j * tv c a * tv2 d b

/-- `scipy.linalg.block_diag(to, tv)` (ccsd.py:217, 390). -/
def blockDiag (uo : o → o' → K) (tv : v → v' → K) : o ⊕ v → o' ⊕ v' → K
  | .inl i, .inl j => uo i j
  | .inr a, .inr b => tv a b
  | _, _ => 0

/-- `dot(c, t)`. -/
def dotC {ao n m : Type} [Fintype n] (c : ao → n → K) (t : n → m → K) : ao → m → K := fun μ j => ∑ i, c μ i * t i j

end

section Restricted
variable {ao o v o' v' K : Type} [CommRing K] [Fintype o] [Fintype v]

/-- Orbital coefficients and amplitudes of an unprojected `RCCSD_WaveFunction`. -/
structure RWf (ao o v K : Type) where
  coeff : ao → o ⊕ v → K
  t1 : T1 o v K
  t2 : T2 o o v v K
  l1 : Option (T1 o v K)
  l2 : Option (T2 o o v v K)

/-- `RCCSD_WaveFunction.rotate_ov` (ccsd.py:206-224); `inplace` only decides whether a copy is modified. -/
def RWf.rotateOv (w : RWf ao o v K) (uo : o → o' → K) (tv : v → v' → K) : RWf ao o' v' K :=
  ⟨dotC w.coeff (blockDiag uo tv), transformC1 w.t1 uo tv, transformC2 w.t2 uo uo tv tv, w.l1.map fun l => transformC1 l uo tv,
    w.l2.map fun l => transformC2 l uo uo tv tv⟩

end Restricted

section RotateFull
variable {ao o v K : Type} [Field K] [LinearOrder K] [Fintype o] [Fintype v] [DecidableEq o] [DecidableEq v]

/-- `RCCSD_WaveFunction.rotate` (ccsd.py:190-204). `abs(tov).max() > 1e-12` or the same for `tvo` raises ValueError; `max` of an
array without elements (no occupied or no virtual orbitals) raises ValueError too. -/
def RWf.rotate (tol : K) (w : RWf ao o v K) (t : o ⊕ v → o ⊕ v → K) : Except PyErr (RWf ao o v K) :=
  if Fintype.card o = 0 ∨ Fintype.card v = 0 then .error .valueError
  else if (∃ i a, tol < |t (.inl i) (.inr a)|) ∨ (∃ i a, tol < |t (.inr a) (.inl i)|) then .error .valueError
  else .ok (w.rotateOv (fun i j => t (.inl i) (.inl j)) (fun a b => t (.inr a) (.inr b)))

end RotateFull

section Unrestricted
variable {ao oa ob va vb K : Type} [CommRing K] [Fintype oa] [Fintype ob] [Fintype va] [Fintype vb]

/-- Orbital coefficients and cluster amplitudes of an unprojected `UCCSD_WaveFunction`; the lambda amplitudes are transformed in
the same way as the cluster amplitudes and are left out. -/
structure UWf (ao oa ob va vb K : Type) where
  coeffA : ao → oa ⊕ va → K
  coeffB : ao → ob ⊕ vb → K
  t1 : T1 oa va K × T1 ob vb K
  t2 : UC2 oa ob va vb K

/-- `transform_uc2` (project.py:88-98). -/
def transformUC2 (c2 : UC2 oa ob va vb K) (uo : (oa → oa → K) × (ob → ob → K)) (tv : (va → va → K) × (vb → vb → K)) :
    UC2 oa ob va vb K :=
  match c2 with
  | .three c => .three ⟨transformC2 c.aa uo.1 uo.1 tv.1 tv.1, transformC2 c.ab uo.1 uo.2 tv.1 tv.2, transformC2 c.bb uo.2 uo.2 tv.2 tv.2⟩
  | .four c => .four ⟨transformC2 c.aa uo.1 uo.1 tv.1 tv.1, transformC2 c.ab uo.1 uo.2 tv.1 tv.2,
      transformC2 c.ba uo.2 uo.1 tv.2 tv.1, transformC2 c.bb uo.2 uo.2 tv.2 tv.2⟩

/-- `UCCSD_WaveFunction.rotate_ov` (ccsd.py:375-399) with separate rotations for the two spins. Line 390 builds
`trafo = [lambda c: dot(c, x) for x in (xa, xb)]`: both functions look `x` up when they are called, i.e. after the comprehension
has finished, and both see `xb`. The alpha coefficients are therefore multiplied by the beta rotation. `pos` identifies alpha and
beta orbital positions; `none`: different numbers of orbitals, `dot` raises ValueError. -/
def UWf.rotateOv (pos : Option ((oa ⊕ va) ≃ (ob ⊕ vb))) (w : UWf ao oa ob va vb K) (uo : (oa → oa → K) × (ob → ob → K))
    (tv : (va → va → K) × (vb → vb → K)) : Except PyErr (UWf ao oa ob va vb K) :=
  let xb := blockDiag uo.2 tv.2
  match pos with
  | none => .error .valueError
  | some e =>
    .ok ⟨dotC w.coeffA (fun i j => xb (e i) (e j)), dotC w.coeffB xb,
      (transformC1 w.t1.1 uo.1 tv.1, transformC1 w.t1.2 uo.2 tv.2), transformUC2 w.t2 uo tv⟩

end Unrestricted

end Vayesta.Rotate
