import Verif.Model.Tailor
import Mathlib.LinearAlgebra.Matrix.Kronecker
import Mathlib.LinearAlgebra.Matrix.Notation
import Mathlib.Algebra.BigOperators.Ring.Finset
import Mathlib.Algebra.BigOperators.Ring.List
import Mathlib.Algebra.BigOperators.Fin
import Mathlib.Algebra.BigOperators.Group.List.Basic
import Mathlib.Algebra.Order.Ring.Rat
import Mathlib.Algebra.Order.Field.Basic
import Mathlib.Algebra.Order.BigOperators.Group.Finset
import Mathlib.Tactic.Ring
import Mathlib.Tactic.Abel
import Mathlib.Tactic.FieldSimp
import Mathlib.Tactic.LinearCombination
import Mathlib.Tactic.NoncommRing
import Mathlib.Tactic.NormNum
import Mathlib.Tactic.FinCases

/-! C67: tailoring of CCSD amplitudes with those of other fragments; C71: external corrections. -/

namespace Vayesta.Props
open Tailor Matrix
open scoped Kronecker

/-! ## Specification: amplitudes and spaces independent of the choice of orbitals -/

section Spec
variable {K : Type} [Field K] {nao : Nat}

/-- Singles amplitudes in the atomic-orbital basis. -/
def aoAmp1 (x : Orbs nao K) (t : Matrix (Fin x.no) (Fin x.nv) K) : Matrix (Fin nao) (Fin nao) K := x.occ * t * x.virᵀ

/-- Doubles amplitudes in the atomic-orbital basis; the first electron in orbitals `x`, the second in orbitals `x'`. -/
def aoAmp2 (x x' : Orbs nao K) (t : Amp2 x.no x'.no x.nv x'.nv K) : Amp2 nao nao nao nao K :=
  (x.occ ⊗ₖ x'.occ) * t * (x.vir ⊗ₖ x'.vir)ᵀ

/-- Projector onto the occupied orbitals, the virtual orbitals, the fragment orbitals. -/
def occSpace (S : Matrix (Fin nao) (Fin nao) K) (x : Orbs nao K) : Matrix (Fin nao) (Fin nao) K := x.occ * x.occᵀ * S
def virSpace (S : Matrix (Fin nao) (Fin nao) K) (x : Orbs nao K) : Matrix (Fin nao) (Fin nao) K := x.vir * x.virᵀ * S
def fragSpace (S : Matrix (Fin nao) (Fin nao) K) (x : Orbs nao K) : Matrix (Fin nao) (Fin nao) K := x.frag * x.fragᵀ * S

/-- Exchange of the two electrons. -/
def exchangePair (t : Amp2 nao nao nao nao K) : Amp2 nao nao nao nao K := Matrix.of fun ji ba => t (ji.2, ji.1) (ba.2, ba.1)

/-- Correction of T1 by a fragment: the difference to the amplitudes in the cluster of the fragment, with the occupied index projected
onto the fragment unless there are no projectors, restricted to cluster `x`. -/
def correction1 (S : Matrix (Fin nao) (Fin nao) K) (project : Int) (x y : Orbs nao K)
    (τy τ : Matrix (Fin nao) (Fin nao) K) : Matrix (Fin nao) (Fin nao) K :=
  let D := τy - occSpace S y * τ * (virSpace S y)ᵀ
  occSpace S x * (if project = 0 then D else occSpace S y * fragSpace S y * D) * (virSpace S x)ᵀ

/-- Difference of T2 in the cluster of a fragment. -/
def difference2 (S : Matrix (Fin nao) (Fin nao) K) (y y' : Orbs nao K) (τy τ : Amp2 nao nao nao nao K) : Amp2 nao nao nao nao K :=
  τy - (occSpace S y ⊗ₖ occSpace S y') * τ * (virSpace S y ⊗ₖ virSpace S y')ᵀ

/-- Correction of T2 for two electrons of the same kind: with one projector, the projection of the first electron is symmetrised. -/
def correction2 (S : Matrix (Fin nao) (Fin nao) K) (project : Int) (x y : Orbs nao K) (τy τ : Amp2 nao nao nao nao K) :
    Amp2 nao nao nao nao K :=
  let D := difference2 S y y τy τ
  let G := occSpace S y * fragSpace S y
  (occSpace S x ⊗ₖ occSpace S x) *
    (if project = 0 then D
      else if project = 1 then (1 / 2 : K) • ((G ⊗ₖ 1) * D + exchangePair ((G ⊗ₖ 1) * D))
      else (G ⊗ₖ G) * D) * (virSpace S x ⊗ₖ virSpace S x)ᵀ

/-- Correction of T2 for electrons of different spin: with one projector, the average of projecting either electron. -/
def correction2ab (S : Matrix (Fin nao) (Fin nao) K) (project : Int) (x y x' y' : Orbs nao K) (τy τ : Amp2 nao nao nao nao K) :
    Amp2 nao nao nao nao K :=
  let D := difference2 S y y' τy τ
  let G := occSpace S y * fragSpace S y
  let G' := occSpace S y' * fragSpace S y'
  (occSpace S x ⊗ₖ occSpace S x') *
    (if project = 0 then D
      else if project = 1 then (1 / 2 : K) • ((G ⊗ₖ 1) * D + (1 ⊗ₖ G') * D)
      else (G ⊗ₖ G') * D) * (virSpace S x ⊗ₖ virSpace S x')ᵀ

end Spec

/-! ## Einsums as matrix products -/

section Einsum
variable {K : Type} [Field K] {o o' v v' p p' q q' : Nat}

private theorem transform1_eq (t : Matrix (Fin o) (Fin v) K) (uo : Matrix (Fin o) (Fin p) K) (uv : Matrix (Fin v) (Fin q) K) :
    transform1 t uo uv = uoᵀ * t * uv := by
  ext x y
  simp only [transform1, Matrix.of_apply, Matrix.mul_apply, Matrix.transpose_apply, Finset.sum_mul]
  rw [Finset.sum_comm]
  refine Finset.sum_congr rfl fun a _ => Finset.sum_congr rfl fun i _ => ?_
  ring

private theorem transform2_eq (t : Amp2 o o' v v' K) (uo : Matrix (Fin o) (Fin p) K) (uv : Matrix (Fin v) (Fin q) K)
    (uo2 : Matrix (Fin o') (Fin p') K) (uv2 : Matrix (Fin v') (Fin q') K) :
    transform2 t uo uv uo2 uv2 = (uo ⊗ₖ uo2)ᵀ * t * (uv ⊗ₖ uv2) := by
  ext ⟨x, y⟩ ⟨z, w⟩
  simp only [transform2, Matrix.of_apply, Matrix.mul_apply, Matrix.transpose_apply, Finset.sum_mul, Matrix.kroneckerMap_apply,
    Fintype.sum_prod_type]
  have : ∀ i j, (∑ a, ∑ b, t (i, j) (a, b) * uo i x * uo2 j y * uv a z * uv2 b w)
      = ∑ a, ∑ b, uo i x * uo2 j y * t (i, j) (a, b) * (uv a z * uv2 b w) := by
    intro i j
    refine Finset.sum_congr rfl fun a _ => Finset.sum_congr rfl fun b _ => ?_
    ring
  simp only [this]
  have h1 : ∀ i : Fin o, (∑ j, ∑ a, ∑ b, uo i x * uo2 j y * t (i, j) (a, b) * (uv a z * uv2 b w))
      = ∑ a, ∑ b, ∑ j, uo i x * uo2 j y * t (i, j) (a, b) * (uv a z * uv2 b w) := by
    intro i
    rw [Finset.sum_comm]
    exact Finset.sum_congr rfl fun a _ => Finset.sum_comm
  simp only [h1]
  rw [Finset.sum_comm]
  exact Finset.sum_congr rfl fun a _ => Finset.sum_comm

private theorem projFirst_eq (P : Matrix (Fin p) (Fin o) K) (t : Amp2 o o' v v' K) :
    projFirst P t = (P ⊗ₖ (1 : Matrix (Fin o') (Fin o') K)) * t := by
  ext ⟨x, j⟩ ab
  simp only [projFirst, Matrix.of_apply, Matrix.mul_apply, Matrix.kroneckerMap_apply, Fintype.sum_prod_type, Matrix.one_apply]
  refine Finset.sum_congr rfl fun i _ => ?_
  simp

private theorem projSecond_eq (P : Matrix (Fin p) (Fin o') K) (t : Amp2 o o' v v' K) :
    projSecond P t = ((1 : Matrix (Fin o) (Fin o) K) ⊗ₖ P) * t := by
  ext ⟨i, x⟩ ab
  simp only [projSecond, Matrix.of_apply, Matrix.mul_apply, Matrix.kroneckerMap_apply, Fintype.sum_prod_type, Matrix.one_apply]
  rw [Finset.sum_comm]
  refine Finset.sum_congr rfl fun j _ => ?_
  simp

private theorem projBoth_eq (P : Matrix (Fin p) (Fin o) K) (P' : Matrix (Fin p') (Fin o') K) (t : Amp2 o o' v v' K) :
    projBoth P P' t = (P ⊗ₖ P') * t := by
  ext ⟨x, y⟩ ab
  simp only [projBoth, Matrix.of_apply, Matrix.mul_apply, Matrix.kroneckerMap_apply, Fintype.sum_prod_type]

/-- Exchange of electrons of Kronecker products. -/
private theorem swap_kron (A : Matrix (Fin p) (Fin o) K) (B : Matrix (Fin p') (Fin o') K) (t : Amp2 o o' v v' K)
    (C : Matrix (Fin v) (Fin q) K) (D : Matrix (Fin v') (Fin q') K) :
    swapPairs ((A ⊗ₖ B) * t * (C ⊗ₖ D)) = (B ⊗ₖ A) * swapPairs t * (D ⊗ₖ C) := by
  ext ⟨y, x⟩ ⟨w, z⟩
  simp only [swapPairs, Matrix.of_apply, Matrix.mul_apply, Matrix.kroneckerMap_apply, Fintype.sum_prod_type, Finset.sum_mul]
  rw [Finset.sum_comm]
  refine Finset.sum_congr rfl fun b _ => Finset.sum_congr rfl fun a _ => ?_
  rw [Finset.sum_comm]
  refine Finset.sum_congr rfl fun j _ => Finset.sum_congr rfl fun i _ => ?_
  ring

private theorem swap_kron_left (A : Matrix (Fin p) (Fin o) K) (B : Matrix (Fin p') (Fin o') K) (t : Amp2 o o' v v' K) :
    swapPairs ((A ⊗ₖ B) * t) = (B ⊗ₖ A) * swapPairs t := by
  have := swap_kron A B t (1 : Matrix (Fin v) (Fin v) K) (1 : Matrix (Fin v') (Fin v') K)
  simpa using this

private theorem swap_add (s t : Amp2 o o' v v' K) : swapPairs (s + t) = swapPairs s + swapPairs t := by
  ext ij ab; simp [swapPairs]

private theorem swap_sub (s t : Amp2 o o' v v' K) : swapPairs (s - t) = swapPairs s - swapPairs t := by
  ext ij ab; simp [swapPairs]

private theorem swap_smul (c : K) (t : Amp2 o o' v v' K) : swapPairs (c • t) = c • swapPairs t := by
  ext ij ab; simp [swapPairs]

private theorem swap_swap (t : Amp2 o o' v v' K) : swapPairs (swapPairs t) = t := rfl

private theorem kron_T (A : Matrix (Fin p) (Fin o) K) (B : Matrix (Fin p') (Fin o') K) : (A ⊗ₖ B)ᵀ = Aᵀ ⊗ₖ Bᵀ := by
  ext ⟨i, j⟩ ⟨k, l⟩; rfl

private theorem projectSame_ok (k : Int) (P : Matrix (Fin o) (Fin o) K) (t r : Amp2 o o v v K) :
    projectSame k P t = .ok r ↔ (k = 0 ∨ k = 1 ∨ k = 2) ∧ r = if k = 0 then t
      else if k = 1 then (1 / 2 : K) • ((P ⊗ₖ 1) * t + swapPairs ((P ⊗ₖ 1) * t)) else (P ⊗ₖ P) * t := by
  have e : (Matrix.of fun ij ab => (projFirst P t ij ab + swapPairs (projFirst P t) ij ab) / 2)
      = (1 / 2 : K) • ((P ⊗ₖ 1) * t + swapPairs ((P ⊗ₖ 1) * t)) := by
    rw [← projFirst_eq]
    ext ij ab
    simp [div_eq_inv_mul]
  unfold projectSame
  rw [e]
  by_cases h0 : k = 0
  · subst h0; simp [eq_comm]
  by_cases h1 : k = 1
  · subst h1; simp [eq_comm]
  by_cases h2 : k = 2
  · subst h2; simp [eq_comm, projBoth_eq]
  · simp [h0, h1, h2]

private theorem projectMixed_ok (k : Int) (P : Matrix (Fin o) (Fin o) K) (P' : Matrix (Fin o') (Fin o') K) (t r : Amp2 o o' v v' K) :
    projectMixed k P P' t = .ok r ↔ (k = 0 ∨ k = 1 ∨ k = 2) ∧ r = if k = 0 then t
      else if k = 1 then (1 / 2 : K) • ((P ⊗ₖ 1) * t + (1 ⊗ₖ P') * t) else (P ⊗ₖ P') * t := by
  have e : (Matrix.of fun ij ab => (projFirst P t ij ab + projSecond P' t ij ab) / 2)
      = (1 / 2 : K) • ((P ⊗ₖ 1) * t + (1 ⊗ₖ P') * t) := by
    rw [← projFirst_eq, ← projSecond_eq]
    ext ij ab
    simp [div_eq_inv_mul]
  unfold projectMixed
  rw [e]
  by_cases h0 : k = 0
  · subst h0; simp [eq_comm]
  by_cases h1 : k = 1
  · subst h1; simp [eq_comm]
  by_cases h2 : k = 2
  · subst h2; simp [eq_comm, projBoth_eq]
  · simp [h0, h1, h2]

private theorem projectU_ok (k : Int) (hk : k = 0 ∨ k = 1 ∨ k = 2) (P : Matrix (Fin o) (Fin o) K) (P' : Matrix (Fin o') (Fin o') K)
    (t : Amp2 o o v v K × Amp2 o o' v v' K × Amp2 o' o' v' v' K) :
    ∃ aa ab bb, projectSame k P t.1 = .ok aa ∧ projectMixed k P P' t.2.1 = .ok ab ∧ projectSame k P' t.2.2 = .ok bb ∧
      projectU k P P' t = .ok (aa, ab, bb) := by
  have haa := (projectSame_ok k P t.1 _).2 ⟨hk, rfl⟩
  have hab := (projectMixed_ok k P P' t.2.1 _).2 ⟨hk, rfl⟩
  have hbb := (projectSame_ok k P' t.2.2 _).2 ⟨hk, rfl⟩
  refine ⟨_, _, _, haa, hab, hbb, ?_⟩
  unfold projectU
  by_cases h0 : k = 0
  · subst h0; simp
  · rw [if_neg h0, haa, hab, hbb]; rfl

private theorem projectSame_err (k : Int) (P : Matrix (Fin o) (Fin o) K) (t : Amp2 o o v v K) (h0 : k ≠ 0) (h1 : k ≠ 1)
    (h2 : k ≠ 2) : projectSame k P t = .error .valueError := by
  simp [projectSame, h0, h1, h2]

end Einsum

/-! ## Corrections in the atomic-orbital basis -/

section AO
variable {K : Type} [Field K] {nao : Nat} (S : Matrix (Fin nao) (Fin nao) K) (hS : Sᵀ = S)

private theorem occ_r (x y : Orbs nao K) : x.occ * rOcc S x y = occSpace S x * y.occ := by
  simp only [rOcc, occSpace, Matrix.mul_assoc]

private theorem vir_r (x y : Orbs nao K) : x.vir * rVir S x y = virSpace S x * y.vir := by
  simp only [rVir, virSpace, Matrix.mul_assoc]

include hS in
private theorem r_occ (x y : Orbs nao K) : y.occ * (rOcc S x y)ᵀ = occSpace S y * x.occ := by
  simp only [rOcc, occSpace, Matrix.transpose_mul, Matrix.transpose_transpose, hS, Matrix.mul_assoc]

include hS in
private theorem r_vir (x y : Orbs nao K) : y.vir * (rVir S x y)ᵀ = virSpace S y * x.vir := by
  simp only [rVir, virSpace, Matrix.transpose_mul, Matrix.transpose_transpose, hS, Matrix.mul_assoc]

include hS in
private theorem occ_proj (y : Orbs nao K) : y.occ * fragProjOcc S y = occSpace S y * fragSpace S y * y.occ := by
  simp only [fragProjOcc, occSpace, fragSpace, Matrix.transpose_mul, Matrix.transpose_transpose, hS, Matrix.mul_assoc]

include hS in
/-- The T1 amplitudes of cluster `x` in the cluster of a fragment. -/
private theorem ao_forward1 (x y : Orbs nao K) (t) :
    aoAmp1 y (transform1 t (rOcc S x y) (rVir S x y)) = occSpace S y * aoAmp1 x t * (virSpace S y)ᵀ := by
  rw [transform1_eq, aoAmp1, aoAmp1]
  calc y.occ * ((rOcc S x y)ᵀ * t * rVir S x y) * y.virᵀ
      = (y.occ * (rOcc S x y)ᵀ) * t * (y.vir * (rVir S x y)ᵀ)ᵀ := by
        simp only [Matrix.transpose_mul, Matrix.transpose_transpose, Matrix.mul_assoc]
    _ = _ := by
        rw [r_occ S hS, r_vir S hS]
        simp only [Matrix.transpose_mul, Matrix.mul_assoc]

private theorem ao_backward1 (x y : Orbs nao K) (d) :
    aoAmp1 x (transform1 d (rOcc S x y)ᵀ (rVir S x y)ᵀ) = occSpace S x * aoAmp1 y d * (virSpace S x)ᵀ := by
  rw [transform1_eq, aoAmp1, aoAmp1, Matrix.transpose_transpose]
  calc x.occ * (rOcc S x y * d * (rVir S x y)ᵀ) * x.virᵀ
      = (x.occ * rOcc S x y) * d * (x.vir * rVir S x y)ᵀ := by
        simp only [Matrix.transpose_mul, Matrix.mul_assoc]
    _ = _ := by
        rw [occ_r, vir_r]
        simp only [Matrix.transpose_mul, Matrix.mul_assoc]

private theorem aoAmp1_sub (x : Orbs nao K) (s t) : aoAmp1 x (s - t) = aoAmp1 x s - aoAmp1 x t := by
  simp only [aoAmp1, Matrix.mul_sub, Matrix.sub_mul]

private theorem aoAmp1_add (x : Orbs nao K) (s t) : aoAmp1 x (s + t) = aoAmp1 x s + aoAmp1 x t := by
  simp only [aoAmp1, Matrix.mul_add, Matrix.add_mul]

private theorem aoAmp2_sub (x x' : Orbs nao K) (s t) : aoAmp2 x x' (s - t) = aoAmp2 x x' s - aoAmp2 x x' t := by
  simp only [aoAmp2, Matrix.mul_sub, Matrix.sub_mul]

private theorem aoAmp2_add (x x' : Orbs nao K) (s t) : aoAmp2 x x' (s + t) = aoAmp2 x x' s + aoAmp2 x x' t := by
  simp only [aoAmp2, Matrix.mul_add, Matrix.add_mul]

private theorem aoAmp2_smul (x x' : Orbs nao K) (c : K) (t) : aoAmp2 x x' (c • t) = c • aoAmp2 x x' t := by
  simp only [aoAmp2, Matrix.mul_smul, Matrix.smul_mul]

private theorem aoAmp2_swap (x : Orbs nao K) (t) : aoAmp2 x x (swapPairs t) = exchangePair (aoAmp2 x x t) := by
  have := swap_kron x.occ x.occ t x.virᵀ x.virᵀ
  rw [aoAmp2, aoAmp2, kron_T]
  exact this.symm

include hS in
private theorem ao_forward2 (x y x' y' : Orbs nao K) (t) :
    aoAmp2 y y' (transform2 t (rOcc S x y) (rVir S x y) (rOcc S x' y') (rVir S x' y'))
      = (occSpace S y ⊗ₖ occSpace S y') * aoAmp2 x x' t * (virSpace S y ⊗ₖ virSpace S y')ᵀ := by
  rw [transform2_eq, aoAmp2, aoAmp2]
  calc (y.occ ⊗ₖ y'.occ) * ((rOcc S x y ⊗ₖ rOcc S x' y')ᵀ * t * (rVir S x y ⊗ₖ rVir S x' y')) * (y.vir ⊗ₖ y'.vir)ᵀ
      = ((y.occ ⊗ₖ y'.occ) * ((rOcc S x y)ᵀ ⊗ₖ (rOcc S x' y')ᵀ)) * t
          * ((y.vir ⊗ₖ y'.vir) * ((rVir S x y)ᵀ ⊗ₖ (rVir S x' y')ᵀ))ᵀ := by
        simp only [Matrix.transpose_mul, Matrix.mul_assoc, kron_T, Matrix.transpose_transpose]
    _ = _ := by
        rw [← Matrix.mul_kronecker_mul, ← Matrix.mul_kronecker_mul, r_occ S hS, r_vir S hS, r_occ S hS, r_vir S hS,
          Matrix.mul_kronecker_mul, Matrix.mul_kronecker_mul]
        simp only [Matrix.transpose_mul, Matrix.mul_assoc]

private theorem ao_backward2 (x y x' y' : Orbs nao K) (d) :
    aoAmp2 x x' (transform2 d (rOcc S x y)ᵀ (rVir S x y)ᵀ (rOcc S x' y')ᵀ (rVir S x' y')ᵀ)
      = (occSpace S x ⊗ₖ occSpace S x') * aoAmp2 y y' d * (virSpace S x ⊗ₖ virSpace S x')ᵀ := by
  rw [transform2_eq, aoAmp2, aoAmp2]
  calc (x.occ ⊗ₖ x'.occ) * (((rOcc S x y)ᵀ ⊗ₖ (rOcc S x' y')ᵀ)ᵀ * d * ((rVir S x y)ᵀ ⊗ₖ (rVir S x' y')ᵀ)) * (x.vir ⊗ₖ x'.vir)ᵀ
      = ((x.occ ⊗ₖ x'.occ) * (rOcc S x y ⊗ₖ rOcc S x' y')) * d
          * ((x.vir ⊗ₖ x'.vir) * (rVir S x y ⊗ₖ rVir S x' y'))ᵀ := by
        simp only [Matrix.transpose_mul, Matrix.mul_assoc, kron_T, Matrix.transpose_transpose]
    _ = _ := by
        rw [← Matrix.mul_kronecker_mul, ← Matrix.mul_kronecker_mul, occ_r, vir_r, occ_r, vir_r,
          Matrix.mul_kronecker_mul, Matrix.mul_kronecker_mul]
        simp only [Matrix.transpose_mul, Matrix.mul_assoc]

include hS in
private theorem ao_projBoth (y y' : Orbs nao K) (d) :
    aoAmp2 y y' ((fragProjOcc S y ⊗ₖ fragProjOcc S y') * d)
      = ((occSpace S y * fragSpace S y) ⊗ₖ (occSpace S y' * fragSpace S y')) * aoAmp2 y y' d := by
  rw [aoAmp2, aoAmp2, ← Matrix.mul_assoc, ← Matrix.mul_assoc, ← Matrix.mul_assoc, ← Matrix.mul_kronecker_mul,
    ← Matrix.mul_kronecker_mul, occ_proj S hS, occ_proj S hS]

include hS in
private theorem ao_projFirst (y y' : Orbs nao K) (d) :
    aoAmp2 y y' ((fragProjOcc S y ⊗ₖ 1) * d) = ((occSpace S y * fragSpace S y) ⊗ₖ 1) * aoAmp2 y y' d := by
  rw [aoAmp2, aoAmp2, ← Matrix.mul_assoc, ← Matrix.mul_assoc, ← Matrix.mul_assoc, ← Matrix.mul_kronecker_mul,
    ← Matrix.mul_kronecker_mul, occ_proj S hS, Matrix.mul_one, Matrix.one_mul]

include hS in
private theorem ao_projSecond (y y' : Orbs nao K) (d) :
    aoAmp2 y y' ((1 ⊗ₖ fragProjOcc S y') * d) = (1 ⊗ₖ (occSpace S y' * fragSpace S y')) * aoAmp2 y y' d := by
  rw [aoAmp2, aoAmp2, ← Matrix.mul_assoc, ← Matrix.mul_assoc, ← Matrix.mul_assoc, ← Matrix.mul_kronecker_mul,
    ← Matrix.mul_kronecker_mul, occ_proj S hS, Matrix.mul_one, Matrix.one_mul]

end AO

section AOdelta
variable {K : Type} [Field K] [LinearOrder K] {nao : Nat} (S : Matrix (Fin nao) (Fin nao) K) (hS : Sᵀ = S)

include hS in
omit [LinearOrder K] in
private theorem ao_delta1 (k : Int) (x y : Orbs nao K) (ty t) :
    aoAmp1 x (delta1 S k x y ty t) = correction1 S k x y (aoAmp1 y ty) (aoAmp1 x t) := by
  simp only [delta1, correction1]
  rw [ao_backward1]
  congr 2
  by_cases hk : k = 0
  · rw [if_pos hk, if_pos hk, aoAmp1_sub, ao_forward1 S hS]
  · rw [if_neg hk, if_neg hk, ← ao_forward1 S hS, ← aoAmp1_sub]
    rw [aoAmp1, aoAmp1, ← Matrix.mul_assoc, occ_proj S hS]
    simp only [Matrix.mul_assoc]

include hS in
omit [LinearOrder K] in
private theorem ao_delta2R (k : Int) (x : Orbs nao K) (y : FragR nao K) (t r) (h : delta2R S k x y t = .ok r) :
    aoAmp2 x x r = correction2 S k x y.toOrbs (aoAmp2 y.toOrbs y.toOrbs y.t2) (aoAmp2 x x t) := by
  simp only [delta2R] at h
  generalize hd : projectSame (K := K) k (fragProjOcc S y.toOrbs) _ = d at h
  cases d with
  | error e => simp [Except.map] at h
  | ok d =>
    simp only [Except.map, Except.ok.injEq] at h
    subst h
    obtain ⟨hk, hd⟩ := (projectSame_ok _ _ _ _).1 hd
    rw [ao_backward2, correction2]
    congr 2
    rw [hd]
    rcases hk with rfl | rfl | rfl
    · simp only [if_true]; rw [aoAmp2_sub, ao_forward2 S hS]; rfl
    · simp only [one_ne_zero, if_false, if_true]
      rw [aoAmp2_smul, aoAmp2_add, aoAmp2_swap, ao_projFirst S hS, aoAmp2_sub, ao_forward2 S hS]; rfl
    · simp only [OfNat.ofNat_ne_zero, OfNat.ofNat_ne_one, if_false]
      rw [ao_projBoth S hS, aoAmp2_sub, ao_forward2 S hS]; rfl

end AOdelta

/-! ## C67, restricted -/

section Restricted
variable {K : Type} [Field K] [LinearOrder K] {nao : Nat}

/-- Neither all occupied nor all virtual orbitals of two clusters have overlaps below the tolerance. -/
def Overlapping (S : Matrix (Fin nao) (Fin nao) K) (tol : K) (x y : Orbs nao K) : Prop :=
  (∃ i j, tol ≤ |(x.occᵀ * S * y.occ) i j|) ∧ ∃ i j, tol ≤ |(x.virᵀ * S * y.vir) i j|

/-- A cluster with at least one occupied and one virtual orbital. -/
def HasOrbitals (x : Orbs nao K) : Prop := 0 < x.no ∧ 0 < x.nv

private theorem skipR_eq (S : Matrix (Fin nao) (Fin nao) K) (tol : K) (x y : Orbs nao K) (hx : HasOrbitals x) (hy : HasOrbitals y) :
    ∃ b, skipR S tol x y = .ok b ∧ (b = true ↔ ¬ Overlapping S tol x y) := by
  have h1 : ¬ (x.no * y.no = 0 ∨ x.nv * y.nv = 0) := by
    simp only [Nat.mul_eq_zero, not_or]
    exact ⟨⟨hx.1.ne', hy.1.ne'⟩, hx.2.ne', hy.2.ne'⟩
  refine ⟨_, by rw [skipR, if_neg h1], ?_⟩
  simp only [Bool.or_eq_true, allBelow, decide_eq_true_eq, Overlapping, not_and_or, not_exists, not_le]
  rfl

private theorem skipR_err (S : Matrix (Fin nao) (Fin nao) K) (tol : K) (x y : Orbs nao K) (h : ¬ (HasOrbitals x ∧ HasOrbitals y)) :
    skipR S tol x y = .error .valueError := by
  have h1 : x.no * y.no = 0 ∨ x.nv * y.nv = 0 := by
    by_contra hc
    simp only [Nat.mul_eq_zero, not_or] at hc
    exact h ⟨⟨Nat.pos_of_ne_zero hc.1.1, Nat.pos_of_ne_zero hc.2.1⟩, Nat.pos_of_ne_zero hc.1.2, Nat.pos_of_ne_zero hc.2.2⟩
  rw [skipR, if_pos h1]

private theorem deltasR_error (S : Matrix (Fin nao) (Fin nao) K) (k tol x t1 t2) (l : List (FragR nao K)) (e) :
    deltasR S k tol x t1 t2 l (.error e) = .error e := by
  induction l with
  | nil => rfl
  | cons y l ih => rw [deltasR]; exact ih

open Classical in
/-- The T2 correction of a fragment or zero. -/
private noncomputable def d2val (S : Matrix (Fin nao) (Fin nao) K) (k : Int) (tol : K) (x : Orbs nao K)
    (t2 : Amp2 x.no x.no x.nv x.nv K) (y : FragR nao K) : Amp2 x.no x.no x.nv x.nv K :=
  if Overlapping S tol x y.toOrbs then (delta2R S k x y t2).toOption.getD 0 else 0

open Classical in
private noncomputable def d1val (S : Matrix (Fin nao) (Fin nao) K) (k : Int) (tol : K) (x : Orbs nao K)
    (t1 : Matrix (Fin x.no) (Fin x.nv) K) (y : FragR nao K) : Matrix (Fin x.no) (Fin x.nv) K :=
  if Overlapping S tol x y.toOrbs then delta1 S k x y.toOrbs y.t1 t1 else 0

/-- The number of projectors is supported. -/
def ValidProjectors (k : Int) : Prop := k = 0 ∨ k = 1 ∨ k = 2

omit [LinearOrder K] in
private theorem delta2R_cases (S : Matrix (Fin nao) (Fin nao) K) (k : Int) (x : Orbs nao K) (y : FragR nao K) (t2) :
    (ValidProjectors k ∧ ∃ d, delta2R S k x y t2 = .ok d) ∨ (¬ ValidProjectors k ∧ delta2R S k x y t2 = .error .valueError) := by
  by_cases hk : ValidProjectors k
  · left
    refine ⟨hk, ?_⟩
    simp only [delta2R]
    rw [(projectSame_ok k _ _ _).2 ⟨hk, rfl⟩]
    exact ⟨_, rfl⟩
  · right
    refine ⟨hk, ?_⟩
    simp only [ValidProjectors, not_or] at hk
    simp only [delta2R, projectSame_err k _ _ hk.1 hk.2.1 hk.2.2]
    rfl

private theorem deltasR_ok (S : Matrix (Fin nao) (Fin nao) K) (k tol x t1 t2) (hx : HasOrbitals x) (l : List (FragR nao K))
    (hl : ∀ y ∈ l, HasOrbitals y.toOrbs) (hk : ValidProjectors k ∨ ∀ y ∈ l, ¬ Overlapping S tol x y.toOrbs) (a) :
    deltasR S k tol x t1 t2 l (.ok a)
      = .ok (a.1 + (l.map (d1val S k tol x t1)).sum, a.2 + (l.map (d2val S k tol x t2)).sum) := by
  induction l generalizing a with
  | nil => simp [deltasR]
  | cons y l ih =>
    have hl' : ∀ y ∈ l, HasOrbitals y.toOrbs := fun z hz => hl z (by simp [hz])
    have hk' : ValidProjectors k ∨ ∀ y ∈ l, ¬ Overlapping S tol x y.toOrbs := hk.imp_right fun h z hz => h z (by simp [hz])
    obtain ⟨b, hb, hb'⟩ := skipR_eq S tol x y.toOrbs hx (hl y (by simp))
    rw [deltasR]
    have : ((do
        let a ← (Except.ok a : Except PyErr _)
        let skip ← skipR S tol x y.toOrbs
        if skip then return a
        let d2 ← delta2R S k x y t2
        return (a.1 + delta1 S k x y.toOrbs y.t1 t1, a.2 + d2)) : Except PyErr _)
        = .ok (a.1 + d1val S k tol x t1 y, a.2 + d2val S k tol x t2 y) := by
      rw [hb]
      cases b with
      | true =>
        have ho : ¬ Overlapping S tol x y.toOrbs := hb'.1 rfl
        simp [d1val, d2val, ho, bind, Except.bind, pure, Except.pure]
      | false =>
        have ho : Overlapping S tol x y.toOrbs := by by_contra h; exact Bool.false_ne_true (hb'.2 h)
        rcases delta2R_cases S k x y t2 with ⟨_, d, hd⟩ | ⟨hk2, _⟩
        · simp [d1val, d2val, ho, bind, Except.bind, pure, Except.pure, hd, Except.toOption]
        · rcases hk with hk | hk
          · exact absurd hk hk2
          · exact absurd ho (hk y (by simp))
    rw [this, ih hl' hk']
    simp only [List.map_cons, List.sum_cons, add_assoc]

private theorem deltasR_bad (S : Matrix (Fin nao) (Fin nao) K) (k tol x t1 t2) (l : List (FragR nao K))
    (h : (∃ y ∈ l, ¬ (HasOrbitals x ∧ HasOrbitals y.toOrbs)) ∨ (¬ ValidProjectors k ∧ ∃ y ∈ l, Overlapping S tol x y.toOrbs)) (a) :
    deltasR S k tol x t1 t2 l (.ok a) = .error .valueError := by
  induction l generalizing a with
  | nil => simp at h
  | cons y l ih =>
    rw [deltasR]
    by_cases hy : HasOrbitals x ∧ HasOrbitals y.toOrbs
    · obtain ⟨b, hb, hb'⟩ := skipR_eq S tol x y.toOrbs hy.1 hy.2
      rw [hb]
      have hrest : ¬ Overlapping S tol x y.toOrbs ∨ ValidProjectors k →
          (∃ z ∈ l, ¬ (HasOrbitals x ∧ HasOrbitals z.toOrbs)) ∨ (¬ ValidProjectors k ∧ ∃ z ∈ l, Overlapping S tol x z.toOrbs) := by
        intro hc
        rcases h with ⟨z, hz, hz'⟩ | ⟨hk, z, hz, hz'⟩
        · rcases List.mem_cons.1 hz with rfl | hz
          · exact absurd hy hz'
          · exact .inl ⟨z, hz, hz'⟩
        · rcases List.mem_cons.1 hz with rfl | hz
          · rcases hc with hc | hc
            · exact absurd hz' hc
            · exact absurd hc hk
          · exact .inr ⟨hk, z, hz, hz'⟩
      cases b with
      | true => simpa [bind, Except.bind, pure, Except.pure] using ih (hrest (.inl (hb'.1 rfl))) a
      | false =>
        rcases delta2R_cases S k x y t2 with ⟨hk, d, hd⟩ | ⟨hk2, hd⟩
        · simpa [bind, Except.bind, pure, Except.pure, hd] using ih (hrest (.inr hk)) _
        · simp [bind, Except.bind, hd, deltasR_error]
    · rw [skipR_err S tol x y.toOrbs hy]
      simp [bind, Except.bind, deltasR_error]

/-- When restricted tailoring succeeds: all clusters have occupied and virtual orbitals (unless there are no fragments at all), and the
number of projectors is 0, 1 or 2 (unless no fragment overlaps); otherwise ValueError. -/
theorem tailor_succeeds (S : Matrix (Fin nao) (Fin nao) K) (k : Int) (tol : K) (x : Orbs nao K) (l : List (FragR nao K)) (t1 t2) :
    ((∃ r, tailorR S k tol true true x l t1 t2 = .ok r) ↔
      (∀ y ∈ l, HasOrbitals x ∧ HasOrbitals y.toOrbs) ∧ (ValidProjectors k ∨ ∀ y ∈ l, ¬ Overlapping S tol x y.toOrbs)) ∧
    (∀ e, tailorR S k tol true true x l t1 t2 = .error e → e = .valueError) := by
  by_cases h : (∃ y ∈ l, ¬ (HasOrbitals x ∧ HasOrbitals y.toOrbs)) ∨ (¬ ValidProjectors k ∧ ∃ y ∈ l, Overlapping S tol x y.toOrbs)
  · have := deltasR_bad S k tol x t1 t2 l h (0, 0)
    simp only [tailorR, Bool.and_self, if_true, this, Except.map, reduceCtorEq, exists_false, false_iff, Except.error.injEq]
    refine ⟨?_, fun e he => he.symm⟩
    rintro ⟨h1, h2⟩
    rcases h with ⟨y, hy, hy'⟩ | ⟨hk, y, hy, hy'⟩
    · exact hy' (h1 y hy)
    · rcases h2 with h2 | h2
      · exact hk h2
      · exact h2 y hy hy'
  · have hc : (∀ y ∈ l, HasOrbitals x ∧ HasOrbitals y.toOrbs) ∧ (ValidProjectors k ∨ ∀ y ∈ l, ¬ Overlapping S tol x y.toOrbs) := by
      refine ⟨fun y hy => ?_, ?_⟩
      · by_contra hc; exact h (.inl ⟨y, hy, hc⟩)
      · by_contra hc
        rw [not_or] at hc
        refine h (.inr ⟨hc.1, ?_⟩)
        by_contra hn
        exact hc.2 fun y hy ho => hn ⟨y, hy, ho⟩
    have e : ∃ r, tailorR S k tol true true x l t1 t2 = .ok r := by
      cases l with
      | nil => exact ⟨_, rfl⟩
      | cons y l =>
        simp only [tailorR, Bool.and_self, if_true]
        rw [deltasR_ok S k tol x t1 t2 (hc.1 y (by simp)).1 _ (fun z hz => (hc.1 z hz).2) hc.2]
        exact ⟨_, rfl⟩
    refine ⟨⟨fun _ => hc, fun _ => e⟩, fun e' he' => ?_⟩
    obtain ⟨r, hr⟩ := e
    rw [hr] at he'
    cases he'

private theorem tailorR_ok (S : Matrix (Fin nao) (Fin nao) K) (k tol x t1 t2) (l : List (FragR nao K)) {r}
    (hr : tailorR S k tol true true x l t1 t2 = .ok r) :
    r.1 = t1 + (l.map (d1val S k tol x t1)).sum ∧ r.2 = t2 + (l.map (d2val S k tol x t2)).sum := by
  have hc := (tailor_succeeds S k tol x l t1 t2).1.1 ⟨r, hr⟩
  cases l with
  | nil =>
    simp only [tailorR, deltasR, Except.map, Bool.and_self, if_true, Except.ok.injEq] at hr
    subst hr; simp
  | cons y l =>
    simp only [tailorR, Bool.and_self, if_true] at hr
    rw [deltasR_ok S k tol x t1 t2 (hc.1 y (by simp)).1 _ (fun z hz => (hc.1 z hz).2) hc.2] at hr
    simp only [Except.map, Except.ok.injEq] at hr
    subst hr; simp

omit [LinearOrder K] in
private theorem ao1_sum {α : Type} (x : Orbs nao K) (l : List α) (f : α → _) :
    aoAmp1 x (l.map f).sum = (l.map fun y => aoAmp1 x (f y)).sum := by
  induction l with
  | nil => simp [aoAmp1]
  | cons a l ih => simp only [List.map_cons, List.sum_cons, aoAmp1_add, ih]

omit [LinearOrder K] in
private theorem ao2_sum {α : Type} (x x' : Orbs nao K) (l : List α) (f : α → _) :
    aoAmp2 x x' (l.map f).sum = (l.map fun y => aoAmp2 x x' (f y)).sum := by
  induction l with
  | nil => simp [aoAmp2]
  | cons a l ih => simp only [List.map_cons, List.sum_cons, aoAmp2_add, ih]

open Classical in
/-- C67, restricted: the tailored amplitudes are the original ones plus the corrections of all overlapping fragments, expressed in
atomic orbitals and through projectors only. -/
theorem tailor_restricted (S : Matrix (Fin nao) (Fin nao) K) (hS : Sᵀ = S) (k : Int) (tol : K) (x : Orbs nao K)
    (l : List (FragR nao K)) (t1 t2) {r} (hr : tailorR S k tol true true x l t1 t2 = .ok r) :
    aoAmp1 x r.1 = aoAmp1 x t1 + (l.map fun y => if Overlapping S tol x y.toOrbs
      then correction1 S k x y.toOrbs (aoAmp1 y.toOrbs y.t1) (aoAmp1 x t1) else 0).sum ∧
    aoAmp2 x x r.2 = aoAmp2 x x t2 + (l.map fun y => if Overlapping S tol x y.toOrbs
      then correction2 S k x y.toOrbs (aoAmp2 y.toOrbs y.toOrbs y.t2) (aoAmp2 x x t2) else 0).sum := by
  have hc := (tailor_succeeds S k tol x l t1 t2).1.1 ⟨r, hr⟩
  obtain ⟨h1, h2⟩ := tailorR_ok S k tol x t1 t2 l hr
  constructor
  · rw [h1, aoAmp1_add, ao1_sum]
    congr 2
    refine List.map_congr_left fun y _ => ?_
    unfold d1val
    by_cases ho : Overlapping S tol x y.toOrbs
    · rw [if_pos ho, if_pos ho, ao_delta1 S hS]
    · rw [if_neg ho, if_neg ho]; simp [aoAmp1]
  · rw [h2, aoAmp2_add, ao2_sum]
    congr 2
    refine List.map_congr_left fun y hy => ?_
    unfold d2val
    by_cases ho : Overlapping S tol x y.toOrbs
    · rw [if_pos ho, if_pos ho]
      rcases delta2R_cases S k x y t2 with ⟨_, d, hd⟩ | ⟨hk, _⟩
      · rw [hd, ← ao_delta2R S hS k x y t2 d hd]; rfl
      · rcases hc.2 with hc | hc
        · exact absurd hc hk
        · exact absurd ho (hc y hy)
    · rw [if_neg ho, if_neg ho]; simp [aoAmp2]

/-- The order of the fragments does not matter. -/
theorem tailor_order (S : Matrix (Fin nao) (Fin nao) K) (k : Int) (tol : K) (x : Orbs nao K) (l l' : List (FragR nao K))
    (hl : l.Perm l') (t1 t2) : tailorR S k tol true true x l t1 t2 = tailorR S k tol true true x l' t1 t2 := by
  obtain ⟨h1, h2⟩ := tailor_succeeds S k tol x l t1 t2
  obtain ⟨h1', h2'⟩ := tailor_succeeds S k tol x l' t1 t2
  have hiff : (∃ r, tailorR S k tol true true x l t1 t2 = .ok r) ↔ ∃ r, tailorR S k tol true true x l' t1 t2 = .ok r := by
    rw [h1, h1']
    simp only [hl.mem_iff]
  cases hr : tailorR S k tol true true x l t1 t2 with
  | error e =>
    cases hr' : tailorR S k tol true true x l' t1 t2 with
    | error e' => rw [h2 e hr, h2' e' hr']
    | ok r' => obtain ⟨r, hr2⟩ := hiff.2 ⟨r', hr'⟩; rw [hr] at hr2; cases hr2
  | ok r =>
    obtain ⟨r', hr'⟩ := hiff.1 ⟨r, hr⟩
    rw [hr']
    obtain ⟨a1, a2⟩ := tailorR_ok S k tol x t1 t2 l hr
    obtain ⟨b1, b2⟩ := tailorR_ok S k tol x t1 t2 l' hr'
    congr 1
    refine Prod.ext ?_ ?_
    · rw [a1, b1, (hl.map _).sum_eq]
    · rw [a2, b2, (hl.map _).sum_eq]

/-- If T1 or T2 is not to be tailored, an exception is raised, whatever the fragments; NameError for supported input. -/
theorem tailor_flags_broken (S : Matrix (Fin nao) (Fin nao) K) (k : Int) (tol : K) (f1 f2 : Bool) (hf : (f1 && f2) = false)
    (x : Orbs nao K) (l : List (FragR nao K)) (t1 t2) :
    (∃ e, tailorR S k tol f1 f2 x l t1 t2 = .error e) ∧
    (ValidProjectors k → (∀ y ∈ l, HasOrbitals x ∧ HasOrbitals y.toOrbs) →
      tailorR S k tol f1 f2 x l t1 t2 = .error .nameError) := by
  simp only [tailorR, hf, Bool.false_eq_true, if_false]
  refine ⟨⟨_, rfl⟩, fun hk hl => ?_⟩
  congr 1
  induction l with
  | nil => rfl
  | cons y l ih =>
    obtain ⟨b, hb, _⟩ := skipR_eq S tol x y.toOrbs (hl y (by simp)).1 (hl y (by simp)).2
    rw [flagsOffR, hb]
    cases b with
    | true => exact ih fun z hz => hl z (by simp [hz])
    | false =>
      rcases delta2R_cases S k x y t2 with ⟨_, d, hd⟩ | ⟨hk', _⟩
      · simp [hd]
      · exact absurd hk hk'

/-- Orthonormal orbitals. -/
def OrthonormalCluster (S : Matrix (Fin nao) (Fin nao) K) (x : Orbs nao K) : Prop :=
  x.occᵀ * S * x.occ = 1 ∧ x.virᵀ * S * x.vir = 1

/-- Two clusters with the same occupied and virtual spaces. -/
def SameSpaces (S : Matrix (Fin nao) (Fin nao) K) (x y : Orbs nao K) : Prop :=
  occSpace S x = occSpace S y ∧ virSpace S x = virSpace S y

omit [LinearOrder K] in
private theorem occ_amp1 {S : Matrix (Fin nao) (Fin nao) K} {x : Orbs nao K} (hS : Sᵀ = S) (hx : OrthonormalCluster S x) (t) :
    occSpace S x * aoAmp1 x t = aoAmp1 x t ∧ aoAmp1 x t * (virSpace S x)ᵀ = aoAmp1 x t := by
  have e1 : occSpace S x * x.occ = x.occ := by
    rw [occSpace, Matrix.mul_assoc, Matrix.mul_assoc, ← Matrix.mul_assoc x.occᵀ, hx.1, Matrix.mul_one]
  have e2 : virSpace S x * x.vir = x.vir := by
    rw [virSpace, Matrix.mul_assoc, Matrix.mul_assoc, ← Matrix.mul_assoc x.virᵀ, hx.2, Matrix.mul_one]
  constructor
  · rw [aoAmp1, ← Matrix.mul_assoc, ← Matrix.mul_assoc, e1]
  · rw [aoAmp1, Matrix.mul_assoc, ← Matrix.transpose_mul, e2]

omit [LinearOrder K] in
private theorem occ_amp2 {S : Matrix (Fin nao) (Fin nao) K} {x x' : Orbs nao K} (hx : OrthonormalCluster S x)
    (hx' : OrthonormalCluster S x') (t) :
    (occSpace S x ⊗ₖ 1) * aoAmp2 x x' t = aoAmp2 x x' t ∧ (1 ⊗ₖ occSpace S x') * aoAmp2 x x' t = aoAmp2 x x' t ∧
    (occSpace S x ⊗ₖ occSpace S x') * aoAmp2 x x' t = aoAmp2 x x' t ∧
    aoAmp2 x x' t * (virSpace S x ⊗ₖ virSpace S x')ᵀ = aoAmp2 x x' t := by
  have e1 : ∀ x : Orbs nao K, OrthonormalCluster S x → occSpace S x * x.occ = x.occ := by
    intro x hx
    rw [occSpace, Matrix.mul_assoc, Matrix.mul_assoc, ← Matrix.mul_assoc x.occᵀ, hx.1, Matrix.mul_one]
  have e2 : ∀ x : Orbs nao K, OrthonormalCluster S x → virSpace S x * x.vir = x.vir := by
    intro x hx
    rw [virSpace, Matrix.mul_assoc, Matrix.mul_assoc, ← Matrix.mul_assoc x.virᵀ, hx.2, Matrix.mul_one]
  refine ⟨?_, ?_, ?_, ?_⟩
  · rw [aoAmp2, ← Matrix.mul_assoc, ← Matrix.mul_assoc, ← Matrix.mul_kronecker_mul, e1 x hx, Matrix.one_mul]
  · rw [aoAmp2, ← Matrix.mul_assoc, ← Matrix.mul_assoc, ← Matrix.mul_kronecker_mul, e1 x' hx', Matrix.one_mul]
  · rw [aoAmp2, ← Matrix.mul_assoc, ← Matrix.mul_assoc, ← Matrix.mul_kronecker_mul, e1 x hx, e1 x' hx']
  · rw [aoAmp2, Matrix.mul_assoc, ← Matrix.transpose_mul, ← Matrix.mul_kronecker_mul, e2 x hx, e2 x' hx']

omit [LinearOrder K] in
private theorem sum_mul_left {α : Type} {m n : Type} [Fintype m] [Fintype n] (A : Matrix m m K) (l : List α) (f : α → Matrix m n K) :
    A * (l.map f).sum = (l.map fun y => A * f y).sum := by
  induction l with
  | nil => simp
  | cons a l ih => simp only [List.map_cons, List.sum_cons, Matrix.mul_add, ih]

omit [LinearOrder K] in
private theorem sum_mul_right {α : Type} {m n : Type} [Fintype m] [Fintype n] (A : Matrix m n K) (l : List α) (f : α → Matrix m m K) :
    (l.map f).sum * A = (l.map fun y => f y * A).sum := by
  induction l with
  | nil => simp
  | cons a l ih => simp only [List.map_cons, List.sum_cons, Matrix.add_mul, ih]

omit [LinearOrder K] in
private theorem sum_sub_map {α : Type} {M : Type} [AddCommGroup M] (l : List α) (f g : α → M) :
    (l.map fun y => f y - g y).sum = (l.map f).sum - (l.map g).sum := by
  induction l with
  | nil => simp
  | cons a l ih => simp only [List.map_cons, List.sum_cons, ih]; abel

/-- Full clusters: if all clusters span the same spaces and the fragments together with an own part `Fx` resolve the identity on the
occupied space, every fragment determines its part of T1, and the amplitudes put in only enter through the own part. -/
theorem tailor_full_t1 (S : Matrix (Fin nao) (Fin nao) K) (hS : Sᵀ = S) (k : Int) (hk : k ≠ 0) (tol : K) (x : Orbs nao K)
    (l : List (FragR nao K)) (t1 t2) {r} (hr : tailorR S k tol true true x l t1 t2 = .ok r)
    (hx : OrthonormalCluster S x) (hy : ∀ y ∈ l, OrthonormalCluster S y.toOrbs ∧ SameSpaces S x y.toOrbs ∧ Overlapping S tol x y.toOrbs)
    (Fx : Matrix (Fin nao) (Fin nao) K)
    (hF : occSpace S x * (Fx + (l.map fun y => fragSpace S y.toOrbs).sum) * occSpace S x = occSpace S x) :
    aoAmp1 x r.1 = occSpace S x * Fx * aoAmp1 x t1 + (l.map fun y => occSpace S x * fragSpace S y.toOrbs * aoAmp1 y.toOrbs y.t1).sum := by
  classical
  rw [(tailor_restricted S hS k tol x l t1 t2 hr).1]
  have hP : occSpace S x * occSpace S x = occSpace S x := by
    have e1 : occSpace S x * x.occ = x.occ := by
      rw [occSpace, Matrix.mul_assoc, Matrix.mul_assoc, ← Matrix.mul_assoc x.occᵀ, hx.1, Matrix.mul_one]
    conv_lhs => enter [2]; rw [occSpace]
    rw [← Matrix.mul_assoc, ← Matrix.mul_assoc, e1, occSpace]
  have hc : ∀ y ∈ l, (if Overlapping S tol x y.toOrbs then correction1 S k x y.toOrbs (aoAmp1 y.toOrbs y.t1) (aoAmp1 x t1) else 0)
      = occSpace S x * fragSpace S y.toOrbs * aoAmp1 y.toOrbs y.t1 - occSpace S x * fragSpace S y.toOrbs * aoAmp1 x t1 := by
    intro y hyl
    obtain ⟨h1, ⟨h2, h3⟩, h4⟩ := hy y hyl
    obtain ⟨a1, a2⟩ := occ_amp1 hS hx t1
    obtain ⟨b1, b2⟩ := occ_amp1 hS h1 y.t1
    rw [if_pos h4]
    simp only [correction1, if_neg hk]
    rw [← h2, ← h3, a1, a2, ← Matrix.mul_assoc, ← Matrix.mul_assoc, hP, Matrix.mul_assoc, Matrix.sub_mul, a2, h3, b2, Matrix.mul_sub]
  rw [List.map_congr_left hc, sum_sub_map]
  obtain ⟨a1, a2⟩ := occ_amp1 hS hx t1
  have e : aoAmp1 x t1 = occSpace S x * Fx * aoAmp1 x t1 + (l.map fun y => occSpace S x * fragSpace S y.toOrbs * aoAmp1 x t1).sum := by
    have h5 : (l.map fun y => occSpace S x * fragSpace S y.toOrbs * aoAmp1 x t1).sum
        = occSpace S x * (l.map fun y => fragSpace S y.toOrbs).sum * aoAmp1 x t1 := by
      rw [sum_mul_left, sum_mul_right]
    rw [h5, ← Matrix.add_mul, ← Matrix.mul_add]
    conv_rhs => rw [← a1, ← Matrix.mul_assoc, hF]
    exact a1.symm
  generalize (l.map fun y => occSpace S x * fragSpace S y.toOrbs * aoAmp1 x t1).sum = X at *
  generalize (l.map fun y => occSpace S x * fragSpace S y.toOrbs * aoAmp1 y.toOrbs y.t1).sum = Y at *
  conv_lhs => rw [e]
  abel

omit [LinearOrder K] in
private theorem aoAmp1_inj {S : Matrix (Fin nao) (Fin nao) K} {x : Orbs nao K} (hS : Sᵀ = S) (hx : OrthonormalCluster S x) {s t}
    (h : aoAmp1 x s = aoAmp1 x t) : s = t := by
  have e : ∀ u, x.occᵀ * S * aoAmp1 x u * (x.virᵀ * S)ᵀ = u := by
    intro u
    have h2 : x.virᵀ * (x.virᵀ * S)ᵀ = 1 := by
      rw [Matrix.transpose_mul, Matrix.transpose_transpose, hS, ← Matrix.mul_assoc, hx.2]
    rw [aoAmp1, Matrix.mul_assoc x.occ, ← Matrix.mul_assoc, hx.1, Matrix.one_mul, Matrix.mul_assoc, h2, Matrix.mul_one]
  rw [← e s, h, e t]

omit [LinearOrder K] in
private theorem aoAmp2_inj {S : Matrix (Fin nao) (Fin nao) K} {x x' : Orbs nao K} (hS : Sᵀ = S) (hx : OrthonormalCluster S x)
    (hx' : OrthonormalCluster S x') {s t} (h : aoAmp2 x x' s = aoAmp2 x x' t) : s = t := by
  have e : ∀ u, ((x.occᵀ * S) ⊗ₖ (x'.occᵀ * S)) * aoAmp2 x x' u * ((x.virᵀ * S) ⊗ₖ (x'.virᵀ * S))ᵀ = u := by
    intro u
    have h2 : (x.vir ⊗ₖ x'.vir)ᵀ * ((x.virᵀ * S) ⊗ₖ (x'.virᵀ * S))ᵀ = 1 := by
      rw [← Matrix.transpose_mul, ← Matrix.mul_kronecker_mul, hx.2, hx'.2, Matrix.one_kronecker_one, Matrix.transpose_one]
    rw [aoAmp2, Matrix.mul_assoc (x.occ ⊗ₖ x'.occ), ← Matrix.mul_assoc, ← Matrix.mul_kronecker_mul, hx.1, hx'.1,
      Matrix.one_kronecker_one, Matrix.one_mul, Matrix.mul_assoc, h2, Matrix.mul_one]
  rw [← e s, h, e t]

/-- Amplitudes which agree with those of all overlapping fragments, each in the cluster of the fragment, are not changed. -/
theorem tailor_fixed (S : Matrix (Fin nao) (Fin nao) K) (hS : Sᵀ = S) (k : Int) (tol : K) (x : Orbs nao K)
    (l : List (FragR nao K)) (t1 t2) {r} (hr : tailorR S k tol true true x l t1 t2 = .ok r) (hx : OrthonormalCluster S x)
    (h : ∀ y ∈ l, Overlapping S tol x y.toOrbs →
      aoAmp1 y.toOrbs y.t1 = occSpace S y.toOrbs * aoAmp1 x t1 * (virSpace S y.toOrbs)ᵀ ∧
      aoAmp2 y.toOrbs y.toOrbs y.t2 = (occSpace S y.toOrbs ⊗ₖ occSpace S y.toOrbs) * aoAmp2 x x t2
        * (virSpace S y.toOrbs ⊗ₖ virSpace S y.toOrbs)ᵀ) : r = (t1, t2) := by
  classical
  obtain ⟨h1, h2⟩ := tailor_restricted S hS k tol x l t1 t2 hr
  refine Prod.ext (aoAmp1_inj hS hx ?_) (aoAmp2_inj hS hx hx ?_)
  · rw [h1, List.sum_eq_zero, add_zero]
    intro z hz
    obtain ⟨y, hy, rfl⟩ := List.mem_map.1 hz
    by_cases ho : Overlapping S tol x y.toOrbs
    · rw [if_pos ho]
      simp only [correction1, (h y hy ho).1, sub_self, Matrix.mul_zero, ite_self, Matrix.zero_mul]
    · rw [if_neg ho]
  · rw [h2, List.sum_eq_zero, add_zero]
    intro z hz
    obtain ⟨y, hy, rfl⟩ := List.mem_map.1 hz
    by_cases ho : Overlapping S tol x y.toOrbs
    · have e0 : exchangePair (0 : Amp2 nao nao nao nao K) = 0 := rfl
      rw [if_pos ho]
      simp only [correction2, difference2, (h y hy ho).2, sub_self, Matrix.mul_zero, e0, add_zero, smul_zero, ite_self,
        Matrix.zero_mul]
    · rw [if_neg ho]

/-- The result does not depend on the orbitals chosen to represent the clusters of the fragments (or the fragments): only the spaces
and the amplitudes in atomic orbitals matter. -/
theorem tailor_orbital_choice (S : Matrix (Fin nao) (Fin nao) K) (hS : Sᵀ = S) (k : Int) (tol : K) (x : Orbs nao K)
    (l l' : List (FragR nao K)) (t1 t2) {r r'} (hx : OrthonormalCluster S x)
    (hl : List.Forall₂ (fun y z : FragR nao K => (Overlapping S tol x y.toOrbs ↔ Overlapping S tol x z.toOrbs) ∧
      SameSpaces S y.toOrbs z.toOrbs ∧ fragSpace S y.toOrbs = fragSpace S z.toOrbs ∧
      aoAmp1 y.toOrbs y.t1 = aoAmp1 z.toOrbs z.t1 ∧ aoAmp2 y.toOrbs y.toOrbs y.t2 = aoAmp2 z.toOrbs z.toOrbs z.t2) l l')
    (hr : tailorR S k tol true true x l t1 t2 = .ok r) (hr' : tailorR S k tol true true x l' t1 t2 = .ok r') : r = r' := by
  classical
  obtain ⟨h1, h2⟩ := tailor_restricted S hS k tol x l t1 t2 hr
  obtain ⟨h1', h2'⟩ := tailor_restricted S hS k tol x l' t1 t2 hr'
  refine Prod.ext (aoAmp1_inj hS hx ?_) (aoAmp2_inj hS hx hx ?_)
  · rw [h1, h1']
    congr 2
    clear hr hr' h1 h2 h1' h2'
    induction hl with
    | nil => rfl
    | @cons y z l l' hyz _ ih =>
      obtain ⟨a, ⟨b, c⟩, d, e, f⟩ := hyz
      simp only [List.map_cons, correction1, a, b, c, d, e] at ih ⊢
      rw [ih]
  · rw [h2, h2']
    congr 2
    clear hr hr' h1 h2 h1' h2'
    induction hl with
    | nil => rfl
    | @cons y z l l' hyz _ ih =>
      obtain ⟨a, ⟨b, c⟩, d, e, f⟩ := hyz
      simp only [List.map_cons, correction2, difference2, a, b, c, d, f] at ih ⊢
      rw [ih]

omit [LinearOrder K] in
private theorem swap_transform2 {o p v q : Nat} (t : Amp2 o o v v K) (uo : Matrix (Fin o) (Fin p) K) (uv : Matrix (Fin v) (Fin q) K) :
    swapPairs (transform2 t uo uv uo uv) = transform2 (swapPairs t) uo uv uo uv := by
  rw [transform2_eq, transform2_eq, kron_T, swap_kron]

omit [LinearOrder K] in
private theorem swap_projectSame {o v : Nat} (k : Int) (P : Matrix (Fin o) (Fin o) K) (t r : Amp2 o o v v K) (ht : swapPairs t = t)
    (h : projectSame k P t = .ok r) : swapPairs r = r := by
  obtain ⟨hk, rfl⟩ := (projectSame_ok k P t r).1 h
  rcases hk with rfl | rfl | rfl
  · simpa using ht
  · simp only [one_ne_zero, if_false, if_true, swap_smul, swap_add, swap_swap]
    rw [add_comm]
  · simp only [OfNat.ofNat_ne_zero, OfNat.ofNat_ne_one, if_false]
    rw [swap_kron_left, ht]

/-- Symmetry under exchange of the electrons is kept. -/
theorem tailor_exchange_symmetry (S : Matrix (Fin nao) (Fin nao) K) (k : Int) (tol : K) (x : Orbs nao K)
    (l : List (FragR nao K)) (t1 t2) {r} (hr : tailorR S k tol true true x l t1 t2 = .ok r)
    (ht : ∀ i j a b, t2 (i, j) (a, b) = t2 (j, i) (b, a)) (hl : ∀ y ∈ l, ∀ i j a b, y.t2 (i, j) (a, b) = y.t2 (j, i) (b, a))
    (i j a b) : r.2 (i, j) (a, b) = r.2 (j, i) (b, a) := by
  have sw : ∀ {o v : Nat} (t : Amp2 o o v v K), (∀ i j a b, t (i, j) (a, b) = t (j, i) (b, a)) ↔ swapPairs t = t := by
    intro o v t
    constructor
    · intro h; ext ⟨i, j⟩ ⟨a, b⟩; exact h j i b a
    · intro h i j a b; conv_rhs => rw [← h]
      rfl
  have h2 := (tailorR_ok S k tol x t1 t2 l hr).2
  revert i j a b
  rw [sw, h2, swap_add, (sw _).1 ht]
  congr 1
  clear h2 hr
  induction l with
  | nil => rfl
  | cons y l ih =>
    simp only [List.map_cons, List.sum_cons, swap_add]
    rw [ih fun z hz => hl z (by simp [hz])]
    congr 1
    unfold d2val
    split
    · cases hd : delta2R S k x y t2 with
      | error e => rfl
      | ok d =>
        simp only [delta2R] at hd
        generalize hp : projectSame (K := K) k (fragProjOcc S y.toOrbs) _ = d' at hd
        cases d' with
        | error e => simp [Except.map] at hd
        | ok d' =>
          simp only [Except.map, Except.ok.injEq] at hd
          subst hd
          simp only [Except.toOption, Option.getD_some]
          rw [swap_transform2, swap_projectSame k _ _ _ _ hp]
          rw [swap_sub, swap_transform2, (sw _).1 ht, (sw _).1 (hl y (by simp))]
    · rfl

/-- The part of doubles amplitudes with one electron in a space, averaged over the electrons. -/
def halfProjected (F : Matrix (Fin nao) (Fin nao) K) (τ : Amp2 nao nao nao nao K) : Amp2 nao nao nao nao K :=
  (1 / 2 : K) • ((F ⊗ₖ 1) * τ + (1 ⊗ₖ F) * τ)

omit [LinearOrder K] in
private theorem half_sub (F : Matrix (Fin nao) (Fin nao) K) (s t : Amp2 nao nao nao nao K) :
    halfProjected F (s - t) = halfProjected F s - halfProjected F t := by
  simp only [halfProjected, Matrix.mul_sub, ← smul_sub]
  congr 1; abel

omit [LinearOrder K] in
private theorem half_sum {α : Type} (l : List α) (F : α → Matrix (Fin nao) (Fin nao) K) (t : Amp2 nao nao nao nao K) :
    (l.map fun y => halfProjected (F y) t).sum = halfProjected (l.map F).sum t := by
  induction l with
  | nil => simp [halfProjected]
  | cons a l ih =>
    rw [List.map_cons, List.sum_cons, ih]
    simp only [List.map_cons, List.sum_cons, halfProjected, Matrix.add_kronecker, Matrix.kronecker_add, Matrix.add_mul, ← smul_add]
    congr 1; abel

omit [LinearOrder K] in
private theorem half_add (F G : Matrix (Fin nao) (Fin nao) K) (t : Amp2 nao nao nao nao K) :
    halfProjected (F + G) t = halfProjected F t + halfProjected G t := by
  simp only [halfProjected, Matrix.add_kronecker, Matrix.kronecker_add, Matrix.add_mul, ← smul_add]
  congr 1; abel

omit [LinearOrder K] in
private theorem occSpace_idem {S : Matrix (Fin nao) (Fin nao) K} {x : Orbs nao K} (hx : OrthonormalCluster S x) :
    occSpace S x * occSpace S x = occSpace S x := by
  have e1 : occSpace S x * x.occ = x.occ := by
    rw [occSpace, Matrix.mul_assoc, Matrix.mul_assoc, ← Matrix.mul_assoc x.occᵀ, hx.1, Matrix.mul_one]
  conv_lhs => enter [2]; rw [occSpace]
  rw [← Matrix.mul_assoc, ← Matrix.mul_assoc, e1, occSpace]

/-- Full clusters, one projector: every fragment determines its part of T2, averaged over the two electrons. -/
theorem tailor_full_t2 (S : Matrix (Fin nao) (Fin nao) K) (hS : Sᵀ = S) (h2 : (2 : K) ≠ 0) (tol : K) (x : Orbs nao K)
    (l : List (FragR nao K)) (t1 t2) {r} (hr : tailorR S 1 tol true true x l t1 t2 = .ok r)
    (hx : OrthonormalCluster S x) (hy : ∀ y ∈ l, OrthonormalCluster S y.toOrbs ∧ SameSpaces S x y.toOrbs ∧ Overlapping S tol x y.toOrbs)
    (ht : ∀ i j a b, t2 (i, j) (a, b) = t2 (j, i) (b, a)) (hl : ∀ y ∈ l, ∀ i j a b, y.t2 (i, j) (a, b) = y.t2 (j, i) (b, a))
    (Fx : Matrix (Fin nao) (Fin nao) K)
    (hF : occSpace S x * (Fx + (l.map fun y => fragSpace S y.toOrbs).sum) * occSpace S x = occSpace S x) :
    aoAmp2 x x r.2 = halfProjected (occSpace S x * Fx) (aoAmp2 x x t2)
      + (l.map fun y => halfProjected (occSpace S x * fragSpace S y.toOrbs) (aoAmp2 y.toOrbs y.toOrbs y.t2)).sum := by
  classical
  rw [(tailor_restricted S hS 1 tol x l t1 t2 hr).2]
  have hP := occSpace_idem hx
  have sw : ∀ {z : Orbs nao K} (t), (∀ i j a b, t (i, j) (a, b) = t (j, i) (b, a)) → exchangePair (aoAmp2 z z t) = aoAmp2 z z t := by
    intro z t h
    rw [← aoAmp2_swap]
    congr 1
    ext ⟨i, j⟩ ⟨a, b⟩; exact h j i b a
  have hc : ∀ y ∈ l, (if Overlapping S tol x y.toOrbs then
      correction2 S 1 x y.toOrbs (aoAmp2 y.toOrbs y.toOrbs y.t2) (aoAmp2 x x t2) else 0)
      = halfProjected (occSpace S x * fragSpace S y.toOrbs) (aoAmp2 y.toOrbs y.toOrbs y.t2)
        - halfProjected (occSpace S x * fragSpace S y.toOrbs) (aoAmp2 x x t2) := by
    intro y hyl
    obtain ⟨h1, ⟨h2, h3⟩, h4⟩ := hy y hyl
    obtain ⟨a1, a2, a3, a4⟩ := occ_amp2 hx hx t2
    obtain ⟨b1, b2, b3, b4⟩ := occ_amp2 h1 h1 y.t2
    rw [if_pos h4, ← half_sub]
    simp only [correction2, difference2, one_ne_zero, if_false, if_true]
    rw [← h2, ← h3, a3, a4]
    rw [← h3] at b4
    rw [← h2] at b1 b2
    have hX : exchangePair (aoAmp2 y.toOrbs y.toOrbs y.t2 - aoAmp2 x x t2) = aoAmp2 y.toOrbs y.toOrbs y.t2 - aoAmp2 x x t2 := by
      have e := swap_sub (aoAmp2 y.toOrbs y.toOrbs y.t2) (aoAmp2 x x t2)
      have e' := e.trans (congrArg₂ (· - ·) (sw _ (hl y hyl)) (sw _ ht))
      exact e'
    have d1 : (occSpace S x ⊗ₖ 1) * (aoAmp2 y.toOrbs y.toOrbs y.t2 - aoAmp2 x x t2) = aoAmp2 y.toOrbs y.toOrbs y.t2 - aoAmp2 x x t2 := by
      rw [Matrix.mul_sub, a1, b1]
    have d2 : (1 ⊗ₖ occSpace S x) * (aoAmp2 y.toOrbs y.toOrbs y.t2 - aoAmp2 x x t2) = aoAmp2 y.toOrbs y.toOrbs y.t2 - aoAmp2 x x t2 := by
      rw [Matrix.mul_sub, a2, b2]
    have d4 : (aoAmp2 y.toOrbs y.toOrbs y.t2 - aoAmp2 x x t2) * (virSpace S x ⊗ₖ virSpace S x)ᵀ
        = aoAmp2 y.toOrbs y.toOrbs y.t2 - aoAmp2 x x t2 := by
      rw [Matrix.sub_mul, a4, b4]
    generalize aoAmp2 y.toOrbs y.toOrbs y.t2 - aoAmp2 x x t2 = D at hX d1 d2 d4
    have eX : exchangePair (((occSpace S x * fragSpace S y.toOrbs) ⊗ₖ 1) * D) = (1 ⊗ₖ (occSpace S x * fragSpace S y.toOrbs)) * D := by
      have e := swap_kron_left (occSpace S x * fragSpace S y.toOrbs) (1 : Matrix (Fin nao) (Fin nao) K) D
      refine e.trans ?_
      congr 1
    rw [eX, halfProjected, Matrix.mul_smul, Matrix.smul_mul]
    congr 1
    rw [Matrix.mul_add, Matrix.add_mul, Matrix.mul_assoc, Matrix.mul_assoc _ D, d4, Matrix.mul_assoc, Matrix.mul_assoc _ D, d4]
    congr 1
    · rw [← Matrix.mul_assoc, ← Matrix.mul_kronecker_mul, ← Matrix.mul_assoc, hP, Matrix.mul_one]
      conv_rhs => rw [← d2, ← Matrix.mul_assoc, ← Matrix.mul_kronecker_mul, Matrix.mul_one, Matrix.one_mul]
    · rw [← Matrix.mul_assoc, ← Matrix.mul_kronecker_mul, ← Matrix.mul_assoc, hP, Matrix.mul_one]
      conv_rhs => rw [← d1, ← Matrix.mul_assoc, ← Matrix.mul_kronecker_mul, Matrix.mul_one, Matrix.one_mul]
  rw [List.map_congr_left hc, sum_sub_map, half_sum]
  obtain ⟨a1, a2, a3, a4⟩ := occ_amp2 hx hx t2
  have e : aoAmp2 x x t2 = halfProjected (occSpace S x * Fx) (aoAmp2 x x t2)
      + halfProjected (l.map fun y => occSpace S x * fragSpace S y.toOrbs).sum (aoAmp2 x x t2) := by
    rw [← half_add, ← sum_mul_left, ← Matrix.mul_add]
    generalize Fx + (l.map fun y => fragSpace S y.toOrbs).sum = F at hF
    rw [halfProjected]
    have e1 : ((occSpace S x * F) ⊗ₖ 1) * aoAmp2 x x t2 = aoAmp2 x x t2 := by
      conv_lhs => rw [← a1, ← Matrix.mul_assoc, ← Matrix.mul_kronecker_mul, hF, Matrix.mul_one, a1]
    have e2 : (1 ⊗ₖ (occSpace S x * F)) * aoAmp2 x x t2 = aoAmp2 x x t2 := by
      conv_lhs => rw [← a2, ← Matrix.mul_assoc, ← Matrix.mul_kronecker_mul, hF, Matrix.mul_one, a2]
    rw [e1, e2, ← two_smul K, smul_smul, one_div, inv_mul_cancel₀ h2, one_smul]
  generalize halfProjected (l.map fun y => occSpace S x * fragSpace S y.toOrbs).sum (aoAmp2 x x t2) = X at *
  generalize (l.map fun y => halfProjected (occSpace S x * fragSpace S y.toOrbs) (aoAmp2 y.toOrbs y.toOrbs y.t2)).sum = Y at *
  conv_lhs => rw [e]
  abel

end Restricted

/-! ## C67, unrestricted -/

section Unrestricted
variable {K : Type} [Field K] [LinearOrder K] {nao : Nat}

/-- Overlap of unrestricted clusters: occupied orbitals of one of the spins, and virtual orbitals of one of the spins. -/
def OverlappingU (S : Matrix (Fin nao) (Fin nao) K) (tol : K) (xa xb ya yb : Orbs nao K) : Prop :=
  ((∃ i j, tol ≤ |(xa.occᵀ * S * ya.occ) i j|) ∨ ∃ i j, tol ≤ |(xb.occᵀ * S * yb.occ) i j|) ∧
  ((∃ i j, tol ≤ |(xa.virᵀ * S * ya.vir) i j|) ∨ ∃ i j, tol ≤ |(xb.virᵀ * S * yb.vir) i j|)

private theorem skipU_eq (S : Matrix (Fin nao) (Fin nao) K) (tol : K) (xa xb ya yb : Orbs nao K) (hxa : HasOrbitals xa)
    (hxb : HasOrbitals xb) (hya : HasOrbitals ya) (hyb : HasOrbitals yb) :
    ∃ b, skipU S tol xa xb ya yb = .ok b ∧ (b = true ↔ ¬ OverlappingU S tol xa xb ya yb) := by
  have h1 : ¬ (xa.no * ya.no = 0 ∨ xb.no * yb.no = 0 ∨ xa.nv * ya.nv = 0 ∨ xb.nv * yb.nv = 0) := by
    simp only [Nat.mul_eq_zero, not_or]
    exact ⟨⟨hxa.1.ne', hya.1.ne'⟩, ⟨hxb.1.ne', hyb.1.ne'⟩, ⟨hxa.2.ne', hya.2.ne'⟩, hxb.2.ne', hyb.2.ne'⟩
  refine ⟨_, by rw [skipU, if_neg h1], ?_⟩
  simp only [Bool.or_eq_true, Bool.and_eq_true, allBelow, decide_eq_true_eq, OverlappingU, not_and_or, not_or, not_exists, not_le]
  rfl

private theorem skipU_err (S : Matrix (Fin nao) (Fin nao) K) (tol : K) (xa xb ya yb : Orbs nao K)
    (h : ¬ (HasOrbitals xa ∧ HasOrbitals xb ∧ HasOrbitals ya ∧ HasOrbitals yb)) :
    skipU S tol xa xb ya yb = .error .valueError := by
  have h1 : xa.no * ya.no = 0 ∨ xb.no * yb.no = 0 ∨ xa.nv * ya.nv = 0 ∨ xb.nv * yb.nv = 0 := by
    by_contra hc
    simp only [Nat.mul_eq_zero, not_or] at hc
    obtain ⟨⟨a, b⟩, ⟨c, d⟩, ⟨e, f⟩, g, i⟩ := hc
    exact h ⟨⟨Nat.pos_of_ne_zero a, Nat.pos_of_ne_zero e⟩, ⟨Nat.pos_of_ne_zero c, Nat.pos_of_ne_zero g⟩,
      ⟨Nat.pos_of_ne_zero b, Nat.pos_of_ne_zero f⟩, Nat.pos_of_ne_zero d, Nat.pos_of_ne_zero i⟩
  rw [skipU, if_pos h1]

omit [LinearOrder K] in
private theorem deltaU_cases (S : Matrix (Fin nao) (Fin nao) K) (hS : Sᵀ = S) (k : Int) (xa xb : Orbs nao K) (y : FragU nao K)
    (t : AmpsU xa xb) :
    (ValidProjectors k ∧ ∃ d, deltaU S k xa xb y t = .ok d ∧
      aoAmp1 xa d.t1a = correction1 S k xa y.a (aoAmp1 y.a y.t1a) (aoAmp1 xa t.t1a) ∧
      aoAmp1 xb d.t1b = correction1 S k xb y.b (aoAmp1 y.b y.t1b) (aoAmp1 xb t.t1b) ∧
      aoAmp2 xa xa d.t2aa = correction2 S k xa y.a (aoAmp2 y.a y.a y.t2aa) (aoAmp2 xa xa t.t2aa) ∧
      aoAmp2 xa xb d.t2ab = correction2ab S k xa y.a xb y.b (aoAmp2 y.a y.b y.t2ab) (aoAmp2 xa xb t.t2ab) ∧
      aoAmp2 xb xb d.t2bb = correction2 S k xb y.b (aoAmp2 y.b y.b y.t2bb) (aoAmp2 xb xb t.t2bb)) ∨
    (¬ ValidProjectors k ∧ deltaU S k xa xb y t = .error .valueError) := by
  by_cases hk : ValidProjectors k
  · left
    refine ⟨hk, ?_⟩
    simp only [deltaU]
    -- the same-spin blocks through the restricted lemma
    have same : ∀ (x z : Orbs nao K) (tz tx) (d), projectSame k (fragProjOcc S z) (tz - transform2 tx (rOcc S x z) (rVir S x z)
        (rOcc S x z) (rVir S x z)) = .ok d → aoAmp2 x x (transform2 d (rOcc S x z)ᵀ (rVir S x z)ᵀ (rOcc S x z)ᵀ (rVir S x z)ᵀ)
        = correction2 S k x z (aoAmp2 z z tz) (aoAmp2 x x tx) := by
      intro x z tz tx d hd
      refine ao_delta2R S hS k x { toOrbs := z, t1 := 0, t2 := tz } tx _ ?_
      simp only [delta2R]
      rw [hd]; rfl
    have mixed : ∀ (tz tx) (d), projectMixed k (fragProjOcc S y.a) (fragProjOcc S y.b) (tz - transform2 tx (rOcc S xa y.a) (rVir S xa y.a)
        (rOcc S xb y.b) (rVir S xb y.b)) = .ok d →
        aoAmp2 xa xb (transform2 d (rOcc S xa y.a)ᵀ (rVir S xa y.a)ᵀ (rOcc S xb y.b)ᵀ (rVir S xb y.b)ᵀ)
        = correction2ab S k xa y.a xb y.b (aoAmp2 y.a y.b tz) (aoAmp2 xa xb tx) := by
      intro tz tx d hd
      obtain ⟨hk, hd⟩ := (projectMixed_ok _ _ _ _ _).1 hd
      rw [ao_backward2, correction2ab]
      congr 2
      rw [hd]
      rcases hk with rfl | rfl | rfl
      · simp only [if_true]; rw [aoAmp2_sub, ao_forward2 S hS]; rfl
      · simp only [one_ne_zero, if_false, if_true]
        rw [aoAmp2_smul, aoAmp2_add, ao_projFirst S hS, ao_projSecond S hS, aoAmp2_sub, ao_forward2 S hS]; rfl
      · simp only [OfNat.ofNat_ne_zero, OfNat.ofNat_ne_one, if_false]
        rw [ao_projBoth S hS, aoAmp2_sub, ao_forward2 S hS]; rfl
    obtain ⟨aa, ab, bb, haa, hab, hbb, h⟩ := projectU_ok k hk (fragProjOcc S y.a) (fragProjOcc S y.b)
      (y.t2aa - transform2 t.t2aa (rOcc S xa y.a) (rVir S xa y.a) (rOcc S xa y.a) (rVir S xa y.a),
        y.t2ab - transform2 t.t2ab (rOcc S xa y.a) (rVir S xa y.a) (rOcc S xb y.b) (rVir S xb y.b),
        y.t2bb - transform2 t.t2bb (rOcc S xb y.b) (rVir S xb y.b) (rOcc S xb y.b) (rVir S xb y.b))
    rw [h]
    exact ⟨_, rfl, ao_delta1 S hS _ _ _ _ _, ao_delta1 S hS _ _ _ _ _, same _ _ _ _ _ haa, mixed _ _ _ hab, same _ _ _ _ _ hbb⟩
  · right
    refine ⟨hk, ?_⟩
    simp only [ValidProjectors, not_or] at hk
    simp only [deltaU, projectU, if_neg hk.1, projectSame_err k _ _ hk.1 hk.2.1 hk.2.2]
    rfl

private theorem deltasU_error (S : Matrix (Fin nao) (Fin nao) K) (k tol xa xb t) (l : List (FragU nao K)) (e) :
    deltasU S k tol xa xb t l (.error e) = .error e := by
  induction l with
  | nil => rfl
  | cons y l ih => rw [deltasU]; exact ih

/-- All clusters have occupied and virtual orbitals of both spins. -/
def HasOrbitalsU (xa xb : Orbs nao K) : Prop := HasOrbitals xa ∧ HasOrbitals xb

open Classical in
/-- The sum of a block of corrections over overlapping fragments. -/
noncomputable def sumOverlapping {M : Type} [AddCommMonoid M] (S : Matrix (Fin nao) (Fin nao) K) (tol : K) (xa xb : Orbs nao K)
    (l : List (FragU nao K)) (f : FragU nao K → M) : M :=
  (l.map fun y => if OverlappingU S tol xa xb y.a y.b then f y else 0).sum

private theorem deltasU_bad (S : Matrix (Fin nao) (Fin nao) K) (hS : Sᵀ = S) (k tol xa xb t) (l : List (FragU nao K))
    (h : (∃ y ∈ l, ¬ (HasOrbitalsU xa xb ∧ HasOrbitalsU y.a y.b)) ∨
      (¬ ValidProjectors k ∧ ∃ y ∈ l, OverlappingU S tol xa xb y.a y.b)) (s) :
    deltasU S k tol xa xb t l (.ok s) = .error .valueError := by
  induction l generalizing s with
  | nil => simp at h
  | cons y l ih =>
    rw [deltasU]
    by_cases hy : HasOrbitalsU xa xb ∧ HasOrbitalsU y.a y.b
    · obtain ⟨b, hb, hb'⟩ := skipU_eq S tol xa xb y.a y.b hy.1.1 hy.1.2 hy.2.1 hy.2.2
      rw [hb]
      have hrest : ¬ OverlappingU S tol xa xb y.a y.b ∨ ValidProjectors k →
          (∃ z ∈ l, ¬ (HasOrbitalsU xa xb ∧ HasOrbitalsU z.a z.b)) ∨
          (¬ ValidProjectors k ∧ ∃ z ∈ l, OverlappingU S tol xa xb z.a z.b) := by
        intro hc
        rcases h with ⟨z, hz, hz'⟩ | ⟨hk, z, hz, hz'⟩
        · rcases List.mem_cons.1 hz with rfl | hz
          · exact absurd hy hz'
          · exact .inl ⟨z, hz, hz'⟩
        · rcases List.mem_cons.1 hz with rfl | hz
          · rcases hc with hc | hc
            · exact absurd hz' hc
            · exact absurd hc hk
          · exact .inr ⟨hk, z, hz, hz'⟩
      cases b with
      | true => simpa [bind, Except.bind, pure, Except.pure] using ih (hrest (.inl (hb'.1 rfl))) s
      | false =>
        rcases deltaU_cases S hS k xa xb y t with ⟨hk, d, hd, _⟩ | ⟨hk2, hd⟩
        · simpa [bind, Except.bind, pure, Except.pure, hd] using ih (hrest (.inr hk)) _
        · simp [bind, Except.bind, hd, deltasU_error]
    · rw [skipU_err S tol xa xb y.a y.b fun hc => hy ⟨⟨hc.1, hc.2.1⟩, hc.2.2.1, hc.2.2.2⟩]
      simp [bind, Except.bind, deltasU_error]

private theorem deltasU_ok (S : Matrix (Fin nao) (Fin nao) K) (hS : Sᵀ = S) (k tol xa xb t) (l : List (FragU nao K))
    (hl : ∀ y ∈ l, HasOrbitalsU xa xb ∧ HasOrbitalsU y.a y.b)
    (hk : ValidProjectors k ∨ ∀ y ∈ l, ¬ OverlappingU S tol xa xb y.a y.b) (s) :
    ∃ d, deltasU S k tol xa xb t l (.ok s) = .ok d ∧
      aoAmp1 xa d.t1a = aoAmp1 xa s.t1a + sumOverlapping S tol xa xb l
        (fun y => correction1 S k xa y.a (aoAmp1 y.a y.t1a) (aoAmp1 xa t.t1a)) ∧
      aoAmp1 xb d.t1b = aoAmp1 xb s.t1b + sumOverlapping S tol xa xb l
        (fun y => correction1 S k xb y.b (aoAmp1 y.b y.t1b) (aoAmp1 xb t.t1b)) ∧
      aoAmp2 xa xa d.t2aa = aoAmp2 xa xa s.t2aa + sumOverlapping S tol xa xb l
        (fun y => correction2 S k xa y.a (aoAmp2 y.a y.a y.t2aa) (aoAmp2 xa xa t.t2aa)) ∧
      aoAmp2 xa xb d.t2ab = aoAmp2 xa xb s.t2ab + sumOverlapping S tol xa xb l
        (fun y => correction2ab S k xa y.a xb y.b (aoAmp2 y.a y.b y.t2ab) (aoAmp2 xa xb t.t2ab)) ∧
      aoAmp2 xb xb d.t2bb = aoAmp2 xb xb s.t2bb + sumOverlapping S tol xa xb l
        (fun y => correction2 S k xb y.b (aoAmp2 y.b y.b y.t2bb) (aoAmp2 xb xb t.t2bb)) := by
  induction l generalizing s with
  | nil => exact ⟨s, rfl, by simp [sumOverlapping], by simp [sumOverlapping], by simp [sumOverlapping], by simp [sumOverlapping],
      by simp [sumOverlapping]⟩
  | cons y l ih =>
    have hl' := fun z hz => hl z (List.mem_cons_of_mem y hz)
    have hk' : ValidProjectors k ∨ ∀ y ∈ l, ¬ OverlappingU S tol xa xb y.a y.b := hk.imp_right fun h z hz => h z (by simp [hz])
    have hy := hl y (by simp)
    obtain ⟨b, hb, hb'⟩ := skipU_eq S tol xa xb y.a y.b hy.1.1 hy.1.2 hy.2.1 hy.2.2
    rw [deltasU, hb]
    have hsum : ∀ {M : Type} [AddCommMonoid M] (f : FragU nao K → M), sumOverlapping S tol xa xb (y :: l) f
        = (if b then 0 else f y) + sumOverlapping S tol xa xb l f := by
      intro M _ f
      simp only [sumOverlapping, List.map_cons, List.sum_cons]
      congr 1
      cases b with
      | true => rw [if_neg (hb'.1 rfl)]; simp
      | false =>
        have ho : OverlappingU S tol xa xb y.a y.b := by by_contra h; exact Bool.false_ne_true (hb'.2 h)
        rw [if_pos ho]; simp
    simp only [hsum]
    cases b with
    | true => simpa [bind, Except.bind, pure, Except.pure] using ih hl' hk' s
    | false =>
      have ho : OverlappingU S tol xa xb y.a y.b := by by_contra h; exact Bool.false_ne_true (hb'.2 h)
      rcases deltaU_cases S hS k xa xb y t with ⟨_, d, hd, e1, e2, e3, e4, e5⟩ | ⟨hk2, _⟩
      · obtain ⟨d', h0, h1, h2, h3, h4, h5⟩ := ih hl' hk' (s.add d)
        refine ⟨d', ?_, ?_, ?_, ?_, ?_, ?_⟩
        · simpa [bind, Except.bind, pure, Except.pure, hd] using h0
        · rw [h1, AmpsU.add, aoAmp1_add, e1]; simp [add_assoc]
        · rw [h2, AmpsU.add, aoAmp1_add, e2]; simp [add_assoc]
        · rw [h3, AmpsU.add, aoAmp2_add, e3]; simp [add_assoc]
        · rw [h4, AmpsU.add, aoAmp2_add, e4]; simp [add_assoc]
        · rw [h5, AmpsU.add, aoAmp2_add, e5]; simp [add_assoc]
      · rcases hk with hk | hk
        · exact absurd hk hk2
        · exact absurd ho (hk y (by simp))

/-- C67, unrestricted: all blocks of the tailored amplitudes in atomic orbitals, and when tailoring fails (ValueError). -/
theorem tailor_unrestricted (S : Matrix (Fin nao) (Fin nao) K) (hS : Sᵀ = S) (k : Int) (tol : K) (xa xb : Orbs nao K)
    (l : List (FragU nao K)) (t : AmpsU xa xb) :
    ((∀ y ∈ l, HasOrbitalsU xa xb ∧ HasOrbitalsU y.a y.b) ∧
      (ValidProjectors k ∨ ∀ y ∈ l, ¬ OverlappingU S tol xa xb y.a y.b) →
      ∃ r, tailorU S k tol xa xb l t = .ok r ∧
      aoAmp1 xa r.t1a = aoAmp1 xa t.t1a + sumOverlapping S tol xa xb l
        (fun y => correction1 S k xa y.a (aoAmp1 y.a y.t1a) (aoAmp1 xa t.t1a)) ∧
      aoAmp1 xb r.t1b = aoAmp1 xb t.t1b + sumOverlapping S tol xa xb l
        (fun y => correction1 S k xb y.b (aoAmp1 y.b y.t1b) (aoAmp1 xb t.t1b)) ∧
      aoAmp2 xa xa r.t2aa = aoAmp2 xa xa t.t2aa + sumOverlapping S tol xa xb l
        (fun y => correction2 S k xa y.a (aoAmp2 y.a y.a y.t2aa) (aoAmp2 xa xa t.t2aa)) ∧
      aoAmp2 xa xb r.t2ab = aoAmp2 xa xb t.t2ab + sumOverlapping S tol xa xb l
        (fun y => correction2ab S k xa y.a xb y.b (aoAmp2 y.a y.b y.t2ab) (aoAmp2 xa xb t.t2ab)) ∧
      aoAmp2 xb xb r.t2bb = aoAmp2 xb xb t.t2bb + sumOverlapping S tol xa xb l
        (fun y => correction2 S k xb y.b (aoAmp2 y.b y.b y.t2bb) (aoAmp2 xb xb t.t2bb))) ∧
    (¬ ((∀ y ∈ l, HasOrbitalsU xa xb ∧ HasOrbitalsU y.a y.b) ∧
      (ValidProjectors k ∨ ∀ y ∈ l, ¬ OverlappingU S tol xa xb y.a y.b)) →
      tailorU S k tol xa xb l t = .error .valueError) := by
  constructor
  · rintro ⟨hl, hk⟩
    obtain ⟨d, h0, h1, h2, h3, h4, h5⟩ := deltasU_ok S hS k tol xa xb t l hl hk .zero
    have z1 : ∀ x : Orbs nao K, aoAmp1 x 0 = 0 := by intro x; simp [aoAmp1]
    have z2 : ∀ x x' : Orbs nao K, aoAmp2 x x' 0 = 0 := by intro x x'; simp [aoAmp2]
    refine ⟨t.add d, by rw [tailorU, h0]; rfl, ?_, ?_, ?_, ?_, ?_⟩
    · simp only [AmpsU.add, aoAmp1_add, h1, AmpsU.zero, z1, zero_add]
    · simp only [AmpsU.add, aoAmp1_add, h2, AmpsU.zero, z1, zero_add]
    · simp only [AmpsU.add, aoAmp2_add, h3, AmpsU.zero, z2, zero_add]
    · simp only [AmpsU.add, aoAmp2_add, h4, AmpsU.zero, z2, zero_add]
    · simp only [AmpsU.add, aoAmp2_add, h5, AmpsU.zero, z2, zero_add]
  · intro h
    rw [tailorU, deltasU_bad S hS k tol xa xb t l ?_ .zero]
    · rfl
    · by_contra hc
      rw [not_or] at hc
      refine h ⟨fun y hy => ?_, ?_⟩
      · by_contra hn; exact hc.1 ⟨y, hy, hn⟩
      · by_contra hn
        rw [not_or] at hn
        refine hn.2 fun y hy ho => hc.2 ⟨hn.1, y, hy, ho⟩

end Unrestricted

/-! ## C71: external corrections -/

section External
variable {K : Type} [Field K] {nao : Nat}

/-- What a correction contributes to T1 in atomic orbitals. -/
def extPart1 (S : Matrix (Fin nao) (Fin nao) K) {x : Orbs nao K} (c : Corr nao K x) : Matrix (Fin nao) (Fin nao) K :=
  let y := c.frag.toOrbs
  let τ := aoAmp1 y c.frag.t1
  if c.projectors = 0 then τ else occSpace S y * fragSpace S y * τ

/-- What a correction contributes to T2 in atomic orbitals. -/
def extPart2 (S : Matrix (Fin nao) (Fin nao) K) {x : Orbs nao K} (c : Corr nao K x) : Amp2 nao nao nao nao K :=
  let y := c.frag.toOrbs
  let τ := aoAmp2 y y c.frag.t2
  let G := occSpace S y * fragSpace S y
  if c.projectors = 0 then τ
    else if c.projectors = 1 then (1 / 2 : K) • ((G ⊗ₖ 1) * τ + exchangePair ((G ⊗ₖ 1) * τ))
    else (G ⊗ₖ G) * τ

/-- The contribution in the orbitals of cluster `x`. -/
def broughtBack1 (S : Matrix (Fin nao) (Fin nao) K) (x : Orbs nao K) (τ : Matrix (Fin nao) (Fin nao) K) : Matrix (Fin x.no) (Fin x.nv) K :=
  (x.occᵀ * S) * τ * (x.virᵀ * S)ᵀ
def broughtBack2 (S : Matrix (Fin nao) (Fin nao) K) (x : Orbs nao K) (τ : Amp2 nao nao nao nao K) : Amp2 x.no x.no x.nv x.nv K :=
  ((x.occᵀ * S) ⊗ₖ (x.occᵀ * S)) * τ * ((x.virᵀ * S) ⊗ₖ (x.virᵀ * S))ᵀ

/-- What the correction by one fragment should be: residuals of type `external` (with the contraction of triples with the integrals of
the cluster) are divided by energy denominators, amplitude differences of type `delta-tailor` are not. -/
def properPart1 (S : Matrix (Fin nao) (Fin nao) K) (x : Orbs nao K) (eo : Fin x.no → K) (ev : Fin x.nv → K) (c : Corr nao K x) :
    Matrix (Fin x.no) (Fin x.nv) K :=
  Matrix.of fun i a => broughtBack1 S x (extPart1 S c) i a / (if c.kind = .external then eo i - ev a else 1)
def properPart2 (S : Matrix (Fin nao) (Fin nao) K) (x : Orbs nao K) (eo : Fin x.no → K) (ev : Fin x.nv → K) (c : Corr nao K x) :
    Amp2 x.no x.no x.nv x.nv K :=
  Matrix.of fun ij ab => if c.kind = .external
    then (broughtBack2 S x (extPart2 S c) ij ab + c.t3v ij ab) / (eo ij.1 + eo ij.2 - ev ab.1 - ev ab.2)
    else broughtBack2 S x (extPart2 S c) ij ab

private theorem cluster_backward1 (S : Matrix (Fin nao) (Fin nao) K) (x y : Orbs nao K) (d) :
    transform1 d (rOcc S x y)ᵀ (rVir S x y)ᵀ = broughtBack1 S x (aoAmp1 y d) := by
  rw [transform1_eq, broughtBack1, aoAmp1, Matrix.transpose_transpose, rOcc, rVir]
  simp only [Matrix.transpose_mul, Matrix.transpose_transpose, Matrix.mul_assoc]

private theorem cluster_backward2 (S : Matrix (Fin nao) (Fin nao) K) (x y : Orbs nao K) (d) :
    transform2 d (rOcc S x y)ᵀ (rVir S x y)ᵀ (rOcc S x y)ᵀ (rVir S x y)ᵀ = broughtBack2 S x (aoAmp2 y y d) := by
  rw [transform2_eq, broughtBack2, aoAmp2, rOcc, rVir, ← kron_T, ← kron_T, Matrix.transpose_transpose, Matrix.mul_kronecker_mul,
    Matrix.mul_kronecker_mul (x.virᵀ * S)]
  simp only [Matrix.transpose_mul, Matrix.mul_assoc]

private theorem corrDelta_cases (S : Matrix (Fin nao) (Fin nao) K) (hS : Sᵀ = S) (x : Orbs nao K) (c : Corr nao K x) :
    (ValidProjectors c.projectors ∧ corrDelta S x c = .ok (broughtBack1 S x (extPart1 S c),
      broughtBack2 S x (extPart2 S c) + if c.kind = .external then c.t3v else 0)) ∨
    (¬ ValidProjectors c.projectors ∧ corrDelta S x c = .error .valueError) := by
  have e1 : aoAmp1 c.frag.toOrbs (if c.projectors = 0 then c.frag.t1 else fragProjOcc S c.frag.toOrbs * c.frag.t1)
      = extPart1 S c := by
    rw [extPart1]
    by_cases h0 : c.projectors = 0
    · simp [h0]
    · simp only [if_neg h0, aoAmp1]
      rw [← Matrix.mul_assoc, occ_proj S hS]
      simp only [Matrix.mul_assoc]
  have e2 : corrDelta S x c = (projectSame c.projectors (fragProjOcc S c.frag.toOrbs) c.frag.t2).map fun d2 =>
      (transform1 (if c.projectors = 0 then c.frag.t1 else fragProjOcc S c.frag.toOrbs * c.frag.t1)
        (rOcc S x c.frag.toOrbs)ᵀ (rVir S x c.frag.toOrbs)ᵀ,
      transform2 d2 (rOcc S x c.frag.toOrbs)ᵀ (rVir S x c.frag.toOrbs)ᵀ (rOcc S x c.frag.toOrbs)ᵀ (rVir S x c.frag.toOrbs)ᵀ
        + if c.kind = .external then c.t3v else 0) := by
    by_cases h0 : c.projectors = 0
    · simp only [corrDelta, h0, projectSame, if_true]; rfl
    · simp only [corrDelta, if_neg h0]
      cases projectSame c.projectors (fragProjOcc S c.frag.toOrbs) c.frag.t2 <;> rfl
  rw [e2]
  by_cases hk : ValidProjectors c.projectors
  · refine .inl ⟨hk, ?_⟩
    rw [(projectSame_ok c.projectors _ _ _).2 ⟨hk, rfl⟩]
    simp only [Except.map]
    congr 2
    · rw [cluster_backward1, e1]
    · rw [cluster_backward2]
      congr 2
      rw [extPart2]
      rcases hk with hk | hk | hk
      · simp [hk]
      · simp only [hk, one_ne_zero, if_false, if_true]
        rw [aoAmp2_smul, aoAmp2_add, aoAmp2_swap, ao_projFirst S hS]
      · simp only [hk, OfNat.ofNat_ne_zero, OfNat.ofNat_ne_one, if_false]
        rw [ao_projBoth S hS]
  · refine .inr ⟨hk, ?_⟩
    simp only [ValidProjectors, not_or] at hk
    rw [projectSame_err _ _ _ hk.1 hk.2.1 hk.2.2]
    rfl

/-- All corrections are of a type and with a number of projectors that is supported. -/
def SupportedCorrections {x : Orbs nao K} (l : List (Corr nao K x)) : Prop :=
  ∀ c ∈ l, c.kind ≠ .tailor ∧ ValidProjectors c.projectors

private theorem corrLoop_eq (S : Matrix (Fin nao) (Fin nao) K) (hS : Sᵀ = S) (x : Orbs nao K) (l : List (Corr nao K x)) (k acc)
    (hl : SupportedCorrections l) :
    corrLoop S x l k acc = .ok ((l.getLast?.map (·.kind)).or k,
      acc.1 + (l.map fun c => broughtBack1 S x (extPart1 S c)).sum,
      acc.2 + (l.map fun c => broughtBack2 S x (extPart2 S c) + if c.kind = .external then c.t3v else 0).sum) := by
  induction l generalizing k acc with
  | nil => simp [corrLoop]
  | cons c l ih =>
    have h := hl c (by simp)
    rw [corrLoop, if_neg h.1]
    rcases corrDelta_cases S hS x c with ⟨_, hc⟩ | ⟨hc, _⟩
    · rw [hc]
      simp only [Except.bind]
      rw [ih _ _ fun z hz => hl z (by simp [hz])]
      congr 2
      · cases l with
        | nil => rfl
        | cons z l => simp [List.getLast?_cons_cons, List.getLast?_eq_getLast_of_ne_nil]
      · simp only [List.map_cons, List.sum_cons, add_assoc]
    · exact absurd h.2 hc

private theorem corrLoop_bad (S : Matrix (Fin nao) (Fin nao) K) (hS : Sᵀ = S) (x : Orbs nao K) (l : List (Corr nao K x)) (k acc)
    (hl : ¬ SupportedCorrections l) : corrLoop S x l k acc = .error .valueError := by
  induction l generalizing k acc with
  | nil => exact absurd (fun c hc => by simp at hc) hl
  | cons c l ih =>
    rw [corrLoop]
    by_cases hk : c.kind = .tailor
    · rw [if_pos hk]
    · rw [if_neg hk]
      rcases corrDelta_cases S hS x c with ⟨hv, hc⟩ | ⟨_, hc⟩
      · rw [hc]
        simp only [Except.bind]
        refine ih _ _ fun h => hl fun z hz => ?_
        rcases List.mem_cons.1 hz with rfl | hz
        · exact ⟨hk, hv⟩
        · exact h z hz
      · rw [hc]; rfl

/-- Unsupported corrections raise ValueError. -/
theorem external_unsupported (S : Matrix (Fin nao) (Fin nao) K) (hS : Sᵀ = S) (x : Orbs nao K) (eo ev) (l : List (Corr nao K x))
    (hl : ¬ SupportedCorrections l) : externallyCorrect S x eo ev l = .error .valueError := by
  rw [externallyCorrect, corrLoop_bad S hS x l _ _ hl]; rfl

private theorem sum_div_map {α : Type} {m n : Type} (l : List α) (f : α → Matrix m n K) (d : K) (i : m) (j : n) :
    (l.map f).sum i j / d = (l.map fun c => (Matrix.of fun i j => f c i j / d : Matrix m n K)).sum i j := by
  induction l with
  | nil => simp
  | cons a l ih => simp only [List.map_cons, List.sum_cons, Matrix.add_apply, add_div, ih, Matrix.of_apply]

private theorem sum_apply_map {α : Type} {m n : Type} (l : List α) (f : α → Matrix m n K) (i : m) (j : n) :
    (l.map f).sum i j = (l.map fun c => f c i j).sum := by
  induction l with
  | nil => simp
  | cons a l ih => simp only [List.map_cons, List.sum_cons, Matrix.add_apply, ih]

/-- C71 for corrections of one type: what is added to the amplitudes is the sum of the proper corrections of all fragments. Missing:
lists with both types, for which it is false (`external_mixed_types_broken`). -/
theorem external_corrections_partial (S : Matrix (Fin nao) (Fin nao) K) (hS : Sᵀ = S) (x : Orbs nao K) (eo ev)
    (l : List (Corr nao K x)) (hne : l ≠ []) (hl : SupportedCorrections l) (k : CorrType) (hk : ∀ c ∈ l, c.kind = k) :
    ∃ r, externallyCorrect S x eo ev l = .ok r ∧ (∀ i a, r.1 i a = (l.map fun c => properPart1 S x eo ev c i a).sum) ∧
      ∀ ij ab, r.2 ij ab = (l.map fun c => properPart2 S x eo ev c ij ab).sum := by
  rw [externallyCorrect, corrLoop_eq S hS x l _ _ hl]
  have hlast : (l.getLast?.map (·.kind)).or none = some k := by
    rw [List.getLast?_eq_some_getLast hne]
    simp [hk _ (List.getLast_mem hne)]
  simp only [Except.bind, hlast, zero_add]
  by_cases h : k = .external
  · rw [if_pos h]
    refine ⟨_, rfl, fun i a => ?_, fun ij ab => ?_⟩
    · simp only [Matrix.of_apply]
      rw [sum_apply_map, div_eq_mul_inv, ← List.sum_map_mul_right]
      congr 1
      refine List.map_congr_left fun c hc => ?_
      simp [properPart1, hk c hc, h, div_eq_mul_inv]
    · simp only [Matrix.of_apply]
      rw [sum_apply_map, div_eq_mul_inv, ← List.sum_map_mul_right]
      congr 1
      refine List.map_congr_left fun c hc => ?_
      have e : eo ij.1 - ev ab.1 + (eo ij.2 - ev ab.2) = eo ij.1 + eo ij.2 - ev ab.1 - ev ab.2 := by ring
      simp [properPart2, hk c hc, h, div_eq_mul_inv, e]
  · rw [if_neg h]
    refine ⟨_, rfl, fun i a => ?_, fun ij ab => ?_⟩
    · dsimp only
      rw [sum_apply_map]
      congr 1
      refine List.map_congr_left fun c hc => ?_
      simp [properPart1, hk c hc, h]
    · dsimp only
      rw [sum_apply_map]
      congr 1
      refine List.map_congr_left fun c hc => ?_
      simp [properPart2, hk c hc, h]

/-- In general the type of the last correction decides whether the sum of all corrections is divided by denominators. -/
theorem external_last_type_decides (S : Matrix (Fin nao) (Fin nao) K) (hS : Sᵀ = S) (x : Orbs nao K) (eo ev)
    (l : List (Corr nao K x)) (c : Corr nao K x) (hl : SupportedCorrections (l ++ [c])) :
    ∃ r, externallyCorrect S x eo ev (l ++ [c]) = .ok r ∧ ∀ i a,
      r.1 i a = ((l ++ [c]).map fun d => broughtBack1 S x (extPart1 S d) i a).sum / (if c.kind = .external then eo i - ev a else 1) := by
  rw [externallyCorrect, corrLoop_eq S hS x _ _ _ hl]
  simp only [List.getLast?_append, List.getLast?_singleton, Option.some_or, Option.map_some, Except.bind, zero_add]
  by_cases h : c.kind = .external
  · simp only [if_pos h]
    refine ⟨_, rfl, fun i a => ?_⟩
    simp only [Matrix.of_apply]
    rw [sum_apply_map]
  · simp only [if_neg h, div_one]
    refine ⟨_, rfl, fun i a => ?_⟩
    dsimp only
    rw [sum_apply_map]

end External

/-- The two-orbital cluster of the examples: one occupied and one virtual orbital, the occupied one being the fragment. -/
def demoOrbs : Orbs 2 ℚ := ⟨1, 1, 1, Matrix.of fun i _ => if i = 0 then 1 else 0, Matrix.of fun i _ => if i = 1 then 1 else 0,
  Matrix.of fun i _ => if i = 0 then 1 else 0⟩

/-- A fragment with this cluster and given amplitudes. -/
def demoFrag (t1 t2 : ℚ) : FragR 2 ℚ := ⟨demoOrbs, Matrix.of fun _ _ => t1, Matrix.of fun _ _ => t2⟩

/-- Full C71 is false: with corrections of both types the result is not the sum of the proper corrections, and it depends on the order
of the corrections. -/
theorem external_mixed_types_broken :
    ∃ (S : Matrix (Fin 2) (Fin 2) ℚ) (x : Orbs 2 ℚ) (eo : Fin x.no → ℚ) (ev : Fin x.nv → ℚ) (l : List (Corr 2 ℚ x)) (i : Fin x.no)
      (a : Fin x.nv), Sᵀ = S ∧ SupportedCorrections l ∧ (∀ i a, eo i ≠ ev a) ∧
      ∃ r r', externallyCorrect S x eo ev l = .ok r ∧ externallyCorrect S x eo ev l.reverse = .ok r' ∧
        r.1 i a ≠ (l.map fun c => properPart1 S x eo ev c i a).sum ∧ r.1 i a ≠ r'.1 i a := by
  refine ⟨1, demoOrbs, fun _ => 0, fun _ => 2, [⟨.deltaTailor, 1, demoFrag 1 0, 0⟩, ⟨.external, 1, demoFrag 1 0, 0⟩],
    (0 : Fin 1), (0 : Fin 1), Matrix.transpose_one, ?_, ?_, ?_⟩
  · intro c hc
    simp only [List.mem_cons, List.not_mem_nil, or_false] at hc
    rcases hc with rfl | rfl <;> simp [ValidProjectors]
  · intro _ _; norm_num
  · obtain ⟨r, hr, h1⟩ := external_last_type_decides (1 : Matrix (Fin 2) (Fin 2) ℚ) Matrix.transpose_one demoOrbs (fun _ => 0) (fun _ => 2)
      [⟨.deltaTailor, 1, demoFrag 1 0, 0⟩] ⟨.external, 1, demoFrag 1 0, 0⟩ (by
        intro c hc
        simp only [List.cons_append, List.nil_append, List.mem_cons, List.not_mem_nil, or_false] at hc
        rcases hc with rfl | rfl <;> simp [ValidProjectors])
    obtain ⟨r', hr', h2⟩ := external_last_type_decides (1 : Matrix (Fin 2) (Fin 2) ℚ) Matrix.transpose_one demoOrbs (fun _ => 0) (fun _ => 2)
      [⟨.external, 1, demoFrag 1 0, 0⟩] ⟨.deltaTailor, 1, demoFrag 1 0, 0⟩ (by
        intro c hc
        simp only [List.cons_append, List.nil_append, List.mem_cons, List.not_mem_nil, or_false] at hc
        rcases hc with rfl | rfl <;> simp [ValidProjectors])
    refine ⟨r, r', hr, hr', ?_, ?_⟩
    · intro hc
      have := (h1 (0 : Fin 1) (0 : Fin 1)).symm.trans hc
      revert this
      decide +kernel
    · intro hc
      have := ((h1 (0 : Fin 1) (0 : Fin 1)).symm.trans hc).trans (h2 (0 : Fin 1) (0 : Fin 1))
      revert this
      decide +kernel

/-- The corrections are tailoring only, with one number of projectors; or none is tailoring: only then a callback is made, for exactly
these corrections; otherwise NotImplementedError. -/
theorem callback_decision (l : List (Nat × CorrType × Int)) :
    (((∃ c ∈ l, c.2.1 = .tailor) ∧ ∃ c ∈ l, c.2.1 ≠ .tailor) → getCallback l = .error .notImplementedError) ∧
    ((∃ c ∈ l, ∃ d ∈ l, c.2.1 = .tailor ∧ d.2.1 = .tailor ∧ c.2.2 ≠ d.2.2) → getCallback l = .error .notImplementedError) ∧
    (∀ p, l ≠ [] → (∀ c ∈ l, c.2.1 = .tailor ∧ c.2.2 = p) → getCallback l = .ok (.tailor (l.map (·.1)) p)) ∧
    (l ≠ [] → (∀ c ∈ l, c.2.1 ≠ .tailor) → getCallback l = .ok (.external l.length)) ∧
    (l = [] → getCallback l = .ok .none) := by
  have hext : ∀ c : Nat × CorrType × Int, (c.2.1 = .external ∨ c.2.1 = .deltaTailor) ↔ c.2.1 ≠ .tailor := by
    intro c; cases c.2.1 <;> simp
  have hT : ∀ c, c ∈ l.filter (fun c => decide (c.2.1 = .tailor)) ↔ c ∈ l ∧ c.2.1 = .tailor := by simp
  have hE : ∀ c, c ∈ l.filter (fun c => decide (c.2.1 = .external ∨ c.2.1 = .deltaTailor)) ↔ c ∈ l ∧ c.2.1 ≠ .tailor := by
    intro c; rw [List.mem_filter, decide_eq_true_eq, hext]
  have hTall : (∀ c ∈ l, c.2.1 = .tailor) → l.filter (fun c => decide (c.2.1 = .tailor)) = l := by
    intro h; rw [List.filter_eq_self]; intro c hc; simp [h c hc]
  have hEall : (∀ c ∈ l, c.2.1 ≠ .tailor) → l.filter (fun c => decide (c.2.1 = .external ∨ c.2.1 = .deltaTailor)) = l := by
    intro h; rw [List.filter_eq_self]; intro c hc; rw [decide_eq_true_eq, hext]; exact h c hc
  simp only [getCallback]
  generalize l.filter (fun c => decide (c.2.1 = .tailor)) = T at hT hTall
  generalize l.filter (fun c => decide (c.2.1 = .external ∨ c.2.1 = .deltaTailor)) = E at hE hEall
  have key2 : (∃ c ∈ l, ∃ d ∈ l, c.2.1 = .tailor ∧ d.2.1 = .tailor ∧ c.2.2 ≠ d.2.2) →
      ∃ t ts, T = t :: ts ∧ ((t :: ts).any fun c => decide (c.2.2 ≠ t.2.2)) = true := by
    rintro ⟨c, hc, d, hd, h1, h2, h3⟩
    cases T with
    | nil => exact absurd ((hT c).2 ⟨hc, h1⟩) (by simp)
    | cons t ts =>
      refine ⟨t, ts, rfl, ?_⟩
      by_contra hn
      simp only [List.any_eq_true, decide_eq_true_eq, not_exists, not_and, not_not] at hn
      exact h3 ((hn c ((hT c).2 ⟨hc, h1⟩)).trans (hn d ((hT d).2 ⟨hd, h2⟩)).symm)
  refine ⟨?_, ?_, ?_, ?_, ?_⟩
  · rintro ⟨⟨c, hc, h1⟩, d, hd, h2⟩
    rw [if_pos ⟨List.ne_nil_of_mem ((hT c).2 ⟨hc, h1⟩), List.ne_nil_of_mem ((hE d).2 ⟨hd, h2⟩)⟩]
  · intro h
    obtain ⟨t, ts, rfl, h2⟩ := key2 h
    split
    · rfl
    · dsimp only; rw [if_pos h2]
  · intro p hne hall
    have hE0 : E = [] := by
      rw [List.eq_nil_iff_forall_not_mem]; intro c hc
      exact ((hE c).1 hc).2 (hall c ((hE c).1 hc).1).1
    have := hTall fun c hc => (hall c hc).1
    subst this
    cases T with
    | nil => exact absurd rfl hne
    | cons t ts =>
      have ht := (hall t (by simp)).2
      have hn : ¬ (((t :: ts).any fun c => decide (c.2.2 ≠ t.2.2)) = true) := by
        simp only [List.any_eq_true, decide_eq_true_eq, not_exists, not_and, not_not]
        intro c hc; rw [(hall c hc).2, ht]
      rw [if_neg (by simp [hE0])]
      dsimp only
      rw [if_neg hn, ht]
  · intro hne hall
    have hT0 : T = [] := by
      rw [List.eq_nil_iff_forall_not_mem]; intro c hc
      exact hall c ((hT c).1 hc).1 ((hT c).1 hc).2
    rw [hEall hall, hT0]
    simp [hne]
  · rintro rfl
    have hT0 : T = [] := by rw [List.eq_nil_iff_forall_not_mem]; intro c hc; simpa using (hT c).1 hc
    have hE0 : E = [] := by rw [List.eq_nil_iff_forall_not_mem]; intro c hc; simpa using (hE c).1 hc
    rw [hT0, hE0]; simp

/-! ## Examples -/

example : ∃ r, tailorR 1 1 (1/1000) true true demoOrbs [demoFrag 3 5, demoFrag 3 7] (Matrix.of fun _ _ => 1) (Matrix.of fun _ _ => 2)
    = .ok r := by
  refine (tailor_succeeds _ _ _ _ _ _ _).1.2 ⟨fun y hy => ?_, .inl (.inr (.inl rfl))⟩
  simp only [List.mem_cons, List.not_mem_nil, or_false] at hy
  rcases hy with rfl | rfl <;> exact ⟨⟨Nat.one_pos, Nat.one_pos⟩, Nat.one_pos, Nat.one_pos⟩

example : OrthonormalCluster 1 demoOrbs := by
  constructor <;> (ext i j; obtain rfl : i = (0 : Fin 1) := Subsingleton.elim (α := Fin 1) _ _; obtain rfl : j = (0 : Fin 1) := Subsingleton.elim (α := Fin 1) _ _; decide +kernel)

example : Overlapping 1 (1/1000) demoOrbs (demoFrag 3 5).toOrbs :=
  ⟨⟨(0 : Fin 1), (0 : Fin 1), by decide +kernel⟩, (0 : Fin 1), (0 : Fin 1), by decide +kernel⟩

example : SameSpaces 1 demoOrbs (demoFrag 3 5).toOrbs := ⟨rfl, rfl⟩

/-- The hypothesis of the full-cluster theorems: one other fragment covers the occupied space. -/
example : occSpace 1 demoOrbs * (0 + ([demoFrag 3 5].map fun y => fragSpace 1 y.toOrbs).sum) * occSpace 1 demoOrbs
    = occSpace 1 demoOrbs := by
  ext i j; fin_cases i <;> fin_cases j <;> decide +kernel

example : ∀ i j a b, (demoFrag 3 5).t2 (i, j) (a, b) = (demoFrag 3 5).t2 (j, i) (b, a) := fun _ _ _ _ => rfl

/-- Tailoring replaces the amplitudes by those of the fragment. -/
example : (tailorR 1 1 (1/1000) true true demoOrbs [demoFrag 3 5] (Matrix.of fun _ _ => 1) (Matrix.of fun _ _ => 2)).toOption.map
    (fun r => (r.1 (0 : Fin 1) (0 : Fin 1), r.2 ((0 : Fin 1), (0 : Fin 1)) ((0 : Fin 1), (0 : Fin 1)))) = some (3, 5) := by
  decide +kernel

/-- The fixed-point hypothesis. -/
example : aoAmp1 (demoFrag 3 5).toOrbs (demoFrag 3 5).t1
    = occSpace 1 (demoFrag 3 5).toOrbs * aoAmp1 demoOrbs (Matrix.of fun _ _ => 3) * (virSpace 1 (demoFrag 3 5).toOrbs)ᵀ := by
  ext i j; fin_cases i <;> fin_cases j <;> decide +kernel

example : HasOrbitalsU demoOrbs demoOrbs ∧ OverlappingU 1 (1/1000) demoOrbs demoOrbs demoOrbs demoOrbs :=
  ⟨⟨⟨Nat.one_pos, Nat.one_pos⟩, Nat.one_pos, Nat.one_pos⟩, .inl ⟨(0 : Fin 1), (0 : Fin 1), by decide +kernel⟩,
    .inl ⟨(0 : Fin 1), (0 : Fin 1), by decide +kernel⟩⟩

example : SupportedCorrections [(⟨.external, 2, demoFrag 1 2, 0⟩ : Corr 2 ℚ demoOrbs), ⟨.external, 1, demoFrag 1 2, 0⟩] := by
  intro c hc
  simp only [List.mem_cons, List.not_mem_nil, or_false] at hc
  rcases hc with rfl | rfl <;> simp [ValidProjectors]

end Vayesta.Props
