import Verif.Model.Screening
import Verif.Props.RpaX

/-! C77: moment-conserving screened interactions. -/

namespace Vayesta.Props
set_option linter.unusedSectionVars false
open Rpa Lowdin Matrix Lemmas Lemmas.Rpa Screening

variable {o v o' v' p q n m ι : Type} [Fintype o] [Fintype v] [Fintype o'] [Fintype v'] [DecidableEq o] [DecidableEq v] [DecidableEq o'] [DecidableEq v']
  [Fintype p] [DecidableEq p] [Fintype q] [DecidableEq q] [Fintype n] [DecidableEq n] [Fintype m] [DecidableEq m]

/-! ## Specification -/

/-- The interaction of the excitations of a cluster, as one matrix over alpha and beta excitations. -/
def clusterInteraction {c d c' d' : Type} (s : Ov c d c d × Ov c d c' d' × Ov c' d' c' d') : Matrix (c × d ⊕ c' × d') (c × d ⊕ c' × d') ℝ :=
  fromBlocks (Matrix.of fun x y => s.1 x.1 x.2 y.1 y.2) (Matrix.of fun x y => s.2.1 x.1 x.2 y.1 y.2) (Matrix.of fun x y => s.2.1 y.1 y.2 x.1 x.2)
    (Matrix.of fun x y => s.2.2 x.1 x.2 y.1 y.2)

/-- The direct RPA with energies `D` and interaction `K` has the moment `M` of order zero, for some and (as moments are unique) for every solution. -/
def HasMoment (D K M : Matrix q q ℝ) : Prop :=
  (∃ (X Y : Matrix q q ℝ) (w : q → ℝ), SolvesRpa (D + K) K X Y w)
    ∧ ∀ (X Y : Matrix q q ℝ) (w : q → ℝ), SolvesRpa (D + K) K X Y w → responseMoment X Y w 0 = M

/-! ## Riccati equation -/

private theorem posDef_symm {x : Matrix q q ℝ} (h : x.PosDef) : xᵀ = x := by have := h.1.eq; rwa [conjTranspose_eq_transpose_of_trivial] at this

private theorem eigh_pos {x : Matrix q q ℝ} (hx : x.PosDef) {g : Eig q ℝ} (h : IsEigh x g) (k : q) : 0 < g.val k := by
  have h1 := hx.conjTranspose_mul_mul_same (B := g.vec) (by
    intro u u' huu
    have h3 := congrArg (fun z => g.vecᵀ *ᵥ z) huu
    simpa only [mulVec_mulVec, h.1, one_mulVec] using h3)
  rw [conjTranspose_eq_transpose_of_trivial, Matrix.mul_assoc, h.2, ← Matrix.mul_assoc, h.1, Matrix.one_mul, posDef_diagonal_iff] at h1
  exact h1 k

private theorem momInv_mul (eigh : Matrix q q ℝ → Eig q ℝ) (he : DiagonalisesSymmetric eigh) {mom : Matrix q q ℝ} (h : mom.PosDef) :
    momInv eigh mom * mom = 1 ∧ mom * momInv eigh mom = 1 := by
  have hg := he mom (posDef_symm h)
  have hp := eigh_pos h hg
  have hg' : (eigh mom).vec * (eigh mom).vecᵀ = 1 := mul_eq_one_comm.mp hg.1
  have e : momInv eigh mom = (eigh mom).vec * (diagonal fun k => ((eigh mom).val k)⁻¹) * (eigh mom).vecᵀ := by
    ext x y
    rw [Matrix.mul_apply]
    simp only [mul_diagonal, transpose_apply]
    rfl
  have h1 : mom * momInv eigh mom = 1 := by
    rw [e, ← Matrix.mul_assoc, ← Matrix.mul_assoc, hg.2, Matrix.mul_assoc (eigh mom).vec, diagonal_mul_diagonal]
    have : (fun k => (eigh mom).val k * ((eigh mom).val k)⁻¹) = fun _ => (1 : ℝ) := funext fun k => mul_inv_cancel₀ (hp k).ne'
    rw [this, diagonal_one, Matrix.mul_one, hg']
  exact ⟨mul_eq_one_comm.mp h1, h1⟩

/-- The interaction is the one solving the Riccati equation for the moment. -/
private theorem kernel_iff (eigh : Matrix q q ℝ → Eig q ℝ) (he : DiagonalisesSymmetric eigh) {mom : Matrix q q ℝ} (h : mom.PosDef) (D K : Matrix q q ℝ) :
    K = momentKernel eigh mom D ↔ mom * (D + (2 : ℝ) • K) * mom = D := by
  obtain ⟨h1, h2⟩ := momInv_mul eigh he h
  set i := momInv eigh mom with hi
  have e : momentKernel eigh mom D = (1 / 2 : ℝ) • (i * D * i - D) := rfl
  constructor
  · rintro rfl
    rw [e, smul_smul]
    norm_num
    calc mom * (i * D * i) * mom = (mom * i) * D * (i * mom) := by simp only [Matrix.mul_assoc]
      _ = D := by rw [h1, h2, Matrix.one_mul, Matrix.mul_one]
  · intro hk
    have e2 : D + (2 : ℝ) • K = i * D * i := by
      calc D + (2 : ℝ) • K = (i * mom) * (D + (2 : ℝ) • K) * (mom * i) := by rw [h1, h2, Matrix.one_mul, Matrix.mul_one]
        _ = i * (mom * (D + (2 : ℝ) • K) * mom) * i := by simp only [Matrix.mul_assoc]
        _ = _ := by rw [hk]
    rw [e, ← e2]
    module

/-- A positive definite moment is the one of a solution. -/
private theorem sol_of_moment {mom D Q : Matrix q q ℝ} (h : mom.PosDef) (hD : D.PosDef) (e : mom * Q * mom = D) :
    ∃ (T S : Matrix q q ℝ) (w : q → ℝ), Sol D Q T S w ∧ T * Tᵀ = mom := by
  obtain ⟨R, hr, hrr⟩ : ∃ R : Matrix q q ℝ, R.PosSemidef ∧ R * R = mom := ⟨_, takesRoots_cfc mom h⟩
  have hRT : Rᵀ = R := by have := hr.1.eq; rwa [conjTranspose_eq_transpose_of_trivial] at this
  have hdet : IsUnit mom.det := (Matrix.isUnit_iff_isUnit_det _).mp h.isUnit
  have hRi : R * (R * mom⁻¹) = 1 := by rw [← Matrix.mul_assoc, hrr, mul_nonsing_inv _ hdet]
  set Ri := R * mom⁻¹ with hRi0
  have hRi' : Ri * R = 1 := mul_eq_one_comm.mp hRi
  have hRiT : Riᵀ = Ri := by
    have h1 : Riᵀ * R = 1 := by
      have := congrArg transpose hRi
      rwa [transpose_mul, hRT, transpose_one] at this
    calc Riᵀ = Riᵀ * (R * Ri) := by rw [hRi, Matrix.mul_one]
      _ = Ri := by rw [← Matrix.mul_assoc, h1, Matrix.one_mul]
  have hMp : (Ri * D * Ri).PosDef := by
    have h1 := hD.conjTranspose_mul_mul_same (B := Ri) (by
      intro u u' huu
      have h3 := congrArg (fun z => R *ᵥ z) huu
      simpa only [mulVec_mulVec, hRi, one_mulVec] using h3)
    rwa [conjTranspose_eq_transpose_of_trivial, hRiT] at h1
  have hg := anyEigh_diagonalises (Ri * D * Ri) (posDef_symm hMp)
  have hpos := eigh_pos hMp hg
  set g := anyEigh (Ri * D * Ri) with hgd
  have hc' : g.vec * g.vecᵀ = 1 := mul_eq_one_comm.mp hg.1
  have hM : g.vec * diagonal g.val * g.vecᵀ = Ri * D * Ri := by rw [← hg.2, Matrix.mul_assoc, hc', Matrix.mul_one]
  refine ⟨R * g.vec, Ri * g.vec, g.val, ⟨hpos, ?_, ?_, ?_, ?_⟩, ?_⟩
  · rw [transpose_mul, hRT]
    calc g.vecᵀ * R * (Ri * g.vec) = g.vecᵀ * (R * Ri) * g.vec := by simp only [Matrix.mul_assoc]
      _ = 1 := by rw [hRi, Matrix.mul_one, hg.1]
  · rw [transpose_mul, hRiT]
    calc R * g.vec * (g.vecᵀ * Ri) = R * (g.vec * g.vecᵀ) * Ri := by simp only [Matrix.mul_assoc]
      _ = 1 := by rw [hc', Matrix.mul_one, hRi]
  · rw [transpose_mul, hRT]
    symm
    calc R * g.vec * diagonal g.val * (g.vecᵀ * R) = R * (g.vec * diagonal g.val * g.vecᵀ) * R := by simp only [Matrix.mul_assoc]
      _ = (R * Ri) * D * (Ri * R) := by rw [hM]; simp only [Matrix.mul_assoc]
      _ = D := by rw [hRi, hRi', Matrix.one_mul, Matrix.mul_one]
  · rw [transpose_mul, hRiT]
    symm
    have hmi : Ri * Ri * mom = 1 := by
      rw [← hrr]
      calc Ri * Ri * (R * R) = Ri * (Ri * R) * R := by simp only [Matrix.mul_assoc]
        _ = 1 := by rw [hRi', Matrix.mul_one, hRi']
    have hmi' : mom * (Ri * Ri) = 1 := mul_eq_one_comm.mp hmi
    calc Ri * g.vec * diagonal g.val * (g.vecᵀ * Ri) = Ri * (g.vec * diagonal g.val * g.vecᵀ) * Ri := by simp only [Matrix.mul_assoc]
      _ = (Ri * Ri) * D * (Ri * Ri) := by rw [hM]; simp only [Matrix.mul_assoc]
      _ = (Ri * Ri * mom) * Q * (mom * (Ri * Ri)) := by rw [← e]; simp only [Matrix.mul_assoc]
      _ = Q := by rw [hmi, hmi', Matrix.one_mul, Matrix.mul_one]
  · rw [transpose_mul, hRT]
    calc R * g.vec * (g.vecᵀ * R) = R * (g.vec * g.vecᵀ) * R := by simp only [Matrix.mul_assoc]
      _ = mom := by rw [hc', Matrix.mul_one, hrr]

private theorem ab_sub (D K : Matrix q q ℝ) : D + K - K = D := by abel
private theorem ab_add (D K : Matrix q q ℝ) : D + K + K = D + (2 : ℝ) • K := by module

/-- A direct RPA has a given moment if its interaction solves the Riccati equation. -/
private theorem hasMoment_iff {D K M : Matrix q q ℝ} (hM : M.PosDef) (hD : D.PosDef) : HasMoment D K M ↔ M * (D + (2 : ℝ) • K) * M = D := by
  constructor
  · rintro ⟨⟨X, Y, w, h⟩, h2⟩
    have hs := h.sol
    rw [ab_sub, ab_add] at hs
    have := hs.riccati
    rwa [show mom (X + Y) w 0 = M from h2 X Y w h] at this
  · intro h
    obtain ⟨T, S, w, hs, hT⟩ := sol_of_moment hM hD h
    have hs' : Sol (D + K - K) (D + K + K) T S w := by rw [ab_sub, ab_add]; exact hs
    refine ⟨⟨_, _, _, solves_of_sol hs'⟩, fun X Y w' hX => ?_⟩
    have h1 := hX.sol.mom_eq hs' 0
    rw [mom_zero T] at h1
    rw [hT] at h1
    exact h1

/-! ## Moments of clusters -/

/-- Orthonormal cluster orbitals within the occupied and virtual space of the system give orthonormal excitations. -/
theorem mrpa_excitations_orthonormal {c d c' d' : Type} [DecidableEq c] [DecidableEq d] [DecidableEq c'] [DecidableEq d'] (roa : Matrix o c ℝ) (rva : Matrix v d ℝ) (rob : Matrix o' c' ℝ)
    (rvb : Matrix v' d' ℝ) (h1 : roaᵀ * roa = 1) (h2 : rvaᵀ * rva = 1) (h3 : robᵀ * rob = 1) (h4 : rvbᵀ * rvb = 1) :
    targetRot roa rva rob rvb * (targetRot roa rva rob rvb)ᵀ = 1 := by
  have key : ∀ {o v c d : Type} [Fintype o] [Fintype v] [DecidableEq c] [DecidableEq d] (ro : Matrix o c ℝ) (rv : Matrix v d ℝ), roᵀ * ro = 1 → rvᵀ * rv = 1 →
      targetRotSpat ro rv * (targetRotSpat ro rv)ᵀ = 1 := by
    intro o v c d _ _ _ _ ro rv e1 e2
    ext ⟨i, a⟩ ⟨j, b⟩
    have f1 := congrFun (congrFun e1 i) j
    have f2 := congrFun (congrFun e2 a) b
    rw [Matrix.mul_apply] at f1 f2
    rw [Matrix.mul_apply, Fintype.sum_prod_type]
    have : ∀ x y, targetRotSpat ro rv (i, a) (x, y) * (targetRotSpat ro rv)ᵀ (x, y) (j, b) = (roᵀ i x * ro x j) * (rvᵀ a y * rv y b) := by
      intro x y
      show ro x i * rv y a * (ro x j * rv y b) = ro x i * ro x j * (rv y a * rv y b)
      ring
    simp only [this]
    rw [← Finset.sum_mul_sum, f1, f2]
    simp only [Matrix.one_apply, Prod.mk.injEq]
    by_cases hi : i = j <;> by_cases ha : a = b <;> simp [hi, ha]
  unfold targetRot
  rw [fromBlocks_transpose, fromBlocks_multiply]
  simp only [transpose_zero, Matrix.mul_zero, Matrix.zero_mul, add_zero, zero_add]
  rw [key roa rva h1 h2, key rob rvb h3 h4, fromBlocks_one]

private theorem localAmB_eq (rot : Matrix q p ℝ) (eps : p → ℝ) : localAmB rot eps = rot * diagonal eps * rotᵀ := by
  ext x y
  rw [Matrix.mul_apply]
  simp only [mul_diagonal, transpose_apply]
  show ∑ n, rot x n * rot y n * eps n = _
  exact Finset.sum_congr rfl fun n _ => by ring

/-- The moments of the fragments from the moment of the system: with exact rows of the moment, both ways to calculate them agree. -/
private theorem localMoment_eq {Q : ι → Type} [∀ f, Fintype (Q f)] [∀ f, DecidableEq (Q f)] (rots : ∀ f, Matrix (Q f) p ℝ) (eta : Matrix p p ℝ) (he : etaᵀ = eta) (f : ι) :
    localMoment rots (stack rots * eta) f = rots f * eta * (rots f)ᵀ := by
  have e : (Matrix.of fun (x : Q f) => (stack rots * eta) ⟨f, x⟩) = rots f * eta := by
    ext x y
    show (stack rots * eta) ⟨f, x⟩ y = _
    rw [Matrix.mul_apply, Matrix.mul_apply]
    rfl
  unfold localMoment
  rw [e]
  have hs : (rots f * eta * (rots f)ᵀ)ᵀ = rots f * eta * (rots f)ᵀ := by
    rw [transpose_mul, transpose_mul, transpose_transpose, he, Matrix.mul_assoc]
  show (1 / 2 : ℝ) • (rots f * eta * (rots f)ᵀ + (rots f * eta * (rots f)ᵀ)ᵀ) = _
  rw [hs]
  module

private theorem rows_posDef {rot : Matrix q p ℝ} (hr : rot * rotᵀ = 1) {x : Matrix p p ℝ} (h : x.PosDef) : (rot * x * rotᵀ).PosDef := by
  have h2 := h.mul_mul_conjTranspose_same (B := rot) (by
    intro x y hxy
    have h3 := congrArg (fun u => u ᵥ* rotᵀ) hxy
    simpa only [vecMul_vecMul, hr, vecMul_one] using h3)
  rwa [conjTranspose_eq_transpose_of_trivial] at h2

private theorem kernel_symm (eigh : Matrix q q ℝ → Eig q ℝ) (he : DiagonalisesSymmetric eigh) {mom : Matrix q q ℝ} (h : mom.PosDef) {D : Matrix q q ℝ}
    (hD : Dᵀ = D) : (momentKernel eigh mom D)ᵀ = momentKernel eigh mom D := by
  rw [kernel_iff eigh he h]
  have h1 := (kernel_iff eigh he h D _).mp rfl
  have h2 := congrArg transpose h1
  rw [transpose_mul, transpose_mul, posDef_symm h, transpose_add, transpose_smul, hD, ← Matrix.mul_assoc] at h2
  exact h2

private theorem cluster_parts {c d c' d' : Type} {K : Matrix (c × d ⊕ c' × d') (c × d ⊕ c' × d') ℝ} (h : Kᵀ = K) : clusterInteraction (spinParts K) = K := by
  ext (x | x) (y | y)
  · rfl
  · rfl
  · show K (.inl (y.1, y.2)) (.inr (x.1, x.2)) = _
    exact congrFun (congrFun h (.inr x)) (.inl y)
  · rfl

section Built
variable {c d c' d' : ι → Type} [∀ f, Fintype (c f)] [∀ f, Fintype (d f)] [∀ f, Fintype (c' f)] [∀ f, Fintype (d' f)] [∀ f, DecidableEq (c f)]
  [∀ f, DecidableEq (d f)] [∀ f, DecidableEq (c' f)] [∀ f, DecidableEq (d' f)]

private theorem built {eigh : ∀ f, Matrix (c f × d f ⊕ c' f × d' f) (c f × d f ⊕ c' f × d' f) ℝ → Eig (c f × d f ⊕ c' f × d' f) ℝ}
    (he : ∀ f, DiagonalisesSymmetric (eigh f)) {eps : p → ℝ} {vv : Matrix p p ℝ} {X Y : Matrix p n ℝ} {w : n → ℝ} (h : SolvesRpa (diagonal eps + vv) vv X Y w)
    {rots : ∀ f, Matrix (c f × d f ⊕ c' f × d' f) p ℝ} (hr : ∀ f, rots f * (rots f)ᵀ = 1) {f : ι} {m0 : Bool} {st : Stored (c f) (d f) (c' f) (d' f)}
    (hst : buildOne (eigh f) m0 (rots f) (localMoment rots (stack rots * responseMoment X Y w 0) f) eps = .ok st) :
    (rots f * responseMoment X Y w 0 * (rots f)ᵀ).PosDef ∧ (rots f * diagonal eps * (rots f)ᵀ).PosDef
      ∧ clusterInteraction st.kc = momentKernel (eigh f) (rots f * responseMoment X Y w 0 * (rots f)ᵀ) (rots f * diagonal eps * (rots f)ᵀ)
      ∧ st.m0 = if m0 then some (rots f * responseMoment X Y w 0 * (rots f)ᵀ, rots f * diagonal eps * (rots f)ᵀ) else none := by
  have hs := h.sol
  rw [ab_sub, ab_add] at hs
  have hm : (responseMoment X Y w 0).PosDef := hs.posDef
  have hM := rows_posDef (hr f) hm
  have hD := rows_posDef (hr f) hs.P_posDef
  rw [localMoment_eq rots _ (posDef_symm hm), buildOne] at hst
  split at hst
  · exact absurd hst (by simp)
  · simp only [Except.ok.injEq] at hst
    subst hst
    rw [localAmB_eq]
    exact ⟨hM, hD, cluster_parts (kernel_symm _ (he f) hM (posDef_symm hD)), rfl⟩

/-- For every fragment, the screened interaction is the only one for which the direct RPA of the cluster has the moment of order zero of the direct
RPA of the system, within the excitations of the cluster. The fragment also keeps this moment and the energies, if they are to be stored. -/
theorem mrpa_moment (eigh : ∀ f, Matrix (c f × d f ⊕ c' f × d' f) (c f × d f ⊕ c' f × d' f) ℝ → Eig (c f × d f ⊕ c' f × d' f) ℝ)
    (he : ∀ f, DiagonalisesSymmetric (eigh f)) (eps : p → ℝ) (vv : Matrix p p ℝ) (X Y : Matrix p n ℝ) (w : n → ℝ) (h : SolvesRpa (diagonal eps + vv) vv X Y w)
    (rots : ∀ f, Matrix (c f × d f ⊕ c' f × d' f) p ℝ) (hr : ∀ f, rots f * (rots f)ᵀ = 1) (f : ι) (m0 : Bool) (st : Stored (c f) (d f) (c' f) (d' f))
    (hst : buildOne (eigh f) m0 (rots f) (localMoment rots (stack rots * responseMoment X Y w 0) f) eps = .ok st) :
    (∀ K, HasMoment (rots f * diagonal eps * (rots f)ᵀ) K (rots f * responseMoment X Y w 0 * (rots f)ᵀ) ↔ K = clusterInteraction st.kc)
      ∧ st.m0 = if m0 then some (rots f * responseMoment X Y w 0 * (rots f)ᵀ, rots f * diagonal eps * (rots f)ᵀ) else none := by
  obtain ⟨hM, hD, hk, h0⟩ := built he h hr hst
  refine ⟨fun K => ?_, h0⟩
  rw [hasMoment_iff hM hD, hk, kernel_iff _ (he f) hM]

/-- A cluster of all excitations has the bare interaction, in the cluster orbitals. Any cluster has no interaction if the system has none. -/
theorem mrpa_limits (eigh : ∀ f, Matrix (c f × d f ⊕ c' f × d' f) (c f × d f ⊕ c' f × d' f) ℝ → Eig (c f × d f ⊕ c' f × d' f) ℝ)
    (he : ∀ f, DiagonalisesSymmetric (eigh f)) (eps : p → ℝ) (vv : Matrix p p ℝ) (X Y : Matrix p n ℝ) (w : n → ℝ) (h : SolvesRpa (diagonal eps + vv) vv X Y w)
    (rots : ∀ f, Matrix (c f × d f ⊕ c' f × d' f) p ℝ) (hr : ∀ f, rots f * (rots f)ᵀ = 1) (f : ι) (m0 : Bool) (st : Stored (c f) (d f) (c' f) (d' f))
    (hst : buildOne (eigh f) m0 (rots f) (localMoment rots (stack rots * responseMoment X Y w 0) f) eps = .ok st) :
    ((rots f)ᵀ * rots f = 1 → clusterInteraction st.kc = rots f * vv * (rots f)ᵀ) ∧ (vv = 0 → clusterInteraction st.kc = 0) := by
  obtain ⟨hM, hD, hk, -⟩ := built he h hr hst
  have hs := h.sol
  rw [ab_sub, ab_add] at hs
  have hric : responseMoment X Y w 0 * (diagonal eps + (2 : ℝ) • vv) * responseMoment X Y w 0 = diagonal eps := hs.riccati
  set eta := responseMoment X Y w 0 with heta
  set r := rots f with hrf
  constructor
  · intro hfull
    rw [hk, eq_comm, kernel_iff _ (he f) hM]
    have e : r * diagonal eps * rᵀ + (2 : ℝ) • (r * vv * rᵀ) = r * (diagonal eps + (2 : ℝ) • vv) * rᵀ := by
      rw [Matrix.mul_add, Matrix.add_mul, Matrix.mul_smul, Matrix.smul_mul]
    rw [e]
    calc r * eta * rᵀ * (r * (diagonal eps + (2 : ℝ) • vv) * rᵀ) * (r * eta * rᵀ)
        = r * eta * (rᵀ * r) * (diagonal eps + (2 : ℝ) • vv) * (rᵀ * r) * eta * rᵀ := by simp only [Matrix.mul_assoc]
      _ = r * (eta * (diagonal eps + (2 : ℝ) • vv) * eta) * rᵀ := by rw [hfull, Matrix.mul_one, Matrix.mul_one]; simp only [Matrix.mul_assoc]
      _ = _ := by rw [hric]
  · rintro rfl
    have h1 : (1 : Matrix p p ℝ) = eta := by
      refine hs.unique PosDef.one ?_
      rw [Matrix.one_mul, Matrix.mul_one, smul_zero, add_zero]
    rw [hk, eq_comm, kernel_iff _ (he f) hM, smul_zero, add_zero, ← h1, Matrix.mul_one, hr f, Matrix.one_mul, Matrix.mul_one]

/-- Fragments with the same excitations, in rotated orbitals, have the same interaction, in rotated orbitals. -/
private theorem built_rotated {eigh : ∀ f, Matrix (c f × d f ⊕ c' f × d' f) (c f × d f ⊕ c' f × d' f) ℝ → Eig (c f × d f ⊕ c' f × d' f) ℝ}
    (he : ∀ f, DiagonalisesSymmetric (eigh f)) {eps : p → ℝ} {vv : Matrix p p ℝ} {X Y : Matrix p n ℝ} {w : n → ℝ} (h : SolvesRpa (diagonal eps + vv) vv X Y w)
    {rots : ∀ f, Matrix (c f × d f ⊕ c' f × d' f) p ℝ} (hr : ∀ f, rots f * (rots f)ᵀ = 1) {f g : ι} (U : Matrix (c g × d g ⊕ c' g × d' g) (c f × d f ⊕ c' f × d' f) ℝ)
    (hU : U * Uᵀ = 1) (hU' : Uᵀ * U = 1) (hg : rots g = U * rots f) {m0 m0' : Bool} {st : Stored (c f) (d f) (c' f) (d' f)} {st' : Stored (c g) (d g) (c' g) (d' g)}
    (hst : buildOne (eigh f) m0 (rots f) (localMoment rots (stack rots * responseMoment X Y w 0) f) eps = .ok st)
    (hst' : buildOne (eigh g) m0' (rots g) (localMoment rots (stack rots * responseMoment X Y w 0) g) eps = .ok st') :
    clusterInteraction st'.kc = U * clusterInteraction st.kc * Uᵀ := by
  obtain ⟨hM, hD, hk, -⟩ := built he h hr hst
  obtain ⟨hM', hD', hk', -⟩ := built he h hr hst'
  have h1 := (kernel_iff _ (he f) hM _ _).mp hk
  rw [hk', eq_comm, kernel_iff _ (he g) hM']
  set eta := responseMoment X Y w 0
  set K := clusterInteraction st.kc
  have e : ∀ x : Matrix p p ℝ, rots g * x * (rots g)ᵀ = U * (rots f * x * (rots f)ᵀ) * Uᵀ := by
    intro x; rw [hg, transpose_mul]; simp only [Matrix.mul_assoc]
  rw [e, e]
  generalize rots f * eta * (rots f)ᵀ = M at h1 ⊢
  generalize rots f * diagonal eps * (rots f)ᵀ = D at h1 ⊢
  have e2 : U * D * Uᵀ + (2 : ℝ) • (U * K * Uᵀ) = U * (D + (2 : ℝ) • K) * Uᵀ := by
    rw [Matrix.mul_add, Matrix.add_mul, Matrix.mul_smul, Matrix.smul_mul]
  rw [e2]
  calc U * M * Uᵀ * (U * (D + (2 : ℝ) • K) * Uᵀ) * (U * M * Uᵀ) = U * M * (Uᵀ * U) * (D + (2 : ℝ) • K) * (Uᵀ * U) * M * Uᵀ := by simp only [Matrix.mul_assoc]
    _ = U * (M * (D + (2 : ℝ) • K) * M) * Uᵀ := by rw [hU', Matrix.mul_one, Matrix.mul_one]; simp only [Matrix.mul_assoc]
    _ = _ := by rw [h1]

end Built

private theorem spat_mul {c d : Type} [Fintype c] [Fintype d] {e g : Type} (ro : Matrix o c ℝ) (rv : Matrix v d ℝ) (u : Matrix c e ℝ) (w : Matrix d g ℝ) :
    targetRotSpat (ro * u) (rv * w) = targetRotSpat u w * targetRotSpat ro rv := by
  ext ⟨i, a⟩ ⟨j, b⟩
  rw [Matrix.mul_apply, Fintype.sum_prod_type]
  show (ro * u) j i * (rv * w) b a = ∑ x, ∑ y, u x i * w y a * (ro j x * rv b y)
  rw [Matrix.mul_apply, Matrix.mul_apply, Finset.sum_mul_sum]
  exact Finset.sum_congr rfl fun x _ => Finset.sum_congr rfl fun y _ => by ring

/-- The interaction of two fragments with the same clusters, described by different orbitals, are related by the rotation of the orbitals. -/
theorem mrpa_orbital_rotation {c d c' d' : Type} [Fintype c] [Fintype d] [Fintype c'] [Fintype d'] [DecidableEq c] [DecidableEq d] [DecidableEq c'] [DecidableEq d']
    (eigh : Matrix (c × d ⊕ c' × d') (c × d ⊕ c' × d') ℝ → Eig (c × d ⊕ c' × d') ℝ) (he : DiagonalisesSymmetric eigh) (eps : o × v ⊕ o' × v' → ℝ)
    (vv : Matrix (o × v ⊕ o' × v') (o × v ⊕ o' × v') ℝ) (X Y : Matrix (o × v ⊕ o' × v') n ℝ) (w : n → ℝ) (h : SolvesRpa (diagonal eps + vv) vv X Y w)
    (roa : Matrix o c ℝ) (rva : Matrix v d ℝ) (rob : Matrix o' c' ℝ) (rvb : Matrix v' d' ℝ)
    (h1 : roaᵀ * roa = 1) (h2 : rvaᵀ * rva = 1) (h3 : robᵀ * rob = 1) (h4 : rvbᵀ * rvb = 1)
    (ua : Matrix c c ℝ) (wa : Matrix d d ℝ) (ub : Matrix c' c' ℝ) (wb : Matrix d' d' ℝ) (u1 : uaᵀ * ua = 1) (u2 : waᵀ * wa = 1) (u3 : ubᵀ * ub = 1) (u4 : wbᵀ * wb = 1)
    (st st' : Stored c d c' d') (m0 m0' : Bool) (mom : Bool → Matrix (c × d ⊕ c' × d') (c × d ⊕ c' × d') ℝ)
    (hmom : mom = localMoment (fun f : Bool => if f then targetRot (roa * ua) (rva * wa) (rob * ub) (rvb * wb) else targetRot roa rva rob rvb)
      (stack (fun f : Bool => if f then targetRot (roa * ua) (rva * wa) (rob * ub) (rvb * wb) else targetRot roa rva rob rvb) * responseMoment X Y w 0))
    (hst : buildOne eigh m0 (targetRot roa rva rob rvb) (mom false) eps = .ok st)
    (hst' : buildOne eigh m0' (targetRot (roa * ua) (rva * wa) (rob * ub) (rvb * wb)) (mom true) eps = .ok st') :
    clusterInteraction st'.kc = targetRot ua wa ub wb * clusterInteraction st.kc * (targetRot ua wa ub wb)ᵀ := by
  subst hmom
  have oo : ∀ {a b : Type} [Fintype a] [Fintype b] [DecidableEq b] {r : Matrix a b ℝ} {u : Matrix b b ℝ}, rᵀ * r = 1 → uᵀ * u = 1 → (r * u)ᵀ * (r * u) = 1 := by
    intro a b _ _ _ r u hr hu
    rw [transpose_mul]
    calc uᵀ * rᵀ * (r * u) = uᵀ * (rᵀ * r) * u := by simp only [Matrix.mul_assoc]
      _ = 1 := by rw [hr, Matrix.mul_one, hu]
  have hU := mrpa_excitations_orthonormal ua wa ub wb u1 u2 u3 u4
  refine built_rotated (ι := Bool) (c := fun _ => c) (d := fun _ => d) (c' := fun _ => c') (d' := fun _ => d') (eigh := fun _ => eigh) (fun _ => he) h
    (rots := fun f : Bool => if f then targetRot (roa * ua) (rva * wa) (rob * ub) (rvb * wb) else targetRot roa rva rob rvb) ?_ (f := false) (g := true) _ hU
    (mul_eq_one_comm.mp hU) ?_ hst hst'
  · intro f
    cases f
    · exact mrpa_excitations_orthonormal _ _ _ _ h1 h2 h3 h4
    · exact mrpa_excitations_orthonormal _ _ _ _ (oo h1 u1) (oo h2 u2) (oo h3 u3) (oo h4 u4)
  · show targetRot (roa * ua) (rva * wa) (rob * ub) (rvb * wb) = targetRot ua wa ub wb * targetRot roa rva rob rvb
    unfold targetRot
    rw [fromBlocks_multiply, spat_mul, spat_mul]
    simp only [Matrix.mul_zero, Matrix.zero_mul, add_zero, zero_add]

/-! ## Restricted systems -/

private theorem combine_mul (a b a' b' : Matrix p p ℝ) : combine a b * combine a' b' = combine (a * a' + b * b') (a * b' + b * a') := by
  unfold combine
  rw [fromBlocks_multiply, add_comm (b * a'), add_comm (b * b')]

private theorem combine_inj {a b a' b' : Matrix p p ℝ} : combine a b = combine a' b' ↔ a + b = a' + b' ∧ a - b = a' - b' := by
  constructor
  · intro h
    obtain ⟨rfl, rfl, -, -⟩ := fromBlocks_inj.mp h
    exact ⟨rfl, rfl⟩
  · rintro ⟨h1, h2⟩
    have e1 : a = a' := by
      have : (2 : ℝ) • a = (2 : ℝ) • a' := by
        calc (2 : ℝ) • a = (a + b) + (a - b) := by module
          _ = _ := by rw [h1, h2]; module
      simpa using congrArg (fun x => (1 / 2 : ℝ) • x) this
    subst e1
    rw [add_left_cancel h1]

private theorem rows_combine (r : Matrix q p ℝ) (a b : Matrix p p ℝ) : fromBlocks r 0 0 r * combine a b * (fromBlocks r 0 0 r)ᵀ = combine (r * a * rᵀ) (r * b * rᵀ) := by
  unfold combine
  rw [fromBlocks_transpose, fromBlocks_multiply, fromBlocks_multiply]
  simp only [transpose_zero, Matrix.mul_zero, Matrix.zero_mul, add_zero, zero_add]

/-- Positive definite combinations, of both spin channels. -/
private theorem combine_parts_pos {a b : Matrix p p ℝ} (h : (combine a b).PosDef) : (a + b).PosDef ∧ (a - b).PosDef := by
  have key : ∀ s : ℝ, s * s = 1 → (a + s • b).PosDef := by
    intro s hs
    have h1 := h.conjTranspose_mul_mul_same (B := (fromRows 1 (s • 1) : Matrix (p ⊕ p) p ℝ)) (by
      intro x y hxy
      have := congrFun hxy
      funext i
      have := this (.inl i)
      simpa [fromRows_mulVec] using this)
    have e : (fromRows 1 (s • 1) : Matrix (p ⊕ p) p ℝ)ᴴ * combine a b * (fromRows 1 (s • 1) : Matrix (p ⊕ p) p ℝ) = (2 : ℝ) • (a + s • b) := by
      unfold combine
      rw [conjTranspose_eq_transpose_of_trivial, transpose_fromRows, fromCols_mul_fromBlocks, fromCols_mul_fromRows]
      simp only [transpose_one, transpose_smul, Matrix.one_mul, Matrix.mul_one, Matrix.smul_mul, Matrix.mul_smul]
      rw [smul_add, smul_smul, hs]
      module
    rw [e] at h1
    have := h1.smul (show (0 : ℝ) < 1 / 2 by norm_num)
    rwa [smul_smul, show (1 / 2 : ℝ) * 2 = 1 by norm_num, one_smul] at this
  refine ⟨by simpa using key 1 (by norm_num), ?_⟩
  have := key (-1) (by norm_num)
  rwa [neg_one_smul, ← sub_eq_add_neg] at this

/-- Restricted systems: alpha and beta are equivalent, in the moment. -/
private theorem moment_restricted {e : p → ℝ} {u : Matrix p p ℝ} {X Y : Matrix (p ⊕ p) n ℝ} {w : n → ℝ}
    (h : SolvesRpa (diagonal (Rpa.concat e e) + combine u u) (combine u u) X Y w) : ∃ b : Matrix p p ℝ, responseMoment X Y w 0 = combine (1 + b) b := by
  have hs := h.sol
  rw [ab_sub, ab_add] at hs
  have hP : diagonal (Rpa.concat e e) = combine (diagonal e) 0 := by
    unfold combine Rpa.concat; rw [← fromBlocks_diagonal]
  have hQ : diagonal (Rpa.concat e e) + (2 : ℝ) • combine u u = combine (diagonal e + (2 : ℝ) • u) ((2 : ℝ) • u) := by
    rw [hP]; unfold combine; rw [fromBlocks_smul, fromBlocks_add, zero_add]
  have hm : (responseMoment X Y w 0).PosDef := hs.posDef
  have hric : responseMoment X Y w 0 * (diagonal (Rpa.concat e e) + (2 : ℝ) • combine u u) * responseMoment X Y w 0 = diagonal (Rpa.concat e e) := hs.riccati
  set eta := responseMoment X Y w 0 with heta
  set J : Matrix (p ⊕ p) (p ⊕ p) ℝ := fromBlocks 0 1 1 0 with hJ
  have hJJ : J * J = 1 := by
    rw [hJ, fromBlocks_multiply]
    simp only [Matrix.mul_zero, Matrix.zero_mul, Matrix.mul_one, zero_add, add_zero, fromBlocks_one]
  have hJT : Jᵀ = J := by rw [hJ, fromBlocks_transpose]; simp only [transpose_zero, transpose_one]
  have hJc : ∀ a b : Matrix p p ℝ, J * combine a b * J = combine a b := by
    intro a b
    rw [hJ]
    unfold combine
    rw [fromBlocks_multiply, fromBlocks_multiply]
    simp only [Matrix.mul_zero, Matrix.zero_mul, Matrix.mul_one, Matrix.one_mul, zero_add, add_zero]
  have hsw : J * eta * J = eta := by
    refine hs.unique ?_ ?_
    · have := rows_posDef (rot := J) (by rw [hJT, hJJ]) hm
      rwa [hJT] at this
    · calc J * eta * J * (diagonal (Rpa.concat e e) + (2 : ℝ) • combine u u) * (J * eta * J)
          = J * (eta * (J * (diagonal (Rpa.concat e e) + (2 : ℝ) • combine u u) * J) * eta) * J := by simp only [Matrix.mul_assoc]
        _ = diagonal (Rpa.concat e e) := by
            have : J * (diagonal (Rpa.concat e e) + (2 : ℝ) • combine u u) * J = diagonal (Rpa.concat e e) + (2 : ℝ) • combine u u := by rw [hQ, hJc]
            rw [this, hric, hP, hJc]
  obtain ⟨a, b, hab⟩ : ∃ a b : Matrix p p ℝ, eta = combine a b := by
    refine ⟨eta.toBlocks₁₁, eta.toBlocks₁₂, ?_⟩
    have h1 : J * eta * J = fromBlocks eta.toBlocks₂₂ eta.toBlocks₂₁ eta.toBlocks₁₂ eta.toBlocks₁₁ := by
      rw [hJ]
      nth_rw 1 [← fromBlocks_toBlocks eta]
      rw [fromBlocks_multiply, fromBlocks_multiply]
      simp only [Matrix.mul_zero, Matrix.zero_mul, Matrix.mul_one, Matrix.one_mul, zero_add, add_zero]
    rw [hsw] at h1
    have h2 := h1
    rw [← fromBlocks_toBlocks eta] at h2
    simp only [toBlocks_fromBlocks₁₁, toBlocks_fromBlocks₁₂, toBlocks_fromBlocks₂₁, toBlocks_fromBlocks₂₂] at h2
    obtain ⟨e1, e2, -, -⟩ := fromBlocks_inj.mp h2
    rw [← fromBlocks_toBlocks eta]
    unfold combine
    simp only [toBlocks_fromBlocks₁₁, toBlocks_fromBlocks₁₂]
    rw [← e1, ← e2]
  refine ⟨b, ?_⟩
  rw [hab] at hm hric ⊢
  rw [hQ, hP, combine_mul, combine_mul, combine_inj] at hric
  have h2 : (a - b) * diagonal e * (a - b) = diagonal e := by
    have := hric.2
    rw [sub_zero] at this
    refine Eq.trans ?_ this
    generalize (2 : ℝ) • u = k
    noncomm_ring
  have he : ∀ x, 0 < e x := by
    intro x
    have := hs.P_posDef
    rw [posDef_diagonal_iff] at this
    exact this (.inl x)
  have h0 : Sol (diagonal e) (diagonal e) (1 : Matrix p p ℝ) 1 e := by
    refine ⟨he, ?_, ?_, ?_, ?_⟩ <;> simp
  have h3 := h0.unique (combine_parts_pos hm).2 h2
  rw [mom_zero, transpose_one, Matrix.mul_one] at h3
  rw [← h3, sub_add_cancel]

/-- In restricted systems, the interaction is the same for all spins. -/
theorem mrpa_restricted {c d : Type} [Fintype c] [Fintype d] [DecidableEq c] [DecidableEq d]
    (eigh : Matrix (c × d ⊕ c × d) (c × d ⊕ c × d) ℝ → Eig (c × d ⊕ c × d) ℝ) (he : DiagonalisesSymmetric eigh) (e : o × v → ℝ) (u : Matrix (o × v) (o × v) ℝ)
    (X Y : Matrix (o × v ⊕ o × v) n ℝ) (w : n → ℝ) (h : SolvesRpa (diagonal (Rpa.concat e e) + fromBlocks u u u u) (fromBlocks u u u u) X Y w)
    (ro : ι → Matrix o c ℝ) (rv : ι → Matrix v d ℝ) (h1 : ∀ f, (ro f)ᵀ * ro f = 1) (h2 : ∀ f, (rv f)ᵀ * rv f = 1) (f : ι) (m0 : Bool) (st : Stored c d c d)
    (hst : buildOne eigh m0 (targetRot (ro f) (rv f) (ro f) (rv f)) (localMoment (fun f => targetRot (ro f) (rv f) (ro f) (rv f))
      (stack (fun f => targetRot (ro f) (rv f) (ro f) (rv f)) * responseMoment X Y w 0) f) (Rpa.concat e e) = .ok st) :
    st.kc.1 = st.kc.2.1 ∧ st.kc.2.2 = st.kc.2.1 ∧ ∀ i a j b, st.kc.2.1 i a j b = st.kc.2.1 j b i a := by
  obtain ⟨hM, hD, hk, -⟩ := built (ι := ι) (c := fun _ => c) (d := fun _ => d) (c' := fun _ => c) (d' := fun _ => d) (eigh := fun _ => eigh) (fun _ => he) h
    (rots := fun f => targetRot (ro f) (rv f) (ro f) (rv f)) (fun f => mrpa_excitations_orthonormal _ _ _ _ (h1 f) (h2 f) (h1 f) (h2 f)) hst
  obtain ⟨b, hb⟩ := moment_restricted h
  set r := targetRotSpat (ro f) (rv f) with hr
  have hrr : r * rᵀ = 1 := by
    have := mrpa_excitations_orthonormal _ _ _ _ (h1 f) (h2 f) (h1 f) (h2 f)
    unfold targetRot at this
    rw [fromBlocks_transpose, fromBlocks_multiply, ← fromBlocks_one] at this
    obtain ⟨this, -⟩ := fromBlocks_inj.mp this
    rwa [transpose_zero, Matrix.mul_zero, add_zero] at this
  have eM : targetRot (ro f) (rv f) (ro f) (rv f) * responseMoment X Y w 0 * (targetRot (ro f) (rv f) (ro f) (rv f))ᵀ = combine (1 + r * b * rᵀ) (r * b * rᵀ) := by
    unfold targetRot
    rw [hb, rows_combine, Matrix.mul_add, Matrix.add_mul, Matrix.mul_one, ← hr, hrr]
  have eD : targetRot (ro f) (rv f) (ro f) (rv f) * diagonal (Rpa.concat e e) * (targetRot (ro f) (rv f) (ro f) (rv f))ᵀ = combine (r * diagonal e * rᵀ) 0 := by
    have : diagonal (Rpa.concat e e) = combine (diagonal e) 0 := by unfold combine Rpa.concat; rw [← fromBlocks_diagonal]
    unfold targetRot
    rw [this, rows_combine, ← hr, Matrix.mul_zero, Matrix.zero_mul]
  beta_reduce at hM hD hk
  rw [eM] at hM hk
  rw [eD] at hk
  have hmp := (combine_parts_pos hM).1
  set B := r * b * rᵀ with hB
  set D := r * diagonal e * rᵀ with hD'
  have hdet : IsUnit (1 + B + B).det := (Matrix.isUnit_iff_isUnit_det _).mp hmp.isUnit
  set i := (1 + B + B)⁻¹ with hi
  have hi1 : i * (1 + B + B) = 1 := nonsing_inv_mul _ hdet
  have hi2 : (1 + B + B) * i = 1 := mul_nonsing_inv _ hdet
  have hK : clusterInteraction st.kc = combine ((1 / 4 : ℝ) • (i * D * i - D)) ((1 / 4 : ℝ) • (i * D * i - D)) := by
    rw [hk, eq_comm, kernel_iff _ he hM]
    set k := (1 / 4 : ℝ) • (i * D * i - D) with hkk
    have e1 : combine D 0 + (2 : ℝ) • combine k k = combine (D + (2 : ℝ) • k) ((2 : ℝ) • k) := by
      unfold combine; rw [fromBlocks_smul, fromBlocks_add, zero_add]
    rw [e1, combine_mul, combine_mul, combine_inj]
    constructor
    · have e2 : D + (2 : ℝ) • k + (2 : ℝ) • k = i * D * i := by rw [hkk]; module
      calc _ = (1 + B + B) * (D + (2 : ℝ) • k + (2 : ℝ) • k) * (1 + B + B) := by
            generalize (2 : ℝ) • k = k2
            noncomm_ring
        _ = ((1 + B + B) * i) * D * (i * (1 + B + B)) := by rw [e2]; simp only [Matrix.mul_assoc]
        _ = D + 0 := by rw [hi1, hi2, Matrix.one_mul, Matrix.mul_one, add_zero]
    · generalize (2 : ℝ) • k = k2
      noncomm_ring
  have hb := fromBlocks_inj.mp hK
  obtain ⟨q1, q2, q3, q4⟩ := hb
  have x1 : ∀ i a j b, st.kc.1 i a j b = st.kc.2.1 i a j b := fun i a j b => congrFun (congrFun (q1.trans q2.symm) (i, a)) (j, b)
  have x2 : ∀ i a j b, st.kc.2.2 i a j b = st.kc.2.1 i a j b := fun i a j b => congrFun (congrFun (q4.trans q2.symm) (i, a)) (j, b)
  refine ⟨by funext i a j b; exact x1 i a j b, by funext i a j b; exact x2 i a j b, fun i a j b => ?_⟩
  exact (congrFun (congrFun (q2.trans q3.symm) (i, a)) (j, b))

/-! ## Arrays of integrals -/

/-- The excitation described by a pair of orbitals, if one is occupied and the other virtual. -/
def excitation {c d : Type} : c ⊕ d → c ⊕ d → Option (c × d)
  | .inl i, .inr a => some (i, a)
  | .inr a, .inl i => some (i, a)
  | _, _ => none

/-- The integrals of a cluster: screened where both pairs of orbitals are excitations, otherwise bare. -/
def screenedIntegral {c d c' d' : Type} (bare : ℝ) (s : Ov c d c' d') : Option (c × d) → Option (c' × d') → ℝ
  | some x, some y => s x.1 x.2 y.1 y.2
  | _, _ => bare

/-- All three arrays of screened integrals. -/
theorem mrpa_arrays {c d c' d' : Type} (gaa : c ⊕ d → c ⊕ d → c ⊕ d → c ⊕ d → ℝ) (gab : c ⊕ d → c ⊕ d → c' ⊕ d' → c' ⊕ d' → ℝ)
    (gbb : c' ⊕ d' → c' ⊕ d' → c' ⊕ d' → c' ⊕ d' → ℝ) (s : Ov c d c d × Ov c d c' d' × Ov c' d' c' d') :
    (∀ x y z w, (screenedFull gaa gab gbb s).1 x y z w = screenedIntegral (gaa x y z w) s.1 (excitation x y) (excitation z w))
      ∧ (∀ x y z w, (screenedFull gaa gab gbb s).2.1 x y z w = screenedIntegral (gab x y z w) s.2.1 (excitation x y) (excitation z w))
      ∧ ∀ x y z w, (screenedFull gaa gab gbb s).2.2 x y z w = screenedIntegral (gbb x y z w) s.2.2 (excitation x y) (excitation z w) := by
  refine ⟨?_, ?_, ?_⟩ <;> rintro (x | x) (y | y) (z | z) (w | w) <;> rfl

private theorem excitation_comm {c d : Type} (x y : c ⊕ d) : excitation x y = excitation y x := by
  rcases x with x | x <;> rcases y with y | y <;> rfl

/-- Screened integrals have the symmetries of bare integrals. -/
theorem mrpa_symmetry {c d c' d' : Type} (gaa : c ⊕ d → c ⊕ d → c ⊕ d → c ⊕ d → ℝ) (gab : c ⊕ d → c ⊕ d → c' ⊕ d' → c' ⊕ d' → ℝ)
    (gbb : c' ⊕ d' → c' ⊕ d' → c' ⊕ d' → c' ⊕ d' → ℝ) (s : Ov c d c d × Ov c d c' d' × Ov c' d' c' d') :
    ((∀ x y z w, gaa y x z w = gaa x y z w) → ∀ x y z w, (screenedFull gaa gab gbb s).1 y x z w = (screenedFull gaa gab gbb s).1 x y z w)
      ∧ ((∀ x y z w, gaa z w x y = gaa x y z w) → (∀ i a j b, s.1 j b i a = s.1 i a j b) →
        ∀ x y z w, (screenedFull gaa gab gbb s).1 z w x y = (screenedFull gaa gab gbb s).1 x y z w)
      ∧ ((∀ x y z w, gab y x z w = gab x y z w) → ∀ x y z w, (screenedFull gaa gab gbb s).2.1 y x z w = (screenedFull gaa gab gbb s).2.1 x y z w)
      ∧ ((∀ x y z w, gab x y w z = gab x y z w) → ∀ x y z w, (screenedFull gaa gab gbb s).2.1 x y w z = (screenedFull gaa gab gbb s).2.1 x y z w)
      ∧ ((∀ x y z w, gbb y x z w = gbb x y z w) → ∀ x y z w, (screenedFull gaa gab gbb s).2.2 y x z w = (screenedFull gaa gab gbb s).2.2 x y z w)
      ∧ ((∀ x y z w, gbb z w x y = gbb x y z w) → (∀ i a j b, s.2.2 j b i a = s.2.2 i a j b) →
        ∀ x y z w, (screenedFull gaa gab gbb s).2.2 z w x y = (screenedFull gaa gab gbb s).2.2 x y z w) := by
  obtain ⟨h1, h2, h3⟩ := mrpa_arrays gaa gab gbb s
  refine ⟨fun h x y z w => ?_, fun h h' x y z w => ?_, fun h x y z w => ?_, fun h x y z w => ?_, fun h x y z w => ?_, fun h h' x y z w => ?_⟩
  · rw [h1, h1, excitation_comm y x, h]
  · rw [h1, h1, h]
    cases excitation x y <;> cases excitation z w <;> first | rfl | exact h' _ _ _ _
  · rw [h2, h2, excitation_comm y x, h]
  · rw [h2, h2, excitation_comm w z, h]
  · rw [h3, h3, excitation_comm y x, h]
  · rw [h3, h3, h]
    cases excitation x y <;> cases excitation z w <;> first | rfl | exact h' _ _ _ _

/-- The one array of a restricted Hamiltonian: with equal interactions of all spins, as above, the average over spin is this interaction. -/
theorem mrpa_restricted_integrals {c d : Type} (g : c ⊕ d → c ⊕ d → c ⊕ d → c ⊕ d → ℝ) (hg : ∀ x y z w, g z w x y = g x y z w)
    (s : Ov c d c d × Ov c d c d × Ov c d c d) (h1 : s.1 = s.2.1) (h2 : s.2.2 = s.2.1) (h3 : ∀ i a j b, s.2.1 i a j b = s.2.1 j b i a) (x y z w : c ⊕ d) :
    addScreeningR g s x y z w = screenedIntegral (g x y z w) s.2.1 (excitation x y) (excitation z w) := by
  obtain ⟨e1, e2, e3⟩ := mrpa_arrays g g g s
  unfold addScreeningR spinIntegrate
  rw [e1, e2, e3, e2, h1, h2, hg x y z w]
  have : screenedIntegral (g x y z w) s.2.1 (excitation z w) (excitation x y) = screenedIntegral (g x y z w) s.2.1 (excitation x y) (excitation z w) := by
    cases excitation x y <;> cases excitation z w <;> first | rfl | exact h3 _ _ _ _
  rw [this]
  ring

/-! ## CCSD integrals -/

/-- Blocks of integrals which belong to real orbitals. -/
structure RealBlocks {c d c' d' : Type} (e : CcsdEris c d c' d') : Prop where
  aa : ∀ i a b j, e.ovvo i a b j = e.ovov i a j b
  ab : ∀ i a b j, e.ovVO i a b j = e.ovOV i a j b
  bb : ∀ i a b j, e.oVVO i a b j = e.oVOV i a j b
  ba : ∀ j b a i, e.oVvo j b a i = e.ovOV i a j b

/-- Screening replaces the interactions of excitations in all blocks, and can be undone once. -/
theorem mrpa_ccsd {c d c' d' : Type} (e : CcsdEris c d c' d') (s : Ov c d c d × Ov c d c' d' × Ov c' d' c' d') :
    RealBlocks (screenCcsd e s) ∧ (screenCcsd e s).ovov = s.1 ∧ (screenCcsd e s).ovOV = s.2.1 ∧ (screenCcsd e s).oVOV = s.2.2
      ∧ (RealBlocks e → restoreBare (screenCcsd e s) = .ok { e with bare := none })
      ∧ ∀ e', restoreBare (screenCcsd e s) = .ok e' → restoreBare e' = .error .attributeError := by
  refine ⟨⟨fun _ _ _ _ => rfl, fun _ _ _ _ => rfl, fun _ _ _ _ => rfl, fun _ _ _ _ => rfl⟩, rfl, rfl, rfl, fun h => ?_, fun e' h => ?_⟩
  · obtain ⟨a1, a2, a3, a4, a5, a6, a7, a8⟩ := e
    obtain ⟨h1, h2, h3, h4⟩ := h
    simp only at h1 h2 h3 h4
    have f1 : a2 = fun i a b j => a1 i a j b := by funext i a b j; exact h1 i a b j
    have f2 : a4 = fun i a b j => a3 i a j b := by funext i a b j; exact h2 i a b j
    have f3 : a6 = fun i a b j => a5 i a j b := by funext i a b j; exact h3 i a b j
    have f4 : a7 = fun j b a i => a3 i a j b := by funext j b a i; exact h4 j b a i
    subst f1 f2 f3 f4
    rfl
  · have : e' = { assignOv (screenCcsd e s) (e.ovov, e.ovOV, e.oVOV) with bare := none } := by
      have h' : Except.ok (ε := PyErr) _ = Except.ok e' := h
      exact (Except.ok.inj h').symm
    rw [this]
    rfl

/-- After screening twice, the integrals restored are the ones of the first screening, and the bare integrals cannot be restored. -/
theorem mrpa_ccsd_twice {c d c' d' : Type} (e : CcsdEris c d c' d') (s s' : Ov c d c d × Ov c d c' d' × Ov c' d' c' d') :
    ∃ e', restoreBare (screenCcsd (screenCcsd e s) s') = .ok e' ∧ e'.ovov = s.1 ∧ e'.ovOV = s.2.1 ∧ e'.oVOV = s.2.2 ∧ restoreBare e' = .error .attributeError :=
  ⟨_, rfl, rfl, rfl, rfl, rfl⟩

/-! ## Errors -/

/-- The interactions of all fragments are built if integrals are density-fitted, there are fragments to be screened and all of them have excitations. -/
theorem mrpa_refused (df : Bool) (novs : List Nat) :
    (checkBuild df novs = .ok () ↔ df = true ∧ novs ≠ [] ∧ ∀ x ∈ novs, x ≠ 0)
      ∧ (df = false → checkBuild df novs = .error .notImplementedError)
      ∧ (df = true → (novs = [] ∨ 0 ∈ novs) → checkBuild df novs = .error .valueError) := by
  have hf : ∀ l : List Nat, (∀ x ∈ l, x ≠ 0) → (l.forM (m := Except PyErr) fun n => if n = 0 then .error .valueError else .ok ()) = .ok () := by
    intro l
    induction l with
    | nil => intro _; rfl
    | cons a l ih =>
      intro h
      rw [List.forM_eq_forM, List.forM_cons, if_neg (h a (by simp))]
      exact ih fun x hx => h x (by simp [hx])
  have hf' : ∀ l : List Nat, 0 ∈ l → (l.forM (m := Except PyErr) fun n => if n = 0 then .error .valueError else .ok ()) = .error .valueError := by
    intro l
    induction l with
    | nil => intro h; cases h
    | cons a l ih =>
      intro h
      rw [List.forM_eq_forM, List.forM_cons]
      by_cases ha : a = 0
      · rw [if_pos ha]; rfl
      · rw [if_neg ha]
        refine ih ?_
        rcases List.mem_cons.mp h with h | h
        · exact absurd h.symm ha
        · exact h
  have h3 : df = true → (novs = [] ∨ 0 ∈ novs) → checkBuild df novs = .error .valueError := by
    rintro rfl h
    unfold checkBuild
    rw [if_neg (by simp)]
    split
    · rfl
    · split
      · rfl
      · rcases h with h | h
        · contradiction
        · exact hf' _ h
  refine ⟨⟨fun h => ?_, ?_⟩, ?_, h3⟩
  · have hd : df = true := by
      cases df
      · exact absurd h (by simp [checkBuild])
      · rfl
    refine ⟨hd, fun hn => ?_, fun x hx h0 => ?_⟩
    · rw [h3 hd (.inl hn)] at h; cases h
    · subst h0
      rw [h3 hd (.inr hx)] at h; cases h
  · rintro ⟨rfl, hn, hx⟩
    unfold checkBuild
    rw [if_neg (by simp), if_neg hn, if_neg, hf _ hx]
    intro hs
    obtain ⟨y, l, rfl⟩ := List.exists_cons_of_ne_nil hn
    rw [List.sum_cons] at hs
    exact hx y (by simp) (by omega)
  · rintro rfl
    rfl

/-- The interaction of a fragment is built if and only if it has excitations. -/
theorem mrpa_build_iff {c d c' d' : Type} [Fintype c] [Fintype d] [Fintype c'] [Fintype d'] [DecidableEq c] [DecidableEq d] [DecidableEq c'] [DecidableEq d']
    (eigh : Matrix (c × d ⊕ c' × d') (c × d ⊕ c' × d') ℝ → Eig (c × d ⊕ c' × d') ℝ) (m0 : Bool) (rot : Matrix (c × d ⊕ c' × d') p ℝ)
    (mom : Matrix (c × d ⊕ c' × d') (c × d ⊕ c' × d') ℝ) (eps : p → ℝ) :
    ((∃ st, buildOne eigh m0 rot mom eps = .ok st) ↔ Nonempty (c × d ⊕ c' × d'))
      ∧ (IsEmpty (c × d ⊕ c' × d') → buildOne eigh m0 rot mom eps = .error .valueError) := by
  unfold buildOne
  constructor
  · split
    · rename_i h
      rw [Fintype.card_eq_zero_iff] at h
      constructor
      · rintro ⟨st, hst⟩; cases hst
      · intro hn; exact (not_isEmpty_iff.mpr hn h).elim
    · rename_i h
      rw [Fintype.card_eq_zero_iff, not_isEmpty_iff] at h
      exact ⟨fun _ => h, fun _ => ⟨_, rfl⟩⟩
  · intro h
    rw [if_pos (Fintype.card_eq_zero_iff.mpr h)]

/-! ## Examples -/

/-- An orthonormal choice of one virtual orbital from two. -/
private noncomputable def demoRv : Matrix (Fin 2) Unit ℝ := Matrix.of fun i _ => if i = 0 then 3 / 5 else 4 / 5

private theorem demoRv_orth : demoRvᵀ * demoRv = 1 := by
  ext i j
  rw [Matrix.mul_apply, Fin.sum_univ_two]
  simp only [transpose_apply, demoRv, Matrix.of_apply, Matrix.one_apply]
  norm_num

/-- Coulomb repulsion of excitations from one occupied to two virtual orbitals. -/
private def demoU : Matrix (Unit × Fin 2) (Unit × Fin 2) ℝ := 1

/-- The hypotheses of the statements above can be met: a restricted system with two virtual orbitals and a cluster with one. -/
example : ∃ (X Y : Matrix (Unit × Fin 2 ⊕ Unit × Fin 2) (Unit × Fin 2 ⊕ Unit × Fin 2) ℝ) (w : Unit × Fin 2 ⊕ Unit × Fin 2 → ℝ) (st : Stored Unit Unit Unit Unit),
    SolvesRpa (diagonal (Rpa.concat (fun x => if x.2 = 0 then 1 else 2) fun x => if x.2 = 0 then 1 else 2) + fromBlocks demoU demoU demoU demoU)
      (fromBlocks demoU demoU demoU demoU) X Y w
    ∧ buildOne anyEigh true (targetRot (1 : Matrix Unit Unit ℝ) demoRv (1 : Matrix Unit Unit ℝ) demoRv) (localMoment (fun _ : Unit => targetRot (1 : Matrix Unit Unit ℝ) demoRv (1 : Matrix Unit Unit ℝ) demoRv)
      (stack (fun _ : Unit => targetRot (1 : Matrix Unit Unit ℝ) demoRv (1 : Matrix Unit Unit ℝ) demoRv) * responseMoment X Y w 0) ()) (Rpa.concat (fun x => if x.2 = 0 then 1 else 2) fun x => if x.2 = 0 then 1 else 2) = .ok st
    ∧ targetRot (1 : Matrix Unit Unit ℝ) demoRv (1 : Matrix Unit Unit ℝ) demoRv * (targetRot (1 : Matrix Unit Unit ℝ) demoRv (1 : Matrix Unit Unit ℝ) demoRv)ᵀ = 1 := by
  set eps : Unit × Fin 2 ⊕ Unit × Fin 2 → ℝ := Rpa.concat (fun x => if x.2 = 0 then 1 else 2) fun x => if x.2 = 0 then 1 else 2 with heps
  have hgap : ∀ x, 1 / 10 ^ 6 < eps x := by
    rintro (⟨_, i⟩ | ⟨_, i⟩) <;> fin_cases i <;> simp [heps, Rpa.concat] <;> norm_num
  have hpsd : (fromBlocks demoU demoU demoU demoU).PosSemidef := by
    have : fromBlocks demoU demoU demoU demoU = (fromCols 1 1 : Matrix (Unit × Fin 2) (Unit × Fin 2 ⊕ Unit × Fin 2) ℝ)ᴴ * fromCols 1 1 := by
      rw [conjTranspose_eq_transpose_of_trivial, transpose_fromCols, fromRows_mul_fromCols]
      simp only [transpose_one, Matrix.mul_one, demoU]
    rw [this]; exact posSemidef_conjTranspose_mul_self _
  have hsy : (fromBlocks demoU demoU demoU demoU)ᵀ = fromBlocks demoU demoU demoU demoU := by
    rw [fromBlocks_transpose]; simp only [demoU, transpose_one]
  obtain ⟨r, hr⟩ := rpa_succeeds anyEigh anyEigh_diagonalises eps hgap 1 _ hpsd 1 (by norm_num)
  have hs := rpa_solution anyEigh anyEigh_diagonalises eps 1 _ hsy 1 r hr
  rw [one_smul, Matrix.one_mul, transpose_one, Matrix.mul_one] at hs
  obtain ⟨st, hst⟩ := (mrpa_build_iff (anyEigh (q := Unit × Unit ⊕ Unit × Unit)) true (targetRot (1 : Matrix Unit Unit ℝ) demoRv (1 : Matrix Unit Unit ℝ) demoRv) (localMoment (fun _ : Unit => targetRot (1 : Matrix Unit Unit ℝ) demoRv (1 : Matrix Unit Unit ℝ) demoRv)
      (stack (fun _ : Unit => targetRot (1 : Matrix Unit Unit ℝ) demoRv (1 : Matrix Unit Unit ℝ) demoRv) * responseMoment (ampX r.1) (ampY r.1) r.1.freqs 0) ()) eps).1.mpr ⟨.inl ((), ())⟩
  have h1 : (1 : Matrix Unit Unit ℝ)ᵀ * 1 = 1 := by rw [transpose_one, Matrix.mul_one]
  exact ⟨_, _, _, st, hs, hst, mrpa_excitations_orthonormal _ _ _ _ h1 demoRv_orth h1 demoRv_orth⟩

end Vayesta.Props
