import Verif.Model.DmetBath
import Verif.Lemmas.DmetIdempotent
import Mathlib.Tactic.NormNum
import Mathlib.LinearAlgebra.Matrix.Notation

/-! # C21: DMET bath of a mean-field density matrix -/

namespace Vayesta.Props
open Vayesta.DmetBath Matrix

variable {ao fr en m : Type} [Fintype ao] [Fintype fr] [Fintype en] [Fintype m]
  [DecidableEq ao] [DecidableEq fr] [DecidableEq en] [DecidableEq m]

/-- A restricted mean-field state with overlap `S` and density matrix `γ` (symmetric, `γ S γ = 2 γ`), and a division of a
complete orthonormal orbital set into fragment and environment. -/
structure MeanField (S γ : Matrix ao ao ℝ) (cFrag : Matrix ao fr ℝ) (cEnv : Matrix ao en ℝ) : Prop where
  ovlp_symm : Sᵀ = S
  dm_symm : γᵀ = γ
  idempotent : γ * S * γ = (2 : ℝ) • γ
  frag_orth : cFragᵀ * S * cFrag = 1
  env_orth : cEnvᵀ * S * cEnv = 1
  frag_env : cFragᵀ * S * cEnv = 0
  complete : Fintype.card ao = Fintype.card fr + Fintype.card en

/-- What the eigensolver promises for a symmetric matrix `M`: orthonormal eigenvectors `r` with eigenvalues `e`. -/
structure Eigh (M r : Matrix m m ℝ) (e : m → ℝ) : Prop where
  orth : rᵀ * r = 1
  diag : rᵀ * M * r = diagonal e

variable {S γ : Matrix ao ao ℝ} {cFrag : Matrix ao fr ℝ} {cEnv : Matrix ao en ℝ} {r : Matrix en en ℝ} {e : en → ℝ}

theorem dmIn_mul {k : Type} [Fintype k] (c : Matrix ao m ℝ) (q : Matrix m k ℝ) : dmIn S γ (c * q) = qᵀ * dmIn S γ c * q := by
  simp only [dmIn, transpose_mul, Matrix.mul_assoc]

theorem dmIn_submatrix {k : Type} [Fintype k] (c : Matrix ao m ℝ) (g : k → m) :
    dmIn S γ (c.submatrix id g) = (dmIn S γ c).submatrix g g := by
  ext i j
  simp [dmIn, mul_apply, submatrix_apply, transpose_apply]

section
variable (h : MeanField S γ cFrag cEnv) (hr : Eigh (dmEnv S γ cEnv) r e)
include h hr

/-- Rotating the environment keeps the mean-field setting. -/
theorem MeanField.rotate : MeanField S γ cFrag (cEnv * r) where
  ovlp_symm := h.ovlp_symm
  dm_symm := h.dm_symm
  idempotent := h.idempotent
  frag_orth := h.frag_orth
  env_orth := by
    have : (cEnv * r)ᵀ * S * (cEnv * r) = rᵀ * (cEnvᵀ * S * cEnv) * r := by simp only [transpose_mul, Matrix.mul_assoc]
    rw [this, h.env_orth, Matrix.mul_one, hr.orth]
  frag_env := by rw [← Matrix.mul_assoc, h.frag_env, Matrix.zero_mul]
  complete := h.complete
end

section
variable (h : MeanField S γ cFrag cEnv)
include h

theorem MeanField.all_orth : (fromCols cFrag cEnv)ᵀ * S * fromCols cFrag cEnv = 1 := by
  have h4 : cEnvᵀ * S * cFrag = 0 := by
    have := congrArg transpose h.frag_env
    simpa [transpose_mul, h.ovlp_symm, Matrix.mul_assoc] using this
  rw [transpose_fromCols, fromRows_mul, fromRows_mul_fromCols, h.frag_orth, h.env_orth, h.frag_env, h4, fromBlocks_one]

theorem MeanField.all_complete : fromCols cFrag cEnv * (fromCols cFrag cEnv)ᵀ * S = 1 := by
  have hc : Fintype.card (fr ⊕ en) = Fintype.card ao := by rw [Fintype.card_sum, h.complete]
  have := (mul_eq_one_comm_of_equiv (Fintype.equivOfCardEq hc)).1 h.all_orth
  rwa [← Matrix.mul_assoc] at this

theorem MeanField.dm_idem : ((1 / 2 : ℝ) • dmIn S γ (fromCols cFrag cEnv)) * ((1 / 2 : ℝ) • dmIn S γ (fromCols cFrag cEnv)) =
    (1 / 2 : ℝ) • dmIn S γ (fromCols cFrag cEnv) := by
  have hc := h.all_complete
  generalize fromCols cFrag cEnv = c at hc ⊢
  have hmul : dmIn S γ c * dmIn S γ c = (2 : ℝ) • dmIn S γ c := by
    simp only [dmIn, transpose_mul, h.ovlp_symm]
    have : cᵀ * S * γ * (S * c) * (cᵀ * S * γ * (S * c)) = cᵀ * S * γ * S * (c * cᵀ * S) * γ * (S * c) := by
      simp only [Matrix.mul_assoc]
    rw [this, hc, Matrix.mul_one]
    have : cᵀ * S * γ * S * γ * (S * c) = cᵀ * S * (γ * S * γ) * (S * c) := by simp only [Matrix.mul_assoc]
    rw [this, h.idempotent]
    simp
  rw [smul_mul_smul_comm, hmul, smul_smul]
  norm_num

theorem MeanField.dm_sym : ((1 / 2 : ℝ) • dmIn S γ (fromCols cFrag cEnv))ᵀ = (1 / 2 : ℝ) • dmIn S γ (fromCols cFrag cEnv) := by
  simp only [dmIn, transpose_smul, transpose_mul, transpose_transpose, h.dm_symm, Matrix.mul_assoc]
end

theorem rotated_block (hr : Eigh (dmEnv S γ cEnv) r e) :
    ((1 / 2 : ℝ) • dmIn S γ (fromCols cFrag (cEnv * r))).toBlocks₂₂ = diagonal e := by
  have h1 := hr.diag
  rw [dmEnv, Matrix.mul_smul, Matrix.smul_mul, ← dmIn_mul] at h1
  rw [← h1]
  generalize cEnv * r = c
  ext i j
  simp [toBlocks₂₂, dmIn, mul_apply, transpose_apply, fromCols]

section
variable (h : MeanField S γ cFrag cEnv) (hr : Eigh (dmEnv S γ cEnv) r e)
include h hr

/-- **C21 (1).** The environment eigenvalues of a mean-field state lie in `[0, 1]`. -/
theorem dmet_eigenvalue_range (i : en) : 0 ≤ e i ∧ e i ≤ 1 :=
  Lemmas.eig_range _ e (h.rotate hr).dm_sym (h.rotate hr).dm_idem (rotated_block hr) i

/-- **C21 (2).** For every positive threshold there are at most as many bath orbitals as fragment orbitals. -/
theorem dmet_bath_count (tol : ℝ) (htol : 0 < tol) : Nat.card {i : en // IsBath tol (e i)} ≤ Fintype.card fr := by
  refine le_trans ?_ (Lemmas.entangled_card_le _ e (h.rotate hr).dm_sym (h.rotate hr).dm_idem (rotated_block hr))
  classical
  rw [Nat.card_eq_fintype_card, Nat.card_eq_fintype_card]
  refine Fintype.card_subtype_mono _ _ ?_
  rintro i ⟨h1, h2⟩ h3
  rcases mul_eq_zero.1 h3 with h3 | h3 <;> linarith

/-- **C21 (3).** The density-matrix elements between the fragment orbitals and environment orbital `i` have the squared norm
`4 e (1 - e)`, and different environment orbitals have orthogonal couplings. -/
theorem dmet_coupling (i j : en) :
    ∑ a, ((S * cFrag)ᵀ * γ * (S * (cEnv * r))) a i * ((S * cFrag)ᵀ * γ * (S * (cEnv * r))) a j =
      if i = j then 4 * (e i * (1 - e i)) else 0 := by
  have h1 := Lemmas.coupling_gram _ e (h.rotate hr).dm_sym (h.rotate hr).dm_idem (rotated_block hr) i j
  have h2 : ∀ a i, ((1 / 2 : ℝ) • dmIn S γ (fromCols cFrag (cEnv * r))) (.inl a) (.inr i) =
      (1 / 2 : ℝ) * ((S * cFrag)ᵀ * γ * (S * (cEnv * r))) a i := by
    intro a i
    simp [dmIn, mul_apply, transpose_apply, fromCols]
  simp only [h2] at h1
  have h3 : ∀ x y : ℝ, 1 / 2 * x * (1 / 2 * y) = 1 / 4 * (x * y) := fun x y => by ring
  simp only [h3, ← Finset.mul_sum] at h1
  split at h1
  · rw [if_pos (by assumption)]; linarith
  · rw [if_neg (by assumption)]; linarith

/-- **C21 (3), discarded orbitals.** An environment orbital that is not taken into the bath is coupled to the fragment by at most
`4 tol` (squared norm). -/
theorem dmet_discarded_coupling (tol : ℝ) (i : en) (hi : ¬ IsBath tol (e i)) :
    ∑ a, ((S * cFrag)ᵀ * γ * (S * (cEnv * r))) a i ^ 2 ≤ 4 * tol := by
  have h1 := dmet_coupling h hr i i
  obtain ⟨h2, h3⟩ := dmet_eigenvalue_range h hr i
  rw [if_pos rfl] at h1
  simp only [← pow_two] at h1
  rw [h1]
  have : e i < tol ∨ 1 - tol < e i := by
    by_contra hc
    push Not at hc
    exact hi hc
  rcases this with h4 | h4 <;> nlinarith

/-- **C21 (3), exact form.** An environment orbital with eigenvalue exactly 0 or 1 does not couple to the fragment and is an
exact natural orbital of the mean field: empty or doubly occupied. -/
theorem dmet_exact_environment (i : en) (hi : e i = 0 ∨ e i = 1) :
    (∀ a, ((S * cFrag)ᵀ * γ * (S * (cEnv * r))) a i = 0) ∧
    (∀ μ, (γ * S * (cEnv * r)) μ i = 2 * e i * (cEnv * r) μ i) := by
  have h0 : e i * (1 - e i) = 0 := by rcases hi with hi | hi <;> rw [hi] <;> ring
  have hdec : ∀ a, ((S * cFrag)ᵀ * γ * (S * (cEnv * r))) a i = 0 := by
    have h1 := dmet_coupling h hr i i
    rw [if_pos rfl, h0, mul_zero] at h1
    intro a
    have := (Finset.sum_eq_zero_iff_of_nonneg fun a _ => mul_self_nonneg (((S * cFrag)ᵀ * γ * (S * (cEnv * r))) a i)).1 h1 a
      (Finset.mem_univ _)
    exact mul_self_eq_zero.1 this
  refine ⟨hdec, fun μ => ?_⟩
  have hc := (h.rotate hr).all_complete
  have h2 : γ * S * (cEnv * r) = fromCols cFrag (cEnv * r) * ((fromCols cFrag (cEnv * r))ᵀ * S * γ * S * (cEnv * r)) := by
    have : fromCols cFrag (cEnv * r) * ((fromCols cFrag (cEnv * r))ᵀ * S * γ * S * (cEnv * r)) =
      (fromCols cFrag (cEnv * r) * (fromCols cFrag (cEnv * r))ᵀ * S) * γ * S * (cEnv * r) := by
      simp only [Matrix.mul_assoc]
    rw [this, hc, Matrix.one_mul]
  rw [h2, mul_apply, Fintype.sum_sum_type]
  have h7 : (fromCols cFrag (cEnv * r))ᵀ * S * γ * S * (cEnv * r) =
      fromRows ((S * cFrag)ᵀ * γ * (S * (cEnv * r))) (dmIn S γ (cEnv * r)) := by
    simp only [dmIn, transpose_fromCols, fromRows_mul, transpose_mul, h.ovlp_symm, Matrix.mul_assoc]
  have h3 : ∀ a, ((fromCols cFrag (cEnv * r))ᵀ * S * γ * S * (cEnv * r)) (.inl a) i = 0 := by
    intro a
    rw [h7, fromRows_apply_inl, hdec]
  have h4 : ∀ j, ((fromCols cFrag (cEnv * r))ᵀ * S * γ * S * (cEnv * r)) (.inr j) i = if j = i then 2 * e i else 0 := by
    intro j
    have h1 := hr.diag
    rw [dmEnv, Matrix.mul_smul, Matrix.smul_mul, ← dmIn_mul] at h1
    have h5 := congrFun (congrFun h1 j) i
    rw [Matrix.smul_apply, smul_eq_mul, diagonal_apply] at h5
    rw [h7, fromRows_apply_inr]
    split at h5
    · rename_i hji
      subst hji
      rw [if_pos rfl]; linarith
    · rw [if_neg (by assumption)]; linarith
  simp only [h3, h4, mul_zero, Finset.sum_const_zero, zero_add, fromCols_apply_inr, mul_ite]
  rw [Finset.sum_ite_eq']
  simp
  ring

/-- The cluster orbitals (fragment plus bath) are orthonormal. -/
theorem dmet_cluster_orthonormal (tol : ℝ) : open scoped Classical in
    (clusterCoeff cFrag cEnv r e tol)ᵀ * S * clusterCoeff cFrag cEnv r e tol = 1 := by
  classical
  have h1 := (h.rotate hr).all_orth
  have h2 : clusterCoeff cFrag cEnv r e tol =
      (fromCols cFrag (cEnv * r)).submatrix id (Sum.map id Subtype.val) := by
    ext μ x
    rcases x with a | j <;> rfl
  rw [h2]
  have h3 : ∀ g : fr ⊕ {i : en // IsBath tol (e i)} → fr ⊕ en,
      ((fromCols cFrag (cEnv * r)).submatrix id g)ᵀ * S * (fromCols cFrag (cEnv * r)).submatrix id g =
      ((fromCols cFrag (cEnv * r))ᵀ * S * fromCols cFrag (cEnv * r)).submatrix g g := by
    intro g
    generalize fromCols cFrag (cEnv * r) = c
    ext i j
    simp [mul_apply, submatrix_apply]
  rw [h3, h1, submatrix_one _ (Sum.map_injective.2 ⟨Function.injective_id, Subtype.val_injective⟩)]

theorem cluster_submatrix (tol : ℝ) :
    dmIn S γ (clusterCoeff cFrag cEnv r e tol) = (dmIn S γ (fromCols cFrag (cEnv * r))).submatrix
      (Sum.map id (Subtype.val : {i : en // IsBath tol (e i)} → en)) (Sum.map id Subtype.val) := by
  classical
  rw [← dmIn_submatrix]
  congr 1
  ext μ x
  rcases x with a | j <;> rfl

/-- **C21 (4).** If the threshold separates the entangled orbitals (no eigenvalue strictly between 0 and 1 is discarded), the
density matrix of the cluster is again idempotent; its trace is an even integer, and it equals the number of cluster electrons
that the code obtains by counting the occupied eigenvectors of the cluster density matrix. -/
theorem dmet_cluster_idempotent (tol : ℝ) (hgap : ∀ i, 0 < e i → e i < 1 → IsBath tol (e i)) : open scoped Classical in
    let dm := dmIn S γ (clusterCoeff cFrag cEnv r e tol)
    dm * dm = (2 : ℝ) • dm ∧ (∃ k : ℕ, dm.trace = 2 * k) ∧
    ∀ (q : Matrix _ _ ℝ) (w : _ → ℝ), Eigh dm q w → (∀ x, w x = 0 ∨ w x = 2) ∧ dm.trace = clusterElectrons w := by
  classical
  intro dm
  have hsub := cluster_submatrix h hr tol
  have hp : ∀ i, ¬ IsBath tol (e i) → e i * (1 - e i) = 0 := by
    intro i hi
    obtain ⟨h1, h2⟩ := dmet_eigenvalue_range h hr i
    by_contra hne
    refine hi (hgap i (lt_of_le_of_ne h1 ?_) (lt_of_le_of_ne h2 ?_))
    · rintro h0; rw [← h0] at hne; simp at hne
    · intro h0; rw [h0] at hne; simp at hne
  have hid := Lemmas.cluster_idempotent _ e (h.rotate hr).dm_sym (h.rotate hr).dm_idem (rotated_block hr)
    (fun i => IsBath tol (e i)) hp
  simp only at hid
  have hhalf : ((1 / 2 : ℝ) • dm) * ((1 / 2 : ℝ) • dm) = (1 / 2 : ℝ) • dm := by
    have : (1 / 2 : ℝ) • dm = ((1 / 2 : ℝ) • dmIn S γ (fromCols cFrag (cEnv * r))).submatrix
        (Sum.map id (Subtype.val : {i : en // IsBath tol (e i)} → en)) (Sum.map id Subtype.val) := by
      rw [show dm = _ from hsub]
      rfl
    rw [this]
    exact hid
  have hdm : dm * dm = (2 : ℝ) • dm := by
    have h2 := congrArg (fun M => (4 : ℝ) • M) hhalf
    simp only [smul_mul_smul_comm, smul_smul] at h2
    norm_num at h2
    exact h2
  refine ⟨hdm, ?_, ?_⟩
  · obtain ⟨k, hk⟩ := Lemmas.trace_idempotent_nat _ hhalf
    refine ⟨k, ?_⟩
    rw [trace_smul, smul_eq_mul] at hk
    linarith
  · intro q w hq
    have hq' : q * qᵀ = 1 := mul_eq_one_comm.1 hq.orth
    have hw2 : diagonal w * diagonal w = (2 : ℝ) • diagonal w := by
      rw [← hq.diag]
      have : qᵀ * dm * q * (qᵀ * dm * q) = qᵀ * dm * (q * qᵀ) * dm * q := by simp only [Matrix.mul_assoc]
      rw [this, hq', Matrix.mul_one, Matrix.mul_assoc qᵀ dm dm, hdm]
      simp
    have hw : ∀ x, w x = 0 ∨ w x = 2 := by
      intro x
      have h3 := congrFun (congrFun hw2 x) x
      rw [diagonal_mul_diagonal] at h3
      simp only [diagonal_apply_eq, Matrix.smul_apply, smul_eq_mul] at h3
      have : w x * (w x - 2) = 0 := by linarith
      rcases mul_eq_zero.1 this with h4 | h4
      · exact Or.inl h4
      · exact Or.inr (by linarith)
    refine ⟨hw, ?_⟩
    have ht : dm.trace = ∑ x, w x := by
      have : (qᵀ * dm * q).trace = dm.trace := by
        rw [Matrix.mul_assoc, trace_mul_comm, Matrix.mul_assoc, hq', Matrix.mul_one]
      rw [← this, hq.diag, trace_diagonal]
    rw [ht, clusterElectrons, nocc, Finset.card_filter]
    push_cast
    rw [Finset.mul_sum]
    refine Finset.sum_congr rfl fun x _ => ?_
    rcases hw x with h5 | h5 <;> rw [h5] <;> norm_num

/-- **C21 (5), no gap needed.** For every threshold up to one half the number of electrons in the cluster deviates from an even
integer by at most `2 tol` per discarded environment orbital. -/
theorem dmet_cluster_electron_number (tol : ℝ) (htol : tol ≤ 1 / 2) : open scoped Classical in
    ∃ k : ℤ, |(dmIn S γ (clusterCoeff cFrag cEnv r e tol)).trace - 2 * k| ≤ 2 * tol * Nat.card {i : en // ¬ IsBath tol (e i)} := by
  classical
  obtain ⟨n, hn⟩ := Lemmas.trace_idempotent_nat _ (h.rotate hr).dm_idem
  have hb := rotated_block (cFrag := cFrag) hr
  have hd : ∀ i, dmIn S γ (fromCols cFrag (cEnv * r)) (.inr i) (.inr i) = 2 * e i := by
    intro i
    have h5 := congrFun (congrFun hb i) i
    simp only [diagonal_apply_eq, toBlocks₂₂, of_apply, Matrix.smul_apply, smul_eq_mul] at h5
    linarith
  have hsub := cluster_submatrix h hr tol
  have htr : (dmIn S γ (clusterCoeff cFrag cEnv r e tol)).trace = 2 * n - ∑ i : {i : en // ¬ IsBath tol (e i)}, 2 * e i := by
    rw [hsub]
    rw [trace_smul, smul_eq_mul] at hn
    have h6 : (dmIn S γ (fromCols cFrag (cEnv * r))).trace = 2 * n := by linarith
    rw [← h6]
    simp only [trace, Fintype.sum_sum_type, diag_apply, submatrix_apply, hd, Sum.map_inl, Sum.map_inr, id_eq]
    rw [← Fintype.sum_subtype_add_sum_subtype (fun i => IsBath tol (e i))]
    ring
  refine ⟨n - ∑ i : {i : en // ¬ IsBath tol (e i)}, if e i < tol then 0 else 1, ?_⟩
  rw [htr]
  push_cast
  have : (2 * (n : ℝ) - ∑ i : {i : en // ¬ IsBath tol (e i)}, 2 * e i) -
      2 * (n - ∑ i : {i : en // ¬ IsBath tol (e i)}, if e i < tol then (0 : ℝ) else 1) =
      ∑ i : {i : en // ¬ IsBath tol (e i)}, (2 * (if e i < tol then (0 : ℝ) else 1) - 2 * e i) := by
    rw [Finset.sum_sub_distrib, ← Finset.mul_sum, ← Finset.mul_sum]
    ring
  rw [this]
  refine (Finset.abs_sum_le_sum_abs _ _).trans ?_
  have hle : ∀ i ∈ (Finset.univ : Finset {i : en // ¬ IsBath tol (e i)}),
      |2 * (if e i < tol then (0 : ℝ) else 1) - 2 * e i| ≤ 2 * tol := by
    rintro ⟨i, hi⟩ -
    obtain ⟨h1, h2⟩ := dmet_eigenvalue_range h hr i
    simp only
    split
    · rw [abs_le]; constructor <;> linarith
    · rename_i h3
      have : 1 - tol < e i := by
        by_contra hc
        exact hi ⟨not_lt.1 h3, not_lt.1 hc⟩
      rw [abs_le]; constructor <;> linarith
  refine (Finset.sum_le_sum hle).trans ?_
  rw [Finset.sum_const, Finset.card_univ, Nat.card_eq_fintype_card, nsmul_eq_mul]
  linarith

end

/-- Example: two sites, one electron pair in the bonding orbital; one fragment and one environment orbital with eigenvalue 1/2. -/
example : MeanField (ao := Fin 2) (fr := Fin 1) (en := Fin 1) 1 !![1, 1; 1, 1] !![1; 0] !![0; 1] ∧
    Eigh (dmEnv 1 !![1, 1; 1, 1] !![(0 : ℝ); 1]) (1 : Matrix (Fin 1) (Fin 1) ℝ) (fun _ => 1 / 2) := by
  constructor
  · constructor
    · simp
    · ext i j; fin_cases i <;> fin_cases j <;> simp
    · ext i j; fin_cases i <;> fin_cases j <;> simp [mul_apply, Fin.sum_univ_two] <;> norm_num
    · ext i j; fin_cases i; fin_cases j; simp [mul_apply, Fin.sum_univ_two]
    · ext i j; fin_cases i; fin_cases j; simp [mul_apply, Fin.sum_univ_two]
    · ext i j; fin_cases i; fin_cases j; simp [mul_apply, Fin.sum_univ_two]
    · simp
  · constructor
    · simp
    · ext i j; fin_cases i; fin_cases j; simp [dmEnv, dmIn, mul_apply, Fin.sum_univ_two]
/-- The gap hypothesis holds there for tolerance 1/1000. -/
example : ∀ i : Fin 1, 0 < (fun _ : Fin 1 => (1 / 2 : ℝ)) i → (fun _ : Fin 1 => (1 / 2 : ℝ)) i < 1 →
    IsBath (1 / 1000) ((fun _ : Fin 1 => (1 / 2 : ℝ)) i) := by
  intro i _ _
  constructor <;> norm_num

end Vayesta.Props
