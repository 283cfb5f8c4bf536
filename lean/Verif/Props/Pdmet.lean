import Verif.Model.Scmf
import Verif.Props.Svd
import Mathlib.Tactic.Linarith
import Mathlib.Tactic.Ring
import Mathlib.Tactic.NormNum
import Mathlib.Tactic.NoncommRing

/-! Updates of the mean-field in p-DMET (C81). -/

namespace Vayesta.Props

open Vayesta.Scmf Matrix Lowdin

set_option linter.unusedSectionVars false

variable {a n m : Nat}

/-! ## Specification -/

/-- Density matrix of the first `nocc` orbitals, in atomic orbitals. -/
def leadDensity {r : Type} (nocc : Nat) (c : Matrix r (Fin n) ℝ) : Matrix r r ℝ := Matrix.of fun x y => ∑ k : Fin n, if k.1 < nocc then c x k * c y k else 0

/-- Squared distance of density matrices in atomic orbitals with overlap `s` (the Frobenius norm in any orthonormal basis). -/
def dmDistance (s d d' : Matrix (Fin a) (Fin a) ℝ) : ℝ := ((d - d') * s * (d - d') * s).trace

/-- A solver with ascending eigenvalues, right for all symmetric matrices. -/
def SolvesSorted (eigh : Matrix (Fin n) (Fin n) ℝ → Eig (Fin n) ℝ) : Prop := SolvesEigh eigh ∧ ∀ x, Ascending (eigh x)

theorem sortedEigh_sorted : SolvesSorted (sortedEigh n) := ⟨sortedEigh_solves n, sortedEigh_ascending n⟩

/-! ## Proofs -/

private theorem sgn_sq {J : Type} (c : Matrix (Fin a) J ℝ) (j : J) : colSign c j * colSign c j = 1 := by
  unfold colSign; split <;> ring

private theorem sgn_eq {J : Type} [Fintype J] [DecidableEq J] (c : Matrix (Fin a) J ℝ) : fixSign c = c * diagonal (colSign c) := by
  ext i j; rw [mul_diagonal]; rfl

private theorem sgn_diag {J : Type} [Fintype J] [DecidableEq J] (c : Matrix (Fin a) J ℝ) : diagonal (colSign c) * diagonal (colSign c) = 1 := by
  rw [diagonal_mul_diagonal]
  simp only [sgn_sq]
  exact diagonal_one

/-- Signs of orbitals do not matter for the density. -/
theorem leadDensity_fixSign (nocc : Nat) (c : Matrix (Fin a) (Fin n) ℝ) : leadDensity nocc (fixSign c) = leadDensity nocc c := by
  ext x y
  show ∑ k : Fin n, (if k.1 < nocc then fixSign c x k * fixSign c y k else 0) = ∑ k : Fin n, if k.1 < nocc then c x k * c y k else 0
  refine Finset.sum_congr rfl fun k _ => ?_
  split
  · show c x k * colSign c k * (c y k * colSign c k) = c x k * c y k
    have := sgn_sq c k
    linear_combination (c x k * c y k) * this
  · rfl

/-- Occupation of the first orbitals. -/
private def occ (nocc : Nat) : Matrix (Fin n) (Fin n) ℝ := diagonal fun k => if k.1 < nocc then 1 else 0

private theorem leadDensity_eq {r : Type} (nocc : Nat) (c : Matrix r (Fin n) ℝ) : leadDensity nocc c = c * occ nocc * cᵀ := by
  ext x y
  rw [Matrix.mul_apply]
  show ∑ k : Fin n, (if k.1 < nocc then c x k * c y k else 0) = _
  refine Finset.sum_congr rfl fun k _ => ?_
  rw [occ, mul_diagonal, transpose_apply]
  split <;> ring

private theorem leadDensity_mul {r : Type} (nocc : Nat) (c : Matrix r (Fin m) ℝ) (x : Matrix (Fin m) (Fin n) ℝ) : leadDensity nocc (c * x) = c * leadDensity nocc x * cᵀ := by
  rw [leadDensity_eq, leadDensity_eq, transpose_mul]; simp only [Matrix.mul_assoc]

/-- A set of indices closed downwards is an initial segment. -/
theorem initial_segment (S : Finset (Fin n)) (h : ∀ i j : Fin n, j ≤ i → i ∈ S → j ∈ S) (k : Fin n) : k ∈ S ↔ k.1 < S.card := by
  have h1 : ∀ i : Fin n, i ∈ S → i.1 < S.card := by
    intro i hi
    have : Finset.Iic i ⊆ S := fun j hj => h i j (Finset.mem_Iic.1 hj) hi
    have := Finset.card_le_card this
    rw [Fin.card_Iic] at this
    omega
  have h2 : S ⊆ Finset.univ.filter fun i : Fin n => i.1 < S.card := fun i hi => Finset.mem_filter.2 ⟨Finset.mem_univ i, h1 i hi⟩
  have hle : S.card ≤ n := by simpa using Finset.card_le_univ S
  have h3 : (Finset.univ.filter fun i : Fin n => i.1 < S.card).card = S.card := by
    rw [Fin.card_filter_val_lt]
    exact min_eq_right hle
  have h4 := Finset.eq_of_subset_of_card_le h2 h3.le
  constructor
  · exact h1 k
  · intro hk
    rw [h4]
    exact Finset.mem_filter.2 ⟨Finset.mem_univ k, hk⟩

/-- Eigenvalues zero and one in descending order. -/
theorem descending_zero_one (f : Fin n → ℝ) (hd : ∀ i j, i ≤ j → f j ≤ f i) (h01 : ∀ i, f i = 0 ∨ f i = 1) (nocc : Nat) (hs : ∑ i, f i = nocc) (k : Fin n) :
    f k = if k.1 < nocc then 1 else 0 := by
  classical
  let S : Finset (Fin n) := Finset.univ.filter fun i => f i = 1
  have hc : S.card = nocc := by
    have : ∑ i, f i = ∑ i, if f i = 1 then (1 : ℝ) else 0 := by
      refine Finset.sum_congr rfl fun i _ => ?_
      rcases h01 i with h | h <;> simp [h]
    rw [Finset.sum_boole] at this
    exact_mod_cast this.symm.trans hs
  have h := initial_segment S (fun i j hij hi => by
    have h1 : f i = 1 := (Finset.mem_filter.1 hi).2
    refine Finset.mem_filter.2 ⟨Finset.mem_univ j, ?_⟩
    rcases h01 j with h | h
    · have := hd j i hij; rw [h, h1] at this; linarith
    · exact h) k
  rw [hc] at h
  by_cases hk : k.1 < nocc
  · rw [if_pos hk]; exact (Finset.mem_filter.1 (h.2 hk)).2
  · rw [if_neg hk]
    rcases h01 k with h0 | h1
    · exact h0
    · exact absurd (h.1 (Finset.mem_filter.2 ⟨Finset.mem_univ k, h1⟩)) hk

/-- Descending eigenvectors. -/
private def desc (g : Eig (Fin n) ℝ) : Matrix (Fin n) (Fin n) ℝ := g.vec.submatrix id Fin.rev

private theorem desc_orth {x : Matrix (Fin n) (Fin n) ℝ} {g : Eig (Fin n) ℝ} (h : IsEigh x g) : (desc g)ᵀ * desc g = 1 := by
  ext i j
  have := congrFun (congrFun h.1 (Fin.rev i)) (Fin.rev j)
  rw [Matrix.mul_apply] at this ⊢
  refine Eq.trans this ?_
  rw [Matrix.one_apply, Matrix.one_apply]
  simp only [Fin.rev_inj]

private theorem desc_eq {x : Matrix (Fin n) (Fin n) ℝ} {g : Eig (Fin n) ℝ} (h : IsEigh x g) : x = desc g * diagonal (fun k => g.val (Fin.rev k)) * (desc g)ᵀ := by
  have h1 : x * desc g = desc g * diagonal (fun k => g.val (Fin.rev k)) := by
    ext i j
    have := congrFun (congrFun h.2 i) (Fin.rev j)
    rw [mul_diagonal] at this ⊢
    rw [Matrix.mul_apply] at this ⊢
    exact this
  rw [← h1, Matrix.mul_assoc, mul_eq_one_comm.1 (desc_orth h), Matrix.mul_one]

/-- The update gives orthonormal orbitals which span the space of the original ones, with or without extrapolation: the mean-field is never
refused because of them. -/
theorem pdmet_orthonormal (eigh : Matrix (Fin n) (Fin n) ℝ → Eig (Fin n) ℝ) (he : SolvesSorted eigh) (diis : Matrix (Fin n) (Fin n) ℝ → Matrix (Fin n) (Fin n) ℝ)
    (hd : ∀ x, xᵀ = x → (diis x)ᵀ = diis x) (s : Matrix (Fin a) (Fin a) ℝ) (mo orig : Matrix (Fin a) (Fin n) ℝ) (ho : OrthonormalIn s orig) (nocc : Nat)
    (dm1 : Matrix (Fin n) (Fin n) ℝ) (hdm : dm1ᵀ = dm1) (c : Matrix (Fin a) (Fin n) ℝ) (h : pdmetUpdate eigh diis s mo orig nocc dm1 = .ok c) :
    OrthonormalIn s c ∧ SpannedBy c orig ∧ SpannedBy orig c := by
  unfold pdmetUpdate at h
  dsimp only at h
  split at h
  · split at h
    · cases h
    · have hg := he.1 (diis ((moᵀ * s * orig)ᵀ * dm1 * (moᵀ * s * orig))) (hd _ (by simp only [transpose_mul, transpose_transpose, hdm, Matrix.mul_assoc]))
      generalize eigh (diis ((moᵀ * s * orig)ᵀ * dm1 * (moᵀ * s * orig))) = g at h hg
      have hc : c = orig * (desc g * diagonal (colSign (orig * desc g))) := by
        rw [← Except.ok.inj h, sgn_eq, Matrix.mul_assoc]; rfl
      have h1 := desc_orth hg
      have h2 := sgn_diag (orig * desc g)
      set w := diagonal (colSign (orig * desc g)) with hw
      have hwt : wᵀ = w := diagonal_transpose _
      refine ⟨?_, ⟨_, hc⟩, ⟨w * (desc g)ᵀ, ?_⟩⟩
      · unfold OrthonormalIn at ho ⊢
        calc cᵀ * s * c = w * ((desc g)ᵀ * (origᵀ * s * orig) * desc g) * w := by
              rw [hc]; simp only [transpose_mul, Matrix.mul_assoc, hwt]
          _ = 1 := by rw [ho, Matrix.mul_one, h1, Matrix.mul_one, h2]
      · calc orig = orig * (desc g * ((w * w) * (desc g)ᵀ)) := by rw [h2, Matrix.one_mul, mul_eq_one_comm.1 h1, Matrix.mul_one]
          _ = _ := by rw [hc]; simp only [Matrix.mul_assoc]
  · cases h

/-- The natural orbitals of an orthonormal basis: projections of rank `nocc` have smaller overlap with the density matrix than its leading
eigenvectors, unless they agree. -/
private theorem ky_fan (g : Fin n → ℝ) (hg : ∀ i j, i ≤ j → g j ≤ g i) (nocc : Nat) (h0 : 0 < nocc) (hn : nocc < n)
    (hgap : g ⟨nocc, hn⟩ < g ⟨nocc - 1, by omega⟩) (y : Matrix (Fin n) (Fin nocc) ℝ) (hy : yᵀ * y = 1) :
    (diagonal g * (y * yᵀ)).trace ≤ (diagonal g * occ nocc).trace ∧ ((diagonal g * (y * yᵀ)).trace = (diagonal g * occ nocc).trace → y * yᵀ = occ nocc) := by
  set q := y * yᵀ with hq
  have hqq : q * q = q := by rw [hq, Matrix.mul_assoc, ← Matrix.mul_assoc yᵀ, hy, Matrix.one_mul]
  have hqt : qᵀ = q := by rw [hq, transpose_mul, transpose_transpose]
  have hdiag : ∀ k, q k k = ∑ j, q k j ^ 2 := by
    intro k
    have := congrFun (congrFun hqq k) k
    rw [Matrix.mul_apply] at this
    rw [← this]
    refine Finset.sum_congr rfl fun j _ => ?_
    rw [show q j k = q k j from congrFun (congrFun hqt k) j, sq]
  have hpos : ∀ k, 0 ≤ q k k := fun k => by rw [hdiag k]; exact Finset.sum_nonneg fun j _ => sq_nonneg _
  have hsq : ∀ k, q k k ^ 2 ≤ q k k := fun k => by
    conv_rhs => rw [hdiag k]
    exact Finset.single_le_sum (f := fun j => q k j ^ 2) (fun j _ => sq_nonneg _) (Finset.mem_univ k)
  have hle : ∀ k, q k k ≤ 1 := fun k => by nlinarith [hsq k, hpos k]
  have htr : ∑ k, q k k = nocc := by
    have : q.trace = nocc := by rw [hq, Matrix.trace_mul_comm, hy, Matrix.trace_one, Fintype.card_fin]
    exact this
  have hto : ∑ k : Fin n, (if k.1 < nocc then (1 : ℝ) else 0) = nocc := by
    rw [Finset.sum_boole, Fin.card_filter_val_lt, min_eq_right hn.le]
  have e1 : (diagonal g * q).trace = ∑ k, g k * q k k := by
    refine Finset.sum_congr rfl fun k _ => ?_
    rw [Matrix.diag_apply, diagonal_mul]
  have e2 : (diagonal g * occ nocc).trace = ∑ k : Fin n, g k * (if k.1 < nocc then 1 else 0) := by
    refine Finset.sum_congr rfl fun k _ => ?_
    rw [Matrix.diag_apply, diagonal_mul, occ, diagonal_apply_eq]
  set hi := g ⟨nocc - 1, by omega⟩ with hhi
  set lo := g ⟨nocc, hn⟩ with hlo
  -- every term of the difference is bounded
  have hterm : ∀ k : Fin n, (hi - lo) / 2 * |(if k.1 < nocc then (1 : ℝ) else 0) - q k k|
      ≤ (g k - (hi + lo) / 2) * ((if k.1 < nocc then (1 : ℝ) else 0) - q k k) := by
    intro k
    by_cases hk : k.1 < nocc
    · rw [if_pos hk, abs_of_nonneg (by linarith [hle k])]
      have : hi ≤ g k := hg k ⟨nocc - 1, by omega⟩ (by show k.1 ≤ nocc - 1; omega)
      exact mul_le_mul_of_nonneg_right (by linarith) (by linarith [hle k])
    · rw [if_neg hk, zero_sub, abs_neg, abs_of_nonneg (hpos k)]
      have : g k ≤ lo := hg ⟨nocc, hn⟩ k (by show nocc ≤ k.1; omega)
      nlinarith [hpos k]
  have hsum : ∑ k : Fin n, (g k - (hi + lo) / 2) * ((if k.1 < nocc then (1 : ℝ) else 0) - q k k) = (diagonal g * occ nocc).trace - (diagonal g * q).trace := by
    rw [e1, e2]
    have : ∀ k : Fin n, (g k - (hi + lo) / 2) * ((if k.1 < nocc then (1 : ℝ) else 0) - q k k)
        = g k * (if k.1 < nocc then 1 else 0) - g k * q k k - (hi + lo) / 2 * ((if k.1 < nocc then (1 : ℝ) else 0) - q k k) := fun k => by ring
    simp only [this]
    rw [Finset.sum_sub_distrib, Finset.sum_sub_distrib, ← Finset.mul_sum, Finset.sum_sub_distrib, hto, htr, sub_self, mul_zero, sub_zero]
  have hnn : ∀ k : Fin n, 0 ≤ (hi - lo) / 2 * |(if k.1 < nocc then (1 : ℝ) else 0) - q k k| := fun k =>
    mul_nonneg (by linarith) (abs_nonneg _)
  constructor
  · have : 0 ≤ ∑ k : Fin n, (g k - (hi + lo) / 2) * ((if k.1 < nocc then (1 : ℝ) else 0) - q k k) :=
      Finset.sum_nonneg fun k _ => (hnn k).trans (hterm k)
    rw [hsum] at this
    linarith
  · intro heq
    rw [heq, sub_self] at hsum
    have hz := (Finset.sum_eq_zero_iff_of_nonneg (fun k _ => (hnn k).trans (hterm k))).1 hsum
    have hkk : ∀ k : Fin n, q k k = if k.1 < nocc then 1 else 0 := by
      intro k
      have h1 := hterm k
      rw [hz k (Finset.mem_univ k)] at h1
      have h2 : |(if k.1 < nocc then (1 : ℝ) else 0) - q k k| = 0 := by
        have h3 : 0 < (hi - lo) / 2 := by linarith
        have := le_antisymm h1 (hnn k)
        rcases mul_eq_zero.1 this with h | h
        · linarith
        · exact h
      have := abs_eq_zero.1 h2
      linarith
    ext i j
    rw [occ]
    by_cases hij : i = j
    · subst hij; rw [diagonal_apply_eq]; exact hkk i
    · rw [diagonal_apply_ne _ hij]
      have h1 := hdiag i
      rw [← Finset.sum_erase_add _ _ (Finset.mem_univ i)] at h1
      have h2 : q i i ^ 2 = q i i := by rw [hkk i]; split <;> norm_num
      rw [h2] at h1
      have h3 : ∑ j ∈ Finset.univ.erase i, q i j ^ 2 = 0 := by linarith
      have h4 := (Finset.sum_eq_zero_iff_of_nonneg (fun j _ => sq_nonneg (q i j))).1 h3 j (Finset.mem_erase.2 ⟨fun h => hij h.symm, Finset.mem_univ j⟩)
      exact pow_eq_zero_iff (by norm_num) |>.1 h4

/-- The update succeeds if there are virtual orbitals, and the occupations on both sides of the gap differ by `1e-8`. -/
private theorem pdmet_ok {eigh : Matrix (Fin n) (Fin n) ℝ → Eig (Fin n) ℝ} {diis : Matrix (Fin n) (Fin n) ℝ → Matrix (Fin n) (Fin n) ℝ}
    {s : Matrix (Fin a) (Fin a) ℝ} {mo orig : Matrix (Fin a) (Fin n) ℝ} {nocc : Nat} {dm1 : Matrix (Fin n) (Fin n) ℝ} {c : Matrix (Fin a) (Fin n) ℝ}
    (h : pdmetUpdate eigh diis s mo orig nocc dm1 = .ok c) : ∃ hn : nocc < n,
      1 / 10 ^ 8 ≤ |(eigh (diis ((moᵀ * s * orig)ᵀ * dm1 * (moᵀ * s * orig)))).val (Fin.rev (homo hn)) - (eigh (diis ((moᵀ * s * orig)ᵀ * dm1 * (moᵀ * s * orig)))).val (Fin.rev ⟨nocc, hn⟩)|
      ∧ c = fixSign (orig * desc (eigh (diis ((moᵀ * s * orig)ᵀ * dm1 * (moᵀ * s * orig))))) := by
  unfold pdmetUpdate at h
  dsimp only at h
  split at h
  · rename_i hn
    split at h
    · cases h
    · rename_i hg
      exact ⟨hn, not_lt.1 hg, (Except.ok.inj h).symm⟩
  · cases h

private theorem dist_orig (s : Matrix (Fin a) (Fin a) ℝ) (orig : Matrix (Fin a) (Fin n) ℝ) (ho : OrthonormalIn s orig) (x y : Matrix (Fin n) (Fin n) ℝ) :
    dmDistance s (orig * x * origᵀ) (orig * y * origᵀ) = ((x - y) * (x - y)).trace := by
  unfold dmDistance
  unfold OrthonormalIn at ho
  have e : orig * x * origᵀ - orig * y * origᵀ = orig * (x - y) * origᵀ := by rw [Matrix.mul_sub, Matrix.sub_mul]
  rw [e]
  generalize x - y = z
  have : orig * z * origᵀ * s * (orig * z * origᵀ) * s = orig * (z * (origᵀ * s * orig) * z * (origᵀ * s)) := by simp only [Matrix.mul_assoc]
  rw [this, ho, Matrix.mul_one, Matrix.trace_mul_comm, Matrix.mul_assoc (z * z), ho, Matrix.mul_one]

private theorem sq_dist (x q : Matrix (Fin n) (Fin n) ℝ) (f : ℝ) (hq : q * q = q) : ((x - f • q) * (x - f • q)).trace = (x * x).trace - 2 * f * (x * q).trace + f ^ 2 * q.trace := by
  have e : (x - f • q) * (x - f • q) = x * x - f • (x * q) - f • (q * x) + (f * f) • (q * q) := by
    rw [Matrix.sub_mul, Matrix.mul_sub, Matrix.mul_sub, Matrix.smul_mul, Matrix.smul_mul, Matrix.mul_smul, Matrix.mul_smul, smul_smul]
    abel
  rw [e, hq, trace_add, trace_sub, trace_sub, trace_smul, trace_smul, trace_smul, Matrix.trace_mul_comm q x, smul_eq_mul, smul_eq_mul]
  ring

private theorem occ_idem (nocc : Nat) : (occ nocc : Matrix (Fin n) (Fin n) ℝ) * occ nocc = occ nocc := by
  rw [occ, diagonal_mul_diagonal]
  congr 1
  funext k
  split <;> norm_num

private theorem occ_trace (nocc : Nat) (h : nocc ≤ n) : (occ nocc : Matrix (Fin n) (Fin n) ℝ).trace = nocc := by
  rw [occ, trace_diagonal, Finset.sum_boole, Fin.card_filter_val_lt, min_eq_right h]

private theorem to_orig {s : Matrix (Fin a) (Fin a) ℝ} {mo orig : Matrix (Fin a) (Fin n) ℝ} (ho : OrthonormalIn s orig) (hm : SpannedBy mo orig) (x : Matrix (Fin n) (Fin n) ℝ) :
    mo * x * moᵀ = orig * ((moᵀ * s * orig)ᵀ * x * (moᵀ * s * orig)) * origᵀ := by
  obtain ⟨u, rfl⟩ := hm
  have : (orig * u)ᵀ * s * orig = uᵀ := by
    unfold OrthonormalIn at ho
    rw [transpose_mul, Matrix.mul_assoc, Matrix.mul_assoc, ← Matrix.mul_assoc origᵀ, ho, Matrix.mul_one]
  rw [this, transpose_transpose, transpose_mul]
  simp only [Matrix.mul_assoc]

/-- The new determinant is the one closest to the correlated density matrix: no other set of orthonormal occupied orbitals has a density matrix (times
any positive occupation `f`, such as two for closed shells) as close, unless it has the same density matrix. -/
theorem pdmet_closest (eigh : Matrix (Fin n) (Fin n) ℝ → Eig (Fin n) ℝ) (he : SolvesSorted eigh) (s : Matrix (Fin a) (Fin a) ℝ)
    (mo orig : Matrix (Fin a) (Fin n) ℝ) (ho : OrthonormalIn s orig) (hm : SpannedBy mo orig) (nocc : Nat) (h0 : 0 < nocc)
    (dm1 : Matrix (Fin n) (Fin n) ℝ) (hdm : dm1ᵀ = dm1) (c : Matrix (Fin a) (Fin n) ℝ) (h : pdmetUpdate eigh id s mo orig nocc dm1 = .ok c)
    (f : ℝ) (hf : 0 < f) (b : Matrix (Fin a) (Fin nocc) ℝ) (hb : OrthonormalIn s b) (hbm : SpannedBy b orig) :
    dmDistance s (mo * dm1 * moᵀ) (f • leadDensity nocc c) ≤ dmDistance s (mo * dm1 * moᵀ) (f • (b * bᵀ))
      ∧ (dmDistance s (mo * dm1 * moᵀ) (f • leadDensity nocc c) = dmDistance s (mo * dm1 * moᵀ) (f • (b * bᵀ)) → b * bᵀ = leadDensity nocc c) := by
  obtain ⟨hn, hgap, hc⟩ := pdmet_ok h
  rw [to_orig ho hm]
  set x := (moᵀ * s * orig)ᵀ * dm1 * (moᵀ * s * orig) with hx
  have hxs : xᵀ = x := by rw [hx]; simp only [transpose_mul, transpose_transpose, hdm, Matrix.mul_assoc]
  have hg := he.1 x hxs
  have hasc := he.2 x
  rw [show (id x : Matrix (Fin n) (Fin n) ℝ) = x from rfl] at hgap hc
  set g := eigh x with hgd
  set w := desc g with hw
  have hww := desc_orth hg
  have hww' := mul_eq_one_comm.1 hww
  have hxe := desc_eq hg
  rw [← hw] at hww hww' hxe
  have hdesc : ∀ i j : Fin n, i ≤ j → g.val (Fin.rev j) ≤ g.val (Fin.rev i) := fun i j hij => hasc _ _ (Fin.rev_le_rev.2 hij)
  have hhomo : (homo hn : Fin n) = ⟨nocc - 1, by omega⟩ := if_neg h0.ne'
  rw [hhomo] at hgap
  have hle := hdesc ⟨nocc - 1, by omega⟩ ⟨nocc, hn⟩ (by show nocc - 1 ≤ nocc; omega)
  rw [abs_of_nonneg (by linarith)] at hgap
  have hlt : g.val (Fin.rev ⟨nocc, hn⟩) < g.val (Fin.rev ⟨nocc - 1, by omega⟩) := by
    have : (0 : ℝ) < 1 / 10 ^ 8 := by positivity
    linarith
  obtain ⟨u, hu⟩ := hbm
  have huu : uᵀ * u = 1 := by
    unfold OrthonormalIn at hb ho
    rw [hu, transpose_mul] at hb
    have : uᵀ * origᵀ * s * (orig * u) = uᵀ * (origᵀ * s * orig) * u := by simp only [Matrix.mul_assoc]
    rw [this, ho, Matrix.mul_one] at hb
    exact hb
  have hyy : (wᵀ * u)ᵀ * (wᵀ * u) = 1 := by
    rw [transpose_mul, transpose_transpose, Matrix.mul_assoc, ← Matrix.mul_assoc w, hww', Matrix.one_mul, huu]
  obtain ⟨k1, k2⟩ := ky_fan (fun k => g.val (Fin.rev k)) hdesc nocc h0 hn hlt (wᵀ * u) hyy
  have t1 : (diagonal (fun k => g.val (Fin.rev k)) * (wᵀ * u * (wᵀ * u)ᵀ)).trace = (x * (u * uᵀ)).trace := by
    rw [hxe, transpose_mul, transpose_transpose]
    have : diagonal (fun k => g.val (Fin.rev k)) * (wᵀ * u * (uᵀ * w)) = (diagonal (fun k => g.val (Fin.rev k)) * wᵀ * (u * uᵀ)) * w := by simp only [Matrix.mul_assoc]
    rw [this, Matrix.trace_mul_comm]
    simp only [Matrix.mul_assoc]
  have t2 : (diagonal (fun k => g.val (Fin.rev k)) * occ nocc).trace = (x * (w * occ nocc * wᵀ)).trace := by
    rw [hxe]
    have : w * diagonal (fun k => g.val (Fin.rev k)) * wᵀ * (w * occ nocc * wᵀ) = w * (diagonal (fun k => g.val (Fin.rev k)) * (wᵀ * w) * occ nocc * wᵀ) := by simp only [Matrix.mul_assoc]
    rw [this, hww, Matrix.mul_one, Matrix.trace_mul_comm w, Matrix.mul_assoc, hww, Matrix.mul_one]
  have hden : leadDensity nocc c = orig * (w * occ nocc * wᵀ) * origᵀ := by
    rw [hc, leadDensity_fixSign, leadDensity_mul, leadDensity_eq]
  have hbd : b * bᵀ = orig * (u * uᵀ) * origᵀ := by rw [hu, transpose_mul]; simp only [Matrix.mul_assoc]
  have q1 : (w * occ nocc * wᵀ) * (w * occ nocc * wᵀ) = w * occ nocc * wᵀ := by
    have : (w * occ nocc * wᵀ) * (w * occ nocc * wᵀ) = w * (occ nocc * (wᵀ * w) * occ nocc) * wᵀ := by simp only [Matrix.mul_assoc]
    rw [this, hww, Matrix.mul_one, occ_idem]
  have q2 : (u * uᵀ) * (u * uᵀ) = u * uᵀ := by rw [Matrix.mul_assoc, ← Matrix.mul_assoc uᵀ, huu, Matrix.one_mul]
  have r1 : (w * occ nocc * wᵀ).trace = (nocc : ℝ) := by rw [Matrix.trace_mul_comm, ← Matrix.mul_assoc, hww, Matrix.one_mul, occ_trace nocc hn.le]
  have r2 : (u * uᵀ).trace = (nocc : ℝ) := by rw [Matrix.trace_mul_comm, huu, trace_one, Fintype.card_fin]
  have d1 : dmDistance s (orig * x * origᵀ) (f • leadDensity nocc c) = (x * x).trace - 2 * f * (x * (w * occ nocc * wᵀ)).trace + f ^ 2 * nocc := by
    rw [hden, ← Matrix.smul_mul, ← Matrix.mul_smul, dist_orig s orig ho, sq_dist x _ f q1, r1]
  have d2 : dmDistance s (orig * x * origᵀ) (f • (b * bᵀ)) = (x * x).trace - 2 * f * (x * (u * uᵀ)).trace + f ^ 2 * nocc := by
    rw [hbd, ← Matrix.smul_mul, ← Matrix.mul_smul, dist_orig s orig ho, sq_dist x _ f q2, r2]
  rw [d1, d2]
  rw [t1, t2] at k1 k2
  constructor
  · nlinarith
  · intro heq
    have h3 : (x * (u * uᵀ)).trace = (x * (w * occ nocc * wᵀ)).trace := by
      have : f * ((x * (u * uᵀ)).trace - (x * (w * occ nocc * wᵀ)).trace) = 0 := by linarith
      rcases mul_eq_zero.1 this with h | h
      · exact absurd h hf.ne'
      · linarith
    have h4 := k2 h3
    have h5 : u * uᵀ = w * occ nocc * wᵀ := by
      rw [← h4, transpose_mul, transpose_transpose]
      have : w * (wᵀ * u * (uᵀ * w)) * wᵀ = (w * wᵀ) * (u * uᵀ) * (w * wᵀ) := by simp only [Matrix.mul_assoc]
      rw [this, hww', Matrix.one_mul, Matrix.mul_one]
    rw [hbd, hden, h5]

/-- The first `nocc` orbitals. -/
private theorem occ_cols {s : Matrix (Fin a) (Fin a) ℝ} {c : Matrix (Fin a) (Fin n) ℝ} (hc : OrthonormalIn s c) {nocc : Nat} (hn : nocc ≤ n) :
    OrthonormalIn s (c.submatrix id (Fin.castLE hn)) ∧ (c.submatrix id (Fin.castLE hn)) * (c.submatrix id (Fin.castLE hn))ᵀ = leadDensity nocc c := by
  constructor
  · unfold OrthonormalIn at hc ⊢
    ext i j
    have := congrFun (congrFun hc (Fin.castLE hn i)) (Fin.castLE hn j)
    rw [Matrix.one_apply] at this ⊢
    simp only [Fin.castLE_inj] at this
    refine Eq.trans ?_ this
    simp only [Matrix.mul_apply, transpose_apply, submatrix_apply, id]
  · ext x y
    rw [Matrix.mul_apply]
    show _ = ∑ k : Fin n, if k.1 < nocc then c x k * c y k else 0
    rw [← Finset.sum_filter]
    symm
    refine Finset.sum_bij' (i := fun (k : Fin n) (hk : k ∈ Finset.univ.filter fun k : Fin n => k.1 < nocc) => (⟨k.1, (Finset.mem_filter.1 hk).2⟩ : Fin nocc))
      (j := fun k _ => Fin.castLE hn k) ?_ ?_ ?_ ?_ ?_
    · intro k hk; exact Finset.mem_univ _
    · intro k _; exact Finset.mem_filter.2 ⟨Finset.mem_univ _, k.2⟩
    · intro k hk; rfl
    · intro k _; rfl
    · intro k hk; rfl

/-- The new determinant does not depend on the original orbitals in which the density matrix is diagonalised. -/
theorem pdmet_reference (eigh : Matrix (Fin n) (Fin n) ℝ → Eig (Fin n) ℝ) (he : SolvesSorted eigh) (s : Matrix (Fin a) (Fin a) ℝ)
    (mo orig orig' : Matrix (Fin a) (Fin n) ℝ) (ho : OrthonormalIn s orig) (ho' : OrthonormalIn s orig') (hoo : SpannedBy orig orig') (hoo' : SpannedBy orig' orig)
    (hm : SpannedBy mo orig) (nocc : Nat) (h0 : 0 < nocc) (dm1 : Matrix (Fin n) (Fin n) ℝ) (hdm : dm1ᵀ = dm1) (c c' : Matrix (Fin a) (Fin n) ℝ)
    (h : pdmetUpdate eigh id s mo orig nocc dm1 = .ok c) (h' : pdmetUpdate eigh id s mo orig' nocc dm1 = .ok c') : leadDensity nocc c = leadDensity nocc c' := by
  have trans : ∀ {I : Type} (x : Matrix (Fin a) I ℝ) (y z : Matrix (Fin a) (Fin n) ℝ), SpannedBy x y → SpannedBy y z → SpannedBy x z := by
    rintro I x y z ⟨p, rfl⟩ ⟨q, rfl⟩
    exact ⟨q * p, Matrix.mul_assoc _ _ _⟩
  obtain ⟨hn, -, -⟩ := pdmet_ok h
  obtain ⟨o1, p1, -⟩ := pdmet_orthonormal eigh he id (fun _ h => h) s mo orig ho nocc dm1 hdm c h
  obtain ⟨o2, p2, -⟩ := pdmet_orthonormal eigh he id (fun _ h => h) s mo orig' ho' nocc dm1 hdm c' h'
  obtain ⟨b1, e1⟩ := occ_cols o1 hn.le
  obtain ⟨b2, e2⟩ := occ_cols o2 hn.le
  have sub : ∀ x : Matrix (Fin a) (Fin n) ℝ, SpannedBy (x.submatrix id (Fin.castLE hn.le)) x := fun x =>
    ⟨(1 : Matrix (Fin n) (Fin n) ℝ).submatrix id (Fin.castLE hn.le), by
      have := Matrix.submatrix_mul x (1 : Matrix (Fin n) (Fin n) ℝ) id id (Fin.castLE hn.le) Function.bijective_id
      rw [Matrix.mul_one] at this
      exact this⟩
  obtain ⟨l1, -⟩ := pdmet_closest eigh he s mo orig' ho' (trans _ _ _ hm hoo) nocc h0 dm1 hdm c' h' 1 one_pos _ b1 (trans _ _ _ (sub c) (trans _ _ _ p1 hoo))
  obtain ⟨l2, u2⟩ := pdmet_closest eigh he s mo orig ho hm nocc h0 dm1 hdm c h 1 one_pos _ b2 (trans _ _ _ (sub c') (trans _ _ _ p2 hoo'))
  rw [e1] at l1
  rw [e2] at l2 u2
  exact (u2 (le_antisymm l2 l1)).symm

/-- If the correlated density matrix is the one of the mean-field itself, with occupations `f`, the determinant is not changed. -/
theorem pdmet_fixed_point (eigh : Matrix (Fin n) (Fin n) ℝ → Eig (Fin n) ℝ) (he : SolvesSorted eigh) (s : Matrix (Fin a) (Fin a) ℝ)
    (mo orig : Matrix (Fin a) (Fin n) ℝ) (ho : OrthonormalIn s orig) (hmo : OrthonormalIn s mo) (hm : SpannedBy mo orig) (nocc : Nat) (h0 : 0 < nocc) (hn : nocc < n)
    (f : ℝ) (hf : 1 / 10 ^ 8 ≤ f) :
    ∃ c, pdmetUpdate eigh id s mo orig nocc (f • diagonal fun k => if k.1 < nocc then 1 else 0) = .ok c ∧ leadDensity nocc c = leadDensity nocc mo := by
  have hf0 : 0 < f := lt_of_lt_of_le (by positivity) hf
  obtain ⟨u, hu⟩ := hm
  have hr : moᵀ * s * orig = uᵀ := by
    unfold OrthonormalIn at ho
    rw [hu, transpose_mul, Matrix.mul_assoc, Matrix.mul_assoc, ← Matrix.mul_assoc origᵀ, ho, Matrix.mul_one]
  have huu : uᵀ * u = 1 := by
    unfold OrthonormalIn at hmo
    have : moᵀ * s * mo = moᵀ * s * orig * u := by rw [hu]; simp only [Matrix.mul_assoc]
    rw [this, hr] at hmo
    exact hmo
  set q := u * occ nocc * uᵀ with hq
  have hqq : q * q = q := by
    have : q * q = u * (occ nocc * (uᵀ * u) * occ nocc) * uᵀ := by rw [hq]; simp only [Matrix.mul_assoc]
    rw [this, huu, Matrix.mul_one, occ_idem]
  have hqt : qᵀ = q := by rw [hq]; simp only [transpose_mul, transpose_transpose, occ, diagonal_transpose, Matrix.mul_assoc]
  have hqr : q.trace = (nocc : ℝ) := by rw [hq, Matrix.trace_mul_comm, ← Matrix.mul_assoc, huu, Matrix.one_mul, occ_trace nocc hn.le]
  have hx : (moᵀ * s * orig)ᵀ * (f • diagonal fun k : Fin n => if k.1 < nocc then (1 : ℝ) else 0) * (moᵀ * s * orig) = f • q := by
    rw [hr, transpose_transpose, Matrix.mul_smul, Matrix.smul_mul]; rfl
  have hg := he.1 (f • q) (by rw [transpose_smul, hqt])
  have hasc := he.2 (f • q)
  unfold pdmetUpdate
  dsimp only
  rw [hx, dif_pos hn]
  rw [show (id (f • q) : Matrix (Fin n) (Fin n) ℝ) = f • q from rfl]
  generalize eigh (f • q) = g at hg hasc
  have hg' : IsEigh q ⟨fun k => f⁻¹ * g.val k, g.vec⟩ := by
    refine ⟨hg.1, ?_⟩
    have h2 := hg.2
    have e : diagonal (fun k => f⁻¹ * g.val k) = f⁻¹ • diagonal g.val := by
      rw [← diagonal_smul]; rfl
    show q * g.vec = g.vec * diagonal (fun k => f⁻¹ * g.val k)
    rw [e, Matrix.mul_smul, ← h2, Matrix.smul_mul, smul_smul, inv_mul_cancel₀ hf0.ne', one_smul]
  have h01 := proj_values q hqq _ hg'
  have hsum : ∑ k, f⁻¹ * g.val (Fin.rev k) = nocc := by
    rw [← hqr, desc_eq hg', Matrix.trace_mul_comm, ← Matrix.mul_assoc, desc_orth hg', Matrix.one_mul, trace_diagonal]
  have hval := descending_zero_one (fun k => f⁻¹ * g.val (Fin.rev k))
    (fun i j hij => mul_le_mul_of_nonneg_left (hasc _ _ (Fin.rev_le_rev.2 hij)) (inv_pos.2 hf0).le) (fun k => h01 (Fin.rev k)) nocc hsum
  have hval' : ∀ k : Fin n, g.val (Fin.rev k) = if k.1 < nocc then f else 0 := by
    intro k
    have h := hval k
    have : g.val (Fin.rev k) = f * (f⁻¹ * g.val (Fin.rev k)) := by rw [← mul_assoc, mul_inv_cancel₀ hf0.ne', one_mul]
    rw [this, h]
    split <;> simp
  have hhomo : (homo hn : Fin n) = ⟨nocc - 1, by omega⟩ := if_neg h0.ne'
  have v1 : g.val (Fin.rev ⟨nocc - 1, by omega⟩) = f := (hval' _).trans (if_pos (by show nocc - 1 < nocc; omega))
  have v2 : g.val (Fin.rev ⟨nocc, hn⟩) = 0 := (hval' _).trans (if_neg (lt_irrefl nocc))
  rw [hhomo, v1, v2, sub_zero, abs_of_pos hf0, if_neg (not_lt.2 hf)]
  refine ⟨_, rfl, ?_⟩
  rw [leadDensity_fixSign]
  show leadDensity nocc (orig * desc g) = _
  rw [leadDensity_mul, leadDensity_eq]
  have hq2 : q = desc g * occ nocc * (desc g)ᵀ := by
    refine (desc_eq hg').trans ?_
    show desc g * _ * (desc g)ᵀ = _
    congr 2
    rw [occ]
    congr 1
    funext k
    exact hval k
  rw [← hq2, hq, hu, leadDensity_mul, leadDensity_eq]

/-- Without virtual orbitals, and without occupied orbitals if the density matrix vanishes, there is no update. -/
theorem pdmet_refused (eigh : Matrix (Fin n) (Fin n) ℝ → Eig (Fin n) ℝ) (he : SolvesEigh eigh) (s : Matrix (Fin a) (Fin a) ℝ) (mo orig : Matrix (Fin a) (Fin n) ℝ)
    (nocc : Nat) (dm1 : Matrix (Fin n) (Fin n) ℝ) :
    (n ≤ nocc → pdmetUpdate eigh id s mo orig nocc dm1 = .error .indexError) ∧ (0 < n → pdmetUpdate eigh id s mo orig 0 0 = .error .runtimeError) := by
  constructor
  · intro h
    unfold pdmetUpdate
    dsimp only
    rw [dif_neg (not_lt.2 h)]
  · intro h
    unfold pdmetUpdate
    dsimp only
    rw [dif_pos h, Matrix.mul_zero, Matrix.zero_mul]
    have hg := he (id 0) transpose_zero
    generalize eigh (id 0) = g at hg
    have hv : ∀ k, g.val k = 0 := by
      intro k
      have h2 : g.vecᵀ * (id 0 * g.vec) = diagonal g.val := by rw [hg.2, ← Matrix.mul_assoc, hg.1, Matrix.one_mul]
      have := congrFun (congrFun h2 k) k
      rw [diagonal_apply_eq] at this
      rw [← this, show (id 0 : Matrix (Fin n) (Fin n) ℝ) = 0 from rfl, Matrix.zero_mul, Matrix.mul_zero]
      rfl
    rw [hv, hv, if_pos (by norm_num)]

/-- So p-DMET cannot be used for systems without beta electrons: every update raises an exception. -/
theorem pdmet_no_beta (eigha : Matrix (Fin n) (Fin n) ℝ → Eig (Fin n) ℝ) (eighb : Matrix (Fin m) (Fin m) ℝ → Eig (Fin m) ℝ) (he : SolvesEigh eighb)
    (diisa : Matrix (Fin n) (Fin n) ℝ → Matrix (Fin n) (Fin n) ℝ) (s : Matrix (Fin a) (Fin a) ℝ) (mo orig : Matrix (Fin a) (Fin n) ℝ × Matrix (Fin a) (Fin m) ℝ)
    (na : Nat) (dma : Matrix (Fin n) (Fin n) ℝ) : ∃ e, pdmetUpdateU eigha eighb diisa id s mo orig (na, 0) (dma, 0) = .error e := by
  have hb : ∃ e, pdmetUpdate eighb id s mo.2 orig.2 0 0 = .error e := by
    obtain ⟨h1, h2⟩ := pdmet_refused eighb he s mo.2 orig.2 0 0
    rcases Nat.eq_zero_or_pos m with h | h
    · exact ⟨_, h1 (by omega)⟩
    · exact ⟨_, h2 h⟩
  obtain ⟨e, hb⟩ := hb
  unfold pdmetUpdateU
  cases ha : pdmetUpdate eigha diisa s mo.1 orig.1 na dma with
  | error e' => exact ⟨e', rfl⟩
  | ok c => exact ⟨e, by show (pdmetUpdate eighb id s mo.2 orig.2 0 0 >>= _) = _; rw [hb]; rfl⟩

/-- Both spins are updated by themselves. -/
theorem pdmet_unrestricted (eigha : Matrix (Fin n) (Fin n) ℝ → Eig (Fin n) ℝ) (eighb : Matrix (Fin m) (Fin m) ℝ → Eig (Fin m) ℝ)
    (diisa : Matrix (Fin n) (Fin n) ℝ → Matrix (Fin n) (Fin n) ℝ) (diisb : Matrix (Fin m) (Fin m) ℝ → Matrix (Fin m) (Fin m) ℝ)
    (s : Matrix (Fin a) (Fin a) ℝ) (mo orig : Matrix (Fin a) (Fin n) ℝ × Matrix (Fin a) (Fin m) ℝ) (nocc : Nat × Nat)
    (dm1 : Matrix (Fin n) (Fin n) ℝ × Matrix (Fin m) (Fin m) ℝ) (c : Matrix (Fin a) (Fin n) ℝ × Matrix (Fin a) (Fin m) ℝ) :
    pdmetUpdateU eigha eighb diisa diisb s mo orig nocc dm1 = .ok c
      ↔ pdmetUpdate eigha diisa s mo.1 orig.1 nocc.1 dm1.1 = .ok c.1 ∧ pdmetUpdate eighb diisb s mo.2 orig.2 nocc.2 dm1.2 = .ok c.2 := by
  unfold pdmetUpdateU
  cases ha : pdmetUpdate eigha diisa s mo.1 orig.1 nocc.1 dm1.1 with
  | error e => exact ⟨fun h => (by cases h), fun h => (by cases h.1)⟩
  | ok x =>
    cases hb : pdmetUpdate eighb diisb s mo.2 orig.2 nocc.2 dm1.2 with
    | error e => exact ⟨fun h => (by cases h), fun h => (by cases h.2)⟩
    | ok y =>
      constructor
      · intro h
        have h' : (x, y) = c := Except.ok.inj h
        rw [← h']
        exact ⟨rfl, rfl⟩
      · rintro ⟨h1, h2⟩
        rw [Except.ok.inj h1, Except.ok.inj h2]
        rfl

/-- The density matrix: by default the one of the method, replaced by the democratically partitioned one if the method has none, but only for
restricted calculations; words beginning with `demo` select the latter. -/
theorem pdmet_density {α : Type} (full demo : Except PyErr α) (unrestricted : Bool) :
    (full ≠ .error .notImplementedError → pdmetRdm1 unrestricted "default" full demo = full) ∧ pdmetRdm1 false "Default" (.error .notImplementedError) demo = demo
      ∧ pdmetRdm1 true "default" (.error .notImplementedError) demo = .error .notImplementedError
      ∧ pdmetRdm1 unrestricted "DEMO" full demo = demo ∧ pdmetRdm1 unrestricted "democratic" full demo = demo
      ∧ pdmetRdm1 unrestricted "full" full demo = .error .notImplementedError := by
  have d1 : "default".toList.isPrefixOf "default".toLower.toList = true := by decide +kernel
  have d2 : "default".toList.isPrefixOf "Default".toLower.toList = true := by decide +kernel
  have d3 : "default".toList.isPrefixOf "DEMO".toLower.toList = false := by decide +kernel
  have d4 : "demo".toList.isPrefixOf "DEMO".toLower.toList = true := by decide +kernel
  have d5 : "default".toList.isPrefixOf "democratic".toLower.toList = false := by decide +kernel
  have d6 : "demo".toList.isPrefixOf "democratic".toLower.toList = true := by decide +kernel
  have d7 : "default".toList.isPrefixOf "full".toLower.toList = false := by decide +kernel
  have d8 : "demo".toList.isPrefixOf "full".toLower.toList = false := by decide +kernel
  refine ⟨fun h => ?_, ?_, ?_, ?_, ?_, ?_⟩
  · unfold pdmetRdm1
    dsimp only
    rw [if_pos d1]
    cases full with
    | ok x => rfl
    | error e => exact if_neg fun h' => h (by rw [h'.1])
  · unfold pdmetRdm1; dsimp only; rw [if_pos d2]; rfl
  · unfold pdmetRdm1; dsimp only; rw [if_pos d1]; rfl
  · unfold pdmetRdm1; dsimp only; rw [d3, d4]; rfl
  · unfold pdmetRdm1; dsimp only; rw [d5, d6]; rfl
  · unfold pdmetRdm1; dsimp only; rw [d7, d8]; rfl

/-- The hypotheses are met by a determinant with one of two orbitals occupied, so that there is an update to which the theorems apply. -/
example : ∃ c : Matrix (Fin 2) (Fin 2) ℝ, pdmetUpdate (sortedEigh 2) id 1 1 1 1 ((2 : ℝ) • diagonal fun k : Fin 2 => if k.1 < 1 then (1 : ℝ) else 0) = .ok c
    ∧ OrthonormalIn 1 c ∧ leadDensity 1 c = leadDensity 1 (1 : Matrix (Fin 2) (Fin 2) ℝ) := by
  have h1 : OrthonormalIn (1 : Matrix (Fin 2) (Fin 2) ℝ) (1 : Matrix (Fin 2) (Fin 2) ℝ) := by unfold OrthonormalIn; simp
  obtain ⟨c, hc, hd⟩ := pdmet_fixed_point (sortedEigh 2) sortedEigh_sorted 1 1 1 h1 h1 ⟨1, (Matrix.mul_one 1).symm⟩ 1 one_pos (by decide) 2 (by norm_num)
  exact ⟨c, hc, (pdmet_orthonormal _ sortedEigh_sorted id (fun _ h => h) 1 1 1 h1 1 _ (by rw [transpose_smul, diagonal_transpose]) c hc).1, hd⟩

end Vayesta.Props
