import Verif.Props.Pdmet
import Mathlib.LinearAlgebra.Matrix.Rank
import Mathlib.LinearAlgebra.Matrix.PosDef
import Mathlib.Data.Real.StarOrdered

/-! Updates of the mean-field with Brueckner orbitals (C82). -/

namespace Vayesta.Props

open Vayesta.Scmf Matrix Lowdin

set_option linter.unusedSectionVars false

variable {a o w : Nat}

/-! ## Specification -/

/-- What SciPy promises for the generalised eigenvalue problem of type two, `d s v = e v`, with ascending eigenvalues. -/
def SolvesType2 (geigh : Matrix (Fin a) (Fin a) ℝ → Matrix (Fin a) (Fin a) ℝ → Eig (Fin a) ℝ) (s : Matrix (Fin a) (Fin a) ℝ) : Prop :=
  ∀ d, dᵀ = d → (geigh d s).vecᵀ * s * (geigh d s).vec = 1 ∧ d * s * (geigh d s).vec = (geigh d s).vec * diagonal (geigh d s).val ∧ Ascending (geigh d s)

/-- Density matrix of the occupied orbitals. -/
def density (mo : Matrix (Fin a) (Fin o ⊕ Fin w) ℝ) : Matrix (Fin a) (Fin a) ℝ := mo.toCols₁ * mo.toCols₁ᵀ

/-! ## Proofs -/

private theorem tail_index {n m : Nat} (h : m ≤ n) (j : Fin m) : n - m + j.1 < n := by have := j.2; omega

private theorem tailCols_eq {r : Type} {n m : Nat} (h : m ≤ n) (v : Matrix r (Fin n) ℝ) : tailCols v m = v.submatrix id fun j => ⟨n - m + j.1, tail_index h j⟩ := by
  ext i j
  exact dif_pos (tail_index h j)

private theorem headCols_eq {r : Type} {n m : Nat} (h : m ≤ n) (v : Matrix r (Fin n) ℝ) : headCols v m = v.submatrix id (Fin.castLE h) := by
  ext i j
  exact dif_pos (lt_of_lt_of_le j.2 h)

private theorem sub_gram {n : Nat} {J : Type} [DecidableEq J] (s : Matrix (Fin a) (Fin a) ℝ) (v : Matrix (Fin a) (Fin n) ℝ) (h : vᵀ * s * v = 1) (f : J → Fin n)
    (hf : Function.Injective f) : (v.submatrix id f)ᵀ * s * (v.submatrix id f) = 1 := by
  ext i j
  have := congrFun (congrFun h (f i)) (f j)
  rw [Matrix.one_apply] at this ⊢
  simp only [hf.eq_iff] at this
  refine Eq.trans ?_ this
  simp only [Matrix.mul_apply, transpose_apply, submatrix_apply, id]

/-- Orthogonalisation by the generalised eigenvalue problem gives orthonormal orbitals spanning the same space. -/
private theorem orth_space (geigh : Matrix (Fin a) (Fin a) ℝ → Matrix (Fin a) (Fin a) ℝ → Eig (Fin a) ℝ) (s : Matrix (Fin a) (Fin a) ℝ) (hs : sᵀ = s)
    (hg : SolvesType2 geigh s) (b : Matrix (Fin a) (Fin o) ℝ) (hb : IsUnit (bᵀ * s * b)) :
    OrthonormalIn s (tailCols (geigh (b * bᵀ) s).vec o) ∧ SpannedBy (tailCols (geigh (b * bᵀ) s).vec o) b ∧ SpannedBy b (tailCols (geigh (b * bᵀ) s).vec o) := by
  obtain ⟨h1, h2, h3⟩ := hg (b * bᵀ) (by rw [transpose_mul, transpose_transpose])
  generalize geigh (b * bᵀ) s = g at h1 h2 h3
  set v := g.vec with hv
  have h1' : v * (vᵀ * s) = 1 := mul_eq_one_comm.1 h1
  set y := vᵀ * s * b with hy
  have hyt : yᵀ = bᵀ * s * v := by rw [hy]; simp only [transpose_mul, transpose_transpose, hs, Matrix.mul_assoc]
  have hyy : y * yᵀ = diagonal g.val := by
    rw [hyt, hy]
    have : vᵀ * s * b * (bᵀ * s * v) = vᵀ * s * (b * bᵀ * s * v) := by simp only [Matrix.mul_assoc]
    rw [this, h2, ← Matrix.mul_assoc, h1, Matrix.one_mul]
  have hvy : v * y = b := by rw [hy, Matrix.mul_assoc vᵀ, ← Matrix.mul_assoc, ← Matrix.mul_assoc, Matrix.mul_assoc v, h1', Matrix.one_mul]
  have hyty : yᵀ * y = bᵀ * s * b := by
    rw [hyt]
    calc bᵀ * s * v * y = bᵀ * s * (v * y) := by simp only [Matrix.mul_assoc]
      _ = _ := by rw [hvy]
  have hrank : Fintype.card {i // g.val i ≠ 0} = o := by
    rw [← Matrix.rank_diagonal, ← hyy, Matrix.rank_self_mul_transpose, ← Matrix.rank_transpose_mul_self, hyty, Matrix.rank_of_isUnit _ hb, Fintype.card_fin]
  have hval : ∀ k, g.val k = ∑ j, y k j ^ 2 := by
    intro k
    have := congrFun (congrFun hyy k) k
    rw [diagonal_apply_eq, Matrix.mul_apply] at this
    rw [← this]
    exact Finset.sum_congr rfl fun j _ => by rw [transpose_apply, sq]
  have hpos : ∀ k, 0 ≤ g.val k := fun k => by rw [hval k]; exact Finset.sum_nonneg fun j _ => sq_nonneg _
  classical
  let S : Finset (Fin a) := Finset.univ.filter fun k => g.val (Fin.rev k) ≠ 0
  have hS : S.card = o := by
    rw [← hrank, Fintype.card_subtype]
    refine Finset.card_bij' (fun k _ => Fin.rev k) (fun k _ => Fin.rev k) ?_ ?_ ?_ ?_
    · intro k hk; exact Finset.mem_filter.2 ⟨Finset.mem_univ _, (Finset.mem_filter.1 hk).2⟩
    · intro k hk; refine Finset.mem_filter.2 ⟨Finset.mem_univ _, ?_⟩; rw [Fin.rev_rev]; exact (Finset.mem_filter.1 hk).2
    · intro k _; exact Fin.rev_rev k
    · intro k _; exact Fin.rev_rev k
  have hseg := initial_segment S (fun i j hij hi => by
    have hi' := (Finset.mem_filter.1 hi).2
    refine Finset.mem_filter.2 ⟨Finset.mem_univ _, ?_⟩
    have h4 := h3 _ _ (Fin.rev_le_rev.2 hij)
    have h5 := lt_of_le_of_ne (hpos (Fin.rev i)) (Ne.symm hi')
    exact (lt_of_lt_of_le h5 h4).ne')
  rw [hS] at hseg
  have hoa : o ≤ a := by rw [← hS]; simpa using Finset.card_le_univ S
  have hnz : ∀ k : Fin a, g.val k ≠ 0 ↔ a - o ≤ k.1 := by
    intro k
    have := hseg (Fin.rev k)
    rw [Finset.mem_filter, Fin.rev_rev] at this
    have hk := k.2
    have h4 : (Fin.rev k).1 = a - (k.1 + 1) := Fin.val_rev k
    constructor
    · intro h
      have := this.1 ⟨Finset.mem_univ _, h⟩
      omega
    · intro h
      exact (this.2 (by omega)).2
  rw [tailCols_eq hoa]
  set e : Fin o → Fin a := fun j => ⟨a - o + j.1, tail_index hoa j⟩ with he
  have hei : Function.Injective e := fun i j hij => by
    have := congrArg Fin.val hij
    exact Fin.ext (by simpa [he] using this)
  have hrow : ∀ k : Fin a, k.1 < a - o → ∀ j, y k j = 0 := by
    intro k hk j
    have h0 : g.val k = 0 := by
      by_contra h
      have := (hnz k).1 h
      omega
    have := (Finset.sum_eq_zero_iff_of_nonneg (fun j _ => sq_nonneg (y k j))).1 ((hval k).symm.trans h0) j (Finset.mem_univ j)
    exact pow_eq_zero_iff (by norm_num) |>.1 this
  have hbt : b = v.submatrix id e * y.submatrix e id := by
    rw [← hvy]
    ext i j
    rw [Matrix.mul_apply, Matrix.mul_apply]
    symm
    refine Finset.sum_of_injOn e hei.injOn (fun _ _ => Finset.mem_coe.2 (Finset.mem_univ _)) (fun k _ hk => ?_) (fun k _ => rfl)
    rw [hrow k ?_ j, mul_zero]
    by_contra hk'
    refine hk ⟨⟨k.1 - (a - o), by have := k.2; omega⟩, Finset.mem_coe.2 (Finset.mem_univ _), Fin.ext ?_⟩
    show a - o + (k.1 - (a - o)) = k.1
    omega
  have hyl : y.submatrix e id * (y.submatrix e id)ᵀ = diagonal fun j => g.val (e j) := by
    ext i j
    have := congrFun (congrFun hyy (e i)) (e j)
    rw [Matrix.mul_apply] at this ⊢
    refine Eq.trans this ?_
    rw [diagonal_apply, diagonal_apply]
    simp only [hei.eq_iff]
  have hinv : y.submatrix e id * ((y.submatrix e id)ᵀ * diagonal fun j => (g.val (e j))⁻¹) = 1 := by
    rw [← Matrix.mul_assoc, hyl, diagonal_mul_diagonal]
    have : (fun j => g.val (e j) * (g.val (e j))⁻¹) = fun _ => (1 : ℝ) := by
      funext j
      exact mul_inv_cancel₀ ((hnz (e j)).2 (by show a - o ≤ a - o + j.1; omega))
    rw [this]
    exact diagonal_one
  refine ⟨sub_gram s v h1 e hei, ⟨(y.submatrix e id)ᵀ * diagonal fun j => (g.val (e j))⁻¹, ?_⟩, ⟨_, hbt⟩⟩
  refine Eq.trans ?_ (congrArg (fun z => z * ((y.submatrix e id)ᵀ * diagonal fun j => (g.val (e j))⁻¹)) hbt.symm)
  rw [Matrix.mul_assoc, hinv, Matrix.mul_one]

/-- Occupied and virtual orbitals are orthonormal. -/
private theorem parts {s : Matrix (Fin a) (Fin a) ℝ} {mo : Matrix (Fin a) (Fin o ⊕ Fin w) ℝ} (h : OrthonormalIn s mo) :
    mo.toCols₁ᵀ * s * mo.toCols₁ = 1 ∧ mo.toCols₁ᵀ * s * mo.toCols₂ = 0 ∧ mo.toCols₂ᵀ * s * mo.toCols₁ = 0 ∧ mo.toCols₂ᵀ * s * mo.toCols₂ = 1 := by
  unfold OrthonormalIn at h
  rw [← fromCols_toCols mo, transpose_fromCols, fromRows_mul, fromRows_mul_fromCols, ← fromBlocks_one, fromBlocks_inj] at h
  exact h

private theorem brOcc_gram {s : Matrix (Fin a) (Fin a) ℝ} {mo : Matrix (Fin a) (Fin o ⊕ Fin w) ℝ} (h : OrthonormalIn s mo) (damping : ℝ) (t1 : Matrix (Fin o) (Fin w) ℝ) :
    IsUnit ((brOcc damping mo t1)ᵀ * s * brOcc damping mo t1) := by
  obtain ⟨h1, h2, h3, h4⟩ := parts h
  set x := mo.toCols₁
  set y := mo.toCols₂
  have e : (brOcc damping mo t1)ᵀ * s * brOcc damping mo t1 = 1 + ((1 - damping) • t1) * ((1 - damping) • t1)ᵀ := by
    show (x + (1 - damping) • (y * t1ᵀ))ᵀ * s * (x + (1 - damping) • (y * t1ᵀ)) = _
    generalize hd : (1 - damping) = c
    have e1 : (x + c • (y * t1ᵀ))ᵀ = xᵀ + c • (t1 * yᵀ) := by rw [transpose_add, transpose_smul, transpose_mul, transpose_transpose]
    have e2 : (xᵀ + c • (t1 * yᵀ)) * s * (x + c • (y * t1ᵀ)) = xᵀ * s * x + c • (xᵀ * s * y * t1ᵀ) + c • (t1 * (yᵀ * s * x)) + (c * c) • (t1 * (yᵀ * s * y) * t1ᵀ) := by
      simp only [Matrix.add_mul, Matrix.mul_add, Matrix.smul_mul, Matrix.mul_smul, smul_smul, smul_add, Matrix.mul_assoc]
      abel
    rw [e1, e2, h1, h2, h3, h4]
    simp only [Matrix.zero_mul, Matrix.mul_zero, smul_zero, add_zero, Matrix.mul_one, Matrix.smul_mul, Matrix.mul_smul, smul_smul, transpose_smul]
  rw [e]
  have hp : (((1 - damping) • t1) * ((1 - damping) • t1)ᵀ).PosSemidef := by
    have := Matrix.posSemidef_self_mul_conjTranspose ((1 - damping) • t1)
    rwa [conjTranspose_eq_transpose_of_trivial] at this
  exact (Matrix.PosDef.one.add_posSemidef hp).isUnit

/-- The orbitals in one array. -/
private def flat (mo : Matrix (Fin a) (Fin o ⊕ Fin w) ℝ) : Matrix (Fin a) (Fin (o + w)) ℝ := mo.submatrix id finSumFinEquiv.symm

private theorem flat_orth {s : Matrix (Fin a) (Fin a) ℝ} {mo : Matrix (Fin a) (Fin o ⊕ Fin w) ℝ} (h : OrthonormalIn s mo) : (flat mo)ᵀ * s * flat mo = 1 := by
  ext i j
  have := congrFun (congrFun h (finSumFinEquiv.symm i)) (finSumFinEquiv.symm j)
  rw [Matrix.one_apply] at this ⊢
  simp only [EmbeddingLike.apply_eq_iff_eq] at this
  refine Eq.trans ?_ this
  simp only [Matrix.mul_apply, transpose_apply, submatrix_apply, id, flat]

private theorem flat_span {I : Type} {x : Matrix (Fin a) I ℝ} {mo : Matrix (Fin a) (Fin o ⊕ Fin w) ℝ} (h : SpannedBy x mo) : SpannedBy x (flat mo) := by
  obtain ⟨y, rfl⟩ := h
  exact ⟨y.submatrix finSumFinEquiv.symm id, (Matrix.submatrix_mul_equiv mo y id finSumFinEquiv.symm id).symm⟩

private theorem span_flat {I : Type} {x : Matrix (Fin a) I ℝ} {mo : Matrix (Fin a) (Fin o ⊕ Fin w) ℝ} (h : SpannedBy x (flat mo)) : SpannedBy x mo := by
  obtain ⟨y, rfl⟩ := h
  refine ⟨y.submatrix finSumFinEquiv id, ?_⟩
  have := Matrix.submatrix_mul_equiv mo (y.submatrix finSumFinEquiv id) id finSumFinEquiv.symm id
  rw [submatrix_submatrix] at this
  have e : (fun i => finSumFinEquiv ((finSumFinEquiv (m := o) (n := w)).symm i)) = (id : Fin (o + w) → Fin (o + w)) := by funext i; exact Equiv.apply_symm_apply _ _
  rw [show (⇑(finSumFinEquiv (m := o) (n := w)) ∘ ⇑finSumFinEquiv.symm) = id from e] at this
  exact this

private theorem span_trans {I J K : Type} [Fintype J] [Fintype K] {x : Matrix (Fin a) I ℝ} {y : Matrix (Fin a) J ℝ} {z : Matrix (Fin a) K ℝ} (h : SpannedBy x y) (h' : SpannedBy y z) : SpannedBy x z := by
  obtain ⟨p, rfl⟩ := h
  obtain ⟨q, rfl⟩ := h'
  exact ⟨q * p, Matrix.mul_assoc _ _ _⟩

/-- The new virtual orbitals exist, and complete the occupied ones. -/
private theorem virtuals (eigh : Matrix (Fin (o + w)) (Fin (o + w)) ℝ → Eig (Fin (o + w)) ℝ) (he : SolvesSorted eigh) (s : Matrix (Fin a) (Fin a) ℝ) (hs : sᵀ = s)
    (c : Matrix (Fin a) (Fin (o + w)) ℝ) (hc : cᵀ * s * c = 1) (b : Matrix (Fin a) (Fin o) ℝ) (hb : OrthonormalIn s b) (hbc : SpannedBy b c) :
    (∀ k : Fin (o + w), (eigh (cᵀ * s * b * (cᵀ * s * b)ᵀ)).val k = if k.1 < w then 0 else 1)
      ∧ OrthonormalIn s (fromCols b (headCols (c * (eigh (cᵀ * s * b * (cᵀ * s * b)ᵀ)).vec) w)) := by
  obtain ⟨y, hy⟩ := hbc
  have hr : cᵀ * s * b = y := by rw [hy, ← Matrix.mul_assoc, hc, Matrix.one_mul]
  have hyy : yᵀ * y = 1 := by
    unfold OrthonormalIn at hb
    have : bᵀ * s * b = yᵀ * (cᵀ * s * c) * y := by rw [hy, transpose_mul]; simp only [Matrix.mul_assoc]
    rw [this, hc, Matrix.mul_one] at hb
    exact hb
  rw [hr]
  have hq : (y * yᵀ) * (y * yᵀ) = y * yᵀ := by rw [Matrix.mul_assoc, ← Matrix.mul_assoc yᵀ, hyy, Matrix.one_mul]
  have hqt : (y * yᵀ)ᵀ = y * yᵀ := by rw [transpose_mul, transpose_transpose]
  have hg := he.1 _ hqt
  have hasc := he.2 (y * yᵀ)
  generalize eigh (y * yᵀ) = g at hg hasc
  have h01 := proj_values _ hq g hg
  have hsum : ∑ k, g.val (Fin.rev k) = (o : ℝ) := by
    have h1 : ∑ k, g.val (Fin.rev k) = ∑ k, g.val k := Equiv.sum_comp Fin.revPerm g.val
    have h2 : y * yᵀ = g.vec * diagonal g.val * g.vecᵀ := by rw [← hg.2, Matrix.mul_assoc, mul_eq_one_comm.1 hg.1, Matrix.mul_one]
    have h3 := congrArg Matrix.trace h2
    rw [Matrix.trace_mul_comm, hyy, Matrix.trace_mul_comm, ← Matrix.mul_assoc, hg.1, Matrix.one_mul, trace_diagonal, trace_one, Fintype.card_fin] at h3
    rw [h1, ← h3]
  have hd := descending_zero_one (fun k => g.val (Fin.rev k)) (fun i j hij => hasc _ _ (Fin.rev_le_rev.2 hij)) (fun k => h01 _) o hsum
  have hval : ∀ k : Fin (o + w), g.val k = if k.1 < w then 0 else 1 := by
    intro k
    have h := hd (Fin.rev k)
    rw [Fin.rev_rev] at h
    rw [h]
    have h1 : (Fin.rev k).1 = o + w - (k.1 + 1) := Fin.val_rev k
    have h2 := k.2
    by_cases hk : k.1 < w
    · rw [if_pos hk, if_neg (by omega)]
    · rw [if_neg hk, if_pos (by omega)]
  refine ⟨hval, ?_⟩
  rw [headCols_eq (Nat.le_add_left w o)]
  set e : Fin w → Fin (o + w) := Fin.castLE (Nat.le_add_left w o) with hedef
  have hcv : (c * g.vec)ᵀ * s * (c * g.vec) = 1 := by
    have : (c * g.vec)ᵀ * s * (c * g.vec) = g.vecᵀ * (cᵀ * s * c) * g.vec := by rw [transpose_mul]; simp only [Matrix.mul_assoc]
    rw [this, hc, Matrix.mul_one, hg.1]
  have horth := sub_gram s (c * g.vec) hcv e (Fin.castLE_injective _)
  -- occupied and virtual orbitals are orthogonal
  have hz : (yᵀ * g.vec).submatrix id e = 0 := by
    ext i j
    show (yᵀ * g.vec) i (e j) = 0
    have h1 : (yᵀ * g.vec)ᵀ * (yᵀ * g.vec) = diagonal g.val := by
      have : (yᵀ * g.vec)ᵀ * (yᵀ * g.vec) = g.vecᵀ * (y * yᵀ * g.vec) := by rw [transpose_mul, transpose_transpose]; simp only [Matrix.mul_assoc]
      rw [this, hg.2, ← Matrix.mul_assoc, hg.1, Matrix.one_mul]
    have h2 := congrFun (congrFun h1 (e j)) (e j)
    rw [diagonal_apply_eq, hval, if_pos (show (e j).1 < w from j.2), Matrix.mul_apply] at h2
    have h3 : ∑ i, (yᵀ * g.vec) i (e j) ^ 2 = 0 := by
      rw [← h2]; exact Finset.sum_congr rfl fun i _ => by rw [transpose_apply, sq]
    have := (Finset.sum_eq_zero_iff_of_nonneg (fun i _ => sq_nonneg _)).1 h3 i (Finset.mem_univ i)
    exact pow_eq_zero_iff (by norm_num) |>.1 this
  have hbv : bᵀ * s * ((c * g.vec).submatrix id e) = 0 := by
    have h1 : bᵀ * s * ((c * g.vec).submatrix id e) = (bᵀ * s * (c * g.vec)).submatrix id e := rfl
    have h2 : bᵀ * s * (c * g.vec) = yᵀ * g.vec := by
      rw [hy, transpose_mul]
      calc yᵀ * cᵀ * s * (c * g.vec) = yᵀ * (cᵀ * s * c) * g.vec := by simp only [Matrix.mul_assoc]
        _ = _ := by rw [hc, Matrix.mul_one]
    rw [h1, h2, hz]
  have hvb : ((c * g.vec).submatrix id e)ᵀ * s * b = 0 := by
    have := congrArg transpose hbv
    rw [transpose_mul, transpose_mul, transpose_transpose, hs, transpose_zero, ← Matrix.mul_assoc] at this
    exact this
  unfold OrthonormalIn at hb ⊢
  rw [transpose_fromCols, fromRows_mul, fromRows_mul_fromCols, hb, hbv, hvb, horth, fromBlocks_one]

/-- The extrapolation keeps matrices symmetric. -/
def KeepsSymmetric {n : Nat} (d : Diis n) : Prop := ∀ x, xᵀ = x → (d.update x)ᵀ = d.update x

/-- Occupied orbitals before completion. -/
private theorem occupied (geigh : Matrix (Fin a) (Fin a) ℝ → Matrix (Fin a) (Fin a) ℝ → Eig (Fin a) ℝ) (eigh : Matrix (Fin (o + w)) (Fin (o + w)) ℝ → Eig (Fin (o + w)) ℝ)
    (he : SolvesSorted eigh) (diis : Option (Diis (o + w))) (hd : ∀ d, diis = some d → KeepsSymmetric d) (damping : ℝ) (s : Matrix (Fin a) (Fin a) ℝ) (hs : sᵀ = s)
    (hg : SolvesType2 geigh s) (mo : Matrix (Fin a) (Fin o ⊕ Fin w) ℝ) (hmo : OrthonormalIn s mo) (orig : Matrix (Fin a) (Fin (o + w)) ℝ) (ho : OrthonormalIn s orig)
    (hso : SpannedBy orig mo) (t1 : Matrix (Fin o) (Fin w) ℝ) :
    OrthonormalIn s (brOrth geigh eigh diis s orig (brOcc damping mo t1)) ∧ SpannedBy (brOrth geigh eigh diis s orig (brOcc damping mo t1)) mo := by
  obtain ⟨h1, h2, -⟩ := orth_space geigh s hs hg (brOcc damping mo t1) (brOcc_gram hmo damping t1)
  have hbs : SpannedBy (brOcc damping mo t1) mo := by
    refine ⟨fromRows 1 ((1 - damping) • t1ᵀ), ?_⟩
    conv_rhs => rw [← fromCols_toCols mo]
    rw [fromCols_mul_fromRows, Matrix.mul_one, Matrix.mul_smul]
    rfl
  have hdef : OrthonormalIn s (tailCols (geigh (brOcc damping mo t1 * (brOcc damping mo t1)ᵀ) s).vec o)
      ∧ SpannedBy (tailCols (geigh (brOcc damping mo t1 * (brOcc damping mo t1)ᵀ) s).vec o) mo := ⟨h1, span_trans h2 hbs⟩
  unfold brOrth
  dsimp only
  rcases diis with - | ⟨obj, update⟩
  · exact hdef
  · cases obj with
    | t1 => exact hdef
    | other => exact hdef
    | dm1 =>
      dsimp only
      generalize tailCols (geigh (brOcc damping mo t1 * (brOcc damping mo t1)ᵀ) s).vec o = b
      have hsym := hd _ rfl ((s * orig)ᵀ * (b * bᵀ) * (s * orig)) (by simp only [transpose_mul, transpose_transpose, Matrix.mul_assoc])
      have hv := he.1 _ hsym
      rw [show (Diis.mk DiisObj.dm1 update).update = update from rfl] at hv
      generalize eigh (update ((s * orig)ᵀ * (b * bᵀ) * (s * orig))) = g at hv
      have hov : (orig * g.vec)ᵀ * s * (orig * g.vec) = 1 := by
        unfold OrthonormalIn at ho
        have : (orig * g.vec)ᵀ * s * (orig * g.vec) = g.vecᵀ * (origᵀ * s * orig) * g.vec := by rw [transpose_mul]; simp only [Matrix.mul_assoc]
        rw [this, ho, Matrix.mul_one, hv.1]
      rw [tailCols_eq (Nat.le_add_right o w)]
      refine ⟨sub_gram s _ hov _ fun i j hij => ?_, span_trans ⟨g.vec.submatrix id fun j : Fin o => ⟨o + w - o + j.1, tail_index (Nat.le_add_right o w) j⟩, rfl⟩ hso⟩
      have := congrArg Fin.val hij
      exact Fin.ext (by simpa using this)

/-- Signs do not matter. -/
private theorem fixSign_occ (b : Matrix (Fin a) (Fin o) ℝ) (v : Matrix (Fin a) (Fin w) ℝ) : ∃ d : Fin o ⊕ Fin w → ℝ, (∀ j, d j * d j = 1) ∧ fixSign (fromCols b v) = fromCols b v * diagonal d
    ∧ (fixSign (fromCols b v)).toCols₁ = b * diagonal (fun j => d (.inl j)) := by
  refine ⟨colSign (fromCols b v), fun j => ?_, ?_, ?_⟩
  · unfold colSign; split <;> ring
  · ext i j; rw [mul_diagonal]; rfl
  · ext i j; rw [mul_diagonal]; rfl

/-- The result of an update. -/
private theorem update_eq (geigh : Matrix (Fin a) (Fin a) ℝ → Matrix (Fin a) (Fin a) ℝ → Eig (Fin a) ℝ) (eigh : Matrix (Fin (o + w)) (Fin (o + w)) ℝ → Eig (Fin (o + w)) ℝ)
    (he : SolvesSorted eigh) (diis : Option (Diis (o + w))) (hd : ∀ d, diis = some d → KeepsSymmetric d) (damping : ℝ) (s : Matrix (Fin a) (Fin a) ℝ) (hs : sᵀ = s)
    (hg : SolvesType2 geigh s) (mo : Matrix (Fin a) (Fin o ⊕ Fin w) ℝ) (hmo : OrthonormalIn s mo) (orig : Matrix (Fin a) (Fin (o + w)) ℝ) (ho : OrthonormalIn s orig)
    (hso : SpannedBy orig mo) (h0 : 0 < o) (t1 : Matrix (Fin o) (Fin w) ℝ) :
    ∃ v, bruecknerUpdate geigh eigh diis damping s mo orig t1 = .ok (fixSign (fromCols (brOrth geigh eigh diis s orig (brOcc damping mo (brT1 diis s mo orig t1))) v))
      ∧ OrthonormalIn s (fromCols (brOrth geigh eigh diis s orig (brOcc damping mo (brT1 diis s mo orig t1))) v) ∧ SpannedBy v mo := by
  obtain ⟨h1, h2⟩ := occupied geigh eigh he diis hd damping s hs hg mo hmo orig ho hso (brT1 diis s mo orig t1)
  unfold bruecknerUpdate
  dsimp only
  generalize brOrth geigh eigh diis s orig (brOcc damping mo (brT1 diis s mo orig t1)) = b at h1 h2
  obtain ⟨h3, h4⟩ := virtuals eigh he s hs (flat mo) (flat_orth hmo) b h1 (flat_span h2)
  rw [if_neg h0.ne']
  rw [show mo.submatrix id finSumFinEquiv.symm = flat mo from rfl]
  rw [if_pos (fun k hk => by rw [h3, if_pos hk]; norm_num), if_pos (fun k hk => by rw [h3, if_neg (by omega)]; norm_num)]
  refine ⟨_, rfl, h4, span_flat ?_⟩
  rw [headCols_eq (Nat.le_add_left w o)]
  exact ⟨_, rfl⟩

/-- An update with occupied orbitals always succeeds, and gives orthonormal orbitals spanning the same space, with or without extrapolation. -/
theorem brueckner_orthonormal (geigh : Matrix (Fin a) (Fin a) ℝ → Matrix (Fin a) (Fin a) ℝ → Eig (Fin a) ℝ) (eigh : Matrix (Fin (o + w)) (Fin (o + w)) ℝ → Eig (Fin (o + w)) ℝ)
    (he : SolvesSorted eigh) (diis : Option (Diis (o + w))) (hd : ∀ d, diis = some d → KeepsSymmetric d) (damping : ℝ) (s : Matrix (Fin a) (Fin a) ℝ) (hs : sᵀ = s)
    (hg : SolvesType2 geigh s) (mo : Matrix (Fin a) (Fin o ⊕ Fin w) ℝ) (hmo : OrthonormalIn s mo) (orig : Matrix (Fin a) (Fin (o + w)) ℝ) (ho : OrthonormalIn s orig)
    (hso : SpannedBy orig mo) (h0 : 0 < o) (t1 : Matrix (Fin o) (Fin w) ℝ) :
    ∃ c, bruecknerUpdate geigh eigh diis damping s mo orig t1 = .ok c ∧ OrthonormalIn s c ∧ SpannedBy c mo ∧ SpannedBy mo c := by
  obtain ⟨v, h1, h2, h3⟩ := update_eq geigh eigh he diis hd damping s hs hg mo hmo orig ho hso h0 t1
  obtain ⟨-, h4⟩ := occupied geigh eigh he diis hd damping s hs hg mo hmo orig ho hso (brT1 diis s mo orig t1)
  generalize brOrth geigh eigh diis s orig (brOcc damping mo (brT1 diis s mo orig t1)) = b at h1 h2 h4
  obtain ⟨d, hdd, h5, -⟩ := fixSign_occ b v
  have hdiag : diagonal d * diagonal d = 1 := by
    rw [diagonal_mul_diagonal]
    simp only [hdd]
    exact diagonal_one
  have hsp : SpannedBy (fixSign (fromCols b v)) mo := by
    obtain ⟨y, hy⟩ := h4
    obtain ⟨z, hz⟩ := h3
    refine ⟨fromCols y z * diagonal d, ?_⟩
    rw [h5, ← Matrix.mul_assoc, mul_fromCols, ← hy, ← hz]
  have hon : OrthonormalIn s (fixSign (fromCols b v)) := by
    unfold OrthonormalIn at h2 ⊢
    rw [h5, transpose_mul, diagonal_transpose]
    calc diagonal d * (fromCols b v)ᵀ * s * (fromCols b v * diagonal d) = diagonal d * ((fromCols b v)ᵀ * s * fromCols b v) * diagonal d := by simp only [Matrix.mul_assoc]
      _ = 1 := by rw [h2, Matrix.mul_one, hdiag]
  refine ⟨_, h1, hon, hsp, ?_⟩
  obtain ⟨u, hu⟩ := hsp
  have huu : uᵀ * u = 1 := by
    unfold OrthonormalIn at hon hmo
    rw [hu, transpose_mul] at hon
    have : uᵀ * moᵀ * s * (mo * u) = uᵀ * (moᵀ * s * mo) * u := by simp only [Matrix.mul_assoc]
    rw [this, hmo, Matrix.mul_one] at hon
    exact hon
  exact ⟨uᵀ, by rw [hu, Matrix.mul_assoc, mul_eq_one_comm.1 huu, Matrix.mul_one]⟩

/-- Without extrapolation, the new occupied space is the space of the occupied orbitals rotated by the amplitudes, reduced by damping: occupied orbital
`i` plus `(1 - damping) t_ia` times virtual orbital `a`. -/
theorem brueckner_space (geigh : Matrix (Fin a) (Fin a) ℝ → Matrix (Fin a) (Fin a) ℝ → Eig (Fin a) ℝ) (eigh : Matrix (Fin (o + w)) (Fin (o + w)) ℝ → Eig (Fin (o + w)) ℝ)
    (he : SolvesSorted eigh) (damping : ℝ) (s : Matrix (Fin a) (Fin a) ℝ) (hs : sᵀ = s)
    (hg : SolvesType2 geigh s) (mo : Matrix (Fin a) (Fin o ⊕ Fin w) ℝ) (hmo : OrthonormalIn s mo) (orig : Matrix (Fin a) (Fin (o + w)) ℝ) (ho : OrthonormalIn s orig)
    (hso : SpannedBy orig mo) (h0 : 0 < o) (t1 : Matrix (Fin o) (Fin w) ℝ) (c : Matrix (Fin a) (Fin o ⊕ Fin w) ℝ)
    (h : bruecknerUpdate geigh eigh none damping s mo orig t1 = .ok c) (rotated : Matrix (Fin a) (Fin o) ℝ)
    (hr : ∀ x i, rotated x i = mo x (.inl i) + ∑ k, (1 - damping) * t1 i k * mo x (.inr k)) :
    SpannedBy c.toCols₁ rotated ∧ SpannedBy rotated c.toCols₁ := by
  obtain ⟨v, h1, -, -⟩ := update_eq geigh eigh he none (fun _ h => by cases h) damping s hs hg mo hmo orig ho hso h0 t1
  rw [h] at h1
  have hc := Except.ok.inj h1
  have hrot : rotated = brOcc damping mo t1 := by
    ext x i
    rw [hr]
    show _ = mo x (.inl i) + (1 - damping) * (mo.toCols₂ * t1ᵀ) x i
    rw [Matrix.mul_apply, Finset.mul_sum]
    congr 1
    refine Finset.sum_congr rfl fun k _ => ?_
    rw [transpose_apply]
    show _ = (1 - damping) * (mo x (.inr k) * t1 i k)
    ring
  have hb : brOrth geigh eigh none s orig (brOcc damping mo (brT1 none s mo orig t1)) = tailCols (geigh (rotated * rotatedᵀ) s).vec o := by rw [hrot]; rfl
  rw [hb] at hc
  obtain ⟨-, h2, h3⟩ := orth_space geigh s hs hg rotated (by rw [hrot]; exact brOcc_gram hmo damping t1)
  generalize tailCols (geigh (rotated * rotatedᵀ) s).vec o = b at hc h2 h3
  obtain ⟨d, hdd, -, h5⟩ := fixSign_occ b v
  rw [hc, h5]
  have hdiag : (diagonal fun j => d (.inl j)) * (diagonal fun j => d (.inl j)) = (1 : Matrix (Fin o) (Fin o) ℝ) := by
    rw [diagonal_mul_diagonal]
    simp only [hdd]
    exact diagonal_one
  exact ⟨span_trans ⟨_, rfl⟩ h2, span_trans h3 ⟨diagonal fun j => d (.inl j), by rw [Matrix.mul_assoc, hdiag, Matrix.mul_one]⟩⟩

/-- Orthonormal orbitals spanning the same space have the same density matrix. -/
private theorem same_density {s : Matrix (Fin a) (Fin a) ℝ} {x y : Matrix (Fin a) (Fin o) ℝ} (hx : xᵀ * s * x = 1) (hy : yᵀ * s * y = 1) (h : SpannedBy x y) : x * xᵀ = y * yᵀ := by
  obtain ⟨u, rfl⟩ := h
  have hu : uᵀ * u = 1 := by
    have : (y * u)ᵀ * s * (y * u) = uᵀ * (yᵀ * s * y) * u := by rw [transpose_mul]; simp only [Matrix.mul_assoc]
    rw [this, hy, Matrix.mul_one] at hx
    exact hx
  rw [transpose_mul]
  calc y * u * (uᵀ * yᵀ) = y * (u * uᵀ) * yᵀ := by simp only [Matrix.mul_assoc]
    _ = _ := by rw [mul_eq_one_comm.1 hu, Matrix.mul_one]

/-- The determinant is stationary if and only if it consists of Brueckner orbitals, with vanishing single amplitudes (or damping is full). -/
theorem brueckner_fixed_point (geigh : Matrix (Fin a) (Fin a) ℝ → Matrix (Fin a) (Fin a) ℝ → Eig (Fin a) ℝ) (eigh : Matrix (Fin (o + w)) (Fin (o + w)) ℝ → Eig (Fin (o + w)) ℝ)
    (he : SolvesSorted eigh) (damping : ℝ) (s : Matrix (Fin a) (Fin a) ℝ) (hs : sᵀ = s)
    (hg : SolvesType2 geigh s) (mo : Matrix (Fin a) (Fin o ⊕ Fin w) ℝ) (hmo : OrthonormalIn s mo) (orig : Matrix (Fin a) (Fin (o + w)) ℝ) (ho : OrthonormalIn s orig)
    (hso : SpannedBy orig mo) (h0 : 0 < o) (t1 : Matrix (Fin o) (Fin w) ℝ) (c : Matrix (Fin a) (Fin o ⊕ Fin w) ℝ)
    (h : bruecknerUpdate geigh eigh none damping s mo orig t1 = .ok c) : density c = density mo ↔ t1 = 0 ∨ damping = 1 := by
  obtain ⟨c', h1, h2, h3, -⟩ := brueckner_orthonormal geigh eigh he none (fun _ h => by cases h) damping s hs hg mo hmo orig ho hso h0 t1
  rw [h] at h1
  obtain rfl := Except.ok.inj h1
  obtain ⟨r1, r2⟩ := brueckner_space geigh eigh he damping s hs hg mo hmo orig ho hso h0 t1 c h (brOcc damping mo t1) (fun x i => by
    show mo x (.inl i) + (1 - damping) * (mo.toCols₂ * t1ᵀ) x i = _
    rw [Matrix.mul_apply, Finset.mul_sum]
    congr 1
    refine Finset.sum_congr rfl fun k _ => ?_
    rw [transpose_apply]
    show (1 - damping) * (mo x (.inr k) * t1 i k) = _
    ring)
  obtain ⟨c1, -, -, -⟩ := parts h2
  obtain ⟨m1, m2, m3, m4⟩ := parts hmo
  constructor
  · intro hd
    have hz : (1 - damping) • t1ᵀ = 0 := by
      obtain ⟨y, hy⟩ := r2
      have e1 : mo.toCols₂ᵀ * s * brOcc damping mo t1 = (1 - damping) • t1ᵀ := by
        show mo.toCols₂ᵀ * s * (mo.toCols₁ + (1 - damping) • (mo.toCols₂ * t1ᵀ)) = _
        rw [Matrix.mul_add, m3, zero_add, Matrix.mul_smul, ← Matrix.mul_assoc, m4, Matrix.one_mul]
      rw [← e1, hy]
      -- occupied orbitals are orthogonal to the old virtual ones
      have e2 : c.toCols₁ = mo.toCols₁ * (mo.toCols₁ᵀ * s * c.toCols₁) := by
        calc c.toCols₁ = c.toCols₁ * (c.toCols₁ᵀ * s * c.toCols₁) := by rw [c1, Matrix.mul_one]
          _ = density c * s * c.toCols₁ := by unfold density; simp only [Matrix.mul_assoc]
          _ = mo.toCols₁ * (mo.toCols₁ᵀ * s * c.toCols₁) := by rw [hd]; unfold density; simp only [Matrix.mul_assoc]
      rw [e2, Matrix.mul_assoc mo.toCols₁, ← Matrix.mul_assoc, m3, Matrix.zero_mul]
    rcases smul_eq_zero.1 hz with h | h
    · right; linarith
    · left; rw [← transpose_transpose t1, h, transpose_zero]
  · intro hd
    have hb : brOcc damping mo t1 = mo.toCols₁ := by
      show mo.toCols₁ + (1 - damping) • (mo.toCols₂ * t1ᵀ) = _
      rcases hd with h | h
      · rw [h, transpose_zero, Matrix.mul_zero, smul_zero, add_zero]
      · rw [h, sub_self, zero_smul, add_zero]
    rw [hb] at r1
    exact same_density c1 m1 r1

/-- Without occupied orbitals of one spin there is no update. -/
theorem brueckner_no_occupied {o' w' : Nat} (geigh : Matrix (Fin a) (Fin a) ℝ → Matrix (Fin a) (Fin a) ℝ → Eig (Fin a) ℝ)
    (eigha : Matrix (Fin (o + w)) (Fin (o + w)) ℝ → Eig (Fin (o + w)) ℝ) (eighb : Matrix (Fin (o' + w')) (Fin (o' + w')) ℝ → Eig (Fin (o' + w')) ℝ)
    (diisa : Option (Diis (o + w))) (diisb : Option (Diis (o' + w'))) (damping : ℝ) (s : Matrix (Fin a) (Fin a) ℝ)
    (mo : Matrix (Fin a) (Fin o ⊕ Fin w) ℝ × Matrix (Fin a) (Fin o' ⊕ Fin w') ℝ) (orig : Matrix (Fin a) (Fin (o + w)) ℝ × Matrix (Fin a) (Fin (o' + w')) ℝ)
    (t1 : Matrix (Fin o) (Fin w) ℝ × Matrix (Fin o') (Fin w') ℝ) (h : o = 0 ∨ o' = 0) :
    ∃ e, bruecknerUpdateU geigh eigha eighb diisa diisb damping s mo orig t1 = .error e := by
  unfold bruecknerUpdateU
  cases ha : bruecknerUpdate geigh eigha diisa damping s mo.1 orig.1 t1.1 with
  | error e => exact ⟨e, rfl⟩
  | ok c =>
    rcases h with h | h
    · unfold bruecknerUpdate at ha
      dsimp only at ha
      rw [if_pos h] at ha
      cases ha
    · have hb : bruecknerUpdate geigh eighb diisb damping s mo.2 orig.2 t1.2 = .error .assertionError := by
        unfold bruecknerUpdate
        dsimp only
        rw [if_pos h]
      exact ⟨_, by show (bruecknerUpdate geigh eighb diisb damping s mo.2 orig.2 t1.2 >>= _) = _; rw [hb]; rfl⟩

/-- The hypotheses are met by two orthonormal orbitals and any amplitude. -/
example (t : ℝ) : ∃ c : Matrix (Fin 2) (Fin 1 ⊕ Fin 1) ℝ, ∃ (mo : Matrix (Fin 2) (Fin 1 ⊕ Fin 1) ℝ) (orig : Matrix (Fin 2) (Fin (1 + 1)) ℝ),
    bruecknerUpdate (fun d _ => sortedEigh 2 d) (sortedEigh 2) none 0 1 mo orig (Matrix.of fun _ _ => t) = .ok c ∧ (density c = density mo ↔ t = 0) := by
  let mo : Matrix (Fin 2) (Fin 1 ⊕ Fin 1) ℝ := (1 : Matrix (Fin 2) (Fin 2) ℝ).submatrix id finSumFinEquiv
  have hmo : OrthonormalIn (1 : Matrix (Fin 2) (Fin 2) ℝ) mo := by
    unfold OrthonormalIn
    rw [Matrix.mul_one]
    ext i j
    rw [Matrix.mul_apply]
    show ∑ k, (1 : Matrix (Fin 2) (Fin 2) ℝ) k (finSumFinEquiv i) * (1 : Matrix (Fin 2) (Fin 2) ℝ) k (finSumFinEquiv j) = _
    rcases i with i | i <;> rcases j with j | j <;> fin_cases i <;> fin_cases j <;> simp [Fin.sum_univ_two, finSumFinEquiv, Matrix.one_apply]
  have ho : OrthonormalIn (1 : Matrix (Fin 2) (Fin 2) ℝ) (1 : Matrix (Fin 2) (Fin (1 + 1)) ℝ) := by unfold OrthonormalIn; rw [Matrix.mul_one, transpose_one]; exact Matrix.mul_one _
  have hso : SpannedBy (1 : Matrix (Fin 2) (Fin (1 + 1)) ℝ) mo := by
    refine ⟨(1 : Matrix (Fin 2) (Fin 2) ℝ).submatrix finSumFinEquiv id, ?_⟩
    have := Matrix.submatrix_mul_equiv (1 : Matrix (Fin 2) (Fin 2) ℝ) (1 : Matrix (Fin 2) (Fin 2) ℝ) id (finSumFinEquiv (m := 1) (n := 1)) id
    rw [Matrix.mul_one] at this
    exact this.symm
  have hg : SolvesType2 (fun d _ => sortedEigh 2 d) (1 : Matrix (Fin 2) (Fin 2) ℝ) := by
    intro d hd
    obtain ⟨h1, h2⟩ := sortedEigh_solves 2 d hd
    rw [Matrix.mul_one, Matrix.mul_one]
    exact ⟨h1, h2, sortedEigh_ascending 2 d⟩
  obtain ⟨c, h1, -⟩ := brueckner_orthonormal (fun d _ => sortedEigh 2 d) (sortedEigh 2) sortedEigh_sorted none (fun _ h => by cases h) 0 1 transpose_one hg mo hmo 1 ho hso
    one_pos (Matrix.of fun _ _ => t)
  refine ⟨c, mo, 1, h1, ?_⟩
  rw [brueckner_fixed_point (fun d _ => sortedEigh 2 d) (sortedEigh 2) sortedEigh_sorted 0 1 transpose_one hg mo hmo 1 ho hso one_pos _ c h1]
  constructor
  · rintro (h | h)
    · exact congrFun (congrFun h 0) 0
    · norm_num at h
  · rintro rfl; left; rfl

end Vayesta.Props
