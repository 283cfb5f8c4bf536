import Verif.Props.Lowdin
import Verif.Model.BathCluster
import Mathlib.Data.Fin.Tuple.Sort
import Mathlib.Analysis.InnerProductSpace.PiL2

/-! Singular value decompositions and sorted eigenvalue decompositions exist for real matrices. -/

namespace Vayesta.Props

open Vayesta.Lowdin Vayesta.BathCluster Matrix

variable {K : Type} [Field K] [LinearOrder K]

/-- A singular value decomposition of `m`: orthogonal matrices, singular values in descending order. -/
structure IsSvd {p q : Nat} (m : Matrix (Fin p) (Fin q) K) (g : Svd p q K) : Prop where
  u_orth : g.uᵀ * g.u = 1
  vh_orth : g.vh * g.vhᵀ = 1
  len : g.s.length = min p q
  sorted : g.s.Pairwise fun x y => y ≤ x
  nonneg : ∀ x ∈ g.s, 0 ≤ x
  eq : ∀ i j, (m * g.vhᵀ) i j = if h : j.1 < p then g.u i ⟨j.1, h⟩ * g.s.getD j.1 0 else 0

/-- A right solver. -/
def SolvesSvd (svd : (p q : Nat) → Matrix (Fin p) (Fin q) K → Svd p q K) : Prop := ∀ p q m, IsSvd m (svd p q m)

/-- Eigenvalues in ascending order. -/
def Ascending {n : Nat} (g : Eig (Fin n) K) : Prop := ∀ i j, i ≤ j → g.val i ≤ g.val j

/-- An eigenvalue solver for real symmetric matrices with eigenvalues in ascending order. -/
noncomputable def sortedEigh (d : Nat) (m : Matrix (Fin d) (Fin d) ℝ) : Eig (Fin d) ℝ :=
  let g := realEigh d m
  ⟨g.val ∘ Tuple.sort g.val, g.vec.submatrix id (Tuple.sort g.val)⟩

theorem sortedEigh_ascending (d : Nat) (m : Matrix (Fin d) (Fin d) ℝ) : Ascending (sortedEigh d m) := fun _ _ h => Tuple.monotone_sort (realEigh d m).val h

theorem sortedEigh_solves (d : Nat) : SolvesEigh (sortedEigh d) := by
  intro m hm
  obtain ⟨h1, h2⟩ := realEigh_solves d m hm
  unfold sortedEigh
  generalize realEigh d m = g at h1 h2
  dsimp only
  generalize Tuple.sort g.val = σ
  constructor
  · ext i j
    have := congrFun (congrFun h1 (σ i)) (σ j)
    rw [Matrix.mul_apply, one_apply] at this ⊢
    simp only [transpose_apply, submatrix_apply, id_eq, EmbeddingLike.apply_eq_iff_eq] at this ⊢
    exact this
  · ext i j
    have := congrFun (congrFun h2 i) (σ j)
    rw [mul_diagonal, Matrix.mul_apply] at this
    rw [mul_diagonal, Matrix.mul_apply]
    exact this

/-- Gram matrix of the images of the eigenvectors. -/
private theorem image_gram {p q : Nat} (m : Matrix (Fin p) (Fin q) ℝ) (g : Eig (Fin q) ℝ) (hg : IsEigh (mᵀ * m) g) (k l : Fin q) :
    ∑ i, (m * g.vec) i k * (m * g.vec) i l = if k = l then g.val k else 0 := by
  have h : (m * g.vec)ᵀ * (m * g.vec) = diagonal g.val := by
    rw [transpose_mul, Matrix.mul_assoc, ← Matrix.mul_assoc mᵀ, hg.2, ← Matrix.mul_assoc, hg.1, Matrix.one_mul]
  have := congrFun (congrFun h k) l
  rw [Matrix.mul_apply, diagonal_apply] at this
  exact this

theorem svd_exists {p q : Nat} (m : Matrix (Fin p) (Fin q) ℝ) : ∃ g : Svd p q ℝ, IsSvd m g := by
  have hsym : (mᵀ * m)ᵀ = mᵀ * m := by rw [transpose_mul, transpose_transpose]
  have hg0 := sortedEigh_solves q (mᵀ * m) hsym
  have ha0 := sortedEigh_ascending q (mᵀ * m)
  generalize sortedEigh q (mᵀ * m) = g0 at hg0 ha0
  obtain ⟨g, hg, hdesc⟩ : ∃ g : Eig (Fin q) ℝ, IsEigh (mᵀ * m) g ∧ ∀ i j, i ≤ j → g.val j ≤ g.val i := by
    refine ⟨⟨fun k => g0.val k.rev, Matrix.of fun i k => g0.vec i k.rev⟩, ⟨?_, ?_⟩, fun i j hij => ha0 _ _ (Fin.rev_le_rev.mpr hij)⟩
    · ext i j
      have := congrFun (congrFun hg0.1 i.rev) j.rev
      rw [Matrix.mul_apply, one_apply] at this ⊢
      simp only [transpose_apply, of_apply, Fin.rev_inj] at this ⊢
      exact this
    · ext i j
      have := congrFun (congrFun hg0.2 i) j.rev
      rw [mul_diagonal, Matrix.mul_apply] at this
      rw [mul_diagonal, Matrix.mul_apply]
      exact this
  have hgram := image_gram m g hg
  have hnn : ∀ k, 0 ≤ g.val k := by
    intro k
    have := hgram k k
    rw [if_pos rfl] at this
    rw [← this]
    exact Finset.sum_nonneg fun i _ => mul_self_nonneg _
  have hzero : ∀ k, g.val k = 0 → ∀ i, (m * g.vec) i k = 0 := by
    intro k hk i
    have := hgram k k
    rw [if_pos rfl, hk, Finset.sum_eq_zero_iff_of_nonneg fun i _ => mul_self_nonneg _] at this
    exact mul_self_eq_zero.mp (this i (Finset.mem_univ _))
  have hon : ∀ {ι : Type} (f : ι → Fin q), Function.Injective f → (∀ x, 0 < g.val (f x)) →
      Orthonormal ℝ fun x => (WithLp.toLp 2 fun i => (m * g.vec) i (f x) / √(g.val (f x)) : EuclideanSpace ℝ (Fin p)) := by
    intro ι f hf hpos
    classical
    rw [orthonormal_iff_ite]
    intro x y
    rw [PiLp.inner_apply]
    have hx := (Real.sqrt_pos.mpr (hpos x)).ne'
    have hy := (Real.sqrt_pos.mpr (hpos y)).ne'
    have e : ∑ i, ((m * g.vec) i (f x) / √(g.val (f x))) * ((m * g.vec) i (f y) / √(g.val (f y))) =
        (if f x = f y then g.val (f x) else 0) / (√(g.val (f x)) * √(g.val (f y))) := by
      rw [← hgram, Finset.sum_div]
      refine Finset.sum_congr rfl fun i _ => ?_
      rw [div_mul_div_comm]
    have e2 : ∑ i, ((m * g.vec) i (f x) / √(g.val (f x))) * ((m * g.vec) i (f y) / √(g.val (f y))) = if x = y then 1 else 0 := by
      rw [e]
      by_cases hxy : x = y
      · subst hxy
        rw [if_pos rfl, if_pos rfl, Real.mul_self_sqrt (hpos x).le, div_self (hpos x).ne']
      · rw [if_neg (fun h => hxy (hf h)), if_neg hxy, zero_div]
    rw [← e2]
    refine Finset.sum_congr rfl fun i _ => ?_
    simp only [RCLike.inner_apply, conj_trivial]
    exact mul_comm _ _
  have htail : ∀ k : Fin q, p ≤ k.1 → g.val k = 0 := by
    intro k hk
    by_contra hne
    have hpos : ∀ x : Fin (p + 1), 0 < g.val ⟨x.1, by omega⟩ := fun x =>
      lt_of_lt_of_le (lt_of_le_of_ne (hnn k) (Ne.symm hne)) (hdesc _ _ (by rw [Fin.le_def]; simp only; omega))
    have hli := (hon (fun x : Fin (p + 1) => (⟨x.1, by omega⟩ : Fin q)) (fun x y h => by simpa [Fin.ext_iff] using h) hpos).linearIndependent
    have := hli.fintype_card_le_finrank
    rw [finrank_euclideanSpace, Fintype.card_fin, Fintype.card_fin] at this
    omega
  have hbasis : ∃ b : OrthonormalBasis (Fin p) ℝ (EuclideanSpace ℝ (Fin p)), ∀ j : Fin p, ∀ hj : j.1 < q, 0 < g.val ⟨j.1, hj⟩ →
      b j = (WithLp.toLp 2 fun i => (m * g.vec) i ⟨j.1, hj⟩ / √(g.val ⟨j.1, hj⟩) : EuclideanSpace ℝ (Fin p)) := by
    have h := Orthonormal.exists_orthonormalBasis_extension_of_card_eq (𝕜 := ℝ) (E := EuclideanSpace ℝ (Fin p)) (ι := Fin p) (by simp)
      (v := fun j => if hj : j.1 < q then (WithLp.toLp 2 fun i => (m * g.vec) i ⟨j.1, hj⟩ / √(g.val ⟨j.1, hj⟩) : EuclideanSpace ℝ (Fin p)) else 0)
      (s := {j | ∃ hj : j.1 < q, 0 < g.val ⟨j.1, hj⟩}) (by
        have := hon (fun x : {j : Fin p | ∃ hj : j.1 < q, 0 < g.val ⟨j.1, hj⟩} => (⟨x.1.1, x.2.1⟩ : Fin q))
          (fun x y h => by
            apply Subtype.ext; apply Fin.ext
            simpa [Fin.ext_iff] using h) (fun x => x.2.2)
        refine (congrArg (Orthonormal ℝ) (funext fun x => ?_)).mpr this
        simp only [Set.restrict_apply]
        rw [dif_pos x.2.1])
    obtain ⟨b, hb⟩ := h
    refine ⟨b, fun j hj hpos => ?_⟩
    rw [hb j ⟨hj, hpos⟩, dif_pos hj]
  obtain ⟨b, hb⟩ := hbasis
  refine ⟨⟨Matrix.of fun i j => b j i, List.ofFn fun k : Fin (min p q) => √(g.val ⟨k.1, by omega⟩), g.vecᵀ⟩, ?_, ?_, ?_, ?_, ?_, ?_⟩
  · ext i j
    have := orthonormal_iff_ite.mp b.orthonormal i j
    rw [PiLp.inner_apply] at this
    rw [Matrix.mul_apply, one_apply, ← this]
    refine Finset.sum_congr rfl fun k _ => ?_
    simp only [RCLike.inner_apply, conj_trivial, transpose_apply, of_apply]
    exact mul_comm _ _
  · rw [transpose_transpose]; exact hg.1
  · simp
  · rw [List.pairwise_ofFn]
    intro i j hij
    exact Real.sqrt_le_sqrt (hdesc _ _ (by rw [Fin.le_def]; exact hij.le))
  · intro x hx
    obtain ⟨k, rfl⟩ := List.mem_ofFn.mp hx
    exact Real.sqrt_nonneg _
  · intro i j
    rw [transpose_transpose]
    by_cases hj : j.1 < p
    · rw [dif_pos hj, List.getD_eq_getElem?_getD, List.getElem?_eq_getElem (by simp; omega), Option.getD_some, List.getElem_ofFn]
      show (m * g.vec) i j = b ⟨j.1, hj⟩ i * √(g.val j)
      by_cases hpos : 0 < g.val j
      · rw [hb ⟨j.1, hj⟩ j.2 hpos]
        exact (div_mul_cancel₀ _ (Real.sqrt_pos.mpr hpos).ne').symm
      · have h0 : g.val j = 0 := le_antisymm (not_lt.mp hpos) (hnn j)
        rw [hzero j h0]
        rw [h0, Real.sqrt_zero, mul_zero]
    · rw [dif_neg hj]
      exact hzero j (htail j (by omega)) i

/-- A singular value decomposition of real matrices. -/
noncomputable def realSvd (p q : Nat) (m : Matrix (Fin p) (Fin q) ℝ) : Svd p q ℝ := (svd_exists m).choose

theorem realSvd_solves : SolvesSvd realSvd := fun _ _ m => (svd_exists m).choose_spec

end Vayesta.Props
