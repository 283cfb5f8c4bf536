import Verif.Model.Lowdin
import Mathlib.LinearAlgebra.Matrix.NonsingularInverse
import Mathlib.LinearAlgebra.Matrix.Trace
import Mathlib.LinearAlgebra.Matrix.Notation
import Mathlib.Algebra.Field.Rat
import Mathlib.Algebra.Order.Ring.Rat
import Mathlib.Algebra.Order.Field.Basic
import Mathlib.Tactic.Linarith
import Mathlib.Tactic.LinearCombination
import Mathlib.Tactic.NoncommRing
import Mathlib.Tactic.FinCases
import Mathlib.Tactic.NormNum
import Mathlib.Analysis.Matrix.Spectrum
import Mathlib.Data.Real.Sqrt

/-! Orbitals of fragmentations are orthonormal and complete. -/

namespace Vayesta.Props

open Vayesta.Lowdin Matrix

variable {K : Type} [Field K] [LinearOrder K] [IsStrictOrderedRing K]

/-- Eigenvalues and orthonormal eigenvectors of a symmetric matrix. -/
def IsEigh {n : Type} [Fintype n] [DecidableEq n] (m : Matrix n n K) (g : Eig n K) : Prop :=
  g.vecᵀ * g.vec = 1 ∧ m * g.vec = g.vec * diagonal g.val

/-- A solver which is right for all symmetric matrices. -/
def SolvesEigh {d : Nat} (eigh : Matrix (Fin d) (Fin d) K → Eig (Fin d) K) : Prop := ∀ m : Matrix (Fin d) (Fin d) K, mᵀ = m → IsEigh m (eigh m)

/-- Square roots of positive numbers. -/
def IsSqrt (sqrt : K → K) : Prop := ∀ x, 0 < x → sqrt x * sqrt x = x

/-- Orthonormal with respect to the overlap `s`. -/
def OrthonormalIn {a : Nat} {J : Type} [DecidableEq J] (s : Matrix (Fin a) (Fin a) K) (c : Matrix (Fin a) J K) : Prop := cᵀ * s * c = 1

/-- All orbitals `c` are combinations of the orbitals `b`. -/
def SpannedBy {a : Nat} {I J : Type} [Fintype J] (c : Matrix (Fin a) I K) (b : Matrix (Fin a) J K) : Prop := ∃ y : Matrix J I K, c = b * y

omit [IsStrictOrderedRing K] in
private theorem colSign_sq {n : Nat} {J : Type} (c : Matrix (Fin n) J K) (j : J) : colSign c j * colSign c j = 1 := by
  unfold colSign; split <;> ring

omit [IsStrictOrderedRing K] in
private theorem fixSign_eq {n : Nat} {J : Type} [Fintype J] [DecidableEq J] (c : Matrix (Fin n) J K) : fixSign c = c * diagonal (colSign c) := by
  ext i j; rw [mul_diagonal]; rfl

omit [IsStrictOrderedRing K] in
private theorem sign_diag {n : Nat} {J : Type} [Fintype J] [DecidableEq J] (c : Matrix (Fin n) J K) : diagonal (colSign c) * diagonal (colSign c) = 1 := by
  rw [diagonal_mul_diagonal]
  simp only [colSign_sq]
  exact diagonal_one

omit [LinearOrder K] [IsStrictOrderedRing K] in
private theorem gram_mul {a : Nat} {I J : Type} [Fintype I] (s : Matrix (Fin a) (Fin a) K) (c : Matrix (Fin a) I K) (x : Matrix I J K) :
    (c * x)ᵀ * s * (c * x) = xᵀ * (cᵀ * s * c) * x := by
  simp only [transpose_mul, Matrix.mul_assoc]

omit [IsStrictOrderedRing K] in
private theorem invSqrt_eq {n : Nat} (sqrt : K → K) (tol : K) (g : Eig (Fin n) K) :
    invSqrt sqrt tol g = g.vec * diagonal (fun k => if tol ≤ g.val k then (sqrt (g.val k))⁻¹ else 0) * g.vecᵀ := by
  ext i j
  rw [Matrix.mul_apply]
  unfold invSqrt
  refine Finset.sum_congr rfl fun k _ => ?_
  rw [mul_diagonal, transpose_apply]
  split
  · rw [div_eq_mul_inv]
  · ring

/-- The Gram matrix after the transformation: the projector on the eigenvectors kept, up to signs. -/
private theorem gram_orth {a n : Nat} (sqrt : K → K) (hs : IsSqrt sqrt) (tol : K) (ht : 0 < tol) (s : Matrix (Fin a) (Fin a) K) (c : Matrix (Fin a) (Fin n) K)
    (g : Eig (Fin n) K) (hg : IsEigh (cᵀ * s * c) g) :
    let x := fixSign (invSqrt sqrt tol g)
    let d := diagonal (colSign (invSqrt sqrt tol g))
    (c * x)ᵀ * s * (c * x) = d * (g.vec * diagonal (fun k => if tol ≤ g.val k then 1 else 0) * g.vecᵀ) * d := by
  intro x d
  obtain ⟨h1, h2⟩ := hg
  have h1' : g.vec * g.vecᵀ = 1 := mul_eq_one_comm.mp h1
  have hm : cᵀ * s * c = g.vec * diagonal g.val * g.vecᵀ := by
    rw [← h2, Matrix.mul_assoc (cᵀ * s * c), h1', Matrix.mul_one]
  set w : Fin n → K := fun k => if tol ≤ g.val k then (sqrt (g.val k))⁻¹ else 0 with hw
  have hx : x = g.vec * diagonal w * g.vecᵀ * d := by
    show fixSign (invSqrt sqrt tol g) = _
    rw [fixSign_eq, ← invSqrt_eq]
  have hwew : diagonal w * diagonal g.val * diagonal w = diagonal fun k => if tol ≤ g.val k then (1 : K) else 0 := by
    rw [diagonal_mul_diagonal, diagonal_mul_diagonal]
    congr 1
    funext k
    simp only [hw]
    split
    · rename_i hk
      have hpos := lt_of_lt_of_le ht hk
      have hq := hs _ hpos
      have hne : sqrt (g.val k) ≠ 0 := by
        intro h0; rw [h0, mul_zero] at hq; exact hpos.ne hq
      calc (sqrt (g.val k))⁻¹ * g.val k * (sqrt (g.val k))⁻¹ = (sqrt (g.val k))⁻¹ * (sqrt (g.val k) * sqrt (g.val k)) * (sqrt (g.val k))⁻¹ := by rw [hq]
        _ = 1 := by field_simp
    · ring
  have hd : dᵀ = d := diagonal_transpose _
  rw [gram_mul, hm, hx, transpose_mul, transpose_mul, transpose_mul, transpose_transpose, hd, diagonal_transpose]
  calc d * (g.vec * (diagonal w * g.vecᵀ)) * (g.vec * diagonal g.val * g.vecᵀ) * (g.vec * diagonal w * g.vecᵀ * d)
      = d * (g.vec * (diagonal w * ((g.vecᵀ * g.vec) * (diagonal g.val * ((g.vecᵀ * g.vec) * (diagonal w * g.vecᵀ)))))) * d := by
        simp only [Matrix.mul_assoc]
    _ = d * (g.vec * ((diagonal w * diagonal g.val * diagonal w) * g.vecᵀ)) * d := by
        rw [h1, Matrix.one_mul, Matrix.one_mul]; simp only [Matrix.mul_assoc]
    _ = _ := by rw [hwew]; simp only [Matrix.mul_assoc]

omit [LinearOrder K] [IsStrictOrderedRing K] in
private theorem gram_symm {a n : Nat} (s : Matrix (Fin a) (Fin a) K) (hs : sᵀ = s) (c : Matrix (Fin a) (Fin n) K) : (cᵀ * s * c)ᵀ = cᵀ * s * c := by
  rw [transpose_mul, transpose_mul, transpose_transpose, hs, Matrix.mul_assoc]

/-- No eigenvalue of the overlap of the orbitals below the threshold: the transformed orbitals are orthonormal and span the same space. -/
theorem symmetric_orth_orthonormal {a n : Nat} (sqrt : K → K) (hq : IsSqrt sqrt) (eigh : Matrix (Fin n) (Fin n) K → Eig (Fin n) K) (he : SolvesEigh eigh)
    (tol : K) (ht : 0 < tol) (s : Matrix (Fin a) (Fin a) K) (hs : sᵀ = s) (c : Matrix (Fin a) (Fin n) K) (hn : n ≠ 0)
    (hk : ∀ k, tol ≤ (eigh (cᵀ * s * c)).val k) :
    ∃ x, symmetricOrth sqrt eigh tol c s = .ok x ∧ OrthonormalIn s (c * x) ∧ SpannedBy (c * x) c ∧ SpannedBy c (c * x) := by
  have hg := he _ (gram_symm s hs c)
  refine ⟨_, by rw [symmetricOrth, if_neg hn], ?_, ⟨_, rfl⟩, ?_⟩
  · unfold OrthonormalIn
    rw [gram_orth sqrt hq tol ht s c _ hg]
    simp only [hk, if_true]
    rw [diagonal_one, Matrix.mul_one, mul_eq_one_comm.mp hg.1, Matrix.mul_one, sign_diag]
  · have hgram := gram_orth sqrt hq tol ht s c _ hg
    simp only [hk, if_true] at hgram
    rw [diagonal_one, Matrix.mul_one, mul_eq_one_comm.mp hg.1, Matrix.mul_one, sign_diag, gram_mul] at hgram
    refine ⟨(fixSign (invSqrt sqrt tol (eigh (cᵀ * s * c))))ᵀ * (cᵀ * s * c), ?_⟩
    rw [Matrix.mul_assoc c, mul_eq_one_comm.mp hgram, Matrix.mul_one]

/-- Otherwise the orbitals returned, which are as many as before, are not orthonormal; no exception is raised. -/
theorem symmetric_orth_dropped {a n : Nat} (sqrt : K → K) (hq : IsSqrt sqrt) (eigh : Matrix (Fin n) (Fin n) K → Eig (Fin n) K) (he : SolvesEigh eigh)
    (tol : K) (ht : 0 < tol) (s : Matrix (Fin a) (Fin a) K) (hs : sᵀ = s) (c : Matrix (Fin a) (Fin n) K) (hk : ∃ k, (eigh (cᵀ * s * c)).val k < tol) :
    ∃ x, symmetricOrth sqrt eigh tol c s = .ok x ∧ ¬ OrthonormalIn s (c * x) := by
  obtain ⟨k, hk⟩ := hk
  have hn : n ≠ 0 := by have := k.2; omega
  have hg := he _ (gram_symm s hs c)
  refine ⟨_, by rw [symmetricOrth, if_neg hn], fun ho => ?_⟩
  unfold OrthonormalIn at ho
  rw [gram_orth sqrt hq tol ht s c _ hg] at ho
  have htr := congrArg trace ho
  rw [trace_mul_comm, ← Matrix.mul_assoc, sign_diag, Matrix.one_mul, trace_mul_comm, ← Matrix.mul_assoc, hg.1, Matrix.one_mul, trace_diagonal, trace_one] at htr
  have hlt : (∑ k, if tol ≤ (eigh (cᵀ * s * c)).val k then (1 : K) else 0) < ∑ _k : Fin n, (1 : K) := by
    refine Finset.sum_lt_sum (fun k _ => by split <;> simp) ⟨k, Finset.mem_univ _, ?_⟩
    rw [if_neg (not_le.mpr hk)]
    exact zero_lt_one
  rw [htr] at hlt
  simp at hlt

/-- Symmetric atomic orbitals: orthonormal and complete; if the atomic orbitals are taken to be orthonormal, the deviation from
orthonormality is that of the atomic orbitals. -/
theorem sao_orthonormal {a : Nat} (sqrt : K → K) (hq : IsSqrt sqrt) (eigh : Matrix (Fin a) (Fin a) K → Eig (Fin a) K) (he : SolvesEigh eigh)
    (tol : K) (ht : 0 < tol) (close : Matrix (Fin a) (Fin a) K → Bool) (s : Matrix (Fin a) (Fin a) K) (hs : sᵀ = s) (ha : a ≠ 0) (hk : ∀ k, tol ≤ (eigh s).val k) :
    ∃ c, saoCoeff sqrt eigh tol close s = .ok c ∧ (close s = false → OrthonormalIn s c ∧ c * cᵀ * s = 1) ∧
      (close s = true → cᵀ * s * c - 1 = s - 1) := by
  cases hc : close s
  · have e1 : (1 : Matrix (Fin a) (Fin a) K)ᵀ * s * 1 = s := by rw [transpose_one, Matrix.one_mul, Matrix.mul_one]
    obtain ⟨x, hx, ho, _⟩ := symmetric_orth_orthonormal sqrt hq eigh he tol ht s hs 1 ha (by rw [e1]; exact hk)
    rw [Matrix.one_mul] at ho
    refine ⟨x, by rw [saoCoeff, hc]; exact hx, fun _ => ⟨ho, ?_⟩, fun h => by cases h⟩
    rw [Matrix.mul_assoc]
    exact mul_eq_one_comm.mp ho
  · exact ⟨1, by rw [saoCoeff, hc]; rfl, fun h => (by cases h), fun _ => by rw [transpose_one, Matrix.one_mul, Matrix.mul_one]⟩

/-! ### Intrinsic atomic orbitals with virtual orbitals -/

omit [IsStrictOrderedRing K] in
private theorem rest_gram {m : Nat} (g : Eig (Fin m) K) (h1 : g.vecᵀ * g.vec = 1) :
    (Matrix.of fun i (k : Rest g) => g.vec i k.1)ᵀ * (Matrix.of fun i (k : Rest g) => g.vec i k.1) = 1 := by
  ext k l
  have := congrFun (congrFun h1 k.1) l.1
  rw [Matrix.mul_apply] at this ⊢
  simp only [transpose_apply, of_apply] at this ⊢
  rw [this, one_apply, one_apply]
  simp only [Subtype.ext_iff]

omit [IsStrictOrderedRing K] in
private theorem rest_proj {m : Nat} (g : Eig (Fin m) K) :
    (Matrix.of fun i (k : Rest g) => g.vec i k.1) * (Matrix.of fun i (k : Rest g) => g.vec i k.1)ᵀ =
      g.vec * diagonal (fun k => if 1 / 2 < g.val k then 1 else 0) * g.vecᵀ := by
  ext i j
  rw [Matrix.mul_apply, Matrix.mul_apply]
  simp only [transpose_apply, of_apply, mul_diagonal]
  have e : ∀ k, g.vec i k * (if 1 / 2 < g.val k then (1 : K) else 0) * g.vec j k = if 1 / 2 < g.val k then g.vec i k * g.vec j k else 0 := by
    intro k; split <;> ring
  simp only [e]
  rw [← Finset.sum_filter]
  exact (Finset.sum_subtype (Finset.univ.filter fun k => 1 / 2 < g.val k) (fun k => by simp) (fun k => g.vec i k * g.vec j k)).symm

/-- Eigenvalues of a projector are zero or one. -/
theorem proj_values {m : Nat} (p : Matrix (Fin m) (Fin m) K) (hp : p * p = p) (g : Eig (Fin m) K) (hg : IsEigh p g) (k : Fin m) : g.val k = 0 ∨ g.val k = 1 := by
  obtain ⟨h1, h2⟩ := hg
  have hd : diagonal g.val * diagonal g.val = diagonal g.val := by
    have e : g.vec * (diagonal g.val * diagonal g.val) = g.vec * diagonal g.val := by
      rw [← Matrix.mul_assoc, ← h2, Matrix.mul_assoc, ← h2, ← Matrix.mul_assoc, hp]
    have := congrArg (fun z => g.vecᵀ * z) e
    simp only [← Matrix.mul_assoc, h1, Matrix.one_mul] at this
    exact this
  have := congrFun (congrFun hd k) k
  rw [diagonal_mul_diagonal, diagonal_apply_eq, diagonal_apply_eq] at this
  have h0 : g.val k * (g.val k - 1) = 0 := by linear_combination this
  rcases mul_eq_zero.mp h0 with h | h
  · exact Or.inl h
  · exact Or.inr (sub_eq_zero.mp h)

/-- Remaining virtual orbitals: for orthonormal molecular orbitals and orthonormal orbitals `c` within their space the number of remaining
orbitals is always right, and together they are orthonormal and span the space of the molecular orbitals. -/
theorem iao_virtuals_complete {a m n : Nat} (eigh : Matrix (Fin m) (Fin m) K → Eig (Fin m) K) (he : SolvesEigh eigh) (mo : Matrix (Fin a) (Fin m) K)
    (s : Matrix (Fin a) (Fin a) K) (hs : sᵀ = s) (hmo : OrthonormalIn s mo) (c : Matrix (Fin a) (Fin n) K) (hc : OrthonormalIn s c) (hsp : SpannedBy c mo) :
    ∃ v, virtualCoeff eigh mo s c = .ok v ∧ OrthonormalIn s (fromCols c v) ∧ SpannedBy mo (fromCols c v) ∧ SpannedBy (fromCols c v) mo := by
  obtain ⟨y, hy⟩ := hsp
  unfold OrthonormalIn at hmo hc
  set A := moᵀ * s * c with hA
  have hAy : A = y := by rw [hA, hy, ← Matrix.mul_assoc, hmo, Matrix.one_mul]
  have hAA : Aᵀ * A = 1 := by
    rw [hAy, ← hc, hy, transpose_mul]
    calc yᵀ * y = yᵀ * (moᵀ * s * mo) * y := by rw [hmo, Matrix.mul_one]
      _ = _ := by simp only [Matrix.mul_assoc]
  set P : Matrix (Fin m) (Fin m) K := 1 - A * Aᵀ with hP
  have hPsym : Pᵀ = P := by rw [hP, transpose_sub, transpose_one, transpose_mul, transpose_transpose]
  have hAAA : A * Aᵀ * (A * Aᵀ) = A * Aᵀ := by
    rw [Matrix.mul_assoc, ← Matrix.mul_assoc Aᵀ, hAA, Matrix.one_mul]
  have hPP : P * P = P := by
    rw [hP, Matrix.sub_mul, Matrix.mul_sub, Matrix.mul_sub, Matrix.one_mul, Matrix.mul_one, Matrix.one_mul, hAAA, sub_self, sub_zero]
  have hg := he P hPsym
  set g := eigh P with hgdef
  have hval := proj_values P hPP g hg
  have hind : (fun k => if 1 / 2 < g.val k then (1 : K) else 0) = g.val := by
    funext k
    rcases hval k with h | h
    · rw [h, if_neg (by norm_num)]
    · rw [h, if_pos (by norm_num)]
  have hVV : g.vec * g.vecᵀ = 1 := mul_eq_one_comm.mp hg.1
  have hPV : g.vec * diagonal g.val * g.vecᵀ = P := by rw [← hg.2, Matrix.mul_assoc, hVV, Matrix.mul_one]
  have hcard : Fintype.card (Rest g) + n = m := by
    have htr : trace P = (Fintype.card (Rest g) : K) := by
      rw [← hPV, trace_mul_comm, ← Matrix.mul_assoc, hg.1, Matrix.one_mul, trace_diagonal, Fintype.card_subtype]
      have e : ∑ i, g.val i = ∑ i, if 1 / 2 < g.val i then (1 : K) else 0 := Finset.sum_congr rfl fun i _ => (congrFun hind i).symm
      rw [e, Finset.sum_boole]
    have htr' : trace P = (m : K) - n := by
      rw [hP, trace_sub, trace_one, trace_mul_comm, hAA, trace_one, Fintype.card_fin, Fintype.card_fin]
    have : ((Fintype.card (Rest g) + n : Nat) : K) = (m : K) := by
      push_cast
      rw [← htr, htr']; ring
    exact_mod_cast this
  set W : Matrix (Fin m) (Rest g) K := Matrix.of fun i (k : Rest g) => g.vec i k.1 with hW
  set D : Matrix (Rest g) (Rest g) K := diagonal (colSign (mo * W)) with hD
  have hWW : Wᵀ * W = 1 := rest_gram g hg.1
  have hWp : W * Wᵀ = P := by rw [hW, rest_proj, hind, hPV]
  have hAW : Aᵀ * W = 0 := by
    have hPW : P * W = W := by rw [← hWp, Matrix.mul_assoc, hWW, Matrix.mul_one]
    have h0 : A * Aᵀ * W = 0 := by
      rw [hP, Matrix.sub_mul, Matrix.one_mul] at hPW
      exact sub_eq_self.mp hPW
    calc Aᵀ * W = (Aᵀ * A) * (Aᵀ * W) := by rw [hAA, Matrix.one_mul]
      _ = Aᵀ * (A * Aᵀ * W) := by simp only [Matrix.mul_assoc]
      _ = 0 := by rw [h0, Matrix.mul_zero]
  have hDD : D * D = 1 := sign_diag _
  have hDt : Dᵀ = D := diagonal_transpose _
  have hv : fixSign (mo * W) = mo * (W * D) := by rw [fixSign_eq, Matrix.mul_assoc]
  have hcross : cᵀ * s * (mo * (W * D)) = 0 := by
    have : cᵀ * s * mo = Aᵀ := by rw [hA, transpose_mul, transpose_mul, transpose_transpose, hs, Matrix.mul_assoc]
    rw [← Matrix.mul_assoc, this, ← Matrix.mul_assoc, hAW, Matrix.zero_mul]
  refine ⟨fixSign (mo * W), ?_, ?_, ⟨fromRows Aᵀ (D * Wᵀ), ?_⟩, ⟨fromCols y (W * D), ?_⟩⟩
  · unfold virtualCoeff
    exact if_neg (not_not.mpr hcard)
  · unfold OrthonormalIn
    rw [hv, transpose_fromCols, fromRows_mul, fromRows_mul_fromCols, hc, hcross]
    have h21 : (mo * (W * D))ᵀ * s * c = 0 := by
      have := congrArg transpose hcross
      rw [transpose_mul (cᵀ * s), transpose_mul cᵀ, transpose_transpose, hs, transpose_zero, ← Matrix.mul_assoc] at this
      exact this
    have h22 : D * Wᵀ * (W * D) = 1 := by
      rw [Matrix.mul_assoc, ← Matrix.mul_assoc Wᵀ, hWW, Matrix.one_mul, hDD]
    have h23 : (mo * (W * D))ᵀ * s * (mo * (W * D)) = 1 := by
      rw [← h22]
      calc (mo * (W * D))ᵀ * s * (mo * (W * D)) = Dᵀ * Wᵀ * (moᵀ * s * mo) * (W * D) := by
            rw [transpose_mul mo, transpose_mul W]; simp only [Matrix.mul_assoc]
        _ = _ := by rw [hmo, Matrix.mul_one, hDt]
    rw [h21, h23, fromBlocks_one]
  · rw [hv, fromCols_mul_fromRows]
    have e1 : mo * (W * D) * (D * Wᵀ) = mo * P := by
      calc mo * (W * D) * (D * Wᵀ) = mo * (W * (D * D) * Wᵀ) := by simp only [Matrix.mul_assoc]
        _ = mo * P := by rw [hDD, Matrix.mul_one, hWp]
    rw [e1, hy, Matrix.mul_assoc, ← Matrix.mul_add, ← hAy, hP, add_sub_cancel, Matrix.mul_one]
  · rw [hv, mul_fromCols, ← hy]

/-- Intrinsic atomic orbitals with virtual orbitals: always orthonormal and a basis of the space of the molecular orbitals, provided that the
intrinsic orbitals from pyscf are in this space and not linearly dependent. -/
theorem iao_complete {a m n : Nat} (sqrt : K → K) (hq : IsSqrt sqrt) (eigh : (d : Nat) → Matrix (Fin d) (Fin d) K → Eig (Fin d) K) (he : ∀ d, SolvesEigh (eigh d))
    (tol : K) (ht : 0 < tol) (mo : Matrix (Fin a) (Fin m) K) (s : Matrix (Fin a) (Fin a) K) (hs : sᵀ = s) (hmo : OrthonormalIn s mo)
    (iao : Matrix (Fin a) (Fin n) K) (hn : n ≠ 0) (hsp : SpannedBy iao mo) (hk : ∀ k, tol ≤ (eigh n (iaoᵀ * s * iao)).val k) :
    ∃ (J : Type) (_ : Fintype J) (_ : DecidableEq J) (c : Matrix (Fin a) (Fin n) K) (v : Matrix (Fin a) J K),
      iaoCoeff sqrt eigh tol mo s iao = .ok ⟨J, fromCols c v⟩ ∧ OrthonormalIn s (fromCols c v) ∧ SpannedBy mo (fromCols c v) ∧ SpannedBy (fromCols c v) mo ∧
      SpannedBy iao c ∧ Fintype.card J + n = m := by
  obtain ⟨x, hx, ho, hsp1, hsp2⟩ := symmetric_orth_orthonormal sqrt hq (eigh n) (he n) tol ht s hs iao hn hk
  have hsp' : SpannedBy (iao * x) mo := by
    obtain ⟨y, hy⟩ := hsp
    exact ⟨y * x, by rw [← Matrix.mul_assoc, ← hy]⟩
  obtain ⟨v, hv, h1, h2, h3⟩ := iao_virtuals_complete (eigh m) (he m) mo s hs hmo (iao * x) ho hsp'
  refine ⟨_, inferInstance, inferInstance, iao * x, v, ?_, h1, h2, h3, hsp2, ?_⟩
  · unfold iaoCoeff
    rw [hx]
    simp only
    rw [hv]
  · unfold virtualCoeff at hv
    simp only at hv
    split at hv
    · cases hv
    · rename_i h; exact not_not.mp h

/-! ### Intrinsic and projected atomic orbitals -/

/-- Projected atomic orbitals are orthogonal to the intrinsic ones, orthonormal, and complete them to a basis. -/
theorem pao_complete {a n p : Nat} (sqrt : K → K) (hq : IsSqrt sqrt) (eigh : Matrix (Fin p) (Fin p) K → Eig (Fin p) K) (he : SolvesEigh eigh)
    (tol : K) (ht : 0 < tol) (s : Matrix (Fin a) (Fin a) K) (hs : sᵀ = s) (c : Matrix (Fin a) (Fin n) K) (hc : OrthonormalIn s c) (rydberg : Fin p → Fin a)
    (hk : ∀ q : Matrix (Fin a) (Fin p) K, q = (1 - c * cᵀ * s) * (Matrix.of fun i (k : Fin p) => if i = rydberg k then (1 : K) else 0) →
      ∀ k, tol ≤ (eigh (qᵀ * s * q)).val k) :
    (n + p ≠ a → paoCoeff sqrt eigh tol s c rydberg = .error .runtimeError) ∧
    (n + p = a → ∃ v, paoCoeff sqrt eigh tol s c rydberg = .ok v ∧ OrthonormalIn s (fromCols c v) ∧ fromCols c v * (fromCols c v)ᵀ * s = 1) := by
  constructor
  · intro h; rw [paoCoeff, if_pos h]
  · intro h
    have hfin : ∀ v : Matrix (Fin a) (Fin p) K, cᵀ * s * v = 0 → OrthonormalIn s v → OrthonormalIn s (fromCols c v) ∧ fromCols c v * (fromCols c v)ᵀ * s = 1 := by
      intro v hcv hv
      have ho : OrthonormalIn s (fromCols c v) := by
        unfold OrthonormalIn at hc hv ⊢
        have h21 : vᵀ * s * c = 0 := by
          have := congrArg transpose hcv
          rw [transpose_mul, transpose_mul, transpose_transpose, hs, transpose_zero, ← Matrix.mul_assoc] at this
          exact this
        rw [transpose_fromCols, fromRows_mul, fromRows_mul_fromCols, hc, hcv, h21, hv, fromBlocks_one]
      refine ⟨ho, ?_⟩
      rw [Matrix.mul_assoc]
      unfold OrthonormalIn at ho
      exact (mul_eq_one_comm_of_card_eq (Fin n ⊕ Fin p) (Fin a) K (by simp [h])).mp ho
    by_cases hp : p = 0
    · subst hp
      refine ⟨0, by rw [paoCoeff, if_neg (not_not.mpr h), if_pos rfl], hfin 0 (Matrix.mul_zero _) ?_⟩
      unfold OrthonormalIn
      ext i; exact i.elim0
    · set q : Matrix (Fin a) (Fin p) K := (1 - c * cᵀ * s) * (Matrix.of fun i (k : Fin p) => if i = rydberg k then (1 : K) else 0) with hqd
      obtain ⟨x, hx, ho, _⟩ := symmetric_orth_orthonormal sqrt hq eigh he tol ht s hs q hp (hk q rfl)
      refine ⟨q * x, ?_, hfin _ ?_ ho⟩
      · rw [paoCoeff, if_neg (not_not.mpr h), if_neg hp]
        simp only
        rw [← hqd, hx]; rfl
      · unfold OrthonormalIn at hc
        have : cᵀ * s * (1 - c * cᵀ * s) = 0 := by
          rw [Matrix.mul_sub, Matrix.mul_one, Matrix.mul_assoc c, ← Matrix.mul_assoc (cᵀ * s), hc, Matrix.one_mul, sub_self]
        rw [hqd, ← Matrix.mul_assoc, ← Matrix.mul_assoc, this, Matrix.zero_mul, Matrix.zero_mul]

omit [Field K] [LinearOrder K] [IsStrictOrderedRing K] in
/-- Columns are ordered by the labels of the atomic orbitals: for labels which are all different and among those of the orbitals, the order
is a permutation and position `i` gets the column with the label of atomic orbital `i`. -/
theorem label_order_permutation {L : Type} [DecidableEq L] (labels aoLabels : List L) (hnd : aoLabels.Nodup) (hl : labels.length = aoLabels.length)
    (hsub : ∀ l ∈ aoLabels, l ∈ labels) :
    ∃ order, labelOrder labels aoLabels = .ok order ∧ order.Perm (List.range labels.length) ∧ order.map (fun i => labels[i]?) = aoLabels.map some := by
  have hmap : ∀ l : List L, (∀ x ∈ l, x ∈ labels) → l.mapM (m := Except PyErr) (fun l => if l ∈ labels then .ok (labels.idxOf l) else .error .valueError) =
      .ok (l.map fun x => labels.idxOf x) := by
    intro l
    induction l with
    | nil => intro _; rfl
    | cons x l ih =>
      intro h
      rw [List.mapM_cons, if_pos (h x List.mem_cons_self), ih fun y hy => h y (List.mem_cons_of_mem _ hy)]
      rfl
  have hget : (aoLabels.map fun x => labels.idxOf x).map (fun i => labels[i]?) = aoLabels.map some := by
    rw [List.map_map]
    refine List.map_congr_left fun x hx => ?_
    exact List.getElem?_idxOf (hsub x hx)
  refine ⟨aoLabels.map fun x => labels.idxOf x, ?_, ?_, hget⟩
  · rw [labelOrder, hmap _ hsub]
    simp only
    rw [if_neg (not_not.mpr hget)]
  · have hnd' : (aoLabels.map fun x => labels.idxOf x).Nodup :=
      List.Nodup.map_on (fun x hx y hy h => (List.idxOf_inj (hsub x hx)).mp h) hnd
    refine (List.subperm_of_subset hnd' ?_).perm_of_length_le (by rw [List.length_map, List.length_range, hl])
    intro i hi
    obtain ⟨x, hx, rfl⟩ := List.mem_map.mp hi
    exact List.mem_range.mpr (List.idxOf_lt_length_of_mem (hsub x hx))

/-- All together: the columns in any order that is a bijection are orthonormal and complete. -/
theorem iaopao_complete {a n p : Nat} (sqrt : K → K) (hq : IsSqrt sqrt) (eigh : (d : Nat) → Matrix (Fin d) (Fin d) K → Eig (Fin d) K)
    (he : ∀ d, SolvesEigh (eigh d)) (tol : K) (ht : 0 < tol) (s : Matrix (Fin a) (Fin a) K) (hs : sᵀ = s) (iao : Matrix (Fin a) (Fin n) K) (hn : n ≠ 0)
    (hk : ∀ k, tol ≤ (eigh n (iaoᵀ * s * iao)).val k) (rydberg : Fin p → Fin a) (hnp : n + p = a)
    (hk' : ∀ (x : Matrix (Fin n) (Fin n) K) (q : Matrix (Fin a) (Fin p) K), symmetricOrth sqrt (eigh n) tol iao s = .ok x →
      q = (1 - iao * x * (iao * x)ᵀ * s) * (Matrix.of fun i (k : Fin p) => if i = rydberg k then (1 : K) else 0) → ∀ k, tol ≤ (eigh p (qᵀ * s * q)).val k)
    (order : Fin (n + p) → Fin n ⊕ Fin p) (hord : Function.Bijective order) :
    ∃ c, iaopaoCoeff sqrt eigh tol a s iao rydberg order = .ok c ∧ OrthonormalIn s c ∧ c * cᵀ * s = 1 := by
  obtain ⟨x, hx, ho, _⟩ := symmetric_orth_orthonormal sqrt hq (eigh n) (he n) tol ht s hs iao hn hk
  obtain ⟨v, hv, h1, h2⟩ := (pao_complete sqrt hq (eigh p) (he p) tol ht s hs (iao * x) ho rydberg (fun q hqd => hk' x q hx hqd)).2 hnp
  refine ⟨(fromCols (iao * x) v).submatrix id order, ?_, ?_, ?_⟩
  · unfold iaopaoCoeff
    rw [hx]
    simp only
    rw [hv]
    simp only
    rw [if_neg (not_not.mpr hnp)]
    rfl
  · unfold OrthonormalIn at h1 ⊢
    have e : ((fromCols (iao * x) v).submatrix id order)ᵀ * s * (fromCols (iao * x) v).submatrix id order =
        ((fromCols (iao * x) v)ᵀ * s * fromCols (iao * x) v).submatrix order order := by
      ext i j; rfl
    rw [e, h1]
    exact submatrix_one order hord.1
  · have e : (fromCols (iao * x) v).submatrix id order * ((fromCols (iao * x) v).submatrix id order)ᵀ = fromCols (iao * x) v * (fromCols (iao * x) v)ᵀ := by
      rw [transpose_submatrix]
      exact submatrix_mul_equiv (fromCols (iao * x) v) (fromCols (iao * x) v)ᵀ id (Equiv.ofBijective order hord) id
    rw [e, h2]

/-! ### Examples: the real numbers -/

/-- An eigenvalue solver for real symmetric matrices, from the spectral theorem. -/
noncomputable def realEigh (d : Nat) (m : Matrix (Fin d) (Fin d) ℝ) : Eig (Fin d) ℝ :=
  open Classical in
  if h : m.IsHermitian then ⟨h.eigenvalues, (h.eigenvectorUnitary : Matrix (Fin d) (Fin d) ℝ)⟩ else ⟨0, 1⟩

theorem realEigh_solves (d : Nat) : SolvesEigh (realEigh d) := by
  intro m hm
  have h : m.IsHermitian := by rw [Matrix.IsHermitian, conjTranspose_eq_transpose_of_trivial]; exact hm
  have hu : (h.eigenvectorUnitary : Matrix (Fin d) (Fin d) ℝ)ᵀ * (h.eigenvectorUnitary : Matrix (Fin d) (Fin d) ℝ) = 1 := by
    have := (Matrix.mem_unitaryGroup_iff'.mp h.eigenvectorUnitary.2)
    rwa [star_eq_conjTranspose, conjTranspose_eq_transpose_of_trivial] at this
  unfold IsEigh realEigh
  rw [dif_pos h]
  refine ⟨hu, ?_⟩
  have hsp := h.spectral_theorem
  rw [Unitary.conjStarAlgAut_apply] at hsp
  show m * (h.eigenvectorUnitary : Matrix (Fin d) (Fin d) ℝ) = _
  refine (congrArg (fun z => z * (h.eigenvectorUnitary : Matrix (Fin d) (Fin d) ℝ)) hsp).trans ?_
  show _ * _ * _ * _ = _
  have hu' : star (h.eigenvectorUnitary : Matrix (Fin d) (Fin d) ℝ) * (h.eigenvectorUnitary : Matrix (Fin d) (Fin d) ℝ) = 1 := by
    rw [star_eq_conjTranspose, conjTranspose_eq_transpose_of_trivial]; exact hu
  rw [Matrix.mul_assoc, hu', Matrix.mul_one]
  rfl

private theorem real_sqrt : IsSqrt Real.sqrt := fun _ hx => Real.mul_self_sqrt hx.le

private theorem val_of_poly {d : Nat} (m : Matrix (Fin d) (Fin d) ℝ) (g : Eig (Fin d) ℝ) (hg : IsEigh m g) (t u : ℝ) (h : (m - t • 1) * (m - u • 1) = 0) (k : Fin d) :
    g.val k = t ∨ g.val k = u := by
  obtain ⟨h1, h2⟩ := hg
  have hs : ∀ r : ℝ, (m - r • 1) * g.vec = g.vec * diagonal (fun k => g.val k - r) := by
    intro r
    rw [Matrix.sub_mul, h2, Matrix.smul_mul, Matrix.one_mul]
    ext i j
    rw [Matrix.sub_apply, mul_diagonal, mul_diagonal, Matrix.smul_apply, smul_eq_mul]; ring
  have h0 : diagonal (fun k => g.val k - t) * diagonal (fun k => g.val k - u) = 0 := by
    calc _ = (g.vecᵀ * g.vec) * (diagonal (fun k => g.val k - t) * diagonal (fun k => g.val k - u)) := by rw [h1, Matrix.one_mul]
      _ = g.vecᵀ * ((g.vec * diagonal (fun k => g.val k - t)) * diagonal (fun k => g.val k - u)) := by simp only [Matrix.mul_assoc]
      _ = g.vecᵀ * ((m - t • 1) * ((m - u • 1) * g.vec)) := by rw [← hs, Matrix.mul_assoc, hs u]
      _ = 0 := by rw [← Matrix.mul_assoc (m - t • 1), h, Matrix.zero_mul, Matrix.mul_zero]
  have := congrFun (congrFun h0 k) k
  rw [diagonal_mul_diagonal, diagonal_apply_eq, Matrix.zero_apply] at this
  rcases mul_eq_zero.mp this with h | h
  · exact Or.inl (sub_eq_zero.mp h)
  · exact Or.inr (sub_eq_zero.mp h)

private theorem val_one (m : Matrix (Fin 1) (Fin 1) ℝ) (k : Fin 1) : (realEigh 1 m).val k = m 0 0 := by
  have hm : mᵀ = m := by ext i j; rw [Subsingleton.elim i j, transpose_apply]
  rcases val_of_poly m _ (realEigh_solves 1 m hm) (m 0 0) (m 0 0) (by ext i j; rw [Subsingleton.elim i 0, Subsingleton.elim j 0]; simp [Matrix.mul_apply]) k with h | h <;> exact h

/-- Two overlapping atomic orbitals. -/
example : ∃ c, saoCoeff Real.sqrt (realEigh 2) (1 / 10 ^ 15) (fun _ => false) !![5, 2; 2, 8] = .ok c ∧ OrthonormalIn !![5, 2; 2, 8] c ∧ c * cᵀ * !![5, 2; 2, 8] = 1 := by
  have hs : (!![5, 2; 2, 8] : Matrix (Fin 2) (Fin 2) ℝ)ᵀ = !![5, 2; 2, 8] := by ext i j; fin_cases i <;> fin_cases j <;> rfl
  obtain ⟨c, h1, h2, _⟩ := sao_orthonormal Real.sqrt real_sqrt (realEigh 2) (realEigh_solves 2) (1 / 10 ^ 15) (by norm_num) (fun _ => false) !![5, 2; 2, 8] hs (by decide)
    (by
      intro k
      rcases val_of_poly _ _ (realEigh_solves 2 _ hs) 4 9 (by ext i j; fin_cases i <;> fin_cases j <;> norm_num [Matrix.mul_apply, Fin.sum_univ_two, Matrix.one_apply]) k with h | h <;>
        rw [h] <;> norm_num)
  exact ⟨c, h1, h2 rfl⟩

/-- Two linearly dependent orbitals. -/
example : ∃ x, symmetricOrth Real.sqrt (realEigh 2) (1 / 10 ^ 15) !![1, 1; 0, 0] 1 = .ok x ∧ ¬ OrthonormalIn 1 (!![1, 1; 0, 0] * x) := by
  refine symmetric_orth_dropped Real.sqrt real_sqrt (realEigh 2) (realEigh_solves 2) (1 / 10 ^ 15) (by norm_num) 1 transpose_one _ ?_
  set m := (!![1, 1; 0, 0] : Matrix (Fin 2) (Fin 2) ℝ)ᵀ * 1 * !![1, 1; 0, 0] with hm
  have hms : mᵀ = m := gram_symm 1 transpose_one _
  have hg := realEigh_solves 2 m hms
  by_contra hcon
  push Not at hcon
  have h2 : ∀ k, (realEigh 2 m).val k = 2 := by
    intro k
    rcases val_of_poly m _ hg 0 2 (by rw [hm]; ext i j; fin_cases i <;> fin_cases j <;> norm_num [Matrix.mul_apply, Fin.sum_univ_two, Matrix.one_apply]) k with h | h
    · have := hcon k; rw [h] at this; norm_num at this
    · exact h
  have e : m = (realEigh 2 m).vec * diagonal (realEigh 2 m).val * (realEigh 2 m).vecᵀ := by
    rw [← hg.2, Matrix.mul_assoc, mul_eq_one_comm.mp hg.1, Matrix.mul_one]
  have ht := congrArg trace e
  rw [trace_mul_comm ((realEigh 2 m).vec * diagonal (realEigh 2 m).val), ← Matrix.mul_assoc, hg.1, Matrix.one_mul, trace_diagonal, Fin.sum_univ_two, h2, h2] at ht
  rw [hm] at ht
  norm_num [trace, Matrix.mul_apply, Fin.sum_univ_two, Matrix.one_apply] at ht

/-- The sum of two atomic orbitals. -/
private def both : Matrix (Fin 2) (Fin 1) ℝ := Matrix.of fun _ _ => 1

private theorem both_apply (i : Fin 2) (j : Fin 1) : both i j = 1 := rfl

private theorem iao_gram : (bothᵀ * (1 : Matrix (Fin 2) (Fin 2) ℝ) * both) 0 0 = 2 := by
  rw [Matrix.mul_one]
  norm_num [Matrix.mul_apply, Fin.sum_univ_two, both_apply]

/-- One intrinsic orbital, the sum of two orthonormal atomic orbitals, and one virtual orbital. -/
example : ∃ (J : Type) (_ : Fintype J) (_ : DecidableEq J) (c : Matrix (Fin 2) (Fin 1) ℝ) (v : Matrix (Fin 2) J ℝ),
    iaoCoeff Real.sqrt realEigh (1 / 10 ^ 15) (1 : Matrix (Fin 2) (Fin 2) ℝ) 1 both = .ok ⟨J, fromCols c v⟩ ∧ OrthonormalIn 1 (fromCols c v) ∧ Fintype.card J + 1 = 2 := by
  obtain ⟨J, i1, i2, c, v, h1, h2, _, _, _, h3⟩ := iao_complete Real.sqrt real_sqrt realEigh realEigh_solves (1 / 10 ^ 15) (by norm_num) (1 : Matrix (Fin 2) (Fin 2) ℝ) 1 transpose_one
    (by unfold OrthonormalIn; rw [transpose_one, Matrix.mul_one, Matrix.mul_one]) both (by decide) ⟨both, (Matrix.one_mul _).symm⟩
    (by intro k; rw [val_one, iao_gram]; norm_num)
  exact ⟨J, i1, i2, c, v, h1, h2, h3⟩

/-- The same intrinsic orbital and one projected atomic orbital, in exchanged order. -/
example : ∃ c, iaopaoCoeff Real.sqrt realEigh (1 / 10 ^ 15) 2 1 both (fun _ : Fin 1 => 0)
    (fun j : Fin 2 => if j = 0 then .inr 0 else .inl 0) = .ok c ∧ OrthonormalIn 1 c ∧ c * cᵀ * 1 = 1 := by
  refine iaopao_complete Real.sqrt real_sqrt realEigh realEigh_solves (1 / 10 ^ 15) (by norm_num) 1 transpose_one both (by decide)
    (by intro k; rw [val_one, iao_gram]; norm_num) (fun _ => 0) rfl ?_ _ ?_
  · intro x q hx hq k
    obtain ⟨x', hx', ho, _⟩ := symmetric_orth_orthonormal Real.sqrt real_sqrt (realEigh 1) (realEigh_solves 1) (1 / 10 ^ 15) (by norm_num) (1 : Matrix (Fin 2) (Fin 2) ℝ) transpose_one both
      (by decide) (by intro k; rw [val_one, iao_gram]; norm_num)
    rw [hx] at hx'
    cases hx'
    have hxx : x 0 0 * x 0 0 = 1 / 2 := by
      have := congrFun (congrFun ho 0) 0
      rw [Matrix.mul_one] at this
      simp only [Matrix.mul_apply, transpose_apply, Fin.sum_univ_two, Finset.univ_unique, Finset.sum_singleton, both_apply, one_mul, Matrix.one_apply_eq] at this
      rw [show (default : Fin 1) = 0 from rfl] at this
      linarith
    have q0 : q 0 0 = 1 / 2 := by
      rw [hq, Matrix.mul_one]
      simp only [Matrix.mul_apply, Matrix.sub_apply, transpose_apply, Fin.sum_univ_two, Finset.univ_unique, Finset.sum_singleton, both_apply, one_mul, of_apply, Matrix.one_apply]
      rw [show (default : Fin 1) = 0 from rfl, hxx]; norm_num
    have q1 : q 1 0 = - (1 / 2) := by
      rw [hq, Matrix.mul_one]
      simp only [Matrix.mul_apply, Matrix.sub_apply, transpose_apply, Fin.sum_univ_two, Finset.univ_unique, Finset.sum_singleton, both_apply, one_mul, of_apply, Matrix.one_apply]
      rw [show (default : Fin 1) = 0 from rfl, hxx]; norm_num
    rw [val_one]
    have : (qᵀ * (1 : Matrix (Fin 2) (Fin 2) ℝ) * q) 0 0 = 1 / 2 := by
      rw [Matrix.mul_one]; simp only [Matrix.mul_apply, transpose_apply, Fin.sum_univ_two, q0, q1]; norm_num
    rw [this]; norm_num
  · constructor
    · intro i j h
      fin_cases i <;> fin_cases j <;> simp at h ⊢
    · rintro (i | i)
      · exact ⟨1, by rw [Subsingleton.elim i 0]; rfl⟩
      · exact ⟨0, by rw [Subsingleton.elim i 0]; rfl⟩

/-- Labels of three orbitals. -/
example : labelOrder ["1s", "3p", "2s"] ["1s", "2s", "3p"] = .ok [0, 2, 1] := by decide +kernel
example : labelOrder ["1s", "2s"] ["1s", "2s", "3p"] = .error .valueError := by decide +kernel

end Vayesta.Props
