import Verif.Model.Rpa
import Verif.Lemmas.Rpa
import Verif.Props.Lowdin
import Mathlib.Tactic.Module

/-! C73: excitations and moments of the random-phase approximation. -/

namespace Vayesta.Props
set_option linter.unusedSectionVars false
open Rpa Lowdin Matrix Lemmas.Rpa

variable {o v o' v' ι p q n m a b : Type} [Fintype ι] [Fintype p] [DecidableEq p] [Fintype q] [DecidableEq q] [Fintype n] [DecidableEq n]
  [Fintype m] [DecidableEq m] [Fintype a] [DecidableEq a] [Fintype b] [DecidableEq b]

/-! ## Specification -/

/-- An eigensolver which is right for all symmetric matrices. -/
def DiagonalisesSymmetric (eigh : Matrix q q ℝ → Eig q ℝ) : Prop := ∀ x : Matrix q q ℝ, xᵀ = x → IsEigh x (eigh x)

/-- The principal root of positive definite matrices. -/
def TakesRoots (sqrtm : Matrix q q ℝ → Matrix q q ℝ) : Prop := ∀ x : Matrix q q ℝ, x.PosDef → (sqrtm x).PosSemidef ∧ sqrtm x * sqrtm x = x

/-- The RPA equations for the matrices `A` and `B`: all positive frequencies `w`, with excitation and de-excitation amplitudes `X` and `Y`. -/
structure SolvesRpa (A B : Matrix p p ℝ) (X Y : Matrix p n ℝ) (w : n → ℝ) : Prop where
  positive : ∀ k, 0 < w k
  excitation : A * X + B * Y = X * diagonal w
  deexcitation : B * X + A * Y = -(Y * diagonal w)
  normalised : Xᵀ * X - Yᵀ * Y = 1
  orthogonal : Xᵀ * Y = Yᵀ * X
  complete : X * Xᵀ - Y * Yᵀ = 1
  complete' : X * Yᵀ = Y * Xᵀ

/-- Excitation amplitudes of a result. -/
noncomputable def ampX (s : Amps q) : Matrix q q ℝ := (1 / 2 : ℝ) • (s.xpy + s.xmy)

/-- De-excitation amplitudes of a result. -/
noncomputable def ampY (s : Amps q) : Matrix q q ℝ := (1 / 2 : ℝ) • (s.xpy - s.xmy)

/-- Moment `k` of the density-density response of RPA excitations. -/
def responseMoment (X Y : Matrix p n ℝ) (w : n → ℝ) (k : Nat) : Matrix p p ℝ := (X + Y) * (diagonal fun i => w i ^ k) * (X + Y)ᵀ

/-! ## Equivalence of both forms -/

private theorem half_add (x y : Matrix p n ℝ) : (1 / 2 : ℝ) • (x + y) + (1 / 2 : ℝ) • (x - y) = x := by module
private theorem half_sub (x y : Matrix p n ℝ) : (1 / 2 : ℝ) • (x + y) - (1 / 2 : ℝ) • (x - y) = y := by module

theorem solves_of_sol {A B : Matrix p p ℝ} {T S : Matrix p n ℝ} {w : n → ℝ} (h : Sol (A - B) (A + B) T S w) :
    SolvesRpa A B ((1 / 2 : ℝ) • (T + S)) ((1 / 2 : ℝ) • (T - S)) w := by
  have h1 := h.QT
  have h2 := h.PS
  have e1 : A * T + B * T = S * diagonal w := by rw [← h1, Matrix.add_mul]
  have e2 : A * S - B * S = T * diagonal w := by rw [← h2, Matrix.sub_mul]
  refine ⟨h.pos, ?_, ?_, ?_, ?_, ?_, ?_⟩
  · simp only [Matrix.mul_smul, Matrix.smul_mul, Matrix.mul_add, Matrix.mul_sub, Matrix.add_mul]
    rw [← e1, ← e2]; module
  · simp only [Matrix.mul_smul, Matrix.smul_mul, Matrix.mul_add, Matrix.mul_sub, Matrix.sub_mul]
    rw [← e1, ← e2]; module
  · simp only [transpose_smul, transpose_add, transpose_sub, Matrix.mul_smul, Matrix.smul_mul, Matrix.mul_add, Matrix.mul_sub, Matrix.sub_mul, Matrix.add_mul, h.bi, h.bi']
    module
  · simp only [transpose_smul, transpose_add, transpose_sub, Matrix.mul_smul, Matrix.smul_mul, Matrix.mul_add, Matrix.mul_sub, Matrix.sub_mul, Matrix.add_mul, h.bi, h.bi']
    module
  · simp only [transpose_smul, transpose_add, transpose_sub, Matrix.mul_smul, Matrix.smul_mul, Matrix.mul_add, Matrix.mul_sub, Matrix.sub_mul, Matrix.add_mul, h.comp, h.comp']
    module
  · simp only [transpose_smul, transpose_add, transpose_sub, Matrix.mul_smul, Matrix.smul_mul, Matrix.mul_add, Matrix.mul_sub, Matrix.sub_mul, Matrix.add_mul, h.comp, h.comp']
    module

theorem SolvesRpa.sol {A B : Matrix p p ℝ} {X Y : Matrix p n ℝ} {w : n → ℝ} (h : SolvesRpa A B X Y w) : Sol (A - B) (A + B) (X + Y) (X - Y) w := by
  have bi : (X + Y)ᵀ * (X - Y) = 1 := by
    rw [transpose_add, Matrix.add_mul, Matrix.mul_sub, Matrix.mul_sub, h.orthogonal, ← h.normalised]; abel
  have comp : (X + Y) * (X - Y)ᵀ = 1 := by
    rw [transpose_sub, Matrix.add_mul, Matrix.mul_sub, Matrix.mul_sub, h.complete', ← h.complete]; abel
  have bi' : (X - Y)ᵀ * (X + Y) = 1 := by
    have := congrArg transpose bi
    rwa [transpose_mul, transpose_transpose, transpose_one] at this
  have comp' : (X - Y) * (X + Y)ᵀ = 1 := by
    have := congrArg transpose comp
    rwa [transpose_mul, transpose_transpose, transpose_one] at this
  have hP : (A - B) * (X - Y) = (X + Y) * diagonal w := by
    have e := congrArg₂ (· - ·) h.excitation h.deexcitation
    rw [sub_neg_eq_add, ← Matrix.add_mul] at e
    rw [← e, Matrix.sub_mul, Matrix.mul_sub, Matrix.mul_sub]; abel
  have hQ : (A + B) * (X + Y) = (X - Y) * diagonal w := by
    have e := congrArg₂ (· + ·) h.excitation h.deexcitation
    rw [← sub_eq_add_neg, ← Matrix.sub_mul] at e
    rw [← e, Matrix.add_mul, Matrix.mul_add, Matrix.mul_add]; abel
  refine ⟨h.positive, bi, comp, ?_, ?_⟩
  · rw [← hP, Matrix.mul_assoc, comp', Matrix.mul_one]
  · rw [← hQ, Matrix.mul_assoc, comp, Matrix.mul_one]

/-- Moments of the response are fixed by `A` and `B`: they are the same for all solutions of the RPA equations. -/
theorem response_moment_unique {A B : Matrix p p ℝ} {X Y : Matrix p n ℝ} {w : n → ℝ} (h : SolvesRpa A B X Y w)
    {X' Y' : Matrix p m ℝ} {w' : m → ℝ} (h' : SolvesRpa A B X' Y' w') (k : Nat) : responseMoment X Y w k = responseMoment X' Y' w' k :=
  h.sol.mom_eq h'.sol k

/-! ## Results of the code -/

private theorem rt_sol (eigh : Matrix q q ℝ → Eig q ℝ) (he : DiagonalisesSymmetric eigh) (eps : q → ℝ) (apb : Matrix q q ℝ) (hs : apbᵀ = apb) (s : Amps q)
    (h : solve eigh eps apb = .ok s) : (∀ x, 0 < eps x) ∧ Sol (diagonal eps) apb s.xpy s.xmy s.freqs := by
  unfold solve at h
  split at h
  · cases h
  · rename_i hneg
    have hnn : ∀ x, 0 ≤ eps x := fun x => not_lt.1 fun hx => hneg ⟨x, hx⟩
    dsimp only at h
    set M : Matrix q q ℝ := Matrix.of fun x y => Real.sqrt (eps x) * apb x y * Real.sqrt (eps y) with hM
    split at h
    · rename_i hpos
      cases h
      have hMT : Mᵀ = M := by
        ext x y
        have := congrFun (congrFun hs x) y
        rw [transpose_apply] at this
        simp only [hM, transpose_apply, Matrix.of_apply, this]; ring
      obtain ⟨h1, h2⟩ := he M hMT
      have hMd : M = diagonal (fun x => Real.sqrt (eps x)) * apb * diagonal (fun x => Real.sqrt (eps x)) := by
        ext x y; rw [mul_diagonal, diagonal_mul]; rfl
      have hp' : ∀ k, 0 < (eigh M).val k := fun k => lt_trans (by norm_num) (hpos k)
      have heps : ∀ x, 0 < eps x := by
        intro x
        rcases (hnn x).lt_or_eq with hx | hx
        · exact hx
        · exfalso
          have hr : ∀ y, M x y = 0 := fun y => by simp only [hM, Matrix.of_apply, ← hx, Real.sqrt_zero, zero_mul]
          have h3 : ∀ k, (eigh M).vec x k = 0 := by
            intro k
            have := congrFun (congrFun h2 x) k
            rw [Matrix.mul_apply, mul_diagonal] at this
            simp only [hr, zero_mul, Finset.sum_const_zero] at this
            rcases mul_eq_zero.1 this.symm with h4 | h4
            · exact h4
            · exact absurd h4 (hp' k).ne'
          have h5 : (eigh M).vec * (eigh M).vecᵀ = 1 := mul_eq_one_comm.mp h1
          have := congrFun (congrFun h5 x) x
          rw [Matrix.mul_apply, one_apply_eq] at this
          simp only [h3, zero_mul, Finset.sum_const_zero] at this
          exact zero_ne_one this
      have hr0 : ∀ x, Real.sqrt (eps x) ≠ 0 := fun x => (Real.sqrt_pos.2 (heps x)).ne'
      refine ⟨heps, ?_⟩
      have := sol_of_root (P := diagonal eps) (Q := apb) (R := diagonal fun x => Real.sqrt (eps x)) (Ri := diagonal fun x => (Real.sqrt (eps x))⁻¹)
        (c := (eigh M).vec) (e := (eigh M).val) (diagonal_transpose _)
        (by rw [diagonal_mul_diagonal]; congr 1; funext x; exact Real.mul_self_sqrt (hnn x))
        (by rw [diagonal_mul_diagonal, ← diagonal_one]; congr 1; funext x; exact mul_inv_cancel₀ (hr0 x)) h1 (by rw [← hMd]; exact h2) hp'
      convert this using 1
      · ext x k
        rw [mul_diagonal, diagonal_mul]; show (Real.sqrt (Real.sqrt ((eigh M).val k)))⁻¹ * Real.sqrt (eps x) * (eigh M).vec x k = _; ring
      · ext x k
        rw [mul_diagonal, diagonal_mul]; show Real.sqrt (Real.sqrt ((eigh M).val k)) * (Real.sqrt (eps x))⁻¹ * (eigh M).vec x k = _; ring
    · cases h

private theorem apb_symm (rot : Matrix q p ℝ) (fullv : Matrix p p ℝ) (alpha : ℝ) (eps : q → ℝ) (hv : fullvᵀ = fullv) :
    (genApB rot fullv alpha eps)ᵀ = genApB rot fullv alpha eps := by
  unfold genApB
  simp only [transpose_add, transpose_mul, transpose_smul, transpose_transpose, diagonal_transpose, hv, Matrix.mul_assoc]

private theorem kernel_ok {eigh : Matrix q q ℝ → Eig q ℝ} {eps : q → ℝ} {rot : Matrix q p ℝ} {fullv : Matrix p p ℝ} {alpha : ℝ} {r : Amps q × ℝ}
    (h : kernel eigh eps rot fullv alpha = .ok r) : solve eigh eps (genApB rot fullv alpha eps) = .ok r.1 ∧ r.2 = plasmonEnergy r.1.freqs eps fullv := by
  unfold kernel at h
  cases hs : solve eigh eps (genApB rot fullv alpha eps) with
  | error e => rw [hs] at h; cases h
  | ok s => rw [hs] at h; cases h; exact ⟨rfl, rfl⟩

/-- **C73**: frequencies and amplitudes from `kernel` solve the RPA equations with `A = ε + α V` and `B = α V`. -/
theorem rpa_solution (eigh : Matrix q q ℝ → Eig q ℝ) (he : DiagonalisesSymmetric eigh) (eps : q → ℝ) (rot : Matrix q p ℝ) (fullv : Matrix p p ℝ)
    (hv : fullvᵀ = fullv) (alpha : ℝ) (r : Amps q × ℝ) (h : kernel eigh eps rot fullv alpha = .ok r) :
    SolvesRpa (diagonal eps + alpha • (rot * fullv * rotᵀ)) (alpha • (rot * fullv * rotᵀ)) (ampX r.1) (ampY r.1) r.1.freqs := by
  have hs := (rt_sol eigh he eps _ (apb_symm rot fullv alpha eps hv) r.1 (kernel_ok h).1).2
  apply solves_of_sol
  convert hs using 1
  · abel
  · unfold genApB
    simp only [Matrix.mul_smul, Matrix.smul_mul]
    module

/-- The same, for `A - B` and `A + B`. -/
theorem rpa_kernel_sol (eigh : Matrix q q ℝ → Eig q ℝ) (he : DiagonalisesSymmetric eigh) (eps : q → ℝ) (fullv : Matrix q q ℝ)
    (hv : fullvᵀ = fullv) (alpha : ℝ) (r : Amps q × ℝ) (h : kernel eigh eps 1 fullv alpha = .ok r) :
    Sol (diagonal eps) (diagonal eps + (2 * alpha) • fullv) r.1.xpy r.1.xmy r.1.freqs ∧ r.2 = plasmonEnergy r.1.freqs eps fullv := by
  have hs := (rt_sol eigh he eps _ (apb_symm 1 fullv alpha eps hv) r.1 (kernel_ok h).1).2
  have e : genApB 1 fullv alpha eps = diagonal eps + (2 * alpha) • fullv := by
    unfold genApB; rw [Matrix.one_mul, transpose_one, Matrix.mul_one, add_comm]
  rw [e] at hs
  exact ⟨hs, (kernel_ok h).2⟩

/-- Zero or negative energy differences, and unstable references, are refused: for a result, `A - B` and `A + B` are positive definite. -/
theorem rpa_stable (eigh : Matrix q q ℝ → Eig q ℝ) (he : DiagonalisesSymmetric eigh) (eps : q → ℝ) (rot : Matrix q p ℝ) (fullv : Matrix p p ℝ)
    (hv : fullvᵀ = fullv) (alpha : ℝ) (r : Amps q × ℝ) (h : kernel eigh eps rot fullv alpha = .ok r) :
    (∀ x, 0 < eps x) ∧ (genApB rot fullv alpha eps).PosDef := by
  have hs := rt_sol eigh he eps _ (apb_symm rot fullv alpha eps hv) r.1 (kernel_ok h).1
  exact ⟨hs.1, hs.2.Q_posDef⟩

/-- Repulsive interactions and a gap above 10⁻⁶ are enough for a result. -/
theorem rpa_succeeds (eigh : Matrix q q ℝ → Eig q ℝ) (he : DiagonalisesSymmetric eigh) (eps : q → ℝ) (heps : ∀ x, 1 / 10 ^ 6 < eps x) (rot : Matrix q p ℝ)
    (fullv : Matrix p p ℝ) (hv : fullv.PosSemidef) (alpha : ℝ) (ha : 0 ≤ alpha) : ∃ r, kernel eigh eps rot fullv alpha = .ok r := by
  have hvT : fullvᵀ = fullv := by have := hv.1.eq; rwa [conjTranspose_eq_transpose_of_trivial] at this
  have h0 : ∀ x, 0 < eps x := fun x => lt_trans (by norm_num) (heps x)
  unfold kernel solve
  rw [if_neg (by rintro ⟨x, hx⟩; exact absurd hx (not_lt.2 (h0 x).le))]
  dsimp only
  set Q := genApB rot fullv alpha eps with hQ
  set M : Matrix q q ℝ := Matrix.of fun x y => Real.sqrt (eps x) * Q x y * Real.sqrt (eps y) with hM
  have hQT : Qᵀ = Q := apb_symm rot fullv alpha eps hvT
  have hMT : Mᵀ = M := by
    ext x y
    have := congrFun (congrFun hQT x) y
    rw [transpose_apply] at this
    simp only [hM, transpose_apply, Matrix.of_apply, this]; ring
  obtain ⟨h1, h2⟩ := he M hMT
  set d : Matrix q q ℝ := diagonal fun x => Real.sqrt (eps x) with hd
  have hMd : M = d * ((2 * alpha) • (rot * fullv * rotᵀ)) * d + diagonal fun x => eps x ^ 2 := by
    have e1 : M = d * Q * d := by
      ext x y; rw [mul_diagonal, diagonal_mul]; rfl
    rw [e1, hQ]
    unfold genApB
    rw [Matrix.mul_add, Matrix.add_mul, Matrix.mul_smul, Matrix.smul_mul]
    congr 1
    rw [hd, diagonal_mul_diagonal, diagonal_mul_diagonal]
    congr 1; funext x
    have := Real.mul_self_sqrt (h0 x).le
    linear_combination (eps x) * this
  rw [if_pos]
  · exact ⟨_, rfl⟩
  intro k
  set c : q → ℝ := fun x => (eigh M).vec x k with hc
  have hnorm : ∑ x, c x ^ 2 = 1 := by
    have := congrFun (congrFun h1 k) k
    rw [Matrix.mul_apply, one_apply_eq] at this
    rw [← this]
    exact Finset.sum_congr rfl fun x _ => by rw [transpose_apply]; ring
  have hev : c ⬝ᵥ (M *ᵥ c) = (eigh M).val k := by
    have e1 : M *ᵥ c = fun x => c x * (eigh M).val k := by
      funext x
      have := congrFun (congrFun h2 x) k
      rw [Matrix.mul_apply, mul_diagonal] at this
      exact this
    rw [e1]
    show ∑ x, c x * (c x * (eigh M).val k) = _
    calc ∑ x, c x * (c x * (eigh M).val k) = (∑ x, c x ^ 2) * (eigh M).val k := by
          rw [Finset.sum_mul]; exact Finset.sum_congr rfl fun x _ => by ring
      _ = _ := by rw [hnorm, one_mul]
  have hpsd : (d * ((2 * alpha) • (rot * fullv * rotᵀ)) * d).PosSemidef := by
    have e1 : (rot * fullv * rotᵀ).PosSemidef := by
      have := hv.mul_mul_conjTranspose_same rot
      rwa [conjTranspose_eq_transpose_of_trivial] at this
    have e2 := (e1.smul (show (0 : ℝ) ≤ 2 * alpha by positivity)).mul_mul_conjTranspose_same d
    rwa [conjTranspose_eq_transpose_of_trivial, hd, diagonal_transpose] at e2
  have h3 : 0 ≤ c ⬝ᵥ ((d * ((2 * alpha) • (rot * fullv * rotᵀ)) * d) *ᵥ c) := by
    have := hpsd.dotProduct_mulVec_nonneg c
    rwa [star_trivial] at this
  have h4 : c ⬝ᵥ ((diagonal fun x => eps x ^ 2) *ᵥ c) = ∑ x, eps x ^ 2 * c x ^ 2 := by
    show ∑ x, c x * _ = _
    exact Finset.sum_congr rfl fun x _ => by rw [mulVec_diagonal]; ring
  have h5 : ∑ x, (1 / 10 ^ 12 : ℝ) * c x ^ 2 < ∑ x, eps x ^ 2 * c x ^ 2 := by
    have hlt : ∀ x, (1 / 10 ^ 12 : ℝ) < eps x ^ 2 := fun x => by
      have := heps x
      nlinarith
    obtain ⟨x, hx⟩ : ∃ x, c x ≠ 0 := by
      by_contra hcon
      push Not at hcon
      simp only [hcon] at hnorm
      norm_num at hnorm
    refine Finset.sum_lt_sum (fun y _ => mul_le_mul_of_nonneg_right (hlt y).le (sq_nonneg _)) ⟨x, Finset.mem_univ _, ?_⟩
    exact mul_lt_mul_of_pos_right (hlt x) (by positivity)
  rw [← Finset.mul_sum, hnorm, mul_one] at h5
  rw [← hev, hMd, Matrix.add_mulVec, dotProduct_add, h4]
  linarith

/-- `gen_moms` returns the moments of the response. -/
theorem genMom_eq (s : Amps (a ⊕ b)) (k : Nat) : genMom s k = mom s.xpy s.freqs k := by
  have key : ∀ x y, mom s.xpy s.freqs k x y = ∑ n, s.xpy x n * s.freqs n ^ k * s.xpy y n := by
    intro x y
    unfold mom
    rw [Matrix.mul_apply]
    exact Finset.sum_congr rfl fun n _ => by rw [mul_diagonal, transpose_apply]
  ext x y
  rw [key]
  rcases x with x | x <;> rcases y with y | y <;> simp only [genMom, fromBlocks_apply₁₁, fromBlocks_apply₁₂, fromBlocks_apply₂₁, fromBlocks_apply₂₂, transpose_apply, Matrix.of_apply]
  exact Finset.sum_congr rfl fun n _ => by ring

/-- **C73**: the moments of `gen_moms` are those of all solutions of the RPA equations, whatever eigenvectors were chosen. -/
theorem rpa_moments (eigh : Matrix (a ⊕ b) (a ⊕ b) ℝ → Eig (a ⊕ b) ℝ) (he : DiagonalisesSymmetric eigh) (eps : a ⊕ b → ℝ) (rot : Matrix (a ⊕ b) p ℝ)
    (fullv : Matrix p p ℝ) (hv : fullvᵀ = fullv) (alpha : ℝ) (r : Amps (a ⊕ b) × ℝ) (h : kernel eigh eps rot fullv alpha = .ok r)
    {X Y : Matrix (a ⊕ b) n ℝ} {w : n → ℝ} (hxy : SolvesRpa (diagonal eps + alpha • (rot * fullv * rotᵀ)) (alpha • (rot * fullv * rotᵀ)) X Y w) (k : Nat) :
    genMom r.1 k = responseMoment X Y w k := by
  rw [← response_moment_unique (rpa_solution eigh he eps rot fullv hv alpha r h) hxy k, genMom_eq]
  unfold responseMoment mom ampX ampY
  rw [half_add]

/-- **C73**: the zeroth moment is the positive definite solution of `η (A+B) η = A-B`, the first one is `A-B`, and two steps multiply with
`(A-B)(A+B)`. -/
theorem rpa_moment_relations (eigh : Matrix (a ⊕ b) (a ⊕ b) ℝ → Eig (a ⊕ b) ℝ) (he : DiagonalisesSymmetric eigh) (eps : a ⊕ b → ℝ) (rot : Matrix (a ⊕ b) p ℝ)
    (fullv : Matrix p p ℝ) (hv : fullvᵀ = fullv) (alpha : ℝ) (r : Amps (a ⊕ b) × ℝ) (h : kernel eigh eps rot fullv alpha = .ok r) :
    (∀ H : Matrix (a ⊕ b) (a ⊕ b) ℝ, H.PosDef ∧ H * (diagonal eps + (2 * alpha) • (rot * fullv * rotᵀ)) * H = diagonal eps ↔ H = genMom r.1 0)
    ∧ genMom r.1 1 = diagonal eps
    ∧ ∀ k, genMom r.1 (k + 2) = diagonal eps * (diagonal eps + (2 * alpha) • (rot * fullv * rotᵀ)) * genMom r.1 k := by
  have hs := (rt_sol eigh he eps _ (apb_symm rot fullv alpha eps hv) r.1 (kernel_ok h).1).2
  have hq : genApB rot fullv alpha eps = diagonal eps + (2 * alpha) • (rot * fullv * rotᵀ) := by
    unfold genApB; rw [Matrix.mul_smul, Matrix.smul_mul, add_comm]
  rw [hq] at hs
  refine ⟨fun H => ⟨fun hH => ?_, fun hH => ?_⟩, ?_, fun k => ?_⟩
  · rw [genMom_eq]; exact hs.unique hH.1 hH.2
  · rw [hH, genMom_eq]; exact ⟨hs.posDef, hs.riccati⟩
  · rw [genMom_eq]; exact hs.mom_one
  · rw [genMom_eq, genMom_eq]; exact hs.mom_step k

/-! ## Rotation of the excitation space -/

/-- With `ov_rot`, an orthonormal choice of excitations, the energies are diagonalised within their span; so `A` and `B` above are the ones of
the full space projected onto the new orthonormal rows. -/
theorem rpa_rotation (eigh : Matrix q q ℝ → Eig q ℝ) (he : DiagonalisesSymmetric eigh) (rot : Matrix q p ℝ) (hr : rot * rotᵀ = 1) (eps : p → ℝ) :
    let e' := (rotate eigh rot eps).1
    let rot' := (rotate eigh rot eps).2
    rot' * rot'ᵀ = 1 ∧ rot'ᵀ * rot' = rotᵀ * rot ∧ rot' * diagonal eps * rot'ᵀ = diagonal e'
      ∧ ∀ (fullv : Matrix p p ℝ) (alpha : ℝ), rot' * (diagonal eps + alpha • fullv) * rot'ᵀ = diagonal e' + alpha • (rot' * fullv * rot'ᵀ) := by
  intro e' rot'
  set x : Matrix q q ℝ := rot * diagonal eps * rotᵀ with hx
  have hxT : xᵀ = x := by rw [hx]; simp only [transpose_mul, transpose_transpose, diagonal_transpose, Matrix.mul_assoc]
  obtain ⟨h1, h2⟩ := he x hxT
  have h1' : (eigh x).vec * (eigh x).vecᵀ = 1 := mul_eq_one_comm.mp h1
  have hrot : rot' = (eigh x).vecᵀ * rot := rfl
  have hev : e' = (eigh x).val := rfl
  have h3 : rot' * diagonal eps * rot'ᵀ = diagonal e' := by
    rw [hrot, hev, transpose_mul, transpose_transpose]
    calc (eigh x).vecᵀ * rot * diagonal eps * (rotᵀ * (eigh x).vec) = (eigh x).vecᵀ * (x * (eigh x).vec) := by simp only [hx, Matrix.mul_assoc]
      _ = diagonal (eigh x).val := by rw [h2, ← Matrix.mul_assoc, h1, Matrix.one_mul]
  refine ⟨?_, ?_, h3, fun fullv alpha => ?_⟩
  · rw [hrot, transpose_mul, transpose_transpose]
    calc (eigh x).vecᵀ * rot * (rotᵀ * (eigh x).vec) = (eigh x).vecᵀ * (rot * rotᵀ) * (eigh x).vec := by simp only [Matrix.mul_assoc]
      _ = 1 := by rw [hr, Matrix.mul_one, h1]
  · rw [hrot, transpose_mul, transpose_transpose]
    calc rotᵀ * (eigh x).vec * ((eigh x).vecᵀ * rot) = rotᵀ * ((eigh x).vec * (eigh x).vecᵀ) * rot := by simp only [Matrix.mul_assoc]
      _ = rotᵀ * rot := by rw [h1', Matrix.mul_one]
  · rw [Matrix.mul_add, Matrix.add_mul, h3, Matrix.mul_smul, Matrix.smul_mul]

/-! ## Exchange-correlation kernels -/

private theorem eigh_form {x : Matrix q q ℝ} {g : Eig q ℝ} (h : IsEigh x g) : x = g.vec * diagonal g.val * g.vecᵀ := by
  rw [← h.2, Matrix.mul_assoc, mul_eq_one_comm.mp h.1, Matrix.mul_one]

private theorem form_posDef {g : Eig q ℝ} (h : g.vecᵀ * g.vec = 1) (w : q → ℝ) (hw : ∀ k, 0 < w k) : (g.vec * diagonal w * g.vecᵀ).PosDef := by
  have h' : g.vec * g.vecᵀ = 1 := mul_eq_one_comm.mp h
  have h1 : (diagonal w).PosDef := by rw [posDef_diagonal_iff]; exact hw
  have h2 := h1.mul_mul_conjTranspose_same (B := g.vec) (by
    intro x y hxy
    have h3 := congrArg (fun u => u ᵥ* g.vecᵀ) hxy
    simpa only [vecMul_vecMul, h', vecMul_one] using h3)
  rwa [conjTranspose_eq_transpose_of_trivial] at h2

private theorem ab_split (amb apb : Matrix q q ℝ) :
    (1 / 2 : ℝ) • (apb + amb) - (1 / 2 : ℝ) • (apb - amb) = amb ∧ (1 / 2 : ℝ) • (apb + amb) + (1 / 2 : ℝ) • (apb - amb) = apb :=
  ⟨half_sub _ _, half_add _ _⟩

theorem rpa_xc_sol (eigh : Matrix q q ℝ → Eig q ℝ) (he : DiagonalisesSymmetric eigh) (sqrtm : Matrix q q ℝ → Matrix q q ℝ)
    (hq : TakesRoots sqrtm) (amb apb : Matrix q q ℝ) (hm : ambᵀ = amb) (hp : apbᵀ = apb) (s : Amps q) (h : solveXc eigh sqrtm amb apb = .ok s) :
    Sol amb apb s.xpy s.xmy s.freqs := by
  unfold solveXc at h
  dsimp only at h
  split at h
  · rename_i hpos
    split at h
    · rename_i hpos2
      cases h
      have h2 := he amb hm
      have hp2 : ∀ k, 0 < (eigh amb).val k := fun k => lt_trans (by norm_num) (hpos2 k)
      have hpd : amb.PosDef := by rw [eigh_form h2]; exact form_posDef h2.1 _ hp2
      set rt : Matrix q q ℝ := (eigh amb).vec * diagonal (fun n => Real.sqrt ((eigh amb).val n)) * (eigh amb).vecᵀ with hrt
      set rtinv : Matrix q q ℝ := (eigh amb).vec * diagonal (fun n => (Real.sqrt ((eigh amb).val n))⁻¹) * (eigh amb).vecᵀ with hrti
      have h2' : (eigh amb).vec * (eigh amb).vecᵀ = 1 := mul_eq_one_comm.mp h2.1
      have prod : ∀ x y : q → ℝ, (eigh amb).vec * diagonal x * (eigh amb).vecᵀ * ((eigh amb).vec * diagonal y * (eigh amb).vecᵀ)
          = (eigh amb).vec * (diagonal fun k => x k * y k) * (eigh amb).vecᵀ := by
        intro x y
        calc (eigh amb).vec * diagonal x * (eigh amb).vecᵀ * ((eigh amb).vec * diagonal y * (eigh amb).vecᵀ)
            = (eigh amb).vec * (diagonal x * ((eigh amb).vecᵀ * (eigh amb).vec) * diagonal y) * (eigh amb).vecᵀ := by simp only [Matrix.mul_assoc]
          _ = _ := by rw [h2.1, Matrix.mul_one, diagonal_mul_diagonal]
      have hrr : rt * rt = amb := by
        rw [hrt, prod, eigh_form h2]
        congr 3
        · rw [← eigh_form h2]
        · rw [← eigh_form h2]; funext k; exact Real.mul_self_sqrt (hp2 k).le
        · rw [← eigh_form h2]
      have hri : rt * rtinv = 1 := by
        rw [hrt, hrti, prod]
        have : (fun k => Real.sqrt ((eigh amb).val k) * (Real.sqrt ((eigh amb).val k))⁻¹) = fun _ => (1 : ℝ) := by
          funext k; exact mul_inv_cancel₀ (Real.sqrt_pos.2 (hp2 k)).ne'
        rw [this, diagonal_one, Matrix.mul_one, h2']
      have hrtp : rt.PosDef := form_posDef h2.1 _ fun k => Real.sqrt_pos.2 (hp2 k)
      have hroot : sqrtm amb = rt := psd_root_unique (hq amb hpd).1 hrtp.posSemidef (by rw [(hq amb hpd).2, hrr])
      rw [hroot]
      rw [hroot] at hpos
      have hrT : rtᵀ = rt := by have := hrtp.1.eq; rwa [conjTranspose_eq_transpose_of_trivial] at this
      have hM : (rt * apb * rt)ᵀ = rt * apb * rt := by simp only [transpose_mul, hrT, hp, Matrix.mul_assoc]
      obtain ⟨e1, e2⟩ := he _ hM
      exact sol_of_root hrT hrr hri e1 e2 fun k => lt_trans (by norm_num) (hpos k)
    · cases h
  · cases h

/-- **C73**: also with an exchange-correlation kernel, for symmetric `A + B` and `A - B`, the results solve the RPA equations. -/
theorem rpa_xc_solution (eigh : Matrix q q ℝ → Eig q ℝ) (he : DiagonalisesSymmetric eigh) (sqrtm : Matrix q q ℝ → Matrix q q ℝ)
    (hq : TakesRoots sqrtm) (A B : Matrix q q ℝ) (hA : Aᵀ = A) (hB : Bᵀ = B) (s : Amps q) (h : solveXc eigh sqrtm (A - B) (A + B) = .ok s) :
    SolvesRpa A B (ampX s) (ampY s) s.freqs :=
  solves_of_sol (rpa_xc_sol eigh he sqrtm hq _ _ (by rw [transpose_sub, hA, hB]) (by rw [transpose_add, hA, hB]) s h)

theorem rpa_full_sol (eigh : Matrix q q ℝ → Eig q ℝ) (he : DiagonalisesSymmetric eigh) (sqrtm : Matrix q q ℝ → Matrix q q ℝ)
    (hq : TakesRoots sqrtm) (amb apb : Matrix q q ℝ) (hm : amb.PosDef) (hp : apbᵀ = apb) (r : Amps q × ℝ) (h : solveFull eigh sqrtm apb amb = .ok r) :
    Sol amb apb r.1.xpy r.1.xmy r.1.freqs ∧ r.2 = (∑ k, r.1.freqs k - (amb + apb).trace / 2) / 2 := by
  unfold solveFull at h
  dsimp only at h
  obtain ⟨h1, h2⟩ := hq amb hm
  set rt := sqrtm amb with hrt
  have hrT : rtᵀ = rt := by have := h1.1.eq; rwa [conjTranspose_eq_transpose_of_trivial] at this
  have hu : IsUnit rt.det := by
    have hd : rt.det * rt.det = amb.det := by rw [← det_mul, h2]
    have := hm.det_pos
    rw [isUnit_iff_ne_zero]
    intro h0
    rw [h0, mul_zero] at hd
    exact this.ne hd
  split at h
  · rename_i hpos
    cases h
    have hM : (rt * apb * rt)ᵀ = rt * apb * rt := by simp only [transpose_mul, hrT, hp, Matrix.mul_assoc]
    obtain ⟨e1, e2⟩ := he _ hM
    refine ⟨sol_of_root hrT h2 (mul_nonsing_inv rt hu) e1 e2 fun k => lt_trans (by norm_num) (hpos k), ?_⟩
    rw [trace_add]; ring
  · cases h

/-- **C73**: the same for the class with exchange, if `A - B` is positive definite. -/
theorem rpa_exchange_solution (eigh : Matrix q q ℝ → Eig q ℝ) (he : DiagonalisesSymmetric eigh) (sqrtm : Matrix q q ℝ → Matrix q q ℝ)
    (hq : TakesRoots sqrtm) (A B : Matrix q q ℝ) (hA : Aᵀ = A) (hB : Bᵀ = B) (hm : (A - B).PosDef) (r : Amps q × ℝ)
    (h : solveFull eigh sqrtm (A + B) (A - B) = .ok r) : SolvesRpa A B (ampX r.1) (ampY r.1) r.1.freqs :=
  solves_of_sol (rpa_full_sol eigh he sqrtm hq _ _ hm (by rw [transpose_add, hA, hB]) r h).1

/-- Integrals `(ia|bj)` in the particle-hole space. -/
def ovvo (g : o ⊕ v → o ⊕ v → o' ⊕ v' → o' ⊕ v' → ℝ) : Matrix (o × v) (o' × v') ℝ :=
  Matrix.of fun x y => g (.inl x.1) (.inr x.2) (.inr y.2) (.inl y.1)

private theorem kernelA_eq (k : ι → ι → ι → ι → ℝ) (co : Matrix ι o ℝ) (cv : Matrix ι v ℝ) (co' : Matrix ι o' ℝ) (cv' : Matrix ι v' ℝ) :
    kernelA k co cv co' cv' = ovov (ao2mo k (fromCols co cv) (fromCols co' cv')) := rfl

private theorem kernelB_eq (k : ι → ι → ι → ι → ℝ) (co : Matrix ι o ℝ) (cv : Matrix ι v ℝ) (co' : Matrix ι o' ℝ) (cv' : Matrix ι v' ℝ) :
    kernelB k co cv co' cv' = ovvo (ao2mo k (fromCols co cv) (fromCols co' cv')) := by
  ext x y
  refine Finset.sum_congr rfl fun p _ => Finset.sum_congr rfl fun q _ => Finset.sum_congr rfl fun s _ => Finset.sum_congr rfl fun r _ => ?_
  simp only [fromCols_apply_inl, fromCols_apply_inr]
  ring

/-- **C73**: contributions of a kernel given by arrays are `A ± B` with `A = (ia|jb)` and `B = (ia|bj)` of the kernel, for all spins. -/
theorem xc_arrays {aux : Type} [Fintype aux] (aa ab bb : ι → ι → ι → ι → ℝ) (coa : Matrix ι o ℝ) (cva : Matrix ι v ℝ) (cob : Matrix ι o' ℝ)
    (cvb : Matrix ι v' ℝ) (alpha : ℝ) :
    let gaa := ao2mo aa (fromCols coa cva) (fromCols coa cva)
    let gab := ao2mo ab (fromCols coa cva) (fromCols cob cvb)
    let gbb := ao2mo bb (fromCols cob cvb) (fromCols cob cvb)
    let A := fromBlocks (ovov gaa) (ovov gab) (ovov gab)ᵀ (ovov gbb)
    let B := fromBlocks (ovvo gaa) (ovvo gab) (ovvo gab)ᵀ (ovvo gbb)
    xcContribs (.arrays aa ab bb : Kernel ι aux) coa cva cob cvb alpha = (alpha • (A + B), alpha • (A - B)) := by
  intro gaa gab gbb A B
  unfold xcContribs
  simp only [Kernel.parts, kernelA_eq, kernelB_eq]
  refine Prod.ext ?_ ?_
  · show alpha • _ = alpha • (A + B)
    rw [fromBlocks_add]
  · show alpha • _ = alpha • (A - B)
    rw [sub_eq_add_neg A B, fromBlocks_neg, fromBlocks_add]
    simp only [sub_eq_add_neg]
    rfl

/-- The Coulomb interaction given as a kernel counts like the Coulomb interaction itself: it adds `2 V` to `A + B` and nothing to `A - B`. -/
theorem xc_coulomb {aux : Type} [Fintype aux] (eri : ι → ι → ι → ι → ℝ) (hs : ∀ p q r s, eri p q s r = eri p q r s) (coa : Matrix ι o ℝ) (cva : Matrix ι v ℝ)
    (cob : Matrix ι o' ℝ) (cvb : Matrix ι v' ℝ) :
    xcContribs (.arrays eri eri eri : Kernel ι aux) coa cva cob cvb 1
      = ((2 : ℝ) • getKU (ao2mo eri (fromCols coa cva) (fromCols coa cva)) (ao2mo eri (fromCols coa cva) (fromCols cob cvb))
          (ao2mo eri (fromCols cob cvb) (fromCols cob cvb)), 0) := by
  have key : ∀ {r s : Type} (c : Matrix ι r ℝ) (c' : Matrix ι s ℝ) (i j : r) (k l : s), ao2mo eri c c' i j l k = ao2mo eri c c' i j k l := by
    intro r s c c' i j k l
    unfold ao2mo
    refine Finset.sum_congr rfl fun x _ => Finset.sum_congr rfl fun y _ => ?_
    rw [Finset.sum_comm]
    refine Finset.sum_congr rfl fun z _ => Finset.sum_congr rfl fun u _ => ?_
    rw [hs x y z u]; ring
  have h : ∀ {o v o' v' : Type} (c : Matrix ι (o ⊕ v) ℝ) (c' : Matrix ι (o' ⊕ v') ℝ), ovvo (ao2mo eri c c') = ovov (ao2mo eri c c') := by
    intro o v o' v' c c'
    ext x y; exact key c c' _ _ _ _
  have := xc_arrays (aux := aux) eri eri eri coa cva cob cvb 1
  dsimp only at this
  rw [this, h, h, h, one_smul, one_smul, sub_self, ← two_smul ℝ]
  rfl

/-- Symmetric kernels give symmetric contributions. -/
theorem xc_symmetric {aux : Type} [Fintype aux] (aa ab bb : ι → ι → ι → ι → ℝ) (ha : ∀ p q r s, aa r s p q = aa p q r s) (ha' : ∀ p q r s, aa q p s r = aa p q r s)
    (hb : ∀ p q r s, bb r s p q = bb p q r s) (hb' : ∀ p q r s, bb q p s r = bb p q r s) (coa : Matrix ι o ℝ) (cva : Matrix ι v ℝ) (cob : Matrix ι o' ℝ)
    (cvb : Matrix ι v' ℝ) (alpha : ℝ) :
    let x := xcContribs (.arrays aa ab bb : Kernel ι aux) coa cva cob cvb alpha
    x.1ᵀ = x.1 ∧ x.2ᵀ = x.2 := by
  have hA : ∀ {o v : Type} (k : ι → ι → ι → ι → ℝ) (_ : ∀ p q r s, k r s p q = k p q r s) (co : Matrix ι o ℝ) (cv : Matrix ι v ℝ),
      (kernelA k co cv co cv)ᵀ = kernelA k co cv co cv := by
    intro o v k hk co cv
    ext x y
    simp only [transpose_apply, kernelA, Matrix.of_apply]
    calc ∑ p, ∑ q, ∑ r, ∑ s, k p q r s * co p y.1 * cv q y.2 * co r x.1 * cv s x.2
        = ∑ r, ∑ s, ∑ p, ∑ q, k p q r s * co p y.1 * cv q y.2 * co r x.1 * cv s x.2 := by
          have e1 : ∀ p : ι, ∑ q, ∑ r, ∑ s, k p q r s * co p y.1 * cv q y.2 * co r x.1 * cv s x.2
              = ∑ r, ∑ s, ∑ q, k p q r s * co p y.1 * cv q y.2 * co r x.1 * cv s x.2 := by
            intro p
            rw [Finset.sum_comm]
            exact Finset.sum_congr rfl fun r _ => Finset.sum_comm
          simp only [e1]
          rw [Finset.sum_comm]
          exact Finset.sum_congr rfl fun r _ => Finset.sum_comm
      _ = _ := by
          refine Finset.sum_congr rfl fun r _ => Finset.sum_congr rfl fun s _ => Finset.sum_congr rfl fun p _ => Finset.sum_congr rfl fun q _ => ?_
          rw [hk r s p q]; ring
  have hB : ∀ {o v : Type} (k : ι → ι → ι → ι → ℝ) (_ : ∀ p q r s, k r s p q = k p q r s) (_ : ∀ p q r s, k q p s r = k p q r s)
      (co : Matrix ι o ℝ) (cv : Matrix ι v ℝ), (kernelB k co cv co cv)ᵀ = kernelB k co cv co cv := by
    intro o v k hk hk' co cv
    ext x y
    simp only [transpose_apply, kernelB, Matrix.of_apply]
    calc ∑ p, ∑ q, ∑ s, ∑ r, k p q s r * co p y.1 * cv q y.2 * co r x.1 * cv s x.2
        = ∑ r, ∑ s, ∑ q, ∑ p, k p q s r * co p y.1 * cv q y.2 * co r x.1 * cv s x.2 := by
          have e1 : ∀ p : ι, ∑ q, ∑ s, ∑ r, k p q s r * co p y.1 * cv q y.2 * co r x.1 * cv s x.2
              = ∑ r, ∑ s, ∑ q, k p q s r * co p y.1 * cv q y.2 * co r x.1 * cv s x.2 := by
            intro p
            calc ∑ q, ∑ s, ∑ r, k p q s r * co p y.1 * cv q y.2 * co r x.1 * cv s x.2
                = ∑ q, ∑ r, ∑ s, k p q s r * co p y.1 * cv q y.2 * co r x.1 * cv s x.2 := Finset.sum_congr rfl fun q _ => Finset.sum_comm
              _ = ∑ r, ∑ q, ∑ s, k p q s r * co p y.1 * cv q y.2 * co r x.1 * cv s x.2 := Finset.sum_comm
              _ = _ := Finset.sum_congr rfl fun r _ => Finset.sum_comm
          simp only [e1]
          rw [Finset.sum_comm]
          refine Finset.sum_congr rfl fun r _ => ?_
          rw [Finset.sum_comm]
          exact Finset.sum_congr rfl fun s _ => Finset.sum_comm
      _ = _ := by
          refine Finset.sum_congr rfl fun r _ => Finset.sum_congr rfl fun s _ => Finset.sum_congr rfl fun q _ => Finset.sum_congr rfl fun p _ => ?_
          rw [(hk' s r p q).trans (hk p q s r)]; ring
  intro x
  have e1 := hA aa ha coa cva
  have e2 := hA bb hb cob cvb
  have e3 := hB aa ha ha' coa cva
  have e4 := hB bb hb hb' cob cvb
  constructor
  · show (alpha • _)ᵀ = alpha • _
    rw [transpose_smul, fromBlocks_transpose]
    simp only [transpose_add, transpose_transpose, Kernel.parts, e1, e2, e3, e4]
  · show (alpha • _)ᵀ = alpha • _
    rw [transpose_smul, fromBlocks_transpose]
    simp only [transpose_sub, transpose_transpose, Kernel.parts, e1, e2, e3, e4]

/-- The kernel that is meant by factors per spin: products of a left and a right factor, also between different spins. -/
def factorProducts {aux : Type} [Fintype aux] (la ra lb rb : aux → ι → ι → ℝ) : Kernel ι aux :=
  .arrays (fun p q r s => ∑ n, la n p q * ra n r s) (fun p q r s => ∑ n, la n p q * rb n r s) (fun p q r s => ∑ n, lb n p q * rb n r s)

/-- **C73** for factorised kernels holds only if the right factors of both spins agree. -/
theorem xc_factors_partial {aux : Type} [Fintype aux] (la ra lb rb : aux → ι → ι → ℝ) (h : ra = rb) (coa : Matrix ι o ℝ) (cva : Matrix ι v ℝ)
    (cob : Matrix ι o' ℝ) (cvb : Matrix ι v' ℝ) (alpha : ℝ) :
    xcContribs (.factors la ra lb rb) coa cva cob cvb alpha = xcContribs (factorProducts la ra lb rb) coa cva cob cvb alpha := by
  subst h; rfl

/-- Otherwise the interaction between spins is wrong: here the right factor of beta electrons is zero, but both spins interact. -/
theorem xc_factors_broken : ∃ (la ra lb rb : Unit → Fin 2 → Fin 2 → ℝ) (co cv : Matrix (Fin 2) Unit ℝ),
    xcContribs (.factors la ra lb rb) co cv co cv 1 ≠ xcContribs (factorProducts la ra lb rb) co cv co cv 1 := by
  refine ⟨fun _ _ _ => 1, fun _ _ _ => 1, fun _ _ _ => 0, fun _ _ _ => 0, Matrix.of fun _ _ => 1, Matrix.of fun _ _ => 1, fun h => ?_⟩
  have h1 := congrFun (congrFun (congrArg Prod.fst h) (.inl ((), ()))) (.inr ((), ()))
  simp [xcContribs, factorProducts, Kernel.parts, kernelA, kernelB] at h1

/-! ## Restricted and unrestricted -/

/-- **C73**: for equal orbitals of both spins the unrestricted class has the interaction and energies of the restricted one. -/
theorem rpa_unrestricted_same (g : o ⊕ v → o ⊕ v → o ⊕ v → o ⊕ v → ℝ) (hg : ∀ i j k l, g k l i j = g i j k l) : getKU g g g = getKR g := by
  unfold getKU getKR
  have : (ovov g)ᵀ = ovov g := by ext x y; exact hg _ _ _ _
  rw [this]

/-- Interactions with the symmetry of real integrals are symmetric. -/
theorem rpa_interaction_symmetric (gaa : o ⊕ v → o ⊕ v → o ⊕ v → o ⊕ v → ℝ) (gab : o ⊕ v → o ⊕ v → o' ⊕ v' → o' ⊕ v' → ℝ)
    (gbb : o' ⊕ v' → o' ⊕ v' → o' ⊕ v' → o' ⊕ v' → ℝ) (ha : ∀ i j k l, gaa k l i j = gaa i j k l) (hb : ∀ i j k l, gbb k l i j = gbb i j k l) :
    (getKU gaa gab gbb)ᵀ = getKU gaa gab gbb := by
  unfold getKU
  have h1 : (ovov gaa)ᵀ = ovov gaa := by ext x y; exact ha _ _ _ _
  have h2 : (ovov gbb)ᵀ = ovov gbb := by ext x y; exact hb _ _ _ _
  rw [fromBlocks_transpose, transpose_transpose, h1, h2]

/-- The occupied orbital of an excitation. -/
def holeOf (coa : Matrix ι o ℝ) (cob : Matrix ι o' ℝ) : o × v ⊕ o' × v' → ι → ℝ
  | .inl x => fun p => coa p x.1
  | .inr x => fun p => cob p x.1

/-- The virtual orbital of an excitation. -/
def particleOf (cva : Matrix ι v ℝ) (cvb : Matrix ι v' ℝ) : o × v ⊕ o' × v' → ι → ℝ
  | .inl x => fun p => cva p x.2
  | .inr x => fun p => cvb p x.2

/-- Energy of the virtual minus energy of the occupied orbital. -/
def gapOf (eoa : o → ℝ) (eva : v → ℝ) (eob : o' → ℝ) (evb : v' → ℝ) : o × v ⊕ o' × v' → ℝ
  | .inl (i, a) => eva a - eoa i
  | .inr (i, a) => evb a - eob i

/-- **C73**: in terms of orbitals, the equations solved are those with `A_(ia,jb) = δ_ij δ_ab (ε_a - ε_i) + α (ia|jb)` and `B_(ia,jb) = α (ia|jb)`, for
excitations of both spins. -/
theorem rpa_orbitals [Fintype o] [DecidableEq o] [Fintype v] [DecidableEq v] [Fintype o'] [DecidableEq o'] [Fintype v'] [DecidableEq v']
    (eigh : Matrix (o × v ⊕ o' × v') (o × v ⊕ o' × v') ℝ → Eig (o × v ⊕ o' × v') ℝ) (he : DiagonalisesSymmetric eigh)
    (eri : ι → ι → ι → ι → ℝ) (hs : ∀ p q r s, eri r s p q = eri p q r s)
    (coa : Matrix ι o ℝ) (cva : Matrix ι v ℝ) (cob : Matrix ι o' ℝ) (cvb : Matrix ι v' ℝ) (eoa : o → ℝ) (eva : v → ℝ) (eob : o' → ℝ) (evb : v' → ℝ) (alpha : ℝ)
    (r : Amps (o × v ⊕ o' × v') × ℝ)
    (h : kernel eigh (concat (genEps eoa eva) (genEps eob evb)) 1 (getKU (ao2mo eri (fromCols coa cva) (fromCols coa cva))
      (ao2mo eri (fromCols coa cva) (fromCols cob cvb)) (ao2mo eri (fromCols cob cvb) (fromCols cob cvb))) alpha = .ok r)
    (A B : Matrix (o × v ⊕ o' × v') (o × v ⊕ o' × v') ℝ)
    (hB : ∀ x y, B x y = alpha * ∑ p, ∑ q, ∑ k, ∑ l, eri p q k l * holeOf coa cob x p * particleOf cva cvb x q * holeOf coa cob y k * particleOf cva cvb y l)
    (hA : ∀ x y, A x y = (if x = y then gapOf eoa eva eob evb x else 0) + B x y) :
    SolvesRpa A B (ampX r.1) (ampY r.1) r.1.freqs := by
  have hsym : ∀ {r s : Type} (c : Matrix ι r ℝ) (c' : Matrix ι s ℝ) (i j : r) (k l : s), ao2mo eri c' c k l i j = ao2mo eri c c' i j k l := by
    intro r s c c' i j k l
    unfold ao2mo
    have h1 : ∀ f : ι → ι → ι → ι → ℝ, ∑ x, ∑ y, ∑ z, ∑ u, f x y z u = ∑ z, ∑ u, ∑ x, ∑ y, f x y z u := by
      intro f
      have e1 : ∑ x, ∑ y, ∑ z, ∑ u, f x y z u = ∑ a : ι × ι, ∑ b : ι × ι, f a.1 a.2 b.1 b.2 := by simp only [Fintype.sum_prod_type]
      have e2 : ∑ z, ∑ u, ∑ x, ∑ y, f x y z u = ∑ b : ι × ι, ∑ a : ι × ι, f a.1 a.2 b.1 b.2 := by simp only [Fintype.sum_prod_type]
      rw [e1, e2]
      exact Finset.sum_comm
    rw [h1]
    beta_reduce
    refine Finset.sum_congr rfl fun z _ => ?_
    refine Finset.sum_congr rfl fun u _ => ?_
    refine Finset.sum_congr rfl fun x _ => ?_
    refine Finset.sum_congr rfl fun y _ => ?_
    rw [hs z u x y]; ring
  have hk := rpa_solution eigh he _ 1 _ (rpa_interaction_symmetric _ _ _ (fun i j k l => hsym _ _ i j k l) (fun i j k l => hsym _ _ i j k l)) alpha r h
  rw [Matrix.one_mul, transpose_one, Matrix.mul_one] at hk
  have hBB : B = alpha • getKU (ao2mo eri (fromCols coa cva) (fromCols coa cva)) (ao2mo eri (fromCols coa cva) (fromCols cob cvb)) (ao2mo eri (fromCols cob cvb) (fromCols cob cvb)) := by
    ext x y
    rw [hB, Matrix.smul_apply, smul_eq_mul]
    congr 1
    rcases x with x | x <;> rcases y with y | y
    · rfl
    · rfl
    · exact hsym (fromCols coa cva) (fromCols cob cvb) (.inl y.1) (.inr y.2) (.inl x.1) (.inr x.2)
    · rfl
  have hAA : A = diagonal (concat (genEps eoa eva) (genEps eob evb)) + B := by
    ext x y
    rw [hA, Matrix.add_apply, diagonal_apply]
    congr 1
    by_cases hxy : x = y
    · rw [if_pos hxy, if_pos hxy]
      rcases x with x | x <;> rfl
    · rw [if_neg hxy, if_neg hxy]
  rw [hAA, hBB]
  exact hk

/-! ## Examples -/

/-- A right eigensolver over the reals, for any index type. -/
noncomputable def anyEigh (x : Matrix q q ℝ) : Eig q ℝ :=
  open Classical in
  if h : x.IsHermitian then ⟨h.eigenvalues, (h.eigenvectorUnitary : Matrix q q ℝ)⟩ else ⟨0, 0⟩

theorem anyEigh_diagonalises : DiagonalisesSymmetric (anyEigh (q := q)) := by
  intro x hx
  have h : x.IsHermitian := by rw [Matrix.IsHermitian, conjTranspose_eq_transpose_of_trivial]; exact hx
  have hu : (h.eigenvectorUnitary : Matrix q q ℝ)ᵀ * (h.eigenvectorUnitary : Matrix q q ℝ) = 1 := by
    have := (Matrix.mem_unitaryGroup_iff'.mp h.eigenvectorUnitary.2)
    rwa [star_eq_conjTranspose, conjTranspose_eq_transpose_of_trivial] at this
  unfold IsEigh anyEigh
  rw [dif_pos h]
  refine ⟨hu, ?_⟩
  have hsp := h.spectral_theorem
  rw [Unitary.conjStarAlgAut_apply] at hsp
  show x * (h.eigenvectorUnitary : Matrix q q ℝ) = _
  refine (congrArg (fun z => z * (h.eigenvectorUnitary : Matrix q q ℝ)) hsp).trans ?_
  show _ * _ * _ * _ = _
  have hu' : star (h.eigenvectorUnitary : Matrix q q ℝ) * (h.eigenvectorUnitary : Matrix q q ℝ) = 1 := by
    rw [star_eq_conjTranspose, conjTranspose_eq_transpose_of_trivial]; exact hu
  rw [Matrix.mul_assoc, hu', Matrix.mul_one]
  rfl

open scoped MatrixOrder in
/-- A right matrix root over the reals. -/
theorem takesRoots_cfc : TakesRoots (CFC.sqrt : Matrix q q ℝ → Matrix q q ℝ) := fun x hx =>
  ⟨(CFC.sqrt_nonneg x).posSemidef, CFC.sqrt_mul_sqrt_self x hx.posSemidef.nonneg⟩

/-- Two alpha and two beta excitations, with repulsion within and between spins. -/
def demoV : Matrix (Fin 2 ⊕ Fin 2) (Fin 2 ⊕ Fin 2) ℝ := fromBlocks 1 1 1 1

/-- Their energies. -/
def demoEps : Fin 2 ⊕ Fin 2 → ℝ := concat (fun _ => 1) fun _ => 2

theorem demoV_psd : demoV.PosSemidef := by
  have : demoV = (fromCols 1 1 : Matrix (Fin 2) (Fin 2 ⊕ Fin 2) ℝ)ᴴ * fromCols 1 1 := by
    ext (x | x) (y | y) <;> fin_cases x <;> fin_cases y <;> simp [demoV, Matrix.mul_apply]
  rw [this]; exact posSemidef_conjTranspose_mul_self _

theorem demoV_symm : demoVᵀ = demoV := by have := demoV_psd.1.eq; rwa [conjTranspose_eq_transpose_of_trivial] at this

theorem demoEps_gap : ∀ x, 1 / 10 ^ 6 < demoEps x := by
  rintro (x | x) <;> simp only [demoEps, concat, Sum.elim_inl, Sum.elim_inr] <;> norm_num

/-- The hypotheses can be met, at any strength of the interaction. -/
example (alpha : ℝ) (h : 0 ≤ alpha) : ∃ r, kernel anyEigh demoEps 1 demoV alpha = .ok r ∧
    SolvesRpa (diagonal demoEps + alpha • (1 * demoV * 1ᵀ)) (alpha • (1 * demoV * 1ᵀ)) (ampX r.1) (ampY r.1) r.1.freqs := by
  obtain ⟨r, hr⟩ := rpa_succeeds anyEigh anyEigh_diagonalises demoEps demoEps_gap 1 demoV demoV_psd alpha h
  exact ⟨r, hr, rpa_solution _ anyEigh_diagonalises _ _ _ demoV_symm _ r hr⟩

/-- Lower bounds of a matrix bound its eigenvalues. -/
theorem eigh_bounded {x : Matrix q q ℝ} {g : Eig q ℝ} (h : IsEigh x g) (c : ℝ) (hc : (x - c • (1 : Matrix q q ℝ)).PosSemidef) (k : q) : c ≤ g.val k := by
  have h1 := hc.conjTranspose_mul_mul_same g.vec
  rw [conjTranspose_eq_transpose_of_trivial] at h1
  have h2 : g.vecᵀ * (x - c • (1 : Matrix q q ℝ)) * g.vec = diagonal fun k => g.val k - c := by
    have : (diagonal fun k => g.val k - c) = diagonal g.val - c • (1 : Matrix q q ℝ) := by
      ext i j
      by_cases hij : i = j
      · subst hij; simp [Matrix.sub_apply]
      · simp [Matrix.sub_apply, hij]
    rw [this, Matrix.mul_sub, Matrix.sub_mul, Matrix.mul_assoc, h.2, ← Matrix.mul_assoc, h.1, Matrix.one_mul, Matrix.mul_smul, Matrix.mul_one,
      Matrix.smul_mul, h.1]
  rw [h2, posSemidef_diagonal_iff] at h1
  have := h1 k
  linarith

/-- `A - B = 4` and `A + B` a matrix with eigenvalues 1 and 3. -/
def demoApB : Matrix (Fin 2) (Fin 2) ℝ := !![2, 1; 1, 2]

theorem demoApB_psd : (demoApB - (1 : ℝ) • (1 : Matrix (Fin 2) (Fin 2) ℝ)).PosSemidef := by
  have : demoApB - (1 : ℝ) • (1 : Matrix (Fin 2) (Fin 2) ℝ) = (!![1, 1; 0, 0] : Matrix (Fin 2) (Fin 2) ℝ)ᴴ * !![1, 1; 0, 0] := by
    ext i j; fin_cases i <;> fin_cases j <;> norm_num [demoApB, Matrix.mul_apply, Fin.sum_univ_two, Matrix.sub_apply]
  rw [this]; exact posSemidef_conjTranspose_mul_self _

open scoped MatrixOrder in
theorem demo_sqrt : CFC.sqrt ((4 : ℝ) • (1 : Matrix (Fin 2) (Fin 2) ℝ)) = (2 : ℝ) • 1 := by
  have h4 : ((4 : ℝ) • (1 : Matrix (Fin 2) (Fin 2) ℝ)).PosDef := PosDef.one.smul (by norm_num)
  refine psd_root_unique (takesRoots_cfc _ h4).1 (PosDef.one.smul (by norm_num : (0 : ℝ) < 2)).posSemidef ?_
  rw [(takesRoots_cfc _ h4).2, Matrix.smul_mul, Matrix.one_mul, smul_smul]; norm_num

open scoped MatrixOrder in
theorem demo_gap (k : Fin 2) : 1 / 10 ^ 12 < (anyEigh (CFC.sqrt ((4 : ℝ) • (1 : Matrix (Fin 2) (Fin 2) ℝ)) * demoApB * CFC.sqrt ((4 : ℝ) • (1 : Matrix (Fin 2) (Fin 2) ℝ)))).val k := by
  rw [demo_sqrt]
  have e : (2 : ℝ) • (1 : Matrix (Fin 2) (Fin 2) ℝ) * demoApB * ((2 : ℝ) • 1) = (4 : ℝ) • demoApB := by
    rw [Matrix.smul_mul, Matrix.one_mul, Matrix.mul_smul, Matrix.mul_one, smul_smul]; norm_num
  rw [e]
  have hT : ((4 : ℝ) • demoApB)ᵀ = (4 : ℝ) • demoApB := by
    ext i j; fin_cases i <;> fin_cases j <;> simp [demoApB]
  have hp : ((4 : ℝ) • demoApB - (4 : ℝ) • (1 : Matrix (Fin 2) (Fin 2) ℝ)).PosSemidef := by
    have h1 := demoApB_psd.smul (show (0 : ℝ) ≤ 4 by norm_num)
    rwa [smul_sub, one_smul] at h1
  have := eigh_bounded (anyEigh_diagonalises _ hT) 4 hp k
  linarith [show (1 / 10 ^ 12 : ℝ) < 4 by norm_num]

open scoped MatrixOrder in
/-- The hypotheses with kernels can be met. -/
example : ∃ s, solveXc anyEigh CFC.sqrt ((4 : ℝ) • (1 : Matrix (Fin 2) (Fin 2) ℝ)) demoApB = .ok s ∧ Sol ((4 : ℝ) • 1) demoApB s.xpy s.xmy s.freqs := by
  have hm : ((4 : ℝ) • (1 : Matrix (Fin 2) (Fin 2) ℝ))ᵀ = (4 : ℝ) • 1 := by rw [transpose_smul, transpose_one]
  have hp : demoApBᵀ = demoApB := by ext i j; fin_cases i <;> fin_cases j <;> rfl
  have h : ∃ s, solveXc anyEigh CFC.sqrt ((4 : ℝ) • (1 : Matrix (Fin 2) (Fin 2) ℝ)) demoApB = .ok s := by
    unfold solveXc
    dsimp only
    rw [if_pos demo_gap, if_pos]
    · exact ⟨_, rfl⟩
    · intro k
      have := eigh_bounded (anyEigh_diagonalises _ hm) 4 (by rw [sub_self]; exact PosSemidef.zero) k
      linarith [show (1 / 10 ^ 12 : ℝ) < 4 by norm_num]
  obtain ⟨s, hs⟩ := h
  exact ⟨s, hs, rpa_xc_sol _ anyEigh_diagonalises _ takesRoots_cfc _ _ hm hp s hs⟩

open scoped MatrixOrder in
example : ∃ r, solveFull anyEigh CFC.sqrt demoApB ((4 : ℝ) • (1 : Matrix (Fin 2) (Fin 2) ℝ)) = .ok r := by
  unfold solveFull
  dsimp only
  rw [if_pos demo_gap]
  exact ⟨_, rfl⟩

/-- A negative energy difference is refused. -/
example : kernel anyEigh (fun _ : Fin 1 => (-1 : ℝ)) 1 (0 : Matrix (Fin 1) (Fin 1) ℝ) 1 = .error .assertionError := by
  unfold kernel solve
  rw [if_pos ⟨0, by norm_num⟩]; rfl

end Vayesta.Props
