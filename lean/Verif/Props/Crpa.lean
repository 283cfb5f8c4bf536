import Verif.Props.Screening

/-! C78: static interactions from constrained RPA. -/

namespace Vayesta.Props
set_option linter.unusedSectionVars false
open Rpa Lowdin Matrix Lemmas Lemmas.Rpa Screening

variable {c d c' d' pa pb ra rb p q r m n aux : Type} [Fintype c] [Fintype d] [Fintype c'] [Fintype d'] [DecidableEq c] [DecidableEq d] [DecidableEq c'] [DecidableEq d']
  [Fintype pa] [Fintype pb] [DecidableEq pa] [DecidableEq pb] [Fintype ra] [Fintype rb] [DecidableEq ra] [DecidableEq rb] [Fintype aux]
  [Fintype p] [DecidableEq p] [Fintype q] [DecidableEq q] [Fintype r] [DecidableEq r] [Fintype m] [DecidableEq m] [Fintype n] [DecidableEq n]

/-! ## Specification -/

/-- Orthonormal excitations of a cluster, and an orthonormal basis of all others. -/
structure Complement (loc : Matrix q p ℝ) (rest : Matrix r p ℝ) : Prop where
  locNormal : loc * locᵀ = 1
  restNormal : rest * restᵀ = 1
  orthogonal : loc * restᵀ = 0
  complete : locᵀ * loc + restᵀ * rest = 1

/-- Integrals of the orbitals of the cluster are the ones of the excitations of the system, where one orbital is occupied and the other virtual. -/
def SameIntegrals (s : SpinData aux c d p r) : Prop :=
  ∀ n i a, s.lpq n (.inl i, .inr a) = (s.lov * s.rotLocᵀ) n (i, a) ∧ s.lpq n (.inr a, .inl i) = (s.lov * s.rotLocᵀ) n (i, a)

/-- Four-index integrals, of both spins. -/
abbrev Integrals (c d c' d' : Type) :=
  (c ⊕ d → c ⊕ d → c ⊕ d → c ⊕ d → ℝ) × (c ⊕ d → c ⊕ d → c' ⊕ d' → c' ⊕ d' → ℝ) × (c' ⊕ d' → c' ⊕ d' → c' ⊕ d' → c' ⊕ d' → ℝ)

/-- The matrix of the integrals `(ia|jb)`, which couple excitations. -/
def excitationPart (w : Integrals c d c' d') : Matrix (c × d ⊕ c' × d') (c × d ⊕ c' × d') ℝ :=
  fromBlocks (Matrix.of fun x y => w.1 (.inl x.1) (.inr x.2) (.inl y.1) (.inr y.2)) (Matrix.of fun x y => w.2.1 (.inl x.1) (.inr x.2) (.inl y.1) (.inr y.2))
    (Matrix.of fun x y => w.2.1 (.inl y.1) (.inr y.2) (.inl x.1) (.inr x.2)) (Matrix.of fun x y => w.2.2 (.inl x.1) (.inr x.2) (.inl y.1) (.inr y.2))

/-- The matrix of the integrals `(ia|bj)`, which couple excitations to de-excitations. -/
def deexcitationPart (w : Integrals c d c' d') : Matrix (c × d ⊕ c' × d') (c × d ⊕ c' × d') ℝ :=
  fromBlocks (Matrix.of fun x y => w.1 (.inl x.1) (.inr x.2) (.inr y.2) (.inl y.1)) (Matrix.of fun x y => w.2.1 (.inl x.1) (.inr x.2) (.inr y.2) (.inl y.1))
    (Matrix.of fun x y => w.2.1 (.inl y.1) (.inr y.2) (.inr x.2) (.inl x.1)) (Matrix.of fun x y => w.2.2 (.inl x.1) (.inr x.2) (.inr y.2) (.inl y.1))

/-! ## Schur complements -/

private theorem schur {C : Matrix q p ℝ} {R : Matrix r p ℝ} (h : Complement C R) (N Ni : Matrix p p ℝ) (hN : N * Ni = 1) (H : Matrix r r ℝ)
    (hH : H * (R * N * Rᵀ) = 1) : (C * N * Cᵀ - C * N * Rᵀ * H * (R * N * Cᵀ)) * (C * Ni * Cᵀ) = 1 := by
  have e1 : C * N * Cᵀ * (C * Ni * Cᵀ) + C * N * Rᵀ * (R * Ni * Cᵀ) = 1 := by
    calc _ = C * N * (Cᵀ * C + Rᵀ * R) * Ni * Cᵀ := by simp only [Matrix.mul_add, Matrix.add_mul, Matrix.mul_assoc]
      _ = C * (N * Ni) * Cᵀ := by rw [h.complete, Matrix.mul_one, Matrix.mul_assoc C]
      _ = 1 := by rw [hN, Matrix.mul_one, h.locNormal]
  have e2 : R * N * Cᵀ * (C * Ni * Cᵀ) + R * N * Rᵀ * (R * Ni * Cᵀ) = 0 := by
    calc _ = R * N * (Cᵀ * C + Rᵀ * R) * Ni * Cᵀ := by simp only [Matrix.mul_add, Matrix.add_mul, Matrix.mul_assoc]
      _ = R * (N * Ni) * Cᵀ := by rw [h.complete, Matrix.mul_one, Matrix.mul_assoc R]
      _ = 0 := by
        rw [hN, Matrix.mul_one]
        have := congrArg transpose h.orthogonal
        rwa [transpose_mul, transpose_transpose, transpose_zero] at this
  have e3 : R * Ni * Cᵀ = -(H * (R * N * Cᵀ) * (C * Ni * Cᵀ)) := by
    calc R * Ni * Cᵀ = H * (R * N * Rᵀ) * (R * Ni * Cᵀ) := by rw [hH, Matrix.one_mul]
      _ = H * (R * N * Rᵀ * (R * Ni * Cᵀ)) := by rw [Matrix.mul_assoc]
      _ = H * (-(R * N * Cᵀ * (C * Ni * Cᵀ))) := by rw [eq_neg_of_add_eq_zero_right e2]
      _ = _ := by rw [Matrix.mul_neg, Matrix.mul_assoc H]
  rw [Matrix.sub_mul]
  rw [e3] at e1
  rw [← e1, Matrix.mul_neg, sub_eq_add_neg]
  congr 2
  simp only [Matrix.mul_assoc]

private theorem sol_inv {P Q : Matrix p p ℝ} {T S : Matrix p n ℝ} {w : n → ℝ} (h : Sol P Q T S w) : T * (diagonal fun k => (w k)⁻¹) * Tᵀ * Q = 1 := by
  have hd : (diagonal fun k => (w k)⁻¹) * diagonal w = (1 : Matrix n n ℝ) := by
    rw [diagonal_mul_diagonal, ← diagonal_one]
    congr 1; funext k; exact inv_mul_cancel₀ (h.pos k).ne'
  rw [h.Q_eq]
  calc T * (diagonal fun k => (w k)⁻¹) * Tᵀ * (S * diagonal w * Sᵀ) = T * ((diagonal fun k => (w k)⁻¹) * (Tᵀ * S) * diagonal w) * Sᵀ := by simp only [Matrix.mul_assoc]
    _ = 1 := by rw [h.bi, Matrix.mul_one, hd, Matrix.mul_one, h.comp]

/-! ## Couplings -/

/-- Couplings of excitations. -/
private def upper (la : m → c ⊕ d → c ⊕ d → ℝ) (lb : m → c' ⊕ d' → c' ⊕ d' → ℝ) : Matrix (c × d ⊕ c' × d') m ℝ :=
  fromRows (Matrix.of fun x k => la k (.inl x.1) (.inr x.2)) (Matrix.of fun x k => lb k (.inl x.1) (.inr x.2))

/-- Couplings of de-excitations. -/
private def lower (la : m → c ⊕ d → c ⊕ d → ℝ) (lb : m → c' ⊕ d' → c' ⊕ d' → ℝ) : Matrix (c × d ⊕ c' × d') m ℝ :=
  fromRows (Matrix.of fun x k => la k (.inr x.2) (.inl x.1)) (Matrix.of fun x k => lb k (.inr x.2) (.inl x.1))

private theorem weighted (G G' : Matrix q m ℝ) (w : m → ℝ) (x y : q) : (G * (diagonal fun k => (w k)⁻¹) * G'ᵀ) x y = ∑ k, G x k * (w k)⁻¹ * G' y k := by
  rw [Matrix.mul_apply]
  simp only [mul_diagonal, transpose_apply]

private theorem dw (w f g f' g' : m → ℝ) : ∑ k, f k * (-1 * (w k)⁻¹) * g k + ∑ k, f' k * (-1 * (w k)⁻¹) * g' k
    = -(∑ k, f k * (w k)⁻¹ * g k + ∑ k, f' k * (w k)⁻¹ * g' k) := by
  rw [neg_add, ← Finset.sum_neg_distrib, ← Finset.sum_neg_distrib]
  exact congrArg₂ (· + ·) (Finset.sum_congr rfl fun k _ => by ring) (Finset.sum_congr rfl fun k _ => by ring)

private theorem dw' (w f g f' g' : m → ℝ) : ∑ k, f k * (-1 * (w k)⁻¹) * g k + ∑ k, f' k * (-1 * (w k)⁻¹) * g' k
    = -(∑ k, g k * (w k)⁻¹ * f k + ∑ k, g' k * (w k)⁻¹ * f' k) := by
  rw [neg_add, ← Finset.sum_neg_distrib, ← Finset.sum_neg_distrib]
  exact congrArg₂ (· + ·) (Finset.sum_congr rfl fun k _ => by ring) (Finset.sum_congr rfl fun k _ => by ring)

private theorem exc_eq (w : m → ℝ) (la : m → c ⊕ d → c ⊕ d → ℝ) (lb : m → c' ⊕ d' → c' ⊕ d' → ℝ) :
    excitationPart (deltaW w la la, deltaW w la lb, deltaW w lb lb)
      = -(upper la lb * (diagonal fun k => (w k)⁻¹) * (upper la lb)ᵀ + lower la lb * (diagonal fun k => (w k)⁻¹) * (lower la lb)ᵀ) := by
  ext (x | x) (y | y) <;> rw [Matrix.neg_apply, Matrix.add_apply, weighted, weighted]
  · exact dw w (fun k => la k (.inl x.1) (.inr x.2)) (fun k => la k (.inl y.1) (.inr y.2)) (fun k => la k (.inr x.2) (.inl x.1)) fun k => la k (.inr y.2) (.inl y.1)
  · exact dw w (fun k => la k (.inl x.1) (.inr x.2)) (fun k => lb k (.inl y.1) (.inr y.2)) (fun k => la k (.inr x.2) (.inl x.1)) fun k => lb k (.inr y.2) (.inl y.1)
  · exact dw' w (fun k => la k (.inl y.1) (.inr y.2)) (fun k => lb k (.inl x.1) (.inr x.2)) (fun k => la k (.inr y.2) (.inl y.1)) fun k => lb k (.inr x.2) (.inl x.1)
  · exact dw w (fun k => lb k (.inl x.1) (.inr x.2)) (fun k => lb k (.inl y.1) (.inr y.2)) (fun k => lb k (.inr x.2) (.inl x.1)) fun k => lb k (.inr y.2) (.inl y.1)

private theorem deexc_eq (w : m → ℝ) (la : m → c ⊕ d → c ⊕ d → ℝ) (lb : m → c' ⊕ d' → c' ⊕ d' → ℝ) :
    deexcitationPart (deltaW w la la, deltaW w la lb, deltaW w lb lb)
      = -(upper la lb * (diagonal fun k => (w k)⁻¹) * (lower la lb)ᵀ + lower la lb * (diagonal fun k => (w k)⁻¹) * (upper la lb)ᵀ) := by
  ext (x | x) (y | y) <;> rw [Matrix.neg_apply, Matrix.add_apply, weighted, weighted]
  · exact dw w (fun k => la k (.inl x.1) (.inr x.2)) (fun k => la k (.inr y.2) (.inl y.1)) (fun k => la k (.inr x.2) (.inl x.1)) fun k => la k (.inl y.1) (.inr y.2)
  · exact dw w (fun k => la k (.inl x.1) (.inr x.2)) (fun k => lb k (.inr y.2) (.inl y.1)) (fun k => la k (.inr x.2) (.inl x.1)) fun k => lb k (.inl y.1) (.inr y.2)
  · rw [add_comm]
    exact dw' w (fun k => la k (.inl y.1) (.inr y.2)) (fun k => lb k (.inr x.2) (.inl x.1)) (fun k => la k (.inr y.2) (.inl y.1)) fun k => lb k (.inl x.1) (.inr x.2)
  · exact dw w (fun k => lb k (.inl x.1) (.inr x.2)) (fun k => lb k (.inr y.2) (.inl y.1)) (fun k => lb k (.inr x.2) (.inl x.1)) fun k => lb k (.inl y.1) (.inr y.2)

/-- One spin: couplings in terms of the interaction. -/
private theorem couple_upper (s : SpinData aux c d p r) (hs : SameIntegrals s) (pc ov : Bool) (l : Matrix aux m ℝ) (t t' : Matrix r m ℝ) :
    (Matrix.of fun (x : c × d) k => couple s pc ov l t t' k (.inl x.1) (.inr x.2))
      = s.rotLoc * s.lovᵀ * l + if pc then s.rotLoc * diagonal s.eps * s.rotᵀ * ((1 / 2 : ℝ) • (t + t')) else 0 := by
  have e1 : ∀ x : c × d, ∀ k, (s.rotLoc * s.lovᵀ * l) x k = ∑ n, s.lpq n (.inl x.1, .inr x.2) * l n k := by
    intro x k
    rw [Matrix.mul_apply]
    refine Finset.sum_congr rfl fun n _ => ?_
    rw [(hs n x.1 x.2).1]
    congr 1
    rw [← transpose_apply (s.lov * s.rotLocᵀ), transpose_mul, transpose_transpose]
  have e2 : (Matrix.of fun (i : c × d) j => ∑ k, s.eps k * s.rotLoc i k * s.rot j k) = s.rotLoc * diagonal s.eps * s.rotᵀ := by
    ext i j
    rw [Matrix.mul_apply]
    simp only [mul_diagonal, transpose_apply]
    exact Finset.sum_congr rfl fun k _ => by ring
  ext x k
  rw [Matrix.add_apply, e1]
  show (∑ n, s.lpq n (.inl x.1, .inr x.2) * l n k) + (if pc then epsFb s ((1 / 2 : ℝ) • (t + t')) (x.1, x.2) k else 0) = _
  unfold epsFb
  rw [e2]
  cases pc <;> rfl

private theorem couple_lower (s : SpinData aux c d p r) (hs : SameIntegrals s) (pc ov : Bool) (l : Matrix aux m ℝ) (t t' : Matrix r m ℝ) :
    (Matrix.of fun (x : c × d) k => couple s pc ov l t t' k (.inr x.2) (.inl x.1))
      = s.rotLoc * s.lovᵀ * l + if pc then s.rotLoc * diagonal s.eps * s.rotᵀ * ((1 / 2 : ℝ) • (t - t')) else 0 := by
  have e1 : ∀ x : c × d, ∀ k, (s.rotLoc * s.lovᵀ * l) x k = ∑ n, s.lpq n (.inr x.2, .inl x.1) * l n k := by
    intro x k
    rw [Matrix.mul_apply]
    refine Finset.sum_congr rfl fun n _ => ?_
    rw [(hs n x.1 x.2).2]
    congr 1
    rw [← transpose_apply (s.lov * s.rotLocᵀ), transpose_mul, transpose_transpose]
  have e2 : (Matrix.of fun (i : c × d) j => ∑ k, s.eps k * s.rotLoc i k * s.rot j k) = s.rotLoc * diagonal s.eps * s.rotᵀ := by
    ext i j
    rw [Matrix.mul_apply]
    simp only [mul_diagonal, transpose_apply]
    exact Finset.sum_congr rfl fun k _ => by ring
  ext x k
  rw [Matrix.add_apply, e1]
  show (∑ n, s.lpq n (.inr x.2, .inl x.1) * l n k) + (if pc then epsFb s ((1 / 2 : ℝ) • (t - t')) (x.1, x.2) k else 0) = _
  unfold epsFb
  rw [e2]
  cases pc <;> rfl

/-- Both spins. -/
private theorem blocks_coupling (Ca : Matrix q pa ℝ) (Cb : Matrix r pb ℝ) (Ra : Matrix ra pa ℝ) (Rb : Matrix rb pb ℝ) (La : Matrix aux pa ℝ) (Lb : Matrix aux pb ℝ)
    (T : Matrix (ra ⊕ rb) m ℝ) :
    fromBlocks Ca 0 0 Cb * ((fromCols La Lb)ᵀ * fromCols La Lb) * (fromBlocks Ra 0 0 Rb)ᵀ * T
      = fromRows (Ca * Laᵀ * (La * Raᵀ * T.toRows₁ + Lb * Rbᵀ * T.toRows₂)) (Cb * Lbᵀ * (La * Raᵀ * T.toRows₁ + Lb * Rbᵀ * T.toRows₂)) := by
  have h1 : fromBlocks Ca 0 0 Cb * (fromCols La Lb)ᵀ = fromRows (Ca * Laᵀ) (Cb * Lbᵀ) := by
    rw [transpose_fromCols, fromBlocks_mul_fromRows]
    simp only [Matrix.zero_mul, add_zero, zero_add]
  have h2 : fromCols La Lb * (fromBlocks Ra 0 0 Rb)ᵀ * T = La * Raᵀ * T.toRows₁ + Lb * Rbᵀ * T.toRows₂ := by
    rw [fromBlocks_transpose, fromCols_mul_fromBlocks]
    simp only [transpose_zero, Matrix.mul_zero, add_zero, zero_add]
    conv_lhs => rw [← fromRows_toRows T]
    rw [fromCols_mul_fromRows]
  calc fromBlocks Ca 0 0 Cb * ((fromCols La Lb)ᵀ * fromCols La Lb) * (fromBlocks Ra 0 0 Rb)ᵀ * T
      = fromBlocks Ca 0 0 Cb * (fromCols La Lb)ᵀ * (fromCols La Lb * (fromBlocks Ra 0 0 Rb)ᵀ * T) := by simp only [Matrix.mul_assoc]
    _ = _ := by rw [h1, h2, fromRows_mul]

private theorem blocks_eps (Ca : Matrix q pa ℝ) (Cb : Matrix r pb ℝ) (Ra : Matrix ra pa ℝ) (Rb : Matrix rb pb ℝ) (ea : pa → ℝ) (eb : pb → ℝ) (T : Matrix (ra ⊕ rb) m ℝ) :
    fromBlocks Ca 0 0 Cb * diagonal (Rpa.concat ea eb) * (fromBlocks Ra 0 0 Rb)ᵀ * T
      = fromRows (Ca * diagonal ea * Raᵀ * T.toRows₁) (Cb * diagonal eb * Rbᵀ * T.toRows₂) := by
  unfold Rpa.concat
  rw [← fromBlocks_diagonal, fromBlocks_transpose, fromBlocks_multiply, fromBlocks_multiply]
  simp only [transpose_zero, Matrix.mul_zero, Matrix.zero_mul, add_zero, zero_add]
  conv_lhs => rw [← fromRows_toRows T]
  rw [fromBlocks_mul_fromRows]
  simp only [Matrix.zero_mul, add_zero, zero_add]

/-- Couplings in terms of matrices of both spins. -/
private theorem couplings_eq (a : SpinData aux c d pa ra) (b : SpinData aux c' d' pb rb) (ha : SameIntegrals a) (hb : SameIntegrals b) (pc ov : Bool)
    (T S : Matrix (ra ⊕ rb) m ℝ) :
    let C := fromBlocks a.rotLoc 0 0 b.rotLoc
    let R := fromBlocks a.rot 0 0 b.rot
    let V := (fromCols a.lov b.lov)ᵀ * fromCols a.lov b.lov
    let E := diagonal (Rpa.concat a.eps b.eps)
    let l := lAux a b T.toRows₁ T.toRows₂
    let la := couple a pc ov l T.toRows₁ S.toRows₁
    let lb := couple b pc ov l T.toRows₂ S.toRows₂
    upper la lb = C * V * Rᵀ * T + (if pc then C * E * Rᵀ * ((1 / 2 : ℝ) • (T + S)) else 0)
      ∧ lower la lb = C * V * Rᵀ * T + (if pc then C * E * Rᵀ * ((1 / 2 : ℝ) • (T - S)) else 0) := by
  intro C R V E l la lb
  have e1 : C * V * Rᵀ * T = fromRows (a.rotLoc * a.lovᵀ * l) (b.rotLoc * b.lovᵀ * l) := blocks_coupling _ _ _ _ _ _ _
  have e2 : ∀ t : Matrix (ra ⊕ rb) m ℝ, C * E * Rᵀ * t = fromRows (a.rotLoc * diagonal a.eps * a.rotᵀ * t.toRows₁) (b.rotLoc * diagonal b.eps * b.rotᵀ * t.toRows₂) :=
    fun t => blocks_eps _ _ _ _ _ _ _
  have e3 : ∀ (x y : Matrix (c × d) m ℝ) (x' y' : Matrix (c' × d') m ℝ), fromRows (x + y) (x' + y') = fromRows x x' + fromRows y y' := by
    intro x y x' y'; ext (i | i) j <;> rfl
  constructor
  · unfold upper
    rw [couple_upper a ha, couple_upper b hb, e1, e3, e2]
    cases pc
    · congr 1; ext (i | i) j <;> rfl
    · rfl
  · unfold lower
    rw [couple_lower a ha, couple_lower b hb, e1, e3, e2]
    cases pc
    · congr 1; ext (i | i) j <;> rfl
    · rfl

/-- With or without coupling of energies, sums and differences of couplings give the Schur complements. -/
private theorem couplings_sum (pc : Bool) {C : Matrix q p ℝ} {R : Matrix r p ℝ} {V E : Matrix p p ℝ} (h : pc = true ∨ C * E * Rᵀ = 0) (T S : Matrix r m ℝ) :
    (C * V * Rᵀ * T + (if pc then C * E * Rᵀ * ((1 / 2 : ℝ) • (T + S)) else 0)) + (C * V * Rᵀ * T + (if pc then C * E * Rᵀ * ((1 / 2 : ℝ) • (T - S)) else 0))
        = C * (E + (2 : ℝ) • V) * Rᵀ * T
      ∧ (C * V * Rᵀ * T + (if pc then C * E * Rᵀ * ((1 / 2 : ℝ) • (T + S)) else 0)) - (C * V * Rᵀ * T + (if pc then C * E * Rᵀ * ((1 / 2 : ℝ) • (T - S)) else 0))
        = C * E * Rᵀ * S := by
  have e : C * (E + (2 : ℝ) • V) * Rᵀ * T = C * E * Rᵀ * T + (2 : ℝ) • (C * V * Rᵀ * T) := by
    simp only [Matrix.mul_add, Matrix.add_mul, Matrix.mul_smul, Matrix.smul_mul]
  rw [e]
  cases pc
  · have h0 : C * E * Rᵀ = 0 := by simpa using h
    simp only [Bool.false_eq_true, if_false, h0, Matrix.zero_mul]
    constructor <;> module
  · simp only [if_true, Matrix.mul_smul, Matrix.mul_add, Matrix.mul_sub]
    constructor <;> module

/-! ## Results of the code -/

private theorem sol_of_kernel {eigh : Matrix q q ℝ → Eig q ℝ} (he : DiagonalisesSymmetric eigh) {eps : q → ℝ} {rot : Matrix q p ℝ} {fullv : Matrix p p ℝ} (hv : fullvᵀ = fullv)
    {t : Amps q × ℝ} (h : kernel eigh eps rot fullv 1 = .ok t) : Sol (diagonal eps) (diagonal eps + (2 : ℝ) • (rot * fullv * rotᵀ)) t.1.xpy t.1.xmy t.1.freqs := by
  have hs := (rpa_solution eigh he eps rot fullv hv 1 t h).sol
  have e1 : ampX t.1 + ampY t.1 = t.1.xpy := by unfold ampX ampY; module
  have e2 : ampX t.1 - ampY t.1 = t.1.xmy := by unfold ampX ampY; module
  have e3 : diagonal eps + (1 : ℝ) • (rot * fullv * rotᵀ) - (1 : ℝ) • (rot * fullv * rotᵀ) = diagonal eps := by module
  have e4 : diagonal eps + (1 : ℝ) • (rot * fullv * rotᵀ) + (1 : ℝ) • (rot * fullv * rotᵀ) = diagonal eps + (2 : ℝ) • (rot * fullv * rotᵀ) := by module
  rwa [e1, e2, e3, e4] at hs

private theorem complement_blocks {ca : Matrix q pa ℝ} {cb : Matrix r pb ℝ} {xa : Matrix ra pa ℝ} {xb : Matrix rb pb ℝ} (ha : Complement ca xa) (hb : Complement cb xb) :
    Complement (fromBlocks ca 0 0 cb) (fromBlocks xa 0 0 xb) := by
  refine ⟨?_, ?_, ?_, ?_⟩
  · rw [fromBlocks_transpose, fromBlocks_multiply]
    simp only [transpose_zero, Matrix.mul_zero, Matrix.zero_mul, add_zero, zero_add]
    rw [ha.1, hb.1, fromBlocks_one]
  · rw [fromBlocks_transpose, fromBlocks_multiply]
    simp only [transpose_zero, Matrix.mul_zero, Matrix.zero_mul, add_zero, zero_add]
    rw [ha.2, hb.2, fromBlocks_one]
  · rw [fromBlocks_transpose, fromBlocks_multiply]
    simp only [transpose_zero, Matrix.mul_zero, Matrix.zero_mul, add_zero, zero_add]
    rw [ha.3, hb.3, fromBlocks_zero]
  · rw [fromBlocks_transpose, fromBlocks_transpose, fromBlocks_multiply, fromBlocks_multiply, fromBlocks_add]
    simp only [transpose_zero, Matrix.mul_zero, Matrix.zero_mul, add_zero, zero_add]
    rw [ha.4, hb.4, fromBlocks_one]

private theorem complement_rotated {eigh : Matrix r r ℝ → Eig r ℝ} (he : DiagonalisesSymmetric eigh) {loc : Matrix q p ℝ} {rest : Matrix r p ℝ} (h : Complement loc rest) (eps : p → ℝ) :
    Complement loc (rotate eigh rest eps).2 ∧ (rotate eigh rest eps).2 * diagonal eps * (rotate eigh rest eps).2ᵀ = diagonal (rotate eigh rest eps).1
      ∧ (loc * diagonal eps * restᵀ = 0 → loc * diagonal eps * (rotate eigh rest eps).2ᵀ = 0) := by
  obtain ⟨h1, h2, h3, -⟩ := rpa_rotation eigh he rest h.restNormal eps
  have e : (rotate eigh rest eps).2 = (eigh (rest * diagonal eps * restᵀ)).vecᵀ * rest := rfl
  refine ⟨⟨h.locNormal, h1, ?_, by rw [h2, h.complete]⟩, h3, fun h0 => ?_⟩
  · rw [e, transpose_mul, transpose_transpose, ← Matrix.mul_assoc, h.orthogonal, Matrix.zero_mul]
  · rw [e, transpose_mul, transpose_transpose, ← Matrix.mul_assoc, h0, Matrix.zero_mul]

private theorem blocks_uncoupled {ca : Matrix q pa ℝ} {cb : Matrix r pb ℝ} {xa : Matrix ra pa ℝ} {xb : Matrix rb pb ℝ} {ea : pa → ℝ} {eb : pb → ℝ}
    (ha : ca * diagonal ea * xaᵀ = 0) (hb : cb * diagonal eb * xbᵀ = 0) : fromBlocks ca 0 0 cb * diagonal (Rpa.concat ea eb) * (fromBlocks xa 0 0 xb)ᵀ = 0 := by
  unfold Rpa.concat
  rw [← fromBlocks_diagonal, fromBlocks_transpose, fromBlocks_multiply, fromBlocks_multiply]
  simp only [transpose_zero, Matrix.mul_zero, Matrix.zero_mul, add_zero, zero_add]
  rw [ha, hb, fromBlocks_zero]

/-- What is returned if the space has excitations. -/
private theorem delta_ok {eigha : Matrix ra ra ℝ → Eig ra ℝ} {eighb : Matrix rb rb ℝ → Eig rb ℝ} {eigh : Matrix (ra ⊕ rb) (ra ⊕ rb) ℝ → Eig (ra ⊕ rb) ℝ}
    {a : SpinData aux c d pa ra} {b : SpinData aux c' d' pb rb} {fullv : Matrix (pa ⊕ pb) (pa ⊕ pb) ℝ} {pc ov : Bool} {delta : Integrals c d c' d'}
    (h : fragDeltaW eigha eighb eigh a b fullv pc ov = .ok delta) :
    (Fintype.card ra = 0 ∧ Fintype.card rb = 0) ∧ delta = (fun _ _ _ _ => 0, fun _ _ _ _ => 0, fun _ _ _ _ => 0) ∨
    ∃ t, kernel eigh (Rpa.concat (rotate eigha a.rot a.eps).1 (rotate eighb b.rot b.eps).1) (fromBlocks (rotate eigha a.rot a.eps).2 0 0 (rotate eighb b.rot b.eps).2) fullv 1 = .ok t
      ∧ ∃ la lb, la = couple { a with rot := (rotate eigha a.rot a.eps).2 } pc ov
          (lAux { a with rot := (rotate eigha a.rot a.eps).2 } { b with rot := (rotate eighb b.rot b.eps).2 } t.1.xpy.toRows₁ t.1.xpy.toRows₂) t.1.xpy.toRows₁ t.1.xmy.toRows₁
        ∧ lb = couple { b with rot := (rotate eighb b.rot b.eps).2 } pc ov
          (lAux { a with rot := (rotate eigha a.rot a.eps).2 } { b with rot := (rotate eighb b.rot b.eps).2 } t.1.xpy.toRows₁ t.1.xpy.toRows₂) t.1.xpy.toRows₂ t.1.xmy.toRows₂
        ∧ delta = (deltaW t.1.freqs la la, deltaW t.1.freqs la lb, deltaW t.1.freqs lb lb) := by
  unfold fragDeltaW at h
  split at h
  · rename_i h0
    exact .inl ⟨h0, (Except.ok.inj h).symm⟩
  · right
    unfold setUpW at h
    dsimp only at h
    cases hk : kernel eigh (Rpa.concat (rotate eigha a.rot a.eps).1 (rotate eighb b.rot b.eps).1) (fromBlocks (rotate eigha a.rot a.eps).2 0 0 (rotate eighb b.rot b.eps).2) fullv 1 with
    | error _ => rw [hk] at h; cases h
    | ok t =>
      rw [hk] at h
      exact ⟨t, rfl, _, _, rfl, rfl, (Except.ok.inj h).symm⟩

/-- Sums and differences of the parts of the screening, with the excitations outside of the cluster. -/
private theorem delta_parts {eigha : Matrix ra ra ℝ → Eig ra ℝ} {eighb : Matrix rb rb ℝ → Eig rb ℝ} {eigh : Matrix (ra ⊕ rb) (ra ⊕ rb) ℝ → Eig (ra ⊕ rb) ℝ}
    (hea : DiagonalisesSymmetric eigha) (heb : DiagonalisesSymmetric eighb) (he : DiagonalisesSymmetric eigh) {a : SpinData aux c d pa ra} {b : SpinData aux c' d' pb rb}
    (ha : Complement a.rotLoc a.rot) (hb : Complement b.rotLoc b.rot) (ia : SameIntegrals a) (ib : SameIntegrals b) {pcoupled onlyOv : Bool}
    (hp : pcoupled = true ∨ a.rotLoc * diagonal a.eps * a.rotᵀ = 0 ∧ b.rotLoc * diagonal b.eps * b.rotᵀ = 0) {delta : Integrals c d c' d'}
    (h : fragDeltaW eigha eighb eigh a b ((fromCols a.lov b.lov)ᵀ * fromCols a.lov b.lov) pcoupled onlyOv = .ok delta) :
    let C := fromBlocks a.rotLoc 0 0 b.rotLoc
    let V := (fromCols a.lov b.lov)ᵀ * fromCols a.lov b.lov
    let E := diagonal (Rpa.concat a.eps b.eps)
    ∃ (R : Matrix (ra ⊕ rb) (pa ⊕ pb) ℝ) (T S : Matrix (ra ⊕ rb) (ra ⊕ rb) ℝ) (w : ra ⊕ rb → ℝ), Complement C R ∧ Sol (R * E * Rᵀ) (R * (E + (2 : ℝ) • V) * Rᵀ) T S w
      ∧ excitationPart delta + deexcitationPart delta = -(C * (E + (2 : ℝ) • V) * Rᵀ * (T * (diagonal fun k => (w k)⁻¹) * Tᵀ) * (R * (E + (2 : ℝ) • V) * Cᵀ))
      ∧ excitationPart delta - deexcitationPart delta = -(C * E * Rᵀ * (S * (diagonal fun k => (w k)⁻¹) * Sᵀ) * (R * E * Cᵀ)) := by
  intro C V E
  have hVT : Vᵀ = V := by show (_ * _)ᵀ = _; rw [transpose_mul, transpose_transpose]
  obtain ⟨ca, da, ua⟩ := complement_rotated hea ha a.eps
  obtain ⟨cb, db, ub⟩ := complement_rotated heb hb b.eps
  set a' : SpinData aux c d pa ra := { a with rot := (rotate eigha a.rot a.eps).2 } with ha'
  set b' : SpinData aux c' d' pb rb := { b with rot := (rotate eighb b.rot b.eps).2 } with hb'
  have ia' : SameIntegrals a' := ia
  have ib' : SameIntegrals b' := ib
  have hc : Complement C (fromBlocks a'.rot 0 0 b'.rot) := complement_blocks ca cb
  rcases delta_ok h with ⟨⟨h1, h2⟩, hz⟩ | ⟨t, hk, la, lb, hla, hlb, hd'⟩
  · rw [Fintype.card_eq_zero_iff] at h1 h2
    have e1 : excitationPart delta = 0 := by rw [hz]; ext (i | i) (j | j) <;> rfl
    have e2 : deexcitationPart delta = 0 := by rw [hz]; ext (i | i) (j | j) <;> rfl
    rw [e1, e2, add_zero, sub_zero]
    refine ⟨fromBlocks a'.rot 0 0 b'.rot, 1, 1, 1, hc, ⟨fun _ => one_pos, ?_, ?_, ?_, ?_⟩, ?_, ?_⟩
    · rw [transpose_one, Matrix.mul_one]
    · rw [transpose_one, Matrix.mul_one]
    · ext i; exact (IsEmpty.false i).elim
    · ext i; exact (IsEmpty.false i).elim
    · have hz : ∀ (x : Matrix (c × d ⊕ c' × d') (ra ⊕ rb) ℝ) (y : Matrix (ra ⊕ rb) (c × d ⊕ c' × d') ℝ), x * y = 0 := by
        intro x y; ext i j; rw [Matrix.mul_apply]; exact Finset.sum_eq_zero fun x _ => (IsEmpty.false x).elim
      rw [hz, neg_zero]
    · have hz : ∀ (x : Matrix (c × d ⊕ c' × d') (ra ⊕ rb) ℝ) (y : Matrix (ra ⊕ rb) (c × d ⊕ c' × d') ℝ), x * y = 0 := by
        intro x y; ext i j; rw [Matrix.mul_apply]; exact Finset.sum_eq_zero fun x _ => (IsEmpty.false x).elim
      rw [hz, neg_zero]
  · have hs := sol_of_kernel he hVT hk
    set R := fromBlocks a'.rot 0 0 b'.rot with hR
    have eP : diagonal (Rpa.concat (rotate eigha a.rot a.eps).1 (rotate eighb b.rot b.eps).1) = R * E * Rᵀ := by
      rw [hR]
      show _ = fromBlocks a'.rot 0 0 b'.rot * diagonal (Sum.elim a.eps b.eps) * (fromBlocks a'.rot 0 0 b'.rot)ᵀ
      rw [← fromBlocks_diagonal, fromBlocks_transpose, fromBlocks_multiply, fromBlocks_multiply]
      simp only [transpose_zero, Matrix.mul_zero, Matrix.zero_mul, add_zero, zero_add]
      rw [show a'.rot * diagonal a.eps * a'.rotᵀ = _ from da, show b'.rot * diagonal b.eps * b'.rotᵀ = _ from db, fromBlocks_diagonal]
      rfl
    rw [eP] at hs
    have eQ : R * E * Rᵀ + (2 : ℝ) • (R * V * Rᵀ) = R * (E + (2 : ℝ) • V) * Rᵀ := by
      simp only [Matrix.mul_add, Matrix.add_mul, Matrix.mul_smul, Matrix.smul_mul]
    rw [show R * E * Rᵀ + (2 : ℝ) • (fromBlocks (rotate eigha a.rot a.eps).2 0 0 (rotate eighb b.rot b.eps).2 * V * (fromBlocks (rotate eigha a.rot a.eps).2 0 0 (rotate eighb b.rot b.eps).2)ᵀ) = R * (E + (2 : ℝ) • V) * Rᵀ from eQ] at hs
    set T := t.1.xpy with hT
    set S := t.1.xmy with hS
    set w := t.1.freqs with hw
    obtain ⟨g1, g2⟩ := couplings_eq a' b' ia' ib' pcoupled onlyOv T S
    rw [← hla, ← hlb] at g1 g2
    have hp' : pcoupled = true ∨ C * E * Rᵀ = 0 := hp.imp id fun hh => blocks_uncoupled (ua hh.1) (ub hh.2)
    obtain ⟨s1, s2⟩ := couplings_sum pcoupled (V := V) hp' T S
    rw [show _ = upper la lb from g1.symm, show _ = lower la lb from g2.symm] at s1 s2
    have x1 : excitationPart delta + deexcitationPart delta = -(C * (E + (2 : ℝ) • V) * Rᵀ * (T * (diagonal fun k => (w k)⁻¹) * Tᵀ) * (R * (E + (2 : ℝ) • V) * Cᵀ)) := by
      rw [hd', exc_eq, deexc_eq]
      have hN : (C * (E + (2 : ℝ) • V) * Rᵀ * T)ᵀ = Tᵀ * (R * (E + (2 : ℝ) • V) * Cᵀ) := by
        simp only [transpose_mul, transpose_transpose, transpose_add, transpose_smul, hVT, show Eᵀ = E from diagonal_transpose _, Matrix.mul_assoc]
      calc _ = -((upper la lb + lower la lb) * (diagonal fun k => (w k)⁻¹) * (upper la lb + lower la lb)ᵀ) := by
            simp only [transpose_add, Matrix.mul_add, Matrix.add_mul]; abel
        _ = _ := by rw [s1, hN]; simp only [Matrix.mul_assoc]
    have x2 : excitationPart delta - deexcitationPart delta = -(C * E * Rᵀ * (S * (diagonal fun k => (w k)⁻¹) * Sᵀ) * (R * E * Cᵀ)) := by
      rw [hd', exc_eq, deexc_eq]
      have hN : (C * E * Rᵀ * S)ᵀ = Sᵀ * (R * E * Cᵀ) := by
        simp only [transpose_mul, transpose_transpose, show Eᵀ = E from diagonal_transpose _, Matrix.mul_assoc]
      calc _ = -((upper la lb - lower la lb) * (diagonal fun k => (w k)⁻¹) * (upper la lb - lower la lb)ᵀ) := by
            simp only [transpose_sub, Matrix.mul_sub, Matrix.sub_mul]; abel
        _ = _ := by rw [s2, hN]; simp only [Matrix.mul_assoc]
    exact ⟨R, T, S, w, hc, hs, x1, x2⟩

/-- Static screening keeps the static response: `A` and `B` of the cluster are those of its direct RPA with screened interactions, `A + B` and
`A - B` are inverse to the blocks of the inverse of these matrices of the system. Either energies are taken to couple the cluster to other
excitations (`pcoupled`), or they do not couple them. -/
theorem crpa_static_response (eigha : Matrix ra ra ℝ → Eig ra ℝ) (eighb : Matrix rb rb ℝ → Eig rb ℝ) (eigh : Matrix (ra ⊕ rb) (ra ⊕ rb) ℝ → Eig (ra ⊕ rb) ℝ)
    (hea : DiagonalisesSymmetric eigha) (heb : DiagonalisesSymmetric eighb) (he : DiagonalisesSymmetric eigh) (a : SpinData aux c d pa ra) (b : SpinData aux c' d' pb rb)
    (ha : Complement a.rotLoc a.rot) (hb : Complement b.rotLoc b.rot) (ia : SameIntegrals a) (ib : SameIntegrals b) (pcoupled onlyOv : Bool)
    (hp : pcoupled = true ∨ a.rotLoc * diagonal a.eps * a.rotᵀ = 0 ∧ b.rotLoc * diagonal b.eps * b.rotᵀ = 0) (delta : Integrals c d c' d')
    (h : fragDeltaW eigha eighb eigh a b ((fromCols a.lov b.lov)ᵀ * fromCols a.lov b.lov) pcoupled onlyOv = .ok delta) :
    let C := fromBlocks a.rotLoc 0 0 b.rotLoc
    let V := (fromCols a.lov b.lov)ᵀ * fromCols a.lov b.lov
    let E := diagonal (Rpa.concat a.eps b.eps)
    let A := C * E * Cᵀ + (C * V * Cᵀ + excitationPart delta)
    let B := C * V * Cᵀ + deexcitationPart delta
    (∀ G, ((E + V) + V) * G = 1 → (A + B) * (C * G * Cᵀ) = 1) ∧ ∀ G, ((E + V) - V) * G = 1 → (A - B) * (C * G * Cᵀ) = 1 := by
  intro C V E A B
  have eV1 : E + V + V = E + (2 : ℝ) • V := by module
  have eV2 : E + V - V = E := by abel
  rw [eV1, eV2]
  have eAB : A + B = C * (E + (2 : ℝ) • V) * Cᵀ + (excitationPart delta + deexcitationPart delta) := by
    have : C * (E + (2 : ℝ) • V) * Cᵀ = C * E * Cᵀ + (2 : ℝ) • (C * V * Cᵀ) := by simp only [Matrix.mul_add, Matrix.add_mul, Matrix.mul_smul, Matrix.smul_mul]
    rw [this]; module
  have eAB' : A - B = C * E * Cᵀ + (excitationPart delta - deexcitationPart delta) := by
    show C * E * Cᵀ + (C * V * Cᵀ + excitationPart delta) - (C * V * Cᵀ + deexcitationPart delta) = _
    abel
  rw [eAB, eAB']
  obtain ⟨R, T, S, w, hc, hs, x1, x2⟩ := delta_parts hea heb he ha hb ia ib hp h
  rw [x1, x2, ← sub_eq_add_neg, ← sub_eq_add_neg]
  exact ⟨fun G hG => schur hc _ G hG _ (sol_inv hs), fun G hG => schur hc _ G hG _ (sol_inv hs.swap)⟩

/-- If energies couple the cluster to other excitations and this is taken into account (`pcoupled`), then `(ia|jb)` and `(ia|bj)` differ: orbitals of a
pair cannot be exchanged in screened integrals, as they can in bare integrals. -/
theorem crpa_pcoupled_symmetry_broken (eigha : Matrix ra ra ℝ → Eig ra ℝ) (eighb : Matrix rb rb ℝ → Eig rb ℝ) (eigh : Matrix (ra ⊕ rb) (ra ⊕ rb) ℝ → Eig (ra ⊕ rb) ℝ)
    (hea : DiagonalisesSymmetric eigha) (heb : DiagonalisesSymmetric eighb) (he : DiagonalisesSymmetric eigh) (a : SpinData aux c d pa ra) (b : SpinData aux c' d' pb rb)
    (ha : Complement a.rotLoc a.rot) (hb : Complement b.rotLoc b.rot) (ia : SameIntegrals a) (ib : SameIntegrals b) (onlyOv : Bool)
    (hp : a.rotLoc * diagonal a.eps * a.rotᵀ ≠ 0) (delta : Integrals c d c' d')
    (h : fragDeltaW eigha eighb eigh a b ((fromCols a.lov b.lov)ᵀ * fromCols a.lov b.lov) true onlyOv = .ok delta) :
    excitationPart delta ≠ deexcitationPart delta := by
  intro heq
  obtain ⟨R, T, S, w, hc, hs, -, x2⟩ := delta_parts hea heb he ha hb ia ib (.inl rfl) h
  rw [heq, sub_self] at x2
  set C := fromBlocks a.rotLoc 0 0 b.rotLoc with hC
  set E := diagonal (Rpa.concat a.eps b.eps) with hE
  have hK : C * E * Rᵀ * S = 0 := by
    have hN : (C * E * Rᵀ * S)ᵀ = Sᵀ * (R * E * Cᵀ) := by
      simp only [transpose_mul, transpose_transpose, show Eᵀ = E from diagonal_transpose _, Matrix.mul_assoc]
    have h1 : (C * E * Rᵀ * S) * (diagonal fun k => (w k)⁻¹) * (C * E * Rᵀ * S)ᵀ = 0 := by
      rw [hN, ← neg_eq_zero, x2]
      simp only [Matrix.mul_assoc]
    ext x k
    have h2 := congrFun (congrFun h1 x) x
    rw [weighted, Matrix.zero_apply, Finset.sum_eq_zero_iff_of_nonneg] at h2
    · have := h2 k (Finset.mem_univ k)
      have hw := (inv_pos.mpr (hs.pos k)).ne'
      rcases mul_eq_zero.mp this with h3 | h3
      · exact (mul_eq_zero.mp h3).resolve_right hw
      · exact h3
    · intro k _
      rw [mul_right_comm]
      exact mul_nonneg (mul_self_nonneg _) (inv_pos.mpr (hs.pos k)).le
  have hF : C * E * Rᵀ = 0 := by
    calc C * E * Rᵀ = C * E * Rᵀ * (S * Tᵀ) := by rw [hs.comp', Matrix.mul_one]
      _ = 0 := by rw [← Matrix.mul_assoc, hK, Matrix.zero_mul]
  have h2 : C * E = C * E * Cᵀ * C := by
    calc C * E = C * E * (Cᵀ * C + Rᵀ * R) := by rw [hc.complete, Matrix.mul_one]
      _ = C * E * Cᵀ * C := by rw [Matrix.mul_add, ← Matrix.mul_assoc (C * E) Rᵀ, hF, Matrix.zero_mul, add_zero, Matrix.mul_assoc (C * E)]
  have hab := complement_blocks ha hb
  have h3 : C * E * (fromBlocks a.rot 0 0 b.rot)ᵀ = 0 := by rw [h2, Matrix.mul_assoc _ C, hab.orthogonal, Matrix.mul_zero]
  rw [hC, hE] at h3
  unfold Rpa.concat at h3
  rw [← fromBlocks_diagonal, fromBlocks_transpose, fromBlocks_multiply, fromBlocks_multiply, ← fromBlocks_zero] at h3
  have h4 := (fromBlocks_inj.mp h3).1
  simp only [Matrix.mul_zero, Matrix.zero_mul, add_zero, transpose_zero] at h4
  exact hp h4

/-! ## Symmetries and sign -/

/-- Interactions between pairs of orbitals do not depend on their order, and all orbitals can be exchanged between creation and annihilation. -/
theorem crpa_symmetry (eigha : Matrix ra ra ℝ → Eig ra ℝ) (eighb : Matrix rb rb ℝ → Eig rb ℝ) (eigh : Matrix (ra ⊕ rb) (ra ⊕ rb) ℝ → Eig (ra ⊕ rb) ℝ)
    (a : SpinData aux c d pa ra) (b : SpinData aux c' d' pb rb) (fullv : Matrix (pa ⊕ pb) (pa ⊕ pb) ℝ) (pcoupled onlyOv : Bool) (delta : Integrals c d c' d')
    (h : fragDeltaW eigha eighb eigh a b fullv pcoupled onlyOv = .ok delta) :
    (∀ x y z w, delta.1 x y z w = delta.1 z w x y ∧ delta.1 x y z w = delta.1 y x w z) ∧ (∀ x y z w, delta.2.1 x y z w = delta.2.1 y x w z)
      ∧ ∀ x y z w, delta.2.2 x y z w = delta.2.2 z w x y ∧ delta.2.2 x y z w = delta.2.2 y x w z := by
  rcases delta_ok h with ⟨-, hz⟩ | ⟨t, -, la, lb, -, -, hd⟩
  · subst hz
    exact ⟨fun _ _ _ _ => ⟨rfl, rfl⟩, fun _ _ _ _ => rfl, fun _ _ _ _ => ⟨rfl, rfl⟩⟩
  · subst hd
    refine ⟨fun x y z w => ⟨?_, ?_⟩, fun x y z w => ?_, fun x y z w => ⟨?_, ?_⟩⟩ <;> unfold deltaW
    · exact congrArg₂ (· + ·) (Finset.sum_congr rfl fun k _ => by ring) (Finset.sum_congr rfl fun k _ => by ring)
    · exact add_comm _ _
    · exact add_comm _ _
    · exact congrArg₂ (· + ·) (Finset.sum_congr rfl fun k _ => by ring) (Finset.sum_congr rfl fun k _ => by ring)
    · exact add_comm _ _

private theorem couple_symm (s : SpinData aux c d p r) (hs : ∀ n x y, s.lpq n (x, y) = s.lpq n (y, x)) (ov : Bool) (l : Matrix aux m ℝ) (t t' : Matrix r m ℝ) (k : m)
    (x y : c ⊕ d) : couple s false ov l t t' k x y = couple s false ov l t t' k y x := by
  have e : ∀ x y, (∑ n, s.lpq n (x, y) * l n k) = ∑ n, s.lpq n (y, x) * l n k := fun x y => Finset.sum_congr rfl fun n _ => by rw [hs]
  rcases x with x | x <;> rcases y with y | y <;> simp only [couple, e, Bool.false_eq_true, if_false]

/-- If the coupling of energies is ignored, screened integrals have all symmetries of bare integrals. -/
theorem crpa_real_symmetry (eigha : Matrix ra ra ℝ → Eig ra ℝ) (eighb : Matrix rb rb ℝ → Eig rb ℝ) (eigh : Matrix (ra ⊕ rb) (ra ⊕ rb) ℝ → Eig (ra ⊕ rb) ℝ)
    (a : SpinData aux c d pa ra) (b : SpinData aux c' d' pb rb) (ha : ∀ n x y, a.lpq n (x, y) = a.lpq n (y, x)) (hb : ∀ n x y, b.lpq n (x, y) = b.lpq n (y, x))
    (fullv : Matrix (pa ⊕ pb) (pa ⊕ pb) ℝ) (onlyOv : Bool) (delta : Integrals c d c' d') (h : fragDeltaW eigha eighb eigh a b fullv false onlyOv = .ok delta) :
    (∀ x y z w, delta.1 x y z w = delta.1 y x z w) ∧ (∀ x y z w, delta.2.1 x y z w = delta.2.1 y x z w ∧ delta.2.1 x y z w = delta.2.1 x y w z)
      ∧ ∀ x y z w, delta.2.2 x y z w = delta.2.2 y x z w := by
  rcases delta_ok h with ⟨-, hz⟩ | ⟨t, -, la, lb, hla, hlb, hd⟩
  · subst hz
    exact ⟨fun _ _ _ _ => rfl, fun _ _ _ _ => ⟨rfl, rfl⟩, fun _ _ _ _ => rfl⟩
  · subst hd
    have ea : ∀ k x y, la k x y = la k y x := by intro k x y; rw [hla]; exact couple_symm _ (by exact ha) onlyOv _ _ _ k x y
    have eb : ∀ k x y, lb k x y = lb k y x := by intro k x y; rw [hlb]; exact couple_symm _ (by exact hb) onlyOv _ _ _ k x y
    refine ⟨fun x y z w => ?_, fun x y z w => ⟨?_, ?_⟩, fun x y z w => ?_⟩ <;> unfold deltaW
    · exact congrArg₂ (· + ·) (Finset.sum_congr rfl fun k _ => by rw [ea k x y]) (Finset.sum_congr rfl fun k _ => by rw [ea k x y])
    · exact congrArg₂ (· + ·) (Finset.sum_congr rfl fun k _ => by rw [ea k x y]) (Finset.sum_congr rfl fun k _ => by rw [ea k x y])
    · exact congrArg₂ (· + ·) (Finset.sum_congr rfl fun k _ => by rw [eb k z w]) (Finset.sum_congr rfl fun k _ => by rw [eb k z w])
    · exact congrArg₂ (· + ·) (Finset.sum_congr rfl fun k _ => by rw [eb k x y]) (Finset.sum_congr rfl fun k _ => by rw [eb k x y])

/-- The option `ov` affects only what it says: with it only integrals with occupied-virtual pairs are screened, and these as without it. -/
theorem crpa_only_ov (eigha : Matrix ra ra ℝ → Eig ra ℝ) (eighb : Matrix rb rb ℝ → Eig rb ℝ) (eigh : Matrix (ra ⊕ rb) (ra ⊕ rb) ℝ → Eig (ra ⊕ rb) ℝ)
    (a : SpinData aux c d pa ra) (b : SpinData aux c' d' pb rb) (fullv : Matrix (pa ⊕ pb) (pa ⊕ pb) ℝ) (pcoupled : Bool) (delta : Integrals c d c' d')
    (h : fragDeltaW eigha eighb eigh a b fullv pcoupled true = .ok delta) :
    (∀ x y z w, x.isLeft = y.isLeft ∨ z.isLeft = w.isLeft → delta.1 x y z w = 0) ∧ (∀ x y z w, x.isLeft = y.isLeft ∨ z.isLeft = w.isLeft → delta.2.1 x y z w = 0)
      ∧ (∀ x y z w, x.isLeft = y.isLeft ∨ z.isLeft = w.isLeft → delta.2.2 x y z w = 0)
      ∧ ∃ delta', fragDeltaW eigha eighb eigh a b fullv pcoupled false = .ok delta'
        ∧ (∀ x y z w, x.isLeft ≠ y.isLeft → z.isLeft ≠ w.isLeft → delta.1 x y z w = delta'.1 x y z w)
        ∧ (∀ x y z w, x.isLeft ≠ y.isLeft → z.isLeft ≠ w.isLeft → delta.2.1 x y z w = delta'.2.1 x y z w)
        ∧ ∀ x y z w, x.isLeft ≠ y.isLeft → z.isLeft ≠ w.isLeft → delta.2.2 x y z w = delta'.2.2 x y z w := by
  have z1 : ∀ {c d p r : Type} (s : SpinData aux c d p r) [Fintype p] [Fintype r] (l : Matrix aux (ra ⊕ rb) ℝ) (t t' : Matrix r (ra ⊕ rb) ℝ) (k : ra ⊕ rb) (x y : c ⊕ d),
      x.isLeft = y.isLeft → couple s pcoupled true l t t' k x y = 0 := by
    intro c d p r s _ _ l t t' k x y hxy
    rcases x with x | x <;> rcases y with y | y <;> simp_all [couple]
  have z2 : ∀ {c d p r : Type} (s : SpinData aux c d p r) [Fintype p] [Fintype r] (l : Matrix aux (ra ⊕ rb) ℝ) (t t' : Matrix r (ra ⊕ rb) ℝ) (k : ra ⊕ rb) (x y : c ⊕ d),
      x.isLeft ≠ y.isLeft → couple s pcoupled true l t t' k x y = couple s pcoupled false l t t' k x y := by
    intro c d p r s _ _ l t t' k x y hxy
    rcases x with x | x <;> rcases y with y | y <;> simp_all [couple]
  have dz : ∀ {n n' : Type} (f : ra ⊕ rb → ℝ) (la : ra ⊕ rb → n → n → ℝ) (lb : ra ⊕ rb → n' → n' → ℝ) (x y : n) (z w : n'),
      ((∀ k, la k x y = 0 ∧ la k y x = 0) ∨ ∀ k, lb k z w = 0 ∧ lb k w z = 0) → deltaW f la lb x y z w = 0 := by
    intro n n' f la lb x y z w hh
    unfold deltaW
    rw [Finset.sum_eq_zero, Finset.sum_eq_zero, add_zero]
    · intro k _
      rcases hh with hh | hh
      · rw [(hh k).2, zero_mul, zero_mul]
      · rw [(hh k).2, mul_zero]
    · intro k _
      rcases hh with hh | hh
      · rw [(hh k).1, zero_mul, zero_mul]
      · rw [(hh k).1, mul_zero]
  have de : ∀ {n n' : Type} (f : ra ⊕ rb → ℝ) (la la' : ra ⊕ rb → n → n → ℝ) (lb lb' : ra ⊕ rb → n' → n' → ℝ) (x y : n) (z w : n'),
      (∀ k, la k x y = la' k x y ∧ la k y x = la' k y x) → (∀ k, lb k z w = lb' k z w ∧ lb k w z = lb' k w z) → deltaW f la lb x y z w = deltaW f la' lb' x y z w := by
    intro n n' f la la' lb lb' x y z w h1 h2
    unfold deltaW
    exact congrArg₂ (· + ·) (Finset.sum_congr rfl fun k _ => by rw [(h1 k).1, (h2 k).1]) (Finset.sum_congr rfl fun k _ => by rw [(h1 k).2, (h2 k).2])
  rcases delta_ok h with ⟨h0, hz⟩ | ⟨t, ht, la, lb, hla, hlb, hd⟩
  · subst hz
    refine ⟨fun _ _ _ _ _ => rfl, fun _ _ _ _ _ => rfl, fun _ _ _ _ _ => rfl, (fun _ _ _ _ => 0, fun _ _ _ _ => 0, fun _ _ _ _ => 0), ?_, fun _ _ _ _ _ _ => rfl,
      fun _ _ _ _ _ _ => rfl, fun _ _ _ _ _ _ => rfl⟩
    unfold fragDeltaW
    rw [if_pos h0]
  · have oa : ∀ x y : c ⊕ d, x.isLeft = y.isLeft → ∀ k, la k x y = 0 ∧ la k y x = 0 := by
      intro x y hxy k; rw [hla]; exact ⟨z1 _ _ _ _ _ _ _ hxy, z1 _ _ _ _ _ _ _ hxy.symm⟩
    have ob : ∀ x y : c' ⊕ d', x.isLeft = y.isLeft → ∀ k, lb k x y = 0 ∧ lb k y x = 0 := by
      intro x y hxy k; rw [hlb]; exact ⟨z1 _ _ _ _ _ _ _ hxy, z1 _ _ _ _ _ _ _ hxy.symm⟩
    refine ⟨?_, ?_, ?_, ?_⟩
    · intro x y z w hh
      rw [hd]
      exact dz _ _ _ _ _ _ _ (hh.imp (oa x y) (oa z w))
    · intro x y z w hh
      rw [hd]
      exact dz _ _ _ _ _ _ _ (hh.imp (oa x y) (ob z w))
    · intro x y z w hh
      rw [hd]
      exact dz _ _ _ _ _ _ _ (hh.imp (ob x y) (ob z w))
    · by_cases h0 : Fintype.card ra = 0 ∧ Fintype.card rb = 0
      · unfold fragDeltaW at h
        rw [if_pos h0] at h
        have hz := (Except.ok.inj h).symm
        refine ⟨(fun _ _ _ _ => 0, fun _ _ _ _ => 0, fun _ _ _ _ => 0), ?_, ?_, ?_, ?_⟩
        · unfold fragDeltaW
          rw [if_pos h0]
        · intro x y z w _ _; rw [hz]
        · intro x y z w _ _; rw [hz]
        · intro x y z w _ _; rw [hz]
      · obtain ⟨delta', hd'⟩ : ∃ delta', fragDeltaW eigha eighb eigh a b fullv pcoupled false = .ok delta' := by
          unfold fragDeltaW setUpW
          rw [if_neg h0]
          dsimp only
          rw [ht]
          exact ⟨_, rfl⟩
        rcases delta_ok hd' with ⟨h1, -⟩ | ⟨t', ht', la', lb', hla', hlb', hd'⟩
        · exact absurd h1 h0
        · obtain rfl : t = t' := Except.ok.inj (ht.symm.trans ht')
          have qa : ∀ x y : c ⊕ d, x.isLeft ≠ y.isLeft → ∀ k, la k x y = la' k x y ∧ la k y x = la' k y x := by
            intro x y hxy k; rw [hla, hla']; exact ⟨z2 _ _ _ _ _ _ _ hxy, z2 _ _ _ _ _ _ _ hxy.symm⟩
          have qb : ∀ x y : c' ⊕ d', x.isLeft ≠ y.isLeft → ∀ k, lb k x y = lb' k x y ∧ lb k y x = lb' k y x := by
            intro x y hxy k; rw [hlb, hlb']; exact ⟨z2 _ _ _ _ _ _ _ hxy, z2 _ _ _ _ _ _ _ hxy.symm⟩
          refine ⟨delta', by assumption, ?_, ?_, ?_⟩
          · intro x y z w h1 h2
            rw [hd, hd']
            exact de _ _ _ _ _ _ _ _ _ (qa x y h1) (qa z w h2)
          · intro x y z w h1 h2
            rw [hd, hd']
            exact de _ _ _ _ _ _ _ _ _ (qa x y h1) (qb z w h2)
          · intro x y z w h1 h2
            rw [hd, hd']
            exact de _ _ _ _ _ _ _ _ _ (qb x y h1) (qb z w h2)

private theorem quad (u : m → ℝ) (A : m → p → ℝ) (B : m → q → ℝ) (x : p → ℝ) (y : q → ℝ) :
    ∑ i, ∑ j, x i * (∑ k, A k i * u k * B k j) * y j = ∑ k, u k * ((∑ i, x i * A k i) * ∑ j, y j * B k j) := by
  have : ∀ k, u k * ((∑ i, x i * A k i) * ∑ j, y j * B k j) = ∑ i, ∑ j, x i * (A k i * u k * B k j) * y j := by
    intro k
    rw [Finset.sum_mul_sum, Finset.mul_sum]
    refine Finset.sum_congr rfl fun i _ => ?_
    rw [Finset.mul_sum]
    exact Finset.sum_congr rfl fun j _ => by ring
  simp only [this]
  symm
  rw [Finset.sum_comm]
  refine Finset.sum_congr rfl fun i _ => ?_
  rw [Finset.sum_comm]
  refine Finset.sum_congr rfl fun j _ => ?_
  rw [Finset.mul_sum, Finset.sum_mul]

/-- The interaction energy of two densities. -/
private theorem deltaW_quad (f : m → ℝ) (la : m → p → p → ℝ) (lb : m → q → q → ℝ) (x : p → p → ℝ) (y : q → q → ℝ) :
    ∑ i : p × p, ∑ j : q × q, x i.1 i.2 * deltaW f la lb i.1 i.2 j.1 j.2 * y j.1 j.2
      = -∑ k, (f k)⁻¹ * ((∑ i : p × p, x i.1 i.2 * la k i.1 i.2) * (∑ j : q × q, y j.1 j.2 * lb k j.1 j.2)
        + (∑ i : p × p, x i.1 i.2 * la k i.2 i.1) * ∑ j : q × q, y j.1 j.2 * lb k j.2 j.1) := by
  have h1 := quad (fun k => -1 * (f k)⁻¹) (fun k (i : p × p) => la k i.1 i.2) (fun k (j : q × q) => lb k j.1 j.2) (fun i => x i.1 i.2) fun j => y j.1 j.2
  have h2 := quad (fun k => -1 * (f k)⁻¹) (fun k (i : p × p) => la k i.2 i.1) (fun k (j : q × q) => lb k j.2 j.1) (fun i => x i.1 i.2) fun j => y j.1 j.2
  calc (∑ i : p × p, ∑ j : q × q, x i.1 i.2 * deltaW f la lb i.1 i.2 j.1 j.2 * y j.1 j.2 : ℝ) = (∑ i : p × p, ∑ j : q × q, x i.1 i.2 * (∑ k, la k i.1 i.2 * (-1 * (f k)⁻¹) * lb k j.1 j.2) * y j.1 j.2)
        + ∑ i : p × p, ∑ j : q × q, x i.1 i.2 * (∑ k, la k i.2 i.1 * (-1 * (f k)⁻¹) * lb k j.2 j.1) * y j.1 j.2 := by
        rw [← Finset.sum_add_distrib (M := ℝ)]
        refine Finset.sum_congr rfl fun i _ => ?_
        rw [← Finset.sum_add_distrib (M := ℝ)]
        refine Finset.sum_congr rfl fun j _ => ?_
        unfold deltaW
        ring
    _ = _ := by
        rw [h1, h2, ← Finset.sum_add_distrib, ← Finset.sum_neg_distrib]
        exact Finset.sum_congr rfl fun k _ => by ring

/-- Screening only weakens interactions: no density of electrons has a positive interaction energy with itself. -/
theorem crpa_attractive (eigha : Matrix ra ra ℝ → Eig ra ℝ) (eighb : Matrix rb rb ℝ → Eig rb ℝ) (eigh : Matrix (ra ⊕ rb) (ra ⊕ rb) ℝ → Eig (ra ⊕ rb) ℝ)
    (he : DiagonalisesSymmetric eigh) (a : SpinData aux c d pa ra) (b : SpinData aux c' d' pb rb) (fullv : Matrix (pa ⊕ pb) (pa ⊕ pb) ℝ) (hv : fullvᵀ = fullv)
    (pcoupled onlyOv : Bool) (delta : Integrals c d c' d') (h : fragDeltaW eigha eighb eigh a b fullv pcoupled onlyOv = .ok delta)
    (ρ : c ⊕ d → c ⊕ d → ℝ) (σ : c' ⊕ d' → c' ⊕ d' → ℝ) :
    (∑ i : (c ⊕ d) × (c ⊕ d), ∑ j : (c ⊕ d) × (c ⊕ d), ρ i.1 i.2 * delta.1 i.1 i.2 j.1 j.2 * ρ j.1 j.2)
      + 2 * (∑ i : (c ⊕ d) × (c ⊕ d), ∑ j : (c' ⊕ d') × (c' ⊕ d'), ρ i.1 i.2 * delta.2.1 i.1 i.2 j.1 j.2 * σ j.1 j.2)
      + (∑ i : (c' ⊕ d') × (c' ⊕ d'), ∑ j : (c' ⊕ d') × (c' ⊕ d'), σ i.1 i.2 * delta.2.2 i.1 i.2 j.1 j.2 * σ j.1 j.2) ≤ 0 := by
  rcases delta_ok h with ⟨-, hz⟩ | ⟨t, ht, la, lb, -, -, hd⟩
  · rw [hz]; simp
  · have hs := sol_of_kernel he hv ht
    rw [hd, deltaW_quad, deltaW_quad, deltaW_quad]
    have e : ∀ x y z : ℝ, -x + 2 * -y + -z = -(x + 2 * y + z) := fun x y z => by ring
    rw [e, neg_nonpos, Finset.mul_sum, ← Finset.sum_add_distrib, ← Finset.sum_add_distrib]
    refine Finset.sum_nonneg fun k _ => ?_
    have hk := inv_pos.mpr (hs.pos k)
    generalize (∑ i : (c ⊕ d) × (c ⊕ d), ρ i.1 i.2 * la k i.1 i.2) = f1
    generalize (∑ i : (c ⊕ d) × (c ⊕ d), ρ i.1 i.2 * la k i.2 i.1) = f2
    generalize (∑ j : (c' ⊕ d') × (c' ⊕ d'), σ j.1 j.2 * lb k j.1 j.2) = g1
    generalize (∑ j : (c' ⊕ d') × (c' ⊕ d'), σ j.1 j.2 * lb k j.2 j.1) = g2
    have e2 : (t.1.freqs k)⁻¹ * (f1 * f1 + f2 * f2) + 2 * ((t.1.freqs k)⁻¹ * (f1 * g1 + f2 * g2)) + (t.1.freqs k)⁻¹ * (g1 * g1 + g2 * g2)
        = (t.1.freqs k)⁻¹ * ((f1 + g1) * (f1 + g1) + (f2 + g2) * (f2 + g2)) := by ring
    rw [e2]
    exact mul_nonneg hk.le (add_nonneg (mul_self_nonneg _) (mul_self_nonneg _))

/-! ## Restricted Hamiltonians -/

/-- Sum of both spins. -/
private def both (q : Type) [DecidableEq q] : Matrix (q ⊕ q) q ℝ := fromRows 1 1

private theorem both_block (x y z w : Matrix q q ℝ) : (both q)ᵀ * fromBlocks x y z w * both q = x + z + (y + w) := by
  unfold both
  rw [transpose_fromRows, transpose_one, fromCols_mul_fromBlocks, fromCols_mul_fromRows]
  simp only [Matrix.one_mul, Matrix.mul_one]

private theorem both_mul (x : Matrix q p ℝ) : fromBlocks x 0 0 x * both p = both q * x := by
  unfold both
  rw [fromBlocks_mul_fromRows, fromRows_mul]
  simp only [Matrix.one_mul, Matrix.mul_one, add_zero, zero_add]

private theorem both_norm : (both q)ᵀ * both q = (2 : ℝ) • (1 : Matrix q q ℝ) := by
  have := both_block (1 : Matrix q q ℝ) 0 0 1
  rw [fromBlocks_one, Matrix.mul_one, add_zero, zero_add] at this
  rw [this, two_smul]

private theorem charge_channel {M : Matrix (q ⊕ q) (q ⊕ q) ℝ} {x : Matrix q p ℝ} {G : Matrix (p ⊕ p) (p ⊕ p) ℝ} {g : Matrix p p ℝ}
    (hM : M * (fromBlocks x 0 0 x * G * (fromBlocks x 0 0 x)ᵀ) = 1) (hG : G * both p = both p * g) :
    (1 / 2 : ℝ) • ((both q)ᵀ * M * both q) * (x * g * xᵀ) = 1 := by
  have e1 : both q * x * g * xᵀ = fromBlocks x 0 0 x * G * (fromBlocks x 0 0 x)ᵀ * both q := by
    have h1 : (fromBlocks x 0 0 x)ᵀ * both q = both p * xᵀ := by
      rw [fromBlocks_transpose, transpose_zero]; exact both_mul xᵀ
    rw [← both_mul, Matrix.mul_assoc (_ * G), h1, Matrix.mul_assoc _ (both p), ← hG]
    simp only [Matrix.mul_assoc]
  calc (1 / 2 : ℝ) • ((both q)ᵀ * M * both q) * (x * g * xᵀ) = (1 / 2 : ℝ) • ((both q)ᵀ * (M * (both q * x * g * xᵀ))) := by
        rw [Matrix.smul_mul]; simp only [Matrix.mul_assoc]
    _ = (1 / 2 : ℝ) • ((both q)ᵀ * (M * (fromBlocks x 0 0 x * G * (fromBlocks x 0 0 x)ᵀ) * both q)) := by rw [e1, Matrix.mul_assoc M]
    _ = 1 := by rw [hM, Matrix.one_mul, both_norm, smul_smul]; norm_num

/-- The matrix of the integrals `(ia|jb)` of one array. -/
def excitationBlock (w : c ⊕ d → c ⊕ d → c ⊕ d → c ⊕ d → ℝ) : Matrix (c × d) (c × d) ℝ := Matrix.of fun x y => w (.inl x.1) (.inr x.2) (.inl y.1) (.inr y.2)

/-- The matrix of the integrals `(ia|bj)` of one array. -/
def deexcitationBlock (w : c ⊕ d → c ⊕ d → c ⊕ d → c ⊕ d → ℝ) : Matrix (c × d) (c × d) ℝ := Matrix.of fun x y => w (.inl x.1) (.inr x.2) (.inr y.2) (.inl y.1)

private theorem exc_both (delta : Integrals c d c d) :
    (both (c × d))ᵀ * excitationPart delta * both (c × d) = (4 : ℝ) • excitationBlock (spinIntegrate delta.1 delta.2.1 delta.2.2) := by
  unfold excitationPart
  rw [both_block]
  ext x y
  rw [Matrix.smul_apply, smul_eq_mul]
  unfold excitationBlock spinIntegrate
  simp only [Matrix.add_apply, of_apply]
  ring

private theorem deexc_both (delta : Integrals c d c d) (hsym : ∀ x y z w, delta.2.1 x y z w = delta.2.1 y x w z) :
    (both (c × d))ᵀ * deexcitationPart delta * both (c × d) = (4 : ℝ) • deexcitationBlock (spinIntegrate delta.1 delta.2.1 delta.2.2) := by
  unfold deexcitationPart
  rw [both_block]
  ext x y
  rw [Matrix.smul_apply, smul_eq_mul]
  unfold deexcitationBlock spinIntegrate
  simp only [Matrix.add_apply, of_apply]
  have := hsym (.inr y.2) (.inl y.1) (.inl x.1) (.inr x.2)
  linarith

/-- Restricted Hamiltonians, where the average over spins is used: excitations without change of spin have the static response of the system. -/
theorem crpa_restricted (eighs : Matrix r r ℝ → Eig r ℝ) (eigh : Matrix (r ⊕ r) (r ⊕ r) ℝ → Eig (r ⊕ r) ℝ)
    (hes : DiagonalisesSymmetric eighs) (he : DiagonalisesSymmetric eigh) (s : SpinData aux c d p r) (hs : Complement s.rotLoc s.rot) (ints : SameIntegrals s) (pcoupled onlyOv : Bool)
    (hp : pcoupled = true ∨ s.rotLoc * diagonal s.eps * s.rotᵀ = 0) (delta : Integrals c d c d)
    (h : fragDeltaW eighs eighs eigh s s ((fromCols s.lov s.lov)ᵀ * fromCols s.lov s.lov) pcoupled onlyOv = .ok delta) (heps : ∀ x, s.eps x ≠ 0) :
    let C := s.rotLoc
    let V := s.lovᵀ * s.lov
    let E := diagonal s.eps
    let W := spinIntegrate delta.1 delta.2.1 delta.2.2
    let A := C * E * Cᵀ + (2 : ℝ) • (C * V * Cᵀ + excitationBlock W)
    let B := (2 : ℝ) • (C * V * Cᵀ + deexcitationBlock W)
    (∀ G, ((E + (2 : ℝ) • V) + (2 : ℝ) • V) * G = 1 → (A + B) * (C * G * Cᵀ) = 1) ∧ ∀ G, ((E + (2 : ℝ) • V) - (2 : ℝ) • V) * G = 1 → (A - B) * (C * G * Cᵀ) = 1 := by
  intro C V E W A B
  obtain ⟨r1, r2⟩ := crpa_static_response eighs eighs eigh hes hes he s s hs hs ints ints pcoupled onlyOv (hp.imp id fun h => ⟨h, h⟩) delta h
  have hsym := (crpa_symmetry eighs eighs eigh s s _ pcoupled onlyOv delta h).2.1
  have eV : (fromCols s.lov s.lov)ᵀ * fromCols s.lov s.lov = fromBlocks V V V V := by
    rw [transpose_fromCols, fromRows_mul_fromCols]
  have eE : diagonal (Rpa.concat s.eps s.eps) = fromBlocks E 0 0 E := (fromBlocks_diagonal _ _).symm
  have eCx : ∀ x : Matrix (p ⊕ p) (p ⊕ p) ℝ, (both (c × d))ᵀ * (fromBlocks C 0 0 C * x * (fromBlocks C 0 0 C)ᵀ) * both (c × d) = C * ((both p)ᵀ * x * both p) * Cᵀ := by
    intro x
    have h1 : (fromBlocks C 0 0 C)ᵀ * both (c × d) = both p * Cᵀ := by
      rw [fromBlocks_transpose, transpose_zero]; exact both_mul Cᵀ
    have h2 : (both (c × d))ᵀ * fromBlocks C 0 0 C = C * (both p)ᵀ := by
      have := congrArg transpose h1
      rwa [transpose_mul, transpose_transpose, transpose_mul, transpose_transpose] at this
    calc _ = ((both (c × d))ᵀ * fromBlocks C 0 0 C) * x * ((fromBlocks C 0 0 C)ᵀ * both (c × d)) := by simp only [Matrix.mul_assoc]
      _ = _ := by rw [h1, h2]; simp only [Matrix.mul_assoc]
  rw [eV, eE] at r1 r2
  have bE : (both p)ᵀ * fromBlocks E 0 0 E * both p = (2 : ℝ) • E := by rw [both_block]; module
  have bV : (both p)ᵀ * fromBlocks V V V V * both p = (4 : ℝ) • V := by rw [both_block]; module
  set X := excitationPart delta with hX
  set Y := deexcitationPart delta with hY
  have xX : (both (c × d))ᵀ * X * both (c × d) = (4 : ℝ) • excitationBlock W := exc_both delta
  have xY : (both (c × d))ᵀ * Y * both (c × d) = (4 : ℝ) • deexcitationBlock W := deexc_both delta hsym
  have lin : ∀ x y z u v : Matrix (c × d ⊕ c × d) (c × d ⊕ c × d) ℝ, (1 / 2 : ℝ) • ((both (c × d))ᵀ * (x + (y + z) + (u + v)) * both (c × d))
      = (1 / 2 : ℝ) • ((both (c × d))ᵀ * x * both (c × d) + ((both (c × d))ᵀ * y * both (c × d) + (both (c × d))ᵀ * z * both (c × d))
        + ((both (c × d))ᵀ * u * both (c × d) + (both (c × d))ᵀ * v * both (c × d))) := by
    intro x y z u v; simp only [Matrix.mul_add, Matrix.add_mul]
  have lin' : ∀ x y z u v : Matrix (c × d ⊕ c × d) (c × d ⊕ c × d) ℝ, (1 / 2 : ℝ) • ((both (c × d))ᵀ * (x + (y + z) - (u + v)) * both (c × d))
      = (1 / 2 : ℝ) • ((both (c × d))ᵀ * x * both (c × d) + ((both (c × d))ᵀ * y * both (c × d) + (both (c × d))ᵀ * z * both (c × d))
        - ((both (c × d))ᵀ * u * both (c × d) + (both (c × d))ᵀ * v * both (c × d))) := by
    intro x y z u v; simp only [Matrix.mul_add, Matrix.add_mul, Matrix.mul_sub, Matrix.sub_mul]
  have eh : E * diagonal (fun x => (s.eps x)⁻¹) = 1 := by
    show diagonal s.eps * _ = _
    rw [diagonal_mul_diagonal, ← diagonal_one]
    congr 1; funext x; exact mul_inv_cancel₀ (heps x)
  constructor
  · intro g hg
    set f : Matrix p p ℝ := diagonal fun x => (s.eps x)⁻¹ with hf
    have hg' : E * g + (4 : ℝ) • (V * g) = 1 := by
      rw [← hg]; simp only [Matrix.add_mul, Matrix.smul_mul]; module
    have hG : (fromBlocks E 0 0 E + fromBlocks V V V V + fromBlocks V V V V) * ((1 / 2 : ℝ) • fromBlocks (g + f) (g - f) (g - f) (g + f)) = 1 := by
      rw [fromBlocks_add, fromBlocks_add, Matrix.mul_smul, fromBlocks_multiply, fromBlocks_smul, ← fromBlocks_one]
      simp only [Matrix.add_mul, Matrix.mul_add, Matrix.mul_sub, zero_add, eh]
      congr 1
      · calc _ = (1 / 2 : ℝ) • ((E * g + (4 : ℝ) • (V * g)) + 1) := by module
          _ = 1 := by rw [hg']; module
      · calc _ = (1 / 2 : ℝ) • ((E * g + (4 : ℝ) • (V * g)) - 1) := by module
          _ = 0 := by rw [hg']; module
      · calc _ = (1 / 2 : ℝ) • ((E * g + (4 : ℝ) • (V * g)) - 1) := by module
          _ = 0 := by rw [hg']; module
      · calc _ = (1 / 2 : ℝ) • ((E * g + (4 : ℝ) • (V * g)) + 1) := by module
          _ = 1 := by rw [hg']; module
    have hb : ((1 / 2 : ℝ) • fromBlocks (g + f) (g - f) (g - f) (g + f)) * both p = both p * g := by
      unfold both
      rw [Matrix.smul_mul, fromBlocks_mul_fromRows, fromRows_mul]
      simp only [Matrix.mul_one, Matrix.one_mul]
      ext (i | i) j
      · show (1 / 2 : ℝ) * ((g i j + f i j) + (g i j - f i j)) = g i j
        ring
      · show (1 / 2 : ℝ) * ((g i j - f i j) + (g i j + f i j)) = g i j
        ring
    have := charge_channel (r1 _ hG) hb
    rw [lin, eCx, eCx, bE, bV, xX, xY] at this
    rw [← this]
    congr 1
    simp only [Matrix.mul_smul, Matrix.smul_mul]
    module
  · intro g hg
    have hg' : E * g = 1 := by
      rw [← hg]; congr 1; abel
    have hG : (fromBlocks E 0 0 E + fromBlocks V V V V - fromBlocks V V V V) * fromBlocks g 0 0 g = 1 := by
      rw [add_sub_cancel_right, fromBlocks_multiply, ← fromBlocks_one]
      simp only [Matrix.mul_zero, Matrix.zero_mul, add_zero, zero_add, hg']
    have := charge_channel (r2 _ hG) (both_mul g)
    rw [lin', eCx, eCx, bE, bV, xX, xY] at this
    rw [← this]
    congr 1
    simp only [Matrix.mul_smul, Matrix.smul_mul]
    module

/-! ## Integrals and success -/

private theorem pair_sum {ι κ n n' : Type} [Fintype ι] [Fintype κ] (L : Matrix ι κ ℝ) (A : Matrix ι n ℝ) (B : Matrix κ n' ℝ) (i : n) (j : n') :
    ∑ y, ∑ z, L y z * A y i * B z j = (Aᵀ * L * B) i j := by
  rw [Matrix.mul_apply]
  simp only [Matrix.mul_apply, Finset.sum_mul, transpose_apply]
  rw [Finset.sum_comm]
  exact Finset.sum_congr rfl fun z _ => Finset.sum_congr rfl fun y _ => by ring

/-- The integrals computed for a cluster are those of its excitations, for symmetric three-index integrals and orbitals of the cluster `co * ro` and `cv * rv`. -/
theorem crpa_integrals {ι o v : Type} [Fintype ι] [Fintype o] [Fintype v] [DecidableEq o] [DecidableEq v] (l : aux → ι → ι → ℝ) (hl : ∀ n y z, l n y z = l n z y)
    (co : Matrix ι o ℝ) (cv : Matrix ι v ℝ) (ro : Matrix o c ℝ) (rv : Matrix v d ℝ) (rot : Matrix r (o × v) ℝ) (eps : o × v → ℝ) :
    SameIntegrals ⟨threeIndex l (fromCols (co * ro) (cv * rv)), threeIndexOv l co cv, targetRotSpat ro rv, rot, eps⟩
      ∧ ∀ n x y, threeIndex l (fromCols (co * ro) (cv * rv)) n (x, y) = threeIndex l (fromCols (co * ro) (cv * rv)) n (y, x) := by
  have sym : ∀ n x y, threeIndex l (fromCols (co * ro) (cv * rv)) n (x, y) = threeIndex l (fromCols (co * ro) (cv * rv)) n (y, x) := by
    intro n x y
    unfold threeIndex
    simp only [of_apply]
    rw [Finset.sum_comm]
    exact Finset.sum_congr rfl fun z _ => Finset.sum_congr rfl fun y _ => by rw [hl]; ring
  have main : ∀ n i a, threeIndex l (fromCols (co * ro) (cv * rv)) n (.inl i, .inr a) = (threeIndexOv l co cv * (targetRotSpat ro rv)ᵀ) n (i, a) := by
    intro n i a
    have h1 : threeIndex l (fromCols (co * ro) (cv * rv)) n (.inl i, .inr a) = ((co * ro)ᵀ * Matrix.of (l n) * (cv * rv)) i a := pair_sum (Matrix.of (l n)) (co * ro) (cv * rv) i a
    have h2 : (threeIndexOv l co cv * (targetRotSpat ro rv)ᵀ) n (i, a) = ∑ x, ∑ y, (coᵀ * Matrix.of (l n) * cv) x y * ro x i * rv y a := by
      rw [Matrix.mul_apply, Fintype.sum_prod_type]
      refine Finset.sum_congr rfl fun x _ => Finset.sum_congr rfl fun y _ => ?_
      rw [mul_assoc]
      exact congrArg (· * (ro x i * rv y a)) (pair_sum (Matrix.of (l n)) co cv x y)
    rw [h1, h2]
    refine Eq.trans ?_ (pair_sum _ ro rv i a).symm
    rw [transpose_mul]
    simp only [Matrix.mul_assoc]
  exact ⟨fun n i a => ⟨main n i a, (sym n _ _).trans (main n i a)⟩, sym⟩

private theorem rotated_above {eigh : Matrix r r ℝ → Eig r ℝ} (he : DiagonalisesSymmetric eigh) (rot : Matrix r p ℝ) (hr : rot * rotᵀ = 1) (eps : p → ℝ) (x : ℝ) (hx : ∀ k, x < eps k) (k : r) :
    x < (rotate eigh rot eps).1 k := by
  obtain ⟨h1, -, h3, -⟩ := rpa_rotation eigh he rot hr eps
  have e1 := congrFun (congrFun h1 k) k
  have e3 := congrFun (congrFun h3 k) k
  rw [Matrix.one_apply_eq, Matrix.mul_apply] at e1
  rw [diagonal_apply_eq, Matrix.mul_apply] at e3
  simp only [transpose_apply] at e1
  simp only [mul_diagonal, transpose_apply] at e3
  rw [← e3]
  obtain ⟨j, hj⟩ : ∃ j, (rotate eigh rot eps).2 k j ≠ 0 := by
    by_contra hn
    push Not at hn
    rw [Finset.sum_eq_zero fun j _ => by rw [hn j, zero_mul]] at e1
    exact zero_ne_one e1
  calc x = ∑ j, (rotate eigh rot eps).2 k j * x * (rotate eigh rot eps).2 k j := by
        have e2 : (∑ j, (rotate eigh rot eps).2 k j * (rotate eigh rot eps).2 k j) * x = x := by rw [e1, one_mul]
        rw [Finset.sum_mul] at e2
        refine e2.symm.trans (Finset.sum_congr rfl fun j _ => ?_)
        ring
    _ < _ := by
        refine Finset.sum_lt_sum (fun j _ => ?_) ⟨j, Finset.mem_univ j, ?_⟩
        · have := mul_le_mul_of_nonneg_left (hx j).le (mul_self_nonneg ((rotate eigh rot eps).2 k j))
          linarith
        · have := mul_lt_mul_of_pos_left (hx j) (mul_self_pos.mpr hj)
          linarith

/-- Screened interactions are found whenever the mean-field has a gap of more than `1e-6`. -/
theorem crpa_succeeds (eigha : Matrix ra ra ℝ → Eig ra ℝ) (eighb : Matrix rb rb ℝ → Eig rb ℝ) (eigh : Matrix (ra ⊕ rb) (ra ⊕ rb) ℝ → Eig (ra ⊕ rb) ℝ)
    (hea : DiagonalisesSymmetric eigha) (heb : DiagonalisesSymmetric eighb) (he : DiagonalisesSymmetric eigh) (a : SpinData aux c d pa ra) (b : SpinData aux c' d' pb rb)
    (ha : Complement a.rotLoc a.rot) (hb : Complement b.rotLoc b.rot) (ga : ∀ x, 1 / 10 ^ 6 < a.eps x) (gb : ∀ x, 1 / 10 ^ 6 < b.eps x) (pcoupled onlyOv : Bool) :
    ∃ delta, fragDeltaW eigha eighb eigh a b ((fromCols a.lov b.lov)ᵀ * fromCols a.lov b.lov) pcoupled onlyOv = .ok delta := by
  unfold fragDeltaW setUpW
  split
  · exact ⟨_, rfl⟩
  · dsimp only
    have hv : ((fromCols a.lov b.lov)ᵀ * fromCols a.lov b.lov).PosSemidef := by
      have := posSemidef_conjTranspose_mul_self (fromCols a.lov b.lov)
      rwa [conjTranspose_eq_transpose_of_trivial] at this
    obtain ⟨t, ht⟩ := rpa_succeeds eigh he (Rpa.concat (rotate eigha a.rot a.eps).1 (rotate eighb b.rot b.eps).1) (by
      rintro (k | k)
      · exact rotated_above hea a.rot ha.restNormal a.eps _ ga k
      · exact rotated_above heb b.rot hb.restNormal b.eps _ gb k) (fromBlocks (rotate eigha a.rot a.eps).2 0 0 (rotate eighb b.rot b.eps).2) _ hv 1 zero_le_one
    rw [ht]
    exact ⟨_, rfl⟩

/-- One excitation of a cluster, in a system with two excitations of different energy. -/
noncomputable def mixedCluster (l : ℝ) : SpinData Unit Unit Unit (Fin 2) Unit where
  lpq := Matrix.of fun _ x => if x.1.isLeft = x.2.isLeft then 1 else l * (7 / 5)
  lov := Matrix.of fun _ _ => l
  rotLoc := Matrix.of fun _ => ![3 / 5, 4 / 5]
  rot := Matrix.of fun _ => ![-4 / 5, 3 / 5]
  eps := ![1, 2]

theorem mixed_complement (l : ℝ) : Complement (mixedCluster l).rotLoc (mixedCluster l).rot := by
  refine ⟨?_, ?_, ?_, ?_⟩
  · ext i j
    obtain rfl : i = j := Subsingleton.elim i j
    rw [Matrix.one_apply_eq]
    simp [mixedCluster, Matrix.mul_apply]; norm_num
  · ext i j; simp [mixedCluster, Matrix.mul_apply]; norm_num
  · ext i j; simp [mixedCluster, Matrix.mul_apply]; norm_num
  · ext i j
    fin_cases i <;> fin_cases j <;> simp [mixedCluster, Matrix.mul_apply] <;> norm_num

theorem mixed_integrals (l : ℝ) : SameIntegrals (mixedCluster l) := by
  intro n i a
  constructor <;>
  · simp [mixedCluster, Matrix.mul_apply]
    ring

theorem mixed_gap (l : ℝ) (x : Fin 2) : 1 / 10 ^ 6 < (mixedCluster l).eps x := by
  fin_cases x <;> simp [mixedCluster] <;> norm_num

theorem mixed_coupled (l : ℝ) : (mixedCluster l).rotLoc * diagonal (mixedCluster l).eps * (mixedCluster l).rotᵀ ≠ 0 := by
  intro h
  have := congrFun (congrFun h ((), ())) ()
  simp [mixedCluster, Matrix.mul_apply, diagonal_apply] at this
  norm_num at this

/-- Without `pcoupled` the static response is lost, if energies couple the cluster to other excitations. -/
theorem crpa_uncoupled_response_lost (eighs : Matrix Unit Unit ℝ → Eig Unit ℝ) (eigh : Matrix (Unit ⊕ Unit) (Unit ⊕ Unit) ℝ → Eig (Unit ⊕ Unit) ℝ)
    (hes : DiagonalisesSymmetric eighs) (he : DiagonalisesSymmetric eigh) (onlyOv : Bool) :
    ∃ s : SpinData Unit Unit Unit (Fin 2) Unit, Complement s.rotLoc s.rot ∧ SameIntegrals s
      ∧ ∃ delta, fragDeltaW eighs eighs eigh s s ((fromCols s.lov s.lov)ᵀ * fromCols s.lov s.lov) false onlyOv = .ok delta
        ∧ ∃ G, (diagonal (Rpa.concat s.eps s.eps) + (fromCols s.lov s.lov)ᵀ * fromCols s.lov s.lov + (fromCols s.lov s.lov)ᵀ * fromCols s.lov s.lov) * G = 1
          ∧ (let C := fromBlocks s.rotLoc 0 0 s.rotLoc
             let V := (fromCols s.lov s.lov)ᵀ * fromCols s.lov s.lov
             let A := C * diagonal (Rpa.concat s.eps s.eps) * Cᵀ + (C * V * Cᵀ + excitationPart delta)
             let B := C * V * Cᵀ + deexcitationPart delta
             (A + B) * (C * G * Cᵀ) ≠ 1) := by
  obtain ⟨delta, hd⟩ := crpa_succeeds eighs eighs eigh hes hes he (mixedCluster 0) (mixedCluster 0) (mixed_complement 0) (mixed_complement 0) (mixed_gap 0) (mixed_gap 0) false onlyOv
  have hlov : (mixedCluster 0).lov = 0 := rfl
  refine ⟨mixedCluster 0, mixed_complement 0, mixed_integrals 0, delta, hd, diagonal (Rpa.concat ![1, 1 / 2] ![1, 1 / 2]), ?_, ?_⟩
  · have hz : fromCols (mixedCluster 0).lov (mixedCluster 0).lov = 0 := by rw [hlov]; ext i (j | j) <;> rfl
    rw [hz, Matrix.mul_zero, add_zero, add_zero, diagonal_mul_diagonal, ← diagonal_one]
    congr 1
    funext x
    rcases x with x | x <;> fin_cases x <;> simp [mixedCluster, Rpa.concat]
  · intro C V A B
    have hz : fromCols (mixedCluster 0).lov (mixedCluster 0).lov = 0 := by rw [hlov]; ext i (j | j) <;> rfl
    have hV : V = 0 := by
      have : V = (fromCols (mixedCluster 0).lov (mixedCluster 0).lov)ᵀ * fromCols (mixedCluster 0).lov (mixedCluster 0).lov := rfl
      rw [this, hz, Matrix.mul_zero]
    have h0 : excitationPart delta = 0 ∧ deexcitationPart delta = 0 := by
      rcases delta_ok hd with ⟨-, hz⟩ | ⟨t, ht, la, lb, hla, hlb, hd'⟩
      · subst hz
        constructor <;> ext (i | i) (j | j) <;> rfl
      · obtain ⟨g1, g2⟩ := couplings_eq { mixedCluster 0 with rot := (rotate eighs (mixedCluster 0).rot (mixedCluster 0).eps).2 }
          { mixedCluster 0 with rot := (rotate eighs (mixedCluster 0).rot (mixedCluster 0).eps).2 } (mixed_integrals 0) (mixed_integrals 0) false onlyOv t.1.xpy t.1.xmy
        rw [← hla, ← hlb] at g1 g2
        rw [show (fromCols (mixedCluster 0).lov (mixedCluster 0).lov) = 0 from hz] at g1 g2
        simp only [Bool.false_eq_true, if_false, Matrix.mul_zero, Matrix.zero_mul, add_zero] at g1 g2
        rw [hd', exc_eq, deexc_eq, g1, g2]
        simp only [Matrix.zero_mul, Matrix.mul_zero, add_zero, neg_zero, transpose_zero, and_self]
    intro hone
    have e := congrFun (congrFun hone (.inl ((), ()))) (.inl ((), ()))
    have eA : A + B = C * diagonal (Rpa.concat (mixedCluster 0).eps (mixedCluster 0).eps) * Cᵀ := by
      show _ + (C * V * Cᵀ + excitationPart delta) + (C * V * Cᵀ + deexcitationPart delta) = _
      rw [hV, h0.1, h0.2, Matrix.mul_zero, Matrix.zero_mul]
      simp only [add_zero]
    rw [eA] at e
    have eC : ∀ x y : Fin 2 → ℝ, C * diagonal (Rpa.concat x y) * Cᵀ
        = fromBlocks ((mixedCluster 0).rotLoc * diagonal x * (mixedCluster 0).rotLocᵀ) 0 0 ((mixedCluster 0).rotLoc * diagonal y * (mixedCluster 0).rotLocᵀ) := by
      intro x y
      show fromBlocks _ 0 0 _ * diagonal (Sum.elim x y) * (fromBlocks _ 0 0 _)ᵀ = _
      rw [← fromBlocks_diagonal, fromBlocks_transpose, fromBlocks_multiply, fromBlocks_multiply]
      simp only [transpose_zero, Matrix.mul_zero, Matrix.zero_mul, add_zero, zero_add]
    rw [eC, eC, fromBlocks_multiply, fromBlocks_apply₁₁, Matrix.one_apply_eq, Matrix.zero_mul, add_zero] at e
    simp [mixedCluster, Matrix.mul_apply, diagonal_apply] at e
    norm_num at e

/-- Not vacuous: an interacting cluster, coupled by energies. -/
example (eighs : Matrix Unit Unit ℝ → Eig Unit ℝ) (eigh : Matrix (Unit ⊕ Unit) (Unit ⊕ Unit) ℝ → Eig (Unit ⊕ Unit) ℝ) (hes : DiagonalisesSymmetric eighs) (he : DiagonalisesSymmetric eigh) :
    ∃ delta, fragDeltaW eighs eighs eigh (mixedCluster 1) (mixedCluster 1) ((fromCols (mixedCluster 1).lov (mixedCluster 1).lov)ᵀ * fromCols (mixedCluster 1).lov (mixedCluster 1).lov) true false = .ok delta
      ∧ excitationPart delta ≠ deexcitationPart delta ∧ ∃ x y z w, delta.1 x y z w ≠ delta.1 y x z w ∨ delta.2.1 x y z w ≠ delta.2.1 x y w z ∨ delta.2.2 x y z w ≠ delta.2.2 y x z w := by
  obtain ⟨delta, hd⟩ := crpa_succeeds eighs eighs eigh hes hes he (mixedCluster 1) (mixedCluster 1) (mixed_complement 1) (mixed_complement 1) (mixed_gap 1) (mixed_gap 1) true false
  have hne := crpa_pcoupled_symmetry_broken eighs eighs eigh hes hes he _ _ (mixed_complement 1) (mixed_complement 1) (mixed_integrals 1) (mixed_integrals 1) false (mixed_coupled 1) delta hd
  refine ⟨delta, hd, hne, ?_⟩
  by_contra hn
  push Not at hn
  obtain ⟨s1, s2, s3⟩ := crpa_symmetry eighs eighs eigh _ _ _ true false delta hd
  apply hne
  ext (i | i) (j | j)
  · show delta.1 _ _ _ _ = delta.1 _ _ _ _
    rw [(s1 _ _ _ _).1, (hn _ _ _ _).1, (s1 _ _ _ _).1]
  · exact (hn _ _ _ _).2.1
  · show delta.2.1 _ _ _ _ = delta.2.1 _ _ _ _
    rw [(hn _ _ _ _).2.1, s2]
  · show delta.2.2 _ _ _ _ = delta.2.2 _ _ _ _
    rw [(s3 _ _ _ _).1, (hn _ _ _ _).2.2, (s3 _ _ _ _).1]

/-! ## Options -/

private theorem contains_iff (sub : List Char) : ∀ s : List Char, contains sub s = true ↔ sub <:+: s
  | [] => by
    unfold contains
    rw [List.isEmpty_iff, List.infix_nil]
  | x :: s => by
    unfold contains
    rw [Bool.or_eq_true, contains_iff sub s, List.infix_cons_iff, List.isPrefixOf_iff_prefix]

/-- Which screening is applied. Without a protocol, with an unknown one, or with the word `full` there is a ValueError. -/
theorem screening_options (screening : Option String) (seris : Bool) :
    (chooseProtocol screening seris = .ok .moment ↔ screening = some "mrpa" ∧ seris = true)
    ∧ (chooseProtocol screening seris = .error .assertionError ↔ screening = some "mrpa" ∧ seris = false)
    ∧ (∀ pcoupled onlyOv, chooseProtocol screening seris = .ok (.static pcoupled onlyOv) ↔ ∃ s, screening = some s ∧ "crpa".toList <+: s.toList ∧ ¬ "full".toList <:+: s.toList
      ∧ (pcoupled = true ↔ "pcoupled".toList <:+: s.toList) ∧ (onlyOv = true ↔ "ov".toList <:+: s.toList))
    ∧ (chooseProtocol screening seris = .error .valueError ↔ ∀ s, screening = some s → s ≠ "mrpa" ∧ ("crpa".toList <+: s.toList → "full".toList <:+: s.toList)) := by
  cases screening with
  | none => simp [chooseProtocol]
  | some s =>
    have h4 : s.toList.take 4 = "crpa".toList ↔ "crpa".toList <+: s.toList := by
      rw [List.prefix_iff_eq_take]
      exact eq_comm
    by_cases h1 : s = "mrpa"
    · subst h1
      have hf : ¬ "mrpa".toList.take 4 = "crpa".toList := by decide
      have e : chooseProtocol (some "mrpa") seris = if seris then .ok .moment else .error .assertionError := by
        unfold chooseProtocol
        exact if_pos rfl
      rw [e]
      refine ⟨?_, ?_, fun pc ov => ?_, ?_⟩
      · cases seris <;> simp
      · cases seris <;> simp
      · constructor
        · intro h; cases seris <;> cases h
        · rintro ⟨s, hs, h, -⟩
          rw [← Option.some.inj hs, List.prefix_iff_eq_take] at h
          exact absurd h.symm hf
      · constructor
        · intro h; cases seris <;> cases h
        · intro h; exact absurd rfl (h _ rfl).1
    · have e : chooseProtocol (some s) seris = if s.toList.take 4 = "crpa".toList then
          if contains "full".toList s.toList then .error .valueError
          else .ok (.static (contains "pcoupled".toList s.toList) (contains "ov".toList s.toList))
        else .error .valueError := by
        unfold chooseProtocol
        exact if_neg h1
      rw [e]
      have n1 : ∀ q : Prop, ¬ (some s = some "mrpa" ∧ q) := fun q hq => h1 (Option.some.inj hq.1)
      refine ⟨⟨fun h => ?_, fun h => absurd h (n1 _)⟩, ⟨fun h => ?_, fun h => absurd h (n1 _)⟩, fun pc ov => ⟨fun h => ?_, ?_⟩, ⟨fun h t ht => ?_, fun h => ?_⟩⟩
      · split at h
        · split at h <;> cases h
        · cases h
      · split at h
        · split at h <;> cases h
        · cases h
      · split at h
        · rename_i h2
          split at h
          · cases h
          · rename_i h3
            cases h
            exact ⟨s, rfl, h4.mp h2, fun h5 => h3 ((contains_iff _ _).mpr h5), contains_iff _ _, contains_iff _ _⟩
        · cases h
      · rintro ⟨t, ht, h2, h3, h5, h6⟩
        obtain rfl := Option.some.inj ht
        rw [if_pos (h4.mpr h2), if_neg (fun h => h3 ((contains_iff _ _).mp h))]
        rw [← contains_iff] at h5 h6
        rw [Bool.eq_iff_iff.mpr h5, Bool.eq_iff_iff.mpr h6]
      · obtain rfl := Option.some.inj ht
        refine ⟨h1, fun h2 => ?_⟩
        rw [if_pos (h4.mpr h2)] at h
        split at h
        · rename_i h3
          exact (contains_iff _ _).mp h3
        · cases h
      · by_cases h2 : s.toList.take 4 = "crpa".toList
        · rw [if_pos h2, if_pos ((contains_iff _ _).mpr ((h s rfl).2 (h4.mp h2)))]
        · rw [if_neg h2]

/-- The word `pcoupling` of the documentation has no effect. -/
theorem screening_documented_word_ignored (seris : Bool) :
    chooseProtocol (some "crpa-pcoupling") seris = .ok (.static false false) ∧ chooseProtocol (some "crpa-pcoupled") seris = .ok (.static true false) := by
  cases seris <;> decide +kernel

end Vayesta.Props
