import Verif.Spec.SelfEnergy
import Verif.Props.Rpa
import Mathlib.LinearAlgebra.Matrix.Rank
import Mathlib.Data.List.TakeWhile

/-! Facts used for the self-energies of embedded systems. -/

namespace Vayesta.Lemmas.SelfEnergy

open Matrix Vayesta.SelfEnergy Lowdin Props

set_option linter.unusedSimpArgs false
set_option linter.unusedSectionVars false

/-! ## Sums over poles -/

section
variable {p q : Type} [Fintype p] [Fintype q]

theorem weighted_append (f : ℝ → ℝ) (x y : List (Pole p ℝ)) : weighted f (x ++ y) = weighted f x + weighted f y := by
  simp [weighted]

theorem weighted_flatMap {α : Type} (f : ℝ → ℝ) (l : List α) (g : α → List (Pole p ℝ)) :
    weighted f (l.flatMap g) = (l.map fun a => weighted f (g a)).sum := by
  induction l with
  | nil => simp [weighted]
  | cons a l ih => rw [List.flatMap_cons, weighted_append, ih, List.map_cons, List.sum_cons]

theorem weighted_perm (f : ℝ → ℝ) {x y : List (Pole p ℝ)} (h : x.Perm y) : weighted f x = weighted f y :=
  (h.map _).sum_eq

theorem list_mul_sum {α : Type} (m : Matrix p q ℝ) (l : List α) (g : α → Matrix q q ℝ) :
    m * (l.map g).sum * mᵀ = (l.map fun a => m * g a * mᵀ).sum := by
  induction l with
  | nil => simp
  | cons a l ih => simp only [List.map_cons, List.sum_cons, Matrix.mul_add, Matrix.add_mul, ih]

theorem weighted_map (f : ℝ → ℝ) (m : Matrix p q ℝ) (x : List (Pole q ℝ)) :
    weighted f (x.map fun a => ⟨a.e, m *ᵥ a.l, m *ᵥ a.r⟩) = m * weighted f x * mᵀ := by
  unfold weighted
  rw [list_mul_sum, List.map_map]
  congr 1
  refine List.map_congr_left fun a _ => ?_
  show f a.e • vecMulVec (m *ᵥ a.l) (m *ᵥ a.r) = _
  rw [Matrix.mul_smul, Matrix.smul_mul, mul_vecMulVec, vecMulVec_mul, vecMul_transpose]

theorem weighted_same_transpose (f : ℝ → ℝ) {x : List (Pole p ℝ)} (h : ∀ a ∈ x, a.l = a.r) : (weighted f x)ᵀ = weighted f x := by
  induction x with
  | nil => simp [weighted]
  | cons a x ih =>
    have h1 : weighted f (a :: x) = f a.e • vecMulVec a.l a.r + weighted f x := by simp [weighted]
    rw [h1, transpose_add, ih fun b hb => h b (List.mem_cons_of_mem _ hb), transpose_smul, h a (by simp)]
    congr 2
    ext i j; simp [vecMulVec_apply, mul_comm]

theorem posSemidef_list_sum {α : Type} (l : List α) (g : α → Matrix p p ℝ) (h : ∀ a ∈ l, (g a).PosSemidef) : ((l.map g).sum).PosSemidef := by
  induction l with
  | nil => simpa using PosSemidef.zero
  | cons a l ih => rw [List.map_cons, List.sum_cons]; exact (h a (by simp)).add (ih fun b hb => h b (List.mem_cons_of_mem _ hb))

theorem weighted_posSemidef {f : ℝ → ℝ} (hf : ∀ e, 0 ≤ f e) {x : List (Pole p ℝ)} (h : ∀ a ∈ x, a.l = a.r) : (weighted f x).PosSemidef := by
  refine posSemidef_list_sum _ _ fun a ha => ?_
  rw [h a ha]
  have := (posSemidef_vecMulVec_self_star a.r).smul (hf a.e)
  simpa using this

/-! ## Complex couplings -/

/-- Real part of the contribution of one pole. -/
noncomputable def reOne (f : ℝ → ℝ) (a : Pole p ℂ) : Matrix p p ℝ := fun i j => f a.e * (a.l i * a.r j).re

/-- Real part of the sum over poles. -/
noncomputable def reW (f : ℝ → ℝ) (x : List (Pole p ℂ)) : Matrix p p ℝ := (x.map (reOne f)).sum

theorem reW_append (f : ℝ → ℝ) (x y : List (Pole p ℂ)) : reW f (x ++ y) = reW f x + reW f y := by simp [reW]

theorem reW_flatten (f : ℝ → ℝ) (l : List (List (Pole p ℂ))) : reW f l.flatten = (l.map (reW f)).sum := by
  induction l with
  | nil => simp [reW]
  | cons a l ih => rw [List.flatten_cons, reW_append, ih, List.map_cons, List.sum_cons]

theorem reW_flatMap {α : Type} (f : ℝ → ℝ) (l : List α) (g : α → List (Pole p ℂ)) :
    reW f (l.flatMap g) = (l.map fun a => reW f (g a)).sum := by
  induction l with
  | nil => simp [reW]
  | cons a l ih => rw [List.flatMap_cons, reW_append, ih, List.map_cons, List.sum_cons]

theorem reW_perm (f : ℝ → ℝ) {x y : List (Pole p ℂ)} (h : x.Perm y) : reW f x = reW f y := (h.map _).sum_eq

theorem reW_filter (f : ℝ → ℝ) (E : ℝ) (x : List (Pole p ℂ)) :
    reW f (x.filter fun a => a.e = E) = f E • reW (fun e => if e = E then 1 else 0) x := by
  induction x with
  | nil => simp [reW]
  | cons a x ih =>
    have h1 (g : ℝ → ℝ) (y : List (Pole p ℂ)) : reW g (a :: y) = reOne g a + reW g y := by simp [reW]
    rw [List.filter_cons, h1 _ x, smul_add]
    by_cases h : a.e = E
    · rw [if_pos (by simpa using h), h1, ih]
      congr 1
      ext i j; simp [reOne, h]
    · rw [if_neg (by simpa using h), ih]
      have : reOne (fun e => if e = E then (1 : ℝ) else 0) a = 0 := by ext i j; simp [reOne, h]
      rw [this, smul_zero, zero_add]

theorem reOne_toMo {nmo n : Nat} (f : ℝ → ℝ) (m : Matrix (Fin nmo) (Fin n) ℝ) (a : Pole (Fin n) ℂ) :
    reOne f (Pole.toMo m a) = m * reOne f a * mᵀ := by
  ext i j
  show f a.e * ((∑ q, (m i q : ℂ) * a.l q) * ∑ q, (m j q : ℂ) * a.r q).re = _
  rw [Matrix.mul_assoc, Matrix.mul_apply, Finset.sum_mul, Complex.re_sum, Finset.mul_sum]
  refine Finset.sum_congr rfl fun x _ => ?_
  rw [Matrix.mul_apply, Finset.mul_sum, Finset.mul_sum, Complex.re_sum, Finset.mul_sum]
  refine Finset.sum_congr rfl fun y _ => ?_
  show f a.e * ((m i x : ℂ) * a.l x * ((m j y : ℂ) * a.r y)).re = m i x * (f a.e * (a.l x * a.r y).re * m j y)
  have : (m i x : ℂ) * a.l x * ((m j y : ℂ) * a.r y) = ((m i x * m j y : ℝ) : ℂ) * (a.l x * a.r y) := by push_cast; ring
  rw [this, Complex.re_ofReal_mul]; ring

theorem reW_toMo {nmo n : Nat} (f : ℝ → ℝ) (m : Matrix (Fin nmo) (Fin n) ℝ) (x : List (Pole (Fin n) ℂ)) :
    reW f (x.map (Pole.toMo m)) = m * reW f x * mᵀ := by
  unfold reW
  rw [list_mul_sum, List.map_map]
  congr 1
  exact List.map_congr_left fun a _ => reOne_toMo f m a

theorem groupMat_eq {nmo : Nat} (x : List (Pole (Fin nmo) ℂ)) : groupMat x = reW (fun _ => 1) x := by
  induction x with
  | nil => ext i j; simp [groupMat, reW]
  | cons a x ih =>
    have h1 : reW (fun _ => 1) (a :: x) = reOne (fun _ => 1) a + reW (fun _ => 1) x := by simp [reW]
    rw [h1, ← ih]
    ext i j
    simp [groupMat, reOne]

end

/-! ## What is kept -/

theorem sum_filter_map {α β : Type} [AddCommMonoid β] (l : List α) (p : α → Bool) (g : α → β) :
    ((l.filter p).map g).sum = (l.map fun i => if p i then g i else 0).sum := by
  induction l with
  | nil => rfl
  | cons a l ih => by_cases h : p a <;> simp [List.filter_cons, h, ih]

open Classical in
theorem kept_sum {n : Nat} {β : Type} [AddCommMonoid β] (p : Fin n → Prop) (g : Fin n → β) :
    ((kept p).map g).sum = ∑ i, if p i then g i else 0 := by
  rw [kept, sum_filter_map, Fin.sum_univ_def]
  simp

open Classical in
theorem kept_length {n : Nat} (p : Fin n → Prop) : (kept p).length = (Finset.univ.filter p).card := by
  have h := kept_sum p fun _ => (1 : ℕ)
  rw [List.map_const', List.sum_replicate, smul_eq_mul, mul_one] at h
  rw [h, Finset.card_filter]

theorem kept_le_rank {n : Nat} (a : Fin n → ℝ) {tol : ℝ} (h : 0 ≤ tol) : (kept fun i => tol < |a i|).length ≤ (diagonal a).rank := by
  classical
  rw [kept_length, rank_diagonal, Fintype.card_subtype]
  refine Finset.card_le_card fun i hi => ?_
  rw [Finset.mem_filter] at hi ⊢
  refine ⟨hi.1, fun h0 => ?_⟩
  have := hi.2
  rw [h0, abs_zero] at this
  linarith

theorem symCoup_rank {n : Nat} (cfc : Matrix (Fin n) (Fin n) ℝ) (a : Pole (Fin n) ℝ) : (symCoup cfc a).rank ≤ 2 := by
  have h : symCoup cfc a = (Matrix.of fun (i : Fin n) (k : Fin 2) => if k = 0 then (1 / 2 : ℝ) * (cfc *ᵥ a.l) i else (1 / 2 : ℝ) * a.l i)
      * (Matrix.of fun (k : Fin 2) (j : Fin n) => if k = 0 then a.r j else (cfc *ᵥ a.r) j) := by
    ext i j
    rw [Matrix.mul_apply, Fin.sum_univ_two]
    simp [symCoup, vecMulVec_apply]
    ring
  rw [h]
  refine (rank_mul_le_left _ _).trans ?_
  simpa using rank_le_card_width (Matrix.of fun (i : Fin n) (k : Fin 2) => if k = 0 then (1 / 2 : ℝ) * (cfc *ᵥ a.l) i else (1 / 2 : ℝ) * a.l i)

theorem significant_zero {n : Nat} (m : Matrix (Fin n) (Fin n) ℝ) : Significant 0 m := by
  intro μ v hv h
  have h1 : (m *ᵥ v) ⬝ᵥ (m *ᵥ v) = μ * (v ⬝ᵥ v) := by
    have := congrArg (fun z => v ⬝ᵥ z) h
    simp only [dotProduct_smul, smul_eq_mul] at this
    rw [← this, ← Matrix.mulVec_mulVec, Matrix.dotProduct_mulVec v, Matrix.vecMul_transpose]
  have hv2 : 0 < v ⬝ᵥ v := by
    have := Matrix.dotProduct_star_self_pos_iff (v := v)
    simpa using this.mpr hv
  have h2 : 0 ≤ (m *ᵥ v) ⬝ᵥ (m *ᵥ v) := by
    simp only [dotProduct]; exact Finset.sum_nonneg fun i _ => mul_self_nonneg _
  rw [h1] at h2
  have : 0 ≤ μ := nonneg_of_mul_nonneg_left h2 hv2
  rcases this.eq_or_lt with h | h
  · exact .inl h.symm
  · right; simpa using h

theorem col_ne_zero {n : Nat} {u : Matrix (Fin n) (Fin n) ℝ} (h : uᵀ * u = 1) (i : Fin n) : (fun p => u p i) ≠ 0 := by
  intro h0
  have h1 : (uᵀ * u) i i = 1 := by rw [h]; exact Matrix.one_apply_eq i
  rw [Matrix.mul_apply] at h1
  have h2 : ∀ p, u p i = 0 := fun p => congrFun h0 p
  simp [h2] at h1

theorem svd_significant {n : Nat} {m : Matrix (Fin n) (Fin n) ℝ} {g : Svd n} (hg : IsSvd m g) {tol : ℝ} (ht : 0 ≤ tol) (h : Significant tol m)
    (i : Fin n) : g.s i = 0 ∨ tol < |g.s i| := by
  have hv : (fun p => g.vtᵀ p i) ≠ 0 := col_ne_zero (by rw [transpose_transpose]; exact hg.right) i
  have h1 : (mᵀ * m) * g.vtᵀ = g.vtᵀ * diagonal fun j => g.s j ^ 2 := by
    rw [hg.product]
    simp only [transpose_mul, diagonal_transpose, Matrix.mul_assoc]
    rw [hg.right, Matrix.mul_one, ← Matrix.mul_assoc g.uᵀ, hg.left, Matrix.one_mul, diagonal_mul_diagonal]
    simp only [pow_two]
  have h2 : (mᵀ * m) *ᵥ (fun p => g.vtᵀ p i) = (g.s i ^ 2) • fun p => g.vtᵀ p i := by
    ext p
    have := congrFun (congrFun h1 p) i
    rw [Matrix.mul_diagonal] at this
    simp only [Pi.smul_apply, smul_eq_mul]
    rw [mul_comm, ← this]; rfl
  rcases h _ _ hv h2 with h3 | h3
  · exact .inl (pow_eq_zero_iff (by norm_num) |>.mp h3)
  · right
    rw [abs_of_nonneg (hg.nonneg i)]
    exact lt_of_pow_lt_pow_left₀ 2 (hg.nonneg i) h3

theorem eigh_significant {n : Nat} {m : Matrix (Fin n) (Fin n) ℝ} (hm : mᵀ = m) {g : Eig (Fin n) ℝ} (hg : IsEigh m g) {tol : ℝ} (ht : 0 ≤ tol)
    (h : Significant tol m) (i : Fin n) : g.val i = 0 ∨ tol < |g.val i| := by
  have hv : (fun p => g.vec p i) ≠ 0 := col_ne_zero hg.1 i
  have h0 : m *ᵥ (fun p => g.vec p i) = g.val i • fun p => g.vec p i := by
    ext p
    have := congrFun (congrFun hg.2 p) i
    rw [Matrix.mul_diagonal] at this
    simp only [Pi.smul_apply, smul_eq_mul]
    rw [mul_comm, ← this]; rfl
  have h2 : (mᵀ * m) *ᵥ (fun p => g.vec p i) = (g.val i ^ 2) • fun p => g.vec p i := by
    rw [hm, ← Matrix.mulVec_mulVec, h0, Matrix.mulVec_smul, h0, smul_smul, pow_two]
  rcases h _ _ hv h2 with h3 | h3
  · exact .inl (pow_eq_zero_iff (by norm_num) |>.mp h3)
  · right
    have h4 : tol ^ 2 < |g.val i| ^ 2 := by rwa [sq_abs]
    exact lt_of_pow_lt_pow_left₀ 2 (abs_nonneg _) h4

theorem eigh_product {n : Nat} {m : Matrix (Fin n) (Fin n) ℝ} {g : Eig (Fin n) ℝ} (hg : IsEigh m g) : m = g.vec * diagonal g.val * g.vecᵀ := by
  rw [← hg.2, Matrix.mul_assoc, mul_eq_one_comm.mp hg.1, Matrix.mul_one]

theorem csqrt_sq (x : ℝ) : csqrt x * csqrt x = x := by
  unfold csqrt
  split
  · rename_i h
    rw [← Complex.ofReal_mul, Real.mul_self_sqrt h]
  · rename_i h
    have h' : 0 ≤ -x := by linarith
    have : (Real.sqrt (-x) : ℂ) * Complex.I * (Real.sqrt (-x) * Complex.I) = (Real.sqrt (-x) * Real.sqrt (-x) : ℝ) * (Complex.I * Complex.I) := by
      push_cast; ring
    rw [this, Real.mul_self_sqrt h', Complex.I_mul_I]; push_cast; ring

theorem csqrt_re_neg {x : ℝ} (h : x < 0) (v : ℝ) : ((v : ℂ) * csqrt x).re = 0 := by
  unfold csqrt
  rw [if_neg (by linarith)]
  simp

theorem csqrt_re_nonneg {x : ℝ} (h : 0 ≤ x) (v : ℝ) : ((v : ℂ) * csqrt x).re = v * Real.sqrt x := by
  unfold csqrt
  rw [if_pos h]
  simp

theorem triple_apply {n : Nat} (u w : Matrix (Fin n) (Fin n) ℝ) (d : Fin n → ℝ) (p q : Fin n) :
    (u * diagonal d * w) p q = ∑ i, u p i * d i * w i q := by
  rw [Matrix.mul_apply]
  simp only [Matrix.mul_diagonal]

theorem atMostTwo_ok {α : Type} {a : List α} (h : a.length ≤ 2) : atMostTwo a = .ok a := if_pos h

theorem diag_rank {n : Nat} {m u w : Matrix (Fin n) (Fin n) ℝ} {d : Fin n → ℝ} (hu : uᵀ * u = 1) (hw : w * wᵀ = 1) (h : m = u * diagonal d * w) :
    (diagonal d).rank ≤ m.rank := by
  have : diagonal d = uᵀ * m * wᵀ := by
    rw [h, Matrix.mul_assoc, Matrix.mul_assoc, Matrix.mul_assoc, hw, Matrix.mul_one, ← Matrix.mul_assoc, hu, Matrix.one_mul]
  rw [this]
  exact (rank_mul_le_left _ _).trans (rank_mul_le_right _ _)

theorem splitSvd_ok {n : Nat} {svd : Matrix (Fin n) (Fin n) ℝ → Svd n} {tol : ℝ} {cfc : Matrix (Fin n) (Fin n) ℝ} {a : Pole (Fin n) ℝ}
    (hs : IsSvd (symCoup cfc a) (svd (symCoup cfc a))) (ht : 0 ≤ tol) :
    ∃ x, splitSvd svd tol cfc a = .ok x ∧ (∀ b ∈ x, b.e = a.e) ∧
      (Significant tol (symCoup cfc a) → ∀ f : ℝ → ℝ, reW f x = f a.e • symCoup cfc a) := by
  refine ⟨_, atMostTwo_ok ?_, ?_, fun h f => ?_⟩
  · rw [List.length_map]
    exact (kept_le_rank _ ht).trans ((diag_rank hs.left hs.right hs.product).trans (symCoup_rank cfc a))
  · intro b hb
    obtain ⟨i, _, rfl⟩ := List.mem_map.mp hb
    rfl
  · unfold reW
    rw [List.map_map, kept_sum]
    ext p q
    rw [Matrix.sum_apply]
    conv_rhs => rw [hs.product]
    rw [Matrix.smul_apply, triple_apply, Finset.smul_sum]
    refine Finset.sum_congr rfl fun i _ => ?_
    obtain ⟨g, hg⟩ : ∃ g, g = svd (symCoup cfc a) := ⟨_, rfl⟩
    rw [← hg] at hs ⊢
    by_cases hk : tol < |g.s i|
    · rw [if_pos hk]
      show f a.e * (((g.u p i : ℂ) * Real.sqrt (g.s i)) * ((g.vt i q : ℂ) * Real.sqrt (g.s i))).re = f a.e * _
      have : ((g.u p i : ℂ) * Real.sqrt (g.s i)) * ((g.vt i q : ℂ) * Real.sqrt (g.s i))
          = ((g.u p i * (Real.sqrt (g.s i) * Real.sqrt (g.s i)) * g.vt i q : ℝ) : ℂ) := by push_cast; ring
      rw [this, Complex.ofReal_re, Real.mul_self_sqrt (hs.nonneg i)]
    · rw [if_neg hk, (svd_significant hs ht h i).resolve_right hk]
      simp

theorem splitEigh_ok {n : Nat} {eigh : Matrix (Fin n) (Fin n) ℝ → Eig (Fin n) ℝ} {tol : ℝ} {cfc : Matrix (Fin n) (Fin n) ℝ} {a : Pole (Fin n) ℝ}
    (hsym : (symCoup cfc a)ᵀ = symCoup cfc a) (hs : IsEigh (symCoup cfc a) (eigh (symCoup cfc a))) (ht : 0 ≤ tol) :
    ∃ x, splitEigh eigh tol cfc a = .ok x ∧ (∀ b ∈ x, b.e = a.e) ∧
      (Significant tol (symCoup cfc a) → ∀ f : ℝ → ℝ, reW f x = f a.e • symCoup cfc a) := by
  have hw : (eigh (symCoup cfc a)).vecᵀ * (eigh (symCoup cfc a)).vecᵀᵀ = 1 := by rw [transpose_transpose]; exact hs.1
  refine ⟨_, atMostTwo_ok ?_, ?_, fun h f => ?_⟩
  · rw [List.length_map]
    exact (kept_le_rank _ ht).trans ((diag_rank hs.1 hw (eigh_product hs)).trans (symCoup_rank cfc a))
  · intro b hb
    obtain ⟨i, _, rfl⟩ := List.mem_map.mp hb
    rfl
  · unfold reW
    rw [List.map_map, kept_sum]
    ext p q
    rw [Matrix.sum_apply]
    conv_rhs => rw [eigh_product hs]
    rw [Matrix.smul_apply, triple_apply, Finset.smul_sum]
    refine Finset.sum_congr rfl fun i _ => ?_
    obtain ⟨g, hg⟩ : ∃ g, g = eigh (symCoup cfc a) := ⟨_, rfl⟩
    rw [← hg] at hs ⊢
    by_cases hk : tol < |g.val i|
    · rw [if_pos hk]
      show f a.e * (((g.vec p i : ℂ) * csqrt (g.val i)) * ((g.vec q i : ℂ) * csqrt (g.val i))).re = f a.e * _
      have : ((g.vec p i : ℂ) * csqrt (g.val i)) * ((g.vec q i : ℂ) * csqrt (g.val i))
          = ((g.vec p i * g.vec q i : ℝ) : ℂ) * (csqrt (g.val i) * csqrt (g.val i)) := by push_cast; ring
      rw [this, csqrt_sq, ← Complex.ofReal_mul, Complex.ofReal_re, transpose_apply]; ring
    · rw [if_neg hk, (eigh_significant hsym hs ht h i).resolve_right hk]
      simp

/-! ## Groups of poles -/

/-- Groups of consecutive elements with nearby keys. -/
noncomputable def groups {α : Type} (e : α → ℝ) (atol : ℝ) : List α → List (List α)
  | [] => []
  | x :: xs =>
    (x :: xs.takeWhile fun y => |e x - e y| < atol) :: groups e atol (xs.drop (xs.takeWhile fun y => |e x - e y| < atol).length)
termination_by xs => xs.length
decreasing_by simp

theorem takeWhile_map {α : Type} (e : α → ℝ) (p : ℝ → Bool) (xs : List α) : ((xs.map e).takeWhile p).length = (xs.takeWhile fun y => p (e y)).length := by
  induction xs with
  | nil => rfl
  | cons a xs ih => by_cases h : p (e a) <;> simp [List.takeWhile_cons, h, ih]

theorem take_takeWhile {α : Type} (p : α → Bool) (xs : List α) : xs.take (xs.takeWhile p).length = xs.takeWhile p := by
  induction xs with
  | nil => rfl
  | cons a xs ih => by_cases h : p a <;> simp [List.takeWhile_cons, h, ih]

theorem drop_takeWhile {α : Type} (p : α → Bool) (xs : List α) : xs.drop (xs.takeWhile p).length = xs.dropWhile p := by
  induction xs with
  | nil => rfl
  | cons a xs ih => by_cases h : p a <;> simp [List.takeWhile_cons, List.dropWhile_cons, h, ih]

theorem slices_groups {α : Type} (e : α → ℝ) (atol : ℝ) : ∀ (xs pre : List α),
    (slices atol pre.length (xs.map e)).map (slice (pre ++ xs)) = groups e atol xs
  | [], pre => by simp [slices, groups]
  | x :: xs, pre => by
    rw [List.map_cons, slices, groups]
    have hl := takeWhile_map e (fun y => decide (|e x - y| < atol)) xs
    rw [hl, List.map_cons, List.map_drop.symm]
    obtain ⟨t, ht⟩ : ∃ t, t = xs.takeWhile fun y => decide (|e x - e y| < atol) := ⟨_, rfl⟩
    have htake : xs.take t.length = t := by rw [ht, take_takeWhile]
    rw [← ht]
    congr 1
    · simp only [slice]
      rw [List.drop_left, show pre.length + (t.length + 1) - pre.length = t.length + 1 by omega, List.take_succ_cons, htake]
    · have := slices_groups e atol (xs.drop t.length) (pre ++ x :: t)
      rw [← this]
      have h1 : (pre ++ x :: t).length = pre.length + (t.length + 1) := by simp
      have h2 : pre ++ x :: t ++ xs.drop t.length = pre ++ x :: xs := by
        rw [List.append_assoc, List.cons_append]
        congr 2
        conv_rhs => rw [← List.take_append_drop t.length xs, htake]
      rw [h1, h2]
termination_by xs => xs.length
decreasing_by simp

theorem groups_flatten {α : Type} (e : α → ℝ) (atol : ℝ) : ∀ xs : List α, (groups e atol xs).flatten = xs
  | [] => by simp [groups]
  | x :: xs => by
    rw [groups, List.flatten_cons, groups_flatten e atol _, List.cons_append, drop_takeWhile, List.takeWhile_append_dropWhile]
termination_by xs => xs.length
decreasing_by simp

theorem groups_ne {α : Type} (e : α → ℝ) (atol : ℝ) : ∀ xs : List α, ∀ g ∈ groups e atol xs, ∃ x t, g = x :: t ∧ ∀ y ∈ t, |e x - e y| < atol
  | [], g, h => by simp [groups] at h
  | x :: xs, g, h => by
    rw [groups, List.mem_cons] at h
    rcases h with h | h
    · refine ⟨_, _, h, fun y hy => ?_⟩
      have := List.mem_takeWhile_imp hy
      simpa using this
    · exact groups_ne e atol _ g h
termination_by xs => xs.length
decreasing_by simp

theorem takeWhile_filter {α : Type} (e : α → ℝ) (E : ℝ) {xs : List α} (hs : xs.Pairwise fun a b => e a ≤ e b) (hE : ∀ y ∈ xs, E ≤ e y) :
    (xs.takeWhile fun y => e y = E) = xs.filter (fun y => e y = E) ∧ (xs.dropWhile fun y => e y = E) = xs.filter (fun y => e y ≠ E) := by
  induction xs with
  | nil => exact ⟨rfl, rfl⟩
  | cons a xs ih =>
    rw [List.pairwise_cons] at hs
    obtain ⟨i1, i2⟩ := ih hs.2 fun y hy => hE y (List.mem_cons_of_mem _ hy)
    by_cases h : e a = E
    · simp [List.takeWhile_cons, List.dropWhile_cons, List.filter_cons, h, i1, i2]
    · have hlt : E < e a := lt_of_le_of_ne (hE a (by simp)) (Ne.symm h)
      have hall : ∀ y ∈ xs, e y ≠ E := fun y hy => (lt_of_lt_of_le hlt (hs.1 y hy)).ne'
      refine ⟨?_, ?_⟩
      · rw [List.takeWhile_cons, List.filter_cons]
        simp only [h, decide_false, Bool.false_eq_true, if_false]
        exact (List.filter_eq_nil_iff.mpr fun y hy => by simpa using hall y hy).symm
      · rw [List.dropWhile_cons, List.filter_cons]
        simp only [h, decide_false, Bool.false_eq_true, if_false, ne_eq, not_false_eq_true, decide_true, if_true]
        congr 1
        exact (List.filter_eq_self.mpr fun y hy => by simpa using hall y hy).symm

theorem groups_filter {α : Type} (e : α → ℝ) {atol : ℝ} (ht : 0 < atol) : ∀ xs : List α, xs.Pairwise (fun a b => e a ≤ e b) →
    (∀ a ∈ xs, ∀ b ∈ xs, |e a - e b| < atol → e a = e b) → ∀ g ∈ groups e atol xs, ∃ E, g = xs.filter fun y => e y = E
  | [], _, _, g, h => by simp [groups] at h
  | x :: xs, hs, hsep, g, h => by
    have hp : (xs.takeWhile fun y => |e x - e y| < atol) = xs.takeWhile fun y => e y = e x := by
      have hcong : ∀ zs : List α, (∀ z ∈ zs, z ∈ xs) → (zs.takeWhile fun y => decide (|e x - e y| < atol)) = zs.takeWhile fun y => decide (e y = e x) := by
        intro zs
        induction zs with
        | nil => intro _; rfl
        | cons z zs ih =>
          intro hz
          have hiff : |e x - e z| < atol ↔ e z = e x :=
            ⟨fun h => (hsep x (by simp) z (List.mem_cons_of_mem _ (hz z (by simp))) h).symm, fun h => by rw [h, sub_self, abs_zero]; exact ht⟩
          simp only [List.takeWhile_cons, hiff]
          rw [ih fun w hw => hz w (List.mem_cons_of_mem _ hw)]
      exact hcong xs fun z hz => hz
    rw [List.pairwise_cons] at hs
    obtain ⟨h1, h2⟩ := takeWhile_filter e (e x) hs.2 hs.1
    rw [groups, drop_takeWhile] at h
    have hd : (xs.dropWhile fun y => |e x - e y| < atol) = xs.dropWhile fun y => e y = e x := by
      rw [← drop_takeWhile, ← drop_takeWhile, hp]
    rw [hp, hd, h1, h2, List.mem_cons] at h
    rcases h with h | h
    · exact ⟨e x, by rw [h]; simp [List.filter_cons]⟩
    · have hlt : (xs.filter fun y => e y ≠ e x).length < (x :: xs).length := Nat.lt_succ_of_le (List.length_filter_le _ _)
      obtain ⟨E, hE⟩ := groups_filter e ht (xs.filter fun y => e y ≠ e x) (hs.2.filter _)
        (fun a ha b hb => hsep a (List.mem_cons_of_mem _ (List.mem_filter.mp ha).1) b (List.mem_cons_of_mem _ (List.mem_filter.mp hb).1)) g h
      refine ⟨E, ?_⟩
      obtain ⟨y, t, hg, _⟩ := groups_ne e atol _ g h
      have hy : y ∈ (xs.filter fun y => e y ≠ e x).filter fun y => e y = E := by rw [← hE, hg]; simp
      rw [List.mem_filter, List.mem_filter] at hy
      have hne : e x ≠ E := by
        have a1 := hy.1.2; have a2 := hy.2
        simp only [ne_eq, decide_not, Bool.not_eq_true', decide_eq_false_iff_not, decide_eq_true_eq] at a1 a2
        exact fun hh => a1 (a2.trans hh.symm)
      rw [hE, List.filter_filter, List.filter_cons, if_neg (by simpa using hne)]
      refine List.filter_congr fun z _ => ?_
      by_cases hz : e z = E
      · simp [hz, hne.symm]
      · simp [hz]
termination_by xs => xs.length
decreasing_by exact Nat.lt_succ_of_le (List.length_filter_le _ _)

/-! ## Removing degeneracies -/

theorem slice_map {α β : Type} (e : α → β) (x : List α) (s : Nat × Nat) : slice (x.map e) s = (slice x s).map e := by
  simp [slice, List.map_take, List.map_drop]

theorem removeDegeneracy_eq {nmo : Nat} (t : Routines nmo) (dtol etol : ℝ) (drop : Bool) {x : List (Pole (Fin nmo) ℂ)} (h : x ≠ []) :
    removeDegeneracy t dtol etol drop x
      = .ok (t.sort ((groups (fun a : Pole (Fin nmo) ℂ => a.e) dtol x).flatMap fun g => regroup (t.eigh nmo) etol drop (mean (g.map fun a => a.e)) g)) := by
  have hg := slices_groups (fun a : Pole (Fin nmo) ℂ => a.e) dtol x []
  rw [List.nil_append, List.length_nil] at hg
  have hne : (getUnique dtol (x.map fun a => a.e)).2.isEmpty = false := by
    cases x with
    | nil => exact absurd rfl h
    | cons a x => simp [getUnique, slices]
  unfold removeDegeneracy
  simp only [hne, Bool.false_eq_true, if_false]
  congr 2
  rw [← hg, List.flatMap_map]
  show ((List.map _ _).zip _).flatMap _ = _
  unfold getUnique
  dsimp only
  obtain ⟨l, hl⟩ : ∃ l, l = slices dtol 0 (x.map fun a => a.e) := ⟨_, rfl⟩
  rw [← hl]
  clear hl hne hg
  induction l with
  | nil => rfl
  | cons a l ih =>
    rw [List.map_cons, List.zip_cons_cons, List.flatMap_cons, List.flatMap_cons, ih, slice_map]

theorem removeDegeneracy_nil {nmo : Nat} (t : Routines nmo) (dtol etol : ℝ) (drop : Bool) : removeDegeneracy t dtol etol drop [] = .error .valueError := by
  simp [removeDegeneracy, getUnique, slices]

theorem regroup_same {nmo : Nat} (eigh : Matrix (Fin nmo) (Fin nmo) ℝ → Eig (Fin nmo) ℝ) (etol : ℝ) (drop : Bool) (E : ℝ) (x : List (Pole (Fin nmo) ℂ)) :
    ∀ a ∈ regroup eigh etol drop E x, a.l = a.r ∧ a.e = E := by
  intro a ha
  obtain ⟨i, _, rfl⟩ := List.mem_map.mp ha
  exact ⟨rfl, rfl⟩

theorem regroup_drop {nmo : Nat} (eigh : Matrix (Fin nmo) (Fin nmo) ℝ → Eig (Fin nmo) ℝ) {etol : ℝ} (ht : 0 ≤ etol) (E : ℝ) (x : List (Pole (Fin nmo) ℂ))
    (f : ℝ → ℝ) : weighted f (regroup eigh etol true E x) = weighted f (regroup eigh etol false E x) := by
  classical
  unfold regroup weighted
  rw [List.map_map, List.map_map, kept_sum, kept_sum]
  refine Finset.sum_congr rfl fun i _ => ?_
  simp only [if_true, Bool.false_eq_true, if_false]
  obtain ⟨g, hg⟩ : ∃ g, g = eigh (groupMat x) := ⟨_, rfl⟩
  rw [← hg]
  by_cases h : etol < g.val i
  · rw [if_pos h, if_pos (h.trans_le (le_abs_self _))]
  · rw [if_neg h]
    by_cases h2 : etol < |g.val i|
    · rw [if_pos h2]
      have hneg : g.val i < 0 := by
        by_contra hc
        rw [abs_of_nonneg (not_lt.mp hc)] at h2
        exact h h2
      symm
      show f E • vecMulVec _ _ = 0
      ext p q
      simp [vecMulVec_apply, csqrt_re_neg hneg]
    · rw [if_neg h2]

theorem regroup_weighted {nmo : Nat} {eigh : Matrix (Fin nmo) (Fin nmo) ℝ → Eig (Fin nmo) ℝ} {etol : ℝ} (ht : 0 ≤ etol) (drop : Bool) (E : ℝ)
    {x : List (Pole (Fin nmo) ℂ)} (hpsd : (groupMat x).PosSemidef) (hsig : Significant etol (groupMat x)) (hg : IsEigh (groupMat x) (eigh (groupMat x)))
    (f : ℝ → ℝ) : weighted f (regroup eigh etol drop E x) = f E • groupMat x := by
  classical
  have hfalse : weighted f (regroup eigh etol false E x) = f E • groupMat x := by
    have hsym : (groupMat x)ᵀ = groupMat x := by
      have := hpsd.1
      rwa [Matrix.IsHermitian, conjTranspose_eq_transpose_of_trivial] at this
    unfold regroup weighted
    rw [List.map_map, kept_sum]
    ext p q
    rw [Matrix.sum_apply]
    conv_rhs => rw [eigh_product hg]
    rw [Matrix.smul_apply, triple_apply, Finset.smul_sum]
    refine Finset.sum_congr rfl fun i _ => ?_
    have hs := eigh_significant hsym hg ht hsig i
    have hnn : 0 ≤ (eigh (groupMat x)).val i := by
      have hd : diagonal (eigh (groupMat x)).val = (eigh (groupMat x)).vecᵀ * groupMat x * (eigh (groupMat x)).vec := by
        rw [Matrix.mul_assoc, hg.2, ← Matrix.mul_assoc, hg.1, Matrix.one_mul]
      have hp : ((eigh (groupMat x)).vecᵀ * groupMat x * (eigh (groupMat x)).vec).PosSemidef := by
        have := hpsd.conjTranspose_mul_mul_same (eigh (groupMat x)).vec
        rwa [conjTranspose_eq_transpose_of_trivial] at this
      rw [← hd] at hp
      have := hp.diag_nonneg (i := i)
      rwa [diagonal_apply_eq] at this
    obtain ⟨g, hgg⟩ : ∃ g, g = eigh (groupMat x) := ⟨_, rfl⟩
    rw [← hgg] at hs hnn ⊢
    simp only [Bool.false_eq_true, if_false]
    rcases hs with hs | hs
    · rw [if_neg (by rw [hs, abs_zero]; exact not_lt.mpr ht), hs]; simp
    · rw [if_pos hs]
      show f E • (((g.vec p i : ℂ) * csqrt (g.val i)).re * ((g.vec q i : ℂ) * csqrt (g.val i)).re) = _
      rw [csqrt_re_nonneg hnn, csqrt_re_nonneg hnn, transpose_apply]
      have := Real.mul_self_sqrt hnn
      congr 1
      linear_combination (g.vec p i * g.vec q i) * this
  cases drop
  · exact hfalse
  · rw [regroup_drop eigh ht, hfalse]

theorem removeDegeneracy_weighted {nmo : Nat} {t : Routines nmo} (ht : RightRoutines t) {dtol etol : ℝ} (hd : 0 < dtol) (he : 0 ≤ etol) (drop : Bool)
    {x : List (Pole (Fin nmo) ℂ)} (hx : x ≠ []) (hsort : x.Pairwise fun a b => a.e ≤ b.e) (hsep : Separated dtol (x.map fun a => a.e))
    (hpsd : ∀ E, (reW (only E) x).PosSemidef) (hsig : ∀ E, Significant etol (reW (only E) x)) :
    ∃ y, removeDegeneracy t dtol etol drop x = .ok y ∧ ∀ f : ℝ → ℝ, weighted f y = reW f x := by
  refine ⟨_, removeDegeneracy_eq t dtol etol drop hx, fun f => ?_⟩
  rw [weighted_perm f (ht.sort _), weighted_flatMap]
  conv_rhs => rw [← groups_flatten (fun a : Pole (Fin nmo) ℂ => a.e) dtol x, reW_flatten]
  congr 1
  refine List.map_congr_left fun g hg => ?_
  obtain ⟨E, hE⟩ := groups_filter (fun a : Pole (Fin nmo) ℂ => a.e) hd x hsort
    (fun a ha b hb => hsep _ (List.mem_map.mpr ⟨a, ha, rfl⟩) _ (List.mem_map.mpr ⟨b, hb, rfl⟩)) g hg
  obtain ⟨y0, t0, hg0, _⟩ := groups_ne (fun a : Pole (Fin nmo) ℂ => a.e) dtol x g hg
  have hmat : groupMat g = reW (only E) x := by
    rw [groupMat_eq, hE, reW_filter, one_smul]; rfl
  have hall : ∀ a ∈ g, a.e = E := by
    intro a ha
    rw [hE, List.mem_filter] at ha
    simpa using ha.2
  have hmean : mean (g.map fun a => a.e) = E := by
    have hrep : (g.map fun a => a.e) = List.replicate g.length E := List.eq_replicate_iff.mpr ⟨by simp, by
      intro b hb
      obtain ⟨a, ha, rfl⟩ := List.mem_map.mp hb
      exact hall a ha⟩
    have hlen : (g.length : ℝ) ≠ 0 := by rw [hg0]; simp; positivity
    rw [mean, hrep, List.sum_replicate, List.length_replicate, nsmul_eq_mul]
    field_simp
  have hsymm : (groupMat g)ᵀ = groupMat g := by
    rw [hmat]
    have := (hpsd E).1
    rwa [Matrix.IsHermitian, conjTranspose_eq_transpose_of_trivial] at this
  rw [regroup_weighted he drop _ (by rw [hmat]; exact hpsd E) (by rw [hmat]; exact hsig E) (ht.eigh nmo _ hsymm), hmean, hmat]
  rw [hE, reW_filter]; rfl

/-! ## One projector -/

theorem mapM_forall {α β : Type} {F : α → Except PyErr β} {P : α → β → Prop} : ∀ {l : List α}, (∀ a ∈ l, ∃ y, F a = .ok y ∧ P a y) →
    ∃ ys, l.mapM (m := Except PyErr) F = .ok ys ∧ List.Forall₂ P l ys
  | [], _ => ⟨[], rfl, .nil⟩
  | a :: l, h => by
    obtain ⟨y, h1, h2⟩ := h a (by simp)
    obtain ⟨ys, h3, h4⟩ := mapM_forall fun b hb => h b (List.mem_cons_of_mem _ hb)
    refine ⟨y :: ys, ?_, .cons h2 h4⟩
    rw [List.mapM_cons, h1, h3]; rfl

theorem forall_mem {α β : Type} {P : α → β → Prop} {l : List α} {ys : List β} (h : List.Forall₂ P l ys) : ∀ y ∈ ys, ∃ a ∈ l, P a y := by
  induction h with
  | nil => intro y hy; cases hy
  | @cons a y' l ys' h _ ih =>
    intro y hy
    rcases List.mem_cons.mp hy with hy | hy
    · subst hy; exact ⟨a, by simp, h⟩
    · obtain ⟨b, hb, hh⟩ := ih y hy
      exact ⟨b, List.mem_cons_of_mem _ hb, hh⟩

theorem forall_reW {α p : Type} [Fintype p] (f : ℝ → ℝ) (G : α → Matrix p p ℝ) {l : List α} {ys : List (List (Pole p ℂ))}
    (h : List.Forall₂ (fun a y => reW f y = G a) l ys) : reW f ys.flatten = (l.map G).sum := by
  induction h with
  | nil => simp [reW]
  | cons h _ ih => rw [List.flatten_cons, reW_append, h, ih, List.map_cons, List.sum_cons]

theorem symCoup_eq {n : Nat} {cfc : Matrix (Fin n) (Fin n) ℝ} (hc : cfcᵀ = cfc) (a : Pole (Fin n) ℝ) :
    symCoup cfc a = (1 / 2 : ℝ) • (cfc * vecMulVec a.l a.r + vecMulVec a.l a.r * cfc) := by
  rw [symCoup, mul_vecMulVec, vecMulVec_mul]
  conv_rhs => rw [← hc, vecMul_transpose, hc]

theorem symCoup_symm {n : Nat} {cfc : Matrix (Fin n) (Fin n) ℝ} (hc : cfcᵀ = cfc) {a : Pole (Fin n) ℝ} (h : a.l = a.r) :
    (symCoup cfc a)ᵀ = symCoup cfc a := by
  have hv : (vecMulVec a.r a.r)ᵀ = vecMulVec a.r a.r := by ext i j; simp [vecMulVec_apply, mul_comm]
  rw [symCoup_eq hc, h, transpose_smul, transpose_add, transpose_mul, transpose_mul, hv, hc, add_comm]

theorem sum_symCoup {n : Nat} {cfc : Matrix (Fin n) (Fin n) ℝ} (hc : cfcᵀ = cfc) (f : ℝ → ℝ) (x : List (Pole (Fin n) ℝ)) :
    (x.map fun a => f a.e • symCoup cfc a).sum = (1 / 2 : ℝ) • (cfc * weighted f x + weighted f x * cfc) := by
  induction x with
  | nil => simp [weighted]
  | cons a x ih =>
    have h1 : weighted f (a :: x) = f a.e • vecMulVec a.l a.r + weighted f x := by simp [weighted]
    rw [List.map_cons, List.sum_cons, ih, h1, symCoup_eq hc, Matrix.mul_add, Matrix.add_mul, Matrix.mul_smul, Matrix.smul_mul]
    module

section
variable {ι : Type} [Fintype ι] {nmo : Nat}

theorem cfc_symm (s : Sys ι nmo) (x : Frag ι) : (x.cfc s)ᵀ = x.cfc s := by
  rw [Frag.cfc, transpose_mul, transpose_transpose]

/-- One fragment and its images, with general weights. -/
noncomputable def frag1 (s : Sys ι nmo) (useSym : Bool) (f : ℝ → ℝ) (x : Frag ι) : Matrix (Fin nmo) (Fin nmo) ℝ :=
  moSum s (images useSym x.ops x.cAct) ((1 / 2 : ℝ) • (x.cfc s * weighted f x.se.poles + weighted f x.se.poles * x.cfc s))

theorem poles1_ok {s : Sys ι nmo} {t : Routines nmo} (ht : RightRoutines t) (useSym useSvd : Bool) {tol : ℝ} (h0 : 0 ≤ tol) {x : Frag ι}
    (hne : x.se.poles ≠ []) (hsym : useSvd = true ∨ ∀ a ∈ x.se.poles, a.l = a.r) :
    ∃ y, x.poles1 s t useSym useSvd tol = .ok y ∧ (∀ b ∈ y, ∃ a ∈ x.se.poles, b.e = a.e) ∧
      ((∀ a ∈ x.se.poles, Significant tol (symCoup (x.cfc s) a)) → ∀ f : ℝ → ℝ, reW f y = frag1 s useSym f x) := by
  have key : ∀ a ∈ x.se.poles, ∃ y,
      (if useSvd then splitSvd (t.svd x.nc) tol (x.cfc s) a else splitEigh (t.eigh x.nc) tol (x.cfc s) a) = .ok y ∧ (a ∈ x.se.poles ∧ (∀ b ∈ y, b.e = a.e) ∧
      (Significant tol (symCoup (x.cfc s) a) → ∀ f : ℝ → ℝ, reW f y = f a.e • symCoup (x.cfc s) a)) := by
    intro a ha
    cases useSvd
    · have hs := symCoup_symm (cfc_symm s x) (hsym.resolve_left (by simp) a ha)
      obtain ⟨y, h1, h2⟩ := splitEigh_ok hs (ht.eigh _ _ hs) h0
      exact ⟨y, h1, ha, h2⟩
    · obtain ⟨y, h1, h2⟩ := splitSvd_ok (ht.svd _ (symCoup (x.cfc s) a)) h0
      exact ⟨y, h1, ha, h2⟩
  obtain ⟨ys, h1, h2⟩ := mapM_forall key
  refine ⟨(images useSym x.ops x.cAct).flatMap fun c => ys.flatten.map (Pole.toMo (toMo s c)), ?_, ?_, fun hsig f => ?_⟩
  · unfold Frag.poles1
    cases hx : x.se.poles with
    | nil => exact absurd hx hne
    | cons a as =>
      rw [hx] at h1
      dsimp only
      rw [h1]; rfl
  · intro b hb
    obtain ⟨c, _, hb⟩ := List.mem_flatMap.mp hb
    obtain ⟨d, hd, rfl⟩ := List.mem_map.mp hb
    show ∃ a ∈ _, d.e = _
    obtain ⟨y, hy, hdy⟩ := List.mem_flatten.mp hd
    obtain ⟨a, ha, hh⟩ := forall_mem h2 y hy
    exact ⟨a, ha, hh.2.1 d hdy⟩
  · have h3 : reW f ys.flatten = (1 / 2 : ℝ) • (x.cfc s * weighted f x.se.poles + weighted f x.se.poles * x.cfc s) := by
      rw [← sum_symCoup (cfc_symm s x)]
      refine forall_reW f _ ?_
      exact h2.imp fun a y h => h.2.2 (hsig a h.1) f
    rw [reW_flatMap, frag1, moSum]
    congr 1
    refine List.map_congr_left fun c _ => ?_
    rw [reW_toMo, h3]

theorem frag1_false (s : Sys ι nmo) (f : ℝ → ℝ) (l : List (Frag ι)) : (l.map (frag1 s false f)).sum = democratic s f l := by
  unfold democratic
  congr 1
  refine List.map_congr_left fun x _ => ?_
  show (List.map (fun c => toMo s c * _ * (toMo s c)ᵀ) [x.cAct]).sum = _
  rw [List.map_singleton, List.sum_singleton]
  rfl

end

end Vayesta.Lemmas.SelfEnergy
