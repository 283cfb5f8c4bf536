import Verif.Model.Fold
import Mathlib.Tactic.Ring
import Mathlib.Tactic.Abel
import Mathlib.Tactic.FieldSimp
import Mathlib.Tactic.LinearCombination
import Mathlib.Tactic.NormNum
import Mathlib.Tactic.FinCases
import Mathlib.Algebra.BigOperators.Fin
import Mathlib.LinearAlgebra.Matrix.Trace
import Mathlib.Algebra.BigOperators.Field
import Mathlib.LinearAlgebra.Matrix.NonsingularInverse
import Mathlib.LinearAlgebra.Matrix.Notation

/-! C68: integrals of k-point mean-fields in the supercell. -/

namespace Vayesta.Props
set_option linter.unusedSectionVars false
open Fold Complex

variable {κ ρ ι : Type} [Fintype κ] [Fintype ρ] [Fintype ι]

/-! ## Specification -/

/-- The k-points form a uniform mesh with `n` points along each reciprocal vector, in any order, possibly shifted by `s`, each coordinate
taken in any unit cell of the reciprocal lattice (`w`). -/
structure IsMesh (a : Fin 3 → Fin 3 → ℝ) (kpts : κ → Fin 3 → ℝ) (n : Fin 3 → Nat) (s : Fin 3 → ℝ) : Prop where
  pos : ∀ d, 0 < n d
  points : ∃ (σ : κ ≃ Cells n) (w : (d : Fin 3) → Fin (n d) → ℤ), ∀ k d,
    scaledKpt a (kpts k) d = (((σ k d : Nat) : ℝ) + s d) / n d + w d (σ k d)

/-- A unitary transformation. -/
def Unitary [DecidableEq κ] [DecidableEq ρ] (p : Matrix κ ρ ℂ) : Prop :=
  p * p.conjTranspose = 1 ∧ p.conjTranspose * p = 1

/-- The phase factor of k-point `k` for a lattice vector with integer coordinates `t`. -/
noncomputable def blochPhase (a : Fin 3 → Fin 3 → ℝ) (k : Fin 3 → ℝ) (t : Fin 3 → ℤ) : ℂ :=
  exp (I * ((∑ x, k x * ∑ d, (t d : ℝ) * a d x : ℝ) : ℂ))

/-- Equal modulo supercell lattice vectors. -/
def SameCell (n : Fin 3 → Nat) (t u : Fin 3 → ℤ) : Prop := ∀ d, (n d : ℤ) ∣ t d - u d

instance (n : Fin 3 → Nat) (t u : Fin 3 → ℤ) : Decidable (SameCell n t u) := by unfold SameCell; infer_instance

/-- Coordinates of a cell. -/
def cellCoord {n : Fin 3 → Nat} (R : Cells n) : Fin 3 → ℤ := fun d => ((R d : Nat) : ℤ)

/-- Two k-points are opposite up to a reciprocal lattice vector. -/
def Opposite (a : Fin 3 → Fin 3 → ℝ) (k k' : Fin 3 → ℝ) : Prop := ∀ d, ∃ z : ℤ, scaledKpt a k d + scaledKpt a k' d = z

/-- Invariance under translations of the supercell. -/
def TranslationInvariant {n : Fin 3 → Nat} (g : Matrix (Cells n × ι) (Cells n × ι) ℂ) : Prop :=
  ∀ (R R' S S' : Cells n) (i j : ι), SameCell n (cellCoord R' - cellCoord R) (cellCoord S' - cellCoord S) →
    g (R', i) (S', j) = g (R, i) (S, j)

/-! ## Phases -/

/-- `exp(2 pi i x)`. -/
private noncomputable def cis (x : ℝ) : ℂ := exp (2 * Real.pi * I * (x : ℂ))

private theorem cis_add (x y : ℝ) : cis (x + y) = cis x * cis y := by
  rw [cis, cis, cis, ← Complex.exp_add]; congr 1; push_cast; ring

private theorem cis_int (z : ℤ) : cis z = 1 := by
  rw [cis, Complex.exp_eq_one_iff]; exact ⟨z, by push_cast; ring⟩

private theorem cis_eq_one (x : ℝ) : cis x = 1 ↔ ∃ z : ℤ, x = z := by
  rw [cis, Complex.exp_eq_one_iff]
  have h2 : (2 * (Real.pi : ℂ) * I) ≠ 0 := by
    simp [Real.pi_ne_zero]
  constructor
  · rintro ⟨z, hz⟩
    refine ⟨z, ?_⟩
    have : (x : ℂ) = (z : ℂ) := by
      refine mul_left_cancel₀ h2 ?_
      rw [hz]; ring
    exact_mod_cast this
  · rintro ⟨z, rfl⟩; exact ⟨z, by push_cast; ring⟩

private theorem cis_star (x : ℝ) : star (cis x) = cis (-x) := by
  rw [cis, cis, Complex.star_def, ← Complex.exp_conj]
  congr 1
  have h2 : (starRingEnd ℂ) 2 = 2 := Complex.conj_ofReal 2
  simp [Complex.conj_ofReal, h2]

private theorem cis_nat (x : ℝ) (r : Nat) : cis (r * x) = cis x ^ r := by
  rw [cis, cis, ← Complex.exp_nat_mul]; congr 1; push_cast; ring

private theorem cis_sum (f : Fin 3 → ℝ) : cis (∑ d, f d) = ∏ d, cis (f d) := by
  rw [Fin.sum_univ_three, Fin.prod_univ_three, cis_add, cis_add]

private theorem phase_cis (a : Fin 3 → Fin 3 → ℝ) (k : Fin 3 → ℝ) (t : Fin 3 → ℝ) :
    exp (I * ((∑ x, k x * ∑ d, t d * a d x : ℝ) : ℂ)) = cis (∑ d, t d * scaledKpt a k d) := by
  rw [cis]
  congr 1
  have hpi : (2 * Real.pi) ≠ 0 := by simp [Real.pi_ne_zero]
  have : (∑ x, k x * ∑ d, t d * a d x : ℝ) = 2 * Real.pi * ∑ d, t d * scaledKpt a k d := by
    have e : ∀ d, t d * scaledKpt a k d * (2 * Real.pi) = ∑ x, t d * (k x * a d x) := by
      intro d; rw [scaledKpt, mul_assoc, div_mul_cancel₀ _ hpi, Finset.mul_sum]
    rw [mul_comm, Finset.sum_mul]
    simp only [e, Finset.mul_sum]
    rw [Finset.sum_comm]
    refine Finset.sum_congr rfl fun d _ => Finset.sum_congr rfl fun x _ => ?_
    ring
  rw [this]; push_cast; ring

private theorem phase_eq (a : Fin 3 → Fin 3 → ℝ) (n : Fin 3 → Nat) (kpts : κ → Fin 3 → ℝ) (k : κ) (R : Cells n) :
    phase a n kpts k R = cis (∑ d, ((R d : Nat) : ℝ) * scaledKpt a (kpts k) d) / ((Real.sqrt ((∏ d, n d : Nat) : ℝ) : ℝ) : ℂ) := by
  rw [phase, Matrix.of_apply]
  simp only [cellVector]
  rw [phase_cis]

private theorem bloch_cis (a : Fin 3 → Fin 3 → ℝ) (k : Fin 3 → ℝ) (t : Fin 3 → ℤ) :
    blochPhase a k t = cis (∑ d, (t d : ℝ) * scaledKpt a k d) := by
  rw [blochPhase, phase_cis]

/-- Sum of roots of unity. -/
private theorem geom (n : Nat) (hn : 0 < n) (m m' : Fin n) (s : ℝ) (w w' : ℤ) (hw : m = m' → w = w') :
    ∑ r : Fin n, cis (((r : Nat) : ℝ) * ((((m : Nat) : ℝ) + s) / n + w - ((((m' : Nat) : ℝ) + s) / n + w')))
      = if m = m' then (n : ℂ) else 0 := by
  have hn' : (n : ℝ) ≠ 0 := by exact_mod_cast hn.ne'
  by_cases h : m = m'
  · subst h
    rw [hw rfl]
    simp only [sub_self, mul_zero, if_true]
    have : cis 0 = 1 := by simpa using cis_int 0
    simp [this]
  · rw [if_neg h]
    simp only [cis_nat]
    set x : ℝ := (((m : Nat) : ℝ) + s) / n + w - ((((m' : Nat) : ℝ) + s) / n + w') with hx
    have hx' : n * x = (((m : Nat) : ℤ) - ((m' : Nat) : ℤ) + n * (w - w') : ℤ) := by
      rw [hx]; push_cast; field_simp; ring
    have hne : cis x ≠ 1 := by
      rw [Ne, cis_eq_one]
      rintro ⟨z, hz⟩
      rw [hz] at hx'
      have h2 : (n : ℤ) * z = ((m : Nat) : ℤ) - ((m' : Nat) : ℤ) + n * (w - w') := by exact_mod_cast hx'
      have h3 : (n : ℤ) ∣ ((m : Nat) : ℤ) - ((m' : Nat) : ℤ) := ⟨z - (w - w'), by linear_combination -h2⟩
      have h4 := Int.eq_zero_of_abs_lt_dvd h3 (by
        rw [abs_lt]; have := m.2; have := m'.2; constructor <;> omega)
      exact h (Fin.ext (by omega))
    have hp : cis x ^ n = 1 := by rw [← cis_nat, hx', cis_int]
    have := mul_neg_geom_sum (cis x) n
    rw [hp, sub_self, mul_eq_zero, sub_eq_zero] at this
    rw [Fin.sum_univ_eq_sum_range (fun r => cis x ^ r)]
    exact this.resolve_left fun h => hne h.symm

private theorem mesh_rows [DecidableEq κ] {a : Fin 3 → Fin 3 → ℝ} {kpts : κ → Fin 3 → ℝ} {n : Fin 3 → Nat} {s : Fin 3 → ℝ}
    (hm : IsMesh a kpts n s) : phase a n kpts * (phase a n kpts).conjTranspose = 1 := by
  obtain ⟨σ, w, hw⟩ := hm.points
  have hN : (0 : ℝ) < ((∏ d, n d : Nat) : ℝ) := by exact_mod_cast Finset.prod_pos fun d _ => hm.pos d
  ext k k'
  rw [Matrix.mul_apply, Matrix.one_apply]
  have e : ∀ R : Cells n, phase a n kpts k R * (phase a n kpts).conjTranspose R k'
      = (∏ d, cis (((R d : Nat) : ℝ) * (scaledKpt a (kpts k) d - scaledKpt a (kpts k') d))) / ((∏ d, n d : Nat) : ℂ) := by
    intro R
    rw [Matrix.conjTranspose_apply, phase_eq, phase_eq, star_div₀, cis_star, div_mul_div_comm, ← cis_add, ← cis_sum]
    congr 1
    · congr 1
      rw [← Finset.sum_neg_distrib, ← Finset.sum_add_distrib]
      exact Finset.sum_congr rfl fun d _ => by ring
    · rw [Complex.star_def, Complex.conj_ofReal, ← Complex.ofReal_mul, Real.mul_self_sqrt hN.le]
      push_cast; rfl
  simp only [e]
  rw [← Finset.sum_div]
  have e2 := Finset.prod_univ_sum (fun d => (Finset.univ : Finset (Fin (n d))))
    (fun d r => cis (((r : Nat) : ℝ) * (scaledKpt a (kpts k) d - scaledKpt a (kpts k') d)))
  rw [Fintype.piFinset_univ] at e2
  rw [← e2]
  simp only [hw]
  have e3 : ∀ d, ∑ r : Fin (n d), cis (((r : Nat) : ℝ) * ((((σ k d : Nat) : ℝ) + s d) / n d + w d (σ k d)
      - ((((σ k' d : Nat) : ℝ) + s d) / n d + w d (σ k' d)))) = if σ k d = σ k' d then (n d : ℂ) else 0 :=
    fun d => geom (n d) (hm.pos d) (σ k d) (σ k' d) (s d) _ _ fun h => by rw [h]
  simp only [e3]
  by_cases hk : k = k'
  · subst hk
    simp only [if_true]
    rw [div_eq_one_iff_eq]
    · push_cast; rfl
    · have : ((∏ d, n d : Nat) : ℂ) ≠ 0 := by exact_mod_cast hN.ne'
      exact this
  · rw [if_neg hk]
    have : ∃ d, σ k d ≠ σ k' d := by
      by_contra hc
      simp only [not_exists, not_not] at hc
      exact hk (σ.injective (funext hc))
    obtain ⟨d, hd⟩ := this
    rw [Finset.prod_eq_zero (Finset.mem_univ d) (by rw [if_neg hd]), zero_div]

/-- The transformation between k-points and supercell is unitary. -/
theorem fold_phase_unitary [DecidableEq κ] {a : Fin 3 → Fin 3 → ℝ} {kpts : κ → Fin 3 → ℝ} {n : Fin 3 → Nat} {s : Fin 3 → ℝ}
    (hm : IsMesh a kpts n s) : Unitary (phase a n kpts) := by
  have h := mesh_rows hm
  obtain ⟨σ, _⟩ := hm.points
  exact ⟨h, (Matrix.mul_eq_one_comm_of_equiv σ).1 h⟩

/-- The mesh is found from the k-points, in any order, shifted or not, for up to a hundred million points in each direction. -/
theorem fold_mesh_found {a : Fin 3 → Fin 3 → ℝ} {kpts : κ → Fin 3 → ℝ} {n : Fin 3 → Nat} {s : Fin 3 → ℝ}
    (hm : IsMesh a kpts n s) (hn : ∀ d, n d ≤ 10 ^ 8) : kmesh a kpts = n := by
  classical
  obtain ⟨σ, w, hw⟩ := hm.points
  funext d
  have hd : (0 : ℝ) < n d := by exact_mod_cast hm.pos d
  rw [kmesh]
  let g : Fin (n d) → ℤ := fun m => round8 ((((m : Nat) : ℝ) + s d) / n d + w d m)
  have h1 : (Finset.univ.image fun k => round8 (scaledKpt a (kpts k) d)) = Finset.univ.image g := by
    ext z
    simp only [Finset.mem_image, Finset.mem_univ, true_and, hw]
    constructor
    · rintro ⟨k, rfl⟩; exact ⟨σ k d, rfl⟩
    · rintro ⟨m, rfl⟩
      let R : Cells n := Function.update (fun e => ⟨0, hm.pos e⟩) d m
      refine ⟨σ.symm R, ?_⟩
      have : σ (σ.symm R) d = m := by rw [Equiv.apply_symm_apply]; simp [R]
      rw [this]
  have h2 : Function.Injective g := by
    have key : ∀ m m' : Fin (n d), (((m : Nat) : ℝ) + s d) / n d + w d m < (((m' : Nat) : ℝ) + s d) / n d + w d m' → g m ≠ g m' := by
      intro m m' hlt hg
      set x := (((m : Nat) : ℝ) + s d) / n d + w d m with hx
      set y := (((m' : Nat) : ℝ) + s d) / n d + w d m' with hy
      have h3 : n d * (y - x) = (((m' : Nat) : ℤ) - ((m : Nat) : ℤ) + n d * (w d m' - w d m) : ℤ) := by
        rw [hx, hy]; push_cast; field_simp; ring
      have h4 : (0 : ℝ) < n d * (y - x) := mul_pos hd (by linarith)
      rw [h3] at h4
      have h5 : (1 : ℤ) ≤ ((m' : Nat) : ℤ) - ((m : Nat) : ℤ) + n d * (w d m' - w d m) := by
        have : (0 : ℤ) < ((m' : Nat) : ℤ) - ((m : Nat) : ℤ) + n d * (w d m' - w d m) := by exact_mod_cast h4
        omega
      have h6 : (1 : ℝ) ≤ n d * (y - x) := by rw [h3]; exact_mod_cast h5
      have h7 : (n d : ℝ) ≤ 10 ^ 8 := by exact_mod_cast hn d
      have h8 : x * 10 ^ 8 + 1 ≤ y * 10 ^ 8 := by
        have : (1 : ℝ) ≤ 10 ^ 8 * (y - x) := le_trans h6 (mul_le_mul_of_nonneg_right h7 (by linarith))
        linarith
      have h9 : round (x * 10 ^ 8) + 1 ≤ round (y * 10 ^ 8) := by
        have : round (x * 10 ^ 8) + 1 = round (x * 10 ^ 8 + 1) := by
          have := round_add_one (x * 10 ^ 8)
          exact this.symm
        rw [this, round_eq, round_eq]
        exact Int.floor_mono (by linarith)
      have : g m = round (x * 10 ^ 8) := rfl
      have h10 : g m' = round (y * 10 ^ 8) := rfl
      omega
    intro m m' hg
    rcases lt_trichotomy ((((m : Nat) : ℝ) + s d) / n d + w d m) ((((m' : Nat) : ℝ) + s d) / n d + w d m') with h | h | h
    · exact absurd hg (key m m' h)
    · by_contra hne
      have h3 : (0 : ℝ) = (((m' : Nat) : ℤ) - ((m : Nat) : ℤ) + n d * (w d m' - w d m) : ℤ) := by
        have : (n d : ℝ) * (((((m' : Nat) : ℝ) + s d) / n d + w d m') - ((((m : Nat) : ℝ) + s d) / n d + w d m)) = 0 := by
          rw [h]; ring
        rw [← this]; push_cast; field_simp; ring
      have h4 : (0 : ℤ) = ((m' : Nat) : ℤ) - ((m : Nat) : ℤ) + n d * (w d m' - w d m) := by exact_mod_cast h3
      have h5 : (n d : ℤ) ∣ ((m' : Nat) : ℤ) - ((m : Nat) : ℤ) := ⟨-(w d m' - w d m), by linear_combination -h4⟩
      have h6 := Int.eq_zero_of_abs_lt_dvd h5 (by
        rw [abs_lt]; have := m.2; have := m'.2; constructor <;> omega)
      exact hne (Fin.ext (by omega))
    · exact absurd hg.symm (key m' m h)
  rw [h1, Finset.card_image_of_injective _ h2]
  simp

/-! ## Folding -/

section Algebra
variable [DecidableEq κ] [DecidableEq ρ]

private theorem unit_sum {p : Matrix κ ρ ℂ} (hp : Unitary p) (k k' : κ) : ∑ R, p k R * star (p k' R) = if k = k' then 1 else 0 := by
  have := congrFun (congrFun hp.1 k) k'
  rwa [Matrix.mul_apply, Matrix.one_apply] at this

private theorem unit_sum' {p : Matrix κ ρ ℂ} (hp : Unitary p) (R S : ρ) : ∑ k, star (p k R) * p k S = if R = S then 1 else 0 := by
  have := congrFun (congrFun hp.2 R) S
  rwa [Matrix.mul_apply, Matrix.one_apply] at this

/-- Folding and unfolding gives back the k-point integrals. -/
theorem fold_unfold {p : Matrix κ ρ ℂ} (hp : Unitary p) (ak : κ → Matrix ι ι ℂ) : bvk2k p (k2bvk p ak) = ak := by
  funext k
  ext i j
  simp only [bvk2k, k2bvk, Matrix.of_apply, Finset.mul_sum, Finset.sum_mul]
  have e : ∀ R S, ∑ k', star (p k R) * (p k' R * ak k' i j * star (p k' S)) * p k S
      = ∑ k', (p k' R * star (p k R)) * ak k' i j * (p k S * star (p k' S)) := by
    intro R S; refine Finset.sum_congr rfl fun k' _ => by ring
  simp only [e]
  have e2 : (∑ R, ∑ S, ∑ k', (p k' R * star (p k R)) * ak k' i j * (p k S * star (p k' S)))
      = ∑ k', (∑ R, p k' R * star (p k R)) * ak k' i j * (∑ S, p k S * star (p k' S)) := by
    have e3 : ∀ R, ∑ S, ∑ k', (p k' R * star (p k R)) * ak k' i j * (p k S * star (p k' S))
        = ∑ k', (p k' R * star (p k R)) * ak k' i j * (∑ S, p k S * star (p k' S)) := by
      intro R; rw [Finset.sum_comm]; refine Finset.sum_congr rfl fun k' _ => by rw [Finset.mul_sum]
    simp only [e3]
    rw [Finset.sum_comm]
    refine Finset.sum_congr rfl fun k' _ => ?_
    rw [Finset.sum_mul, Finset.sum_mul]
  rw [e2]
  simp only [unit_sum hp]
  simp

/-- Products in the supercell are the products at each k-point. -/
theorem fold_mul {p : Matrix κ ρ ℂ} (hp : Unitary p) (ak bk : κ → Matrix ι ι ℂ) :
    k2bvk p ak * k2bvk p bk = k2bvk p fun k => ak k * bk k := by
  ext ⟨R, i⟩ ⟨S, j⟩
  rw [Matrix.mul_apply, Fintype.sum_prod_type]
  simp only [k2bvk, Matrix.of_apply, Matrix.mul_apply, Finset.sum_mul, Finset.mul_sum]
  have e : (∑ T, ∑ l, ∑ k', ∑ k, p k R * ak k i l * star (p k T) * (p k' T * bk k' l j * star (p k' S)))
      = ∑ k, ∑ l, ∑ k', p k R * ak k i l * (∑ T, p k' T * star (p k T)) * bk k' l j * star (p k' S) := by
    calc _ = ∑ T, ∑ l, ∑ k, ∑ k', p k R * ak k i l * star (p k T) * (p k' T * bk k' l j * star (p k' S)) :=
          Finset.sum_congr rfl fun T _ => Finset.sum_congr rfl fun l _ => Finset.sum_comm
      _ = ∑ T, ∑ k, ∑ l, ∑ k', p k R * ak k i l * star (p k T) * (p k' T * bk k' l j * star (p k' S)) :=
          Finset.sum_congr rfl fun T _ => Finset.sum_comm
      _ = ∑ k, ∑ T, ∑ l, ∑ k', p k R * ak k i l * star (p k T) * (p k' T * bk k' l j * star (p k' S)) := Finset.sum_comm
      _ = ∑ k, ∑ l, ∑ T, ∑ k', p k R * ak k i l * star (p k T) * (p k' T * bk k' l j * star (p k' S)) :=
          Finset.sum_congr rfl fun k _ => Finset.sum_comm
      _ = ∑ k, ∑ l, ∑ k', ∑ T, p k R * ak k i l * star (p k T) * (p k' T * bk k' l j * star (p k' S)) :=
          Finset.sum_congr rfl fun k _ => Finset.sum_congr rfl fun l _ => Finset.sum_comm
      _ = _ := by
          refine Finset.sum_congr rfl fun k _ => Finset.sum_congr rfl fun l _ => Finset.sum_congr rfl fun k' _ => ?_
          simp only [Finset.mul_sum, Finset.sum_mul]
          refine Finset.sum_congr rfl fun T _ => by ring
  rw [e]
  simp only [unit_sum hp]
  refine Finset.sum_congr rfl fun k _ => Finset.sum_congr rfl fun l _ => ?_
  rw [Finset.sum_eq_single k (fun k' _ h => by rw [if_neg h]; ring) (fun h => absurd (Finset.mem_univ k) h), if_pos rfl]
  ring

/-- The identity at each k-point is the identity in the supercell. -/
theorem fold_one [DecidableEq ι] {p : Matrix κ ρ ℂ} (hp : Unitary p) : k2bvk p (fun _ => (1 : Matrix ι ι ℂ)) = 1 := by
  ext ⟨R, i⟩ ⟨S, j⟩
  simp only [k2bvk, Matrix.of_apply, Matrix.one_apply, Prod.mk.injEq]
  by_cases hij : i = j
  · simp only [hij, if_true, mul_one, and_true]
    have := unit_sum' hp S R
    simp only [eq_comm (a := S)] at this
    rw [← this]
    exact Finset.sum_congr rfl fun k _ => mul_comm _ _
  · simp [hij]

omit [DecidableEq κ] [DecidableEq ρ] [Fintype ρ] [Fintype ι] in
/-- Hermitian conjugation. -/
theorem fold_conj (p : Matrix κ ρ ℂ) (ak : κ → Matrix ι ι ℂ) :
    (k2bvk p ak).conjTranspose = k2bvk p fun k => (ak k).conjTranspose := by
  ext ⟨R, i⟩ ⟨S, j⟩
  simp only [k2bvk, Matrix.of_apply, Matrix.conjTranspose_apply, star_sum, star_mul', star_star]
  exact Finset.sum_congr rfl fun k _ => by ring

/-- Traces in the supercell are the sums of the traces of all k-points. -/
theorem fold_trace {p : Matrix κ ρ ℂ} (hp : Unitary p) (ak : κ → Matrix ι ι ℂ) :
    (k2bvk p ak).trace = ∑ k, (ak k).trace := by
  simp only [Matrix.trace, Matrix.diag_apply, Fintype.sum_prod_type, k2bvk, Matrix.of_apply]
  calc _ = ∑ R, ∑ k, ∑ i, p k R * ak k i i * star (p k R) := Finset.sum_congr rfl fun R _ => Finset.sum_comm
    _ = ∑ k, ∑ R, ∑ i, p k R * ak k i i * star (p k R) := Finset.sum_comm
    _ = ∑ k, (∑ R, p k R * star (p k R)) * ∑ i, ak k i i := by
        refine Finset.sum_congr rfl fun k _ => ?_
        rw [Finset.sum_mul]
        refine Finset.sum_congr rfl fun R _ => ?_
        rw [Finset.mul_sum]
        exact Finset.sum_congr rfl fun i _ => by ring
    _ = _ := by simp only [unit_sum hp, if_true, one_mul]

/-- Expectation values, such as electron numbers and energies: the supercell value is the sum over k-points. -/
theorem fold_expectation {p : Matrix κ ρ ℂ} (hp : Unitary p) (dk hk : κ → Matrix ι ι ℂ) :
    (k2bvk p dk * k2bvk p hk).trace = ∑ k, (dk k * hk k).trace := by
  rw [fold_mul hp, fold_trace hp]

end Algebra

/-! ## Lattices -/

private theorem phase_shift {a : Fin 3 → Fin 3 → ℝ} {kpts : κ → Fin 3 → ℝ} {n : Fin 3 → Nat} (hm : IsMesh a kpts n 0) (k : κ)
    (R U : Cells n) (t : Fin 3 → ℤ) (h : SameCell n (cellCoord U) (cellCoord R + t)) :
    phase a n kpts k U = phase a n kpts k R * blochPhase a (kpts k) t := by
  obtain ⟨σ, w, hw⟩ := hm.points
  rw [phase_eq, phase_eq, bloch_cis, div_mul_eq_mul_div, ← cis_add, ← Finset.sum_add_distrib]
  congr 1
  rw [cis_sum, cis_sum]
  refine Finset.prod_congr rfl fun d _ => ?_
  obtain ⟨z, hz⟩ := h d
  have hz' : ((U d : Nat) : ℝ) = ((R d : Nat) : ℝ) + t d + n d * z := by
    have : ((U d : Nat) : ℤ) = ((R d : Nat) : ℤ) + t d + n d * z := by
      simp only [cellCoord, Pi.add_apply] at hz; linear_combination hz
    exact_mod_cast this
  have hd : (n d : ℝ) ≠ 0 := by exact_mod_cast (hm.pos d).ne'
  have e : ((U d : Nat) : ℝ) * scaledKpt a (kpts k) d = (((R d : Nat) : ℝ) * scaledKpt a (kpts k) d + t d * scaledKpt a (kpts k) d)
      + (z * (((σ k d : Nat) : ℤ) + n d * w d (σ k d)) : ℤ) := by
    rw [hz', hw]; push_cast; simp only [Pi.zero_apply]; field_simp; ring
  rw [e, cis_add, cis_int, mul_one]

/-- Every lattice vector lies in a cell of the supercell. -/
private theorem exists_cell {n : Fin 3 → Nat} (hn : ∀ d, 0 < n d) (t : Fin 3 → ℤ) : ∃ U : Cells n, SameCell n (cellCoord U) t := by
  refine ⟨fun d => ⟨(t d % n d).toNat, ?_⟩, fun d => ?_⟩
  · have h1 := Int.emod_nonneg (t d) (b := n d) (by exact_mod_cast (hn d).ne')
    have h2 := Int.emod_lt_of_pos (t d) (b := n d) (by exact_mod_cast hn d)
    omega
  · have h1 := Int.emod_nonneg (t d) (b := n d) (by exact_mod_cast (hn d).ne')
    simp only [cellCoord]
    rw [Int.toNat_of_nonneg h1]
    exact ⟨-(t d / n d), by have := Int.emod_add_mul_ediv (t d) (n d); linear_combination this⟩

private theorem cell_unique {n : Fin 3 → Nat} (U V : Cells n) (h : SameCell n (cellCoord U) (cellCoord V)) : U = V := by
  funext d
  have h4 := Int.eq_zero_of_abs_lt_dvd (h d) (by
    have := (U d).2; have := (V d).2
    simp only [cellCoord]
    rw [abs_lt]; constructor <;> omega)
  simp only [cellCoord] at h4
  exact Fin.ext (by omega)

/-- The supercell integrals are the lattice sums at the gamma point of the supercell: if the k-point integrals are the Bloch sums of
integrals `A t` between an orbital and one displaced by the lattice vector `t`, the folded integral between orbitals in cells `R` and
`S` is the sum of all `A t` with `t` equal to `S - R` up to supercell lattice vectors. -/
theorem fold_lattice_sum {a : Fin 3 → Fin 3 → ℝ} {kpts : κ → Fin 3 → ℝ} {n : Fin 3 → Nat} (hm : IsMesh a kpts n 0)
    (T : Finset (Fin 3 → ℤ)) (A : (Fin 3 → ℤ) → Matrix ι ι ℂ) (ak : κ → Matrix ι ι ℂ)
    (hA : ∀ k, ak k = ∑ t ∈ T, blochPhase a (kpts k) t • A t) (R S : Cells n) (i j : ι) :
    k2bvk (phase a n kpts) ak (R, i) (S, j) = ∑ t ∈ T with SameCell n t (cellCoord S - cellCoord R), A t i j := by
  classical
  have hp := fold_phase_unitary hm
  simp only [k2bvk, Matrix.of_apply, hA, Matrix.sum_apply, Matrix.smul_apply, smul_eq_mul, Finset.mul_sum, Finset.sum_mul]
  rw [Finset.sum_comm, Finset.sum_filter]
  refine Finset.sum_congr rfl fun t _ => ?_
  obtain ⟨U, hU⟩ := exists_cell hm.pos (cellCoord R + t)
  have e : ∀ k, phase a n kpts k R * (blochPhase a (kpts k) t * A t i j) * star (phase a n kpts k S)
      = star (phase a n kpts k S) * phase a n kpts k U * A t i j := by
    intro k; rw [phase_shift hm k R U t hU]; ring
  simp only [e]
  rw [← Finset.sum_mul, unit_sum' hp]
  have hiff : S = U ↔ SameCell n t (cellCoord S - cellCoord R) := by
    constructor
    · rintro rfl d
      obtain ⟨z, hz⟩ := hU d
      refine ⟨-z, ?_⟩
      simp only [Pi.add_apply, Pi.sub_apply] at hz ⊢
      linear_combination -hz
    · intro h
      refine (cell_unique U S fun d => ?_).symm
      obtain ⟨z, hz⟩ := hU d
      obtain ⟨z', hz'⟩ := h d
      refine ⟨z + z', ?_⟩
      simp only [Pi.add_apply, Pi.sub_apply] at hz hz'
      linear_combination hz + hz'
  by_cases h : S = U
  · rw [if_pos h, if_pos (hiff.1 h), one_mul]
  · rw [if_neg h, if_neg fun hc => h (hiff.2 hc), zero_mul]

/-- Folded integrals are invariant under translations by unit cells. -/
theorem fold_translation_invariant {a : Fin 3 → Fin 3 → ℝ} {kpts : κ → Fin 3 → ℝ} {n : Fin 3 → Nat} (hm : IsMesh a kpts n 0)
    (ak : κ → Matrix ι ι ℂ) : TranslationInvariant (k2bvk (phase a n kpts) ak) := by
  intro R R' S S' i j h
  simp only [k2bvk, Matrix.of_apply]
  refine Finset.sum_congr rfl fun k _ => ?_
  have h1 := phase_shift hm k R R' (cellCoord R' - cellCoord R) (fun d => ⟨0, by simp⟩)
  have h2 := phase_shift hm k S S' (cellCoord R' - cellCoord R) (fun d => by
    obtain ⟨z, hz⟩ := h d
    refine ⟨-z, ?_⟩
    simp only [Pi.add_apply, Pi.sub_apply] at hz ⊢
    linear_combination -hz)
  have h3 : blochPhase a (kpts k) (cellCoord R' - cellCoord R) * star (blochPhase a (kpts k) (cellCoord R' - cellCoord R)) = 1 := by
    rw [bloch_cis, cis_star, ← cis_add, add_neg_cancel]; simpa using cis_int 0
  rw [h1, h2, star_mul']
  linear_combination (phase a n kpts k R * ak k i j * star (phase a n kpts k S)) * h3

/-- Unfolding and folding gives back every translation-invariant matrix, such as a density matrix given to `get_veff`. -/
theorem unfold_fold {a : Fin 3 → Fin 3 → ℝ} {kpts : κ → Fin 3 → ℝ} {n : Fin 3 → Nat} (hm : IsMesh a kpts n 0)
    (g : Matrix (Cells n × ι) (Cells n × ι) ℂ) (hg : TranslationInvariant g) :
    k2bvk (phase a n kpts) (bvk2k (phase a n kpts) g) = g := by
  classical
  have hp := fold_phase_unitary hm
  ext ⟨R, i⟩ ⟨S, j⟩
  simp only [k2bvk, bvk2k, Matrix.of_apply, Finset.mul_sum, Finset.sum_mul]
  -- for each row cell R' the sum over S' is reordered by translation
  have key : ∀ R' : Cells n, ∃ τ : Cells n ≃ Cells n, ∀ S', SameCell n (cellCoord (τ S')) (cellCoord S' + (cellCoord R' - cellCoord R)) := by
    intro R'
    choose f hf using fun S' : Cells n => exists_cell hm.pos (cellCoord S' + (cellCoord R' - cellCoord R))
    have hinj : Function.Injective f := by
      intro U V h
      refine cell_unique U V fun d => ?_
      obtain ⟨z, hz⟩ := hf U d
      obtain ⟨z', hz'⟩ := hf V d
      refine ⟨z' - z, ?_⟩
      rw [h] at hz
      simp only [Pi.add_apply, Pi.sub_apply] at hz hz'
      linear_combination hz' - hz
    exact ⟨Equiv.ofBijective f (Finite.injective_iff_bijective.1 hinj), hf⟩
  choose τ hτ using key
  have step : ∀ k R', (∑ S', phase a n kpts k R * (star (phase a n kpts k R') * g (R', i) (S', j) * phase a n kpts k S') * star (phase a n kpts k S))
      = ∑ S', (phase a n kpts k R * star (phase a n kpts k R)) * g (R, i) (S', j) * (phase a n kpts k S' * star (phase a n kpts k S)) := by
    intro k R'
    rw [← Equiv.sum_comp (τ R')]
    refine Finset.sum_congr rfl fun S' _ => ?_
    have h1 := phase_shift hm k R R' (cellCoord R' - cellCoord R) (fun d => ⟨0, by simp⟩)
    have h2 := phase_shift hm k S' (τ R' S') (cellCoord R' - cellCoord R) (hτ R' S')
    have h3 : blochPhase a (kpts k) (cellCoord R' - cellCoord R) * star (blochPhase a (kpts k) (cellCoord R' - cellCoord R)) = 1 := by
      rw [bloch_cis, cis_star, ← cis_add, add_neg_cancel]; simpa using cis_int 0
    have h4 : g (R', i) (τ R' S', j) = g (R, i) (S', j) := hg R R' S' (τ R' S') i j fun d => by
      obtain ⟨z, hz⟩ := hτ R' S' d
      refine ⟨-z, ?_⟩
      simp only [Pi.add_apply, Pi.sub_apply] at hz ⊢
      linear_combination -hz
    rw [h1, h2, h4, star_mul']
    linear_combination (phase a n kpts k R * star (phase a n kpts k R) * g (R, i) (S', j) * phase a n kpts k S'
      * star (phase a n kpts k S)) * h3
  simp only [step]
  have h5 : ∀ k, (∑ _R' : Cells n, phase a n kpts k R * star (phase a n kpts k R)) = 1 := by
    intro k
    have := unit_sum hp k k
    rw [if_pos rfl] at this
    rw [← this]
    refine Finset.sum_congr rfl fun R' _ => ?_
    have h1 := phase_shift hm k R R' (cellCoord R' - cellCoord R) (fun d => ⟨0, by simp⟩)
    have h3 : blochPhase a (kpts k) (cellCoord R' - cellCoord R) * star (blochPhase a (kpts k) (cellCoord R' - cellCoord R)) = 1 := by
      rw [bloch_cis, cis_star, ← cis_add, add_neg_cancel]; simpa using cis_int 0
    rw [h1, star_mul']
    linear_combination (-(phase a n kpts k R * star (phase a n kpts k R))) * h3
  have h6 : ∀ k, (∑ _R' : Cells n, ∑ S', (phase a n kpts k R * star (phase a n kpts k R)) * g (R, i) (S', j)
      * (phase a n kpts k S' * star (phase a n kpts k S)))
      = ∑ S', g (R, i) (S', j) * (star (phase a n kpts k S) * phase a n kpts k S') := by
    intro k
    rw [Finset.sum_comm]
    refine Finset.sum_congr rfl fun S' _ => ?_
    rw [← Finset.sum_mul, ← Finset.sum_mul, h5]
    ring
  simp only [h6]
  rw [Finset.sum_comm]
  simp only [← Finset.mul_sum, unit_sum' hp]
  simp

/-! ## Real integrals -/

private theorem phase_opposite {a : Fin 3 → Fin 3 → ℝ} {kpts : κ → Fin 3 → ℝ} {n : Fin 3 → Nat} {k k' : κ}
    (h : Opposite a (kpts k) (kpts k')) (R : Cells n) : phase a n kpts k' R = star (phase a n kpts k R) := by
  rw [phase_eq, phase_eq, star_div₀, cis_star, Complex.star_def, Complex.conj_ofReal]
  congr 1
  rw [← Finset.sum_neg_distrib, cis_sum, cis_sum]
  refine Finset.prod_congr rfl fun d _ => ?_
  obtain ⟨z, hz⟩ := h d
  have : ((R d : Nat) : ℝ) * scaledKpt a (kpts k') d = -(((R d : Nat) : ℝ) * scaledKpt a (kpts k) d) + (((R d : Nat) : ℤ) * z : ℤ) := by
    push_cast; linear_combination ((R d : Nat) : ℝ) * hz
  rw [this, cis_add, cis_int, mul_one]

/-- Every k-point of a mesh with the gamma point has exactly one opposite point. -/
private theorem opposites {a : Fin 3 → Fin 3 → ℝ} {kpts : κ → Fin 3 → ℝ} {n : Fin 3 → Nat} (hm : IsMesh a kpts n 0) :
    ∃ τ : κ ≃ κ, ∀ k k', Opposite a (kpts k) (kpts k') ↔ k' = τ k := by
  obtain ⟨σ, w, hw⟩ := hm.points
  have hex : ∀ k, ∃ k', Opposite a (kpts k) (kpts k') := by
    intro k
    obtain ⟨U, hU⟩ := exists_cell hm.pos (-cellCoord (σ k))
    refine ⟨σ.symm U, fun d => ?_⟩
    obtain ⟨z, hz⟩ := hU d
    have hd : (n d : ℝ) ≠ 0 := by exact_mod_cast (hm.pos d).ne'
    refine ⟨z + w d (σ k d) + w d (U d), ?_⟩
    rw [hw, hw, Equiv.apply_symm_apply]
    simp only [cellCoord, Pi.neg_apply] at hz
    have hz' : ((U d : Nat) : ℝ) + ((σ k d : Nat) : ℝ) = n d * z := by
      have : ((U d : Nat) : ℤ) + ((σ k d : Nat) : ℤ) = n d * z := by linear_combination hz
      exact_mod_cast this
    push_cast
    simp only [Pi.zero_apply]
    field_simp
    linear_combination hz'
  have hun : ∀ k k1 k2, Opposite a (kpts k) (kpts k1) → Opposite a (kpts k) (kpts k2) → k1 = k2 := by
    intro k k1 k2 h1 h2
    refine σ.injective (cell_unique _ _ fun d => ?_)
    obtain ⟨z1, hz1⟩ := h1 d
    obtain ⟨z2, hz2⟩ := h2 d
    have hd : (n d : ℝ) ≠ 0 := by exact_mod_cast (hm.pos d).ne'
    refine ⟨z1 - z2 - w d (σ k1 d) + w d (σ k2 d), ?_⟩
    have h3 : scaledKpt a (kpts k1) d - scaledKpt a (kpts k2) d = z1 - z2 := by linear_combination hz1 - hz2
    rw [hw, hw] at h3
    have h4 : ((σ k1 d : Nat) : ℝ) - ((σ k2 d : Nat) : ℝ) = n d * (z1 - z2 - w d (σ k1 d) + w d (σ k2 d)) := by
      simp only [Pi.zero_apply] at h3
      field_simp at h3
      linear_combination h3
    simp only [cellCoord]
    exact_mod_cast h4
  have hsymm : ∀ k k', Opposite a (kpts k) (kpts k') → Opposite a (kpts k') (kpts k) := by
    intro k k' h d; obtain ⟨z, hz⟩ := h d; exact ⟨z, by rw [add_comm]; exact hz⟩
  choose f hf using hex
  have hinv : ∀ k, f (f k) = k := fun k => hun (f k) _ _ (hf (f k)) (hsymm _ _ (hf k))
  refine ⟨⟨f, f, hinv, hinv⟩, fun k k' => ⟨fun h => hun k k' (f k) h (hf k), ?_⟩⟩
  rintro rfl
  exact hf k

/-- The supercell integrals are real exactly if the k-point integrals obey time-reversal symmetry. -/
theorem fold_real_iff {a : Fin 3 → Fin 3 → ℝ} {kpts : κ → Fin 3 → ℝ} {n : Fin 3 → Nat} (hm : IsMesh a kpts n 0)
    (ak : κ → Matrix ι ι ℂ) :
    (∀ x y, (k2bvk (phase a n kpts) ak x y).im = 0) ↔
      ∀ k k', Opposite a (kpts k) (kpts k') → ∀ i j, ak k' i j = star (ak k i j) := by
  classical
  have hp := fold_phase_unitary hm
  obtain ⟨τ, hτ⟩ := opposites hm
  constructor
  · intro h k k' hk i j
    have hr : ∀ x y, star (k2bvk (phase a n kpts) ak x y) = k2bvk (phase a n kpts) ak x y := fun x y => Complex.conj_eq_iff_im.2 (h x y)
    have h1 := congrFun (congrFun (congrFun (fold_unfold hp ak) k') i) j
    have h2 := congrArg star (congrFun (congrFun (congrFun (fold_unfold hp ak) k) i) j)
    rw [← h1, ← h2]
    simp only [bvk2k, Matrix.of_apply, star_sum, star_mul', star_star]
    refine Finset.sum_congr rfl fun R _ => Finset.sum_congr rfl fun S _ => ?_
    rw [hr, phase_opposite hk, phase_opposite hk, star_star]
  · rintro h ⟨R, i⟩ ⟨S, j⟩
    rw [← Complex.conj_eq_iff_im, ← Complex.star_def]
    simp only [k2bvk, Matrix.of_apply, star_sum, star_mul', star_star]
    rw [← Equiv.sum_comp τ (fun k => phase a n kpts k R * ak k i j * star (phase a n kpts k S))]
    refine Finset.sum_congr rfl fun k _ => ?_
    have hk := (hτ k (τ k)).2 rfl
    rw [phase_opposite hk, phase_opposite hk, h k _ hk, star_star]

/-- An error is raised exactly if some integral has an imaginary part above the tolerance; otherwise the real parts are returned. -/
theorem fold_real_decision [Nonempty (ρ × ι)] (p : Matrix κ ρ ℂ) (tol : ℝ) (ak : κ → Matrix ι ι ℂ) :
    (k2bvkReal p tol ak = .error .other ↔ ∃ x y, tol < |(k2bvk p ak x y).im|) ∧
    (∀ g, k2bvkReal p tol ak = .ok g ↔ ∀ x y, |(k2bvk p ak x y).im| ≤ tol ∧ g x y = (k2bvk p ak x y).re) := by
  have hc : Fintype.card (ρ × ι) ≠ 0 := Fintype.card_ne_zero
  rw [k2bvkReal, makeReal, if_neg hc]
  by_cases h : ∃ x y, tol < |(k2bvk p ak x y).im|
  · rw [if_pos h]
    refine ⟨⟨fun _ => h, fun _ => rfl⟩, fun g => ⟨fun e => (by cases e), fun e => ?_⟩⟩
    obtain ⟨x, y, hxy⟩ := h
    exact absurd (e x y).1 (not_le.2 hxy)
  · rw [if_neg h]
    refine ⟨⟨fun e => (by cases e), fun e => absurd e h⟩, fun g => ⟨fun e => ?_, fun e => ?_⟩⟩
    · cases e
      exact fun x y => ⟨not_lt.1 fun hxy => h ⟨x, y, hxy⟩, rfl⟩
    · congr 1
      ext x y
      exact (e x y).2.symm

/-- Overlap, core Hamiltonian and effective potential of the folded mean-field are the integrals of the supercell at its gamma point, if
the k-point integrals are Bloch sums of real integrals between orbitals displaced by lattice vectors. -/
theorem folded_integrals_gamma [Nonempty ι] {a : Fin 3 → Fin 3 → ℝ} {kpts : κ → Fin 3 → ℝ} {n : Fin 3 → Nat} (hm : IsMesh a kpts n 0)
    (T : Finset (Fin 3 → ℤ)) (A : (Fin 3 → ℤ) → Matrix ι ι ℝ) (ak : κ → Matrix ι ι ℂ)
    (hA : ∀ k i j, ak k i j = ∑ t ∈ T, blochPhase a (kpts k) t * (A t i j : ℂ)) (tol : ℝ) (ht : 0 ≤ tol) :
    ∃ g, k2bvkReal (phase a n kpts) tol ak = .ok g ∧
      ∀ (R S : Cells n) (i j : ι), g (R, i) (S, j) = ∑ t ∈ T with SameCell n t (cellCoord S - cellCoord R), A t i j := by
  haveI : Nonempty (Cells n) := ⟨fun d => ⟨0, hm.pos d⟩⟩
  have h := fold_lattice_sum hm T (fun t => (A t).map Complex.ofReal) ak (fun k => by
    ext i j
    rw [hA, Matrix.sum_apply]
    exact Finset.sum_congr rfl fun t _ => by rw [Matrix.smul_apply, Matrix.map_apply, smul_eq_mul])
  have hr : ∀ (R S : Cells n) (i j : ι), k2bvk (phase a n kpts) ak (R, i) (S, j)
      = ((∑ t ∈ T with SameCell n t (cellCoord S - cellCoord R), A t i j : ℝ) : ℂ) := by
    intro R S i j
    rw [h R S i j]; push_cast
    exact Finset.sum_congr rfl fun t _ => rfl
  refine ⟨_, ((fold_real_decision (phase a n kpts) tol ak).2 (Matrix.of fun x y => (k2bvk (phase a n kpts) ak x y).re)).2
    fun x y => ⟨?_, rfl⟩, fun R S i j => ?_⟩
  · obtain ⟨R, i⟩ := x
    obtain ⟨S, j⟩ := y
    rw [hr, Complex.ofReal_im, abs_zero]
    exact ht
  · rw [Matrix.of_apply, hr, Complex.ofReal_re]

/-! ## Energies -/

/-- The total energy can be read and written; writing changes the energy per cell accordingly. -/
theorem fold_energy_roundtrip (s : Energy) (h : 0 < s.ncells) (v : ℝ) :
    (s.set v).get = v ∧ s.set s.get = s := by
  have hn : (s.ncells : ℝ) ≠ 0 := by exact_mod_cast h.ne'
  constructor
  · simp only [Energy.set, Energy.get]; field_simp
  · cases s
    simp only [Energy.set, Energy.get, Energy.mk.injEq, true_and] at hn ⊢
    field_simp

/-- A mean-field energy that is the average of `Tr(D h)` over the k-points gives the supercell energy `Tr(D h)`. -/
theorem fold_energy_expectation [DecidableEq κ] [DecidableEq ρ] [Nonempty κ] {p : Matrix κ ρ ℂ} (hp : Unitary p)
    (dk hk : κ → Matrix ι ι ℂ) (e : ℝ) (he : (e : ℂ) = (∑ k, (dk k * hk k).trace) / Fintype.card κ) :
    ((Energy.get ⟨Fintype.card κ, e⟩ : ℝ) : ℂ) = (k2bvk p dk * k2bvk p hk).trace := by
  have : (Fintype.card κ : ℂ) ≠ 0 := by exact_mod_cast Fintype.card_ne_zero
  rw [fold_expectation hp, Energy.get]
  push_cast
  rw [he]; field_simp

/-! ## Examples -/

/-- A cubic lattice. -/
private noncomputable def cubic : Fin 3 → Fin 3 → ℝ := fun d x => if d = x then 1 else 0

/-- Two k-points along the first reciprocal vector, shifted by `s`, zone boundary first. -/
private noncomputable def twoKpts (s : ℝ) : Fin 2 → Fin 3 → ℝ := fun k x => if x = 0 then 2 * Real.pi * ((1 - ((k : Nat) : ℝ) + s) / 2) else 0

private def twoCells : Fin 3 → Nat := ![2, 1, 1]

private theorem two_mesh (s : ℝ) : IsMesh cubic (twoKpts s) twoCells ![s, 0, 0] := by
  refine ⟨fun d => by fin_cases d <;> decide, ?_⟩
  let f : Fin 2 → Cells twoCells := fun k d => ⟨if d = 0 then 1 - k else 0, by fin_cases d <;> fin_cases k <;> decide⟩
  have hf : Function.Bijective f := by
    constructor
    · intro k k' h
      have := congrArg Fin.val (congrFun h 0)
      simp only [f, if_true] at this
      omega
    · intro R
      have h0 : (R 0 : Nat) < 2 := (R 0).2
      have h1 : (R 1 : Nat) < 1 := (R 1).2
      have h2 : (R 2 : Nat) < 1 := (R 2).2
      refine ⟨⟨1 - R 0, by omega⟩, funext fun d => Fin.ext ?_⟩
      fin_cases d
      · simp only [f]; show (if (0 : Fin 3) = 0 then 1 - (1 - (R 0 : Nat)) else 0) = (R 0 : Nat); simp; omega
      · simp only [f]; show (if (1 : Fin 3) = 0 then 1 - (1 - (R 0 : Nat)) else 0) = (R 1 : Nat); simp; omega
      · simp only [f]; show (if (2 : Fin 3) = 0 then 1 - (1 - (R 0 : Nat)) else 0) = (R 2 : Nat); simp; omega
  refine ⟨Equiv.ofBijective f hf, fun _ _ => 0, fun k d => ?_⟩
  rw [Equiv.ofBijective_apply]
  have hpi := Real.pi_ne_zero
  fin_cases d <;> fin_cases k <;> simp [scaledKpt, cubic, twoKpts, f, twoCells, Fin.sum_univ_three] <;> field_simp

/-- The mesh of two k-points is found, and its phases are unitary. -/
example : kmesh cubic (twoKpts 0) = ![2, 1, 1] := by
  have h := two_mesh 0
  have e : (![0, 0, 0] : Fin 3 → ℝ) = 0 := by ext d; fin_cases d <;> rfl
  exact fold_mesh_found h fun d => by fin_cases d <;> simp [twoCells]

example : Unitary (phase cubic twoCells (twoKpts 0)) := fold_phase_unitary (two_mesh 0)

private theorem two_gamma : IsMesh cubic (twoKpts 0) twoCells 0 := by
  have h := two_mesh 0
  have e : (![0, 0, 0] : Fin 3 → ℝ) = 0 := by ext d; fin_cases d <;> rfl
  rwa [e] at h

/-- A chain with hopping to both neighbours: in the supercell of two cells the neighbour is reached twice. -/
example : ∃ g, k2bvkReal (phase cubic twoCells (twoKpts 0)) 0
      (fun k => Matrix.of fun (_ _ : Fin 1) => ∑ t ∈ {![1, 0, 0], ![-1, 0, 0]}, blochPhase cubic (twoKpts 0 k) t * ((-1 : ℝ) : ℂ)) = .ok g
    ∧ g (fun _ => ⟨0, two_gamma.pos _⟩, 0) (Function.update (fun _ => ⟨0, two_gamma.pos _⟩) 0 ⟨1, by decide⟩, 0) = -2 := by
  obtain ⟨g, hg, h⟩ := folded_integrals_gamma two_gamma {![1, 0, 0], ![-1, 0, 0]} (fun _ => Matrix.of fun (_ _ : Fin 1) => -1)
    (fun k => Matrix.of fun (_ _ : Fin 1) => ∑ t ∈ {![1, 0, 0], ![-1, 0, 0]}, blochPhase cubic (twoKpts 0 k) t * ((-1 : ℝ) : ℂ))
    (fun k i j => rfl) 0 le_rfl
  refine ⟨g, hg, ?_⟩
  rw [h]
  have : (Finset.filter (fun t => SameCell twoCells t (cellCoord (Function.update (fun d => (⟨0, two_gamma.pos d⟩ : Fin (twoCells d))) 0 ⟨1, by decide⟩)
      - cellCoord (fun d => (⟨0, two_gamma.pos d⟩ : Fin (twoCells d))))) {![1, 0, 0], ![-1, 0, 0]} : Finset (Fin 3 → ℤ)) = {![1, 0, 0], ![-1, 0, 0]} := by
    decide +kernel
  rw [this, Finset.sum_pair (by decide +kernel)]
  simp; norm_num

private theorem cis_half : cis (1 / 2) = -1 := by
  rw [cis, ← Complex.exp_pi_mul_I]; congr 1; push_cast; ring

private theorem shifted_scaled (k : Fin 2) (d : Fin 3) :
    scaledKpt cubic (twoKpts (1 / 2) k) d = if d = 0 then (1 - ((k : Nat) : ℝ) + 1 / 2) / 2 else 0 := by
  have hpi := Real.pi_ne_zero
  fin_cases d <;> simp [scaledKpt, cubic, twoKpts]

private theorem shifted_entry (R S : Cells twoCells) (i j : Fin 1) :
    k2bvk (phase cubic twoCells (twoKpts (1 / 2))) (fun k => Matrix.of fun (_ _ : Fin 1) => blochPhase cubic (twoKpts (1 / 2) k) ![1, 0, 0])
      (R, i) (S, j) = (star (cis ((((R 0 : Nat) : ℤ) - ((S 0 : Nat) : ℤ) + 1 : ℤ) / 4)) + cis ((((R 0 : Nat) : ℤ) - ((S 0 : Nat) : ℤ) + 1 : ℤ) / 4)) / 2 := by
  have hs : ((Real.sqrt ((∏ d, twoCells d : Nat) : ℝ) : ℝ) : ℂ) * ((Real.sqrt ((∏ d, twoCells d : Nat) : ℝ) : ℝ) : ℂ) = 2 := by
    rw [← Complex.ofReal_mul, Real.mul_self_sqrt (by positivity)]
    have : (∏ d, twoCells d) = 2 := by decide
    rw [this]; norm_num
  have hs0 : ((Real.sqrt ((∏ d, twoCells d : Nat) : ℝ) : ℝ) : ℂ) ≠ 0 := by
    intro h; rw [h] at hs; norm_num at hs
  have e : ∀ k : Fin 2, phase cubic twoCells (twoKpts (1 / 2)) k R * blochPhase cubic (twoKpts (1 / 2) k) ![1, 0, 0]
      * star (phase cubic twoCells (twoKpts (1 / 2)) k S)
      = cis ((((R 0 : Nat) : ℤ) - ((S 0 : Nat) : ℤ) + 1 : ℤ) * ((1 - ((k : Nat) : ℝ) + 1 / 2) / 2)) / 2 := by
    intro k
    rw [phase_eq, phase_eq, bloch_cis, star_div₀, cis_star, Complex.star_def, Complex.conj_ofReal]
    simp only [Fin.sum_univ_three, shifted_scaled]
    rw [div_mul_eq_mul_div, div_mul_div_comm, hs, ← cis_add, ← cis_add]
    congr 2
    simp
    ring
  simp only [k2bvk, Matrix.of_apply, e, Fin.sum_univ_two]
  rw [← add_div]
  congr 2
  · rw [cis_star]
    have : ((((R 0 : Nat) : ℤ) - ((S 0 : Nat) : ℤ) + 1 : ℤ) : ℝ) * ((1 - (((0 : Fin 2) : Nat) : ℝ) + 1 / 2) / 2)
        = -((((R 0 : Nat) : ℤ) - ((S 0 : Nat) : ℤ) + 1 : ℤ) / 4) + (((R 0 : Nat) : ℤ) - ((S 0 : Nat) : ℤ) + 1 : ℤ) := by
      push_cast; simp; ring
    rw [this, cis_add, cis_int, mul_one]
  · congr 1
    push_cast; simp; ring

/-- The cells of the supercell. -/
private def cellNo (r : Fin 2) : Cells twoCells := Function.update (fun d => ⟨0, two_gamma.pos d⟩) 0 r

/-- The Γ point is needed: for a shifted mesh the supercell is not at its gamma point. Integrals of neighbouring cells change sign across
the boundary of the supercell, and are not invariant under translations; nothing is raised. -/
theorem fold_shifted_mesh :
    ∃ (a : Fin 3 → Fin 3 → ℝ) (kpts : Fin 2 → Fin 3 → ℝ) (n : Fin 3 → Nat) (s : Fin 3 → ℝ) (A : (Fin 3 → ℤ) → Matrix (Fin 1) (Fin 1) ℝ)
      (T : Finset (Fin 3 → ℤ)) (ak : Fin 2 → Matrix (Fin 1) (Fin 1) ℂ) (g : Matrix (Cells n × Fin 1) (Cells n × Fin 1) ℝ),
      IsMesh a kpts n s ∧ (∀ k i j, ak k i j = ∑ t ∈ T, blochPhase a (kpts k) t * (A t i j : ℂ)) ∧
      k2bvkReal (phase a n kpts) 0 ak = .ok g ∧ ¬ TranslationInvariant (g.map Complex.ofReal) ∧
      ¬ ∀ (R S : Cells n) (i j : Fin 1), g (R, i) (S, j) = ∑ t ∈ T with SameCell n t (cellCoord S - cellCoord R), A t i j := by
  have him : ∀ x y, (k2bvk (phase cubic twoCells (twoKpts (1 / 2)))
      (fun k => Matrix.of fun (_ _ : Fin 1) => blochPhase cubic (twoKpts (1 / 2) k) ![1, 0, 0]) x y).im = 0 := by
    rintro ⟨R, i⟩ ⟨S, j⟩
    rw [shifted_entry, ← Complex.conj_eq_iff_im, ← Complex.star_def, star_div₀, star_add, star_star, add_comm]
    congr 1
    exact Complex.conj_ofReal 2
  have h01 : k2bvk (phase cubic twoCells (twoKpts (1 / 2)))
      (fun k => Matrix.of fun (_ _ : Fin 1) => blochPhase cubic (twoKpts (1 / 2) k) ![1, 0, 0]) (cellNo 0, 0) (cellNo 1, 0) = 1 := by
    rw [shifted_entry]
    have : ((((cellNo 0 0 : Nat) : ℤ) - ((cellNo 1 0 : Nat) : ℤ) + 1 : ℤ) : ℝ) / 4 = ((0 : ℤ) : ℝ) := by
      have : (((cellNo 0 0 : Nat) : ℤ) - ((cellNo 1 0 : Nat) : ℤ) + 1 : ℤ) = 0 := by decide
      rw [this]; simp
    rw [this, cis_int]; simp
  have h10 : k2bvk (phase cubic twoCells (twoKpts (1 / 2)))
      (fun k => Matrix.of fun (_ _ : Fin 1) => blochPhase cubic (twoKpts (1 / 2) k) ![1, 0, 0]) (cellNo 1, 0) (cellNo 0, 0) = -1 := by
    rw [shifted_entry]
    have : ((((cellNo 1 0 : Nat) : ℤ) - ((cellNo 0 0 : Nat) : ℤ) + 1 : ℤ) : ℝ) / 4 = 1 / 2 := by
      have : (((cellNo 1 0 : Nat) : ℤ) - ((cellNo 0 0 : Nat) : ℤ) + 1 : ℤ) = 2 := by decide
      rw [this]; norm_num
    rw [this, cis_half]; simp
  refine ⟨cubic, twoKpts (1 / 2), twoCells, ![1 / 2, 0, 0], fun _ => Matrix.of fun _ _ => 1, {![1, 0, 0]},
    fun k => Matrix.of fun (_ _ : Fin 1) => blochPhase cubic (twoKpts (1 / 2) k) ![1, 0, 0],
    Matrix.of fun x y => (k2bvk (phase cubic twoCells (twoKpts (1 / 2)))
      (fun k => Matrix.of fun (_ _ : Fin 1) => blochPhase cubic (twoKpts (1 / 2) k) ![1, 0, 0]) x y).re,
    two_mesh _, fun k i j => by simp, ?_, fun h => ?_, fun h => ?_⟩
  · have : Nonempty (Cells twoCells × Fin 1) := ⟨(cellNo 0, 0)⟩
    exact ((fold_real_decision _ 0 _).2 _).2 fun x y => ⟨by rw [him, abs_zero], rfl⟩
  · have := h (cellNo 0) (cellNo 1) (cellNo 1) (cellNo 0) 0 0 (by decide)
    rw [Matrix.map_apply, Matrix.map_apply, Matrix.of_apply, Matrix.of_apply, h01, h10] at this
    norm_num at this
  · have := h (cellNo 1) (cellNo 0) 0 0
    rw [Matrix.of_apply, h10] at this
    have e : (Finset.filter (fun t => SameCell twoCells t (cellCoord (cellNo 0) - cellCoord (cellNo 1))) {![1, 0, 0]} : Finset (Fin 3 → ℤ))
        = {![1, 0, 0]} := by decide +kernel
    rw [e, Finset.sum_singleton] at this
    norm_num at this

end Vayesta.Props
