import Verif.Props.Rpa
import Verif.Lemmas.Supergradient
import Verif.Lemmas.RpaCont
import Mathlib.Tactic.IntervalCases

/-! C74: correlation energies of the random-phase approximation. -/

namespace Vayesta.Props
set_option linter.unusedSectionVars false
open Rpa Lowdin Matrix Lemmas Lemmas.Rpa

variable {p q n m a b : Type} [Fintype p] [DecidableEq p] [Fintype q] [DecidableEq q] [Fintype n] [DecidableEq n]
  [Fintype m] [DecidableEq m] [Fintype a] [DecidableEq a] [Fintype b] [DecidableEq b]

/-- Energy of the de-excitation amplitudes: `-Σ ω |Y|²`. -/
def deexcitationEnergy (Y : Matrix p n ℝ) (w : n → ℝ) : ℝ := -∑ k, w k * ∑ x, Y x k ^ 2

/-- Half the difference between the RPA frequencies and the sum of excitation energies without de-excitations (the trace of `A`). -/
noncomputable def plasmonFormula (A : Matrix p p ℝ) (w : n → ℝ) : ℝ := (∑ k, w k - A.trace) / 2

theorem SolvesRpa.plasmon {A B : Matrix p p ℝ} {X Y : Matrix p n ℝ} {w : n → ℝ} (h : SolvesRpa A B X Y w) : plasmonFormula A w = deexcitationEnergy Y w := by
  have h1 := h.sol.plasmon
  unfold plasmonFormula deexcitationEnergy
  have e1 : (A - B + (A + B)).trace / 2 = A.trace := by
    rw [show A - B + (A + B) = (2 : ℝ) • A by module, trace_smul, smul_eq_mul]; ring
  rw [e1] at h1
  rw [h1]
  congr 1
  refine Finset.sum_congr rfl fun k _ => ?_
  congr 1
  refine Finset.sum_congr rfl fun x _ => ?_
  rw [Matrix.add_apply, Matrix.sub_apply]; ring

/-- What the code returns for any strength and rotation: the plasmon formula, with a trace that lacks both. -/
theorem rpa_energy_formula (eigh : Matrix q q ℝ → Eig q ℝ) (he : DiagonalisesSymmetric eigh) (eps : q → ℝ) (rot : Matrix q p ℝ) (fullv : Matrix p p ℝ)
    (hv : fullvᵀ = fullv) (alpha : ℝ) (r : Amps q × ℝ) (h : kernel eigh eps rot fullv alpha = .ok r) :
    r.2 = plasmonFormula (diagonal eps + alpha • (rot * fullv * rotᵀ)) r.1.freqs + (alpha * (rot * fullv * rotᵀ).trace - fullv.trace) / 2
    ∧ plasmonFormula (diagonal eps + alpha • (rot * fullv * rotᵀ)) r.1.freqs = deexcitationEnergy (ampY r.1) r.1.freqs := by
  refine ⟨?_, (rpa_solution eigh he eps rot fullv hv alpha r h).plasmon⟩
  unfold kernel at h
  cases hs : solve eigh eps (genApB rot fullv alpha eps) with
  | error e => rw [hs] at h; cases h
  | ok s =>
    rw [hs] at h; cases h
    show plasmonEnergy s.freqs eps fullv = _
    unfold plasmonEnergy plasmonFormula
    rw [trace_add, trace_diagonal, trace_smul, smul_eq_mul]; ring

/-- **C74**: at full strength, in the full space or any orthonormal basis of it, the energy is the plasmon formula, equals `-Σ ω |Y|²`, is never
positive, and vanishes only without interaction. -/
theorem rpa_energy (eigh : Matrix q q ℝ → Eig q ℝ) (he : DiagonalisesSymmetric eigh) (eps : q → ℝ) (rot : Matrix q p ℝ) (hr : rotᵀ * rot = 1)
    (fullv : Matrix p p ℝ) (hv : fullvᵀ = fullv) (r : Amps q × ℝ) (h : kernel eigh eps rot fullv 1 = .ok r) :
    r.2 = plasmonFormula (diagonal eps + rot * fullv * rotᵀ) r.1.freqs ∧ r.2 = deexcitationEnergy (ampY r.1) r.1.freqs ∧ r.2 ≤ 0 ∧ (r.2 = 0 ↔ fullv = 0) := by
  obtain ⟨h1, h2⟩ := rpa_energy_formula eigh he eps rot fullv hv 1 r h
  have hs := rpa_solution eigh he eps rot fullv hv 1 r h
  simp only [one_smul, one_mul] at h1 h2 hs
  have ht : (rot * fullv * rotᵀ).trace = fullv.trace := by
    rw [trace_mul_comm, ← Matrix.mul_assoc, hr, Matrix.one_mul]
  rw [ht, sub_self, zero_div, add_zero] at h1
  have hnn : ∀ k, 0 ≤ r.1.freqs k * ∑ x, ampY r.1 x k ^ 2 := fun k => mul_nonneg (hs.positive k).le (Finset.sum_nonneg fun x _ => sq_nonneg _)
  refine ⟨h1, h1.trans h2, ?_, ?_⟩
  · rw [h1, h2]; unfold deexcitationEnergy
    exact neg_nonpos.2 (Finset.sum_nonneg fun k _ => hnn k)
  · rw [h1, h2]; unfold deexcitationEnergy
    constructor
    · intro h0
      have h3 := neg_eq_zero.1 h0
      rw [Finset.sum_eq_zero_iff_of_nonneg fun k _ => hnn k] at h3
      have hY : ampY r.1 = 0 := by
        ext x k
        have h4 := h3 k (Finset.mem_univ _)
        have h5 := (mul_eq_zero.1 h4).resolve_left (hs.positive k).ne'
        rw [Finset.sum_eq_zero_iff_of_nonneg fun x _ => sq_nonneg _] at h5
        exact pow_eq_zero_iff (two_ne_zero) |>.1 (h5 x (Finset.mem_univ _))
      have h6 := hs.deexcitation
      have h7 := hs.complete
      rw [hY] at h6 h7
      simp only [Matrix.mul_zero, add_zero, Matrix.zero_mul, neg_zero, sub_zero] at h6 h7
      have h8 : rot * fullv * rotᵀ = 0 := by
        calc rot * fullv * rotᵀ = rot * fullv * rotᵀ * (ampX r.1 * (ampX r.1)ᵀ) := by rw [h7, Matrix.mul_one]
          _ = 0 := by rw [← Matrix.mul_assoc, h6, Matrix.zero_mul]
      calc fullv = (rotᵀ * rot) * fullv * (rotᵀ * rot) := by rw [hr, Matrix.one_mul, Matrix.mul_one]
        _ = rotᵀ * (rot * fullv * rotᵀ) * rot := by simp only [Matrix.mul_assoc]
        _ = 0 := by rw [h8, Matrix.mul_zero, Matrix.zero_mul]
    · intro h0
      have h3 : plasmonFormula (diagonal eps + rot * fullv * rotᵀ) r.1.freqs = 0 := by
        rw [h0, Matrix.mul_zero, Matrix.zero_mul, add_zero] at hs
        rw [h0, Matrix.mul_zero, Matrix.zero_mul, add_zero]
        have one : SolvesRpa (diagonal eps) 0 (1 : Matrix q q ℝ) 0 eps := by
          have hpos := (rpa_stable eigh he eps rot fullv hv 1 r h).1
          refine ⟨hpos, ?_, ?_, ?_, ?_, ?_, ?_⟩ <;> simp
        have h4 := hs.sol.sum_eq_Q
        have h5 := one.sol.sum_eq_Q
        rw [hs.sol.mom_eq one.sol 0] at h4
        unfold plasmonFormula
        rw [← h4, h5, trace_diagonal, sub_self, zero_div]
      rw [h3] at h2
      exact h2.symm

/-- **C74** at other strengths is false: without any interaction, the energy is minus half the trace of the interaction. -/
theorem rpa_energy_strength_broken (eigh : Matrix q q ℝ → Eig q ℝ) (he : DiagonalisesSymmetric eigh) (eps : q → ℝ) (fullv : Matrix q q ℝ)
    (hv : fullvᵀ = fullv) (r : Amps q × ℝ) (h : kernel eigh eps 1 fullv 0 = .ok r) : deexcitationEnergy (ampY r.1) r.1.freqs = 0 ∧ r.2 = -fullv.trace / 2 := by
  obtain ⟨h1, h2⟩ := rpa_energy_formula eigh he eps 1 fullv hv 0 r h
  have hs := rpa_solution eigh he eps 1 fullv hv 0 r h
  rw [zero_smul, add_zero] at hs h1 h2
  have one : SolvesRpa (diagonal eps) 0 (1 : Matrix q q ℝ) 0 eps := by
    have hpos := (rpa_stable eigh he eps 1 fullv hv 0 r h).1
    refine ⟨hpos, ?_, ?_, ?_, ?_, ?_, ?_⟩ <;> simp
  have h4 := hs.sol.sum_eq_Q
  rw [hs.sol.mom_eq one.sol 0, one.sol.sum_eq_Q] at h4
  have h5 : plasmonFormula (diagonal eps) r.1.freqs = 0 := by
    unfold plasmonFormula; rw [← h4, trace_diagonal, sub_self, zero_div]
  rw [h5] at h1 h2
  refine ⟨h2.symm, ?_⟩
  rw [h1]; ring

/-! ## Adiabatic connection -/

private theorem noninteracting (eps : p → ℝ) (h : ∀ x, 0 < eps x) : Sol (diagonal eps) (diagonal eps) (1 : Matrix p p ℝ) 1 eps := by
  refine ⟨h, ?_, ?_, ?_, ?_⟩ <;> simp

private theorem _root_.Vayesta.Lemmas.Rpa.Sol.P_pos {eps : p → ℝ} {Q : Matrix p p ℝ} {T S : Matrix p n ℝ} {w : n → ℝ} (h : Sol (diagonal eps) Q T S w) (x : p) : 0 < eps x := by
  have := h.P_posDef
  rw [posDef_diagonal_iff] at this
  exact this x

private theorem half_add' (x y : Matrix p n ℝ) : (1 / 2 : ℝ) • (x + y) + (1 / 2 : ℝ) • (x - y) = x := by module
private theorem half_sub' (x y : Matrix p n ℝ) : (1 / 2 : ℝ) • (x + y) - (1 / 2 : ℝ) • (x - y) = y := by module

/-- Zeroth moments along affine paths of `A - B` and `A + B`: the sum of the frequencies has a supergradient. -/
private theorem path_super (P Q : ℝ → Matrix p p ℝ) (P' Q' : Matrix p p ℝ) (hP : ∀ x y, P y = P x + (y - x) • P') (hQ : ∀ x y, Q y = Q x + (y - x) • Q')
    (T S : ℝ → Matrix p p ℝ) (w : ℝ → p → ℝ) (h : ∀ x ∈ Set.Icc (0 : ℝ) 1, Sol (P x) (Q x) (T x) (S x) (w x)) :
    IsSupergradient (fun x => ∑ k, w x k) fun x => ((Q' * mom (T x) (w x) 0).trace + (P' * (S x * (S x)ᵀ)).trace) / 2 := by
  intro x hx y hy
  have h1 := (h y hy).sum_le (T x) (S x) (h x hx).comp
  have h2 := (h x hx).sum_eq_Q
  have h3 := (h x hx).sum_eq_P
  rw [hP x y, hQ x y] at h1
  rw [Matrix.add_mul, Matrix.add_mul, trace_add, trace_add, Matrix.smul_mul, Matrix.smul_mul, trace_smul, trace_smul, smul_eq_mul, smul_eq_mul, ← mom_zero (T x) (w x),
    h2, h3] at h1
  dsimp only
  linarith

private theorem path_integral (P Q : ℝ → Matrix p p ℝ) (P' Q' : Matrix p p ℝ) (hP : ∀ x y, P y = P x + (y - x) • P') (hQ : ∀ x y, Q y = Q x + (y - x) • Q')
    (T S : ℝ → Matrix p p ℝ) (w : ℝ → p → ℝ) (h : ∀ x ∈ Set.Icc (0 : ℝ) 1, Sol (P x) (Q x) (T x) (S x) (w x)) :
    ∫ x in (0 : ℝ)..1, ((Q' * mom (T x) (w x) 0).trace + (P' * (S x * (S x)ᵀ)).trace) / 2 = ∑ k, w 1 k - ∑ k, w 0 k :=
  (path_super P Q P' Q' hP hQ T S w h).integral

/-- **C74**: "without an xc-kernel the plasmon formula energy is exact": it is the integral of the interaction energy along the adiabatic
connection. -/
theorem rpa_adiabatic_connection (eigh : Matrix (a ⊕ b) (a ⊕ b) ℝ → Eig (a ⊕ b) ℝ) (he : DiagonalisesSymmetric eigh) (eps : a ⊕ b → ℝ)
    (fullv : Matrix (a ⊕ b) (a ⊕ b) ℝ) (hv : fullvᵀ = fullv) (r : ℝ → Amps (a ⊕ b) × ℝ)
    (h : ∀ alpha ∈ Set.Icc (0 : ℝ) 1, kernel eigh eps 1 fullv alpha = .ok (r alpha)) :
    (r 1).2 = 1 / 2 * ∫ alpha in (0 : ℝ)..1, ((genMom (r alpha).1 0 - 1) * fullv).trace := by
  have hs : ∀ x ∈ Set.Icc (0 : ℝ) 1, Sol (diagonal eps) (diagonal eps + (2 * x) • fullv) (r x).1.xpy (r x).1.xmy (r x).1.freqs := fun x hx =>
    (rpa_kernel_sol eigh he eps fullv hv x (r x) (h x hx)).1
  have hI := path_super (fun _ => diagonal eps) (fun x => diagonal eps + (2 * x) • fullv) 0 ((2 : ℝ) • fullv) (fun x y => by simp)
    (fun x y => by module) _ _ _ hs
  have hg : ∀ x, (((2 : ℝ) • fullv * mom (r x).1.xpy (r x).1.freqs 0).trace + ((0 : Matrix (a ⊕ b) (a ⊕ b) ℝ) * ((r x).1.xmy * (r x).1.xmyᵀ)).trace) / 2
      = ((genMom (r x).1 0 - 1) * fullv).trace + fullv.trace := by
    intro x
    rw [genMom_eq, Matrix.zero_mul, trace_zero, add_zero, Matrix.smul_mul, trace_smul, smul_eq_mul, Matrix.sub_mul, trace_sub, Matrix.one_mul,
      trace_mul_comm fullv]; ring
  simp only [hg] at hI
  have h1 := hI.integral
  have hint : IntervalIntegrable (fun x => ((genMom (r x).1 0 - 1) * fullv).trace) MeasureTheory.volume 0 1 := by
    have := (hI.integrable le_rfl zero_le_one le_rfl).sub (intervalIntegrable_const (c := fullv.trace))
    refine this.congr fun x _ => ?_
    exact add_sub_cancel_right _ _
  rw [intervalIntegral.integral_add hint intervalIntegrable_const, intervalIntegral.integral_const, smul_eq_mul, sub_zero, one_mul] at h1
  have h0 := hs 0 ⟨le_rfl, zero_le_one⟩
  simp only [mul_zero, zero_smul, add_zero] at h0
  have h2 := h0.sum_eq_Q
  rw [h0.mom_eq (noninteracting eps h0.P_pos) 0, (noninteracting eps h0.P_pos).sum_eq_Q] at h2
  rw [(rpa_kernel_sol eigh he eps fullv hv 1 (r 1) (h 1 ⟨zero_le_one, le_rfl⟩)).2]
  unfold plasmonEnergy
  linarith

/-- Exact integration over the unit interval. -/
noncomputable def exactIntegral (f : ℝ → ℝ) : ℝ := ∫ x in (0 : ℝ)..1, f x

/-- The arrays which enter the energies with a kernel. -/
noncomputable def energyInput (eps : a ⊕ b → ℝ) (fullv apbXc ambXc : Matrix (a ⊕ b) (a ⊕ b) ℝ) (s : Amps (a ⊕ b)) : EnergyInput (a ⊕ b) :=
  ⟨genApBXc fullv apbXc 1 eps, genAmBXc ambXc 1 eps, fullv, apbXc, ambXc, genMom s 0⟩

private theorem axc_add (x : EnergyInput q) : x.aXc + x.bXc = x.apbXc := half_add' _ _
private theorem axc_sub (x : EnergyInput q) : x.aXc - x.bXc = x.ambXc := half_sub' _ _

/-- **C74**: with a kernel, the two expressions of the energy as an adiabatic connection (versions 0 and 4) agree if the integrals are exact. -/
theorem rpa_xc_connection (eigh : Matrix (a ⊕ b) (a ⊕ b) ℝ → Eig (a ⊕ b) ℝ) (he : DiagonalisesSymmetric eigh)
    (sqrtm : Matrix (a ⊕ b) (a ⊕ b) ℝ → Matrix (a ⊕ b) (a ⊕ b) ℝ) (hq : TakesRoots sqrtm) (eps : a ⊕ b → ℝ) (fullv apbXc ambXc : Matrix (a ⊕ b) (a ⊕ b) ℝ)
    (hv : fullvᵀ = fullv) (hp : apbXcᵀ = apbXc) (hm : ambXcᵀ = ambXc) (s : ℝ → Amps (a ⊕ b))
    (h : ∀ alpha ∈ Set.Icc (0 : ℝ) 1, solveXc eigh sqrtm (genAmBXc ambXc alpha eps) (genApBXc fullv apbXc alpha eps) = .ok (s alpha)) :
    let x := energyInput eps fullv apbXc ambXc (s 1)
    ∃ e, calcEnergyCorrection (some x) exactIntegral (fun alpha => genMom (s alpha) 0) 0 = .ok e
      ∧ calcEnergyCorrection (some x) exactIntegral (fun alpha => genMom (s alpha) 0) 4 = .ok e := by
  intro x
  refine ⟨_, rfl, ?_⟩
  show Except.ok _ = Except.ok _
  congr 1
  have hs : ∀ y ∈ Set.Icc (0 : ℝ) 1, Sol (genAmBXc ambXc y eps) (genApBXc fullv apbXc y eps) (s y).xpy (s y).xmy (s y).freqs := fun y hy =>
    rpa_xc_sol eigh he sqrtm hq _ _ (by unfold genAmBXc; rw [transpose_add, transpose_smul, hm, diagonal_transpose])
      (by unfold genApBXc; rw [transpose_add, transpose_add, transpose_smul, transpose_smul, hp, hv, diagonal_transpose]) _ (h y hy)
  have hI := path_super (fun y => genAmBXc ambXc y eps) (fun y => genApBXc fullv apbXc y eps) ambXc ((2 : ℝ) • fullv + apbXc)
    (fun y z => by unfold genAmBXc; module) (fun y z => by unfold genApBXc; module) _ _ _ hs
  have hc : ContinuousOn (fun y => genMom (s y) 0) (Set.Icc 0 1) := by
    have := mom_continuous (P := fun y => genAmBXc ambXc y eps) (Q := fun y => genApBXc fullv apbXc y eps)
      (by unfold genAmBXc; fun_prop) (by unfold genApBXc; fun_prop) hs
    refine this.congr fun y _ => genMom_eq (s y) 0
  have h4i : IntervalIntegrable (fun y => x.val4 (genMom (s y) 0)) MeasureTheory.volume 0 1 := by
    apply ContinuousOn.intervalIntegrable
    rw [Set.uIcc_of_le zero_le_one]
    have hc2 : ContinuousOn (fun y => (genMom (s y) 0 - 1) * x.fullv) (Set.Icc 0 1) := (hc.sub continuousOn_const).mul continuousOn_const
    rw [continuousOn_iff_continuous_domRestrict] at hc2 ⊢
    exact hc2.matrix_trace
  have hinv : ∀ y ∈ Set.Icc (0 : ℝ) 1, (genMom (s y) 0)⁻¹ = (s y).xmy * (s y).xmyᵀ := fun y hy => by
    rw [genMom_eq]; exact inv_eq_right_inv (hs y hy).mom_inv
  have hg : ∀ y ∈ Set.Icc (0 : ℝ) 1, ((((2 : ℝ) • fullv + apbXc) * mom (s y).xpy (s y).freqs 0).trace + (ambXc * ((s y).xmy * (s y).xmyᵀ)).trace) / 2
      = x.val4 (genMom (s y) 0) + fullv.trace + 2 * x.val0 (genMom (s y) 0) := by
    intro y hy
    unfold EnergyInput.val4 EnergyInput.val0
    rw [axc_add, axc_sub, hinv y hy, genMom_eq]
    show _ = ((mom (s y).xpy (s y).freqs 0 - 1) * fullv).trace + fullv.trace + 2 * (((apbXc * mom (s y).xpy (s y).freqs 0).trace + (ambXc * ((s y).xmy * (s y).xmyᵀ)).trace) / 4)
    rw [Matrix.add_mul, trace_add, Matrix.smul_mul, trace_smul, smul_eq_mul, Matrix.sub_mul, trace_sub, Matrix.one_mul, trace_mul_comm fullv]; ring
  have h1 := hI.integral
  have hgi := hI.integrable le_rfl zero_le_one le_rfl
  have hmem : ∀ y ∈ Set.uIcc (0 : ℝ) 1, y ∈ Set.Icc (0 : ℝ) 1 := fun y hy => by rwa [Set.uIcc_of_le zero_le_one] at hy
  have e1 : ∫ y in (0 : ℝ)..1, ((((2 : ℝ) • fullv + apbXc) * mom (s y).xpy (s y).freqs 0).trace + (ambXc * ((s y).xmy * (s y).xmyᵀ)).trace) / 2
      = ∫ y in (0 : ℝ)..1, (x.val4 (genMom (s y) 0) + fullv.trace + 2 * x.val0 (genMom (s y) 0)) :=
    intervalIntegral.integral_congr fun y hy => hg y (hmem y hy)
  have h0i : IntervalIntegrable (fun y => 2 * x.val0 (genMom (s y) 0)) MeasureTheory.volume 0 1 := by
    have := (hgi.sub (h4i.add (intervalIntegrable_const (c := fullv.trace))))
    refine this.congr_uIoo ?_
    intro y hy
    rw [Set.uIoo_of_le zero_le_one] at hy
    have := hg y ⟨hy.1.le, hy.2.le⟩
    simp only [Pi.sub_apply, Pi.add_apply]
    rw [this]; ring
  rw [e1, intervalIntegral.integral_add (h4i.add intervalIntegrable_const) h0i, intervalIntegral.integral_add h4i intervalIntegrable_const,
    intervalIntegral.integral_const, smul_eq_mul, sub_zero, one_mul, intervalIntegral.integral_const_mul] at h1
  have h0 := hs 0 ⟨le_rfl, zero_le_one⟩
  have z1 : genAmBXc ambXc 0 eps = diagonal eps := by unfold genAmBXc; rw [zero_smul, add_zero]
  have z2 : genApBXc fullv apbXc 0 eps = diagonal eps := by unfold genApBXc; rw [mul_zero, zero_smul, zero_smul, add_zero, zero_add]
  rw [z1, z2] at h0
  have h2 := h0.sum_eq_Q
  rw [h0.mom_eq (noninteracting eps h0.P_pos) 0, (noninteracting eps h0.P_pos).sum_eq_Q] at h2
  have h3 := (hs 1 ⟨zero_le_one, le_rfl⟩).sum_eq_Q
  have h5 : x.plasmon = (∑ k, (s 1).freqs k - ∑ k, eps k - fullv.trace) / 2 := by
    unfold EnergyInput.plasmon
    rw [trace_sub]
    have e2 : (1 / 2 : ℝ) • (x.apb + x.amb) - x.aXc = diagonal eps + fullv := by
      show (1 / 2 : ℝ) • (genApBXc fullv apbXc 1 eps + genAmBXc ambXc 1 eps) - (1 / 2 : ℝ) • (apbXc + ambXc) = _
      unfold genApBXc genAmBXc; module
    have e3 : (x.mom0 * x.apb).trace = ∑ k, (s 1).freqs k := by
      rw [← h3, trace_mul_comm]
      show (genApBXc fullv apbXc 1 eps * genMom (s 1) 0).trace = _
      rw [genMom_eq]
    rw [e2, e3, trace_add, trace_diagonal]; ring
  rw [h5]
  unfold exactIntegral
  linarith

/-! ## Approximate energies -/

/-- The trapezoidal rule, with two points. -/
noncomputable def trapezoid (f : ℝ → ℝ) : ℝ := (f 0 + f 1) / 2

/-- **C74**: versions 2, 3, 5 ("linear approximation of all quantities in the adiabatic connection") are versions 0, 1, 4 with the trapezoidal
rule, and all other versions, and energies without kernel, are refused. -/
theorem rpa_linear_versions (x : EnergyInput q) (eta : ℝ → Matrix q q ℝ) (h0 : eta 0 = 1) (h1 : eta 1 = x.mom0) (integrate : (ℝ → ℝ) → ℝ) :
    calcEnergyCorrection (some x) integrate eta 2 = calcEnergyCorrection (some x) trapezoid eta 0
    ∧ calcEnergyCorrection (some x) integrate eta 3 = calcEnergyCorrection (some x) trapezoid eta 1
    ∧ calcEnergyCorrection (some x) integrate eta 5 = calcEnergyCorrection (some x) trapezoid eta 4 := by
  refine ⟨?_, ?_, ?_⟩
  · show Except.ok _ = Except.ok _
    congr 1
    unfold trapezoid EnergyInput.plasmon EnergyInput.val0
    dsimp only
    rw [h0, h1, inv_one]
    simp only [Matrix.mul_add, Matrix.mul_one, trace_add]
    ring
  · show Except.ok _ = Except.ok _
    congr 1
    unfold trapezoid EnergyInput.plasmon EnergyInput.val1
    dsimp only
    rw [h0, h1]
    simp only [Matrix.mul_sub, Matrix.mul_one, trace_sub, trace_smul, Matrix.mul_smul, smul_eq_mul, sub_self, Matrix.mul_zero, trace_zero]
    rw [trace_mul_comm x.mom0 x.bXc]
    ring
  · show Except.ok _ = Except.ok _
    congr 1
    unfold trapezoid EnergyInput.val4
    dsimp only
    rw [h0, h1, sub_self, Matrix.zero_mul, trace_zero]
    ring

/-- The moment without interaction is one, so the hypotheses of `rpa_linear_versions` hold for the moments of the code. -/
theorem rpa_moment_noninteracting (eigh : Matrix (a ⊕ b) (a ⊕ b) ℝ → Eig (a ⊕ b) ℝ) (he : DiagonalisesSymmetric eigh)
    (sqrtm : Matrix (a ⊕ b) (a ⊕ b) ℝ → Matrix (a ⊕ b) (a ⊕ b) ℝ) (hq : TakesRoots sqrtm) (eps : a ⊕ b → ℝ) (fullv apbXc ambXc : Matrix (a ⊕ b) (a ⊕ b) ℝ)
    (s : Amps (a ⊕ b)) (h : solveXc eigh sqrtm (genAmBXc ambXc 0 eps) (genApBXc fullv apbXc 0 eps) = .ok s) : genMom s 0 = 1 := by
  have z1 : genAmBXc ambXc 0 eps = diagonal eps := by unfold genAmBXc; rw [zero_smul, add_zero]
  have z2 : genApBXc fullv apbXc 0 eps = diagonal eps := by unfold genApBXc; rw [mul_zero, zero_smul, zero_smul, add_zero, zero_add]
  rw [z1, z2] at h
  have hs := rpa_xc_sol eigh he sqrtm hq _ _ (diagonal_transpose _) (diagonal_transpose _) s h
  rw [genMom_eq, hs.mom_eq (noninteracting eps hs.P_pos) 0, mom_zero, transpose_one, Matrix.mul_one]

/-- Refused: no kernel, or an unknown version. -/
theorem rpa_energy_refused (x : Option (EnergyInput q)) (integrate : (ℝ → ℝ) → ℝ) (eta : ℝ → Matrix q q ℝ) (version : Int) :
    calcEnergyCorrection x integrate eta version = .error .valueError ↔ x = none ∨ version < 0 ∨ 5 < version := by
  cases x with
  | none => simp [calcEnergyCorrection]
  | some x =>
    simp only [calcEnergyCorrection, reduceCtorEq, false_or]
    constructor
    · intro h
      by_contra hc
      push Not at hc
      obtain ⟨h1, h2⟩ := hc
      interval_cases version <;> simp at h
    · intro h
      rw [if_neg (by omega), if_neg (by omega), if_neg (by omega), if_neg (by omega), if_neg (by omega), if_neg (by omega)]

end Vayesta.Props
