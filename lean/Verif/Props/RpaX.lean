import Verif.Props.RpaEnergy

/-! C75: the random-phase approximation with exchange (`RPA`), against its spin-adapted form. -/

namespace Vayesta.Props
set_option linter.unusedSectionVars false
open Rpa Lowdin Matrix Lemmas Lemmas.Rpa

variable {p q n m : Type} [Fintype p] [DecidableEq p] [Fintype q] [DecidableEq q] [Fintype n] [DecidableEq n]
  [Fintype m] [DecidableEq m]

/-! ## Combination of spin -/

/-- The combination of alpha and beta blocks has the form of a sum over symmetric and antisymmetric combinations. -/
private theorem sol_combine {P1 Q1 P2 Q2 : Matrix p p ℝ} {T1 S1 : Matrix p n ℝ} {T2 S2 : Matrix p m ℝ} {w1 : n → ℝ} {w2 : m → ℝ}
    (h1 : Sol P1 Q1 T1 S1 w1) (h2 : Sol P2 Q2 T2 S2 w2) {kp kp' kq kq' : Matrix p p ℝ} (e1 : kp + kp' = P1) (e2 : kp - kp' = P2)
    (e3 : kq + kq' = Q1) (e4 : kq - kq' = Q2) :
    ∃ T S : Matrix (p ⊕ p) (n ⊕ m) ℝ, Sol (combine kp kp') (combine kq kq') T S (Sum.elim w1 w2) := by
  obtain ⟨c, hc⟩ : ∃ c : ℝ, c * c = 1 / 2 := ⟨Real.sqrt (1 / 2), Real.mul_self_sqrt (by norm_num)⟩
  have hcc : ∀ x : Matrix p p ℝ, c • c • x = (1 / 2 : ℝ) • x := fun x => by rw [smul_smul, hc]
  refine ⟨fromBlocks (c • T1) (c • T2) (c • T1) (-(c • T2)), fromBlocks (c • S1) (c • S2) (c • S1) (-(c • S2)), ?_, ?_, ?_, ?_, ?_⟩
  · rintro (k | k)
    · exact h1.pos k
    · exact h2.pos k
  · rw [fromBlocks_transpose, fromBlocks_multiply, ← fromBlocks_one]
    simp only [transpose_smul, transpose_neg, smul_neg, neg_neg, Matrix.smul_mul, Matrix.mul_smul, Matrix.neg_mul, Matrix.mul_neg, h1.bi, h2.bi, smul_smul, hc]
    congr 1 <;> first | module | exact add_neg_cancel _
  · rw [fromBlocks_transpose, fromBlocks_multiply, ← fromBlocks_one]
    simp only [transpose_smul, transpose_neg, smul_neg, neg_neg, Matrix.smul_mul, Matrix.mul_smul, Matrix.neg_mul, Matrix.mul_neg, h1.comp, h2.comp, smul_smul, hc]
    congr 1 <;> module
  · rw [fromBlocks_transpose, ← fromBlocks_diagonal, fromBlocks_multiply, fromBlocks_multiply]
    unfold combine
    simp only [transpose_smul, transpose_neg, smul_neg, neg_neg, Matrix.smul_mul, Matrix.mul_smul, Matrix.neg_mul, Matrix.mul_neg, Matrix.mul_zero, add_zero, zero_add,
      ← h1.P_eq, ← h2.P_eq, smul_smul, hc, ← e1, ← e2]
    congr 1 <;> module
  · rw [fromBlocks_transpose, ← fromBlocks_diagonal, fromBlocks_multiply, fromBlocks_multiply]
    unfold combine
    simp only [transpose_smul, transpose_neg, smul_neg, neg_neg, Matrix.smul_mul, Matrix.mul_smul, Matrix.neg_mul, Matrix.mul_neg, Matrix.mul_zero, add_zero, zero_add,
      ← h1.Q_eq, ← h2.Q_eq, smul_smul, hc, ← e3, ← e4]
    congr 1 <;> module

private theorem combine_diag (k1 k2 : Matrix p p ℝ) (eps : p → ℝ) : combine k1 k2 + diagonal (Rpa.concat eps eps) = combine (k1 + diagonal eps) k2 := by
  unfold combine Rpa.concat
  rw [← fromBlocks_diagonal, fromBlocks_add, add_zero]

private theorem combine_trace (k1 k2 : Matrix p p ℝ) : (combine k1 k2).trace = 2 * k1.trace := by
  unfold combine
  rw [trace, Fintype.sum_sum_type]
  show k1.trace + k1.trace = _
  ring

private theorem combine_symm {k1 k2 : Matrix p p ℝ} (h1 : k1ᵀ = k1) (h2 : k2ᵀ = k2) : (combine k1 k2)ᵀ = combine k1 k2 := by
  unfold combine
  rw [fromBlocks_transpose, h1, h2]

/-- The energy from one of both problems. -/
private theorem full_combined (eigh : Matrix (p ⊕ p) (p ⊕ p) ℝ → Eig (p ⊕ p) ℝ) (he : DiagonalisesSymmetric eigh)
    (sqrtm : Matrix (p ⊕ p) (p ⊕ p) ℝ → Matrix (p ⊕ p) (p ⊕ p) ℝ) (hq : TakesRoots sqrtm) {P1 Q1 P2 Q2 : Matrix p p ℝ} {T1 S1 : Matrix p n ℝ}
    {T2 S2 : Matrix p m ℝ} {w1 : n → ℝ} {w2 : m → ℝ} (h1 : Sol P1 Q1 T1 S1 w1) (h2 : Sol P2 Q2 T2 S2 w2) {kp kp' kq kq' : Matrix p p ℝ}
    (e1 : kp + kp' = P1) (e2 : kp - kp' = P2) (e3 : kq + kq' = Q1) (e4 : kq - kq' = Q2) (hs : kqᵀ = kq) (hs' : kq'ᵀ = kq') (r : Amps (p ⊕ p) × ℝ)
    (h : solveFull eigh sqrtm (combine kq kq') (combine kp kp') = .ok r) :
    r.2 = (∑ k, w1 k + ∑ k, w2 k - (kp.trace + kq.trace)) / 2 ∧ ∑ k, r.1.freqs k = ∑ k, w1 k + ∑ k, w2 k := by
  obtain ⟨T, S, hc⟩ := sol_combine h1 h2 e1 e2 e3 e4
  obtain ⟨h3, h4⟩ := rpa_full_sol eigh he sqrtm hq _ _ hc.P_posDef (combine_symm hs hs') r h
  have h5 : ∑ k, r.1.freqs k = ∑ k, w1 k + ∑ k, w2 k := by
    have := h3.sum_eq_Q
    rw [h3.mom_eq hc 0, hc.sum_eq_Q] at this
    rw [← this, Fintype.sum_sum_type]
    rfl
  refine ⟨?_, h5⟩
  rw [h4, h5, trace_add, combine_trace, combine_trace]; ring

/-! ## Energies -/

/-- The singlet problem: `A = ε + 2 (ia|jb) - (ij|ab)`, `B = 2 (ia|jb) - (ib|ja)`. -/
def singletA (eps : p → ℝ) (w ka : Matrix p p ℝ) : Matrix p p ℝ := diagonal eps + (2 : ℝ) • w - ka

/-- See `singletA`. -/
def singletB (w kb : Matrix p p ℝ) : Matrix p p ℝ := (2 : ℝ) • w - kb

/-- The triplet problem: `A = ε - (ij|ab)`, `B = - (ib|ja)`. -/
def tripletA (eps : p → ℝ) (ka : Matrix p p ℝ) : Matrix p p ℝ := diagonal eps - ka

private theorem rpaKernel_ok {eigh : Matrix (p ⊕ p) (p ⊕ p) ℝ → Eig (p ⊕ p) ℝ} {sqrtm : Matrix (p ⊕ p) (p ⊕ p) ℝ → Matrix (p ⊕ p) (p ⊕ p) ℝ} {arg : KernelArg}
    {eps : p → ℝ} {w ka kb : Matrix p p ℝ} {r : (Amps (p ⊕ p) × ℝ) × (Amps (p ⊕ p) × ℝ)} (h : rpaKernel eigh sqrtm arg eps w ka kb = .ok r)
    {i : Interaction} (hi : chooseInteraction arg = .ok i) :
    ∃ ss sf, solveFull eigh sqrtm (buildArrays i eps w ka kb).1.1 (buildArrays i eps w ka kb).1.2 = .ok ss
      ∧ solveFull eigh sqrtm (buildArrays i eps w ka kb).2.1 (buildArrays i eps w ka kb).2.2 = .ok sf
      ∧ r = ((ss.1, ss.2 * (if arg = .str "rpax" then 1 / 2 else 1)), (sf.1, sf.2 * (if arg = .str "rpax" then 1 / 2 else 1))) := by
  unfold rpaKernel at h
  rw [hi] at h
  simp only [bind, Except.bind] at h
  cases h1 : solveFull eigh sqrtm (buildArrays i eps w ka kb).1.1 (buildArrays i eps w ka kb).1.2 with
  | error e => rw [h1] at h; cases h
  | ok ss =>
    rw [h1] at h
    dsimp only at h
    cases h2 : solveFull eigh sqrtm (buildArrays i eps w ka kb).2.1 (buildArrays i eps w ka kb).2.2 with
    | error e => rw [h2] at h; cases h
    | ok sf =>
      rw [h2] at h
      cases h
      exact ⟨ss, sf, rfl, rfl, rfl⟩

theorem rpax_lower : chooseInteraction (.str "rpax") = .ok .exchange := by decide +kernel
theorem rpax_upper : chooseInteraction (.str "RPAX") = .ok .exchange := by decide +kernel
theorem drpa_lower : chooseInteraction (.str "drpa") = .ok .coulomb := by decide +kernel

private theorem exchange_energies (eigh : Matrix (p ⊕ p) (p ⊕ p) ℝ → Eig (p ⊕ p) ℝ) (he : DiagonalisesSymmetric eigh)
    (sqrtm : Matrix (p ⊕ p) (p ⊕ p) ℝ → Matrix (p ⊕ p) (p ⊕ p) ℝ) (hq : TakesRoots sqrtm) (eps : p → ℝ) (w ka kb : Matrix p p ℝ)
    (hw : wᵀ = w) (ha : kaᵀ = ka) (hb : kbᵀ = kb) (ss sf : Amps (p ⊕ p) × ℝ)
    (h1 : solveFull eigh sqrtm (buildArrays .exchange eps w ka kb).1.1 (buildArrays .exchange eps w ka kb).1.2 = .ok ss)
    (h2 : solveFull eigh sqrtm (buildArrays .exchange eps w ka kb).2.1 (buildArrays .exchange eps w ka kb).2.2 = .ok sf)
    {XS YS : Matrix p n ℝ} {wS : n → ℝ} (hS : SolvesRpa (singletA eps w ka) (singletB w kb) XS YS wS)
    {XT YT : Matrix p m ℝ} {wT : m → ℝ} (hT : SolvesRpa (tripletA eps ka) (-kb) XT YT wT) :
    ss.2 = plasmonFormula (singletA eps w ka) wS + plasmonFormula (tripletA eps ka) wT ∧ sf.2 = 2 * plasmonFormula (tripletA eps ka) wT := by
  have s1 := hS.sol
  have s2 := hT.sol
  unfold buildArrays at h1 h2
  dsimp only at h1 h2
  rw [combine_diag, combine_diag] at h1 h2
  obtain ⟨r1, -⟩ := full_combined eigh he sqrtm hq s1 s2 (kp := kb - ka + diagonal eps) (kp' := 0) (kq := (2 : ℝ) • w - ka - kb + diagonal eps) (kq' := (2 : ℝ) • w)
    (by unfold singletA singletB; abel) (by unfold tripletA; abel)
    (by unfold singletA singletB; module) (by unfold tripletA; abel) (by simp only [transpose_add, transpose_sub, transpose_smul, diagonal_transpose, hw, ha, hb])
    (by rw [transpose_smul, hw]) ss h1
  obtain ⟨r2, -⟩ := full_combined eigh he sqrtm hq s2 s2.swap (kp := -ka + diagonal eps) (kp' := kb) (kq := -ka + diagonal eps) (kq' := -kb)
    (by unfold tripletA; abel) (by unfold tripletA; abel)
    (by unfold tripletA; abel) (by unfold tripletA; abel) (by simp only [transpose_add, transpose_neg, diagonal_transpose, ha])
    (by rw [transpose_neg, hb]) sf h2
  rw [r1, r2]
  unfold plasmonFormula singletA tripletA
  simp only [trace_add, trace_sub, trace_smul, trace_neg, smul_eq_mul]
  constructor <;> ring

/-- **C75**: the energy with exchange is a quarter of the change of excitation energies of singlets and three triplets, computed in the
spin-adapted basis. -/
theorem rpax_energy_partial (eigh : Matrix (p ⊕ p) (p ⊕ p) ℝ → Eig (p ⊕ p) ℝ) (he : DiagonalisesSymmetric eigh)
    (sqrtm : Matrix (p ⊕ p) (p ⊕ p) ℝ → Matrix (p ⊕ p) (p ⊕ p) ℝ) (hq : TakesRoots sqrtm) (eps : p → ℝ) (w ka kb : Matrix p p ℝ)
    (hw : wᵀ = w) (ha : kaᵀ = ka) (hb : kbᵀ = kb) (r : (Amps (p ⊕ p) × ℝ) × (Amps (p ⊕ p) × ℝ)) (h : rpaKernel eigh sqrtm (.str "rpax") eps w ka kb = .ok r)
    {XS YS : Matrix p n ℝ} {wS : n → ℝ} (hS : SolvesRpa (singletA eps w ka) (singletB w kb) XS YS wS)
    {XT YT : Matrix p m ℝ} {wT : m → ℝ} (hT : SolvesRpa (tripletA eps ka) (-kb) XT YT wT) :
    rpaEnergy r = ((∑ k, wS k - (singletA eps w ka).trace) + 3 * (∑ k, wT k - (tripletA eps ka).trace)) / 4
    ∧ rpaEnergy r = (deexcitationEnergy YS wS + 3 * deexcitationEnergy YT wT) / 2 := by
  obtain ⟨ss, sf, h1, h2, rfl⟩ := rpaKernel_ok h rpax_lower
  obtain ⟨e1, e2⟩ := exchange_energies eigh he sqrtm hq eps w ka kb hw ha hb ss sf h1 h2 hS hT
  have e3 : rpaEnergy ((ss.1, ss.2 * (if KernelArg.str "rpax" = .str "rpax" then 1 / 2 else 1)), (sf.1, sf.2 * (if KernelArg.str "rpax" = .str "rpax" then 1 / 2 else 1)))
      = (ss.2 + sf.2) / 2 := by
    unfold rpaEnergy; rw [if_pos rfl]; ring
  rw [e3, e1, e2]
  constructor
  · unfold plasmonFormula; ring
  · rw [← hS.plasmon, ← hT.plasmon]; ring

/-- **C75**: without exchange, it is the energy of direct RPA (`ssRPA`) of the same interaction. -/
theorem rpa_direct_energy (eigh : Matrix (p ⊕ p) (p ⊕ p) ℝ → Eig (p ⊕ p) ℝ) (he : DiagonalisesSymmetric eigh)
    (sqrtm : Matrix (p ⊕ p) (p ⊕ p) ℝ → Matrix (p ⊕ p) (p ⊕ p) ℝ) (hq : TakesRoots sqrtm) (arg : KernelArg) (harg : arg = .none ∨ arg = .str "drpa") (eps : p → ℝ)
    (w ka kb : Matrix p p ℝ) (hw : wᵀ = w) (r : (Amps (p ⊕ p) × ℝ) × (Amps (p ⊕ p) × ℝ)) (h : rpaKernel eigh sqrtm arg eps w ka kb = .ok r)
    (s : Amps (p ⊕ p) × ℝ) (hs : kernel eigh (Rpa.concat eps eps) 1 (fromBlocks w w w w) 1 = .ok s) : rpaEnergy r = s.2 := by
  have hi : chooseInteraction arg = .ok .coulomb := by
    rcases harg with rfl | rfl
    · rfl
    · exact drpa_lower
  have hn : arg ≠ .str "rpax" := by
    rcases harg with rfl | rfl <;> decide
  obtain ⟨ss, sf, h1, h2, rfl⟩ := rpaKernel_ok h hi
  have hv : (fromBlocks w w w w)ᵀ = fromBlocks w w w w := by rw [fromBlocks_transpose, hw]
  obtain ⟨k1, k2⟩ := rpa_kernel_sol eigh he _ _ hv 1 s hs
  have e0 : (combine 0 0 : Matrix (p ⊕ p) (p ⊕ p) ℝ) = 0 := by unfold combine; rw [fromBlocks_zero]
  have eA : (buildArrays .coulomb eps w ka kb).1.2 = diagonal (Rpa.concat eps eps) := by unfold buildArrays; dsimp only; rw [e0, zero_add]
  have eB : (buildArrays .coulomb eps w ka kb).1.1 = diagonal (Rpa.concat eps eps) + (2 * 1 : ℝ) • fromBlocks w w w w := by
    unfold buildArrays combine; dsimp only; rw [fromBlocks_smul, add_comm, mul_one]
  have eC : (buildArrays .coulomb eps w ka kb).2.1 = diagonal (Rpa.concat eps eps) := by unfold buildArrays; dsimp only; rw [e0, zero_add]
  have eD : (buildArrays .coulomb eps w ka kb).2.2 = diagonal (Rpa.concat eps eps) := by unfold buildArrays; dsimp only; rw [e0, zero_add]
  rw [eA, eB] at h1
  rw [eC, eD] at h2
  have hz : Sol (diagonal (Rpa.concat eps eps)) (diagonal (Rpa.concat eps eps)) 1 1 (Rpa.concat eps eps) := by
    have hp := k1.P_posDef
    rw [posDef_diagonal_iff] at hp
    refine ⟨hp, ?_, ?_, ?_, ?_⟩ <;> simp
  obtain ⟨a1, a2⟩ := rpa_full_sol eigh he sqrtm hq _ _ k1.P_posDef (by rw [transpose_add, transpose_smul, hv, diagonal_transpose]) ss h1
  obtain ⟨b1, b2⟩ := rpa_full_sol eigh he sqrtm hq _ _ k1.P_posDef (diagonal_transpose _) sf h2
  have c1 : ∑ k, ss.1.freqs k = ∑ k, s.1.freqs k := by rw [← a1.sum_eq_Q, a1.mom_eq k1 0, k1.sum_eq_Q]
  have c2 : ∑ k, sf.1.freqs k = ∑ k, Rpa.concat eps eps k := by rw [← b1.sum_eq_Q, b1.mom_eq hz 0, hz.sum_eq_Q]
  unfold rpaEnergy
  dsimp only
  rw [if_neg hn, a2, b2, k2, c1, c2]
  unfold plasmonEnergy
  rw [trace_add, trace_add, trace_add, trace_smul, trace_diagonal, smul_eq_mul]; ring

/-! ## Defects -/

/-- **C75** (negation): the argument is compared without its case for the choice of the interaction, but with it for the factor of one half:
`"RPAX"` gives twice the energy of `"rpax"`. -/
theorem rpax_case_broken (eigh : Matrix (p ⊕ p) (p ⊕ p) ℝ → Eig (p ⊕ p) ℝ) (sqrtm : Matrix (p ⊕ p) (p ⊕ p) ℝ → Matrix (p ⊕ p) (p ⊕ p) ℝ) (eps : p → ℝ)
    (w ka kb : Matrix p p ℝ) (r : (Amps (p ⊕ p) × ℝ) × (Amps (p ⊕ p) × ℝ)) (h : rpaKernel eigh sqrtm (.str "rpax") eps w ka kb = .ok r) :
    ∃ r', rpaKernel eigh sqrtm (.str "RPAX") eps w ka kb = .ok r' ∧ rpaEnergy r' = 2 * rpaEnergy r := by
  obtain ⟨ss, sf, h1, h2, rfl⟩ := rpaKernel_ok h rpax_lower
  refine ⟨((ss.1, ss.2 * 1), (sf.1, sf.2 * 1)), ?_, ?_⟩
  · unfold rpaKernel
    rw [rpax_upper]
    simp only [bind, Except.bind, h1, h2]
    rw [if_neg (by decide)]
    rfl
  · unfold rpaEnergy
    rw [if_pos rfl]
    ring

/-- **C75**: which kernels are accepted: none, and two names in any case. The documented tuple of four arrays is refused. -/
theorem rpa_kernel_argument (arg : KernelArg) :
    (∃ i, chooseInteraction arg = .ok i) ↔ arg = .none ∨ ∃ s, arg = .str s ∧ (s.toLower = "drpa" ∨ s.toLower = "rpax") := by
  cases arg with
  | none => simp [chooseInteraction]
  | arrays => simp [chooseInteraction]
  | str s =>
    simp only [chooseInteraction, reduceCtorEq, KernelArg.str.injEq, false_or, exists_eq_left']
    by_cases h1 : s.toLower = "drpa"
    · rw [if_pos h1]; exact ⟨fun _ => .inl h1, fun _ => ⟨_, rfl⟩⟩
    · rw [if_neg h1]
      by_cases h2 : s.toLower = "rpax"
      · rw [if_pos h2]; exact ⟨fun _ => .inr h2, fun _ => ⟨_, rfl⟩⟩
      · rw [if_neg h2]
        refine ⟨fun h => ?_, fun h => ?_⟩
        · obtain ⟨i, hi⟩ := h
          split at hi <;> cases hi
        · rcases h with h | h
          · exact absurd h h1
          · exact absurd h h2

/-! ## Example -/

/-- With stable singlets and triplets there is a result. -/
theorem rpax_succeeds (eigh : Matrix (p ⊕ p) (p ⊕ p) ℝ → Eig (p ⊕ p) ℝ) (he : DiagonalisesSymmetric eigh)
    (sqrtm : Matrix (p ⊕ p) (p ⊕ p) ℝ → Matrix (p ⊕ p) (p ⊕ p) ℝ) (hq : TakesRoots sqrtm) (amb apb : Matrix (p ⊕ p) (p ⊕ p) ℝ) (c : ℝ) (hc : 1 / 10 ^ 6 < c)
    (hm : (amb - c • (1 : Matrix (p ⊕ p) (p ⊕ p) ℝ)).PosSemidef) (hp : (apb - c • (1 : Matrix (p ⊕ p) (p ⊕ p) ℝ)).PosSemidef) : ∃ r, solveFull eigh sqrtm apb amb = .ok r := by
  have c0 : 0 < c := lt_trans (by norm_num) hc
  have hmd : amb.PosDef := by
    have := ((PosDef.one (n := p ⊕ p) (R := ℝ)).smul c0).posSemidef_add hm
    rwa [sub_add_cancel] at this
  obtain ⟨r1, r2⟩ := hq amb hmd
  have rT : (sqrtm amb)ᵀ = sqrtm amb := by have := r1.1.eq; rwa [conjTranspose_eq_transpose_of_trivial] at this
  have pT : apbᵀ = apb := by
    have := hp.1.eq
    rw [conjTranspose_eq_transpose_of_trivial, transpose_sub, transpose_smul, transpose_one] at this
    exact sub_left_injective this
  have hM : (sqrtm amb * apb * sqrtm amb)ᵀ = sqrtm amb * apb * sqrtm amb := by simp only [transpose_mul, rT, pT, Matrix.mul_assoc]
  unfold solveFull
  dsimp only
  rw [if_pos]
  · exact ⟨_, rfl⟩
  intro k
  have hpsd : (sqrtm amb * apb * sqrtm amb - (c * c) • (1 : Matrix (p ⊕ p) (p ⊕ p) ℝ)).PosSemidef := by
    have h1 := hp.mul_mul_conjTranspose_same (sqrtm amb)
    rw [conjTranspose_eq_transpose_of_trivial, rT, Matrix.mul_sub, Matrix.sub_mul, Matrix.mul_smul, Matrix.mul_one, Matrix.smul_mul, r2] at h1
    have h2 := h1.add (hm.smul c0.le)
    rwa [smul_sub, smul_smul, sub_add_sub_cancel] at h2
  have := eigh_bounded (he _ hM) _ hpsd k
  nlinarith

private theorem combine_psd {k1 k2 : Matrix p p ℝ} (h1 : (k1 + k2).PosSemidef) (h2 : (k1 - k2).PosSemidef) : (combine k1 k2).PosSemidef := by
  have a1 := (h1.smul (show (0 : ℝ) ≤ 1 / 2 by norm_num)).mul_mul_conjTranspose_same (fromRows 1 1 : Matrix (p ⊕ p) p ℝ)
  have a2 := (h2.smul (show (0 : ℝ) ≤ 1 / 2 by norm_num)).mul_mul_conjTranspose_same (fromRows 1 (-1) : Matrix (p ⊕ p) p ℝ)
  rw [conjTranspose_eq_transpose_of_trivial, transpose_fromRows, fromRows_mul, fromRows_mul_fromCols] at a1 a2
  have := a1.add a2
  rw [fromBlocks_add] at this
  convert this using 1
  unfold combine
  simp only [transpose_one, transpose_neg, Matrix.one_mul, Matrix.mul_one, Matrix.neg_mul, Matrix.mul_neg]
  congr 1 <;> module

private theorem combine_shift (k1 k2 : Matrix p p ℝ) (c : ℝ) : combine k1 k2 - c • (1 : Matrix (p ⊕ p) (p ⊕ p) ℝ) = combine (k1 - c • 1) k2 := by
  unfold combine
  rw [← fromBlocks_one, fromBlocks_smul, sub_eq_add_neg, fromBlocks_neg, fromBlocks_add]
  simp [sub_eq_add_neg]

/-- **C75**: stable singlets and triplets (with eigenvalues above 10⁻⁶) give a result. -/
theorem rpax_stable (eigh : Matrix (p ⊕ p) (p ⊕ p) ℝ → Eig (p ⊕ p) ℝ) (he : DiagonalisesSymmetric eigh)
    (sqrtm : Matrix (p ⊕ p) (p ⊕ p) ℝ → Matrix (p ⊕ p) (p ⊕ p) ℝ) (hq : TakesRoots sqrtm) (eps : p → ℝ) (w ka kb : Matrix p p ℝ) (c : ℝ) (hc : 1 / 10 ^ 6 < c)
    (h1 : (singletA eps w ka + singletB w kb - c • (1 : Matrix p p ℝ)).PosSemidef) (h2 : (tripletA eps ka - kb - c • (1 : Matrix p p ℝ)).PosSemidef)
    (h3 : (tripletA eps ka + kb - c • (1 : Matrix p p ℝ)).PosSemidef) : ∃ r, rpaKernel eigh sqrtm (.str "rpax") eps w ka kb = .ok r := by
  have q1 : ∀ k1 k2 : Matrix p p ℝ, (k1 + diagonal eps + k2 - c • (1 : Matrix p p ℝ)).PosSemidef → (k1 + diagonal eps - k2 - c • (1 : Matrix p p ℝ)).PosSemidef →
      (combine k1 k2 + diagonal (Rpa.concat eps eps) - c • (1 : Matrix (p ⊕ p) (p ⊕ p) ℝ)).PosSemidef := by
    intro k1 k2 g1 g2
    rw [combine_diag, combine_shift]
    refine combine_psd ?_ ?_
    · convert g1 using 1; abel
    · convert g2 using 1; abel
  obtain ⟨ss, hss⟩ := rpax_succeeds eigh he sqrtm hq (buildArrays .exchange eps w ka kb).1.2 (buildArrays .exchange eps w ka kb).1.1 c hc
    (q1 _ _ (by convert h3 using 1; unfold tripletA; abel) (by convert h3 using 1; unfold tripletA; abel))
    (q1 _ _ (by convert h1 using 1; unfold singletA singletB; module) (by convert h2 using 1; unfold tripletA; abel))
  obtain ⟨sf, hsf⟩ := rpax_succeeds eigh he sqrtm hq (buildArrays .exchange eps w ka kb).2.2 (buildArrays .exchange eps w ka kb).2.1 c hc
    (q1 _ _ (by convert h3 using 1; unfold tripletA; abel) (by convert h2 using 1; unfold tripletA; abel))
    (q1 _ _ (by convert h2 using 1; unfold tripletA; abel) (by convert h3 using 1; unfold tripletA; abel))
  unfold rpaKernel
  rw [rpax_lower]
  simp only [bind, Except.bind, hss, hsf]
  exact ⟨_, rfl⟩

private def one1 (x : ℝ) : Matrix (Fin 1) (Fin 1) ℝ := !![x]

private theorem one1_solves (a b w t : ℝ) (hw : 0 < w) (ht : t ≠ 0) (h1 : a - b = w * (t * t)) (h2 : (a + b) * (t * t) = w) :
    SolvesRpa (one1 a) (one1 b) (one1 ((t + t⁻¹) / 2)) (one1 ((t - t⁻¹) / 2)) fun _ => w := by
  have e : ∀ {x y : Matrix (Fin 1) (Fin 1) ℝ}, x 0 0 = y 0 0 → x = y := fun h => by ext i j; fin_cases i; fin_cases j; exact h
  have hi : t * t⁻¹ = 1 := mul_inv_cancel₀ ht
  refine ⟨fun _ => hw, e ?_, e ?_, e ?_, e ?_, e ?_, e ?_⟩ <;>
    simp only [one1, Matrix.add_apply, Matrix.sub_apply, Matrix.neg_apply, Matrix.mul_apply, Fin.sum_univ_one, diagonal_apply_eq, transpose_apply, of_apply, cons_val', cons_val_fin_one, one_apply_eq]
  · have h3 : a + b = w * (t⁻¹ * t⁻¹) := by field_simp; linarith
    field_simp at h3 ⊢; nlinarith
  · have h3 : a + b = w * (t⁻¹ * t⁻¹) := by field_simp; linarith
    field_simp at h3 ⊢; nlinarith
  · field_simp; ring
  · ring
  · field_simp; ring
  · ring

open scoped MatrixOrder in
/-- One excitation, whose singlet frequency is 64 and triplet frequency 4. -/
example : ∃ r, rpaKernel anyEigh CFC.sqrt (.str "rpax") (fun _ : Fin 1 => (9 : ℝ)) (one1 (255 / 4)) (one1 (1 / 2)) (one1 (15 / 2)) = .ok r ∧ rpaEnergy r = -171 / 8 := by
  have e : ∀ {x y : Matrix (Fin 1) (Fin 1) ℝ}, x 0 0 = y 0 0 → x = y := fun h => by ext i j; fin_cases i; fin_cases j; exact h
  have eA : singletA (fun _ : Fin 1 => (9 : ℝ)) (one1 (255 / 4)) (one1 (1 / 2)) = one1 136 := e (by simp [singletA, one1, Matrix.sub_apply]; norm_num)
  have eB : singletB (one1 (255 / 4)) (one1 (15 / 2)) = one1 120 := e (by simp [singletB, one1, Matrix.sub_apply]; norm_num)
  have eT : tripletA (fun _ : Fin 1 => (9 : ℝ)) (one1 (1 / 2)) = one1 (17 / 2) := e (by simp [tripletA, one1, Matrix.sub_apply]; norm_num)
  have eN : -one1 (15 / 2) = one1 (-15 / 2) := e (by simp [one1]; norm_num)
  have psd : ∀ x : ℝ, 0 ≤ x → (one1 x).PosSemidef := fun x hx => by
    have : one1 x = diagonal fun _ => x := e (by simp [one1])
    rw [this, posSemidef_diagonal_iff]; exact fun _ => hx
  obtain ⟨r, hr⟩ := rpax_stable anyEigh anyEigh_diagonalises CFC.sqrt takesRoots_cfc (fun _ : Fin 1 => (9 : ℝ)) (one1 (255 / 4)) (one1 (1 / 2)) (one1 (15 / 2)) 1 (by norm_num)
    (by rw [eA, eB]; convert psd 255 (by norm_num) using 1; exact e (by simp [one1, Matrix.sub_apply]; norm_num))
    (by rw [eT]; convert psd 0 (by norm_num) using 1; exact e (by simp [one1, Matrix.sub_apply]; norm_num))
    (by rw [eT]; convert psd 15 (by norm_num) using 1; exact e (by simp [one1, Matrix.sub_apply]; norm_num))
  refine ⟨r, hr, ?_⟩
  have hS := one1_solves 136 120 64 (1 / 2) (by norm_num) (by norm_num) (by norm_num) (by norm_num)
  have hT := one1_solves (17 / 2) (-15 / 2) 4 2 (by norm_num) (by norm_num) (by norm_num) (by norm_num)
  rw [← eA, ← eB] at hS
  rw [← eT, ← eN] at hT
  have t1 : ∀ x : ℝ, (one1 x)ᵀ = one1 x := fun x => e rfl
  rw [(rpax_energy_partial anyEigh anyEigh_diagonalises CFC.sqrt takesRoots_cfc _ _ _ _ (t1 _) (t1 _) (t1 _) r hr hS hT).1, eA, eT]
  simp [one1, trace]
  norm_num

/-! ## Energies along the adiabatic connection -/

/-- Both matrices well above zero give a result with kernel. -/
theorem xc_succeeds (eigh : Matrix q q ℝ → Eig q ℝ) (he : DiagonalisesSymmetric eigh) (sqrtm : Matrix q q ℝ → Matrix q q ℝ) (hq : TakesRoots sqrtm)
    (amb apb : Matrix q q ℝ) (c : ℝ) (hc : 1 / 10 ^ 6 < c) (hc1 : c ≤ 1)
    (hm : (amb - c • (1 : Matrix q q ℝ)).PosSemidef) (hp : (apb - c • (1 : Matrix q q ℝ)).PosSemidef) : ∃ s, solveXc eigh sqrtm amb apb = .ok s := by
  have c0 : 0 < c := lt_trans (by norm_num) hc
  have hmd : amb.PosDef := by
    have := ((PosDef.one (n := q) (R := ℝ)).smul c0).posSemidef_add hm
    rwa [sub_add_cancel] at this
  obtain ⟨r1, r2⟩ := hq amb hmd
  have rT : (sqrtm amb)ᵀ = sqrtm amb := by have := r1.1.eq; rwa [conjTranspose_eq_transpose_of_trivial] at this
  have symm : ∀ {x : Matrix q q ℝ}, (x - c • (1 : Matrix q q ℝ)).PosSemidef → xᵀ = x := by
    intro x hx
    have := hx.1.eq
    rw [conjTranspose_eq_transpose_of_trivial, transpose_sub, transpose_smul, transpose_one] at this
    exact sub_left_injective this
  have hM : (sqrtm amb * apb * sqrtm amb)ᵀ = sqrtm amb * apb * sqrtm amb := by simp only [transpose_mul, rT, symm hp, Matrix.mul_assoc]
  unfold solveXc
  dsimp only
  rw [if_pos, if_pos]
  · exact ⟨_, rfl⟩
  · intro k
    have := eigh_bounded (he _ (symm hm)) c hm k
    nlinarith
  intro k
  have hpsd : (sqrtm amb * apb * sqrtm amb - (c * c) • (1 : Matrix q q ℝ)).PosSemidef := by
    have h1 := hp.mul_mul_conjTranspose_same (sqrtm amb)
    rw [conjTranspose_eq_transpose_of_trivial, rT, Matrix.mul_sub, Matrix.sub_mul, Matrix.mul_smul, Matrix.mul_one, Matrix.smul_mul, r2] at h1
    have h2 := h1.add (hm.smul c0.le)
    rwa [smul_sub, smul_smul, sub_add_sub_cancel] at h2
  have := eigh_bounded (he _ hM) _ hpsd k
  nlinarith

/-- Every strength of the interaction gives a result, so the hypotheses of the adiabatic connection are met. -/
example : ∃ r : ℝ → Amps (Fin 2 ⊕ Fin 2) × ℝ, ∀ alpha ∈ Set.Icc (0 : ℝ) 1, kernel anyEigh demoEps 1 demoV alpha = .ok (r alpha) := by
  have : ∀ alpha : ℝ, ∃ r, alpha ∈ Set.Icc (0 : ℝ) 1 → kernel anyEigh demoEps 1 demoV alpha = .ok r := by
    intro alpha
    by_cases h : alpha ∈ Set.Icc (0 : ℝ) 1
    · obtain ⟨r, hr⟩ := rpa_succeeds anyEigh anyEigh_diagonalises demoEps demoEps_gap (1 : Matrix (Fin 2 ⊕ Fin 2) (Fin 2 ⊕ Fin 2) ℝ) demoV demoV_psd alpha h.1
      exact ⟨r, fun _ => hr⟩
    · exact ⟨⟨⟨0, 0, 0⟩, 0⟩, fun h' => absurd h' h⟩
  choose r hr using this
  exact ⟨r, hr⟩

open scoped MatrixOrder in
/-- The same with a kernel, here `A_xc = 1` and `B_xc = 0`. -/
example : ∃ s : ℝ → Amps (Fin 2 ⊕ Fin 2), ∀ alpha ∈ Set.Icc (0 : ℝ) 1,
    solveXc anyEigh CFC.sqrt (genAmBXc 1 alpha demoEps) (genApBXc demoV 1 alpha demoEps) = .ok (s alpha) := by
  have hd : (diagonal demoEps - (1 : ℝ) • (1 : Matrix (Fin 2 ⊕ Fin 2) (Fin 2 ⊕ Fin 2) ℝ)).PosSemidef := by
    have : diagonal demoEps - (1 : ℝ) • (1 : Matrix (Fin 2 ⊕ Fin 2) (Fin 2 ⊕ Fin 2) ℝ) = diagonal fun x => demoEps x - 1 := by
      rw [one_smul, ← diagonal_one, diagonal_sub]
    rw [this, posSemidef_diagonal_iff]
    rintro (x | x) <;> norm_num [demoEps, Rpa.concat]
  have : ∀ alpha : ℝ, ∃ s, alpha ∈ Set.Icc (0 : ℝ) 1 → solveXc anyEigh CFC.sqrt (genAmBXc 1 alpha demoEps) (genApBXc demoV 1 alpha demoEps) = .ok s := by
    intro alpha
    by_cases h : alpha ∈ Set.Icc (0 : ℝ) 1
    · have h1 : (alpha • (1 : Matrix (Fin 2 ⊕ Fin 2) (Fin 2 ⊕ Fin 2) ℝ)).PosSemidef := PosSemidef.one.smul h.1
      have h2 : ((2 * alpha) • demoV).PosSemidef := demoV_psd.smul (mul_nonneg (by norm_num) h.1)
      obtain ⟨s, hs⟩ := xc_succeeds anyEigh anyEigh_diagonalises CFC.sqrt takesRoots_cfc (genAmBXc 1 alpha demoEps) (genApBXc demoV 1 alpha demoEps) 1 (by norm_num) le_rfl
        (by convert hd.add h1 using 1; unfold genAmBXc; abel) (by convert (h2.add hd).add h1 using 1; unfold genApBXc; abel)
      exact ⟨s, fun _ => hs⟩
    · exact ⟨⟨0, 0, 0⟩, fun h' => absurd h' h⟩
  choose s hs using this
  exact ⟨s, hs⟩

/-- A name in other case is accepted, a tuple is not. -/
example : chooseInteraction (.str "DrPa") = .ok .coulomb ∧ chooseInteraction .arrays = .error .attributeError := by decide +kernel

end Vayesta.Props
