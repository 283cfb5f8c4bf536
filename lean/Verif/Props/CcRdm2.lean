import Verif.Lemmas.CcRdm2
import Mathlib.Algebra.BigOperators.Fin
import Mathlib.Data.Fintype.BigOperators
import Mathlib.Tactic.LinearCombination

/-! Density matrices of coupled cluster: consistency of the two-body with the one-body density matrix, spin, symmetries, the two-electron case. -/

namespace Vayesta.Props
open Vayesta.CcRdm2 Vayesta.Diagram

set_option linter.unusedSectionVars false

variable {o v K : Type} [Fintype o] [DecidableEq o] [Fintype v] [Field K] [CharZero K]

/-! ## Specification -/

/-- Exchange of the two excitations of a double leaves amplitudes and multipliers as they are: true for every solution of the restricted equations. -/
structure PairSymmetric (x : Amps o v K) : Prop where
  t2 : ∀ i j a b, x.t2 j i b a = x.t2 i j a b
  l2 : ∀ i j a b, x.l2 j i b a = x.l2 i j a b

/-! ## Sums over occupied orbitals -/

private def occ : o ⊕ v → K
  | .inl _ => 1
  | .inr _ => 0

private theorem occ_sum (p : o ⊕ v) (f : o ⊕ v → K) : ∑ r, occEq p r * f r = occ p * f p := by
  rw [Fintype.sum_sum_type]
  cases p <;> simp [occEq, occ]

private theorem occ_sum' (p : o ⊕ v) (f : o ⊕ v → K) : ∑ r, occEq r p * f r = occ p * f p := by
  rw [Fintype.sum_sum_type]
  cases p <;> simp [occEq, occ]

private theorem occ_card : ∑ r : o ⊕ v, (occEq r r : K) = Fintype.card o := by
  rw [Fintype.sum_sum_type]
  simp [occEq]

private theorem dm1_comm (x : Amps o v K) (mf : Bool) (p q : o ⊕ v) : makeRdm1 x mf p q = makeRdm1 x mf q p := by
  cases p <;> cases q
  · simp only [makeRdm1, rdm1Of, gamma1, eq_comm]; ring
  · rfl
  · rfl
  · simp only [makeRdm1, rdm1Of, gamma1]; ring

private theorem dm1_mf (x : Amps o v K) (p q : o ⊕ v) : makeRdm1 x true p q = makeRdm1 x false p q + 2 * occEq p q := by
  cases p <;> cases q
  · rename_i i j
    by_cases h : i = j <;> simp [makeRdm1, rdm1Of, gamma1, occEq, h]
  · simp [makeRdm1, rdm1Of, gamma1, occEq]
  · simp [makeRdm1, rdm1Of, gamma1, occEq]
  · simp [makeRdm1, rdm1Of, gamma1, occEq]

private theorem dm1_trace (x : Amps o v K) (h : PairSymmetric x) : ∑ r, makeRdm1 x false r r = 0 := by
  obtain ⟨t1, t2, l1, l2⟩ := x
  rw [Fintype.sum_sum_type]
  have := trace_dm1 t1 t2 l1 l2 h.t2 h.l2
  simpa [makeRdm1, rdm1Of, gamma1] using this

private theorem blocks_trace (x : Amps o v K) (h : PairSymmetric x) (p q : o ⊕ v) :
    ∑ r, blocks2 x q p r r = (occ p + occ q - 1) * makeRdm1 x false p q := by
  obtain ⟨t1, t2, l1, l2⟩ := x
  rw [Fintype.sum_sum_type]
  cases p <;> cases q
  · rename_i i j
    have := trace_oo t1 t2 l1 l2 h.t2 h.l2 j i
    simp only [blocks2, rdm2Of, gamma2, makeRdm1, rdm1Of, gamma1, occ, this]
    simp; ring
  · rename_i i a
    have := trace_ov t1 t2 l1 l2 h.t2 h.l2 i a
    simp only [blocks2, rdm2Of, gamma2, makeRdm1, rdm1Of, gamma1, occ, this]
    simp
  · rename_i a i
    have := trace_ov t1 t2 l1 l2 h.t2 h.l2 i a
    simp only [blocks2, rdm2Of, gamma2, makeRdm1, rdm1Of, gamma1, occ, this]
    simp
  · rename_i a b
    have := trace_vv t1 t2 l1 l2 h.t2 h.l2 b a
    simp only [blocks2, rdm2Of, gamma2, makeRdm1, rdm1Of, gamma1, occ, this]
    simp; ring

private theorem blocks_exch (x : Amps o v K) (h : PairSymmetric x) (p q : o ⊕ v) :
    ∑ r, blocks2 x r p q r = (2 - 2 * occ p - 2 * occ q) * makeRdm1 x false p q := by
  obtain ⟨t1, t2, l1, l2⟩ := x
  rw [Fintype.sum_sum_type]
  cases p <;> cases q
  · rename_i i j
    have := exch_oo t1 t2 l1 l2 h.t2 h.l2 i j
    simp only [blocks2, rdm2Of, gamma2, makeRdm1, rdm1Of, gamma1, occ, this]
    simp
  · rename_i i a
    have := exch_ov t1 t2 l1 l2 h.t2 h.l2 i a
    simp only [blocks2, rdm2Of, gamma2, makeRdm1, rdm1Of, gamma1, occ, this]
    simp
  · rename_i a i
    have := exch_ov t1 t2 l1 l2 h.t2 h.l2 i a
    simp only [blocks2, rdm2Of, gamma2, makeRdm1, rdm1Of, gamma1, occ, this]
    simp
  · rename_i a b
    have := exch_vv t1 t2 l1 l2 h.t2 h.l2 a b
    simp only [blocks2, rdm2Of, gamma2, makeRdm1, rdm1Of, gamma1, occ, this]
    simp

/-! ## One-body density matrix -/

/-- The one-body density matrix is symmetric and holds two electrons per occupied orbital, none without the mean field. -/
theorem cc_rdm1_electrons (x : Amps o v K) (h : PairSymmetric x) :
    (∀ mf p q, makeRdm1 x mf p q = makeRdm1 x mf q p) ∧ ∑ p, makeRdm1 x true p p = 2 * Fintype.card o ∧ ∑ p, makeRdm1 x false p p = 0 := by
  refine ⟨dm1_comm x, ?_, dm1_trace x h⟩
  simp only [dm1_mf, Finset.sum_add_distrib, dm1_trace x h, ← Finset.mul_sum, occ_card]
  ring

/-! ## Two-body density matrix -/

private theorem full_trace (x : Amps o v K) (h : PairSymmetric x) (p q : o ⊕ v) :
    ∑ r, makeRdm2 x true p q r r = (2 * Fintype.card o - 1) * makeRdm1 x true p q := by
  have e : ∀ r, makeRdm2 x true p q r r = blocks2 x q p r r + occEq q p * 2 * makeRdm1 x false r r + makeRdm1 x false q p * 2 * occEq r r
      - occEq p r * makeRdm1 x false q r - occEq q r * makeRdm1 x false r p + occEq q p * 4 * occEq r r - occEq q r * (occEq p r * 2) := by
    intro r
    show blocks2 x q p r r + occEq q p * (makeRdm1 x false r r * 2) + occEq r r * (makeRdm1 x false q p * 2) - occEq p r * makeRdm1 x false q r
      - occEq q r * makeRdm1 x false r p + occEq q p * occEq r r * 4 - occEq q r * occEq p r * 2 = _
    ring
  simp only [e, Finset.sum_add_distrib, Finset.sum_sub_distrib, ← Finset.mul_sum, occ_card, dm1_trace x h, blocks_trace x h, occ_sum, dm1_mf x p q]
  rw [dm1_comm x false q p]
  rcases p with i | a <;> rcases q with j | b
  · by_cases hij : i = j
    · subst hij; simp [occ, occEq]; ring
    · simp [occ, occEq, hij, Ne.symm hij]; ring
  all_goals simp [occ, occEq]
  all_goals ring

private theorem blocks_sym (x : Amps o v K) (h : PairSymmetric x) (p q r s : o ⊕ v) :
    blocks2 x q p s r = blocks2 x p q r s ∧ blocks2 x r s p q = blocks2 x p q r s := by
  obtain ⟨t1, t2, l1, l2⟩ := x
  have h1 := sym_doooo t1 t2 l1 l2 h.t2 h.l2
  have h2 := sym_dvvvv t1 t2 l1 l2 h.t2 h.l2
  rcases p with i | a <;> rcases q with j | b <;> rcases r with k | c <;> rcases s with l | d <;> refine ⟨?_, ?_⟩ <;>
    first
    | rfl
    | exact add_comm _ _
    | exact congrArg (· * 2) (add_comm _ _)
    | simp only [blocks2, rdm2Of, gamma2, h1, h2]

private theorem occEq_comm (p q : o ⊕ v) : (occEq p q : K) = occEq q p := by
  rcases p with i | a <;> rcases q with j | b <;> simp [occEq, eq_comm]

/-- **Symmetry.** Exchange of the electrons and complex conjugation leave the two-body density matrix as it is, with and without the one-body part. -/
theorem cc_rdm2_symmetric (x : Amps o v K) (h : PairSymmetric x) (dm1 : Bool) (p q r s : o ⊕ v) :
    makeRdm2 x dm1 q p s r = makeRdm2 x dm1 p q r s ∧ makeRdm2 x dm1 r s p q = makeRdm2 x dm1 p q r s := by
  have hb := blocks_sym x h
  cases dm1 with
  | false => exact ⟨(hb q p s r).1, (hb q p s r).2⟩
  | true =>
    refine ⟨?_, ?_⟩
    · show blocks2 x p q r s + occEq p q * (makeRdm1 x false r s * 2) + occEq r s * (makeRdm1 x false p q * 2) - occEq q r * makeRdm1 x false p s
          - occEq p s * makeRdm1 x false r q + occEq p q * occEq r s * 4 - occEq p s * occEq q r * 2
        = blocks2 x q p s r + occEq q p * (makeRdm1 x false s r * 2) + occEq s r * (makeRdm1 x false q p * 2) - occEq p s * makeRdm1 x false q r
          - occEq q r * makeRdm1 x false s p + occEq q p * occEq s r * 4 - occEq q r * occEq p s * 2
      rw [(hb p q r s).1, occEq_comm q p, occEq_comm s r, dm1_comm x false s r, dm1_comm x false q p, dm1_comm x false q r, dm1_comm x false s p]
      ring
    · show blocks2 x s r q p + occEq s r * (makeRdm1 x false q p * 2) + occEq q p * (makeRdm1 x false s r * 2) - occEq r q * makeRdm1 x false s p
          - occEq s p * makeRdm1 x false q r + occEq s r * occEq q p * 4 - occEq s p * occEq r q * 2
        = blocks2 x q p s r + occEq q p * (makeRdm1 x false s r * 2) + occEq s r * (makeRdm1 x false q p * 2) - occEq p s * makeRdm1 x false q r
          - occEq q r * makeRdm1 x false s p + occEq q p * occEq s r * 4 - occEq q r * occEq p s * 2
      rw [(hb q p s r).2, occEq_comm r q, occEq_comm s p]
      ring

/-- **Partial trace.** Summed over either electron, the two-body density matrix is the one-body density matrix times the number of other electrons. -/
theorem cc_rdm2_partial_trace (x : Amps o v K) (h : PairSymmetric x) (p q : o ⊕ v) :
    ∑ r, makeRdm2 x true p q r r = (2 * Fintype.card o - 1) * makeRdm1 x true p q
      ∧ ∑ r, makeRdm2 x true r r p q = (2 * Fintype.card o - 1) * makeRdm1 x true p q :=
  ⟨full_trace x h p q, (Finset.sum_congr rfl fun r _ => (cc_rdm2_symmetric x h true p q r r).2).trans (full_trace x h p q)⟩

/-- **Number of pairs.** The full trace is the number of ordered pairs of electrons. -/
theorem cc_rdm2_pairs (x : Amps o v K) (h : PairSymmetric x) :
    ∑ p, ∑ r, makeRdm2 x true p p r r = (2 * Fintype.card o) * (2 * Fintype.card o - 1) := by
  simp only [fun p => (cc_rdm2_partial_trace x h p p).1, ← Finset.mul_sum, (cc_rdm1_electrons x h).2.1]
  ring

/-- **Spin.** The exchange trace is that of a singlet, in every entry. -/
theorem cc_rdm2_singlet (x : Amps o v K) (h : PairSymmetric x) (p q : o ⊕ v) :
    ∑ r, makeRdm2 x true p r r q = (2 - Fintype.card o) * makeRdm1 x true p q := by
  have e : ∀ r, makeRdm2 x true p r r q = blocks2 x r p q r + occEq r p * (2 * makeRdm1 x false q r) + occEq q r * (2 * makeRdm1 x false r p)
      - occEq p q * makeRdm1 x false r r - makeRdm1 x false q p * occEq r r + occEq r p * (occEq q r * 4) - occEq p q * 2 * occEq r r := by
    intro r
    show blocks2 x r p q r + occEq r p * (makeRdm1 x false q r * 2) + occEq q r * (makeRdm1 x false r p * 2) - occEq p q * makeRdm1 x false r r
      - occEq r r * makeRdm1 x false q p + occEq r p * occEq q r * 4 - occEq r r * occEq p q * 2 = _
    ring
  simp only [e, Finset.sum_add_distrib, Finset.sum_sub_distrib, ← Finset.mul_sum, occ_card, dm1_trace x h, blocks_exch x h, occ_sum, occ_sum', dm1_mf x p q]
  rw [dm1_comm x false q p]
  rcases p with i | a <;> rcases q with j | b
  · by_cases hij : i = j
    · subst hij; simp [occ, occEq]; ring
    · simp [occ, occEq, hij, Ne.symm hij]; ring
  all_goals simp [occ, occEq]
  all_goals ring

/-! ## Two electrons -/

/-- Wave function of two electrons, `exp(T)` applied to the doubly occupied orbital, as a symmetric array over pairs of orbitals. -/
def pairRight (x : Amps Unit v K) : Unit ⊕ v → Unit ⊕ v → K
  | .inl _, .inl _ => 1
  | .inl _, .inr a => x.t1 () a
  | .inr a, .inl _ => x.t1 () a
  | .inr a, .inr b => x.t2 () () a b + x.t1 () a * x.t1 () b

/-- The left wave function, the adjoint of `(1 + Λ) exp(-T)`. -/
def pairLeft (x : Amps Unit v K) : Unit ⊕ v → Unit ⊕ v → K
  | .inl _, .inl _ => 1 - 2 * ∑ a, x.l1 () a * x.t1 () a - ∑ a, ∑ b, x.l2 () () a b * (x.t2 () () a b - x.t1 () a * x.t1 () b)
  | .inl _, .inr a => x.l1 () a - ∑ b, x.l2 () () a b * x.t1 () b
  | .inr a, .inl _ => x.l1 () a - ∑ b, x.l2 () () a b * x.t1 () b
  | .inr a, .inr b => x.l2 () () a b

private theorem sum_unit (f : Unit → K) : ∑ i, f i = f () := by simp

private theorem forall_unit {P : Unit ⊕ v → Prop} (h : P (.inl ())) (h' : ∀ a, P (.inr a)) : ∀ p, P p
  | .inl _ => h
  | .inr a => h' a

/-- **Two electrons.** With one occupied orbital coupled cluster is exact: whatever the amplitudes and multipliers, both density matrices are those of the left and right wave
functions (symmetrised, as the code does), which are normalised against each other. -/
theorem cc_two_electrons (x : Amps Unit v K) (h : PairSymmetric x) :
    ∑ p, ∑ q, pairLeft x p q * pairRight x p q = 1
      ∧ (∀ p q r s, makeRdm2 x true p q r s = pairLeft x p r * pairRight x q s + pairLeft x q s * pairRight x p r)
      ∧ ∀ p q, makeRdm1 x true p q = ∑ r, (pairLeft x p r * pairRight x q r + pairLeft x q r * pairRight x p r) := by
  obtain ⟨t1, t2, l1, l2⟩ := x
  have ht : ∀ a b, t2 () () b a = t2 () () a b := h.t2 () ()
  have hl : ∀ a b, l2 () () b a = l2 () () a b := h.l2 () ()
  refine ⟨?_, ?_, ?_⟩
  · simp only [Fintype.sum_sum_type, sum_unit, pairLeft, pairRight]
    diagram [ht, hl]
  · refine forall_unit ?_ fun a => ?_ <;> refine forall_unit ?_ fun b => ?_ <;> refine forall_unit ?_ fun c => ?_ <;> refine forall_unit ?_ fun d => ?_ <;>
      simp only [makeRdm2, cond_true, blocks2, rdm2Of, gamma2, occEq, makeRdm1, rdm1Of, gamma1, if_true, Bool.false_eq_true, false_and, if_false, pairLeft, pairRight, doo, dov, dvo, dvv, xtv, xt1, xt2,
        doooo, dooov, doovv, dovvo, dovov, dovvv, dvvvv, gooov, gOvvO, govVO, goovv, tmpoovv, tau', gvvvv, gvovv, goooo, mia, mab, mij, moo, mvv, pvOOv, pvoOV, tau, theta,
        sum_unit]
    all_goals diagram [ht, hl]
  · refine forall_unit ?_ fun a => ?_ <;> refine forall_unit ?_ fun b => ?_ <;>
      simp only [makeRdm1, rdm1Of, gamma1, if_true, true_and, and_true, Fintype.sum_sum_type, pairLeft, pairRight, doo, dov, dvo, dvv, xtv, xt1, xt2, theta, sum_unit]
    all_goals diagram [ht, hl]

/-! ## Dependence on the multipliers -/

/-- Multipliers between those of two sets. -/
def between (c : K) (l l' : o → v → K) : o → v → K := fun i a => c * l i a + (1 - c) * l' i a

def between2 (c : K) (l l' : o → o → v → v → K) : o → o → v → v → K := fun i j a b => c * l i j a b + (1 - c) * l' i j a b

/-- **Expectation values.** Both density matrices are affine in the multipliers. -/
theorem cc_rdm_affine (t1 : o → v → K) (t2 : o → o → v → v → K) (l1 m1 : o → v → K) (l2 m2 : o → o → v → v → K) (c : K) :
    (∀ mf p q, makeRdm1 ⟨t1, t2, between c l1 m1, between2 c l2 m2⟩ mf p q = c * makeRdm1 ⟨t1, t2, l1, l2⟩ mf p q + (1 - c) * makeRdm1 ⟨t1, t2, m1, m2⟩ mf p q)
      ∧ ∀ dm1 p q r s, makeRdm2 ⟨t1, t2, between c l1 m1, between2 c l2 m2⟩ dm1 p q r s
          = c * makeRdm2 ⟨t1, t2, l1, l2⟩ dm1 p q r s + (1 - c) * makeRdm2 ⟨t1, t2, m1, m2⟩ dm1 p q r s := by
  have d1 : ∀ mf p q, makeRdm1 ⟨t1, t2, between c l1 m1, between2 c l2 m2⟩ mf p q = c * makeRdm1 ⟨t1, t2, l1, l2⟩ mf p q + (1 - c) * makeRdm1 ⟨t1, t2, m1, m2⟩ mf p q := by
    intro mf p q
    rcases p with i | a <;> rcases q with j | b
    · simp only [makeRdm1, rdm1Of, gamma1]
      generalize (if mf = true ∧ i = j then (2 : K) else 0) = z
      simp only [doo, theta, between, between2]
      diagram
    all_goals
      simp only [makeRdm1, rdm1Of, gamma1, dov, dvo, dvv, xtv, xt1, xt2, theta, between, between2]
      diagram
  refine ⟨d1, ?_⟩
  have h_pvOOv : ∀ a i j b, pvOOv ⟨t1, t2, between c l1 m1, between2 c l2 m2⟩ a i j b = c * pvOOv ⟨t1, t2, l1, l2⟩ a i j b + (1 - c) * pvOOv ⟨t1, t2, m1, m2⟩ a i j b := by
    intro a i j b
    simp only [pvOOv, between2]
    diagram
  have h_pvoOV : ∀ a i j b, pvoOV ⟨t1, t2, between c l1 m1, between2 c l2 m2⟩ a i j b = c * pvoOV ⟨t1, t2, l1, l2⟩ a i j b + (1 - c) * pvoOV ⟨t1, t2, m1, m2⟩ a i j b := by
    intro a i j b
    simp only [pvoOV, theta, between2]
    diagram
  have h_moo : ∀ j l, moo ⟨t1, t2, between c l1 m1, between2 c l2 m2⟩ j l = c * moo ⟨t1, t2, l1, l2⟩ j l + (1 - c) * moo ⟨t1, t2, m1, m2⟩ j l := by
    intro j l
    simp only [moo, h_pvOOv, h_pvoOV]
    diagram
  have h_mvv : ∀ d b, mvv ⟨t1, t2, between c l1 m1, between2 c l2 m2⟩ d b = c * mvv ⟨t1, t2, l1, l2⟩ d b + (1 - c) * mvv ⟨t1, t2, m1, m2⟩ d b := by
    intro d b
    simp only [mvv, h_pvOOv, h_pvoOV]
    diagram
  have h_mia : ∀ i a, mia ⟨t1, t2, between c l1 m1, between2 c l2 m2⟩ i a = c * mia ⟨t1, t2, l1, l2⟩ i a + (1 - c) * mia ⟨t1, t2, m1, m2⟩ i a := by
    intro i a
    simp only [mia, between]
    diagram
  have h_mab : ∀ d b, mab ⟨t1, t2, between c l1 m1, between2 c l2 m2⟩ d b = c * mab ⟨t1, t2, l1, l2⟩ d b + (1 - c) * mab ⟨t1, t2, m1, m2⟩ d b := by
    intro d b
    simp only [mab, between]
    diagram
  have h_mij : ∀ j k, mij ⟨t1, t2, between c l1 m1, between2 c l2 m2⟩ j k = c * mij ⟨t1, t2, l1, l2⟩ j k + (1 - c) * mij ⟨t1, t2, m1, m2⟩ j k := by
    intro j k
    simp only [mij, h_moo, between]
    diagram
  have h_goooo : ∀ i j k l, goooo ⟨t1, t2, between c l1 m1, between2 c l2 m2⟩ i j k l = c * goooo ⟨t1, t2, l1, l2⟩ i j k l + (1 - c) * goooo ⟨t1, t2, m1, m2⟩ i j k l := by
    intro i j k l
    simp only [goooo, tau, between2]
    diagram
  have h_gvvvv : ∀ a b d e, gvvvv ⟨t1, t2, between c l1 m1, between2 c l2 m2⟩ a b d e = c * gvvvv ⟨t1, t2, l1, l2⟩ a b d e + (1 - c) * gvvvv ⟨t1, t2, m1, m2⟩ a b d e := by
    intro a b d e
    simp only [gvvvv, between2]
    diagram
  have h_gOvvO : ∀ i a b j, gOvvO ⟨t1, t2, between c l1 m1, between2 c l2 m2⟩ i a b j = c * gOvvO ⟨t1, t2, l1, l2⟩ i a b j + (1 - c) * gOvvO ⟨t1, t2, m1, m2⟩ i a b j := by
    intro i a b j
    simp only [gOvvO, h_pvOOv, between2]
    diagram
  have h_govVO : ∀ i a b j, govVO ⟨t1, t2, between c l1 m1, between2 c l2 m2⟩ i a b j = c * govVO ⟨t1, t2, l1, l2⟩ i a b j + (1 - c) * govVO ⟨t1, t2, m1, m2⟩ i a b j := by
    intro i a b j
    simp only [govVO, h_pvoOV, between, between2]
    diagram
  have h_goovv : ∀ i j a b, goovv ⟨t1, t2, between c l1 m1, between2 c l2 m2⟩ i j a b = c * goovv ⟨t1, t2, l1, l2⟩ i j a b + (1 - c) * goovv ⟨t1, t2, m1, m2⟩ i j a b := by
    intro i j a b
    simp only [goovv, tmpoovv, tau', tau, h_pvOOv, h_pvoOV, h_mvv, h_mia, h_mab, h_mij, h_goooo, between2]
    diagram
  have h_gooov : ∀ j k i a, gooov ⟨t1, t2, between c l1 m1, between2 c l2 m2⟩ j k i a = c * gooov ⟨t1, t2, l1, l2⟩ j k i a + (1 - c) * gooov ⟨t1, t2, m1, m2⟩ j k i a := by
    intro j k i a
    simp only [gooov, tau, h_pvOOv, h_pvoOV, h_moo, h_goooo, between, between2]
    diagram
  have h_gvovv : ∀ a i b d, gvovv ⟨t1, t2, between c l1 m1, between2 c l2 m2⟩ a i b d = c * gvovv ⟨t1, t2, l1, l2⟩ a i b d + (1 - c) * gvovv ⟨t1, t2, m1, m2⟩ a i b d := by
    intro a i b d
    simp only [gvovv, h_gvvvv, h_pvOOv, h_pvoOV, h_mvv, between, between2]
    diagram
  have d2 : ∀ p q r s, blocks2 ⟨t1, t2, between c l1 m1, between2 c l2 m2⟩ p q r s
      = c * blocks2 ⟨t1, t2, l1, l2⟩ p q r s + (1 - c) * blocks2 ⟨t1, t2, m1, m2⟩ p q r s := by
    intro p q r s
    rcases p with i | a <;> rcases q with j | b <;> rcases r with k | c' <;> rcases s with l | d <;>
      simp only [blocks2, rdm2Of, gamma2, doooo, dooov, doovv, dovvo, dovov, dovvv, dvvvv, h_goooo, h_gooov, h_gOvvO, h_govVO, h_goovv, h_gvvvv, h_gvovv] <;> ring
  intro dm1 p q r s
  cases dm1 with
  | false => exact d2 q p s r
  | true =>
    simp only [makeRdm2, cond_true, d1, d2]
    ring

/-- **Vanishing multipliers.** The correlation energy from the density matrices is then the projected coupled-cluster energy. -/
theorem cc_rdm_energy_no_multipliers (t1 : o → v → K) (t2 : o → o → v → v → K) (ht : ∀ i j a b, t2 j i b a = t2 i j a b) (f : o ⊕ v → o ⊕ v → K)
    (g : o ⊕ v → o ⊕ v → o ⊕ v → o ⊕ v → K) (hf : ∀ p q, f q p = f p q) (hg : ∀ p q r s, g q p s r = g p q r s) :
    ∑ p, ∑ q, f p q * makeRdm1 ⟨t1, t2, fun _ _ => 0, fun _ _ _ _ => 0⟩ false p q
        + (∑ p, ∑ q, ∑ r, ∑ s, g p q r s * makeRdm2 ⟨t1, t2, fun _ _ => 0, fun _ _ _ _ => 0⟩ false p q r s) / 2
      = 2 * ∑ i, ∑ a, f (.inl i) (.inr a) * t1 i a
        + ∑ i, ∑ j, ∑ a, ∑ b, (t2 i j a b + t1 i a * t1 j b) * (2 * g (.inl i) (.inr a) (.inl j) (.inr b) - g (.inl j) (.inr a) (.inl i) (.inr b)) := by
  obtain ⟨z1, hz1⟩ : ∃ z : o → v → K, z = fun _ _ => 0 := ⟨_, rfl⟩
  obtain ⟨z2, hz2⟩ : ∃ z : o → o → v → v → K, z = fun _ _ _ _ => 0 := ⟨_, rfl⟩
  have q1 : ∀ i a, z1 i a = 0 := fun i a => by rw [hz1]
  have q2 : ∀ i j a b, z2 i j a b = 0 := fun i j a b => by rw [hz2]
  have e1 : ∀ i j, makeRdm1 ⟨t1, t2, z1, z2⟩ false (.inl i) (.inl j) = 0 := by intro i j; simp [makeRdm1, rdm1Of, gamma1, doo, q1, q2]
  have e2 : ∀ i a, makeRdm1 ⟨t1, t2, z1, z2⟩ false (.inl i) (.inr a) = t1 i a := by intro i a; simp [makeRdm1, rdm1Of, gamma1, dov, dvo, xtv, xt1, xt2, q1, q2]
  have e3 : ∀ a i, makeRdm1 ⟨t1, t2, z1, z2⟩ false (.inr a) (.inl i) = t1 i a := by intro a i; simp [makeRdm1, rdm1Of, gamma1, dov, dvo, xtv, xt1, xt2, q1, q2]
  have e4 : ∀ a b, makeRdm1 ⟨t1, t2, z1, z2⟩ false (.inr a) (.inr b) = 0 := by intro a b; simp [makeRdm1, rdm1Of, gamma1, dvv, q1, q2]
  have p1 : ∀ a i j b, pvOOv ⟨t1, t2, z1, z2⟩ a i j b = 0 := by intros; simp [pvOOv, q2]
  have p2 : ∀ a i j b, pvoOV ⟨t1, t2, z1, z2⟩ a i j b = 0 := by intros; simp [pvoOV, q2]
  have p3 : ∀ i j k l, goooo ⟨t1, t2, z1, z2⟩ i j k l = 0 := by intros; simp [goooo, q2]
  have p4 : ∀ a b c d, gvvvv ⟨t1, t2, z1, z2⟩ a b c d = 0 := by intros; simp [gvvvv, q2]
  have p5 : ∀ j k i a, gooov ⟨t1, t2, z1, z2⟩ j k i a = 0 := by intros; simp [gooov, moo, p1, p2, p3, q1, q2]
  have p6 : ∀ a i b c, gvovv ⟨t1, t2, z1, z2⟩ a i b c = 0 := by intros; simp [gvovv, mvv, p1, p2, p4, q1, q2]
  have p7 : ∀ i a b j, gOvvO ⟨t1, t2, z1, z2⟩ i a b j = 0 := by intros; simp [gOvvO, p1, q2]
  have p8 : ∀ i a b j, govVO ⟨t1, t2, z1, z2⟩ i a b j = 0 := by intros; simp [govVO, p2, q1, q2]
  have p9 : ∀ i j a b, goovv ⟨t1, t2, z1, z2⟩ i j a b = (t1 i a * t1 j b + t2 i j a b) / 2 := by
    intros; simp [goovv, tmpoovv, mia, mij, mab, moo, mvv, tau, p1, p2, p3, q1, q2]
  rw [← hz1, ← hz2]
  simp only [makeRdm2, cond_false, Fintype.sum_sum_type, blocks2, rdm2Of, gamma2, e1, e2, e3, e4, doooo, dooov, doovv, dovvo, dovov, dovvv, dvvvv, p3, p4, p5, p6, p7, p8, p9, zero_mul, mul_zero,
    sub_zero, add_zero, zero_add, zero_div, neg_zero, Finset.sum_const_zero]
  have hg' : ∀ i a j b, g (.inr a) (.inl i) (.inr b) (.inl j) = g (.inl i) (.inr a) (.inl j) (.inr b) := fun i a j b => hg _ _ _ _
  have hf' : ∀ i a, f (.inr a) (.inl i) = f (.inl i) (.inr a) := fun i a => hf _ _
  simp only [hg', hf']
  obtain ⟨F, hF⟩ : ∃ F : o → v → K, F = fun i a => f (.inl i) (.inr a) := ⟨_, rfl⟩
  obtain ⟨G, hG⟩ : ∃ G : o → v → o → v → K, G = fun i a j b => g (.inl i) (.inr a) (.inl j) (.inr b) := ⟨_, rfl⟩
  have hF' : ∀ i a, f (.inl i) (.inr a) = F i a := fun i a => by rw [hF]
  have hG' : ∀ i a j b, g (.inl i) (.inr a) (.inl j) (.inr b) = G i a j b := fun i a j b => by rw [hG]
  simp only [hF', hG']
  diagram [ht]

/-! ## A case that meets the hypotheses -/

/-- Two occupied orbitals and two virtual ones. -/
private def exAmps : Amps (Fin 2) (Fin 2) ℚ where
  t1 i a := i.val - 2 * a.val
  t2 i j a b := (1 + i.val * a.val) * (1 + j.val * b.val) + i.val + j.val
  l1 i a := 1 + a.val
  l2 i j a b := 1 + (i.val + 1) * (j.val + 1) + a.val * b.val

private theorem exAmps_symmetric : PairSymmetric exAmps := ⟨by decide +kernel, by decide +kernel⟩

example : ∑ p, ∑ r, makeRdm2 exAmps true p p r r = 12 ∧ ∑ r, makeRdm2 exAmps true (.inl 0) (.inr 1) r r = 3 * makeRdm1 exAmps true (.inl 0) (.inr 1)
    ∧ makeRdm1 exAmps true (.inl 0) (.inr 1) ≠ 0 := by
  refine ⟨?_, ?_, by decide +kernel⟩
  · rw [cc_rdm2_pairs exAmps exAmps_symmetric]; norm_num
  · rw [(cc_rdm2_partial_trace exAmps exAmps_symmetric _ _).1]; norm_num

/-- Without the symmetry of the doubles the sum rule fails. -/
private def exBad : Amps (Fin 2) (Fin 1) ℚ where
  t1 _ _ := 0
  t2 i j _ _ := 1 + 2 * i.val + 3 * i.val * j.val
  l1 _ _ := 0
  l2 i j _ _ := 1 + i.val + 4 * j.val

/-- **The symmetry is needed**: with doubles that change under exchange of the excitations the two-body density matrix does not contract to the one-body one. -/
theorem cc_rdm2_needs_symmetry : ∑ r, makeRdm2 exBad true (.inl 0) (.inl 0) r r ≠ (2 * Fintype.card (Fin 2) - 1) * makeRdm1 exBad true (.inl 0) (.inl 0) := by
  rw [Fintype.sum_sum_type, Fin.sum_univ_two, Fin.sum_univ_one, Fintype.card_fin]
  have h : makeRdm2 exBad true (.inl 0) (.inl 0) (.inl 0) (.inl 0) + makeRdm2 exBad true (.inl 0) (.inl 0) (.inl 1) (.inl 1) + makeRdm2 exBad true (.inl 0) (.inl 0) (.inr 0) (.inr 0)
      ≠ 3 * makeRdm1 exBad true (.inl 0) (.inl 0) := by decide +kernel
  norm_num
  exact h

private def exPair : Amps Unit (Fin 2) ℚ where
  t1 _ a := 1 + a.val
  t2 _ _ a b := 1 + a.val * b.val
  l1 _ a := 2 - 3 * a.val
  l2 _ _ a b := a.val + b.val

example : makeRdm2 exPair true (.inr 0) (.inr 0) (.inl ()) (.inr 1) = pairLeft exPair (.inr 0) (.inl ()) * pairRight exPair (.inr 0) (.inr 1)
    + pairLeft exPair (.inr 0) (.inr 1) * pairRight exPair (.inr 0) (.inl ()) ∧ makeRdm2 exPair true (.inr 0) (.inr 0) (.inl ()) (.inr 1) ≠ 0 :=
  ⟨(cc_two_electrons exPair ⟨by decide +kernel, by decide +kernel⟩).2.1 _ _ _ _, by decide +kernel⟩

end Vayesta.Props
