import Mathlib.Algebra.BigOperators.Fin
import Mathlib.Data.Fintype.BigOperators
import Mathlib.Tactic.LinearCombination
import Verif.Lemmas.CcUOpen

/-! Unrestricted density matrices of coupled cluster for any numbers of electrons of either spin. -/

namespace Vayesta.Props
open Vayesta.CcURdm2
open Vayesta.CcRdm2 (occEq)

set_option linter.unusedSectionVars false

variable {oa ob va vb K : Type} [Fintype oa] [Fintype ob] [Fintype va] [Fintype vb] [DecidableEq oa] [DecidableEq ob] [Field K] [CharZero K]

/-! ## Specification -/

/-- Doubles of equal spins change sign when two occupied or two virtual orbitals are exchanged. -/
structure Pauli {o v : Type} (t : o → o → v → v → K) : Prop where
  occ : ∀ i j a b, t j i a b = -t i j a b
  vir : ∀ i j a b, t i j b a = -t i j a b

/-- Amplitudes and multipliers of an open shell. -/
structure Fermionic (x : UAmps oa ob va vb K) : Prop where
  t2aa : Pauli x.t2aa
  t2bb : Pauli x.t2bb
  l2aa : Pauli x.l2aa
  l2bb : Pauli x.l2bb

/-! ## Occupied orbitals -/

private theorem pauli_bare {o v : Type} {t : o → o → v → v → K} (h : Pauli t) :
    ∃ u : o → o → v → v → K, (∀ i j a b, u j i b a = u i j a b) ∧ t = fun i j a b => u i j a b - u i j b a :=
  ⟨fun i j a b => t i j a b / 2, fun i j a b => by beta_reduce; rw [h.occ, h.vir, neg_neg], by
    funext i j a b
    beta_reduce
    rw [h.vir i j a b]; ring⟩

private def occu {o v : Type} : o ⊕ v → K
  | .inl _ => 1
  | .inr _ => 0

private theorem osum {o v : Type} [Fintype o] [Fintype v] [DecidableEq o] (p : o ⊕ v) (f : o ⊕ v → K) : ∑ r, occEq p r * f r = occu p * f p := by
  rw [Fintype.sum_sum_type]
  cases p <;> simp [occEq, occu]

private theorem ocard {o v : Type} [Fintype o] [Fintype v] [DecidableEq o] : ∑ r : o ⊕ v, (occEq r r : K) = Fintype.card o := by
  rw [Fintype.sum_sum_type]
  simp [occEq]

private theorem oswap {o v : Type} [DecidableEq o] (p q : o ⊕ v) : (occEq p q : K) = occEq q p := by
  rcases p with i | a <;> rcases q with j | b <;> simp [occEq, eq_comm]

private theorem osq {o v : Type} [DecidableEq o] (p q : o ⊕ v) : occu p * (occEq q p : K) = occEq q p := by
  rcases p with i | a <;> rcases q with j | b <;> simp [occEq, occu]

private theorem mfa (x : UAmps oa ob va vb K) (p q : oa ⊕ va) : rdm1a x true p q = rdm1a x false p q + occEq p q := by
  rcases p with i | a <;> rcases q with j | b <;> simp [rdm1a, place1, occEq]

private theorem mfb (x : UAmps oa ob va vb K) (p q : ob ⊕ vb) : rdm1b x true p q = rdm1b x false p q + occEq p q := by
  rcases p with i | a <;> rcases q with j | b <;> simp [rdm1b, place1, occEq]

private theorem comma (x : UAmps oa ob va vb K) (mf : Bool) (p q : oa ⊕ va) : rdm1a x mf p q = rdm1a x mf q p := by
  rcases p with i | a <;> rcases q with j | b <;> simp only [rdm1a, place1, eq_comm] <;> ring

private theorem commb (x : UAmps oa ob va vb K) (mf : Bool) (p q : ob ⊕ vb) : rdm1b x mf p q = rdm1b x mf q p := by
  rcases p with i | a <;> rcases q with j | b <;> simp only [rdm1b, place1, eq_comm] <;> ring

/-! ## Traces without the one-body part -/

/-- What the blocks give for one spin. -/
private structure Traces (x : UAmps oa ob va vb K) : Prop where
  ta : ∑ r, rdm1a x false r r = 0
  tb : ∑ r, rdm1b x false r r = 0
  aa : ∀ p q, ∑ r, blocksAA x q p r r = (occu p + occu q - 1) * rdm1a x false p q
  bb : ∀ p q, ∑ r, blocksBB x q p r r = (occu p + occu q - 1) * rdm1b x false p q
  ab : ∀ p q, ∑ r, blocksAB x q p r r = 0
  ba : ∀ p q, ∑ r, blocksAB x r r q p = 0
  aao : ∀ i j k l, doooo_2 x i l k j = -doooo_2 x i j k l
  aav : ∀ a b c e, dvvvv_2 x a e c b = -dvvvv_2 x a b c e
  bbo : ∀ i j k l, dOOOO_2 x i l k j = -dOOOO_2 x i j k l
  bbv : ∀ a b c e, dVVVV_2 x a e c b = -dVVVV_2 x a b c e
  aao' : ∀ i j k l, doooo_2 x k l i j = doooo_2 x i j k l
  aav' : ∀ a b c e, dvvvv_2 x c e a b = dvvvv_2 x a b c e
  bbo' : ∀ i j k l, dOOOO_2 x k l i j = dOOOO_2 x i j k l
  bbv' : ∀ a b c e, dVVVV_2 x c e a b = dVVVV_2 x a b c e

private theorem traces (x : UAmps oa ob va vb K) (h : Fermionic x) : Traces x := by
  obtain ⟨t1a, t1b, t2aa, t2ab, t2bb, l1a, l1b, l2aa, l2ab, l2bb⟩ := x
  obtain ⟨taa, h1, e1⟩ := pauli_bare h.t2aa
  obtain ⟨tbb, h2, e2⟩ := pauli_bare h.t2bb
  obtain ⟨laa, h3, e3⟩ := pauli_bare h.l2aa
  obtain ⟨lbb, h4, e4⟩ := pauli_bare h.l2bb
  simp only at e1 e2 e3 e4
  clear h
  subst e1 e2 e3 e4
  show Traces (bare t1a t1b taa t2ab tbb l1a l1b laa l2ab lbb)
  refine ⟨?_, ?_, ?_, ?_, ?_, ?_, op_aa_oooo _ _ _ _ _ _ _ _ _ _ h1 h2 h3 h4, op_aa_vvvv _ _ _ _ _ _ _ _ _ _ h1 h2 h3 h4, op_bb_oooo _ _ _ _ _ _ _ _ _ _ h1 h2 h3 h4,
    op_bb_vvvv _ _ _ _ _ _ _ _ _ _ h1 h2 h3 h4, op_aa_oooo_sym _ _ _ _ _ _ _ _ _ _ h1 h2 h3 h4, op_aa_vvvv_sym _ _ _ _ _ _ _ _ _ _ h1 h2 h3 h4,
    op_bb_oooo_sym _ _ _ _ _ _ _ _ _ _ h1 h2 h3 h4, op_bb_vvvv_sym _ _ _ _ _ _ _ _ _ _ h1 h2 h3 h4⟩
  · have := op_trA t1a t1b taa t2ab tbb l1a l1b laa l2ab lbb h1 h2 h3 h4
    rw [Fintype.sum_sum_type]
    have w : ∀ y : K, (y + y) / 2 = y := fun y => by ring
    simpa [rdm1a, place1, w] using this
  · have := op_trB t1a t1b taa t2ab tbb l1a l1b laa l2ab lbb h1 h2 h3 h4
    rw [Fintype.sum_sum_type]
    have w : ∀ y : K, (y + y) / 2 = y := fun y => by ring
    simpa [rdm1b, place1, w] using this
  · have g1 := op_aa_oo t1a t1b taa t2ab tbb l1a l1b laa l2ab lbb h1 h2 h3 h4
    have g2 := op_aa_vv t1a t1b taa t2ab tbb l1a l1b laa l2ab lbb h1 h2 h3 h4
    have g3 := op_aa_ov t1a t1b taa t2ab tbb l1a l1b laa l2ab lbb h1 h2 h3 h4
    rintro (i | a) (j | b) <;> rw [Fintype.sum_sum_type] <;> simp only [blocksAA, place, rdm1a, place1, occu, Bool.false_eq_true, false_and, if_false, Finset.sum_neg_distrib]
    · rw [← sub_eq_add_neg, g1 j i]; ring
    · rw [show ∀ y : K, (1 + 0 - 1) * y = 0 from fun y => by ring]; exact g3 i b
    · rw [show ∀ y : K, (0 + 1 - 1) * y = 0 from fun y => by ring]; exact g3 j a
    · rw [g2 b a]; ring
  · have g1 := op_bb_oo t1a t1b taa t2ab tbb l1a l1b laa l2ab lbb h1 h2 h3 h4
    have g2 := op_bb_vv t1a t1b taa t2ab tbb l1a l1b laa l2ab lbb h1 h2 h3 h4
    have g3 := op_bb_ov t1a t1b taa t2ab tbb l1a l1b laa l2ab lbb h1 h2 h3 h4
    rintro (i | a) (j | b) <;> rw [Fintype.sum_sum_type] <;> simp only [blocksBB, place, rdm1b, place1, occu, Bool.false_eq_true, false_and, if_false, Finset.sum_neg_distrib]
    · rw [← sub_eq_add_neg, g1 j i]; ring
    · rw [show ∀ y : K, (1 + 0 - 1) * y = 0 from fun y => by ring]; exact g3 i b
    · rw [show ∀ y : K, (0 + 1 - 1) * y = 0 from fun y => by ring]; exact g3 j a
    · rw [g2 b a]; ring
  · rintro (i | a) (j | b) <;> rw [Fintype.sum_sum_type] <;> simp only [blocksAB]
    · exact op_ab_oo _ _ _ _ _ _ _ _ _ _ h1 h2 h3 h4 j i
    · exact op_ab_ov _ _ _ _ _ _ _ _ _ _ h1 h2 h3 h4 i b
    · exact op_ab_ov _ _ _ _ _ _ _ _ _ _ h1 h2 h3 h4 j a
    · exact op_ab_vv _ _ _ _ _ _ _ _ _ _ h1 h2 h3 h4 b a
  · rintro (i | a) (j | b) <;> rw [Fintype.sum_sum_type] <;> simp only [blocksAB]
    · exact op_ba_oo _ _ _ _ _ _ _ _ _ _ h1 h2 h3 h4 j i
    · exact op_ba_ov _ _ _ _ _ _ _ _ _ _ h1 h2 h3 h4 i b
    · exact op_ba_ov _ _ _ _ _ _ _ _ _ _ h1 h2 h3 h4 j a
    · exact op_ba_vv _ _ _ _ _ _ _ _ _ _ h1 h2 h3 h4 b a

/-! ## Theorems -/

/-- **Electrons.** Both one-body density matrices are symmetric, their traces are the numbers of electrons of either spin. -/
theorem urdm1_electrons (x : UAmps oa ob va vb K) (h : Fermionic x) :
    (∀ mf p q, rdm1a x mf p q = rdm1a x mf q p) ∧ (∀ mf p q, rdm1b x mf p q = rdm1b x mf q p)
      ∧ ∑ p, rdm1a x true p p = Fintype.card oa ∧ ∑ p, rdm1b x true p p = Fintype.card ob := by
  have t := traces x h
  refine ⟨comma x, commb x, ?_, ?_⟩
  · simp only [mfa, Finset.sum_add_distrib, t.ta, ocard, zero_add]
  · simp only [mfb, Finset.sum_add_distrib, t.tb, ocard, zero_add]

private theorem same {o v : Type} [Fintype o] [Fintype v] [DecidableEq o] (dm : o ⊕ v → o ⊕ v → K) (d : o ⊕ v → o ⊕ v → o ⊕ v → o ⊕ v → K) (hc : ∀ p q, dm p q = dm q p)
    (ht : ∑ r, dm r r = 0) (hd : ∀ p q, ∑ r, d q p r r = (occu p + occu q - 1) * dm p q) (p q : o ⊕ v) :
    ∑ r, withDm1 dm d true p q r r = (Fintype.card o - 1) * (dm p q + occEq p q) := by
  have e : ∀ r, withDm1 dm d true p q r r = d q p r r + occEq q p * dm r r + dm q p * occEq r r - occEq p r * dm q r - occEq q r * dm r p + occEq q p * occEq r r
      - occEq q r * occEq p r := by
    intro r
    simp only [withDm1, cond_true]
    ring
  simp only [e, Finset.sum_add_distrib, Finset.sum_sub_distrib, ← Finset.mul_sum, ocard, ht, hd, osum]
  rw [osq, hc q p, oswap q p]
  ring

/-- **Partial traces.** Summed over an electron, the two-body density matrices give the one-body density matrix times the number of other electrons of that spin. -/
theorem urdm2_partial_trace (x : UAmps oa ob va vb K) (h : Fermionic x) :
    (∀ p q, ∑ r, rdm2aa x true p q r r = (Fintype.card oa - 1) * rdm1a x true p q)
      ∧ (∀ p q, ∑ r, rdm2bb x true p q r r = (Fintype.card ob - 1) * rdm1b x true p q)
      ∧ (∀ p q, ∑ r, rdm2ab x true p q r r = Fintype.card ob * rdm1a x true p q)
      ∧ ∀ p q, ∑ r, rdm2ab x true r r p q = Fintype.card oa * rdm1b x true p q := by
  have t := traces x h
  refine ⟨fun p q => ?_, fun p q => ?_, fun p q => ?_, fun p q => ?_⟩
  · rw [mfa]; exact same _ _ (comma x false) t.ta t.aa p q
  · rw [mfb]; exact same _ _ (commb x false) t.tb t.bb p q
  · have e : ∀ r, rdm2ab x true p q r r = blocksAB x q p r r + occEq q p * rdm1b x false r r + rdm1a x false q p * occEq r r + occEq q p * occEq r r := by
      intro r
      simp only [rdm2ab, cond_true]
      ring
    simp only [e, Finset.sum_add_distrib, ← Finset.mul_sum, ocard, t.tb, t.ab, mfa]
    rw [comma x false q p, oswap q p]
    ring
  · have e : ∀ r, rdm2ab x true r r p q = blocksAB x r r q p + rdm1b x false q p * occEq r r + occEq q p * rdm1a x false r r + occEq q p * occEq r r := by
      intro r
      simp only [rdm2ab, cond_true]
      ring
    simp only [e, Finset.sum_add_distrib, ← Finset.mul_sum, ocard, t.ta, t.ba, mfb]
    rw [commb x false q p, oswap q p]
    ring

/-- **Numbers of pairs.** -/
theorem urdm2_pairs (x : UAmps oa ob va vb K) (h : Fermionic x) :
    ∑ p, ∑ r, rdm2aa x true p p r r = Fintype.card oa * (Fintype.card oa - 1) ∧ ∑ p, ∑ r, rdm2bb x true p p r r = Fintype.card ob * (Fintype.card ob - 1)
      ∧ ∑ p, ∑ r, rdm2ab x true p p r r = Fintype.card oa * Fintype.card ob := by
  obtain ⟨h1, h2, h3, _⟩ := urdm2_partial_trace x h
  obtain ⟨_, _, n1, n2⟩ := urdm1_electrons x h
  refine ⟨?_, ?_, ?_⟩
  · simp only [h1, ← Finset.mul_sum, n1]; ring
  · simp only [h2, ← Finset.mul_sum, n2]; ring
  · simp only [h3, ← Finset.mul_sum, n1]; ring

private theorem blocksAA_anti (x : UAmps oa ob va vb K) (t : Traces x) (p q r s : oa ⊕ va) :
    blocksAA x p s r q = -blocksAA x p q r s ∧ blocksAA x r s p q = blocksAA x p q r s ∧ blocksAA x q p s r = blocksAA x p q r s := by
  rcases p with i | a <;> rcases q with j | b <;> rcases r with k | c <;> rcases s with l | d <;> refine ⟨?_, ?_, ?_⟩ <;> simp only [blocksAA, place] <;>
    first
    | with_reducible rfl
    | with_reducible exact t.aao _ _ _ _
    | with_reducible exact t.aav _ _ _ _
    | with_reducible exact t.aao' _ _ _ _
    | with_reducible exact t.aav' _ _ _ _
    | (simp only [doooo_2, dvvvv_2, dovov_2, dovov, dovvo_2, dovvv, dooov]; ring; done)

private theorem blocksBB_anti (x : UAmps oa ob va vb K) (t : Traces x) (p q r s : ob ⊕ vb) :
    blocksBB x p s r q = -blocksBB x p q r s ∧ blocksBB x r s p q = blocksBB x p q r s ∧ blocksBB x q p s r = blocksBB x p q r s := by
  rcases p with i | a <;> rcases q with j | b <;> rcases r with k | c <;> rcases s with l | d <;> refine ⟨?_, ?_, ?_⟩ <;> simp only [blocksBB, place] <;>
    first
    | with_reducible rfl
    | with_reducible exact t.bbo _ _ _ _
    | with_reducible exact t.bbv _ _ _ _
    | with_reducible exact t.bbo' _ _ _ _
    | with_reducible exact t.bbv' _ _ _ _
    | (simp only [dOOOO_2, dVVVV_2, dOVOV_2, dOVOV, dOVVO_2, dOVVV, dOOOV]; ring; done)

private theorem with_anti {o v : Type} [DecidableEq o] (dm : o ⊕ v → o ⊕ v → K) (d : o ⊕ v → o ⊕ v → o ⊕ v → o ⊕ v → K) (hc : ∀ p q, dm p q = dm q p)
    (hd : ∀ p q r s, d p s r q = -d p q r s ∧ d r s p q = d p q r s ∧ d q p s r = d p q r s) (b : Bool) (p q r s : o ⊕ v) :
    withDm1 dm d b p s r q = -withDm1 dm d b p q r s ∧ withDm1 dm d b r s p q = withDm1 dm d b p q r s ∧ withDm1 dm d b q p s r = withDm1 dm d b p q r s := by
  have z1 : d s p q r = -d q p s r := by
    rw [← (hd q p s r).1, (hd q r s p).2.1]
  have z2 : d s r q p = d q p s r := (hd q p s r).2.1
  have z3 : d p q r s = d q p s r := (hd q p s r).2.2
  cases b with
  | false => exact ⟨z1, z2, z3⟩
  | true =>
    simp only [withDm1, cond_true]
    rw [z1, z2, z3, oswap r q, oswap s p, oswap p q, oswap r s, hc r q, hc p s, hc r s, hc p q]
    refine ⟨?_, ?_, ?_⟩ <;> ring

/-- **Pauli principle.** The two-body density matrices of equal spins change sign when two indices of the same kind are exchanged, and are symmetric under exchange of the electrons and of bra and
ket; with and without the one-body part. -/
theorem urdm2_antisymmetric (x : UAmps oa ob va vb K) (h : Fermionic x) (b : Bool) :
    (∀ p q r s, rdm2aa x b p s r q = -rdm2aa x b p q r s ∧ rdm2aa x b r s p q = rdm2aa x b p q r s ∧ rdm2aa x b q p s r = rdm2aa x b p q r s)
      ∧ ∀ p q r s, rdm2bb x b p s r q = -rdm2bb x b p q r s ∧ rdm2bb x b r s p q = rdm2bb x b p q r s ∧ rdm2bb x b q p s r = rdm2bb x b p q r s :=
  ⟨with_anti _ _ (comma x false) (blocksAA_anti x (traces x h)) b, with_anti _ _ (commb x false) (blocksBB_anti x (traces x h)) b⟩

/-- **Symmetry of opposite spins**, under exchange of bra and ket. No condition on the amplitudes is needed. -/
theorem urdm2_opposite_symmetric (x : UAmps oa ob va vb K) (b : Bool) (p q : oa ⊕ va) (r s : ob ⊕ vb) : rdm2ab x b q p s r = rdm2ab x b p q r s := by
  have z : blocksAB x p q r s = blocksAB x q p s r := by
    rcases p with i | a <;> rcases q with j | b <;> rcases r with k | c <;> rcases s with l | d <;> simp only [blocksAB] <;>
      first
      | with_reducible rfl
      | (simp only [dooOO_2, dvvVV_2, dooVV_2, dOOvv_2]; ring; done)
  cases b with
  | false => exact z
  | true =>
    simp only [rdm2ab, cond_true]
    rw [z, oswap p q, oswap r s, comma x false p q, commb x false r s]

/-- Amplitudes meeting the hypotheses: two electrons of one spin and one of the other, in orbitals of which two each are virtual. -/
example : Fermionic (oa := Fin 2) (ob := Fin 1) (va := Fin 2) (vb := Fin 2) (K := ℚ)
    ⟨fun i a => i + 2 * a + 1, fun _ a => a + 3, fun i j a b => (i - j) * (a - b), fun i _ a b => i + a + 2 * b + 1, fun i j a b => (i - j) * (a - b),
      fun i a => i - a + 3, fun _ a => 2 * a + 1, fun i j a b => 5 * (i - j) * (a - b), fun i _ a b => i + a * b + 1, fun i j a b => 2 * (i - j) * (a - b)⟩ :=
  ⟨⟨fun _ _ _ _ => by ring, fun _ _ _ _ => by ring⟩, ⟨fun _ _ _ _ => by ring, fun _ _ _ _ => by ring⟩, ⟨fun _ _ _ _ => by ring, fun _ _ _ _ => by ring⟩,
    ⟨fun _ _ _ _ => by ring, fun _ _ _ _ => by ring⟩⟩

end Vayesta.Props
