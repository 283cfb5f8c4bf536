import Verif.Props.CcRdm2
import Verif.Lemmas.CcURdm2
import Verif.Lemmas.CcURdm2X

/-! Unrestricted two-body density matrices of coupled cluster: those of a closed shell. -/

namespace Vayesta.Props
open Vayesta.CcRdm2 Vayesta.CcURdm2 Vayesta.Diagram

set_option linter.unusedSectionVars false

variable {o v K : Type} [Fintype o] [DecidableEq o] [Fintype v] [Field K] [CharZero K]

/-! ## Specification -/

/-- The unrestricted amplitudes and multipliers of a closed shell: the same for both spins, those of opposite spins are the restricted ones, those of equal spins the antisymmetrised ones. -/
def closedShell (x : Amps o v K) : UAmps o o v v K where
  t1a := x.t1
  t1b := x.t1
  t2aa i j a b := x.t2 i j a b - x.t2 i j b a
  t2ab := x.t2
  t2bb i j a b := x.t2 i j a b - x.t2 i j b a
  l1a := x.l1
  l1b := x.l1
  l2aa i j a b := x.l2 i j a b - x.l2 i j b a
  l2ab := x.l2
  l2bb i j a b := x.l2 i j a b - x.l2 i j b a

/-! ## Blocks -/

private theorem blocks_closed (x : Amps o v K) (h : PairSymmetric x) (p q r s : o ⊕ v) :
    blocks2 x p q r s = 4 * blocksAB (closedShell x) p q r s - 2 * blocksAB (closedShell x) p s r q
      ∧ blocksAA (closedShell x) p q r s = blocksAB (closedShell x) p q r s - blocksAB (closedShell x) p s r q
      ∧ blocksBB (closedShell x) p q r s = blocksAB (closedShell x) p q r s - blocksAB (closedShell x) p s r q
      ∧ blocksAB (closedShell x) r s p q = blocksAB (closedShell x) p q r s := by
  obtain ⟨t1, t2, l1, l2⟩ := x
  have e : closedShell ⟨t1, t2, l1, l2⟩ = shut t1 t2 l1 l2 := rfl
  rw [e]
  have ht := h.t2
  have hl := h.l2
  simp only at ht hl
  have oo1 := cs_oooo t1 t2 l1 l2 ht hl
  have oo2 := cs_oooo_aa t1 t2 l1 l2 ht hl
  have oo3 := cs_oooo_bb t1 t2 l1 l2 ht hl
  have oo4 := cs_oooo_sym t1 t2 l1 l2 ht hl
  have vv1 := cs_vvvv t1 t2 l1 l2 ht hl
  have vv2 := cs_vvvv_aa t1 t2 l1 l2 ht hl
  have vv3 := cs_vvvv_bb t1 t2 l1 l2 ht hl
  have vv4 := cs_vvvv_sym t1 t2 l1 l2 ht hl
  have x1 := cs_ovov t1 t2 l1 l2 ht hl
  have x2 := cs_ovov_aa t1 t2 l1 l2 ht hl
  have x3 := cs_ovov_bb t1 t2 l1 l2 ht hl
  have x4 := cs_ovov_sym t1 t2 l1 l2 ht hl
  have m1 := cs_oovv t1 t2 l1 l2 ht hl
  have m2 := cs_ovvo t1 t2 l1 l2 ht hl
  have m3 := cs_oovv_sym t1 t2 l1 l2 ht hl
  have m4 := cs_ovvo_sym t1 t2 l1 l2 ht hl
  have m5 := cs_ovvo_aa t1 t2 l1 l2 ht hl
  have m6 := cs_ovvo_bb t1 t2 l1 l2 ht hl
  have w1 := cs_ovvv t1 t2 l1 l2 ht hl
  have w2 := cs_ovvv_aa t1 t2 l1 l2 ht hl
  have w3 := cs_ovvv_bb t1 t2 l1 l2 ht hl
  have w4 := cs_ovvv_sym t1 t2 l1 l2 ht hl
  have y1 := cs_ooov t1 t2 l1 l2 ht hl
  have y2 := cs_ooov_aa t1 t2 l1 l2 ht hl
  have y3 := cs_ooov_bb t1 t2 l1 l2 ht hl
  have y4 := cs_ooov_sym t1 t2 l1 l2 ht hl
  have mo : ∀ i j a b, dooVV_2 (shut t1 t2 l1 l2) j i b a = dooVV_2 (shut t1 t2 l1 l2) i j a b := by
    intro i j a b; simp only [dooVV_2]; ring
  have so : ∀ i j k l, dooOO_2 (shut t1 t2 l1 l2) j i l k = dooOO_2 (shut t1 t2 l1 l2) i j k l := by
    intro i j k l; simp only [dooOO_2]; ring
  have sv : ∀ a b c d, dvvVV_2 (shut t1 t2 l1 l2) b a d c = dvvVV_2 (shut t1 t2 l1 l2) a b c d := by
    intro a b c d; simp only [dvvVV_2]; ring
  have m1' : ∀ i j a b, CcRdm2.doovv ⟨t1, t2, l1, l2⟩ i j a b + CcRdm2.doovv ⟨t1, t2, l1, l2⟩ j i b a
      = 4 * dooVV_2 (shut t1 t2 l1 l2) i j a b - 2 * dovVO_2 (shut t1 t2 l1 l2) j a b i := fun i j a b => by rw [m1, m4 j i a b]
  have x1' : ∀ i j a b, CcRdm2.dovov ⟨t1, t2, l1, l2⟩ i a j b + CcRdm2.dovov ⟨t1, t2, l1, l2⟩ j b i a
      = 4 * dovOV (shut t1 t2 l1 l2) i a j b - 2 * dovOV (shut t1 t2 l1 l2) j a i b := fun i j a b => by rw [x1, x4 j i a b]
  have x2' : ∀ i j a b, dovov_2 (shut t1 t2 l1 l2) i a j b = dovOV (shut t1 t2 l1 l2) i a j b - dovOV (shut t1 t2 l1 l2) j a i b := fun i j a b => by rw [x2, x4 j i a b]
  have x3' : ∀ i j a b, dOVOV_2 (shut t1 t2 l1 l2) i a j b = dovOV (shut t1 t2 l1 l2) i a j b - dovOV (shut t1 t2 l1 l2) j a i b := fun i j a b => by rw [x3, x4 j i a b]
  rcases p with i | a <;> rcases q with j | b <;> rcases r with k | c <;> rcases s with l | d <;> refine ⟨?_, ?_, ?_, ?_⟩ <;>
    simp only [blocks2, rdm2Of, gamma2, blocksAB, blocksAA, blocksBB, place, m3, w4, y4] <;>
    first
    | with_reducible rfl
    | with_reducible exact oo1 _ _ _ _
    | with_reducible exact oo2 _ _ _ _
    | with_reducible exact oo3 _ _ _ _
    | with_reducible exact oo4 _ _ _ _
    | with_reducible exact vv1 _ _ _ _
    | with_reducible exact vv2 _ _ _ _
    | with_reducible exact vv3 _ _ _ _
    | with_reducible exact vv4 _ _ _ _
    | with_reducible exact x1 _ _ _ _
    | with_reducible exact x2 _ _ _ _
    | with_reducible exact x3 _ _ _ _
    | with_reducible exact x4 _ _ _ _
    | with_reducible exact m1 _ _ _ _
    | with_reducible exact m2 _ _ _ _
    | with_reducible exact m4 _ _ _ _
    | with_reducible exact m5 _ _ _ _
    | with_reducible exact m6 _ _ _ _
    | with_reducible exact w1 _ _ _ _
    | with_reducible exact w2 _ _ _ _
    | with_reducible exact w3 _ _ _ _
    | with_reducible exact y1 _ _ _ _
    | with_reducible exact y2 _ _ _ _
    | with_reducible exact y3 _ _ _ _
    | with_reducible exact x1' _ _ _ _
    | with_reducible exact x2' _ _ _ _
    | with_reducible exact x3' _ _ _ _
    | (rw [← mo]; with_reducible exact m2 _ _ _ _)
    | (rw [← mo]; with_reducible exact m5 _ _ _ _)
    | (rw [← mo]; with_reducible exact m6 _ _ _ _)
    | with_reducible exact m1' _ _ _ _
    | (rw [m5, ← m4]; ring; done)
    | (rw [m6, ← m4]; ring; done)
    | (rw [m5]; ring; done)
    | (rw [m6]; ring; done)

/-! ## One-body density matrix -/

private theorem half (x : Amps o v K) (h : PairSymmetric x) (mf : Bool) (p q : o ⊕ v) :
    rdm1a (closedShell x) mf p q = makeRdm1 x mf p q / 2 ∧ rdm1b (closedShell x) mf p q = makeRdm1 x mf p q / 2 := by
  obtain ⟨t1, t2, l1, l2⟩ := x
  have e : closedShell ⟨t1, t2, l1, l2⟩ = shut t1 t2 l1 l2 := rfl
  rw [e]
  have z : ∀ c : Prop, ∀ _ : Decidable c, (if c then (1 : K) else 0) = (if c then 2 else 0) / 2 := by
    intro c _; split <;> simp
  have a1 := cs_oo t1 t2 l1 l2 h.t2 h.l2
  have a2 := cs_vv t1 t2 l1 l2 h.t2 h.l2
  have a3 := cs_ov t1 t2 l1 l2 h.t2 h.l2
  rcases p with i | a <;> rcases q with j | b
  · simp only [rdm1a, rdm1b, place1, makeRdm1, rdm1Of, gamma1, (a1 _ _).1, (a1 _ _).2, z]
    constructor <;> ring
  · simp only [rdm1a, rdm1b, place1, makeRdm1, rdm1Of, gamma1, (a3 _ _).1, (a3 _ _).2]
    trivial
  · simp only [rdm1a, rdm1b, place1, makeRdm1, rdm1Of, gamma1, (a3 _ _).1, (a3 _ _).2]
    trivial
  · simp only [rdm1a, rdm1b, place1, makeRdm1, rdm1Of, gamma1, (a2 _ _).1, (a2 _ _).2]
    trivial

/-- **One body.** For a closed shell each of the two unrestricted one-body density matrices is half of the restricted one, with and without the mean field. -/
theorem urdm1_closed_shell (x : Amps o v K) (h : PairSymmetric x) (mf : Bool) (p q : o ⊕ v) :
    rdm1a (closedShell x) mf p q = makeRdm1 x mf p q / 2 ∧ rdm1b (closedShell x) mf p q = makeRdm1 x mf p q / 2 :=
  half x h mf p q

/-! ## Two-body density matrix -/

private theorem occEq_swap (p q : o ⊕ v) : (occEq p q : K) = occEq q p := by
  rcases p with i | a <;> rcases q with j | b <;> simp [occEq, eq_comm]

/-- **Two bodies.** For a closed shell the three unrestricted two-body density matrices, those of equal spins and both orders of opposite ones, add up to the restricted one, which is computed
by different formulas. Those of equal spins are the antisymmetrised one of opposite spins, which is symmetric in the electrons. With and without the one-body part. -/
theorem urdm2_closed_shell (x : Amps o v K) (h : PairSymmetric x) (b : Bool) (p q r s : o ⊕ v) :
    rdm2aa (closedShell x) b p q r s + rdm2ab (closedShell x) b p q r s + rdm2ab (closedShell x) b r s p q + rdm2bb (closedShell x) b p q r s = makeRdm2 x b p q r s
      ∧ rdm2aa (closedShell x) b p q r s = rdm2ab (closedShell x) b p q r s - rdm2ab (closedShell x) b p s r q
      ∧ rdm2bb (closedShell x) b p q r s = rdm2ab (closedShell x) b p q r s - rdm2ab (closedShell x) b p s r q
      ∧ rdm2ab (closedShell x) b r s p q = rdm2ab (closedShell x) b p q r s := by
  obtain ⟨k1, k2, k3, k4⟩ := blocks_closed x h q p s r
  have k5 := (blocks_closed x h s p q r).2.2.2
  have ha : ∀ p q, rdm1a (closedShell x) false p q = makeRdm1 x false p q / 2 := fun p q => (half x h false p q).1
  have hb : ∀ p q, rdm1b (closedShell x) false p q = makeRdm1 x false p q / 2 := fun p q => (half x h false p q).2
  have c := (cc_rdm1_electrons x h).1 false
  cases b with
  | false =>
    simp only [rdm2aa, rdm2bb, rdm2ab, withDm1, makeRdm2, cond_false]
    rw [k1, k2, k3, k4, k5]
    refine ⟨?_, rfl, rfl, rfl⟩
    ring
  | true =>
    simp only [rdm2aa, rdm2bb, rdm2ab, withDm1, makeRdm2, cond_true, ha, hb]
    rw [k1, k2, k3, k4, k5, occEq_swap s p]
    refine ⟨?_, ?_, ?_, ?_⟩ <;> ring

/-- The one of opposite spins is determined by the restricted one. -/
private theorem ab_of (x : Amps o v K) (h : PairSymmetric x) (b : Bool) (p q r s : o ⊕ v) :
    rdm2ab (closedShell x) b p q r s = (2 * makeRdm2 x b p q r s + makeRdm2 x b p s r q) / 6 := by
  obtain ⟨k1, k2, k3, k4⟩ := urdm2_closed_shell x h b p q r s
  obtain ⟨l1, l2, l3, l4⟩ := urdm2_closed_shell x h b p s r q
  rw [← k1, ← l1, k2, k3, k4, l2, l3, l4]
  ring

/-- **Pauli principle.** For a closed shell those of equal spins change sign when two indices of the same kind are exchanged. -/
theorem urdm2_closed_shell_antisymmetric (x : Amps o v K) (h : PairSymmetric x) (b : Bool) (p q r s : o ⊕ v) :
    rdm2aa (closedShell x) b p s r q = -rdm2aa (closedShell x) b p q r s ∧ rdm2aa (closedShell x) b r q p s = -rdm2aa (closedShell x) b p q r s
      ∧ rdm2bb (closedShell x) b p s r q = -rdm2bb (closedShell x) b p q r s ∧ rdm2bb (closedShell x) b r q p s = -rdm2bb (closedShell x) b p q r s := by
  have k := urdm2_closed_shell x h b
  refine ⟨?_, ?_, ?_, ?_⟩
  · rw [(k p s r q).2.1, (k p q r s).2.1]; ring
  · rw [(k r q p s).2.1, (k p q r s).2.1, (k p s r q).2.2.2, (k p q r s).2.2.2]; ring
  · rw [(k p s r q).2.2.1, (k p q r s).2.2.1]; ring
  · rw [(k r q p s).2.2.1, (k p q r s).2.2.1, (k p s r q).2.2.2, (k p q r s).2.2.2]; ring

/-- **Electrons of each spin.** For a closed shell with `n` occupied orbitals the partial traces give the one-body density matrix times `n - 1` for equal spins and times `n` for opposite spins. -/
theorem urdm2_closed_shell_partial_trace (x : Amps o v K) (h : PairSymmetric x) (p q : o ⊕ v) :
    ∑ r, rdm2aa (closedShell x) true p q r r = (Fintype.card o - 1) * rdm1a (closedShell x) true p q
      ∧ ∑ r, rdm2bb (closedShell x) true p q r r = (Fintype.card o - 1) * rdm1b (closedShell x) true p q
      ∧ ∑ r, rdm2ab (closedShell x) true p q r r = Fintype.card o * rdm1a (closedShell x) true p q
      ∧ ∑ r, rdm2ab (closedShell x) true r r p q = Fintype.card o * rdm1b (closedShell x) true p q := by
  have t := (cc_rdm2_partial_trace x h p q).1
  have u := cc_rdm2_singlet x h p q
  have ab : ∑ r, rdm2ab (closedShell x) true p q r r = Fintype.card o * (makeRdm1 x true p q / 2) := by
    simp only [ab_of x h, div_eq_mul_inv, ← Finset.sum_mul, Finset.sum_add_distrib, ← Finset.mul_sum, t, u]
    ring
  have ex : ∑ r, rdm2ab (closedShell x) true p r r q = makeRdm1 x true p q / 2 := by
    simp only [ab_of x h, div_eq_mul_inv, ← Finset.sum_mul, Finset.sum_add_distrib, ← Finset.mul_sum, t, u]
    ring
  rw [(half x h true p q).1, (half x h true p q).2]
  refine ⟨?_, ?_, ab, ?_⟩
  · rw [Finset.sum_congr rfl fun r _ => (urdm2_closed_shell x h true p q r r).2.1, Finset.sum_sub_distrib, ab, ex]; ring
  · rw [Finset.sum_congr rfl fun r _ => (urdm2_closed_shell x h true p q r r).2.2.1, Finset.sum_sub_distrib, ab, ex]; ring
  · rw [Finset.sum_congr rfl fun r _ => (urdm2_closed_shell x h true p q r r).2.2.2, ab]

/-- **Two electrons.** With one occupied orbital no two electrons have equal spin, and the density matrix of opposite spins is that of the left and right wave functions. -/
theorem urdm2_two_electrons (x : Amps Unit v K) (h : PairSymmetric x) (p q r s : Unit ⊕ v) :
    rdm2aa (closedShell x) true p q r s = 0 ∧ rdm2bb (closedShell x) true p q r s = 0
      ∧ rdm2ab (closedShell x) true p q r s = (pairLeft x p r * pairRight x q s + pairLeft x q s * pairRight x p r) / 2 := by
  have d := (cc_two_electrons x h).2.1
  have sr : ∀ p q, pairRight x p q = pairRight x q p := by
    rintro (_ | a) (_ | b) <;> simp only [pairRight]
    rw [h.t2 () () b a]; ring
  have sl : ∀ p q, pairLeft x p q = pairLeft x q p := by
    rintro (_ | a) (_ | b) <;> simp only [pairLeft]
    exact h.l2 () () b a
  obtain ⟨_, k2, k3, _⟩ := urdm2_closed_shell x h true p q r s
  rw [k2, k3, ab_of x h true p q r s, ab_of x h true p s r q, d p q r s, d p s r q, sr s q, sl s q]
  refine ⟨?_, ?_, ?_⟩ <;> ring

/-- Amplitudes meeting the hypothesis: two occupied and two virtual orbitals, nothing vanishes. -/
example : PairSymmetric (o := Fin 2) (v := Fin 2) (K := ℚ)
    ⟨fun i a => i + 2 * a + 1, fun i j a b => (i + 1) * (j + 1) + (a + 1) * (b + 1), fun i a => i - a + 3, fun i j a b => (i + a + 1) * (j + b + 1)⟩ :=
  ⟨fun _ _ _ _ => by ring, fun _ _ _ _ => by ring⟩

end Vayesta.Props
