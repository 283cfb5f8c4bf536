import Verif.Lemmas.Mp2
import Mathlib.Algebra.Field.Rat
import Mathlib.Algebra.Order.Ring.Rat

/-! C42: MP2 density matrices. -/

namespace Vayesta.Props
open Vayesta Vayesta.Rdm Vayesta.DemoRdm Vayesta.DmetEnergy Vayesta.Mp2 Matrix

variable {K : Type} [Field K] {no nv : Nat}

/-- **C42**: the one-body density matrix is symmetric, and with and without mean-field part differ by two electrons in each occupied
orbital. -/
theorem mp2_rdm1_symmetric (t2 : Fin no → Fin no → Fin nv → Fin nv → K) :
    (∀ m, (makeRdm1 t2 m).transpose = makeRdm1 t2 m) ∧
    ∀ p q, makeRdm1 t2 true p q = makeRdm1 t2 false p q + if p = q ∧ p.val < no then 2 else 0 :=
  ⟨rdm1_symm t2, fun p q => congrFun (congrFun (rdm1_mf t2) p) q⟩

/-- **C42**: with exchange symmetry of the amplitudes the trace is the number of electrons, zero without mean-field part; in general it is
off by a term that only vanishes by symmetry. -/
theorem mp2_rdm1_trace (t2 : Fin no → Fin no → Fin nv → Fin nv → K) :
    (ExchangeSymmetric t2 → (makeRdm1 t2 true).trace = 2 * no ∧ (makeRdm1 t2 false).trace = 0) ∧
    (makeRdm1 t2 false).trace = 2 * ∑ i, ∑ j, ∑ a, ∑ b, t2 i j a b * (t2 j i a b - t2 i j b a) := by
  refine ⟨fun h => ?_, trace_false t2⟩
  have h0 : (makeRdm1 t2 false).trace = 0 := by rw [trace_false, exchange_zero t2 h, mul_zero]
  refine ⟨?_, h0⟩
  rw [rdm1_mf, trace_add, h0, zero_add, trace_mf]

/-- **C42**: the same in the AO basis, for orbitals orthonormal with respect to the overlap. -/
theorem mp2_rdm1_trace_ao {nao : Nat} (c : Matrix (Fin nao) (Fin (no + nv)) K) (s : Matrix (Fin nao) (Fin nao) K) (hc : c.transpose * s * c = 1)
    (t2 : Fin no → Fin no → Fin nv → Fin nv → K) (h : ExchangeSymmetric t2) :
    (makeRdm1Ao c t2 true * s).trace = 2 * no ∧ (makeRdm1Ao c t2 false * s).trace = 0 := by
  have : ∀ m, (makeRdm1Ao c t2 m * s).trace = (makeRdm1 t2 m).trace := by
    intro m
    unfold makeRdm1Ao
    rw [Matrix.mul_assoc, Matrix.mul_assoc, trace_mul_comm, Matrix.mul_assoc, hc, Matrix.mul_one]
  rw [this, this]
  exact (mp2_rdm1_trace t2).1 h

/-- **C42**: amplitudes without exchange symmetry, such as those left by `restore(sym=False)`, lose electrons. -/
theorem mp2_trace_needs_symmetry :
    (makeRdm1 (fun (i j : Fin 2) (_ _ : Fin 1) => if i = 0 ∧ j = 1 then (1 : ℚ) else 0) true).trace = 2 := by decide +kernel

/-- Non-trivial amplitudes with exchange symmetry. -/
example : ExchangeSymmetric (fun (i j : Fin 2) (a b : Fin 2) => ((i.val + 2 * a.val + 1 : ℕ) * (j.val + 2 * b.val + 1 : ℕ) : ℚ)) ∧
    (makeRdm1 (fun (i j : Fin 2) (a b : Fin 2) => ((i.val + 2 * a.val + 1 : ℕ) * (j.val + 2 * b.val + 1 : ℕ) : ℚ)) true) ≠ meanField 4 2 2 := by
  constructor
  · intro i j a b; exact mul_comm _ _
  · intro h
    exact absurd (congrFun (congrFun h 0) 0) (by decide +kernel)

/-- **C42**: the two-body density matrix is the one-body part (to first order in the correlation part) plus what is returned as
approximate cumulant; exact cumulants are refused. So the conditions on cluster wave functions in C30 and C57 are met by MP2. -/
theorem mp2_rdm2 [CharZero K] (t2 : Fin no → Fin no → Fin nv → Fin nv → K) :
    ∃ t, HasRdms (clusterWf t2) no (makeRdm1 t2 true) t ∧ (makeRdm1 t2 true).transpose = makeRdm1 t2 true ∧
      ∀ (a : Int), a ≠ 1 → makeRdm2 t2 false a = .error .notImplementedError := by
  refine ⟨_, ⟨rfl, ?_, fun a => rdm2_eq t2 a, ?_, ?_⟩, rdm1_symm t2 true, ?_⟩
  · show makeRdm1 t2 false = _
    rw [rdm1_mf, add_sub_cancel_right]
  · show makeRdm2 t2 false 1 = _
    rw [rdm2_false]
    refine congrArg Except.ok ?_
    funext p q r s
    exact (add_sub_cancel_right _ _).symm
  · right
    simp [clusterWf, makeRdm2]
  · intro a ha
    simp [makeRdm2, ha]

/-- The approximate cumulant couples pairs of occupied and virtual orbitals only. -/
theorem mp2_cumulant_blocks (t2 : Fin no → Fin no → Fin nv → Fin nv → K) :
    ∃ u, makeRdm2 t2 false 1 = .ok u ∧
      (∀ i a j b, u (o nv i) (v no a) (o nv j) (v no b) = 4 * t2 i j a b - 2 * t2 i j b a) ∧
      (∀ i a j b, u (v no a) (o nv i) (v no b) (o nv j) = 4 * t2 i j a b - 2 * t2 i j b a) ∧
      (∀ p q r s, u p q r s ≠ 0 → (p.val < no ↔ ¬ q.val < no) ∧ (p.val < no ↔ r.val < no) ∧ (q.val < no ↔ s.val < no)) := by
  refine ⟨_, rdm2_false t2, ?_, ?_, ?_⟩
  · intro i a j b; simp [ovovBlocks, dovov, o, v]
  · intro i a j b; simp [ovovBlocks, dovov, o, v]
  · refine split_cases (fun i => split_cases (fun j => ?_) fun b => ?_) fun a => split_cases (fun j => ?_) fun b => ?_ <;>
      refine split_cases (fun k => split_cases (fun l => ?_) fun l => ?_) fun k => split_cases (fun l => ?_) fun l => ?_ <;>
      simp [ovovBlocks, o, v]

private theorem mp2_fock_trace [CharZero K] (g : Ten (no + nv) (no + nv) K) (e : Fin (no + nv) → K)
    (t2 : T2 no nv K) (hx : ExchangeSymmetric t2) (ht : ∀ i j a b, t2 i j a b * (e (o nv i) + e (o nv j) - e (v no a) - e (v no b)) = g (o nv i) (v no a) (o nv j) (v no b)) :
    ∑ p, ∑ q, makeRdm1 t2 false p q * (if p = q then e p else 0) = - mp2Energy g t2 := by
  have h0 : ∀ p, ∑ q, makeRdm1 t2 false p q * (if p = q then e p else 0) = e p * makeRdm1 t2 false p p := by
    intro p
    simp only [mul_ite, mul_zero, Finset.sum_ite_eq, Finset.mem_univ, if_true]
    ring
  simp only [h0]
  rw [Fin.sum_univ_add]
  have a1 : ∀ i : Fin no, e (Fin.castAdd nv i) * makeRdm1 t2 false (Fin.castAdd nv i) (Fin.castAdd nv i) = 2 * (e (o nv i) * doo t2 false i i) :=
    fun i => by rw [rdm1_oo]; ring
  have a2 : ∀ a : Fin nv, e (Fin.natAdd no a) * makeRdm1 t2 false (Fin.natAdd no a) (Fin.natAdd no a) = 2 * (e (v no a) * dvv t2 a a) :=
    fun i => by rw [rdm1_vv]; ring
  simp only [a1, a2, ← Finset.mul_sum]
  rw [trace_oo t2 fun i => e (o nv i), trace_vv t2 fun a => e (v no a)]
  have ex : ∀ i j a b, t2 j i a b = t2 i j b a := fun i j a b => hx j i a b
  set w : Fin no → Fin no → Fin nv → Fin nv → K := fun i j a b => t2 i j a b * (2 * t2 i j a b - t2 i j b a) with hw
  have hsym : ∀ i j a b, w j i b a = w i j a b := by
    intro i j a b
    simp only [hw, ← hx i j a b, ← hx i j b a]
  have o1 : (sum4 fun i j a b => e (o nv i) * (t2 i j a b * (2 * t2 i j a b - t2 j i a b))) = sum4 fun i j a b => e (o nv i) * w i j a b :=
    sum4_congr fun i j a b => by rw [ex i j a b]
  have o2 : (sum4 fun i j a b => e (o nv i) * w i j a b) = sum4 fun i j a b => e (o nv j) * w i j a b := by
    rw [← sum4_swap_o, ← sum4_swap_v]
    exact sum4_congr fun i j a b => by rw [hsym]
  have v2 : (sum4 fun i j a b => e (v no a) * w i j a b) = sum4 fun i j a b => e (v no b) * w i j a b := by
    rw [← sum4_swap_o, ← sum4_swap_v]
    exact sum4_congr fun i j a b => by rw [hsym]
  rw [o1]
  have : mp2Energy g t2 = (sum4 fun i j a b => e (o nv i) * w i j a b) + (sum4 fun i j a b => e (o nv j) * w i j a b) -
      (sum4 fun i j a b => e (v no a) * w i j a b) - (sum4 fun i j a b => e (v no b) * w i j a b) := by
    rw [← sum4_add, ← sum4_sub, ← sum4_sub]
    refine sum4_congr fun i j a b => ?_
    rw [← ht]
    simp only [hw]; ring
  rw [this, ← o2, ← v2]
  ring

private theorem hf_energy_eq [CharZero K] (h : Matrix (Fin (no + nv)) (Fin (no + nv)) K) (g : Ten (no + nv) (no + nv) K) :
    energyOf h g (meanField (no + nv) no 2) (onePart (1 / 2) (meanField (no + nv) no 2)) = hfEnergy h g := by
  have h2 : (2 : K) ≠ 0 := two_ne_zero
  have key : ∀ f : Fin (no + nv) → Fin (no + nv) → K, ∑ r, ∑ s, f r s * meanField (no + nv) no (2 : K) r s = ∑ i : Fin no, 2 * f (o nv i) (o nv i) := by
    intro f
    have := fock_eq (0 : Matrix (Fin (no + nv)) (Fin (no + nv)) K) (fun p q r s => f r s)
    rw [Fin.sum_univ_add]
    have a1 : ∀ a : Fin nv, ∑ s, f (Fin.natAdd no a) s * meanField (no + nv) no (2 : K) (Fin.natAdd no a) s = 0 := by
      intro a
      refine Finset.sum_eq_zero fun s _ => ?_
      rw [mf_vp, mul_zero]
    have a2 : ∀ i : Fin no, ∑ s, f (Fin.castAdd nv i) s * meanField (no + nv) no (2 : K) (Fin.castAdd nv i) s = 2 * f (o nv i) (o nv i) := by
      intro i
      rw [Fin.sum_univ_add]
      have b1 : ∀ a : Fin nv, meanField (no + nv) no (2 : K) (Fin.castAdd nv i) (Fin.natAdd no a) = 0 := fun a => mf_ov 2 i a
      have b2 : ∀ j : Fin no, meanField (no + nv) no (2 : K) (Fin.castAdd nv i) (Fin.castAdd nv j) = if i = j then 2 else 0 := fun j => mf_oo 2 i j
      simp only [b1, b2, mul_zero, Finset.sum_const_zero, add_zero, mul_ite, Finset.sum_ite_eq, Finset.mem_univ, if_true]
      ring
    simp only [a1, a2, Finset.sum_const_zero, add_zero]
  have e1 : energyOf h g (meanField (no + nv) no 2) (onePart (1 / 2) (meanField (no + nv) no 2)) =
      dot2 h (meanField (no + nv) no 2) + dot2 (meanField (no + nv) no 2) (veff g (meanField (no + nv) no 2)) / 2 := by
    rw [dot2_veff]; rfl
  rw [e1, dot2_comm (meanField (no + nv) no (2 : K))]
  have d1 : dot2 h (meanField (no + nv) no 2) = ∑ i : Fin no, 2 * h (o nv i) (o nv i) := key h
  have d2 : dot2 (veff g (meanField (no + nv) no 2)) (meanField (no + nv) no 2) = ∑ i : Fin no, 2 * veff g (meanField (no + nv) no 2) (o nv i) (o nv i) := key _
  have d3 : ∀ p q : Fin (no + nv), veff g (meanField (no + nv) no 2) p q = ∑ i : Fin no, (2 * g p q (o nv i) (o nv i) - g p (o nv i) (o nv i) q) := by
    intro p q
    have := fock_eq (0 : Matrix (Fin (no + nv)) (Fin (no + nv)) K) g p q
    simp only [fock, Matrix.zero_apply, zero_add] at this
    exact this.symm
  rw [d1, d2]
  simp only [d3, ← Finset.mul_sum]
  unfold hfEnergy
  field_simp

/-- **C42**: for canonical orbitals and MP2 amplitudes, the energy of the density matrices is the Hartree-Fock plus the MP2 correlation
energy. -/
theorem mp2_energy_of_density_matrices [CharZero K] (h : Matrix (Fin (no + nv)) (Fin (no + nv)) K)
    (g : Fin (no + nv) → Fin (no + nv) → Fin (no + nv) → Fin (no + nv) → K) (hs : RealSymmetric h g)
    (e : Fin (no + nv) → K) (hF : ∀ p q, fock h g p q = if p = q then e p else 0)
    (hgap : ∀ i j a b, e (o nv i) + e (o nv j) - e (v no a) - e (v no b) ≠ 0)
    (t2 : Fin no → Fin no → Fin nv → Fin nv → K)
    (ht : ∀ i j a b, t2 i j a b = g (o nv i) (v no a) (o nv j) (v no b) / (e (o nv i) + e (o nv j) - e (v no a) - e (v no b))) :
    ExchangeSymmetric t2 ∧ ∃ t, makeRdm2 t2 true 0 = .ok t ∧ energyOf h g (makeRdm1 t2 true) t = hfEnergy h g + mp2Energy g t2 := by
  have h2 : (2 : K) ≠ 0 := two_ne_zero
  have hx : ExchangeSymmetric t2 := by
    intro i j a b
    rw [ht, ht, hs.pair]
    congr 1
    ring
  refine ⟨hx, _, rdm2_eq t2 0, ?_⟩
  rw [energy_split h g hs t2 (rdm2_eq t2 0), hf_energy_eq, ovov_energy h g hs]
  have e1 : dot2 (makeRdm1 t2 false) (h + veff g (meanField (no + nv) no 2)) = - mp2Energy g t2 := by
    rw [← mp2_fock_trace g e t2 hx fun i j a b => by rw [ht, div_mul_cancel₀ _ (hgap i j a b)]]
    refine Finset.sum_congr rfl fun p _ => Finset.sum_congr rfl fun q _ => ?_
    rw [← hF, fock_eq]; rfl
  rw [e1]
  field_simp
  ring

/-- Model integrals for the example: two orbitals. -/
private def exG : Fin 2 → Fin 2 → Fin 2 → Fin 2 → ℚ := fun p q r s => if p = q ∧ r = s then 1 else if p ≠ q ∧ r ≠ s then 1 / 2 else 0
private def exH : Matrix (Fin 2) (Fin 2) ℚ := fun p q => if p = q then (if p = 0 then -3 else -1) else 0
private def exE : Fin 2 → ℚ := fun p => if p = 0 then -2 else 1 / 2

/-- A two-orbital case: the energies really are the ones of the specification. -/
example : RealSymmetric exH exG ∧ (∀ p q : Fin (1 + 1), fock (no := 1) (nv := 1) exH exG p q = if p = q then exE p else 0) ∧
    (∀ (i j a b : Fin 1), exE (o 1 i) + exE (o 1 j) - exE (v 1 a) - exE (v 1 b) ≠ 0) ∧
    mp2Energy (no := 1) (nv := 1) exG (fun i j a b => exG (o 1 i) (v 1 a) (o 1 j) (v 1 b) / (exE (o 1 i) + exE (o 1 j) - exE (v 1 a) - exE (v 1 b))) = -1 / 20 := by
  refine ⟨⟨?_, ?_, ?_, ?_⟩, ?_, ?_, ?_⟩ <;> decide +kernel

/-- **C42**: the number of electron pairs is not conserved: the two-body density matrix counts twice as many pairs too many as there are
electrons in virtual orbitals. -/
theorem mp2_pair_count [CharZero K] (t2 : Fin no → Fin no → Fin nv → Fin nv → K) (hx : ExchangeSymmetric t2) :
    ∃ t, makeRdm2 t2 true 0 = .ok t ∧
      ∑ p, ∑ r, t p p r r = (2 * no) * (2 * no - 1) + 2 * ∑ a : Fin nv, makeRdm1 t2 true (v no a) (v no a) := by
  have h2 : (2 : K) ≠ 0 := two_ne_zero
  refine ⟨_, rdm2_eq t2 0, ?_⟩
  have hov : ∀ p r, ovovBlocks t2 p p r r = 0 := by
    refine split_cases (fun i => ?_) fun a => ?_ <;> intro r <;> simp [ovovBlocks, o, v]
  simp only [hov, zero_add]
  obtain ⟨⟨htr, -⟩, -⟩ := And.intro ((mp2_rdm1_trace t2).1 hx) trivial
  set d := makeRdm1 t2 true with hd
  set m := meanField (no + nv) no (2 : K) with hm
  have s1 : ∀ x y : Matrix (Fin (no + nv)) (Fin (no + nv)) K, ∑ p, ∑ r, wedge (1 / 2) x y p p r r = x.trace * y.trace - (1 / 2) * ∑ p, ∑ r, x p r * y p r := by
    intro x y
    simp only [wedge, Finset.sum_sub_distrib, ← Finset.mul_sum]
    congr 1
    unfold Matrix.trace
    simp only [diag_apply, Finset.sum_mul, Finset.mul_sum]
    exact Finset.sum_comm
  have s2 : ∑ p, ∑ r, onePartLinear (1 / 2) d m p p r r = (∑ p, ∑ r, wedge (1 / 2) m d p p r r) + (∑ p, ∑ r, wedge (1 / 2) d m p p r r) -
      ∑ p, ∑ r, wedge (1 / 2) m m p p r r := by
    simp only [onePartLinear, Finset.sum_sub_distrib, Finset.sum_add_distrib]
  have key : ∀ x : Matrix (Fin (no + nv)) (Fin (no + nv)) K, ∑ p, ∑ r, x p r * m p r = 2 * ∑ i : Fin no, x (o nv i) (o nv i) := by
    intro x
    have a : ∀ p, ∑ r, x p r * m p r = x p p * m p p := by
      intro p
      refine Finset.sum_eq_single p (fun r _ h => ?_) fun h => absurd (Finset.mem_univ p) h
      rw [hm]
      simp [meanField, Ne.symm h]
    rw [Finset.sum_congr rfl fun p _ => a p]
    rw [Fin.sum_univ_add]
    have b1 : ∀ i : Fin no, m (Fin.castAdd nv i) (Fin.castAdd nv i) = 2 := fun i => by rw [hm, mf_oo]; simp
    have b2 : ∀ a : Fin nv, m (Fin.natAdd no a) (Fin.natAdd no a) = 0 := fun i => by rw [hm, mf_vp]
    simp only [b1, b2, mul_zero, Finset.sum_const_zero, add_zero, ← Finset.sum_mul]
    ring
  have hmd : ∑ p, ∑ r, m p r * d p r = 2 * ∑ i : Fin no, d (o nv i) (o nv i) := by
    rw [← key d]
    exact Finset.sum_congr rfl fun _ _ => Finset.sum_congr rfl fun _ _ => mul_comm _ _
  have htm : m.trace = 2 * no := trace_mf
  have hmm : ∑ i : Fin no, m (o nv i) (o nv i) = 2 * no := by
    have b1 : ∀ i : Fin no, m (o nv i) (o nv i) = 2 := fun i => by rw [hm, mf_oo]; simp
    simp only [b1]; simp [mul_comm]
  have hdo : ∑ i : Fin no, d (o nv i) (o nv i) = 2 * no - ∑ a : Fin nv, d (v no a) (v no a) := by
    rw [← htr]
    unfold Matrix.trace
    rw [Fin.sum_univ_add]
    simp only [diag_apply]
    exact (add_sub_cancel_right _ _).symm
  rw [s2, s1, s1, s1, htr, htm, key, key, hmd, hmm, hdo]
  field_simp
  ring

end Vayesta.Props
