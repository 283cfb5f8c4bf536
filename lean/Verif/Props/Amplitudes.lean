import Verif.Model.Amplitudes
import Verif.Lemmas.Tensor
import Mathlib.Tactic.FieldSimp
import Mathlib.Tactic.Ring
import Mathlib.Tactic.NormNum
import Mathlib.Tactic.Linarith
import Mathlib.Tactic.LinearCombination
import Mathlib.Algebra.BigOperators.Field
import Mathlib.Data.Rat.Defs
import Mathlib.Algebra.Order.Field.Rat
import Mathlib.Algebra.Order.Ring.Unbundled.Rat
import Mathlib.Tactic.FinCases
import Mathlib.Algebra.BigOperators.Fin

/-! # C25, C26: CISD and CCSD amplitudes convert into each other; C28: projection, restoration, summation -/

namespace Vayesta.Props
open Vayesta.Amplitudes

section C25
variable {f o v K : Type} [Field K] [Fintype o] [Fintype f]

/-- C25. CCSD to CISD (any non-zero reference coefficient) and back: the same cluster amplitudes; the lambda amplitudes are
replaced by the cluster amplitudes. -/
theorem rccsd_to_cisd_to_ccsd (c0 : K) (h0 : c0 ≠ 0) (t1 : T1 o v K) (t2 : T2 o o v v K) (l1 : Option (T1 o v K))
    (l2 : Option (T2 o o v v K)) :
    ∃ w : RCisd f o v K, RCcsd.asCisd c0 (RCcsd.full t1 t2 l1 l2) = .ok w ∧ w.asCcsd = .full t1 t2 (some t1) (some t2) := by
  have e1 : (fun i a => c0 * t1 i a / c0) = t1 := by funext i a; field_simp
  have e2 : (ccsdOfCisd c0 (fun i a => c0 * t1 i a) (fun i j a b => c0 * (t2 i j a b + outer t1 t1 i j a b))) = (t1, t2) := by
    simp only [ccsdOfCisd, e1, Prod.mk.injEq, true_and]
    funext i j a b
    field_simp
    ring
  exact ⟨_, rfl, by simp only [RCisd.asCcsd, e2]⟩

/-- C25. CISD to CCSD and back with the original reference coefficient: the same coefficients. -/
theorem rcisd_to_ccsd_to_cisd (c0 : K) (h0 : c0 ≠ 0) (c1 : T1 o v K) (c2 : T2 o o v v K) :
    RCcsd.asCisd c0 (RCisd.asCcsd (RCisd.full c0 c1 c2 : RCisd f o v K)) = .ok (.full c0 c1 c2) := by
  have e1 : (fun i a => c0 * (c1 i a / c0)) = c1 := by funext i a; field_simp
  have e2 : (fun i j a b => c0 * (c2 i j a b / c0 - outer (fun i a => c1 i a / c0) (fun i a => c1 i a / c0) i j a b +
      outer (fun i a => c1 i a / c0) (fun i a => c1 i a / c0) i j a b)) = c2 := by
    funext i j a b
    rw [sub_add_cancel]
    field_simp
  simp only [RCisd.asCcsd, RCcsd.asCisd, ccsdOfCisd, e1, e2]

/-- C25. The coefficients are those of the exponential ansatz: `c1 = c0 t1` and `c2 = c0 (t2 + t1 t1)`, and the conversion
back determines the unique amplitudes with that property. -/
theorem rcisd_as_ccsd_iff (c0 : K) (h0 : c0 ≠ 0) (c1 t1 : T1 o v K) (c2 t2 : T2 o o v v K) :
    RCisd.asCcsd (RCisd.full c0 c1 c2 : RCisd f o v K) = .full t1 t2 (some t1) (some t2) ↔
      (∀ i a, c1 i a = c0 * t1 i a) ∧ ∀ i j a b, c2 i j a b = c0 * (t2 i j a b + t1 i a * t1 j b) := by
  constructor
  · intro h
    simp only [RCisd.asCcsd, ccsdOfCisd, RCcsd.full.injEq] at h
    obtain ⟨h1, h2, -, -⟩ := h
    have e1 : ∀ i a, c1 i a / c0 = t1 i a := fun i a => congrFun (congrFun h1 i) a
    refine ⟨fun i a => by rw [← e1]; field_simp, fun i j a b => ?_⟩
    have := congrFun (congrFun (congrFun (congrFun h2 i) j) a) b
    simp only [outer, e1] at this
    rw [← this, sub_add_cancel]
    field_simp
  · rintro ⟨h1, h2⟩
    have e1 : (fun i a => c1 i a / c0) = t1 := by funext i a; rw [h1]; field_simp
    have e2 : (fun i j a b => c2 i j a b / c0 - outer t1 t1 i j a b) = t2 := by
      funext i j a b
      rw [h2]
      simp only [outer]
      field_simp
      ring
    simp only [RCisd.asCcsd, ccsdOfCisd, e1, e2]

/-- C25. A wave function that has been projected cannot be converted to CISD. -/
theorem rccsd_projected_as_cisd (c0 : K) (p : f → o → K) (t1 : T1 f v K) (t2 : T2 f o v v K) (l1 : Option (T1 f v K))
    (l2 : Option (T2 f o v v K)) : RCcsd.asCisd c0 (RCcsd.proj p t1 t2 l1 l2) = .error .notImplementedError := rfl

/-- C25. Renormalising a CISD wave function (projected or not) sets the reference coefficient, keeps the ratios to it, and does
not change the CCSD wave function obtained from it. -/
theorem rcisd_renormalise (c : K) (hc : c ≠ 0) (c0 : K) (h0 : c0 ≠ 0) (c1 : T1 o v K) (c2 : T2 o o v v K) :
    ∃ c1' c2', RCisd.asCisd (some c) (.full c0 c1 c2 : RCisd f o v K) = .full c c1' c2' ∧
      (∀ i a, c1' i a / c = c1 i a / c0) ∧ (∀ i j a b, c2' i j a b / c = c2 i j a b / c0) ∧
      RCisd.asCcsd (RCisd.asCisd (some c) (.full c0 c1 c2 : RCisd f o v K)) = RCisd.asCcsd (.full c0 c1 c2) := by
  have e1 : ∀ i a, c1 i a * c / c0 / c = c1 i a / c0 := fun i a => by field_simp
  have e2 : ∀ i j a b, c2 i j a b * c / c0 / c = c2 i j a b / c0 := fun i j a b => by field_simp
  exact ⟨_, _, rfl, e1, e2, by simp only [RCisd.asCisd, RCisd.asCcsd, ccsdOfCisd, e1, e2]⟩

/-- C25. Renormalising a projected CISD wave function: the same, with the projector unchanged. -/
theorem rcisd_renormalise_projected (c : K) (hc : c ≠ 0) (p : f → o → K) (c0 : K) (h0 : c0 ≠ 0) (c1 : T1 f v K) (c2 : T2 f o v v K) :
    ∃ c1' c2', RCisd.asCisd (some c) (.proj p c0 c1 c2 : RCisd f o v K) = .proj p c c1' c2' ∧
      (∀ i a, c1' i a / c = c1 i a / c0) ∧ (∀ i j a b, c2' i j a b / c = c2 i j a b / c0) ∧
      RCisd.asCisd none (.proj p c0 c1 c2 : RCisd f o v K) = .proj p c0 c1 c2 := by
  have e1 : ∀ i a, c1 i a * c / c0 / c = c1 i a / c0 := fun i a => by field_simp
  have e2 : ∀ i j a b, c2 i j a b * c / c0 / c = c2 i j a b / c0 := fun i j a b => by field_simp
  exact ⟨_, _, rfl, e1, e2, rfl⟩

/-- C25. Converting a projected CISD wave function is: restore (with symmetrisation), convert, project with the same projector. -/
theorem rcisd_projected_as_ccsd (p : f → o → K) (c0 : K) (c1 : T1 f v K) (c2 : T2 f o v v K) :
    ∃ t1 t2, (RCisd.restore true (.proj p c0 c1 c2 : RCisd f o v K)).map RCisd.asCcsd =
        .ok (.full t1 t2 (some t1) (some t2)) ∧
      RCisd.asCcsd (.proj p c0 c1 c2 : RCisd f o v K) = RCcsd.project p t1 t2 (some t1) (some t2) :=
  ⟨_, _, rfl, rfl⟩

/-- C25. For a projector with orthonormal rows the singles of a projected wave function convert without loss. -/
theorem rcisd_projected_singles [DecidableEq f] (p : f → o → K)
    (hp : ∀ x y, ∑ i, p x i * p y i = if x = y then 1 else 0) (c0 : K) (c1 : T1 f v K) (c2 : T2 f o v v K) :
    ∃ t1 t2 l1 l2, RCisd.asCcsd (.proj p c0 c1 c2 : RCisd f o v K) = .proj p t1 t2 l1 l2 ∧ ∀ x a, t1 x a = c1 x a / c0 := by
  refine ⟨_, _, _, _, rfl, fun x a => ?_⟩
  simp only [ccsdOfCisd, projectC1, tr, Finset.sum_div, Finset.mul_sum]
  rw [Finset.sum_comm]
  have : ∀ y, ∑ i, p x i * (p y i * c1 y a / c0) = (if x = y then 1 else 0) * (c1 y a / c0) := by
    intro y
    rw [← hp, Finset.sum_mul]
    exact Finset.sum_congr rfl fun _ _ => by ring
  simp [this]

/-- C25, MP2: conversions agree with the exponential ansatz without singles; the lambda amplitudes are the amplitudes. -/
theorem rmp2_conversions (c0 : K) (t2 : T2 o o v v K) :
    (∃ t1, (mp2AsCcsd t2 : RCcsd f o v K) = .full t1 t2 (some t1) (some t2) ∧ ∀ i a, t1 i a = 0) ∧
    RCcsd.asCisd c0 (mp2AsCcsd t2 : RCcsd f o v K) = .ok (.full (mp2AsCisd c0 t2).1 (mp2AsCisd c0 t2).2.1 (mp2AsCisd c0 t2).2.2) := by
  refine ⟨⟨_, rfl, fun _ _ => rfl⟩, ?_⟩
  simp [RCcsd.asCisd, mp2AsCcsd, mp2AsCisd, outer]

end C25

section C26
variable {oa ob va vb K : Type} [Field K]

/-- C26 (part of). Unrestricted CCSD to CISD and back, three-block storage: the same amplitudes. (The claim also covers
four-block storage, where it is false: `uccsd_four_block_as_cisd_false`.) -/
theorem uccsd_to_cisd_to_ccsd_partial (same : Option ((ob ≃ oa) × (vb ≃ va))) (c0 : K) (h0 : c0 ≠ 0)
    (t1 : T1 oa va K × T1 ob vb K) (t2 : U3 oa ob va vb K) :
    UCisd.asCcsd same (UCcsd.asCisd c0 ⟨t1, .three t2⟩) = .ok ⟨t1, .three t2⟩ := by
  obtain ⟨t1a, t1b⟩ := t1
  obtain ⟨aa, ab, bb⟩ := t2
  have e1 : ∀ {o v : Type} (t : T1 o v K), (fun i a => c0 * t i a / c0) = t := fun t => by funext i a; field_simp
  simp only [UCcsd.asCisd, UCisd.asCcsd, e1, Except.ok.injEq, UCcsd.mk.injEq, UC2.three.injEq, U3.mk.injEq, true_and]
  refine ⟨?_, ?_, ?_⟩ <;> funext i j a b <;> field_simp <;> ring

/-- C26 (part of). Unrestricted CISD to CCSD and back, three-block storage. -/
theorem ucisd_to_ccsd_to_cisd_partial (same : Option ((ob ≃ oa) × (vb ≃ va))) (c0 : K) (h0 : c0 ≠ 0)
    (c1 : T1 oa va K × T1 ob vb K) (c2 : U3 oa ob va vb K) :
    ∃ w, UCisd.asCcsd same ⟨c0, c1, .three c2⟩ = .ok w ∧ UCcsd.asCisd c0 w = ⟨c0, c1, .three c2⟩ := by
  obtain ⟨c1a, c1b⟩ := c1
  obtain ⟨aa, ab, bb⟩ := c2
  refine ⟨_, rfl, ?_⟩
  have e1 : ∀ {o v : Type} (t : T1 o v K), (fun i a => c0 * (t i a / c0)) = t := fun t => by funext i a; field_simp
  simp only [UCcsd.asCisd, e1, UCisd.mk.injEq, UC2.three.injEq, U3.mk.injEq, true_and]
  refine ⟨?_, ?_, ?_⟩ <;> funext i j a b <;> field_simp <;> ring

/-- C26. The coefficients are those of the exponential ansatz in each stored block (three-block storage): same-spin doubles get
both pairings of the singles with the fermionic sign, opposite-spin doubles one. -/
theorem ucisd_as_ccsd_iff (same : Option ((ob ≃ oa) × (vb ≃ va))) (c0 : K) (h0 : c0 ≠ 0)
    (c1a t1a : T1 oa va K) (c1b t1b : T1 ob vb K) (c2 t2 : U3 oa ob va vb K) :
    UCisd.asCcsd same ⟨c0, (c1a, c1b), .three c2⟩ = .ok ⟨(t1a, t1b), .three t2⟩ ↔
      (∀ i a, c1a i a = c0 * t1a i a) ∧ (∀ i a, c1b i a = c0 * t1b i a) ∧
      (∀ i j a b, c2.aa i j a b = c0 * (t2.aa i j a b + (t1a i a * t1a j b - t1a i b * t1a j a))) ∧
      (∀ i j a b, c2.ab i j a b = c0 * (t2.ab i j a b + t1a i a * t1b j b)) ∧
      (∀ i j a b, c2.bb i j a b = c0 * (t2.bb i j a b + (t1b i a * t1b j b - t1b i b * t1b j a))) := by
  obtain ⟨xaa, xab, xbb⟩ := c2
  obtain ⟨yaa, yab, ybb⟩ := t2
  simp only [UCisd.asCcsd, Except.ok.injEq, UCcsd.mk.injEq, Prod.mk.injEq, UC2.three.injEq, U3.mk.injEq, funext_iff, outer, outerX]
  constructor
  · rintro ⟨⟨h1, h2⟩, h3, h4, h5⟩
    simp only [h1, h2] at h3 h4 h5
    refine ⟨fun i a => by rw [← h1]; field_simp, fun i a => by rw [← h2]; field_simp, fun i j a b => ?_, fun i j a b => ?_,
      fun i j a b => ?_⟩
    · have := h3 i j a b; field_simp at this; linear_combination this
    · have := h4 i j a b; field_simp at this; linear_combination this
    · have := h5 i j a b; field_simp at this; linear_combination this
  · rintro ⟨h1, h2, h3, h4, h5⟩
    have e1 : ∀ i a, c1a i a / c0 = t1a i a := fun i a => by rw [h1]; field_simp
    have e2 : ∀ i a, c1b i a / c0 = t1b i a := fun i a => by rw [h2]; field_simp
    simp only [e1, e2]
    refine ⟨⟨fun _ _ => trivial, fun _ _ => trivial⟩, fun i j a b => ?_, fun i j a b => ?_, fun i j a b => ?_⟩
    · rw [h3]; field_simp; ring
    · rw [h4]; field_simp; ring
    · rw [h5]; field_simp; ring

/-- C26. Same-spin doubles stay antisymmetric under both conversions. -/
theorem ucisd_ccsd_antisymmetric (same : Option ((ob ≃ oa) × (vb ≃ va))) (c0 : K) (c1 : T1 oa va K × T1 ob vb K)
    (c2 : U3 oa ob va vb K) (haa : ∀ i j a b, c2.aa j i a b = - c2.aa i j a b) (hbb : ∀ i j a b, c2.bb j i a b = - c2.bb i j a b) :
    ∃ t1 t2, UCisd.asCcsd same ⟨c0, c1, .three c2⟩ = .ok ⟨t1, .three t2⟩ ∧
      (∀ i j a b, t2.aa j i a b = - t2.aa i j a b) ∧ (∀ i j a b, t2.bb j i a b = - t2.bb i j a b) := by
  refine ⟨_, _, rfl, fun i j a b => ?_, fun i j a b => ?_⟩
  · simp only [haa i j a b, outer, outerX]; ring
  · simp only [hbb i j a b, outer, outerX]; ring

/-- C26, four-block storage of CCSD amplitudes (part of): all blocks except beta-alpha agree with those of three-block
storage, and the beta-alpha block does when `c0 = 1`. -/
theorem uccsd_four_block_as_cisd_partial (c0 : K) (t1 : T1 oa va K × T1 ob vb K) (t2 : U4 oa ob oa ob va vb K) :
    ∃ c3 c4, UCcsd.asCisd c0 ⟨t1, .three ⟨t2.aa, t2.ab, t2.bb⟩⟩ = ⟨c0, (fun i a => c0 * t1.1 i a, fun i a => c0 * t1.2 i a), .three c3⟩ ∧
      UCcsd.asCisd c0 ⟨t1, .four t2⟩ = ⟨c0, (fun i a => c0 * t1.1 i a, fun i a => c0 * t1.2 i a), .four c4⟩ ∧
      c4.aa = c3.aa ∧ c4.ab = c3.ab ∧ c4.bb = c3.bb ∧
      (c0 = 1 → t2.ba = transp t2.ab → c4.ba = transp c3.ab) := by
  refine ⟨_, _, rfl, rfl, rfl, rfl, rfl, ?_⟩
  rintro rfl h
  funext i j a b
  simp only [h, transp, outer]
  ring

/-- C26 is false for four-block storage, CCSD to CISD: the beta-alpha block is not the transpose of the alpha-beta block although
the amplitudes are related in this way, as soon as `c0` differs from 0 and 1 and the singles do not vanish. -/
theorem uccsd_four_block_as_cisd_false (c0 : K) (h0 : c0 ≠ 0) (h1 : c0 ≠ 1) (t1 : T1 oa va K × T1 ob vb K)
    (i : oa) (a : va) (j : ob) (b : vb) (hi : t1.1 i a ≠ 0) (hj : t1.2 j b ≠ 0) (t2 : U3 oa ob va vb K) :
    ∃ c4, (UCcsd.asCisd c0 ⟨t1, .four ⟨t2.aa, t2.ab, transp t2.ab, t2.bb⟩⟩).c2 = .four c4 ∧ c4.ba ≠ transp c4.ab := by
  refine ⟨_, rfl, fun h => ?_⟩
  have := congrFun (congrFun (congrFun (congrFun h j) i) b) a
  simp only [transp, outer] at this
  have h2 : c0 * (c0 - 1) * (t1.1 i a * t1.2 j b) = 0 := by linear_combination this
  exact mul_ne_zero (mul_ne_zero h0 (sub_ne_zero.2 h1)) (mul_ne_zero hi hj) h2

/-- C26 is false for four-block storage, CISD to CCSD: with unequal numbers of alpha and beta orbitals the conversion raises. -/
theorem ucisd_four_block_as_ccsd_raises (w : UCisd oa ob va vb K) (c : U4 oa ob oa ob va vb K) (h : w.c2 = .four c) :
    UCisd.asCcsd none w = .error .valueError := by
  simp only [UCisd.asCcsd, h]

end C26

section C26b
variable {oa ob va vb fa fb K : Type} [Field K]

/-- C26. Renormalising an unrestricted CISD wave function does not change the CCSD wave function obtained from it, in either
storage. -/
theorem ucisd_renormalise (same : Option ((ob ≃ oa) × (vb ≃ va))) (c : K) (hc : c ≠ 0) (w : UCisd oa ob va vb K) (h0 : w.c0 ≠ 0) :
    (w.asCisd (some c)).c0 = c ∧ (w.asCisd (some c)).asCcsd same = w.asCcsd same := by
  obtain ⟨c0, ⟨c1a, c1b⟩, c2⟩ := w
  have h0' : c0 ≠ 0 := h0
  have e : ∀ x : K, x * c / c0 / c = x / c0 := fun x => by field_simp
  refine ⟨rfl, ?_⟩
  cases c2 with
  | three t => simp only [UCisd.asCisd, UCisd.asCcsd, e]
  | four t => simp only [UCisd.asCisd, UCisd.asCcsd, e]

/-- C26. A projected wave function always converts (whatever the numbers of orbitals), because restoring it with symmetrisation
leaves three blocks: the result is the projection of the conversion of the restored wave function, which itself obeys the
exponential ansatz (`ucisd_as_ccsd_iff`). -/
theorem ucisd_projected_as_ccsd [Fintype oa] [Fintype ob] [Fintype fa] [Fintype fb] (same : Option ((ob ≃ oa) × (vb ≃ va)))
    (w : UPCisd fa fb oa ob va vb K) :
    ∃ c2 t1 t2, (w.restore true).c2 = .three c2 ∧ (w.restore true).asCcsd same = .ok ⟨t1, .three t2⟩ ∧
      w.asCcsd same = .ok (UCcsd.project w.p ⟨t1, .three t2⟩) :=
  ⟨_, _, _, rfl, rfl, rfl⟩

/-- Spin blocks of restricted doubles: `aa = bb = t - t(exchanged virtuals)`, `ab = t` (the intended content of
`as_unrestricted`, ccsd.py:162-165, mp2.py:61-66). -/
def SpinBlocks {o v : Type} (t : T2 o o v v K) (u : U3 o o v v K) : Prop :=
  (∀ i j a b, u.aa i j a b = t i j a b - t i j b a) ∧ (∀ i j a b, u.ab i j a b = t i j a b) ∧
    (∀ i j a b, u.bb i j a b = t i j a b - t i j b a)

/-- C25/C26. The restricted and unrestricted conversions agree: from CCSD amplitudes related by spin adaptation they give CISD
coefficients related by spin adaptation. -/
theorem restricted_unrestricted_agree {f o v : Type} (c0 : K) (t1 : T1 o v K) (t2 : T2 o o v v K) (u2 : U3 o o v v K)
    (h : SpinBlocks t2 u2) :
    ∃ c1 c2 cu, RCcsd.asCisd c0 (.full t1 t2 none none : RCcsd f o v K) = .ok (.full c0 c1 c2) ∧
      UCcsd.asCisd c0 ⟨(t1, t1), .three u2⟩ = ⟨c0, (c1, c1), .three cu⟩ ∧ SpinBlocks c2 cu := by
  obtain ⟨h1, h2, h3⟩ := h
  refine ⟨_, _, _, rfl, rfl, fun i j a b => ?_, fun i j a b => ?_, fun i j a b => ?_⟩
  · simp only [h1, outer, outerX]; ring
  · simp only [h2]
  · simp only [h3, outer, outerX]; ring

end C26b

section Witness

/-- Two alpha and two beta occupied orbitals, one virtual orbital each; opposite-spin doubles that are not symmetric. -/
private def wAb : T2 (Fin 2) (Fin 2) (Fin 1) (Fin 1) ℚ := fun i j _ _ => if i = 0 ∧ j = 1 then 1 else 0

/-- C26 is false for four-block storage, CISD to CCSD: with equal numbers of orbitals the beta-alpha block is computed from the
alpha-beta coefficients, so it is not the transpose of the alpha-beta amplitudes even though the coefficients are. -/
theorem ucisd_four_block_as_ccsd_false :
    ∃ (w : UCisd (Fin 2) (Fin 2) (Fin 1) (Fin 1) ℚ) (c t : U4 (Fin 2) (Fin 2) (Fin 2) (Fin 2) (Fin 1) (Fin 1) ℚ),
      w.c0 ≠ 0 ∧ w.c2 = .four c ∧ c.ba = transp c.ab ∧
      (∃ t1, UCisd.asCcsd (some (Equiv.refl _, Equiv.refl _)) w = .ok ⟨t1, .four t⟩) ∧ t.ba ≠ transp t.ab := by
  refine ⟨⟨1, (fun _ _ => 0, fun _ _ => 0), .four ⟨fun _ _ _ _ => 0, wAb, transp wAb, fun _ _ _ _ => 0⟩⟩, _, _, one_ne_zero,
    rfl, rfl, ⟨_, rfl⟩, fun h => ?_⟩
  have := congrFun (congrFun (congrFun (congrFun h 0) 1) 0) 0
  simp [transp, wAb, outer] at this

end Witness

section C28
open Vayesta.Tensor
variable {ι o v K : Type} [Field K] [Fintype ι] [Fintype o] [DecidableEq o] {f : ι → Type} [∀ x, Fintype (f x)]

/-- The projectors of all fragments resolve the identity of the occupied space: `Σ_x P_xᵀ P_x = 1`. -/
def ResolvesIdentity (p : (x : ι) → f x → o → K) : Prop := ∀ i j, ∑ x, ∑ y, p x y i * p x y j = if i = j then 1 else 0

omit [DecidableEq o] in
theorem unproject_sum_aux [DecidableEq o] (p : (x : ι) → f x → o → K) (hp : ResolvesIdentity p) (c : o → K) (i : o) :
    ∑ x, ∑ y, p x y i * ∑ k, p x y k * c k = c i := by
  have : ∀ x, ∑ y, p x y i * ∑ k, p x y k * c k = ∑ k, (∑ y, p x y i * p x y k) * c k := fun x => sum_mm _ _ _
  simp only [this]
  rw [Finset.sum_comm]
  simp only [← Finset.sum_mul, hp i]
  simp

theorem project_restore_c1 (p : (x : ι) → f x → o → K) (hp : ResolvesIdentity p) (c : T1 o v K) (i : o) (a : v) :
    ∑ x, projectC1 (tr (p x)) (projectC1 (p x) c) i a = c i a :=
  unproject_sum_aux p hp (fun k => c k a) i

theorem project_restore_c2 {o' v' : Type} (p : (x : ι) → f x → o → K) (hp : ResolvesIdentity p) (c : T2 o o' v v' K)
    (i : o) (j : o') (a : v) (b : v') :
    ∑ x, projectC2 (tr (p x)) (projectC2 (p x) c) i j a b = c i j a b :=
  unproject_sum_aux p hp (fun k => c k j a b) i

theorem project_restore_sym (h2 : (2 : K) ≠ 0) (p : (x : ι) → f x → o → K) (hp : ResolvesIdentity p) (c : T2 o o v v K)
    (hc : ∀ i j a b, c j i b a = c i j a b) (i j : o) (a b : v) :
    ∑ x, symmetrizeC2 (projectC2 (tr (p x)) (projectC2 (p x) c)) i j a b = c i j a b := by
  simp only [symmetrizeC2, transp]
  rw [← Finset.sum_div, Finset.sum_add_distrib, project_restore_c2 p hp, project_restore_c2 p hp, hc]
  field_simp
  ring

/-- C28. Restricted CCSD amplitudes with particle-exchange symmetry: projecting onto every fragment, restoring (with or without
symmetrisation) and adding up gives back the singles, doubles and lambda amplitudes. -/
theorem rccsd_project_restore_sum (h2 : (2 : K) ≠ 0) (sym : Bool) (p : (x : ι) → f x → o → K) (hp : ResolvesIdentity p)
    (t1 l1 : T1 o v K) (t2 l2 : T2 o o v v K) (ht : ∀ i j a b, t2 j i b a = t2 i j a b) (hl : ∀ i j a b, l2 j i b a = l2 i j a b) :
    ∃ (r1 s1 : ι → T1 o v K) (r2 s2 : ι → T2 o o v v K),
      (∀ x, (RCcsd.project (p x) t1 t2 (some l1) (some l2)).restore sym =
        .ok (.full (r1 x) (r2 x) (some (s1 x)) (some (s2 x)))) ∧
      (∀ i a, ∑ x, r1 x i a = t1 i a) ∧ (∀ i j a b, ∑ x, r2 x i j a b = t2 i j a b) ∧
      (∀ i a, ∑ x, s1 x i a = l1 i a) ∧ (∀ i j a b, ∑ x, s2 x i j a b = l2 i j a b) := by
  refine ⟨_, _, _, _, fun x => rfl, project_restore_c1 p hp t1, ?_, project_restore_c1 p hp l1, ?_⟩ <;> cases sym
  · exact project_restore_c2 p hp t2
  · exact project_restore_sym h2 p hp t2 ht
  · exact project_restore_c2 p hp l2
  · exact project_restore_sym h2 p hp l2 hl

/-- C28. Restricted CISD coefficients. -/
theorem rcisd_project_restore_sum (h2 : (2 : K) ≠ 0) (sym : Bool) (p : (x : ι) → f x → o → K) (hp : ResolvesIdentity p)
    (c0 : K) (c1 : T1 o v K) (c2 : T2 o o v v K) (hc : ∀ i j a b, c2 j i b a = c2 i j a b) :
    ∃ (r1 : ι → T1 o v K) (r2 : ι → T2 o o v v K),
      (∀ x, (RCisd.project (p x) c0 c1 c2).restore sym = .ok (.full c0 (r1 x) (r2 x))) ∧
      (∀ i a, ∑ x, r1 x i a = c1 i a) ∧ (∀ i j a b, ∑ x, r2 x i j a b = c2 i j a b) := by
  refine ⟨_, _, fun x => rfl, project_restore_c1 p hp c1, ?_⟩
  cases sym
  · exact project_restore_c2 p hp c2
  · exact project_restore_sym h2 p hp c2 hc

/-- C28. Restoring needs a projector: on an unprojected wave function it raises. -/
theorem restore_unprojected {f : Type} [Fintype f] (sym : Bool) (c0 : K) (c1 : T1 o v K) (c2 : T2 o o v v K)
    (l1 : Option (T1 o v K)) (l2 : Option (T2 o o v v K)) :
    (RCisd.full c0 c1 c2 : RCisd f o v K).restore sym = .error .attributeError ∧
      (RCcsd.full c1 c2 l1 l2 : RCcsd f o v K).restore sym = .error .attributeError := ⟨rfl, rfl⟩

end C28

section C28u
variable {ι oa ob va vb K : Type} [Field K] [Fintype ι] [Fintype oa] [DecidableEq oa] [Fintype ob] [DecidableEq ob]
  {fa fb : ι → Type} [∀ x, Fintype (fa x)] [∀ x, Fintype (fb x)]

/-- The alpha-alpha, alpha-beta, beta-alpha and beta-beta coefficients of stored doubles. -/
def blocksOf : UC2 oa ob va vb K → U4 oa ob oa ob va vb K
  | .three c => ⟨c.aa, c.ab, transp c.ab, c.bb⟩
  | .four c => c

omit [Fintype oa] [Fintype ob] in
/-- C26. Renormalising an unrestricted CISD wave function keeps the ratio of every coefficient, in every spin block and storage, to
the reference coefficient. -/
theorem ucisd_renormalise_blocks (c : K) (hc : c ≠ 0) (w : UCisd oa ob va vb K) (h0 : w.c0 ≠ 0) :
    (∀ i a, (w.asCisd (some c)).c1.1 i a / c = w.c1.1 i a / w.c0) ∧
    (∀ i a, (w.asCisd (some c)).c1.2 i a / c = w.c1.2 i a / w.c0) ∧
    (∀ i j a b, (blocksOf (w.asCisd (some c)).c2).aa i j a b / c = (blocksOf w.c2).aa i j a b / w.c0) ∧
    (∀ i j a b, (blocksOf (w.asCisd (some c)).c2).ab i j a b / c = (blocksOf w.c2).ab i j a b / w.c0) ∧
    (∀ i j a b, (blocksOf (w.asCisd (some c)).c2).ba i j a b / c = (blocksOf w.c2).ba i j a b / w.c0) ∧
    (∀ i j a b, (blocksOf (w.asCisd (some c)).c2).bb i j a b / c = (blocksOf w.c2).bb i j a b / w.c0) ∧
    w.asCisd none = w := by
  obtain ⟨c0, ⟨c1a, c1b⟩, c2⟩ := w
  have h0' : c0 ≠ 0 := h0
  have e : ∀ x : K, x * c / c0 / c = x / c0 := fun x => by field_simp
  cases c2 with
  | three t => exact ⟨fun _ _ => e _, fun _ _ => e _, fun _ _ _ _ => e _, fun _ _ _ _ => e _, fun _ _ _ _ => e _, fun _ _ _ _ => e _, rfl⟩
  | four t => exact ⟨fun _ _ => e _, fun _ _ => e _, fun _ _ _ _ => e _, fun _ _ _ _ => e _, fun _ _ _ _ => e _, fun _ _ _ _ => e _, rfl⟩

omit [Fintype oa] [Fintype ob] in
/-- C28. Symmetrisation (both storages) gives exchange-symmetric blocks and leaves exchange-symmetric amplitudes as they are. -/
theorem u_symmetrize (h2 : (2 : K) ≠ 0) (c2 : UC2 oa ob va vb K) :
    (∀ i j a b, (symmetrizeUC2 c2).aa j i b a = (symmetrizeUC2 c2).aa i j a b) ∧
    (∀ i j a b, (symmetrizeUC2 c2).bb j i b a = (symmetrizeUC2 c2).bb i j a b) ∧
    ((∀ i j a b, (blocksOf c2).aa j i b a = (blocksOf c2).aa i j a b) →
      (∀ i j a b, (blocksOf c2).bb j i b a = (blocksOf c2).bb i j a b) →
      (∀ i j a b, (blocksOf c2).ba j i b a = (blocksOf c2).ab i j a b) →
      blocksOf (.three (symmetrizeUC2 c2)) = blocksOf c2) := by
  have hs : ∀ {o v : Type} (c : T2 o o v v K) i j a b, symmetrizeC2 c j i b a = symmetrizeC2 c i j a b := by
    intro o v c i j a b
    simp only [symmetrizeC2, transp]
    ring
  have hid : ∀ {o v : Type} (c : T2 o o v v K), (∀ i j a b, c j i b a = c i j a b) → symmetrizeC2 c = c := by
    intro o v c hc
    funext i j a b
    simp only [symmetrizeC2, transp, hc]
    field_simp
    ring
  cases c2 with
  | three c =>
    refine ⟨fun _ _ _ _ => hs c.aa _ _ _ _, fun _ _ _ _ => hs c.bb _ _ _ _, ?_⟩
    intro haa hbb _
    simp only [blocksOf, symmetrizeUC2] at *
    rw [hid _ haa, hid _ hbb]
  | four c =>
    refine ⟨fun _ _ _ _ => hs c.aa _ _ _ _, fun _ _ _ _ => hs c.bb _ _ _ _, ?_⟩
    intro haa hbb hba
    obtain ⟨aa, ab, ba, bb⟩ := c
    simp only [blocksOf, symmetrizeUC2] at *
    rw [hid _ haa, hid _ hbb]
    have h3 : (fun i j a b => (ab i j a b + transp ba i j a b) / 2) = ab := by
      funext i j a b
      simp only [transp, hba]
      field_simp
      ring
    rw [h3]
    congr 1
    funext i j a b
    simp only [transp]
    exact (hba j i b a).symm

/-- C28. Unrestricted doubles (both storages), exchange symmetric: projecting onto all fragments, restoring (with or without
symmetrisation) and adding up gives back all four spin blocks. The same theorem covers CISD, CCSD and MP2 amplitudes, which use
the same functions. -/
theorem u_project_restore_sum (h2 : (2 : K) ≠ 0) (sym : Bool) (pa : (x : ι) → fa x → oa → K) (pb : (x : ι) → fb x → ob → K)
    (ha : ResolvesIdentity pa) (hb : ResolvesIdentity pb) (c2 : UC2 oa ob va vb K)
    (haa : ∀ i j a b, (blocksOf c2).aa j i b a = (blocksOf c2).aa i j a b)
    (hbb : ∀ i j a b, (blocksOf c2).bb j i b a = (blocksOf c2).bb i j a b)
    (hba : ∀ i j a b, (blocksOf c2).ba j i b a = (blocksOf c2).ab i j a b) :
    (∀ i j a b, ∑ x, (blocksOf (restoreUC2 (pa x, pb x) sym (projectUC2 (pa x, pb x) c2))).aa i j a b = (blocksOf c2).aa i j a b) ∧
    (∀ i j a b, ∑ x, (blocksOf (restoreUC2 (pa x, pb x) sym (projectUC2 (pa x, pb x) c2))).ab i j a b = (blocksOf c2).ab i j a b) ∧
    (∀ i j a b, ∑ x, (blocksOf (restoreUC2 (pa x, pb x) sym (projectUC2 (pa x, pb x) c2))).ba i j a b = (blocksOf c2).ba i j a b) ∧
    (∀ i j a b, ∑ x, (blocksOf (restoreUC2 (pa x, pb x) sym (projectUC2 (pa x, pb x) c2))).bb i j a b = (blocksOf c2).bb i j a b) := by
  have key : ∀ x, projectUC2 (pa x, pb x) c2 = ⟨projectC2 (pa x) (blocksOf c2).aa, projectC2 (pa x) (blocksOf c2).ab,
      projectC2 (pb x) (blocksOf c2).ba, projectC2 (pb x) (blocksOf c2).bb⟩ := by
    intro x
    cases c2 <;> rfl
  simp only [key]
  generalize blocksOf c2 = B at *
  obtain ⟨aa, ab, ba, bb⟩ := B
  dsimp only at haa hbb hba ⊢
  have hab : ∀ i j a b, ∑ x, (projectC2 (tr (pa x)) (projectC2 (pa x) ab) i j a b +
      projectC2 (tr (pb x)) (projectC2 (pb x) ba) j i b a) / 2 = ab i j a b := by
    intro i j a b
    rw [← Finset.sum_div, Finset.sum_add_distrib, project_restore_c2 pa ha, project_restore_c2 pb hb, hba]
    field_simp
    ring
  cases sym
  · exact ⟨project_restore_c2 pa ha aa, project_restore_c2 pa ha ab, project_restore_c2 pb hb ba, project_restore_c2 pb hb bb⟩
  · refine ⟨project_restore_sym h2 pa ha aa haa, hab, ?_, project_restore_sym h2 pb hb bb hbb⟩
    intro i j a b
    rw [hba j i b a]
    exact hab j i b a

/-- C28. Unrestricted singles. -/
theorem u_project_restore_singles (sym : Bool) (pa : (x : ι) → fa x → oa → K) (pb : (x : ι) → fb x → ob → K)
    (ha : ResolvesIdentity pa) (hb : ResolvesIdentity pb) (w : UCcsd oa ob va vb K) (i : oa) (a : va) (j : ob) (b : vb) :
    ∑ x, ((w.project (pa x, pb x)).restore sym).t1.1 i a = w.t1.1 i a ∧
      ∑ x, ((w.project (pa x, pb x)).restore sym).t1.2 j b = w.t1.2 j b :=
  ⟨project_restore_c1 pa ha _ i a, project_restore_c1 pb hb _ j b⟩

end C28u

section Examples

/-- Two occupied orbitals, two fragments, each holding one combination of the two: a resolution of the identity. -/
example : ResolvesIdentity (ι := Fin 2) (f := fun _ => Fin 1) (K := ℚ)
    (fun x _ i => if x = 0 then (if i = 0 then 3 / 5 else 4 / 5) else (if i = (0 : Fin 2) then 4 / 5 else -3 / 5)) := by
  intro i j
  fin_cases i <;> fin_cases j <;> norm_num [Fin.sum_univ_two]

/-- Non-trivial exchange-symmetric doubles. -/
example : ∃ t : T2 (Fin 2) (Fin 2) (Fin 1) (Fin 1) ℚ, (∀ i j a b, t j i b a = t i j a b) ∧ t 0 1 0 0 ≠ 0 :=
  ⟨fun _ _ _ _ => 1, fun _ _ _ _ => rfl, one_ne_zero⟩

/-- Round trip on a concrete wave function with c0 = 1/2. -/
example : ∃ w : RCisd (Fin 1) (Fin 2) (Fin 1) ℚ,
    RCcsd.asCisd (1 / 2 : ℚ) (RCcsd.full (fun i _ => if i = 0 then 1 else 2) (fun i j _ _ => if i = j then 3 else 4) none none) = .ok w ∧
    w.asCcsd = .full (fun i _ => if i = 0 then 1 else 2) (fun i j _ _ => if i = j then 3 else 4)
      (some fun i _ => if i = 0 then 1 else 2) (some fun i j _ _ => if i = j then 3 else 4) :=
  rccsd_to_cisd_to_ccsd _ (by norm_num) _ _ _ _

/-- The four-block failure is met by a concrete wave function: `c0 = 1/2`, unit singles. -/
example : ∃ c4, (UCcsd.asCisd (1 / 2 : ℚ) (oa := Fin 1) (ob := Fin 1) (va := Fin 1) (vb := Fin 1)
    ⟨(fun _ _ => 1, fun _ _ => 1), .four ⟨fun _ _ _ _ => 0, fun _ _ _ _ => 0, transp fun _ _ _ _ => 0, fun _ _ _ _ => 0⟩⟩).c2 = .four c4 ∧
    c4.ba ≠ transp c4.ab :=
  uccsd_four_block_as_cisd_false (1 / 2 : ℚ) (by norm_num) (by norm_num) (fun _ _ => 1, fun _ _ => 1) 0 0 0 0 one_ne_zero
    one_ne_zero ⟨fun _ _ _ _ => 0, fun _ _ _ _ => 0, fun _ _ _ _ => 0⟩

end Examples

end Vayesta.Props
