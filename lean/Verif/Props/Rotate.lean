import Verif.Model.Rotate
import Verif.Props.Amplitudes
import Mathlib.Algebra.BigOperators.Group.Finset.Piecewise
import Mathlib.Data.Fintype.Sum
import Mathlib.Algebra.BigOperators.Fin

/-! # C48: rotating the orbitals of a wave function does not change the wave function -/

namespace Vayesta.Props
open Vayesta.Amplitudes Vayesta.Rotate Vayesta.Tensor

section
variable {ao o v K : Type} [Field K] [Fintype o] [Fintype v]

/-- `R Rᵀ = 1`. -/
def Orthogonal {n m : Type} [Fintype m] [DecidableEq n] (R : n → m → K) : Prop := ∀ i j, ∑ k, R i k * R j k = if i = j then 1 else 0

/-- The basis-independent (atomic-orbital) form of singles: `Σ_ia C_μi t_ia C_νa`. -/
def aoT1 (c : ao → o ⊕ v → K) (t : T1 o v K) : ao → ao → K := fun μ ν => ∑ i, ∑ a, c μ (.inl i) * t i a * c ν (.inr a)

/-- The basis-independent form of doubles; the two electrons may use different orbitals. -/
def aoT2 {o' v' : Type} [Fintype o'] [Fintype v'] (c : ao → o ⊕ v → K) (c' : ao → o' ⊕ v' → K) (t : T2 o o' v v' K) :
    ao → ao → ao → ao → K :=
  fun μ ν κ l => ∑ i, ∑ j, ∑ a, ∑ b, c μ (.inl i) * c' ν (.inl j) * c κ (.inr a) * c' l (.inr b) * t i j a b

theorem transformC1_eq {o' v' : Type} (c1 : T1 o v K) (uo : o → o' → K) (tv : v → v' → K) :
    transformC1 c1 uo tv = mm (tp uo) (mm c1 tv) := by
  funext i a
  simp only [transformC1, mm, tp, Finset.mul_sum]
  exact Finset.sum_congr rfl fun _ _ => Finset.sum_congr rfl fun _ _ => by ring

theorem transformC2_eq {o' v' p q p' q' : Type} [Fintype p] [Fintype q] (c2 : T2 o p v q K) (uo : o → o' → K) (uo2 : p → p' → K)
    (tv : v → v' → K) (tv2 : q → q' → K) :
    transformC2 c2 uo uo2 tv tv2 = L1 (tp uo) (L2 (tp uo2) (L3 (tp tv) (L4 (tp tv2) c2))) := by
  funext i j a b
  simp only [transformC2, L1, L2, L3, L4, tp, Finset.mul_sum]
  exact Finset.sum_congr rfl fun _ _ => Finset.sum_congr rfl fun _ _ => Finset.sum_congr rfl fun _ _ =>
    Finset.sum_congr rfl fun _ _ => by ring

theorem aoT1_eq (c : ao → o ⊕ v → K) (t : T1 o v K) :
    aoT1 c t = mm (fun μ i => c μ (.inl i)) (mm t (tp fun ν a => c ν (.inr a))) := by
  funext i a
  simp only [aoT1, mm, tp, Finset.mul_sum]
  exact Finset.sum_congr rfl fun _ _ => Finset.sum_congr rfl fun _ _ => by ring

theorem aoT2_eq {o' v' : Type} [Fintype o'] [Fintype v'] (c : ao → o ⊕ v → K) (c' : ao → o' ⊕ v' → K) (t : T2 o o' v v' K) :
    aoT2 c c' t = L1 (fun μ i => c μ (.inl i)) (L2 (fun μ i => c' μ (.inl i)) (L3 (fun μ i => c μ (.inr i))
      (L4 (fun μ i => c' μ (.inr i)) t))) := by
  funext i j a b
  simp only [aoT2, L1, L2, L3, L4, Finset.mul_sum]
  exact Finset.sum_congr rfl fun _ _ => Finset.sum_congr rfl fun _ _ => Finset.sum_congr rfl fun _ _ =>
    Finset.sum_congr rfl fun _ _ => by ring

theorem dotC_inl {o' v' : Type} (c : ao → o ⊕ v → K) (uo : o → o' → K) (tv : v → v' → K) :
    (fun μ i => dotC c (blockDiag uo tv) μ (.inl i)) = mm (fun μ i => c μ (.inl i)) uo := by
  funext μ i
  simp [dotC, blockDiag, mm]

theorem dotC_inr {o' v' : Type} (c : ao → o ⊕ v → K) (uo : o → o' → K) (tv : v → v' → K) :
    (fun μ i => dotC c (blockDiag uo tv) μ (.inr i)) = mm (fun μ i => c μ (.inr i)) tv := by
  funext μ i
  simp [dotC, blockDiag, mm]

theorem orthogonal_mm {n m : Type} [Fintype m] [DecidableEq n] (R : n → m → K) (h : Orthogonal R) : mm R (tp R) = delta := by
  funext i j
  exact h i j

theorem ao1_rotated [DecidableEq o] [DecidableEq v] {o' v' : Type} [Fintype o'] [Fintype v'] (c : ao → o ⊕ v → K) (uo : o → o' → K) (tv : v → v' → K)
    (ho : Orthogonal uo) (hv : Orthogonal tv) (t : T1 o v K) :
    aoT1 (dotC c (blockDiag uo tv)) (transformC1 t uo tv) = aoT1 c t := by
  rw [aoT1_eq, aoT1_eq, transformC1_eq, dotC_inl, dotC_inr, tp_mm]
  have e1 : ∀ X : o → ao → K, mm uo (mm (tp uo) X) = X := fun X => by rw [← mm_assoc, orthogonal_mm _ ho, delta_mm]
  have e2 : ∀ X : v → ao → K, mm tv (mm (tp tv) X) = X := fun X => by rw [← mm_assoc, orthogonal_mm _ hv, delta_mm]
  simp only [mm_assoc, e1, e2]

theorem ao2_rotated [DecidableEq o] [DecidableEq v] {o' v' p q p' q' : Type} [Fintype o'] [Fintype v'] [Fintype p] [Fintype q] [Fintype p'] [Fintype q']
    [DecidableEq p] [DecidableEq q]
    (c : ao → o ⊕ v → K) (d : ao → p ⊕ q → K) (uo : o → o' → K) (tv : v → v' → K) (uo2 : p → p' → K) (tv2 : q → q' → K)
    (ho : Orthogonal uo) (hv : Orthogonal tv) (ho2 : Orthogonal uo2) (hv2 : Orthogonal tv2) (t : T2 o p v q K) :
    aoT2 (dotC c (blockDiag uo tv)) (dotC d (blockDiag uo2 tv2)) (transformC2 t uo uo2 tv tv2) = aoT2 c d t := by
  rw [aoT2_eq, aoT2_eq, transformC2_eq, dotC_inl, dotC_inr, dotC_inl, dotC_inr]
  simp only [L4_L1, L4_L2, L4_L3, L3_L1, L3_L2, L2_L1, L1_L1, L2_L2, L3_L3, L4_L4, mm_assoc, orthogonal_mm _ ho,
    orthogonal_mm _ hv, orthogonal_mm _ ho2, orthogonal_mm _ hv2, mm_delta]

/-- C48, restricted. Rotating occupied and virtual orbitals among themselves by orthogonal matrices leaves the wave function (all
amplitudes in the atomic-orbital basis) unchanged. -/
theorem rwf_rotate_ov_invariant [DecidableEq o] [DecidableEq v] {o' v' : Type} [Fintype o'] [Fintype v'] (w : RWf ao o v K) (uo : o → o' → K) (tv : v → v' → K)
    (ho : Orthogonal uo) (hv : Orthogonal tv) :
    let w' := w.rotateOv uo tv
    aoT1 w'.coeff w'.t1 = aoT1 w.coeff w.t1 ∧ aoT2 w'.coeff w'.coeff w'.t2 = aoT2 w.coeff w.coeff w.t2 ∧
      w'.l1.map (aoT1 w'.coeff) = w.l1.map (aoT1 w.coeff) ∧
      w'.l2.map (aoT2 w'.coeff w'.coeff) = w.l2.map (aoT2 w.coeff w.coeff) := by
  refine ⟨ao1_rotated _ _ _ ho hv _, ao2_rotated _ _ _ _ _ _ ho hv ho hv _, ?_, ?_⟩
  · cases h : w.l1 with
    | none => simp [RWf.rotateOv, h]
    | some l => simp only [RWf.rotateOv, h, Option.map_some]; rw [ao1_rotated _ _ _ ho hv]
  · cases h : w.l2 with
    | none => simp [RWf.rotateOv, h]
    | some l => simp only [RWf.rotateOv, h, Option.map_some]; rw [ao2_rotated _ _ _ _ _ _ ho hv ho hv]

theorem transformC1_comp {o' v' o'' v'' : Type} [Fintype o'] [Fintype v'] (t : T1 o v K) (uo : o → o' → K) (tv : v → v' → K)
    (so : o' → o'' → K) (sv : v' → v'' → K) :
    transformC1 (transformC1 t uo tv) so sv = transformC1 t (mm uo so) (mm tv sv) := by
  simp only [transformC1_eq, tp_mm, mm_assoc]

theorem transformC2_comp {o' v' o'' v'' : Type} [Fintype o'] [Fintype v'] (t : T2 o o v v K) (uo : o → o' → K) (tv : v → v' → K)
    (so : o' → o'' → K) (sv : v' → v'' → K) :
    transformC2 (transformC2 t uo uo tv tv) so so sv sv = transformC2 t (mm uo so) (mm uo so) (mm tv sv) (mm tv sv) := by
  simp only [transformC2_eq, L4_L1, L4_L2, L4_L3, L3_L1, L3_L2, L2_L1, L1_L1, L2_L2, L3_L3, L4_L4, tp_mm]

/-- C48. Two rotations in a row are one rotation by the product. -/
theorem rwf_rotate_ov_comp {o' v' o'' v'' : Type} [Fintype o'] [Fintype v'] (w : RWf ao o v K) (uo : o → o' → K) (tv : v → v' → K)
    (so : o' → o'' → K) (sv : v' → v'' → K) :
    (w.rotateOv uo tv).rotateOv so sv = w.rotateOv (mm uo so) (mm tv sv) := by
  simp only [RWf.rotateOv, Option.map_map, RWf.mk.injEq]
  refine ⟨?_, transformC1_comp _ _ _ _ _, transformC2_comp _ _ _ _ _, ?_, ?_⟩
  · funext μ x
    cases x with
    | inl i =>
      have := congrFun (congrFun (dotC_inl (dotC w.coeff (blockDiag uo tv)) so sv) μ) i
      have h2 := congrFun (congrFun (dotC_inl w.coeff (mm uo so) (mm tv sv)) μ) i
      rw [this, h2, dotC_inl, mm_assoc]
    | inr i =>
      have := congrFun (congrFun (dotC_inr (dotC w.coeff (blockDiag uo tv)) so sv) μ) i
      have h2 := congrFun (congrFun (dotC_inr w.coeff (mm uo so) (mm tv sv)) μ) i
      rw [this, h2, dotC_inr, mm_assoc]
  · congr 1
    funext l
    exact transformC1_comp _ _ _ _ _
  · congr 1
    funext l
    exact transformC2_comp _ _ _ _ _

/-- C48. Rotating by an orthogonal matrix and back by its transpose returns the same wave function. -/
theorem rwf_rotate_back [DecidableEq o] [DecidableEq v] (w : RWf ao o v K) (uo : o → o → K) (tv : v → v → K) (ho : Orthogonal uo) (hv : Orthogonal tv) :
    (w.rotateOv uo tv).rotateOv (tp uo) (tp tv) = w := by
  rw [rwf_rotate_ov_comp, orthogonal_mm _ ho, orthogonal_mm _ hv]
  have e1 : ∀ t : T1 o v K, transformC1 t delta delta = t := by
    intro t
    have e : ∀ {n : Type} [DecidableEq n], (tp delta : n → n → K) = delta := by
      intro n _; funext i j; simp only [tp, delta, eq_comm]
    rw [transformC1_eq, e, delta_mm, mm_delta]
  have e2 : ∀ t : T2 o o v v K, transformC2 t delta delta delta delta = t := by
    intro t
    have e : ∀ {n : Type} [DecidableEq n], (tp delta : n → n → K) = delta := by
      intro n _; funext i j; simp only [tp, delta, eq_comm]
    rw [transformC2_eq, e, e, L4_delta, L3_delta, L2_delta, L1_delta]
  obtain ⟨c, t1, t2, l1, l2⟩ := w
  simp only [RWf.rotateOv, e1, e2, RWf.mk.injEq, true_and, Option.map_id', and_true]
  funext μ x
  cases x with
  | inl i => exact congrFun (congrFun ((dotC_inl c delta delta).trans (mm_delta _)) μ) i
  | inr i => exact congrFun (congrFun ((dotC_inr c delta delta).trans (mm_delta _)) μ) i

/-- C48. Rotation commutes with the conversion to CISD coefficients. -/
theorem rotate_commutes_with_cisd {f o' v' : Type} [Fintype f] (c0 : K) (t1 : T1 o v K) (t2 : T2 o o v v K) (uo : o → o' → K)
    (tv : v → v' → K) :
    ∃ c1 c2 d1 d2, RCcsd.asCisd c0 (.full t1 t2 none none : RCcsd f o v K) = .ok (.full c0 c1 c2) ∧
      RCcsd.asCisd c0 (.full (transformC1 t1 uo tv) (transformC2 t2 uo uo tv tv) none none : RCcsd f o' v' K) = .ok (.full c0 d1 d2) ∧
      d1 = transformC1 c1 uo tv ∧ d2 = transformC2 c2 uo uo tv tv := by
  refine ⟨_, _, _, _, rfl, rfl, ?_, ?_⟩
  · funext i a
    simp only [transformC1, Finset.mul_sum]
    exact Finset.sum_congr rfl fun _ _ => Finset.sum_congr rfl fun _ _ => by ring
  · funext i j a b
    have e : outer (transformC1 t1 uo tv) (transformC1 t1 uo tv) i j a b = transformC2 (outer t1 t1) uo uo tv tv i j a b := by
      simp only [outer, transformC1, transformC2]
      rw [Finset.sum_mul_sum]
      refine Finset.sum_congr rfl fun k _ => Finset.sum_congr rfl fun l _ => ?_
      rw [Finset.sum_mul_sum]
      exact Finset.sum_congr rfl fun _ _ => Finset.sum_congr rfl fun _ _ => by ring
    rw [e]
    simp only [transformC2, ← Finset.sum_add_distrib, Finset.mul_sum]
    exact Finset.sum_congr rfl fun _ _ => Finset.sum_congr rfl fun _ _ => Finset.sum_congr rfl fun _ _ =>
      Finset.sum_congr rfl fun _ _ => by ring

end

section Guard
variable {ao o v K : Type} [Field K] [LinearOrder K] [Fintype o] [Fintype v] [DecidableEq o] [DecidableEq v]

/-- C48. `rotate` accepts exactly the matrices that do not mix occupied and virtual orbitals (beyond the tolerance), and then
rotates by the diagonal blocks; without occupied or without virtual orbitals it always raises. -/
theorem rwf_rotate_iff (tol : K) (w w' : RWf ao o v K) (t : o ⊕ v → o ⊕ v → K) :
    (w.rotate tol t = .ok w' ↔ (Nonempty o ∧ Nonempty v ∧ (∀ i a, |t (.inl i) (.inr a)| ≤ tol) ∧
        (∀ i a, |t (.inr a) (.inl i)| ≤ tol)) ∧
        w' = w.rotateOv (fun i j => t (.inl i) (.inl j)) (fun a b => t (.inr a) (.inr b))) ∧
      (∀ e, w.rotate tol t = .error e → e = .valueError) := by
  constructor
  · simp only [RWf.rotate, Fintype.card_eq_zero_iff]
    split_ifs with h1 h2
    · constructor
      · intro h; cases h
      · rintro ⟨⟨a, b, -⟩, -⟩
        exact absurd h1 (by simp [a, b])
    · constructor
      · intro h; cases h
      · rintro ⟨⟨-, -, h3, h4⟩, -⟩
        rcases h2 with ⟨i, a, h⟩ | ⟨i, a, h⟩
        · exact absurd (h3 i a) (not_le.2 h)
        · exact absurd (h4 i a) (not_le.2 h)
    · simp only [not_or, Fintype.card_eq_zero_iff, not_isEmpty_iff] at h1
      simp only [not_or, not_exists, not_lt] at h2
      simp only [Except.ok.injEq, h1, h2, implies_true, and_self, true_and, eq_comm]
  · intro e h
    simp only [RWf.rotate] at h
    split_ifs at h <;> first | (cases h; rfl) | cases h

end Guard

section Unrestricted
variable {ao oa ob va vb K : Type} [Field K] [Fintype oa] [Fintype va] [DecidableEq oa] [DecidableEq va]

/-- All amplitudes of an unrestricted wave function in the atomic-orbital basis. -/
def aoU {ob vb : Type} [Fintype ob] [Fintype vb] (w : UWf ao oa ob va vb K) :
    (ao → ao → K) × (ao → ao → K) × (ao → ao → ao → ao → K) × (ao → ao → ao → ao → K) × (ao → ao → ao → ao → K) ×
      (ao → ao → ao → ao → K) :=
  match w.t2 with
  | .three c => (aoT1 w.coeffA w.t1.1, aoT1 w.coeffB w.t1.2, aoT2 w.coeffA w.coeffA c.aa, aoT2 w.coeffA w.coeffB c.ab,
      aoT2 w.coeffB w.coeffA (transp c.ab), aoT2 w.coeffB w.coeffB c.bb)
  | .four c => (aoT1 w.coeffA w.t1.1, aoT1 w.coeffB w.t1.2, aoT2 w.coeffA w.coeffA c.aa, aoT2 w.coeffA w.coeffB c.ab,
      aoT2 w.coeffB w.coeffA c.ba, aoT2 w.coeffB w.coeffB c.bb)

/-- C48, unrestricted (part of): the wave function is unchanged when both spins are rotated by the same orthogonal matrices. (For
different rotations the claim is false, `uwf_rotate_ov_false`; for different numbers of orbitals the call raises,
`uwf_rotate_ov_raises`.) -/
theorem uwf_rotate_ov_invariant_partial (w : UWf ao oa oa va va K) (uo : oa → oa → K) (tv : va → va → K)
    (ho : Orthogonal uo) (hv : Orthogonal tv) :
    ∃ w', w.rotateOv (some (Equiv.refl _)) (uo, uo) (tv, tv) = .ok w' ∧ aoU w' = aoU w := by
  refine ⟨_, rfl, ?_⟩
  have eA : dotC w.coeffA (fun i j => blockDiag uo tv (Equiv.refl _ i) (Equiv.refl _ j)) = dotC w.coeffA (blockDiag uo tv) := rfl
  obtain ⟨cA, cB, ⟨t1a, t1b⟩, t2⟩ := w
  cases t2 with
  | three c =>
    have et : transp (transformC2 c.ab uo uo tv tv) = transformC2 (transp c.ab) uo uo tv tv := by
      have h : transp (L1 (tp uo) (L2 (tp uo) (L3 (tp tv) (L4 (tp tv) c.ab)))) =
        L2 (tp uo) (L1 (tp uo) (L4 (tp tv) (L3 (tp tv) (transp c.ab)))) := rfl
      rw [transformC2_eq, transformC2_eq, h, L2_L1, L4_L3]
    simp only [aoU, transformUC2, et]
    simp only [eA]
    rw [ao1_rotated _ _ _ ho hv, ao1_rotated _ _ _ ho hv, ao2_rotated _ _ _ _ _ _ ho hv ho hv, ao2_rotated _ _ _ _ _ _ ho hv ho hv,
      ao2_rotated _ _ _ _ _ _ ho hv ho hv, ao2_rotated _ _ _ _ _ _ ho hv ho hv]
  | four c =>
    simp only [aoU, transformUC2]
    simp only [eA]
    rw [ao1_rotated _ _ _ ho hv, ao1_rotated _ _ _ ho hv, ao2_rotated _ _ _ _ _ _ ho hv ho hv, ao2_rotated _ _ _ _ _ _ ho hv ho hv,
      ao2_rotated _ _ _ _ _ _ ho hv ho hv, ao2_rotated _ _ _ _ _ _ ho hv ho hv]

/-- C48 is false for unrestricted wave functions with unequal numbers of alpha and beta orbitals: every rotation raises. -/
theorem uwf_rotate_ov_raises [Fintype ob] [Fintype vb] (w : UWf ao oa ob va vb K) (uo : (oa → oa → K) × (ob → ob → K))
    (tv : (va → va → K) × (vb → vb → K)) : w.rotateOv none uo tv = .error .valueError := rfl

/-- C48 is false for unrestricted wave functions: one occupied and one virtual orbital per spin, the alpha occupied orbital
changes sign, everything else stays. The amplitudes are transformed, but the alpha orbitals are not. -/
theorem uwf_rotate_ov_false :
    ∃ (w w' : UWf (Fin 2) (Fin 1) (Fin 1) (Fin 1) (Fin 1) ℚ) (uo : (Fin 1 → Fin 1 → ℚ) × (Fin 1 → Fin 1 → ℚ))
      (tv : (Fin 1 → Fin 1 → ℚ) × (Fin 1 → Fin 1 → ℚ)),
      Orthogonal uo.1 ∧ Orthogonal uo.2 ∧ Orthogonal tv.1 ∧ Orthogonal tv.2 ∧
      w.rotateOv (some (Equiv.refl _)) uo tv = .ok w' ∧ aoU w' ≠ aoU w := by
  refine ⟨⟨fun μ x => if (μ = 0 ∧ x = .inl 0) ∨ (μ = 1 ∧ x = .inr 0) then 1 else 0,
      fun μ x => if (μ = 0 ∧ x = .inl 0) ∨ (μ = 1 ∧ x = .inr 0) then 1 else 0, (fun _ _ => 1, fun _ _ => 1),
      .three ⟨fun _ _ _ _ => 0, fun _ _ _ _ => 0, fun _ _ _ _ => 0⟩⟩, _,
    (fun _ _ => -1, fun _ _ => 1), (fun _ _ => 1, fun _ _ => 1), ?_, ?_, ?_, ?_, rfl, ?_⟩
  · intro i j; fin_cases i; fin_cases j; simp
  · intro i j; fin_cases i; fin_cases j; simp
  · intro i j; fin_cases i; fin_cases j; simp
  · intro i j; fin_cases i; fin_cases j; simp
  · intro h
    have := congrFun (congrFun (congrArg Prod.fst h) 0) 1
    norm_num [aoU, aoT1, dotC, blockDiag, transformC1, transformUC2] at this

/-- A non-trivial orthogonal matrix. -/
example : Orthogonal (K := ℚ) (fun i j : Fin 2 => if i = j then 3 / 5 else if i = 0 then 4 / 5 else -4 / 5) := by
  intro i j
  fin_cases i <;> fin_cases j <;> norm_num [Fin.sum_univ_two]

/-- `rotate` accepts a non-trivial matrix and rejects a mixing one. -/
example (w : RWf (Fin 2) (Fin 1) (Fin 1) ℚ) :
    (∃ w', w.rotate (1 / 1000) (fun x y => if x = y then -1 else 0) = .ok w') ∧
      w.rotate (1 / 1000) (fun _ _ => 1) = .error .valueError := by
  constructor
  · refine ⟨_, ((rwf_rotate_iff _ w _ _).1).2 ⟨⟨inferInstance, inferInstance, ?_, ?_⟩, rfl⟩⟩ <;> intro i a <;>
      rw [if_neg (by simp)] <;> norm_num
  · simp only [RWf.rotate]
    rw [if_neg (by simp), if_pos (by left; exact ⟨0, 0, by norm_num⟩)]

end Unrestricted
end Vayesta.Props
