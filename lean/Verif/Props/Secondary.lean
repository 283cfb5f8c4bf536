import Verif.Model.Secondary
import Mathlib.Algebra.Module.Basic
import Mathlib.Tactic.Abel

/-! # C16: secondary fragments -/

namespace Vayesta.Props
open Vayesta.Secondary

variable {K R S B : Type} [Mul K]

/-- What a secondary pair has to look like, for one primary fragment `fx`: the enlarged one (weight of the primary, bath options
`big`) and the double-counting one (opposite weight, bath options of the primary). -/
structure IsPair (solver : S) (big : BathOpts K R) (fx plus minus : Frag K R S B) : Prop where
  solver : plus.solver = solver ∧ minus.solver = solver
  orb : plus.orb = fx.orb ∧ minus.orb = fx.orb
  bath : plus.bath = big ∧ minus.bath = fx.bath
  weights : weight plus = weight fx ∧ weight minus = - weight fx
  flags : plus.isSecfrag = true ∧ minus.isSecfrag = true
  parents : plus.bathParent = some fx.id ∧ minus.bathParent = some fx.id
  envelop : plus.isEnvelop = true ∧ minus.isEnvelop = false

/-- The reduced bath options: a given threshold replaces all thresholds, otherwise every threshold set is scaled by the factor. -/
def reducedBath (bnoThreshold : Option K) (factor : K) (b big : BathOpts K R) : Prop :=
  big.rest = b.rest ∧
  (∀ t, bnoThreshold = some t → big.threshold = some t ∧ big.thresholdOcc = none ∧ big.thresholdVir = none) ∧
  (bnoThreshold = none →
    (∀ x, big.threshold = some x ↔ ∃ y, b.threshold = some y ∧ x = y * factor) ∧
    (∀ x, big.thresholdOcc = some x ↔ ∃ y, b.thresholdOcc = some y ∧ x = y * factor) ∧
    (∀ x, big.thresholdVir = some x ↔ ∃ y, b.thresholdVir = some y ∧ x = y * factor))

theorem secBath_spec (bnoThreshold : Option K) (factor : K) (b : BathOpts K R) :
    reducedBath bnoThreshold factor b (secBath bnoThreshold factor b) := by
  cases bnoThreshold with
  | some t => simp [reducedBath, secBath]
  | none =>
    have : ∀ o : Option K, ∀ x, o.map (· * factor) = some x ↔ ∃ y, o = some y ∧ x = y * factor := by
      intro o x
      cases o with
      | none => simp
      | some y => simp [eq_comm]
    refine ⟨rfl, by simp, fun _ => ⟨this _, this _, this _⟩⟩

theorem negOrOne_eq (f : Frag K R S B) (hw : weight f ≠ 0) : negOrOne f.wfFactor = - weight f := by
  simp only [weight] at hw ⊢
  cases h : f.wfFactor with
  | none => simp [negOrOne]
  | some w =>
    have : w ≠ 0 := by simpa [h] using hw
    simp [negOrOne, this]

/-- C16 (part): for primary fragments without symmetry parent and with non-zero weight, each primary fragment gets exactly one
pair, in order, with fresh ids; primary fragments lose the envelope flag and are otherwise unchanged. What is missing: weight
zero, see `secondary_zero_weight`. -/
theorem secondary_pairs_partial (bnoThreshold : Option K) (factor : K) (solver : S) (next : Nat) (fs : List (Frag K R S B))
    (hs : ∀ f ∈ fs, f.symParent = none) (hw : ∀ f ∈ fs, weight f ≠ 0) :
    ∃ prim new, createSecondary bnoThreshold factor solver next fs = .ok (prim, new, next + 2 * fs.length) ∧
      prim = fs.map (fun f => { f with isEnvelop := false }) ∧
      new.map (·.id) = List.range' next (2 * fs.length) ∧
      ∃ pairs : List (Frag K R S B × Frag K R S B), new = pairs.flatMap (fun p => [p.1, p.2]) ∧
        List.Forall₂ (fun fx (p : Frag K R S B × Frag K R S B) => ∃ big, reducedBath bnoThreshold factor fx.bath big ∧ IsPair solver big fx p.1 p.2) fs pairs := by
  induction fs generalizing next with
  | nil => exact ⟨[], [], rfl, rfl, rfl, [], rfl, .nil⟩
  | cons fx fs ih =>
    obtain ⟨prim, new, h1, h2, h3, pairs, h4, h5⟩ := ih (next + 2) (fun f hf => hs f (by simp [hf])) (fun f hf => hw f (by simp [hf]))
    have hsx := hs fx (by simp)
    have hwx := hw fx (by simp)
    let plus : Frag K R S B := { fx with id := next, solver := solver, bath := secBath bnoThreshold factor fx.bath,
                                         isEnvelop := true, isSecfrag := true, bathParent := some fx.id }
    let minus : Frag K R S B := { fx with id := next + 1, solver := solver, wfFactor := some (negOrOne fx.wfFactor),
                                          isEnvelop := false, isSecfrag := true, bathParent := some fx.id }
    refine ⟨{ fx with isEnvelop := false } :: prim, plus :: minus :: new, ?_, ?_, ?_, (plus, minus) :: pairs, ?_⟩
    · simp only [createSecondary, hsx, Option.isSome_none, Bool.false_eq_true, if_false, h1, Except.map, List.length_cons]
      rw [show next + 2 + 2 * fs.length = next + 2 * (fs.length + 1) by omega]
      simp only [plus, minus, hsx]
    · rw [List.map_cons, ← h2]
    · simp only [List.map_cons, h3, List.length_cons]
      rw [show 2 * (fs.length + 1) = 2 * fs.length + 1 + 1 by omega, List.range'_succ, List.range'_succ]
    · refine ⟨by rw [List.flatMap_cons, ← h4]; rfl, .cons ?_ h5⟩
      refine ⟨_, secBath_spec bnoThreshold factor fx.bath, ⟨rfl, rfl⟩, ⟨rfl, rfl⟩, ⟨rfl, rfl⟩, ⟨rfl, ?_⟩, ⟨rfl, rfl⟩, ⟨rfl, rfl⟩, ⟨rfl, rfl⟩⟩
      exact negOrOne_eq fx hwx

/-- C16: a primary fragment with a symmetry parent is refused. -/
theorem secondary_rejects_symmetry_derived (bnoThreshold : Option K) (factor : K) (solver : S) (next : Nat) (fs : List (Frag K R S B))
    (h : ∃ f ∈ fs, f.symParent ≠ none) : createSecondary bnoThreshold factor solver next fs = .error .notImplementedError := by
  induction fs generalizing next with
  | nil => simp at h
  | cons fx fs ih =>
    unfold createSecondary
    cases hx : fx.symParent with
    | some p => simp
    | none =>
      have : ∃ f ∈ fs, f.symParent ≠ none := by
        obtain ⟨f, hf, hp⟩ := h
        rcases List.mem_cons.1 hf with rfl | hf
        · exact absurd hx hp
        · exact ⟨f, hf, hp⟩
      simp [ih _ this, Except.map]

/-- C16 (part): with any energy functional `E` of solver, fragment orbitals and bath options, the weighted sum over primary and
secondary fragments is the primary result plus, per primary fragment, the low-level difference between enlarged and original
bath. -/
theorem secondary_total_partial {M : Type} [AddCommGroup M] (E : S → B → BathOpts K R → M) (bnoThreshold : Option K) (factor : K) (solver : S)
    (next : Nat) (fs prim new : List (Frag K R S B)) (n : Nat) (hw : ∀ f ∈ fs, weight f ≠ 0)
    (h : createSecondary bnoThreshold factor solver next fs = .ok (prim, new, n)) :
    ((prim ++ new).map fun f => weight f • E f.solver f.orb f.bath).sum =
      (fs.map fun f => weight f • (E f.solver f.orb f.bath +
        (E solver f.orb (secBath bnoThreshold factor f.bath) - E solver f.orb f.bath))).sum := by
  induction fs generalizing next prim new n with
  | nil =>
    simp only [createSecondary, Except.ok.injEq, Prod.mk.injEq] at h
    obtain ⟨rfl, rfl, _⟩ := h
    simp
  | cons fx fs ih =>
    unfold createSecondary at h
    split at h
    · cases h
    · cases hr : createSecondary bnoThreshold factor solver (next + 2) fs with
      | error e => rw [hr] at h; cases h
      | ok r =>
        obtain ⟨prim', new', n'⟩ := r
        rw [hr] at h
        simp only [Except.map, Except.ok.injEq, Prod.mk.injEq] at h
        obtain ⟨rfl, rfl, _⟩ := h
        have ih' := ih (next + 2) prim' new' n' (fun f hf => hw f (by simp [hf])) hr
        have hwx : weight fx ≠ 0 := hw fx (by simp)
        have hneg := negOrOne_eq fx hwx
        rw [List.map_append, List.sum_append] at ih'
        simp only [List.cons_append, List.map_cons, List.map_append, List.sum_cons, List.sum_append]
        rw [← ih']
        simp only [weight, Option.getD_some, hneg, smul_add, smul_sub, neg_smul]
        generalize fx.wfFactor.getD 1 • E solver fx.orb fx.bath = x
        generalize fx.wfFactor.getD 1 • E solver fx.orb (secBath bnoThreshold factor fx.bath) = y
        generalize fx.wfFactor.getD 1 • E fx.solver fx.orb fx.bath = z
        abel

/-- C16 (part): if the low-level result does not depend on the bath, the total equals the primary result. -/
theorem secondary_cancels_partial {M : Type} [AddCommGroup M] (E : S → B → BathOpts K R → M) (bnoThreshold : Option K) (factor : K) (solver : S)
    (next : Nat) (fs prim new : List (Frag K R S B)) (n : Nat) (hw : ∀ f ∈ fs, weight f ≠ 0)
    (h : createSecondary bnoThreshold factor solver next fs = .ok (prim, new, n)) (hE : ∀ o b b', E solver o b = E solver o b') :
    ((prim ++ new).map fun f => weight f • E f.solver f.orb f.bath).sum = (fs.map fun f => weight f • E f.solver f.orb f.bath).sum := by
  rw [secondary_total_partial E bnoThreshold factor solver next fs prim new n hw h]
  congr 1
  apply List.map_congr_left
  intro f _
  rw [hE f.orb (secBath bnoThreshold factor f.bath) f.bath, sub_self, add_zero]

/-- C16: the claim fails for a primary fragment of weight zero: its enlarged copy has weight 0 but the double-counting copy has
weight -1 (`wf_factor or 1`). -/
theorem secondary_zero_weight :
    ∃ (fx : Frag Nat Unit Unit Unit) (prim new : List (Frag Nat Unit Unit Unit)) (n : Nat),
      createSecondary none 2 () 1 [fx] = .ok (prim, new, n) ∧ weight fx = 0 ∧ new.map weight = [0, -1] := by
  refine ⟨⟨0, (), (), ⟨some 1, none, none, ()⟩, some 0, true, false, none, none⟩, _, _, _, rfl, rfl, rfl⟩

/-- Non-vacuity: two primary fragments, one with weight -1 and split thresholds. -/
example : (createSecondary none 10 "MP2" 2
    [(⟨0, (), "CCSD", ⟨some 1, none, none, ()⟩, none, true, false, none, none⟩ : Frag Nat Unit String Unit),
     ⟨1, (), "CCSD", ⟨none, some 2, some 3, ()⟩, some (-1), true, false, none, none⟩]).map (fun r => r.2.1.map fun f => (f.id, weight f, f.bath.thresholdVir)) =
    .ok [(2, 1, none), (3, -1, none), (4, -1, some 30), (5, 1, some 3)] := by rfl

end Vayesta.Props
