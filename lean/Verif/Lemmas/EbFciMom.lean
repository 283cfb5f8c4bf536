import Verif.Lemmas.EbFciTotal
import Verif.Model.EbFciMom
import Mathlib.Logic.Function.Iterate

/-! Moments of the density response. -/

set_option linter.unusedSectionVars false

namespace Vayesta.EbFci

open Matrix Vayesta.Spec.EbFci

section
variable {n K : Type} [Fintype n] [DecidableEq n] [Field K] {X : Type} [Fintype X] [DecidableEq X]

/-- The first `k + 1` intermediates. -/
def interList {ι : Type} (hopf : (X → K) → X → K) (e0 : K) (t : ι → X → K) (k : Nat) : List (ι → X → K) :=
  (List.range (k + 1)).map fun i j => (shifted hopf e0)^[i] (t j)

theorem lookup_interList {ι : Type} (hopf : (X → K) → X → K) (e0 : K) (t : ι → X → K) (k i : Nat) (h : i ≤ k) :
    lookupKey (interList hopf e0 t k) i = .ok fun j => (shifted hopf e0)^[i] (t j) := by
  unfold lookupKey interList
  rw [List.getElem?_map, List.getElem?_range (by omega)]
  rfl

theorem intermeds_eq {ι : Type} (hopf : (X → K) → X → K) (e0 : K) (t : ι → X → K) (k : Nat) : intermeds hopf e0 t k = .ok (interList hopf e0 t k) := by
  induction k with
  | zero => rfl
  | succ k ih =>
    unfold intermeds at ih ⊢
    rw [List.range_succ, List.foldlM_append, ih]
    show (do let x ← lookupKey (interList hopf e0 t k) k; pure (interList hopf e0 t k ++ [fun j => shifted hopf e0 (x j)])) >>= _ = _
    rw [lookup_interList _ _ _ _ _ (le_refl k)]
    show Except.ok _ = Except.ok _
    congr 1
    unfold interList
    rw [List.range_succ (n := k + 1), List.map_append]
    congr 1
    simp only [List.map_cons, List.map_nil, Function.iterate_succ_apply']

theorem momentStep_eq {ι κ : Type} (hopf : (X → K) → X → K) (e0 : K) (ta : ι → X → K) (tb : κ → X → K) (maxInt imom : Nat) (h : imom ≤ 2 * maxInt) :
    momentStep (interList hopf e0 ta maxInt) (interList hopf e0 tb maxInt) maxInt imom
      = .ok ⟨dots (fun i => (shifted hopf e0)^[imom - min imom maxInt] (ta i)) (fun i => (shifted hopf e0)^[min imom maxInt] (ta i)),
          dots (fun i => (shifted hopf e0)^[imom - min imom maxInt] (ta i)) (fun i => (shifted hopf e0)^[min imom maxInt] (tb i)),
          dots (fun i => (shifted hopf e0)^[imom - min imom maxInt] (tb i)) (fun i => (shifted hopf e0)^[min imom maxInt] (tb i))⟩ := by
  unfold momentStep
  dsimp only
  rw [lookup_interList _ _ _ _ _ (Nat.min_le_right _ _), lookup_interList _ _ tb _ _ (Nat.min_le_right _ _), lookup_interList _ _ ta _ _ (by omega),
    lookup_interList _ _ tb _ _ (by omega)]
  rfl

theorem mapM_ok {α β : Type} (l : List α) (f : α → Except PyErr β) (g : α → β) (h : ∀ x ∈ l, f x = .ok (g x)) : l.mapM f = .ok (l.map g) := by
  induction l with
  | nil => rfl
  | cons x l ih =>
    rw [List.mapM_cons, h x (by simp), ih fun y hy => h y (by simp [hy])]
    rfl

/-! ### Powers of the shifted Hamiltonian -/

theorem shifted_pow (H : Matrix X X K) (hopf : (X → K) → X → K) (hH : ∀ c, hopf c = H *ᵥ c) (e0 : K) (k : Nat) (c : X → K) :
    (shifted hopf e0)^[k] c = ((H - e0 • 1) ^ k) *ᵥ c := by
  have h1 : ∀ c, shifted hopf e0 c = (H - e0 • 1) *ᵥ c := by
    intro c
    funext x
    rw [Matrix.sub_mulVec, Matrix.smul_mulVec, Matrix.one_mulVec]
    simp [shifted, hH]
  induction k generalizing c with
  | zero => simp
  | succ k ih => rw [Function.iterate_succ_apply, h1, ih, mulVec_mulVec, ← pow_succ]

theorem pow_transpose (H : Matrix X X K) (hH : Hᵀ = H) (k : Nat) : (H ^ k)ᵀ = H ^ k := by
  rw [Matrix.transpose_pow, hH]

theorem dots_pow (H : Matrix X X K) (hs : Hᵀ = H) (e0 : K) (l r : Nat) (x y : X → K) :
    ((H - e0 • 1) ^ l *ᵥ x) ⬝ᵥ ((H - e0 • 1) ^ r *ᵥ y) = x ⬝ᵥ (((H - e0 • 1) ^ (l + r)) *ᵥ y) := by
  have h1 : (H - e0 • 1)ᵀ = H - e0 • (1 : Matrix X X K) := by
    rw [Matrix.transpose_sub, hs, Matrix.transpose_smul, Matrix.transpose_one]
  rw [pow_add, ← mulVec_mulVec, dotProduct_mulVec x, ← Matrix.mulVec_transpose, pow_transpose _ h1]

theorem pow_ground (H : Matrix X X K) (e0 : K) (c : X → K) (hc : H *ᵥ c = e0 • c) (k : Nat) (hk : k ≠ 0) : ((H - e0 • 1) ^ k) *ᵥ c = 0 := by
  obtain ⟨j, rfl⟩ := Nat.exists_eq_succ_of_ne_zero hk
  rw [pow_succ, ← mulVec_mulVec, Matrix.sub_mulVec, Matrix.smul_mulVec, Matrix.one_mulVec, hc, sub_self, Matrix.mulVec_zero]

/-- A moment of the fluctuations around the expectation values. -/
theorem fluctuation (H : Matrix X X K) (hs : Hᵀ = H) (e0 : K) (c : X → K) (hc : H *ᵥ c = e0 • c) (h1 : c ⬝ᵥ c = 1) (O P : Matrix X X K) (k : Nat) :
    expect c ((O - expect c O • 1)ᵀ * (H - e0 • 1) ^ k * (P - expect c P • 1))
      = (O *ᵥ c) ⬝ᵥ (((H - e0 • 1) ^ k) *ᵥ (P *ᵥ c)) - if k = 0 then expect c O * expect c P else 0 := by
  have ht : (H - e0 • 1)ᵀ = H - e0 • (1 : Matrix X X K) := by
    rw [Matrix.transpose_sub, hs, Matrix.transpose_smul, Matrix.transpose_one]
  have e1 : expect c ((O - expect c O • 1)ᵀ * (H - e0 • 1) ^ k * (P - expect c P • 1))
      = (O *ᵥ c - expect c O • c) ⬝ᵥ (((H - e0 • 1) ^ k) *ᵥ (P *ᵥ c - expect c P • c)) := by
    rw [expect, mul_assoc, ← mulVec_mulVec, dotProduct_mulVec, Matrix.vecMul_transpose, ← mulVec_mulVec, Matrix.sub_mulVec, Matrix.sub_mulVec,
      Matrix.smul_mulVec, Matrix.smul_mulVec, Matrix.one_mulVec]
  rw [e1]
  by_cases hk : k = 0
  · subst hk
    simp only [pow_zero, Matrix.one_mulVec, if_true, sub_dotProduct, dotProduct_sub, smul_dotProduct, dotProduct_smul, smul_eq_mul, h1]
    have e2 : (O *ᵥ c) ⬝ᵥ c = expect c O := by rw [dotProduct_comm]; rfl
    have e3 : c ⬝ᵥ (P *ᵥ c) = expect c P := rfl
    rw [e2, e3]
    ring
  · rw [if_neg hk, sub_zero, Matrix.mulVec_sub, Matrix.mulVec_smul, pow_ground H e0 c hc k hk, smul_zero, sub_zero, sub_dotProduct, smul_dotProduct]
    rw [dotProduct_mulVec c, ← Matrix.mulVec_transpose, pow_transpose _ ht, pow_ground H e0 c hc k hk, zero_dotProduct, smul_zero, sub_zero]

theorem moments_eq {ι κ : Type} (H : Matrix X X K) (hs : Hᵀ = H) (hopf : (X → K) → X → K) (hH : ∀ c, hopf c = H *ᵥ c) (e0 : K) (c : X → K)
    (hc : H *ᵥ c = e0 • c) (h1 : c ⬝ᵥ c = 1) (O : ι → Matrix X X K) (P : κ → Matrix X X K) (ta : ι → X → K) (tb : κ → X → K)
    (hO : ∀ i, ta i = O i *ᵥ c) (hP : ∀ i, tb i = P i *ᵥ c) (ra : ι → K) (rb : κ → K) (hra : ∀ i, ra i = expect c (O i)) (hrb : ∀ i, rb i = expect c (P i)) (maxMom : Nat) :
    moments hopf e0 maxMom ta tb ra rb = .ok ((List.range (maxMom + 1)).map fun k =>
      (⟨fun i j => expect c ((O i - expect c (O i) • 1)ᵀ * (H - e0 • 1) ^ k * (O j - expect c (O j) • 1)),
        fun i j => expect c ((O i - expect c (O i) • 1)ᵀ * (H - e0 • 1) ^ k * (P j - expect c (P j) • 1)),
        fun i j => expect c ((P i - expect c (P i) • 1)ᵀ * (H - e0 • 1) ^ k * (P j - expect c (P j) • 1))⟩ : Mom ι κ K)) := by
  unfold moments
  dsimp only
  rw [intermeds_eq, intermeds_eq]
  show (do
    let ms ← (List.range (maxMom + 1)).mapM (m := Except PyErr) (momentStep (interList hopf e0 ta ((maxMom + 1) / 2)) (interList hopf e0 tb ((maxMom + 1) / 2)) ((maxMom + 1) / 2))
    pure (fixHead ra rb ms)) = _
  have key : ∀ k ∈ List.range (maxMom + 1), momentStep (interList hopf e0 ta ((maxMom + 1) / 2)) (interList hopf e0 tb ((maxMom + 1) / 2)) ((maxMom + 1) / 2) k
      = .ok (⟨fun i j => (O i *ᵥ c) ⬝ᵥ (((H - e0 • 1) ^ k) *ᵥ (O j *ᵥ c)), fun i j => (O i *ᵥ c) ⬝ᵥ (((H - e0 • 1) ^ k) *ᵥ (P j *ᵥ c)),
          fun i j => (P i *ᵥ c) ⬝ᵥ (((H - e0 • 1) ^ k) *ᵥ (P j *ᵥ c))⟩ : Mom ι κ K) := by
    intro k hk
    have hk' : k < maxMom + 1 := List.mem_range.mp hk
    rw [momentStep_eq _ _ _ _ _ _ (by omega)]
    have hsum : k - min k ((maxMom + 1) / 2) + min k ((maxMom + 1) / 2) = k := by omega
    have hd : ∀ x y : X → K, (∑ z, (shifted hopf e0)^[k - min k ((maxMom + 1) / 2)] x z * (shifted hopf e0)^[min k ((maxMom + 1) / 2)] y z)
        = x ⬝ᵥ (((H - e0 • 1) ^ k) *ᵥ y) := by
      intro x y
      rw [shifted_pow H hopf hH, shifted_pow H hopf hH]
      have := dots_pow H hs e0 (k - min k ((maxMom + 1) / 2)) (min k ((maxMom + 1) / 2)) x y
      rw [hsum] at this
      exact this
    simp only [hO, hP]
    congr 2 <;> (funext i j; exact hd _ _)
  rw [mapM_ok _ _ _ key]
  show Except.ok _ = Except.ok _
  congr 1
  rw [List.range_succ_eq_map]
  simp only [List.map_cons, List.map_map, fixHead]
  have hf := fluctuation H hs e0 c hc h1
  congr 1
  · unfold fixZero
    congr 1 <;> (funext i j; dsimp only; rw [hf]; simp [hra, hrb])
  · refine List.map_congr_left fun k _ => ?_
    simp only [Function.comp_apply]
    congr 1 <;> (funext i j; rw [hf]; simp)

end

end Vayesta.EbFci
