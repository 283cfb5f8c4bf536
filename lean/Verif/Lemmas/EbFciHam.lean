import Verif.Lemmas.EbFci
import Mathlib.Tactic.Module
import Mathlib.Algebra.Module.BigOperators

/-! The Hamiltonian applied by the electron-boson code. -/

set_option linter.unusedSectionVars false

namespace Vayesta.EbFci

open Matrix Vayesta.Spec.EbFci

section
variable {n K : Type} [Fintype n] [DecidableEq n] [Field K] {k na nb nbos m : Nat}
variable {ta : Table n na K} {tb : Table n nb K} {Ea : n → n → Matrix (Fin na) (Fin na) K} {Eb : n → n → Matrix (Fin nb) (Fin nb) K}

theorem sum2_mulVec {ι κ X : Type} [Fintype ι] [Fintype κ] [Fintype X] (M : ι → κ → Matrix X X K) (c : X → K) :
    (∑ p, ∑ q, M p q) *ᵥ c = ∑ p, ∑ q, M p q *ᵥ c := by
  simp only [Matrix.sum_mulVec]

theorem dotLast_eq {X : Type} [Fintype X] (eri : n → n → n → n → K) (E : n → n → Matrix X X K) (c : X → K) (b j : n) :
    (fun x => ∑ a, ∑ i, eri b j a i * (E a i *ᵥ c) x) = (∑ a, ∑ i, eri b j a i • E a i) *ᵥ c := by
  funext x
  simp only [Matrix.sum_mulVec, Finset.sum_apply, Matrix.smul_mulVec, Pi.smul_apply, smul_eq_mul]

theorem dotFirst_eq {X : Type} [Fintype X] (eri : n → n → n → n → K) (E : n → n → Matrix X X K) (c : X → K) (b j : n) :
    (fun x => ∑ a, ∑ i, eri a i b j * (E a i *ᵥ c) x) = (∑ a, ∑ i, eri a i b j • E a i) *ᵥ c := by
  funext x
  simp only [Matrix.sum_mulVec, Finset.sum_apply, Matrix.smul_mulVec, Pi.smul_apply, smul_eq_mul]

theorem sum4_swap {M : Type} [AddCommMonoid M] (f : n → n → n → n → M) : (∑ b, ∑ j, ∑ a, ∑ i, f b j a i) = ∑ a, ∑ i, ∑ b, ∑ j, f b j a i := by
  have h := Finset.sum_comm (s := (Finset.univ : Finset (n × n))) (t := (Finset.univ : Finset (n × n))) (f := fun x y => f x.1 x.2 y.1 y.2)
  simpa only [Fintype.sum_prod_type] using h

theorem contract2e_eq (hA : Tabulates ta Ea) (hB : Tabulates tb Eb) (eri : n → n → n → n → K) (c : Idx na nb nbos m → K) :
    contract2e ta tb eri c = (∑ p, ∑ q, ∑ r, ∑ s, eri p q r s • (spinSum Ea Eb p q * spinSum Ea Eb r s)) *ᵥ c := by
  have h1 : (fun (a i : n) (x : Idx na nb nbos m) => excA ta c a i x + excB tb c a i x) = fun a i => spinSum Ea Eb a i *ᵥ c := by
    funext a i x
    rw [excA_eq hA, excB_eq hB, spinSum, Matrix.add_mulVec, Pi.add_apply]
  have h2 : dotLast eri (fun a i => spinSum Ea Eb a i *ᵥ c) = fun b j => (∑ a, ∑ i, eri b j a i • (spinSum Ea Eb a i : Matrix (Idx na nb nbos m) (Idx na nb nbos m) K)) *ᵥ c := by
    funext b j
    exact dotLast_eq eri _ c b j
  unfold contract2e
  dsimp only
  rw [h1, h2, applyB_eq hB, applyA_eq hA]
  have h0 : (fun _ : Idx na nb nbos m => (0 : K)) = 0 := rfl
  rw [h0, zero_add, ← Finset.sum_add_distrib, Matrix.sum_mulVec]
  refine Finset.sum_congr rfl fun p _ => ?_
  rw [← Finset.sum_add_distrib, Matrix.sum_mulVec]
  refine Finset.sum_congr rfl fun q _ => ?_
  rw [← Matrix.add_mulVec, mulVec_mulVec]
  congr 1
  show spinSum Ea Eb p q * _ = _
  simp only [Finset.mul_sum, Matrix.mul_smul]

theorem ucontract2e_eq (hA : Tabulates ta Ea) (hB : Tabulates tb Eb) (aa ab bb : n → n → n → n → K) (c : Idx na nb nbos m → K) :
    ucontract2e ta tb aa ab bb c
      = ((∑ p, ∑ q, ∑ r, ∑ s, aa p q r s • (onA (Ea p q) * onA (Ea r s))) + (2 : K) • (∑ p, ∑ q, ∑ r, ∑ s, ab p q r s • (onA (Ea p q) * onB (Eb r s)))
          + ∑ p, ∑ q, ∑ r, ∑ s, bb p q r s • (onB (Eb p q) * onB (Eb r s))) *ᵥ c := by
  have h1 : excA ta c = fun a i => onA (Ea a i) *ᵥ c := by funext a i; exact excA_eq hA c a i
  have h2 : excB tb c = fun a i => onB (Eb a i) *ᵥ c := by funext a i; exact excB_eq hB c a i
  have h3 : (fun (b j : n) (x : Idx na nb nbos m) => dotLast aa (excA ta c) b j x + dotLast ab (excB tb c) b j x)
      = fun b j => ((∑ a, ∑ i, aa b j a i • onA (Ea a i)) + ∑ a, ∑ i, ab b j a i • onB (Eb a i)) *ᵥ c := by
    funext b j
    rw [Matrix.add_mulVec, ← dotLast_eq, ← dotLast_eq, h1, h2]; rfl
  have h4 : (fun (b j : n) (x : Idx na nb nbos m) => dotLast bb (excB tb c) b j x + dotFirst ab (excA ta c) b j x)
      = fun b j => ((∑ a, ∑ i, bb b j a i • onB (Eb a i)) + ∑ a, ∑ i, ab a i b j • onA (Ea a i)) *ᵥ c := by
    funext b j
    rw [Matrix.add_mulVec, ← dotLast_eq, ← dotFirst_eq, h1, h2]; rfl
  unfold ucontract2e
  dsimp only
  rw [h3, h4, applyB_eq hB, applyA_eq hA]
  have h0 : (fun _ : Idx na nb nbos m => (0 : K)) = 0 := rfl
  rw [h0, zero_add]
  simp only [mulVec_mulVec]
  rw [← sum2_mulVec, ← sum2_mulVec, ← Matrix.add_mulVec]
  congr 1
  simp only [mul_add, Finset.mul_sum, Matrix.mul_smul, Finset.sum_add_distrib]
  have h5 : (∑ b, ∑ j, ∑ a, ∑ i, ab a i b j • (onB (Eb b j) * onA (Ea a i) : Matrix (Idx na nb nbos m) (Idx na nb nbos m) K))
      = ∑ p, ∑ q, ∑ r, ∑ s, ab p q r s • (onA (Ea p q) * onB (Eb r s)) := by
    simp only [onA_onB]
    exact sum4_swap fun b j a i => ab a i b j • (onB (Eb b j) * onA (Ea a i) : Matrix (Idx na nb nbos m) (Idx na nb nbos m) K)
  rw [h5, two_smul]
  abel

/-! ### One-body terms folded into the two-body operator -/

theorem absorb_sum {X : Type} [Fintype X] [DecidableEq X] (E : n → n → Matrix X X K) (N : K) (hN : N ≠ 0) (h2 : (2 : K) ≠ 0) (hE : ∑ p, E p p = N • (1 : Matrix X X K))
    (h : n → n → K) (g : n → n → n → n → K) :
    (∑ p, ∑ q, ∑ r, ∑ s, absorb h g N p q r s • (E p q * E r s))
      = (∑ p, ∑ q, h p q • E p q) + (1 / 2 : K) • ∑ p, ∑ q, ∑ r, ∑ s, g p q r s • normal E p q r s := by
  have e1 : (∑ p, ∑ q, ∑ r, ∑ s, (if p = q then f1e h g N r s else 0) • (E p q * E r s)) = N • ∑ r, ∑ s, f1e h g N r s • E r s := by
    have : ∀ p q : n, (∑ r, ∑ s, (if p = q then f1e h g N r s else 0) • (E p q * E r s)) = if p = q then E p p * (∑ r, ∑ s, f1e h g N r s • E r s) else 0 := by
      intro p q
      split_ifs with hpq
      · subst hpq; simp only [Finset.mul_sum, Matrix.mul_smul]
      · simp
    simp only [this, Finset.sum_ite_eq, Finset.mem_univ, if_true]
    rw [← Finset.sum_mul, hE, Matrix.smul_mul, Matrix.one_mul]
  have e2 : (∑ p, ∑ q, ∑ r, ∑ s, (if r = s then f1e h g N p q else 0) • (E p q * E r s)) = N • ∑ p, ∑ q, f1e h g N p q • E p q := by
    have : ∀ p q : n, (∑ r, ∑ s, (if r = s then f1e h g N p q else 0) • (E p q * E r s)) = N • f1e h g N p q • E p q := by
      intro p q
      simp only [ite_smul, zero_smul, Finset.sum_ite_eq, Finset.mem_univ, if_true]
      rw [← Finset.smul_sum, ← Finset.mul_sum, hE, Matrix.mul_smul, Matrix.mul_one, smul_comm]
    simp only [this, ← Finset.smul_sum]
  have e3 : ∀ p q : n, N • f1e h g N p q • E p q = h p q • E p q - (1 / 2 : K) • (∑ i, g p i i q) • E p q := by
    intro p q
    rw [smul_smul, smul_smul, ← sub_smul]
    congr 1
    unfold f1e
    field_simp
  have e4 : (∑ p, ∑ q, ∑ r, ∑ s, g p q r s • (if q = r then E p s else 0)) = ∑ p, ∑ s, (∑ i, g p i i s) • E p s := by
    refine Finset.sum_congr rfl fun p _ => ?_
    have : ∀ q r : n, (∑ s, g p q r s • (if q = r then E p s else 0)) = if q = r then ∑ s, g p q q s • E p s else 0 := by
      intro q r
      split_ifs with hqr
      · subst hqr; rfl
      · simp
    simp only [this, Finset.sum_ite_eq, Finset.mem_univ, if_true]
    rw [Finset.sum_comm]
    simp only [Finset.sum_smul]
  have e5 : (∑ p, ∑ q, ∑ r, ∑ s, absorb h g N p q r s • (E p q * E r s))
      = (1 / 2 : K) • ((∑ p, ∑ q, ∑ r, ∑ s, g p q r s • (E p q * E r s)) + (∑ p, ∑ q, ∑ r, ∑ s, (if p = q then f1e h g N r s else 0) • (E p q * E r s))
        + ∑ p, ∑ q, ∑ r, ∑ s, (if r = s then f1e h g N p q else 0) • (E p q * E r s)) := by
    simp only [← Finset.sum_add_distrib, Finset.smul_sum, ← add_smul]
    refine Finset.sum_congr rfl fun p _ => Finset.sum_congr rfl fun q _ => Finset.sum_congr rfl fun r _ => Finset.sum_congr rfl fun s _ => ?_
    rw [smul_smul]
    congr 1
    unfold absorb
    field_simp
  have e6 : (∑ p, ∑ q, ∑ r, ∑ s, g p q r s • normal E p q r s)
      = (∑ p, ∑ q, ∑ r, ∑ s, g p q r s • (E p q * E r s)) - ∑ p, ∑ s, (∑ i, g p i i s) • E p s := by
    rw [← e4]
    simp only [normal, smul_sub, Finset.sum_sub_distrib]
  have e7 : N • (∑ r, ∑ s, f1e h g N r s • E r s) = (∑ p, ∑ q, h p q • E p q) - (1 / 2 : K) • ∑ p, ∑ s, (∑ i, g p i i s) • E p s := by
    simp only [Finset.smul_sum, e3, Finset.sum_sub_distrib]
  rw [e5, e1, e2, e7, e6]
  have e8 : (2 : K)⁻¹ + 2⁻¹ = 1 := by field_simp; norm_num
  generalize (∑ p, ∑ q, ∑ r, ∑ s, g p q r s • (E p q * E r s)) = A
  generalize (∑ p, ∑ q, h p q • E p q) = B
  generalize (∑ p, ∑ s, (∑ i, g p i i s) • E p s) = C
  have : (1 / 2 : K) • (A + (B - (1 / 2 : K) • C) + (B - (1 / 2 : K) • C)) = (1 / 2 : K) • A + ((2 : K)⁻¹ + 2⁻¹) • B - ((2 : K)⁻¹ + 2⁻¹) • (1 / 2 : K) • C := by
    module
  rw [this, e8, one_smul, one_smul]
  module

theorem spinSum_number {Na Nb : Nat} (hA : Generators Ea Na) (hB : Generators Eb Nb) :
    ∑ p, (spinSum Ea Eb p p : Matrix (Idx na nb nbos m) (Idx na nb nbos m) K) = ((Na + Nb : Nat) : K) • 1 := by
  simp only [spinSum, Finset.sum_add_distrib]
  rw [← onA_sum, ← onB_sum, hA.number, hB.number, onA_smul_one, onB_smul_one, ← add_smul, Nat.cast_add]

theorem onA_number {Na : Nat} (hA : Generators Ea Na) :
    ∑ p, (onA (Ea p p) : Matrix (Idx na nb nbos m) (Idx na nb nbos m) K) = (Na : K) • 1 := by
  rw [← onA_sum, hA.number, onA_smul_one]

theorem onB_number {Nb : Nat} (hB : Generators Eb Nb) :
    ∑ p, (onB (Eb p p) : Matrix (Idx na nb nbos m) (Idx na nb nbos m) K) = (Nb : K) • 1 := by
  rw [← onB_sum, hB.number, onB_smul_one]

theorem electrons_eq {Na Nb : Nat} (tA : Tabulates ta Ea) (tB : Tabulates tb Eb) (hA : Generators Ea Na) (hB : Generators Eb Nb)
    (hN : ((Na + Nb : Nat) : K) ≠ 0) (h2 : (2 : K) ≠ 0) (h : n → n → K) (g : n → n → n → n → K) (c : Idx na nb nbos m → K) :
    contract2e ta tb (absorb h g ((Na + Nb : Nat) : K)) c = electrons Ea Eb h g *ᵥ c := by
  rw [contract2e_eq tA tB, absorb_sum _ _ hN h2 (spinSum_number hA hB)]
  rfl

/-- The general form of `absorb_sum` with one-body terms divided by a number different from the number of electrons. -/
theorem uabsorb_same {X : Type} [Fintype X] [DecidableEq X] (E : n → n → Matrix X X K) (M : K) (h2 : (2 : K) ≠ 0) (hE : ∑ p, E p p = M • (1 : Matrix X X K))
    (f : n → n → K) (g : n → n → n → n → K) :
    (∑ p, ∑ q, ∑ r, ∑ s, ((g p q r s + (if p = q then f r s else 0) + if r = s then f p q else 0) / 2) • (E p q * E r s))
      = (1 / 2 : K) • (∑ p, ∑ q, ∑ r, ∑ s, g p q r s • (E p q * E r s)) + M • ∑ p, ∑ q, f p q • E p q := by
  have e1 : (∑ p, ∑ q, ∑ r, ∑ s, (if p = q then f r s else 0) • (E p q * E r s)) = M • ∑ r, ∑ s, f r s • E r s := by
    have : ∀ p q : n, (∑ r, ∑ s, (if p = q then f r s else 0) • (E p q * E r s)) = if p = q then E p p * (∑ r, ∑ s, f r s • E r s) else 0 := by
      intro p q
      split_ifs with hpq
      · subst hpq; simp only [Finset.mul_sum, Matrix.mul_smul]
      · simp
    simp only [this, Finset.sum_ite_eq, Finset.mem_univ, if_true]
    rw [← Finset.sum_mul, hE, Matrix.smul_mul, Matrix.one_mul]
  have e2 : (∑ p, ∑ q, ∑ r, ∑ s, (if r = s then f p q else 0) • (E p q * E r s)) = M • ∑ p, ∑ q, f p q • E p q := by
    have : ∀ p q : n, (∑ r, ∑ s, (if r = s then f p q else 0) • (E p q * E r s)) = M • f p q • E p q := by
      intro p q
      simp only [ite_smul, zero_smul, Finset.sum_ite_eq, Finset.mem_univ, if_true]
      rw [← Finset.smul_sum, ← Finset.mul_sum, hE, Matrix.mul_smul, Matrix.mul_one, smul_comm]
    simp only [this, ← Finset.smul_sum]
  have e5 : (∑ p, ∑ q, ∑ r, ∑ s, ((g p q r s + (if p = q then f r s else 0) + if r = s then f p q else 0) / 2) • (E p q * E r s))
      = (1 / 2 : K) • ((∑ p, ∑ q, ∑ r, ∑ s, g p q r s • (E p q * E r s)) + (∑ p, ∑ q, ∑ r, ∑ s, (if p = q then f r s else 0) • (E p q * E r s))
        + ∑ p, ∑ q, ∑ r, ∑ s, (if r = s then f p q else 0) • (E p q * E r s)) := by
    simp only [← Finset.sum_add_distrib, Finset.smul_sum, ← add_smul]
    refine Finset.sum_congr rfl fun p _ => Finset.sum_congr rfl fun q _ => Finset.sum_congr rfl fun r _ => Finset.sum_congr rfl fun s _ => ?_
    rw [smul_smul]
    congr 1
    field_simp
  have e8 : (2 : K)⁻¹ + 2⁻¹ = 1 := by field_simp; norm_num
  rw [e5, e1, e2]
  generalize (∑ p, ∑ q, ∑ r, ∑ s, g p q r s • (E p q * E r s)) = A
  generalize M • (∑ p, ∑ q, f p q • E p q) = B
  have : (1 / 2 : K) • (A + B + B) = (1 / 2 : K) • A + ((2 : K)⁻¹ + 2⁻¹) • B := by module
  rw [this, e8, one_smul]

theorem uabsorb_mixed {X : Type} [Fintype X] [DecidableEq X] (E F : n → n → Matrix X X K) (Na Nb : K) (h2 : (2 : K) ≠ 0)
    (hE : ∑ p, E p p = Na • (1 : Matrix X X K)) (hF : ∑ p, F p p = Nb • (1 : Matrix X X K)) (fa fb : n → n → K) (g : n → n → n → n → K) :
    (2 : K) • (∑ p, ∑ q, ∑ r, ∑ s, absorbMixed fa fb g p q r s • (E p q * F r s))
      = (∑ p, ∑ q, ∑ r, ∑ s, g p q r s • (E p q * F r s)) + Nb • (∑ p, ∑ q, fa p q • E p q) + Na • ∑ p, ∑ q, fb p q • F p q := by
  have e1 : (∑ p, ∑ q, ∑ r, ∑ s, (if p = q then fb r s else 0) • (E p q * F r s)) = Na • ∑ r, ∑ s, fb r s • F r s := by
    have : ∀ p q : n, (∑ r, ∑ s, (if p = q then fb r s else 0) • (E p q * F r s)) = if p = q then E p p * (∑ r, ∑ s, fb r s • F r s) else 0 := by
      intro p q
      split_ifs with hpq
      · subst hpq; simp only [Finset.mul_sum, Matrix.mul_smul]
      · simp
    simp only [this, Finset.sum_ite_eq, Finset.mem_univ, if_true]
    rw [← Finset.sum_mul, hE, Matrix.smul_mul, Matrix.one_mul]
  have e2 : (∑ p, ∑ q, ∑ r, ∑ s, (if r = s then fa p q else 0) • (E p q * F r s)) = Nb • ∑ p, ∑ q, fa p q • E p q := by
    have : ∀ p q : n, (∑ r, ∑ s, (if r = s then fa p q else 0) • (E p q * F r s)) = Nb • fa p q • E p q := by
      intro p q
      simp only [ite_smul, zero_smul, Finset.sum_ite_eq, Finset.mem_univ, if_true]
      rw [← Finset.smul_sum, ← Finset.mul_sum, hF, Matrix.mul_smul, Matrix.mul_one, smul_comm]
    simp only [this, ← Finset.smul_sum]
  rw [← e1, ← e2]
  simp only [← Finset.sum_add_distrib, Finset.smul_sum, ← add_smul]
  refine Finset.sum_congr rfl fun p _ => Finset.sum_congr rfl fun q _ => Finset.sum_congr rfl fun r _ => Finset.sum_congr rfl fun s _ => ?_
  rw [smul_smul]
  congr 1
  unfold absorbMixed
  field_simp

theorem normal_sum {X : Type} [Fintype X] (E : n → n → Matrix X X K) (g : n → n → n → n → K) :
    (∑ p, ∑ q, ∑ r, ∑ s, g p q r s • normal E p q r s)
      = (∑ p, ∑ q, ∑ r, ∑ s, g p q r s • (E p q * E r s)) - ∑ p, ∑ s, (∑ i, g p i i s) • E p s := by
  have e4 : (∑ p, ∑ q, ∑ r, ∑ s, g p q r s • (if q = r then E p s else 0)) = ∑ p, ∑ s, (∑ i, g p i i s) • E p s := by
    refine Finset.sum_congr rfl fun p _ => ?_
    have : ∀ q r : n, (∑ s, g p q r s • (if q = r then E p s else 0)) = if q = r then ∑ s, g p q q s • E p s else 0 := by
      intro q r
      split_ifs with hqr
      · subst hqr; rfl
      · simp
    simp only [this, Finset.sum_ite_eq, Finset.mem_univ, if_true]
    rw [Finset.sum_comm]
    simp only [Finset.sum_smul]
  rw [← e4]
  simp only [normal, smul_sub, Finset.sum_sub_distrib]

theorem f1e_sum {X : Type} [Fintype X] (E : n → n → Matrix X X K) (N : K) (hN : N ≠ 0) (h : n → n → K) (g : n → n → n → n → K) :
    N • (∑ p, ∑ q, f1e h g N p q • E p q) = (∑ p, ∑ q, h p q • E p q) - (1 / 2 : K) • ∑ p, ∑ s, (∑ i, g p i i s) • E p s := by
  have e3 : ∀ p q : n, N • f1e h g N p q • E p q = h p q • E p q - (1 / 2 : K) • (∑ i, g p i i q) • E p q := by
    intro p q
    rw [smul_smul, smul_smul, ← sub_smul]
    congr 1
    unfold f1e
    field_simp
  simp only [Finset.smul_sum, e3, Finset.sum_sub_distrib]

theorem uelectrons_eq {Na Nb : Nat} (tA : Tabulates ta Ea) (tB : Tabulates tb Eb) (hA : Generators Ea Na) (hB : Generators Eb Nb)
    (hN : ((Na + Nb : Nat) : K) ≠ 0) (h2 : (2 : K) ≠ 0) (ha hb : n → n → K) (aa ab bb : n → n → n → n → K) (c : Idx na nb nbos m → K) :
    ucontract2e ta tb (absorb ha aa ((Na + Nb : Nat) : K)) (absorbMixed (f1e ha aa ((Na + Nb : Nat) : K)) (f1e hb bb ((Na + Nb : Nat) : K)) ab)
      (absorb hb bb ((Na + Nb : Nat) : K)) c = uelectrons Ea Eb ha hb aa ab bb *ᵥ c := by
  rw [ucontract2e_eq tA tB]
  congr 1
  rw [uabsorb_mixed _ _ (Na : K) (Nb : K) h2 (onA_number hA) (onB_number hB)]
  unfold absorb
  rw [uabsorb_same _ (Na : K) h2 (onA_number hA), uabsorb_same _ (Nb : K) h2 (onB_number hB)]
  have fa := f1e_sum (fun p q => (onA (Ea p q) : Matrix (Idx na nb nbos m) (Idx na nb nbos m) K)) _ hN ha aa
  have fb := f1e_sum (fun p q => (onB (Eb p q) : Matrix (Idx na nb nbos m) (Idx na nb nbos m) K)) _ hN hb bb
  rw [Nat.cast_add, add_smul] at fa fb
  unfold uelectrons
  rw [normal_sum, normal_sum]
  simp only [Finset.sum_add_distrib]
  simp only [Nat.cast_add] at fa fb ⊢
  linear_combination (norm := module) fa + fb

end

end Vayesta.EbFci
