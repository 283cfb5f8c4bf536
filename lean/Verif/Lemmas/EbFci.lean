import Verif.Spec.EbFci
import Mathlib.Tactic.Ring
import Mathlib.Tactic.Abel
import Mathlib.Tactic.FieldSimp
import Mathlib.Tactic.LinearCombination
import Mathlib.Algebra.BigOperators.Fin
import Mathlib.Data.Matrix.Basic

/-! The loops of the electron-boson code are matrix-vector products. -/

set_option linter.unusedSectionVars false

namespace Vayesta.EbFci

open Matrix Vayesta.Spec.EbFci

section
variable {n K : Type} [Fintype n] [DecidableEq n] [Field K] {k na nb nbos m : Nat}

/-- Sum of the signs of the matching rows. -/
def coeff (tab : Table n k K) (a i : n) (s1 s0 : Fin k) : K :=
  ((tab s0).map fun e => if a = e.a ∧ i = e.i ∧ s1 = e.str1 then e.sign else 0).sum

theorem coeff_eq {tab : Table n k K} {E : n → n → Matrix (Fin k) (Fin k) K} (h : Tabulates tab E) (a i : n) (s1 s0 : Fin k) :
    coeff tab a i s1 s0 = E a i s1 s0 := by
  rw [h]
  unfold coeff
  induction tab s0 with
  | nil => rfl
  | cons e l ih =>
    simp only [List.map_cons, List.sum_cons, ih, List.filter_cons]
    by_cases hc : e.a = a ∧ e.i = i ∧ e.str1 = s1
    · obtain ⟨rfl, rfl, rfl⟩ := hc; simp
    · have hc' : ¬ (a = e.a ∧ i = e.i ∧ s1 = e.str1) := fun ⟨x, y, z⟩ => hc ⟨x.symm, y.symm, z.symm⟩
      simp [hc, hc']

theorem list_sum_finRange {k : Nat} (f : Fin k → K) : ((List.finRange k).map f).sum = ∑ s, f s := by
  rw [← List.ofFn_eq_map, List.sum_ofFn]

theorem foldl_add_fun {ι X : Type} (l : List ι) (step : (X → K) → ι → X → K) (w : ι → X → K) (h : ∀ t e x, step t e x = t x + w e x) (t : X → K) (x : X) :
    l.foldl step t x = t x + (l.map fun e => w e x).sum := by
  induction l generalizing t with
  | nil => simp
  | cons e l ih => rw [List.foldl_cons, ih, h, List.map_cons, List.sum_cons]; ring

theorem foldl_add_fun3 {ι X Y Z : Type} (l : List ι) (step : (X → Y → Z → K) → ι → X → Y → Z → K) (w : ι → X → Y → Z → K)
    (h : ∀ t e x y z, step t e x y z = t x y z + w e x y z) (t : X → Y → Z → K) (x : X) (y : Y) (z : Z) :
    l.foldl step t x y z = t x y z + (l.map fun e => w e x y z).sum := by
  induction l generalizing t with
  | nil => simp
  | cons e l ih => rw [List.foldl_cons, ih, h, List.map_cons, List.sum_cons]; ring

theorem foldl_add_fun2 {ι X Y : Type} (l : List ι) (step : (X → Y → K) → ι → X → Y → K) (w : ι → X → Y → K)
    (h : ∀ t e x y, step t e x y = t x y + w e x y) (t : X → Y → K) (x : X) (y : Y) :
    l.foldl step t x y = t x y + (l.map fun e => w e x y).sum := by
  induction l generalizing t with
  | nil => simp
  | cons e l ih => rw [List.foldl_cons, ih, h, List.map_cons, List.sum_cons]; ring

private theorem sum_map_mul {ι : Type} (l : List ι) (f : ι → K) (c : K) : (l.map fun e => f e * c).sum = (l.map f).sum * c := by
  induction l with
  | nil => simp
  | cons e l ih => simp only [List.map_cons, List.sum_cons, ih]; ring

theorem scatter_eq (tab : Table n k K) (f : Fin k → K) (a i : n) (s : Fin k) : scatter tab f a i s = ∑ s0, coeff tab a i s s0 * f s0 := by
  unfold scatter
  rw [foldl_add_fun3 _ _ (fun s0 a i s => coeff tab a i s s0 * f s0), list_sum_finRange, zero_add]
  intro t s0 x y z
  rw [foldl_add_fun3 _ _ (fun e a i s => (if a = e.a ∧ i = e.i ∧ s = e.str1 then e.sign else 0) * f s0)]
  · rw [coeff, sum_map_mul]
  · intro t e x y z
    unfold scatterRow
    split_ifs <;> ring

theorem list_sum_swap {ι κ : Type} [Fintype κ] (l : List ι) (f : ι → κ → K) : (l.map fun e => ∑ x, f e x).sum = ∑ x, (l.map fun e => f e x).sum := by
  induction l with
  | nil => simp
  | cons e l ih => simp only [List.map_cons, List.sum_cons, ih, Finset.sum_add_distrib]

theorem gather_eq (tab : Table n k K) (t : n → n → Fin k → K) (fc : Fin k → K) (s : Fin k) :
    gather tab t fc s = fc s + ∑ a, ∑ i, ∑ s0, coeff tab a i s s0 * t a i s0 := by
  unfold gather
  rw [foldl_add_fun _ _ (fun s0 s => ∑ a, ∑ i, coeff tab a i s s0 * t a i s0), list_sum_finRange]
  · congr 1
    rw [Finset.sum_comm]
    exact Finset.sum_congr rfl fun _ _ => Finset.sum_comm
  intro fc s0 s
  rw [foldl_add_fun _ _ (fun e s => ∑ a, ∑ i, (if a = e.a ∧ i = e.i ∧ s = e.str1 then e.sign else 0) * t a i s0)]
  · congr 1
    rw [list_sum_swap]
    refine Finset.sum_congr rfl fun a _ => ?_
    rw [list_sum_swap]
    refine Finset.sum_congr rfl fun i _ => ?_
    rw [coeff, sum_map_mul]
  · intro fc e s
    unfold gatherRow
    by_cases h : s = e.str1
    · simp [h, ite_and]
    · simp [h]

theorem pull_eq (tab : Table n k K) (f : Fin k → K) (i a : n) (s0 : Fin k) : pull (tab s0) f i a = ∑ s1, coeff tab a i s1 s0 * f s1 := by
  unfold pull
  rw [foldl_add_fun2 _ _ (fun e i a => ∑ s1, (if a = e.a ∧ i = e.i ∧ s1 = e.str1 then e.sign else 0) * f s1)]
  · rw [zero_add, list_sum_swap]
    refine Finset.sum_congr rfl fun s1 _ => ?_
    rw [coeff, sum_map_mul]
  · intro t e x y
    unfold pullRow
    by_cases h : x = e.i <;> by_cases h' : y = e.a <;> simp [h, h']

theorem rdm1Spin_eq (tab : Table n k K) (dot : Fin k → Fin k → K) (d : n → n → K) (a i : n) :
    rdm1Spin tab dot d a i = d a i + ∑ s0, ∑ s1, coeff tab a i s1 s0 * dot s1 s0 := by
  unfold rdm1Spin
  rw [foldl_add_fun2 _ _ (fun s0 a i => ∑ s1, coeff tab a i s1 s0 * dot s1 s0), list_sum_finRange]
  intro t s0 x y
  rw [foldl_add_fun2 _ _ (fun e a i => ∑ s1, (if a = e.a ∧ i = e.i ∧ s1 = e.str1 then e.sign else 0) * dot s1 s0)]
  · congr 1
    rw [list_sum_swap]
    refine Finset.sum_congr rfl fun s1 _ => ?_
    rw [coeff, sum_map_mul]
  · intro t e x y
    unfold rdm1Row
    by_cases h : x = e.a <;> by_cases h' : y = e.i <;> simp [h, h']

/-! ### Products of operators on different factors -/

theorem onA_mulVec (M : Matrix (Fin na) (Fin na) K) (c : Idx na nb nbos m → K) (x : Idx na nb nbos m) :
    (onA M *ᵥ c) x = ∑ s, M x.1 s * c (s, x.2) := by
  obtain ⟨s, y⟩ := x
  simp only [mulVec, dotProduct, onA, Fintype.sum_prod_type (α₁ := Fin na), ite_mul, zero_mul]
  exact Finset.sum_congr rfl fun s' _ => by rw [Finset.sum_ite_eq]; simp

theorem onB_mulVec (M : Matrix (Fin nb) (Fin nb) K) (c : Idx na nb nbos m → K) (x : Idx na nb nbos m) :
    (onB M *ᵥ c) x = ∑ s, M x.2.1 s * c (x.1, s, x.2.2) := by
  obtain ⟨s, t, o⟩ := x
  simp only [mulVec, dotProduct, onB, Fintype.sum_prod_type, ite_mul, zero_mul, ite_and]
  simp

theorem excA_eq {ta : Table n na K} {Ea : n → n → Matrix (Fin na) (Fin na) K} (h : Tabulates ta Ea) (c : Idx na nb nbos m → K) (a i : n) :
    excA ta c a i = onA (Ea a i) *ᵥ c := by
  funext x
  rw [onA_mulVec]
  simp only [excA, scatter_eq, coeff_eq h]

theorem excB_eq {tb : Table n nb K} {Eb : n → n → Matrix (Fin nb) (Fin nb) K} (h : Tabulates tb Eb) (c : Idx na nb nbos m → K) (a i : n) :
    excB tb c a i = onB (Eb a i) *ᵥ c := by
  funext x
  rw [onB_mulVec]
  simp only [excB, scatter_eq, coeff_eq h]

theorem applyA_eq {ta : Table n na K} {Ea : n → n → Matrix (Fin na) (Fin na) K} (h : Tabulates ta Ea) (t : n → n → Idx na nb nbos m → K)
    (fc : Idx na nb nbos m → K) : applyA ta t fc = fc + ∑ a, ∑ i, onA (Ea a i) *ᵥ t a i := by
  funext x
  simp only [applyA, gather_eq, coeff_eq h, Pi.add_apply, Finset.sum_apply, onA_mulVec]

theorem applyB_eq {tb : Table n nb K} {Eb : n → n → Matrix (Fin nb) (Fin nb) K} (h : Tabulates tb Eb) (t : n → n → Idx na nb nbos m → K)
    (fc : Idx na nb nbos m → K) : applyB tb t fc = fc + ∑ a, ∑ i, onB (Eb a i) *ᵥ t a i := by
  funext x
  simp only [applyB, gather_eq, coeff_eq h, Pi.add_apply, Finset.sum_apply, onB_mulVec]

theorem t1A_eq {ta : Table n na K} {Ea : n → n → Matrix (Fin na) (Fin na) K} (h : Tabulates ta Ea) (ha : ∀ p q : n, (Ea p q)ᵀ = Ea q p)
    (c : Idx na nb nbos m → K) (i a : n) : t1A ta c i a = onA (Ea i a) *ᵥ c := by
  funext x
  rw [onA_mulVec]
  simp only [t1A, pull_eq, coeff_eq h]
  refine Finset.sum_congr rfl fun s _ => ?_
  rw [← ha a i, transpose_apply]

theorem t1B_eq {tb : Table n nb K} {Eb : n → n → Matrix (Fin nb) (Fin nb) K} (h : Tabulates tb Eb) (ha : ∀ p q : n, (Eb p q)ᵀ = Eb q p)
    (c : Idx na nb nbos m → K) (i a : n) : t1B tb c i a = onB (Eb i a) *ᵥ c := by
  funext x
  rw [onB_mulVec]
  simp only [t1B, pull_eq, coeff_eq h]
  refine Finset.sum_congr rfl fun s _ => ?_
  rw [← ha a i, transpose_apply]

theorem onA_transpose (M : Matrix (Fin na) (Fin na) K) : (onA M : Matrix (Idx na nb nbos m) (Idx na nb nbos m) K)ᵀ = onA Mᵀ := by
  funext x y
  simp only [transpose_apply, onA, eq_comm]

theorem onB_transpose (M : Matrix (Fin nb) (Fin nb) K) : (onB M : Matrix (Idx na nb nbos m) (Idx na nb nbos m) K)ᵀ = onB Mᵀ := by
  funext x y
  simp only [transpose_apply, onB, eq_comm]

private theorem mulVec_inj {X : Type} [Fintype X] [DecidableEq X] {M N : Matrix X X K} (h : ∀ c : X → K, M *ᵥ c = N *ᵥ c) : M = N := by
  funext i j
  have := congrFun (h (Pi.single j 1)) i
  simpa using this

theorem onA_mul (M N : Matrix (Fin na) (Fin na) K) : (onA M * onA N : Matrix (Idx na nb nbos m) (Idx na nb nbos m) K) = onA (M * N) := by
  apply mulVec_inj
  intro c
  funext x
  rw [← mulVec_mulVec, onA_mulVec, onA_mulVec]
  simp only [onA_mulVec, mul_apply, Finset.sum_mul, Finset.mul_sum]
  rw [Finset.sum_comm]
  exact Finset.sum_congr rfl fun _ _ => Finset.sum_congr rfl fun _ _ => by ring

theorem onB_mul (M N : Matrix (Fin nb) (Fin nb) K) : (onB M * onB N : Matrix (Idx na nb nbos m) (Idx na nb nbos m) K) = onB (M * N) := by
  apply mulVec_inj
  intro c
  funext x
  rw [← mulVec_mulVec, onB_mulVec, onB_mulVec]
  simp only [onB_mulVec, mul_apply, Finset.sum_mul, Finset.mul_sum]
  rw [Finset.sum_comm]
  exact Finset.sum_congr rfl fun _ _ => Finset.sum_congr rfl fun _ _ => by ring

theorem onA_onB (M : Matrix (Fin na) (Fin na) K) (N : Matrix (Fin nb) (Fin nb) K) :
    (onA M * onB N : Matrix (Idx na nb nbos m) (Idx na nb nbos m) K) = onB N * onA M := by
  apply mulVec_inj
  intro c
  funext x
  rw [← mulVec_mulVec, ← mulVec_mulVec, onA_mulVec, onB_mulVec]
  simp only [onA_mulVec, onB_mulVec, Finset.mul_sum]
  rw [Finset.sum_comm]
  exact Finset.sum_congr rfl fun _ _ => Finset.sum_congr rfl fun _ _ => by ring

theorem onA_add (M N : Matrix (Fin na) (Fin na) K) : (onA (M + N) : Matrix (Idx na nb nbos m) (Idx na nb nbos m) K) = onA M + onA N := by
  funext x y; simp only [onA, add_apply]; split_ifs <;> simp
theorem onA_sub (M N : Matrix (Fin na) (Fin na) K) : (onA (M - N) : Matrix (Idx na nb nbos m) (Idx na nb nbos m) K) = onA M - onA N := by
  funext x y; simp only [onA, sub_apply]; split_ifs <;> simp
theorem onB_sub (M N : Matrix (Fin nb) (Fin nb) K) : (onB (M - N) : Matrix (Idx na nb nbos m) (Idx na nb nbos m) K) = onB M - onB N := by
  funext x y; simp only [onB, sub_apply]; split_ifs <;> simp
theorem onA_zero : (onA (0 : Matrix (Fin na) (Fin na) K) : Matrix (Idx na nb nbos m) (Idx na nb nbos m) K) = 0 := by
  funext x y; simp [onA]
theorem onB_zero : (onB (0 : Matrix (Fin nb) (Fin nb) K) : Matrix (Idx na nb nbos m) (Idx na nb nbos m) K) = 0 := by
  funext x y; simp [onB]
theorem onA_sum {ι : Type} [Fintype ι] (M : ι → Matrix (Fin na) (Fin na) K) : (onA (∑ p, M p) : Matrix (Idx na nb nbos m) (Idx na nb nbos m) K) = ∑ p, onA (M p) := by
  funext x y; simp only [onA, Matrix.sum_apply]; split_ifs <;> simp
theorem onB_sum {ι : Type} [Fintype ι] (M : ι → Matrix (Fin nb) (Fin nb) K) : (onB (∑ p, M p) : Matrix (Idx na nb nbos m) (Idx na nb nbos m) K) = ∑ p, onB (M p) := by
  funext x y; simp only [onB, Matrix.sum_apply]; split_ifs <;> simp
theorem onA_smul_one (z : K) : (onA (z • (1 : Matrix (Fin na) (Fin na) K)) : Matrix (Idx na nb nbos m) (Idx na nb nbos m) K) = z • 1 := by
  funext x y
  simp only [onA, smul_apply, one_apply, Prod.ext_iff, smul_eq_mul, mul_ite, mul_one, mul_zero]
  by_cases h1 : x.1 = y.1 <;> by_cases h2 : x.2.1 = y.2.1 <;> by_cases h3 : x.2.2 = y.2.2 <;> simp [h1, h2, h3]
theorem onB_smul_one (z : K) : (onB (z • (1 : Matrix (Fin nb) (Fin nb) K)) : Matrix (Idx na nb nbos m) (Idx na nb nbos m) K) = z • 1 := by
  funext x y
  simp only [onB, smul_apply, one_apply, Prod.ext_iff, smul_eq_mul, mul_ite, mul_one, mul_zero]
  by_cases h1 : x.1 = y.1 <;> by_cases h2 : x.2.1 = y.2.1 <;> by_cases h3 : x.2.2 = y.2.2 <;> simp [h1, h2, h3]

/-! ### Bosons -/

theorem create_mulVec (sq : Nat → K) (b : Fin nbos) (c : Idx na nb nbos m → K) (x : Idx na nb nbos m) :
    (create sq b *ᵥ c) x = ∑ j : Fin m, if x.2.2 b = j.succ then c (x.1, x.2.1, Function.update x.2.2 b j.castSucc) * sq (j.val + 1) else 0 := by
  have key : ∀ y : Idx na nb nbos m, create sq b x y * c y
      = ∑ j : Fin m, if y = (x.1, x.2.1, Function.update x.2.2 b j.castSucc) then (if x.2.2 b = j.succ then c y * sq (j.val + 1) else 0) else 0 := by
    intro y
    unfold create
    split_ifs with hc
    · obtain ⟨h1, h2, h3, h4⟩ := hc
      have hlt : (y.2.2 b).val < m := by have := (x.2.2 b).isLt; omega
      rw [Finset.sum_eq_single ⟨(y.2.2 b).val, hlt⟩]
      · rw [if_pos, if_pos]
        · rw [mul_comm]
          dsimp only
          rw [h3]
        · apply Fin.ext
          simp [h3]
        · refine Prod.ext h1.symm (Prod.ext h2.symm ?_)
          funext b'
          dsimp only
          by_cases hb : b' = b
          · subst hb; rw [Function.update_self]; exact Fin.ext rfl
          · rw [Function.update_of_ne hb]; exact (h4 b' hb).symm
      · intro j _ hj
        rw [if_neg]
        intro hy
        apply hj
        apply Fin.ext
        have := congrFun (congrArg (fun z : Idx na nb nbos m => z.2.2) hy) b
        simp only [Function.update_self] at this
        have h5 := congrArg Fin.val this
        exact h5.symm
      · intro h; exact absurd (Finset.mem_univ _) h
    · rw [zero_mul]
      symm
      apply Finset.sum_eq_zero
      intro j _
      split_ifs with hy hx
      · exfalso
        apply hc
        subst hy
        refine ⟨rfl, rfl, ?_, fun b' hb => ?_⟩
        · simp [hx]
        · simp [Function.update_of_ne hb]
      · rfl
      · rfl
  simp only [mulVec, dotProduct, key]
  rw [Finset.sum_comm]
  refine Finset.sum_congr rfl fun j _ => ?_
  rw [Finset.sum_ite_eq']
  simp

theorem annihilate_mulVec (sq : Nat → K) (b : Fin nbos) (c : Idx na nb nbos m → K) (x : Idx na nb nbos m) :
    (annihilate sq b *ᵥ c) x = ∑ j : Fin m, if x.2.2 b = j.castSucc then c (x.1, x.2.1, Function.update x.2.2 b j.succ) * sq (j.val + 1) else 0 := by
  have key : ∀ y : Idx na nb nbos m, annihilate sq b x y * c y
      = ∑ j : Fin m, if y = (x.1, x.2.1, Function.update x.2.2 b j.succ) then (if x.2.2 b = j.castSucc then c y * sq (j.val + 1) else 0) else 0 := by
    intro y
    unfold annihilate
    rw [transpose_apply]
    unfold create
    split_ifs with hc
    · obtain ⟨h1, h2, h3, h4⟩ := hc
      have hlt : (x.2.2 b).val < m := by have := (y.2.2 b).isLt; omega
      rw [Finset.sum_eq_single ⟨(x.2.2 b).val, hlt⟩]
      · rw [if_pos, if_pos]
        · rw [mul_comm, h3]
        · rfl
        · refine Prod.ext h1 (Prod.ext h2 ?_)
          funext b'
          dsimp only
          by_cases hb : b' = b
          · subst hb; rw [Function.update_self]; exact Fin.ext (by simp [h3])
          · rw [Function.update_of_ne hb]; exact h4 b' hb
      · intro j _ hj
        rw [if_neg]
        intro hy
        apply hj
        apply Fin.ext
        have := congrFun (congrArg (fun z : Idx na nb nbos m => z.2.2) hy) b
        simp only [Function.update_self] at this
        have h5 : (y.2.2 b).val = j.val + 1 := by rw [this]; simp
        show j.val = (x.2.2 b).val
        omega
      · intro h; exact absurd (Finset.mem_univ _) h
    · rw [zero_mul]
      symm
      apply Finset.sum_eq_zero
      intro j _
      split_ifs with hy hx
      · exfalso
        apply hc
        subst hy
        refine ⟨rfl, rfl, ?_, fun b' hb => ?_⟩
        · simp [hx]
        · simp [Function.update_of_ne hb]
      · rfl
      · rfl
  simp only [mulVec, dotProduct, key]
  rw [Finset.sum_comm]
  refine Finset.sum_congr rfl fun j _ => ?_
  rw [Finset.sum_ite_eq']
  simp

theorem cre_eq (sq : Nat → K) (b : Fin nbos) (t fc : Idx na nb nbos m → K) : cre sq b t fc = fc + create sq b *ᵥ t := by
  funext x
  unfold cre
  rw [foldl_add_fun _ _ (fun (j : Fin m) x => if x.2.2 b = j.succ then t (x.1, x.2.1, Function.update x.2.2 b j.castSucc) * sq (j.val + 1) else 0),
    list_sum_finRange, Pi.add_apply, create_mulVec]
  intro t' j y
  unfold creStep
  split_ifs <;> simp

theorem des_eq (sq : Nat → K) (b : Fin nbos) (t fc : Idx na nb nbos m → K) : des sq b t fc = fc + annihilate sq b *ᵥ t := by
  funext x
  unfold des
  rw [foldl_add_fun _ _ (fun (j : Fin m) x => if x.2.2 b = j.castSucc then t (x.1, x.2.1, Function.update x.2.2 b j.succ) * sq (j.val + 1) else 0),
    list_sum_finRange, Pi.add_apply, annihilate_mulVec]
  intro t' j y
  unfold desStep
  split_ifs <;> simp

theorem foldl_add_vec {ι X : Type} (l : List ι) (step : (X → K) → ι → (X → K)) (w : ι → X → K) (h : ∀ t e, step t e = t + w e) (t : X → K) :
    l.foldl step t = t + (l.map w).sum := by
  induction l generalizing t with
  | nil => simp
  | cons e l ih => rw [List.foldl_cons, ih, h, List.map_cons, List.sum_cons, add_assoc]

theorem list_sum_finRange_vec {X : Type} {k : Nat} (f : Fin k → X → K) : ((List.finRange k).map f).sum = ∑ s, f s := by
  rw [← List.ofFn_eq_map, List.sum_ofFn]

/-! ### Electrons and bosons commute -/

theorem create_onA (sq : Nat → K) (b : Fin nbos) (M : Matrix (Fin na) (Fin na) K) :
    (create sq b * onA M : Matrix (Idx na nb nbos m) (Idx na nb nbos m) K) = onA M * create sq b := by
  apply mulVec_inj
  intro c
  funext x
  rw [← mulVec_mulVec, ← mulVec_mulVec, create_mulVec, onA_mulVec]
  simp only [onA_mulVec, create_mulVec, Finset.mul_sum, mul_ite, mul_zero, Finset.sum_mul]
  rw [Finset.sum_comm]
  refine Finset.sum_congr rfl fun s _ => ?_
  split_ifs
  · exact Finset.sum_congr rfl fun _ _ => by ring
  · simp

theorem create_onB (sq : Nat → K) (b : Fin nbos) (M : Matrix (Fin nb) (Fin nb) K) :
    (create sq b * onB M : Matrix (Idx na nb nbos m) (Idx na nb nbos m) K) = onB M * create sq b := by
  apply mulVec_inj
  intro c
  funext x
  rw [← mulVec_mulVec, ← mulVec_mulVec, create_mulVec, onB_mulVec]
  simp only [onB_mulVec, create_mulVec, Finset.mul_sum, mul_ite, mul_zero, Finset.sum_mul]
  rw [Finset.sum_comm]
  refine Finset.sum_congr rfl fun s _ => ?_
  split_ifs
  · exact Finset.sum_congr rfl fun _ _ => by ring
  · simp

end

end Vayesta.EbFci
