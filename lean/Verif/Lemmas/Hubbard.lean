import Verif.Model.Hubbard
import Verif.Spec.Hubbard
import Mathlib.Algebra.BigOperators.Group.Finset.Basic
import Mathlib.Algebra.Field.Basic
import Mathlib.Algebra.BigOperators.Ring.Finset
import Mathlib.Data.Int.Cast.Basic
import Mathlib.Tactic.Ring
import Mathlib.Tactic.LinearCombination
import Mathlib.Tactic.Push

/-! Lemmas for the Hubbard lattices. -/

namespace Vayesta.Hubbard
open HubbardSpec

section Ring
variable {K : Type} [CommRing K]

theorem foldl_entry {α : Type} (step : Mat K → α → Mat K) (c : α → Nat → Nat → K)
    (hs : ∀ h x p q, step h x p q = h p q + c x p q) (l : List α) (h : Mat K) (p q : Nat) :
    l.foldl step h p q = h p q + (l.map fun x => c x p q).sum := by
  induction l generalizing h with
  | nil => simp
  | cons x l ih => simp only [List.foldl_cons, ih, hs, List.map_cons, List.sum_cons]; ring

theorem sum_map_range (n : Nat) (f : Nat → K) : ((List.range n).map f).sum = ∑ i ∈ Finset.range n, f i := by
  induction n with
  | zero => simp
  | succ n ih => simp [List.range_succ, Finset.sum_range_succ, ih]

/-- Contribution of one direction to the row `p`. -/
def bump (p q : Nat) (g : Nat × Int) (idx : Nat) (t : K) : K := if p = idx ∧ q = g.1 then g.2 * -t else 0

theorem add_entry (h : Mat K) (i j : Nat) (x : K) (p q : Nat) :
    h.add i j x p q = h p q + if p = i ∧ q = j then x else 0 := by
  unfold Mat.add
  split <;> simp

theorem hop2DStep_entry (n0 n1 : Nat) (b0 b1 : Int) (t : K) (i j : Nat) (h : Mat K) (p q : Nat) :
    hop2DStep n0 n1 b0 b1 t i j h p q = h p q +
      (bump p q (getIndex n0 n1 b0 b1 i (j - 1)) (getIndex n0 n1 b0 b1 i j).1 t
      + bump p q (getIndex n0 n1 b0 b1 i (j + 1)) (getIndex n0 n1 b0 b1 i j).1 t
      + bump p q (getIndex n0 n1 b0 b1 (i - 1) j) (getIndex n0 n1 b0 b1 i j).1 t
      + bump p q (getIndex n0 n1 b0 b1 (i + 1) j) (getIndex n0 n1 b0 b1 i j).1 t) := by
  simp only [hop2DStep, add_entry, bump]
  ring

theorem getIndex_inside (n0 n1 : Nat) (b0 b1 : Int) (i j : Nat) (hi : i < n0) (hj : j < n1) :
    getIndex n0 n1 b0 b1 i j = (i * n1 + j, 1) := by
  have h1 : (i : Int) % n0 = i := Int.emod_eq_of_lt (by omega) (by omega)
  have h2 : (j : Int) % n1 = j := Int.emod_eq_of_lt (by omega) (by omega)
  simp only [getIndex, h1, h2, ne_eq, not_true_eq_false, if_false]
  norm_cast

theorem site_inj (n1 i j k l : Nat) (hj : j < n1) (hl : l < n1) : i * n1 + j = k * n1 + l ↔ i = k ∧ j = l := by
  constructor
  · intro h
    have h1 : (i * n1 + j) / n1 = (k * n1 + l) / n1 := by rw [h]
    have h2 : (i * n1 + j) % n1 = (k * n1 + l) % n1 := by rw [h]
    rw [Nat.mul_comm i, Nat.mul_comm k, Nat.mul_add_div (by omega), Nat.mul_add_div (by omega),
      Nat.div_eq_of_lt hj, Nat.div_eq_of_lt hl] at h1
    rw [Nat.mul_comm i, Nat.mul_comm k, Nat.mul_add_mod, Nat.mul_add_mod, Nat.mod_eq_of_lt hj, Nat.mod_eq_of_lt hl] at h2
    omega
  · rintro ⟨rfl, rfl⟩; rfl

/-- The row of site `(i, j)`: four neighbours. -/
theorem hop2D_row (n0 n1 : Nat) (b0 b1 : Int) (t : K) (i j : Nat) (hi : i < n0) (hj : j < n1) (q : Nat) :
    hop2D n0 n1 b0 b1 t (i * n1 + j) q =
      (if q = (getIndex n0 n1 b0 b1 i (j - 1)).1 then ((getIndex n0 n1 b0 b1 i (j - 1)).2 : K) * -t else 0)
      + (if q = (getIndex n0 n1 b0 b1 i (j + 1)).1 then ((getIndex n0 n1 b0 b1 i (j + 1)).2 : K) * -t else 0)
      + (if q = (getIndex n0 n1 b0 b1 (i - 1) j).1 then ((getIndex n0 n1 b0 b1 (i - 1) j).2 : K) * -t else 0)
      + (if q = (getIndex n0 n1 b0 b1 (i + 1) j).1 then ((getIndex n0 n1 b0 b1 (i + 1) j).2 : K) * -t else 0) := by
  unfold hop2D
  refine (foldl_entry _ (fun (i' : Nat) p q => ∑ j' ∈ Finset.range n1,
      (bump p q (getIndex n0 n1 b0 b1 i' (j' - 1)) (getIndex n0 n1 b0 b1 i' j').1 t
      + bump p q (getIndex n0 n1 b0 b1 i' (j' + 1)) (getIndex n0 n1 b0 b1 i' j').1 t
      + bump p q (getIndex n0 n1 b0 b1 (i' - 1) j') (getIndex n0 n1 b0 b1 i' j').1 t
      + bump p q (getIndex n0 n1 b0 b1 (i' + 1) j') (getIndex n0 n1 b0 b1 i' j').1 t)) ?_ _ _ _ _).trans ?_
  rotate_left
  · rw [sum_map_range, zero_add]
    rw [Finset.sum_eq_single i]
    · rw [Finset.sum_eq_single j]
      · simp only [bump, getIndex_inside n0 n1 b0 b1 i j hi hj, true_and]
      · intro j' hj' hne
        have hj2 : j' < n1 := by simpa using hj'
        have : ¬ (i * n1 + j = i * n1 + j') := by omega
        simp only [bump, getIndex_inside n0 n1 b0 b1 i j' hi hj2, this, false_and, if_false, add_zero]
      · intro h; simp at h; omega
    · intro i' hi' hne
      have hi2 : i' < n0 := by simpa using hi'
      apply Finset.sum_eq_zero
      intro j' hj'
      have hj2 : j' < n1 := by simpa using hj'
      have : ¬ (i * n1 + j = i' * n1 + j') := by
        rw [site_inj n1 i j i' j' hj hj2]; omega
      simp only [bump, getIndex_inside n0 n1 b0 b1 i' j' hi2 hj2, this, false_and, if_false, add_zero]
    · intro h; simp at h; omega
  · intro h i' p q
    refine (foldl_entry _ _ (fun h (j' : Nat) p q => hop2DStep_entry n0 n1 b0 b1 t i' j' h p q) _ _ _ _).trans ?_
    rw [sum_map_range]

theorem getIndex_nat (n0 n1 : Nat) (b0 b1 : Int) (i j : Int) (h0 : 0 < n0) (h1 : 0 < n1) :
    (getIndex n0 n1 b0 b1 i j).1 = (i % n0).toNat * n1 + (j % n1).toNat := by
  have h2 : 0 ≤ i % (n0 : Int) := Int.emod_nonneg _ (by omega)
  have h3 : 0 ≤ j % (n1 : Int) := Int.emod_nonneg _ (by omega)
  obtain ⟨a, ha⟩ := Int.eq_ofNat_of_zero_le h2
  obtain ⟨b, hb⟩ := Int.eq_ofNat_of_zero_le h3
  simp only [getIndex, ha, hb]
  norm_cast

/-- One step down the ring. -/
theorem emod_pred (n j : Nat) (hj : j < n) : (((j : Int) - 1) % n).toNat = if j = 0 then n - 1 else j - 1 := by
  by_cases h : j = 0
  · subst h
    have : (((0 : Nat) : Int) - 1) % n = n - 1 := by
      rw [← Int.add_emod_right]
      rw [Int.emod_eq_of_lt (by omega) (by omega)]; omega
    rw [this]; simp only [if_true]; omega
  · rw [Int.emod_eq_of_lt (by omega) (by omega)]; simp only [h, if_false]; omega

/-- One step up the ring. -/
theorem emod_succ (n j : Nat) (hj : j < n) : (((j : Int) + 1) % n).toNat = if j + 1 = n then 0 else j + 1 := by
  by_cases h : j + 1 = n
  · have : ((j : Int) + 1) = n := by omega
    rw [this]; simp [h]
  · rw [Int.emod_eq_of_lt (by omega) (by omega)]; simp only [h, if_false]; omega

theorem emod_pred_ne (n j : Nat) (hj : j < n) : ((j : Int) - 1) % n ≠ (j : Int) - 1 ↔ j = 0 := by
  constructor
  · intro h
    by_contra h0
    exact h (Int.emod_eq_of_lt (by omega) (by omega))
  · rintro rfl h
    have := Int.emod_nonneg ((0 : Nat) - 1 : Int) (show (n : Int) ≠ 0 by omega)
    omega

theorem emod_succ_ne (n j : Nat) (hj : j < n) : ((j : Int) + 1) % n ≠ (j : Int) + 1 ↔ j + 1 = n := by
  constructor
  · intro h
    by_contra h0
    exact h (Int.emod_eq_of_lt (by omega) (by omega))
  · intro h h'
    have := Int.emod_lt_of_pos ((j : Int) + 1) (show 0 < (n : Int) by omega)
    omega

theorem emod_self (n j : Nat) (hj : j < n) : (j : Int) % n = j := Int.emod_eq_of_lt (by omega) (by omega)

theorem getIndex_l (n0 n1 : Nat) (b0 b1 : Int) (i j : Nat) (hi : i < n0) (hj : j < n1) :
    getIndex n0 n1 b0 b1 i (j - 1) = (i * n1 + (if j = 0 then n1 - 1 else j - 1), if j = 0 then b1 else 1) := by
  apply Prod.ext
  · rw [getIndex_nat _ _ _ _ _ _ (by omega) (by omega), emod_pred _ _ hj, emod_self _ _ hi]; simp
  · simp only [getIndex, emod_self _ _ hi, emod_pred_ne _ _ hj, ne_eq, not_true_eq_false, if_false, one_mul]

theorem getIndex_r (n0 n1 : Nat) (b0 b1 : Int) (i j : Nat) (hi : i < n0) (hj : j < n1) :
    getIndex n0 n1 b0 b1 i (j + 1) = (i * n1 + (if j + 1 = n1 then 0 else j + 1), if j + 1 = n1 then b1 else 1) := by
  apply Prod.ext
  · rw [getIndex_nat _ _ _ _ _ _ (by omega) (by omega), emod_succ _ _ hj, emod_self _ _ hi]; simp
  · simp only [getIndex, emod_self _ _ hi, emod_succ_ne _ _ hj, ne_eq, not_true_eq_false, if_false, one_mul]

theorem getIndex_u (n0 n1 : Nat) (b0 b1 : Int) (i j : Nat) (hi : i < n0) (hj : j < n1) :
    getIndex n0 n1 b0 b1 (i - 1) j = ((if i = 0 then n0 - 1 else i - 1) * n1 + j, if i = 0 then b0 else 1) := by
  apply Prod.ext
  · rw [getIndex_nat _ _ _ _ _ _ (by omega) (by omega), emod_pred _ _ hi, emod_self _ _ hj]; simp
  · simp only [getIndex, emod_self _ _ hj, emod_pred_ne _ _ hi, ne_eq, not_true_eq_false, if_false, one_mul]

theorem getIndex_d (n0 n1 : Nat) (b0 b1 : Int) (i j : Nat) (hi : i < n0) (hj : j < n1) :
    getIndex n0 n1 b0 b1 (i + 1) j = ((if i + 1 = n0 then 0 else i + 1) * n1 + j, if i + 1 = n0 then b0 else 1) := by
  apply Prod.ext
  · rw [getIndex_nat _ _ _ _ _ _ (by omega) (by omega), emod_succ _ _ hi, emod_self _ _ hj]; simp
  · simp only [getIndex, emod_self _ _ hj, emod_succ_ne _ _ hi, ne_eq, not_true_eq_false, if_false, one_mul]

/-- Both neighbours of a site on a ring. -/
theorem ring_neighbours (n : Nat) (b : Int) (j l : Nat) (hj : j < n) (hl : l < n) :
    (if l = (if j = 0 then n - 1 else j - 1) then (if j = 0 then b else 1) else 0)
      + (if l = (if j + 1 = n then 0 else j + 1) then (if j + 1 = n then b else 1) else 0) = ringBonds n b j l := by
  unfold ringBonds
  by_cases h1 : j = 0 <;> by_cases h2 : j + 1 = n <;> simp only [h1, h2, if_true, if_false, true_and, false_and] <;>
    (repeat' split) <;> omega

theorem hop2D_entry (n0 n1 : Nat) (b0 b1 : Int) (t : K) (i j k l : Nat) (hi : i < n0) (hj : j < n1) (hk : k < n0)
    (hl : l < n1) :
    hop2D n0 n1 b0 b1 t (i * n1 + j) (k * n1 + l) = -t * (latticeBonds n0 n1 b0 b1 i j k l : Int) := by
  rw [hop2D_row n0 n1 b0 b1 t i j hi hj, getIndex_l n0 n1 b0 b1 i j hi hj, getIndex_r n0 n1 b0 b1 i j hi hj,
    getIndex_u n0 n1 b0 b1 i j hi hj, getIndex_d n0 n1 b0 b1 i j hi hj, latticeBonds, ← ring_neighbours n1 b1 j l hj hl,
    ← ring_neighbours n0 b0 i k hi hk]
  have a1 : (if j = 0 then n1 - 1 else j - 1) < n1 := by split <;> omega
  have a2 : (if j + 1 = n1 then 0 else j + 1) < n1 := by split <;> omega
  simp only [site_inj _ _ _ _ _ hl a1, site_inj _ _ _ _ _ hl a2, site_inj _ _ _ _ _ hl hj]
  by_cases hik : i = k <;> by_cases hjl : j = l
  · subst hik hjl
    simp only [true_and, and_true, if_true]
    push_cast
    simp only [mul_add, mul_ite, mul_zero, mul_comm]
    ring
  · subst hik
    have hlj : ¬ l = j := fun h => hjl h.symm
    simp only [true_and, hlj, and_false, if_true, if_false, hjl]
    push_cast
    simp only [mul_add, mul_ite, mul_zero, mul_comm]
    ring
  · subst hjl
    have hki : ¬ k = i := fun h => hik h.symm
    simp only [hki, false_and, if_true, if_false, hik, and_true]
    push_cast
    simp only [mul_add, mul_ite, mul_zero, mul_comm]
    ring
  · have hlj : ¬ l = j := fun h => hjl h.symm
    have hki : ¬ k = i := fun h => hik h.symm
    simp only [hki, hlj, false_and, and_false, if_false, hik, hjl]
    push_cast
    ring

theorem ringBonds_symm (n : Nat) (b : Int) (a c : Nat) : ringBonds n b a c = ringBonds n b c a := by
  unfold ringBonds
  have h1 : (a = 0 ∧ c + 1 = n) ↔ (c + 1 = n ∧ a = 0) := and_comm
  have h2 : (a + 1 = n ∧ c = 0) ↔ (c = 0 ∧ a + 1 = n) := and_comm
  simp only [h1, h2]
  ring

theorem latticeBonds_symm (n0 n1 : Nat) (b0 b1 : Int) (i j k l : Nat) :
    latticeBonds n0 n1 b0 b1 i j k l = latticeBonds n0 n1 b0 b1 k l i j := by
  unfold latticeBonds
  rw [ringBonds_symm n1 b1 j l, ringBonds_symm n0 b0 i k]
  simp only [eq_comm]

theorem hop1D_fold (t : K) (m : Nat) (a c : Nat) :
    (List.range m).foldl (fun (h : Mat K) i => (h.set i (i + 1) (-t)).set (i + 1) i (-t)) (fun _ _ => 0) a c =
      if (c = a + 1 ∧ a < m) ∨ (a = c + 1 ∧ c < m) then -t else 0 := by
  induction m with
  | zero => simp
  | succ m ih =>
    rw [List.range_succ, List.foldl_append]
    simp only [List.foldl_cons, List.foldl_nil]
    simp only [Mat.set] at ih ⊢
    rw [ih]
    (repeat' split) <;> first | rfl | omega

theorem hop1D_entry (n : Nat) (b : Int) (t : K) (a c : Nat) (ha : a < n) (hc : c < n) :
    hop1D n b t a c = if (a = 0 ∧ c + 1 = n) ∨ (a + 1 = n ∧ c = 0) then b * -t
      else if c = a + 1 ∨ a = c + 1 then -t else 0 := by
  simp only [hop1D]
  rw [show (((List.range (n - 1)).foldl (fun (h : Mat K) i => (h.set i (i + 1) (-t)).set (i + 1) i (-t)) fun _ _ => 0)) =
    fun a c => if (c = a + 1 ∧ a < n - 1) ∨ (a = c + 1 ∧ c < n - 1) then -t else 0 from
      funext fun a => funext fun c => hop1D_fold t (n - 1) a c]
  simp only [Mat.set]
  (repeat' split) <;> first | rfl | omega

end Ring

end Vayesta.Hubbard
