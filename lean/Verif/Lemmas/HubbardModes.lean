import Verif.Lemmas.Hubbard
import Mathlib.Algebra.Field.Basic
import Mathlib.Algebra.GroupWithZero.Basic
import Mathlib.Algebra.Ring.Parity
import Mathlib.Data.List.Nodup
import Mathlib.Data.List.GetD
import Mathlib.Data.Finset.Range

/-! Zero modes of the hopping matrices. -/

namespace Vayesta.Hubbard
open HubbardSpec

section Field
variable {K : Type} [Field K]

theorem eq_zero_of_neg (h2 : (2 : K) ≠ 0) {x : K} (h : -x = x) : x = 0 := by
  have : (2 : K) * x = 0 := by linear_combination -h
  exact (mul_eq_zero.1 this).resolve_left h2

/-- Solutions of the two-dimensional lattice equation with quasi-periodic boundary conditions vanish if the boundary factors
around the whole torus have product -1. -/
theorem torus_no_zero_mode (h2 : (2 : K) ≠ 0) (V : Int → Int → K) (n0 n1 k0 k1 : Nat) (b0 b1 : K) (hb1 : b1 ^ k1 * b1 ^ k1 = 1)
    (hV0 : ∀ i j, V (i + n0) j = b0 * V i j) (hV1 : ∀ i j, V i (j + n1) = b1 * V i j)
    (hE : ∀ i j, V (i + 1) j + V (i - 1) j + V i (j + 1) + V i (j - 1) = 0)
    (hL : n0 * k0 = n1 * k1) (hev : Even (n0 * k0)) (hb : b0 ^ k0 * b1 ^ k1 = -1) (i j : Int) : V i j = 0 := by
  have hV0k : ∀ (k : Nat) (i j : Int), V (i + (n0 * k : Nat)) j = b0 ^ k * V i j := by
    intro k
    induction k with
    | zero => intro i j; simp
    | succ k ih =>
      intro i j
      have : i + ((n0 * (k + 1) : Nat) : Int) = (i + (n0 * k : Nat)) + n0 := by push_cast; ring
      rw [this, hV0, ih]; ring
  have hV1k : ∀ (k : Nat) (i j : Int), V i (j + (n1 * k : Nat)) = b1 ^ k * V i j := by
    intro k
    induction k with
    | zero => intro i j; simp
    | succ k ih =>
      intro i j
      have : j + ((n1 * (k + 1) : Nat) : Int) = (j + (n1 * k : Nat)) + n1 := by push_cast; ring
      rw [this, hV1, ih]; ring
  have hW : ∀ i j, V i j + V (i - 1) (j - 1) = 0 := by
    have hstep : ∀ (m : Nat) (i j : Int), V (i + m) j + V (i + m - 1) (j - 1)
        = (-1) ^ m * (V i (j + m) + V (i - 1) (j + m - 1)) := by
      intro m
      induction m with
      | zero => intro i j; simp
      | succ m ih =>
        intro i j
        have e := hE (i + m) j
        have e2 := ih i (j + 1)
        have a1 : i + ((m + 1 : Nat) : Int) = i + m + 1 := by push_cast; ring
        have a2 : i + m + 1 - 1 = i + m := by ring
        have a3 : j + ((m + 1 : Nat) : Int) = j + 1 + m := by push_cast; ring
        have a4 : j + 1 - 1 = j := by ring
        rw [a4] at e2
        rw [a1, a2, a3, pow_succ]
        linear_combination e - e2
    intro i j
    have e := hstep (n0 * k0) i j
    have c1 : V (i + (n0 * k0 : Nat)) j = b0 ^ k0 * V i j := hV0k k0 i j
    have c2 : V (i + (n0 * k0 : Nat) - 1) (j - 1) = b0 ^ k0 * V (i - 1) (j - 1) := by
      rw [show i + ((n0 * k0 : Nat) : Int) - 1 = (i - 1) + (n0 * k0 : Nat) by ring]; exact hV0k k0 _ _
    have c3 : V i (j + (n0 * k0 : Nat)) = b1 ^ k1 * V i j := by rw [hL]; exact hV1k k1 i j
    have c4 : V (i - 1) (j + (n0 * k0 : Nat) - 1) = b1 ^ k1 * V (i - 1) (j - 1) := by
      rw [hL, show j + ((n1 * k1 : Nat) : Int) - 1 = (j - 1) + (n1 * k1 : Nat) by ring]; exact hV1k k1 _ _
    rw [c1, c2, c3, c4, hev.neg_one_pow, one_mul] at e
    apply eq_zero_of_neg h2
    linear_combination b1 ^ k1 * e - (V i j + V (i - 1) (j - 1)) * hb + (V i j + V (i - 1) (j - 1)) * hb1
  have hstep : ∀ (m : Nat) (i j : Int), V (i + m) (j + m) = (-1) ^ m * V i j := by
    intro m
    induction m with
    | zero => intro i j; simp
    | succ m ih =>
      intro i j
      have e := hW (i + m + 1) (j + m + 1)
      have a1 : i + ((m + 1 : Nat) : Int) = i + m + 1 := by push_cast; ring
      have a2 : j + ((m + 1 : Nat) : Int) = j + m + 1 := by push_cast; ring
      have e2 := ih i j
      rw [show i + (m : Int) + 1 - 1 = i + m by ring, show j + (m : Int) + 1 - 1 = j + m by ring] at e
      rw [a1, a2, pow_succ]
      linear_combination e - e2
  have e := hstep (n0 * k0) i j
  rw [hev.neg_one_pow, one_mul, hV0k, hL, hV1k] at e
  apply eq_zero_of_neg h2
  linear_combination e - V i j * hb

/-- The same on a ring. -/
theorem ring_no_zero_mode (h2 : (2 : K) ≠ 0) (V : Int → K) (n m : Nat) (b : K) (hn : n = 2 * m)
    (hV : ∀ i, V (i + n) = b * V i) (hE : ∀ i, V (i + 1) + V (i - 1) = 0) (hb : b = -(-1) ^ m) (i : Int) : V i = 0 := by
  have hstep : ∀ (m : Nat) (i : Int), V (i + (2 * m : Nat)) = (-1) ^ m * V i := by
    intro m
    induction m with
    | zero => intro i; simp
    | succ m ih =>
      intro i
      have e := hE (i + (2 * m : Nat) + 1)
      have a1 : i + ((2 * (m + 1) : Nat) : Int) = i + (2 * m : Nat) + 1 + 1 := by push_cast; ring
      have e2 := ih i
      rw [show i + ((2 * m : Nat) : Int) + 1 - 1 = i + (2 * m : Nat) by ring] at e
      rw [a1, pow_succ]
      linear_combination e - e2
  have e := hstep m i
  rw [← hn, hV, hb] at e
  apply eq_zero_of_neg h2
  have hp : ((-1 : K) ^ m) * (-1) ^ m = 1 := by rw [← mul_pow]; simp
  linear_combination (-1) ^ m * e + (2 * V i) * hp

/-- Quasi-periodic extension of a vector on the sites. -/
def extend (n0 n1 : Nat) (b0 b1 : K) (v : Nat → K) (i j : Int) : K :=
  b0 ^ (i / n0) * b1 ^ (j / n1) * v ((i % n0).toNat * n1 + (j % n1).toNat)

theorem extend_shift (n0 n1 : Nat) (b0 b1 : K) (hb0 : b0 ≠ 0) (hb1 : b1 ≠ 0) (h0 : 0 < n0) (h1 : 0 < n1) (v : Nat → K)
    (i j a c : Int) : extend n0 n1 b0 b1 v (i + n0 * a) (j + n1 * c) = b0 ^ a * b1 ^ c * extend n0 n1 b0 b1 v i j := by
  unfold extend
  rw [Int.add_mul_ediv_left _ _ (by omega), Int.add_mul_ediv_left _ _ (by omega), Int.add_mul_emod_self_left,
    Int.add_mul_emod_self_left, zpow_add₀ hb0, zpow_add₀ hb1]
  ring

theorem extend_inside (n0 n1 : Nat) (b0 b1 : K) (v : Nat → K) (i j : Nat) (hi : i < n0) (hj : j < n1) :
    extend n0 n1 b0 b1 v i j = v (i * n1 + j) := by
  unfold extend
  rw [emod_self _ _ hi, emod_self _ _ hj, Int.ediv_eq_zero_of_lt (by omega) (by omega),
    Int.ediv_eq_zero_of_lt (by omega) (by omega)]
  simp

theorem ediv_succ (n i : Nat) (hi : i < n) : ((i : Int) + 1) / n = if i + 1 = n then 1 else 0 := by
  split
  · rename_i h
    rw [show ((i : Int) + 1) = n by omega]
    exact Int.ediv_self (by omega)
  · exact Int.ediv_eq_zero_of_lt (by omega) (by omega)

theorem ediv_pred (n i : Nat) (hi : i < n) : ((i : Int) - 1) / n = if i = 0 then -1 else 0 := by
  split
  · rename_i h
    subst h
    have h1 : (((0 : Nat) : Int) - 1) / n = -1 := by
      rw [show (((0 : Nat) : Int) - 1) = (n - 1 : Int) + n * (-1) by push_cast; ring, Int.add_mul_ediv_left _ _ (by omega),
        Int.ediv_eq_zero_of_lt (by omega) (by omega)]
      omega
    exact h1
  · exact Int.ediv_eq_zero_of_lt (by omega) (by omega)

theorem inv_of_sq {b : K} (hb : b * b = 1) : b⁻¹ = b := by
  exact inv_eq_of_mul_eq_one_left hb

theorem extend_neighbours (n0 n1 : Nat) (b0 b1 : Int) (hb0 : (b0 : K) * b0 = 1) (hb1 : (b1 : K) * b1 = 1)
    (v : Nat → K) (i j : Nat) (hi : i < n0) (hj : j < n1) :
    extend n0 n1 (b0 : K) b1 v i (j - 1) = (getIndex n0 n1 b0 b1 i (j - 1)).2 * v (getIndex n0 n1 b0 b1 i (j - 1)).1 ∧
    extend n0 n1 (b0 : K) b1 v i (j + 1) = (getIndex n0 n1 b0 b1 i (j + 1)).2 * v (getIndex n0 n1 b0 b1 i (j + 1)).1 ∧
    extend n0 n1 (b0 : K) b1 v (i - 1) j = (getIndex n0 n1 b0 b1 (i - 1) j).2 * v (getIndex n0 n1 b0 b1 (i - 1) j).1 ∧
    extend n0 n1 (b0 : K) b1 v (i + 1) j = (getIndex n0 n1 b0 b1 (i + 1) j).2 * v (getIndex n0 n1 b0 b1 (i + 1) j).1 := by
  have z0 : ((i : Int)) / n0 = 0 := Int.ediv_eq_zero_of_lt (by omega) (by omega)
  have z1 : ((j : Int)) / n1 = 0 := Int.ediv_eq_zero_of_lt (by omega) (by omega)
  rw [getIndex_l n0 n1 b0 b1 i j hi hj, getIndex_r n0 n1 b0 b1 i j hi hj, getIndex_u n0 n1 b0 b1 i j hi hj,
    getIndex_d n0 n1 b0 b1 i j hi hj]
  unfold extend
  rw [z0, z1, ediv_succ _ _ hi, ediv_succ _ _ hj, ediv_pred _ _ hi, ediv_pred _ _ hj, emod_self _ _ hi, emod_self _ _ hj,
    emod_succ _ _ hi, emod_succ _ _ hj, emod_pred _ _ hi, emod_pred _ _ hj]
  refine ⟨?_, ?_, ?_, ?_⟩ <;> split <;> simp [inv_of_sq hb0, inv_of_sq hb1]

theorem getIndex_lt (n0 n1 : Nat) (b0 b1 : Int) (i j : Int) (h0 : 0 < n0) (h1 : 0 < n1) :
    (getIndex n0 n1 b0 b1 i j).1 < n0 * n1 := by
  rw [getIndex_nat _ _ _ _ _ _ h0 h1]
  have a : (i % n0).toNat < n0 := by
    have := Int.emod_lt_of_pos i (show 0 < (n0 : Int) by omega)
    have := Int.emod_nonneg i (show (n0 : Int) ≠ 0 by omega)
    omega
  have b : (j % n1).toNat < n1 := by
    have := Int.emod_lt_of_pos j (show 0 < (n1 : Int) by omega)
    have := Int.emod_nonneg j (show (n1 : Int) ≠ 0 by omega)
    omega
  calc (i % n0).toNat * n1 + (j % n1).toNat < (i % n0).toNat * n1 + n1 := by omega
    _ = ((i % n0).toNat + 1) * n1 := by ring
    _ ≤ n0 * n1 := Nat.mul_le_mul_right _ (by omega)

theorem hop2D_mulVec (n0 n1 : Nat) (b0 b1 : Int) (t : K) (v : Nat → K) (i j : Nat) (hi : i < n0) (hj : j < n1) :
    ∑ c ∈ Finset.range (n0 * n1), hop2D n0 n1 b0 b1 t (i * n1 + j) c * v c = -t *
      ((getIndex n0 n1 b0 b1 i (j - 1)).2 * v (getIndex n0 n1 b0 b1 i (j - 1)).1
      + (getIndex n0 n1 b0 b1 i (j + 1)).2 * v (getIndex n0 n1 b0 b1 i (j + 1)).1
      + (getIndex n0 n1 b0 b1 (i - 1) j).2 * v (getIndex n0 n1 b0 b1 (i - 1) j).1
      + (getIndex n0 n1 b0 b1 (i + 1) j).2 * v (getIndex n0 n1 b0 b1 (i + 1) j).1) := by
  simp only [hop2D_row n0 n1 b0 b1 t i j hi hj, add_mul, ite_mul, zero_mul, Finset.sum_add_distrib, Finset.sum_ite_eq',
    Finset.mem_range, getIndex_lt n0 n1 b0 b1 _ _ (show 0 < n0 by omega) (show 0 < n1 by omega), if_true]
  ring

/-- No zero mode of the two-dimensional hopping matrix. -/
theorem hop2D_no_zero_mode (h2 : (2 : K) ≠ 0) (n0 n1 k0 k1 : Nat) (b0 b1 : Int) (t : K) (ht : t ≠ 0)
    (hb0 : (b0 : K) * b0 = 1) (hb1 : (b1 : K) * b1 = 1) (hL : n0 * k0 = n1 * k1) (hev : Even (n0 * k0))
    (hb : (b0 : K) ^ k0 * (b1 : K) ^ k1 = -1) (v : Nat → K)
    (hv : ∀ a, a < n0 * n1 → ∑ c ∈ Finset.range (n0 * n1), hop2D n0 n1 b0 b1 t a c * v c = 0) (a : Nat)
    (ha : a < n0 * n1) : v a = 0 := by
  have h1 : 0 < n1 := Nat.pos_of_ne_zero (by rintro rfl; simp at ha)
  have h0 : 0 < n0 := Nat.pos_of_ne_zero (by rintro rfl; simp at ha)
  have e0 : (b0 : K) ≠ 0 := by rintro h; simp [h] at hb0
  have e1 : (b1 : K) ≠ 0 := by rintro h; simp [h] at hb1
  have hE : ∀ i j, extend n0 n1 (b0 : K) b1 v (i + 1) j + extend n0 n1 (b0 : K) b1 v (i - 1) j
      + extend n0 n1 (b0 : K) b1 v i (j + 1) + extend n0 n1 (b0 : K) b1 v i (j - 1) = 0 := by
    intro i j
    obtain ⟨i', hi'⟩ := Int.eq_ofNat_of_zero_le (Int.emod_nonneg i (show (n0 : Int) ≠ 0 by omega))
    obtain ⟨j', hj'⟩ := Int.eq_ofNat_of_zero_le (Int.emod_nonneg j (show (n1 : Int) ≠ 0 by omega))
    have li : i' < n0 := by have := Int.emod_lt_of_pos i (show 0 < (n0 : Int) by omega); omega
    have lj : j' < n1 := by have := Int.emod_lt_of_pos j (show 0 < (n1 : Int) by omega); omega
    have di : i = i' + n0 * (i / n0) := by have := Int.emod_add_mul_ediv i n0; rw [hi'] at this; exact this.symm
    have dj : j = j' + n1 * (j / n1) := by have := Int.emod_add_mul_ediv j n1; rw [hj'] at this; exact this.symm
    generalize i / n0 = x at di
    generalize j / n1 = y at dj
    subst di dj
    have q1 := extend_shift n0 n1 (b0 : K) b1 e0 e1 h0 h1 v (i' + 1) j' x y
    have q2 := extend_shift n0 n1 (b0 : K) b1 e0 e1 h0 h1 v (i' - 1) j' x y
    have q3 := extend_shift n0 n1 (b0 : K) b1 e0 e1 h0 h1 v i' (j' + 1) x y
    have q4 := extend_shift n0 n1 (b0 : K) b1 e0 e1 h0 h1 v i' (j' - 1) x y
    rw [show (i' : Int) + n0 * x + 1 = i' + 1 + n0 * x by ring, show (i' : Int) + n0 * x - 1 = i' - 1 + n0 * x by ring,
      show (j' : Int) + n1 * y + 1 = j' + 1 + n1 * y by ring, show (j' : Int) + n1 * y - 1 = j' - 1 + n1 * y by ring,
      q1, q2, q3, q4]
    obtain ⟨r1, r2, r3, r4⟩ := extend_neighbours n0 n1 b0 b1 hb0 hb1 v i' j' li lj
    have hlt : i' * n1 + j' < n0 * n1 := by
      calc i' * n1 + j' < i' * n1 + n1 := by omega
        _ = (i' + 1) * n1 := by ring
        _ ≤ n0 * n1 := Nat.mul_le_mul_right _ (by omega)
    have e := hv _ hlt
    rw [hop2D_mulVec n0 n1 b0 b1 t v i' j' li lj, ← r1, ← r2, ← r3, ← r4] at e
    have e' := (mul_eq_zero.1 e).resolve_left (neg_ne_zero.2 ht)
    linear_combination ((b0 : K) ^ x * (b1 : K) ^ y) * e'
  have hz := torus_no_zero_mode h2 (extend n0 n1 (b0 : K) b1 v) n0 n1 k0 k1 b0 b1
    (by rw [← mul_pow, hb1, one_pow])
    (by intro i j
        have := extend_shift n0 n1 (b0 : K) b1 e0 e1 h0 h1 v i j 1 0
        simpa using this)
    (by intro i j
        have := extend_shift n0 n1 (b0 : K) b1 e0 e1 h0 h1 v i j 0 1
        simpa using this)
    hE hL hev hb (a / n1 : Nat) (a % n1 : Nat)
  rw [extend_inside n0 n1 _ _ v _ _ (Nat.div_lt_of_lt_mul (by rw [Nat.mul_comm]; exact ha)) (Nat.mod_lt _ h1)] at hz
  rwa [Nat.mul_comm, Nat.div_add_mod] at hz

/-- The row of a site of the chain. -/
theorem hop1D_mulVec (n : Nat) (hn : 3 ≤ n) (b : Int) (t : K) (v : Nat → K) (a : Nat) (ha : a < n) :
    ∑ c ∈ Finset.range n, hop1D n b t a c * v c = -t *
      ((if a = 0 then (b : K) else 1) * v (if a = 0 then n - 1 else a - 1)
        + (if a + 1 = n then (b : K) else 1) * v (if a + 1 = n then 0 else a + 1)) := by
  have l1 : (if a = 0 then n - 1 else a - 1) < n := by split <;> omega
  have l2 : (if a + 1 = n then 0 else a + 1) < n := by split <;> omega
  have : ∀ c ∈ Finset.range n, hop1D n b t a c * v c =
      (if c = (if a = 0 then n - 1 else a - 1) then -t * (if a = 0 then (b : K) else 1) * v c else 0)
      + (if c = (if a + 1 = n then 0 else a + 1) then -t * (if a + 1 = n then (b : K) else 1) * v c else 0) := by
    intro c hc
    rw [Finset.mem_range] at hc
    rw [hop1D_entry n b t a c ha hc]
    by_cases h1 : a = 0 <;> by_cases h2 : a + 1 = n <;> simp only [h1, h2, if_true, if_false, true_and, false_and, false_or, or_false] <;>
      (repeat' split) <;> first | omega | ring
  rw [Finset.sum_congr rfl this, Finset.sum_add_distrib, Finset.sum_ite_eq', Finset.sum_ite_eq', if_pos (Finset.mem_range.2 l1),
    if_pos (Finset.mem_range.2 l2)]
  ring

theorem hop1D_no_zero_mode (h2 : (2 : K) ≠ 0) (n m : Nat) (hn : n = 2 * m) (hm : 2 ≤ m) (b : Int) (t : K) (ht : t ≠ 0)
    (hb : (b : K) = -(-1) ^ m) (v : Nat → K)
    (hv : ∀ a, a < n → ∑ c ∈ Finset.range n, hop1D n b t a c * v c = 0) (a : Nat) (ha : a < n) : v a = 0 := by
  have hbb : (b : K) * b = 1 := by rw [hb]; rw [neg_mul_neg, ← mul_pow]; simp
  have e1 : (b : K) ≠ 0 := by rintro h; simp [h] at hbb
  have hsh := fun i c : Int => extend_shift 1 n (1 : K) b one_ne_zero e1 one_pos (by omega) v 0 i 0 c
  simp only [mul_zero, add_zero, zpow_zero, one_mul] at hsh
  have hE : ∀ j, extend 1 n (1 : K) b v 0 (j + 1) + extend 1 n (1 : K) b v 0 (j - 1) = 0 := by
    intro j
    obtain ⟨j', hj'⟩ := Int.eq_ofNat_of_zero_le (Int.emod_nonneg j (show (n : Int) ≠ 0 by omega))
    have lj : j' < n := by have := Int.emod_lt_of_pos j (show 0 < (n : Int) by omega); omega
    have dj : j = j' + n * (j / n) := by have := Int.emod_add_mul_ediv j n; rw [hj'] at this; exact this.symm
    generalize j / n = y at dj
    subst dj
    rw [show (j' : Int) + n * y + 1 = j' + 1 + n * y by ring, show (j' : Int) + n * y - 1 = j' - 1 + n * y by ring,
      hsh, hsh]
    have r := extend_neighbours (K := K) 1 n 1 b (by simp) hbb v 0 j' one_pos lj
    have r1 := r.1
    have r2 := r.2.1
    rw [getIndex_l 1 n 1 b 0 j' one_pos lj] at r1
    rw [getIndex_r 1 n 1 b 0 j' one_pos lj] at r2
    simp only [Int.cast_one, Nat.cast_zero, zero_mul, zero_add] at r1 r2
    have e := hv _ lj
    rw [hop1D_mulVec n (by omega) b t v j' lj] at e
    have e' := (mul_eq_zero.1 e).resolve_left (neg_ne_zero.2 ht)
    rw [r1, r2]
    simp only [apply_ite (Int.cast : Int → K), Int.cast_one]
    linear_combination ((b : K) ^ y) * e'
  have hz := ring_no_zero_mode h2 (extend 1 n (1 : K) b v 0) n m b hn
    (by intro i; have := hsh i 1; simpa using this) hE hb a
  have := extend_inside 1 n (1 : K) b v 0 a one_pos ha
  simp only [Nat.cast_zero, zero_mul, zero_add] at this
  rwa [this] at hz

end Field

section Chiral
variable {K : Type} [CommRing K]

/-- A sign pattern that anticommutes with the matrix maps eigenvalue `e` to `-e`. -/
theorem chiral (n : Nat) (h : Mat K) (σ : Nat → K) (hσ : ∀ a, σ a = 1 ∨ σ a = -1)
    (hh : ∀ a c, a < n → c < n → h a c * σ c = - (σ a * h a c)) (e : K) (v : Nat → K) (hv : IsEigenvector n h e v) :
    IsEigenvector n h (-e) fun a => σ a * v a := by
  obtain ⟨⟨a, ha, hne⟩, he⟩ := hv
  refine ⟨⟨a, ha, ?_⟩, ?_⟩
  · rcases hσ a with s | s <;> simp [s, hne]
  · intro a ha
    have : ∀ c ∈ Finset.range n, h a c * (σ c * v c) = -σ a * (h a c * v c) := by
      intro c hc
      have := hh a c ha (by simpa using hc)
      linear_combination v c * this
    rw [Finset.sum_congr rfl this, ← Finset.mul_sum, he a ha]
    ring

/-- Renumbering the sites does not change whether the half-filled lattice is a closed shell. -/
theorem closedShell_reorder (n : Nat) (h : Mat K) (l : List Nat) (hl : l.Perm (List.range n))
    (hc : ClosedShellHalfFilled n h) : ClosedShellHalfFilled n (h.reorder l) := by
  have hlen : l.length = n := by simpa using hl.length_eq
  have hnd : l.Nodup := hl.nodup_iff.2 List.nodup_range
  have hlt : ∀ a, a < n → l.getD a 0 < n := by
    intro a ha
    have : l.getD a 0 ∈ l := by
      rw [List.getD_eq_getElem _ _ (by omega)]; exact List.getElem_mem _
    have := hl.mem_iff.1 this
    simpa using this
  have hsum : ∀ f : Nat → K, ∑ c ∈ Finset.range n, f (l.getD c 0) = ∑ c ∈ Finset.range n, f c := by
    intro f
    rw [← sum_map_range, ← sum_map_range, show (List.range n).map (fun c => f (l.getD c 0)) = l.map f from ?_]
    · exact (hl.map f).sum_eq
    · apply List.ext_getElem
      · simp [hlen]
      · intro i h1 h2
        simp at h1
        simp [List.getElem?_eq_getElem (show i < l.length by omega)]
  have hidx : ∀ a, a < n → l.idxOf (l.getD a 0) = a := by
    intro a ha
    rw [List.getD_eq_getElem _ _ (by omega)]
    exact hnd.idxOf_getElem a (by omega)
  -- an eigenvector of the reordered matrix gives one of the original
  have hback : ∀ e v, IsEigenvector n (h.reorder l) e v → IsEigenvector n h e fun x => v (l.idxOf x) := by
    rintro e v ⟨⟨a, ha, hne⟩, he⟩
    refine ⟨⟨l.getD a 0, hlt a ha, by show v (l.idxOf (l.getD a 0)) ≠ 0; rw [hidx a ha]; exact hne⟩, ?_⟩
    intro x hx
    have hxl : x ∈ l := hl.mem_iff.2 (by simpa using hx)
    have hxi : l.idxOf x < n := by rw [← hlen]; exact List.idxOf_lt_length_of_mem hxl
    have hxx : l.getD (l.idxOf x) 0 = x := by
      rw [List.getD_eq_getElem _ _ (by omega)]; exact List.getElem_idxOf (by omega)
    have := he _ hxi
    simp only [Mat.reorder, hxx] at this
    rw [← this, ← hsum]
    apply Finset.sum_congr rfl
    intro c hc
    show h x (l.getD c 0) * v (l.idxOf (l.getD c 0)) = _
    rw [hidx c (by simpa using hc)]
  have hforth : ∀ e v, IsEigenvector n h e v → IsEigenvector n (h.reorder l) e fun a => v (l.getD a 0) := by
    rintro e v ⟨⟨x, hx, hne⟩, he⟩
    have hxl : x ∈ l := hl.mem_iff.2 (by simpa using hx)
    have hxi : l.idxOf x < n := by rw [← hlen]; exact List.idxOf_lt_length_of_mem hxl
    have hxx : l.getD (l.idxOf x) 0 = x := by
      rw [List.getD_eq_getElem _ _ (by omega)]; exact List.getElem_idxOf (by omega)
    refine ⟨⟨l.idxOf x, hxi, by show v (l.getD (l.idxOf x) 0) ≠ 0; rw [hxx]; exact hne⟩, ?_⟩
    intro a ha
    show ∑ c ∈ Finset.range n, h (l.getD a 0) (l.getD c 0) * v (l.getD c 0) = _
    rw [hsum fun c => h (l.getD a 0) c * v c]
    exact he _ (hlt a ha)
  obtain ⟨⟨σ, hσ, hflip⟩, hz⟩ := hc
  refine ⟨⟨fun a => σ (l.getD a 0), fun a => hσ _, ?_⟩, ?_⟩
  · intro e v hv
    have h1 := hforth _ _ (hflip _ _ (hback _ _ hv))
    obtain ⟨⟨a, ha, hne⟩, he⟩ := h1
    refine ⟨⟨a, ha, by simp only [hidx a ha] at hne; exact hne⟩, ?_⟩
    intro a ha
    have := he a ha
    simp only [hidx a ha] at this
    rw [← this]
    apply Finset.sum_congr rfl
    intro c hc
    simp only [hidx c (by simpa using hc)]
  · intro v hv
    exact hz _ (hback _ _ hv)

end Chiral

end Vayesta.Hubbard
