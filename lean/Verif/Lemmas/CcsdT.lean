import Verif.Spec.CcsdT
import Mathlib.Algebra.CharZero.Defs
import Mathlib.Tactic.Ring
import Mathlib.Tactic.FieldSimp
import Mathlib.Tactic.NormNum
import Mathlib.Algebra.BigOperators.Ring.Finset
import Mathlib.Order.Fin.Basic
import Mathlib.Tactic.Order
import Mathlib.Algebra.BigOperators.Field
import Mathlib.Data.Fintype.Prod
import Mathlib.Data.Fintype.BigOperators

/-! Lemmas on arrays with six axes and on the loop over ordered virtual orbitals. -/

namespace Vayesta.CcsdT
open Vayesta.Amplitudes Vayesta.Tensor

variable {K : Type} [Field K] {o v : Type} [Fintype o] [Fintype v]

/-- Sum over six indices. -/
def sum6 {o₁ o₂ o₃ v₁ v₂ v₃ : Type} [Fintype o₁] [Fintype o₂] [Fintype o₃] [Fintype v₁] [Fintype v₂] [Fintype v₃] (f : T6 o₁ o₂ o₃ v₁ v₂ v₃ K) : K :=
  ∑ i, ∑ j, ∑ k, ∑ a, ∑ b, ∑ c, f i j k a b c

section
variable {o₁ o₂ o₃ v₁ v₂ v₃ : Type} [Fintype o₁] [Fintype o₂] [Fintype o₃] [Fintype v₁] [Fintype v₂] [Fintype v₃]

theorem sum6_add (f g : T6 o₁ o₂ o₃ v₁ v₂ v₃ K) : sum6 (fun i j k a b c => f i j k a b c + g i j k a b c) = sum6 f + sum6 g := by
  simp only [sum6, Finset.sum_add_distrib]

theorem sum6_mul (x : K) (f : T6 o₁ o₂ o₃ v₁ v₂ v₃ K) : sum6 (fun i j k a b c => x * f i j k a b c) = x * sum6 f := by
  simp only [sum6, Finset.mul_sum]

theorem sum6_congr {f g : T6 o₁ o₂ o₃ v₁ v₂ v₃ K} (h : ∀ i j k a b c, f i j k a b c = g i j k a b c) : sum6 f = sum6 g := by
  have : f = g := by funext i j k a b c; exact h i j k a b c
  rw [this]

theorem sum6_occ12 (f : T6 o₁ o₂ o₃ v₁ v₂ v₃ K) : sum6 (fun i j k a b c => f j i k a b c) = sum6 f := by
  unfold sum6
  exact Finset.sum_comm

theorem sum6_occ23 (f : T6 o₁ o₂ o₃ v₁ v₂ v₃ K) : sum6 (fun i j k a b c => f i k j a b c) = sum6 f := by
  unfold sum6
  exact Finset.sum_congr rfl fun _ _ => Finset.sum_comm

theorem sum6_vir12 (f : T6 o₁ o₂ o₃ v₁ v₂ v₃ K) : sum6 (fun i j k a b c => f i j k b a c) = sum6 f := by
  unfold sum6
  exact Finset.sum_congr rfl fun _ _ => Finset.sum_congr rfl fun _ _ => Finset.sum_congr rfl fun _ _ => Finset.sum_comm

theorem sum6_vir23 (f : T6 o₁ o₂ o₃ v₁ v₂ v₃ K) : sum6 (fun i j k a b c => f i j k a c b) = sum6 f := by
  unfold sum6
  exact Finset.sum_congr rfl fun _ _ => Finset.sum_congr rfl fun _ _ => Finset.sum_congr rfl fun _ _ => Finset.sum_congr rfl fun _ _ => Finset.sum_comm

end

/-- Simultaneous exchange of the first two pairs. -/
theorem sum6_12 (f : T6 o o o v v v K) : sum6 (fun i j k a b c => f j i k b a c) = sum6 f :=
  (sum6_occ12 fun i j k a b c => f i j k b a c).trans (sum6_vir12 f)

/-- Simultaneous exchange of the last two pairs. -/
theorem sum6_23 (f : T6 o o o v v v K) : sum6 (fun i j k a b c => f i k j a c b) = sum6 f :=
  (sum6_occ23 fun i j k a b c => f i j k a c b).trans (sum6_vir23 f)

theorem sum6_231 (f : T6 o o o v v v K) : sum6 (fun i j k a b c => f j k i b c a) = sum6 f :=
  (sum6_12 fun i j k a b c => f i k j a c b).trans (sum6_23 f)

theorem sum6_312 (f : T6 o o o v v v K) : sum6 (fun i j k a b c => f k i j c a b) = sum6 f :=
  (sum6_23 fun i j k a b c => f j i k b a c).trans (sum6_12 f)

theorem sum6_13 (f : T6 o o o v v v K) : sum6 (fun i j k a b c => f k j i c b a) = sum6 f :=
  (sum6_12 fun i j k a b c => f k i j c a b).trans (sum6_312 f)

/-! ## The loop over `a >= b >= c` -/

private theorem mult_sum [CharZero K] [LinearOrder v] (F : v → v → v → K) :
    ∑ a, ∑ b ∈ Finset.univ.filter (· ≤ a), ∑ c ∈ Finset.univ.filter (· ≤ b), (F a b c + F a c b + F b a c + F b c a + F c a b + F c b a) / mult a b c =
      ∑ a, ∑ b, ∑ c, F a b c := by
  let d : v → v → v → K := fun a b c => if b ≤ a ∧ c ≤ b then 1 / mult a b c else 0
  have h0 : ∑ a, ∑ b ∈ Finset.univ.filter (· ≤ a), ∑ c ∈ Finset.univ.filter (· ≤ b),
      (F a b c + F a c b + F b a c + F b c a + F c a b + F c b a) / mult a b c =
      ∑ a, ∑ b, ∑ c, d a b c * (F a b c + F a c b + F b a c + F b c a + F c a b + F c b a) := by
    refine Finset.sum_congr rfl fun a _ => ?_
    rw [Finset.sum_filter]
    refine Finset.sum_congr rfl fun b _ => ?_
    by_cases hb : b ≤ a
    · rw [if_pos hb, Finset.sum_filter]
      refine Finset.sum_congr rfl fun c _ => ?_
      by_cases hc : c ≤ b
      · rw [if_pos hc]
        show _ = (if b ≤ a ∧ c ≤ b then 1 / mult a b c else 0) * _
        rw [if_pos ⟨hb, hc⟩]
        ring
      · rw [if_neg hc]
        show _ = (if b ≤ a ∧ c ≤ b then 1 / mult a b c else 0) * _
        rw [if_neg fun h => hc h.2, zero_mul]
    · rw [if_neg hb]
      refine (Finset.sum_eq_zero fun c _ => ?_).symm
      show (if b ≤ a ∧ c ≤ b then 1 / mult a b c else 0) * _ = _
      rw [if_neg fun h => hb h.1, zero_mul]
  rw [h0]
  have p12 : ∀ f : v → v → v → K, ∑ a, ∑ b, ∑ c, f b a c = ∑ a, ∑ b, ∑ c, f a b c := fun f => Finset.sum_comm
  have p23 : ∀ f : v → v → v → K, ∑ a, ∑ b, ∑ c, f a c b = ∑ a, ∑ b, ∑ c, f a b c := fun f => Finset.sum_congr rfl fun _ _ => Finset.sum_comm
  have e : ∑ a, ∑ b, ∑ c, d a b c * (F a b c + F a c b + F b a c + F b c a + F c a b + F c b a) =
      ∑ a, ∑ b, ∑ c, (d a b c + d a c b + d b a c + d b c a + d c a b + d c b a) * F a b c := by
    simp only [mul_add, add_mul, Finset.sum_add_distrib]
    have e1 := p23 fun a b c => d a c b * F a b c
    have e2 := p12 fun a b c => d b a c * F a b c
    have e3 := (p12 fun a b c => d b c a * F a c b).trans (p23 fun a b c => d c b a * F a b c)
    have e3' := (p23 fun a b c => d c a b * F b a c).trans (p12 fun a b c => d c b a * F a b c)
    have e4 : ∑ a, ∑ b, ∑ c, d a b c * F b c a = ∑ a, ∑ b, ∑ c, d c a b * F a b c :=
      (p12 fun a b c => d b a c * F a c b).trans (p23 fun a b c => d c a b * F a b c)
    have e5 : ∑ a, ∑ b, ∑ c, d a b c * F c a b = ∑ a, ∑ b, ∑ c, d b c a * F a b c :=
      (p23 fun a b c => d a c b * F b a c).trans (p12 fun a b c => d b c a * F a b c)
    have e6 : ∑ a, ∑ b, ∑ c, d a b c * F c b a = ∑ a, ∑ b, ∑ c, d c b a * F a b c :=
      ((p23 fun a b c => d a c b * F b c a).trans (p12 fun a b c => d b c a * F a c b)).trans (p23 fun a b c => d c b a * F a b c)
    rw [e1, e2, e4, e5, e6]
    ring
  rw [e]
  refine Finset.sum_congr rfl fun a _ => Finset.sum_congr rfl fun b _ => Finset.sum_congr rfl fun c _ => ?_
  have hd : d a b c + d a c b + d b a c + d b c a + d c a b + d c b a = 1 := by
    show (if b ≤ a ∧ c ≤ b then 1 / mult a b c else 0) + (if c ≤ a ∧ b ≤ c then 1 / mult a c b else 0) + (if a ≤ b ∧ c ≤ a then 1 / mult b a c else 0) +
      (if c ≤ b ∧ a ≤ c then 1 / mult b c a else 0) + (if a ≤ c ∧ b ≤ a then 1 / mult c a b else 0) + (if b ≤ c ∧ a ≤ b then 1 / mult c b a else 0) = (1 : K)
    unfold mult
    rcases lt_trichotomy a b with h1 | h1 | h1 <;> rcases lt_trichotomy b c with h2 | h2 | h2 <;> rcases lt_trichotomy a c with h3 | h3 | h3 <;>
      first
        | (exfalso; order)
        | (subst_vars; simp [h1.le, h2.le, h3.le, h1.not_ge, h2.not_ge, h3.not_ge, h1.ne, h2.ne, h3.ne, h1.ne', h2.ne', h3.ne']; done)
        | (subst_vars; simp [*, le_of_lt, ne_of_gt, ne_of_lt, not_le_of_gt]; done)
        | (subst_vars; norm_num [*, le_of_lt, ne_of_gt, ne_of_lt, not_le_of_gt])
  rw [hd, one_mul]

/-! ## The energy as a sum over all virtual orbitals -/

/-- `get_w` with other order of indices. -/
def Ham.w6 (h : Ham o v K) : T6 o o o v v v K := fun i j k a b c => h.getW a b c i j k

/-- `r3(w + v / 2) / d3` with other order of indices. -/
def Ham.z6 (h : Ham o v K) : T6 o o o v v v K := fun i j k a b c =>
  r3 (fun i j k => h.getW a b c i j k + 1 / 2 * h.getV a b c i j k) i j k / h.d3 a b c i j k

theorem sym_div (cfc : o → o → K) (z : o → o → o → K) (m : K) (i j k : o) :
    symProj cfc (fun i j k => z i j k / m) i j k = symProj cfc z i j k / m := by
  have e : ∀ f g : o → K, ∑ x, f x * (g x / m) = (∑ x, f x * g x) / m := fun f g => by
    rw [Finset.sum_div]
    exact Finset.sum_congr rfl fun x _ => by ring
  unfold symProj
  rw [e, e, e]
  ring

private theorem six_eq (w : v → v → v → o → o → o → K) (z z' : o → o → o → K) (m : K) (hz : ∀ i j k, z i j k = z' i j k / m) (a b c : v) :
    six w z a b c = (∑ i, ∑ j, ∑ k, pairSum (fun i j k a b c => w a b c i j k) i j k a b c * z' i j k) / m := by
  unfold six
  simp only [Finset.sum_div]
  refine Finset.sum_congr rfl fun i _ => Finset.sum_congr rfl fun j _ => Finset.sum_congr rfl fun k _ => ?_
  rw [hz, mul_div_assoc]
  rfl

private theorem order6 {o₁ v₁ : Type} [Fintype o₁] [Fintype v₁] (f : T6 o₁ o₁ o₁ v₁ v₁ v₁ K) :
    ∑ a, ∑ b, ∑ c, ∑ i, ∑ j, ∑ k, f i j k a b c = sum6 f := by
  unfold sum6
  have e : ∀ g : v₁ → v₁ → v₁ → o₁ × o₁ × o₁ → K, ∑ a, ∑ b, ∑ c, ∑ x, g a b c x = ∑ x, ∑ a, ∑ b, ∑ c, g a b c x := by
    intro g
    simp only [Finset.sum_comm (s := (Finset.univ : Finset v₁)) (t := (Finset.univ : Finset (o₁ × o₁ × o₁)))]
  have := e fun a b c x => f x.1 x.2.1 x.2.2 a b c
  simpa only [Fintype.sum_prod_type] using this

theorem energy_w [CharZero K] [LinearOrder v] (h : Ham o v K) (cfc : o → o → K) :
    h.energy cfc .w = 2 * sum6 fun i j k a b c => pairSum (usymProj cfc cfc cfc h.w6) i j k a b c * h.z6 i j k a b c := by
  unfold Ham.energy
  congr 1
  rw [← order6, ← mult_sum]
  refine Finset.sum_congr rfl fun a _ => Finset.sum_congr rfl fun b _ => Finset.sum_congr rfl fun c _ => ?_
  have key : ∀ x y z : v, (∀ i j k, h.d3 x y z i j k = h.d3 a b c i j k) →
      six (fun a b c => symProj cfc (h.getW a b c)) (fun i j k => r3 (fun i j k => h.getW x y z i j k + 1 / 2 * h.getV x y z i j k) i j k /
        (h.d3 a b c i j k * mult a b c)) x y z =
      (∑ i, ∑ j, ∑ k, pairSum (usymProj cfc cfc cfc h.w6) i j k x y z * h.z6 i j k x y z) / mult a b c := by
    intro x y z hd
    refine six_eq _ _ _ _ (fun i j k => ?_) x y z
    show _ = r3 _ i j k / h.d3 x y z i j k / _
    rw [hd, div_div]
  show six (fun a b c => symProj cfc (h.getW a b c)) _ a b c + six (fun a b c => symProj cfc (h.getW a b c)) _ a c b +
    six (fun a b c => symProj cfc (h.getW a b c)) _ b a c + six (fun a b c => symProj cfc (h.getW a b c)) _ b c a +
    six (fun a b c => symProj cfc (h.getW a b c)) _ c a b + six (fun a b c => symProj cfc (h.getW a b c)) _ c b a = _
  rw [key a b c (fun _ _ _ => rfl), key a c b (fun _ _ _ => by simp only [Ham.d3]; ring), key b a c (fun _ _ _ => by simp only [Ham.d3]; ring),
    key b c a (fun _ _ _ => by simp only [Ham.d3]; ring), key c a b (fun _ _ _ => by simp only [Ham.d3]; ring),
    key c b a (fun _ _ _ => by simp only [Ham.d3]; ring)]
  ring

theorem energy_z [CharZero K] [LinearOrder v] (h : Ham o v K) (cfc : o → o → K) :
    h.energy cfc .z = 2 * sum6 fun i j k a b c => pairSum h.w6 i j k a b c * usymProj cfc cfc cfc h.z6 i j k a b c := by
  unfold Ham.energy
  congr 1
  rw [← order6, ← mult_sum]
  refine Finset.sum_congr rfl fun a _ => Finset.sum_congr rfl fun b _ => Finset.sum_congr rfl fun c _ => ?_
  have key : ∀ x y z : v, (∀ i j k, h.d3 x y z i j k = h.d3 a b c i j k) →
      six h.getW (symProj cfc fun i j k => r3 (fun i j k => h.getW x y z i j k + 1 / 2 * h.getV x y z i j k) i j k /
        (h.d3 a b c i j k * mult a b c)) x y z =
      (∑ i, ∑ j, ∑ k, pairSum h.w6 i j k x y z * usymProj cfc cfc cfc h.z6 i j k x y z) / mult a b c := by
    intro x y z hd
    refine six_eq _ _ _ _ (fun i j k => ?_) x y z
    refine Eq.trans ?_ (sym_div cfc (fun i j k => h.z6 i j k x y z) (mult a b c) i j k)
    refine congrArg (fun f => symProj cfc f i j k) ?_
    funext i j k
    show _ = r3 _ i j k / h.d3 x y z i j k / _
    rw [hd, div_div]
  show six h.getW _ a b c + six h.getW _ a c b + six h.getW _ b a c + six h.getW _ b c a + six h.getW _ c a b + six h.getW _ c b a = _
  rw [key a b c (fun _ _ _ => rfl), key a c b (fun _ _ _ => by simp only [Ham.d3]; ring), key b a c (fun _ _ _ => by simp only [Ham.d3]; ring),
    key b c a (fun _ _ _ => by simp only [Ham.d3]; ring), key c a b (fun _ _ _ => by simp only [Ham.d3]; ring),
    key c b a (fun _ _ _ => by simp only [Ham.d3]; ring)]
  ring

end Vayesta.CcsdT
