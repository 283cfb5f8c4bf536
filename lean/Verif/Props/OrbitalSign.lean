import Verif.Model.OrbitalSign
import Mathlib.Algebra.Field.Rat
import Mathlib.Algebra.Order.Ring.Rat
import Mathlib.Tactic.Linarith
import Mathlib.Tactic.NormNum
import Mathlib.Tactic.Ring

/-! C32: the sign convention of orbitals. -/

namespace Vayesta.Props
open Vayesta Vayesta.OrbitalSign

variable {K : Type} [Field K] [LinearOrder K]

omit [Field K] in
private theorem argmax_spec (v : Nat → K) : ∀ n, argmax v n ≤ n ∧ (∀ i ≤ n, v i ≤ v (argmax v n)) ∧
    ∀ i < argmax v n, v i < v (argmax v n)
  | 0 => by
    refine ⟨Nat.le_refl _, fun i hi => ?_, fun i hi => ?_⟩
    · have : i = 0 := by omega
      subst this
      exact le_refl _
    · simp [argmax] at hi
  | n + 1 => by
    obtain ⟨h1, h2, h3⟩ := argmax_spec v n
    rw [argmax]
    by_cases h : v (argmax v n) < v (n + 1)
    · rw [if_pos h]
      refine ⟨Nat.le_refl _, fun i hi => ?_, fun i hi => ?_⟩
      · rcases Nat.lt_or_ge i (n + 1) with hlt | hge
        · exact (h2 i (by omega)).trans h.le
        · have : i = n + 1 := by omega
          rw [this]
      · exact lt_of_le_of_lt (h2 i (by omega)) h
    · rw [if_neg h]
      refine ⟨by omega, fun i hi => ?_, h3⟩
      rcases Nat.lt_or_ge i (n + 1) with hlt | hge
      · exact h2 i (by omega)
      · have : i = n + 1 := by omega
        rw [this]
        exact not_lt.1 h

/-- Specification: `i` is the first row with the largest magnitude in column `j`. -/
def FirstLargest (c : Coeff K) (j i : Nat) : Prop :=
  i < c.nao ∧ (∀ i' < c.nao, |c.val i' j| ≤ |c.val i j|) ∧ ∀ i' < i, |c.val i' j| < |c.val i j|

private theorem firstLargest_argmax (c : Coeff K) (hn : c.nao ≠ 0) (j : Nat) :
    FirstLargest c j (argmax (fun i => |c.val i j|) (c.nao - 1)) := by
  obtain ⟨h1, h2, h3⟩ := argmax_spec (fun i => |c.val i j|) (c.nao - 1)
  exact ⟨by omega, fun i hi => h2 i (by omega), h3⟩

private theorem firstLargest_unique {c : Coeff K} {j i i' : Nat} (h : FirstLargest c j i) (h' : FirstLargest c j i') : i = i' := by
  rcases Nat.lt_trichotomy i i' with hlt | heq | hgt
  · exact absurd (h.2.1 i' h'.1) (not_le.2 (h'.2.2 i hlt))
  · exact heq
  · exact absurd (h'.2.1 i h.1) (not_le.2 (h.2.2 i' hgt))

variable [IsStrictOrderedRing K]

/-- **C32**: fix_orbital_sign multiplies whole orbitals by the returned signs, which are 1 or −1, keeps the shape, and the first entry of
largest magnitude of every orbital is not negative afterwards. With `inplace` the caller's array is the result, otherwise it is
unchanged. -/
theorem fix_orbital_sign_convention (c : Coeff K) (inplace : Bool) (res : Result K) (h : fixRestricted c inplace = .ok res) :
    (∀ j, res.signs j = 1 ∨ res.signs j = -1) ∧
    (∀ i j, res.coeff.val i j = c.val i j * (res.signs j : K)) ∧
    res.coeff.nao = c.nao ∧ res.coeff.nmo = c.nmo ∧
    (∀ j i, FirstLargest c j i → FirstLargest res.coeff j i ∧ 0 ≤ res.coeff.val i j) ∧
    res.argument = if inplace then res.coeff else c := by
  unfold fixRestricted at h
  by_cases hn : c.nao = 0
  · rw [if_pos hn] at h; cases h
  · rw [if_neg hn] at h
    injection h with h
    subst h
    refine ⟨fun j => ?_, fun i j => ?_, rfl, rfl, fun j i hi => ?_, ?_⟩
    · simp only; split
      · exact .inr rfl
      · exact .inl rfl
    · simp only [flipped]; split <;> simp
    · have habs : ∀ i', |(flipped c).val i' j| = |c.val i' j| := by
        intro i'
        simp only [flipped]
        split
        · rw [mul_neg_one, abs_neg]
        · rfl
      refine ⟨⟨hi.1, fun i' hi' => ?_, fun i' hi' => ?_⟩, ?_⟩
      · simp only [habs]; exact hi.2.1 i' hi'
      · simp only [habs]; exact hi.2.2 i' hi'
      · have := firstLargest_unique hi (firstLargest_argmax c hn j)
        simp only [flipped, swap, ← this]
        split
        · rename_i hs
          have hs : c.val i j < 0 := by simpa using hs
          linarith
        · rename_i hs
          have hs : ¬c.val i j < 0 := by simpa using hs
          exact not_lt.1 hs
    · cases inplace <;> rfl

omit [IsStrictOrderedRing K] in
/-- **C32**: the only failure is an array without rows. -/
theorem fix_orbital_sign_raises (c : Coeff K) (inplace : Bool) :
    (fixRestricted c inplace = .error .valueError ↔ c.nao = 0) ∧ (c.nao ≠ 0 → ∃ r, fixRestricted c inplace = .ok r) := by
  unfold fixRestricted
  by_cases hn : c.nao = 0
  · simp [hn]
  · simp [hn]

/-- **C32**: inputs that differ by orbital signs give the same result; ties between entries of equal magnitude do not matter. -/
theorem fix_orbital_sign_independent (c d : Coeff K) (s : Nat → K) (hs : ∀ j, s j = 1 ∨ s j = -1) (hnao : d.nao = c.nao) (hnmo : d.nmo = c.nmo)
    (hd : ∀ i j, d.val i j = s j * c.val i j) (inplace inplace' : Bool) (rc rd : Result K)
    (hc : fixRestricted c inplace = .ok rc) (hrd : fixRestricted d inplace' = .ok rd) (i j : Nat) (hi : i < c.nao) :
    rd.coeff.val i j = rc.coeff.val i j := by
  have hn : c.nao ≠ 0 := by omega
  obtain ⟨p1, p2, -, -, p5, -⟩ := fix_orbital_sign_convention c inplace rc hc
  obtain ⟨q1, q2, -, -, q5, -⟩ := fix_orbital_sign_convention d inplace' rd hrd
  have hfl := firstLargest_argmax c hn j
  generalize argmax (fun i => |c.val i j|) (c.nao - 1) = m at hfl
  have habs : ∀ i', |d.val i' j| = |c.val i' j| := by
    intro i'
    rw [hd, abs_mul]
    rcases hs j with h | h <;> rw [h] <;> simp
  have hfl' : FirstLargest d j m := by
    refine ⟨by rw [hnao]; exact hfl.1, fun i' hi' => ?_, fun i' hi' => ?_⟩
    · rw [habs, habs]; exact hfl.2.1 i' (by omega)
    · rw [habs, habs]; exact hfl.2.2 i' hi'
  have h1 := (p5 j m hfl).2
  have h2 := (q5 j m hfl').2
  rw [p2] at h1
  rw [q2, hd] at h2
  rw [q2, p2, hd]
  by_cases hz : c.val m j = 0
  · have : c.val i j = 0 := by
      have := hfl.2.1 i hi
      rw [hz, abs_zero] at this
      exact abs_nonpos_iff.1 this
    rw [this]; simp
  · have key : s j * (rd.signs j : K) = (rc.signs j : K) := by
      rcases hs j with e | e <;> rcases p1 j with e1 | e1 <;> rcases q1 j with e2 | e2 <;>
        rw [e, e1, e2] <;> rw [e1] at h1 <;> rw [e, e2] at h2 <;> push_cast at h1 h2 ⊢ <;>
        first | (norm_num; done) | (exfalso; apply hz; linarith)
    calc s j * c.val i j * (rd.signs j : K) = c.val i j * (s j * (rd.signs j : K)) := by ring
      _ = _ := by rw [key]

/-- **C32**: applying it again changes nothing: all signs are 1. -/
theorem fix_orbital_sign_idempotent (c : Coeff K) (inplace inplace' : Bool) (r r2 : Result K)
    (h : fixRestricted c inplace = .ok r) (h2 : fixRestricted r.coeff inplace' = .ok r2) :
    (∀ j, r2.signs j = 1) ∧ (∀ i j, r2.coeff.val i j = r.coeff.val i j) := by
  have hn : c.nao ≠ 0 := by
    intro hn
    rw [((fix_orbital_sign_raises c inplace).1).2 hn] at h
    cases h
  have hsig : ∀ j, r2.signs j = 1 := by
    intro j
    obtain ⟨-, -, hnao, -, p5, -⟩ := fix_orbital_sign_convention c inplace r h
    obtain ⟨f1, f2⟩ := p5 j _ (firstLargest_argmax c hn j)
    have hn2 : r.coeff.nao ≠ 0 := by rw [hnao]; exact hn
    have hu := firstLargest_unique f1 (firstLargest_argmax r.coeff hn2 j)
    unfold fixRestricted at h2
    rw [if_neg hn2] at h2
    injection h2 with h2
    rw [← h2]
    have : swap r.coeff j = false := by
      unfold swap
      rw [← hu]
      simpa using f2
    simp [this]
  refine ⟨hsig, fun i j => ?_⟩
  rw [(fix_orbital_sign_convention _ _ _ h2).2.1, hsig]
  simp

omit [IsStrictOrderedRing K] in
/-- **C32**: spin-dependent orbitals: both arrays are treated on their own; a failure of either is a failure. -/
theorem fix_orbital_sign_unrestricted (ca cb : Coeff K) (inplace : Bool) :
    (∀ ra rb, fixUnrestricted ca cb inplace = .ok (ra, rb) ↔ fixRestricted ca inplace = .ok ra ∧ fixRestricted cb inplace = .ok rb) ∧
    ((∃ e, fixUnrestricted ca cb inplace = .error e) ↔ ca.nao = 0 ∨ cb.nao = 0) := by
  unfold fixUnrestricted fixRestricted
  by_cases ha : ca.nao = 0 <;> by_cases hb : cb.nao = 0 <;> simp [ha, hb, Except.bind, Except.map, Prod.ext_iff]

/-- Two orbitals, the first with a tie in magnitude. -/
example : ∃ r, fixRestricted (K := ℚ) ⟨2, 2, fun i j => if j = 0 then (if i = 0 then -3 else 3) else (if i = 0 then -1 else 2)⟩ false = .ok r ∧
    r.signs 0 = -1 ∧ r.signs 1 = 1 ∧ r.coeff.val 0 0 = 3 ∧ r.coeff.val 1 0 = -3 := by
  refine ⟨_, if_neg (by simp), ?_, ?_, ?_, ?_⟩ <;> simp [swap, argmax, flipped]

end Vayesta.Props
