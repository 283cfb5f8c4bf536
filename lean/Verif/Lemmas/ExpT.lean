import Verif.Spec.ExpT
import Mathlib.Algebra.BigOperators.Ring.List
import Mathlib.Tactic.NormNum
import Mathlib.Tactic.Ring
import Mathlib.Tactic.LinearCombination

/-! The exponential of antisymmetric amplitudes can be inverted for all ranks. -/

namespace Vayesta.ExpT

variable {K : Type} [Field K] {α β O V : Type}

/-- Signed sum over the divisions of a list. -/
def sumS (l : List α) (f : List α → List α → K) : K := ((splits l).map fun s => s.1 * f s.2.1 s.2.2).sum

theorem sumS_nil (f : List α → List α → K) : sumS [] f = f [] [] := by
  simp [sumS, splits]

theorem sumS_cons (x : α) (l : List α) (f : List α → List α → K) :
    sumS (x :: l) f = sumS l (fun s r => f (x :: s) r) + sumS l fun s r => (-1) ^ s.length * f s (x :: r) := by
  unfold sumS
  simp only [splits, List.map_append, List.sum_append, List.map_map, Function.comp_def]
  congr 2
  apply List.map_congr_left
  intro s _
  ring

theorem sumS_congr_mem (l : List α) (f g : List α → List α → K) (h : ∀ s r, s.length + r.length = l.length → f s r = g s r) : sumS l f = sumS l g := by
  induction l generalizing f g with
  | nil => rw [sumS_nil, sumS_nil]; exact h [] [] rfl
  | cons x l ih =>
    rw [sumS_cons, sumS_cons]
    congr 1
    · exact ih _ _ fun s r hl => h _ _ (by simp only [List.length_cons]; omega)
    · exact ih _ _ fun s r hl => by rw [h _ _ (by simp only [List.length_cons]; omega)]

theorem sumS_congr (l : List α) (f g : List α → List α → K) (h : ∀ s r, f s r = g s r) : sumS l f = sumS l g :=
  sumS_congr_mem l f g fun s r _ => h s r

theorem sumS_zero (l : List α) : sumS l (fun _ _ => (0 : K)) = 0 := by
  induction l with
  | nil => rw [sumS_nil]
  | cons x l ih => simp only [sumS_cons, mul_zero, ih, add_zero]

theorem sumS_add (l : List α) (f g : List α → List α → K) : sumS l (fun s r => f s r + g s r) = sumS l f + sumS l g := by
  induction l generalizing f g with
  | nil => simp only [sumS_nil]
  | cons x l ih =>
    simp only [sumS_cons, mul_add, ih]
    ring

theorem sumS_mul (l : List α) (k : K) (f : List α → List α → K) : sumS l (fun s r => k * f s r) = k * sumS l f := by
  induction l generalizing f with
  | nil => simp only [sumS_nil]
  | cons x l ih =>
    simp only [sumS_cons, mul_add, ← ih]
    congr 1
    exact sumS_congr _ _ _ fun s r => by ring

theorem sumS_neg (l : List α) (f : List α → List α → K) : sumS l (fun s r => -f s r) = -sumS l f := by
  have := sumS_mul l (-1) f
  simpa using this

theorem sumS_comm (l : List α) (a : List β) (f : List α → List α → List β → List β → K) :
    sumS l (fun s r => sumS a fun b d => f s r b d) = sumS a fun b d => sumS l fun s r => f s r b d := by
  induction l generalizing f with
  | nil => simp only [sumS_nil]
  | cons x l ih =>
    simp only [sumS_cons, ← sumS_mul, ih, sumS_add]

/-- Swap neighbouring elements of a divided list. -/
theorem sumS_swap (u : List α) (x y : α) (v : List α) (f : List α → List α → K)
    (h1 : ∀ p q r, f (p ++ x :: y :: q) r = -f (p ++ y :: x :: q) r) (h2 : ∀ s p q, f s (p ++ x :: y :: q) = -f s (p ++ y :: x :: q)) :
    sumS (u ++ x :: y :: v) f = -sumS (u ++ y :: x :: v) f := by
  induction u generalizing f with
  | nil =>
    simp only [List.nil_append, sumS_cons, List.length_cons]
    have e1 : sumS v (fun s r => f (x :: y :: s) r) = -sumS v fun s r => f (y :: x :: s) r := by
      rw [← sumS_neg]
      exact sumS_congr _ _ _ fun s r => h1 [] s r
    have e2 : sumS v (fun s r => (-1) ^ s.length * ((-1) ^ s.length * f s (x :: y :: r))) =
        -sumS v fun s r => (-1) ^ s.length * ((-1) ^ s.length * f s (y :: x :: r)) := by
      rw [← sumS_neg]
      exact sumS_congr _ _ _ fun s r => by
        have := h2 s [] r
        simp only [List.nil_append] at this
        rw [this]; ring
    have e3 : ∀ x y : α, sumS v (fun s r => (-1) ^ s.length * f (x :: s) (y :: r)) = -sumS v fun s r => (-1) ^ (s.length + 1) * f (x :: s) (y :: r) := by
      intro x y
      rw [← sumS_neg]
      exact sumS_congr _ _ _ fun s r => by ring
    rw [e1, e2, e3 x y, e3 y x]
    ring
  | cons z u ih =>
    simp only [List.cons_append, sumS_cons]
    rw [ih (fun s r => f (z :: s) r) (fun p q r => h1 (z :: p) q r) (fun s p q => h2 (z :: s) p q),
      ih (fun s r => (-1) ^ s.length * f s (z :: r)) (fun p q r => by simp only [List.length_append, List.length_cons]; rw [h1]; ring)
        (fun s p q => by have := h2 s (z :: p) q; simp only [List.cons_append] at this; rw [this]; ring)]
    ring

/-- Exchange the first two of three parts. -/
theorem sumS_exchange (l : List α) (f : List α → List α → List α → K) :
    sumS l (fun s r => sumS r fun s' r' => f s s' r') = sumS l fun s' r => sumS r fun s r' => (-1) ^ (s.length * s'.length) * f s s' r' := by
  induction l generalizing f with
  | nil => simp only [sumS_nil]; simp
  | cons x l ih =>
    simp only [sumS_cons, mul_add, sumS_add, ← sumS_mul]
    rw [ih fun s s' r' => f (x :: s) s' r']
    have e1 := ih fun s s' r' => (-1) ^ s.length * f s (x :: s') r'
    have e2 := ih fun s s' r' => (-1) ^ s.length * ((-1) ^ s'.length * f s s' (x :: r'))
    rw [e1, e2]
    have d1 : sumS l (fun s' r => sumS r fun s r' => (-1) ^ (s.length * s'.length) * f (x :: s) s' r') =
        sumS l fun s' r => sumS r fun s r' => (-1) ^ s'.length * ((-1) ^ ((x :: s).length * s'.length) * f (x :: s) s' r') := by
      refine sumS_congr _ _ _ fun s' r => sumS_congr _ _ _ fun s r' => ?_
      rw [List.length_cons, Nat.add_mul, pow_add, Nat.one_mul]
      have : ((-1 : K) ^ s'.length) * (-1) ^ s'.length = 1 := by rw [← pow_add, ← two_mul, pow_mul]; norm_num
      linear_combination (-(-1) ^ (s.length * s'.length) * f (x :: s) s' r') * this
    have d2 : sumS l (fun s' r => sumS r fun s r' => (-1) ^ (s.length * s'.length) * ((-1) ^ s.length * f s (x :: s') r')) =
        sumS l fun s' r => sumS r fun s r' => (-1) ^ (s.length * (x :: s').length) * f s (x :: s') r' := by
      refine sumS_congr _ _ _ fun s' r => sumS_congr _ _ _ fun s r' => ?_
      rw [List.length_cons, Nat.mul_add, pow_add, Nat.mul_one]
      ring
    have d3 : sumS l (fun s' r => sumS r fun s r' => (-1) ^ (s.length * s'.length) * ((-1) ^ s.length * ((-1) ^ s'.length * f s s' (x :: r')))) =
        sumS l fun s' r => sumS r fun s r' => (-1) ^ s'.length * ((-1) ^ s.length * ((-1) ^ (s.length * s'.length) * f s s' (x :: r'))) := by
      refine sumS_congr _ _ _ fun s' r => sumS_congr _ _ _ fun s r' => ?_
      ring
    rw [d1, d2, d3]
    ring

/-- One term of the sum over splittings. -/
def term (t c : List O → List V → K) (i : O) (s r : List O) (b d : List V) : K := if b.length = s.length + 1 then t (i :: s) b * c r d else 0

theorem expStep_eq (t c : List O → List V → K) (i : O) (l : List O) (a : List V) :
    expStep t c i l a = sumS l fun s r => sumS a fun b d => term t c i s r b d := by
  unfold expStep sumS term
  congr 1
  apply List.map_congr_left
  intro s _
  rw [← List.sum_map_mul_left]
  congr 1
  apply List.map_congr_left
  intro r _
  by_cases h : r.2.1.length = s.2.1.length + 1
  · simp only [if_pos h]; ring
  · simp only [if_neg h]; ring

theorem expStep_congr (t t' c c' : List O → List V → K) (i : O) (l : List O) (a : List V) (hl : l.length + 1 = a.length)
    (h : ∀ s b, s.length ≤ l.length → s.length + 1 = b.length → t (i :: s) b = t' (i :: s) b)
    (h' : ∀ r d, r.length ≤ l.length → r.length = d.length → c r d = c' r d) : expStep t c i l a = expStep t' c' i l a := by
  rw [expStep_eq, expStep_eq]
  refine sumS_congr_mem _ _ _ fun s r hs => sumS_congr_mem _ _ _ fun b d hb => ?_
  unfold term
  split
  · rename_i hb'
    rw [h s b (by omega) hb'.symm, h' r d (by omega) (by omega)]
  · rfl

theorem expStep_vir {t c : List O → List V → K} (ht : Antisymmetric t) (hc : Antisymmetric c) (i : O) (l : List O) (u : List V) (x y : V) (v : List V) :
    expStep t c i l (u ++ x :: y :: v) = -expStep t c i l (u ++ y :: x :: v) := by
  rw [expStep_eq, expStep_eq, ← sumS_neg]
  refine sumS_congr _ _ _ fun s r => sumS_swap _ _ _ _ _ ?_ ?_
  · intro p q d
    simp only [term, List.length_append, List.length_cons]
    split
    · rw [ht.vir]; ring
    · ring
  · intro b p q
    simp only [term]
    split
    · rw [hc.vir]; ring
    · ring

theorem expStep_occ {t c : List O → List V → K} (ht : Antisymmetric t) (hc : Antisymmetric c) (i : O) (u : List O) (x y : O) (v : List O) (a : List V) :
    expStep t c i (u ++ x :: y :: v) a = -expStep t c i (u ++ y :: x :: v) a := by
  rw [expStep_eq, expStep_eq]
  refine sumS_swap _ _ _ _ _ ?_ ?_
  · intro p q d
    rw [← sumS_neg]
    refine sumS_congr _ _ _ fun b e => ?_
    simp only [term, List.length_append, List.length_cons]
    split
    · have := ht.occ (i :: p) x y q b
      simp only [List.cons_append] at this
      rw [this]; ring
    · ring
  · intro b p q
    rw [← sumS_neg]
    refine sumS_congr _ _ _ fun d e => ?_
    simp only [term]
    split
    · rw [hc.occ]; ring
    · ring

/-- Exchange of the first two occupied orbitals. -/
theorem expStep_first {t c : List O → List V → K} (ht : Antisymmetric t) (i j : O) (l : List O) (a : List V) (hl : l.length + 2 = a.length)
    (hc : ∀ i r d, r.length ≤ l.length → r.length + 1 = d.length → c (i :: r) d = expStep t c i r d) :
    expStep t c i (j :: l) a = -expStep t c j (i :: l) a := by
  have key : ∀ i j, expStep t c i (j :: l) a = sumS l (fun s r => sumS a fun b d => term t c i (j :: s) r b d) +
      sumS l fun s r => sumS r fun s' r' => sumS a fun b d => sumS d fun b' d' =>
        (-1) ^ s.length * if b.length = s.length + 1 ∧ b'.length = s'.length + 1 then t (i :: s) b * t (j :: s') b' * c r' d' else 0 := by
    intro i j
    rw [expStep_eq, sumS_cons]
    congr 1
    refine sumS_congr_mem _ _ _ fun s r hs => ?_
    rw [← sumS_mul, sumS_comm]
    refine sumS_congr_mem _ _ _ fun b d hb => ?_
    unfold term
    by_cases hbs : b.length = s.length + 1
    · simp only [hbs, true_and, if_true]
      rw [hc j r d (by omega) (by omega), expStep_eq, ← sumS_mul, ← sumS_mul]
      refine sumS_congr _ _ _ fun s' r' => ?_
      rw [← sumS_mul, ← sumS_mul]
      refine sumS_congr _ _ _ fun b' d' => ?_
      unfold term
      split <;> ring
    · simp only [hbs, false_and, if_false, mul_zero, sumS_zero]
  rw [key i j, key j i, neg_add]
  congr 1
  · rw [← sumS_neg]
    refine sumS_congr _ _ _ fun s r => ?_
    rw [← sumS_neg]
    refine sumS_congr _ _ _ fun b d => ?_
    unfold term
    simp only [List.length_cons]
    split
    · have := ht.occ [] i j s b
      simp only [List.nil_append] at this
      rw [this]; ring
    · ring
  · rw [sumS_exchange, ← sumS_neg]
    refine sumS_congr _ _ _ fun s' r => ?_
    rw [← sumS_neg]
    refine sumS_congr _ _ _ fun s r' => ?_
    rw [sumS_exchange, ← sumS_mul, ← sumS_neg]
    refine sumS_congr _ _ _ fun b' d => ?_
    rw [← sumS_mul, ← sumS_neg]
    refine sumS_congr _ _ _ fun b d' => ?_
    by_cases h1 : b.length = s.length + 1
    · by_cases h2 : b'.length = s'.length + 1
      · rw [if_pos ⟨h1, h2⟩, if_pos ⟨h2, h1⟩, h1, h2]
        have e : ((-1 : K) ^ (s.length * s'.length)) * (-1) ^ ((s.length + 1) * (s'.length + 1)) * (-1) ^ s.length = -(-1) ^ s'.length := by
          rw [← pow_add, ← pow_add, show s.length * s'.length + (s.length + 1) * (s'.length + 1) + s.length =
            2 * (s.length * s'.length + s.length) + (s'.length + 1) by ring, pow_add, pow_mul, neg_one_sq, one_pow]
          ring
        linear_combination (t (i :: s) b * t (j :: s') b' * c r' d') * e
      · simp only [h2, false_and, and_false, if_false, mul_zero, neg_zero]
    · simp only [h1, false_and, and_false, if_false, mul_zero, neg_zero]

theorem sumS_full (l : List α) (f : List α → List α → K) : sumS l f = f l [] + sumS l fun s r => if r.length = 0 then 0 else f s r := by
  induction l generalizing f with
  | nil => simp [sumS_nil]
  | cons x l ih =>
    rw [sumS_cons, sumS_cons, ih fun s r => f (x :: s) r]
    simp only [List.length_cons, Nat.add_eq_zero_iff, one_ne_zero, and_false, if_false]
    ring

/-- The sum over splittings without the connected part. -/
def rest (t c : List O → List V → K) (i : O) (l : List O) (a : List V) : K :=
  sumS l fun s r => if r.length = 0 then 0 else sumS a fun b d => term t c i s r b d

theorem expStep_full (t c : List O → List V → K) (hc : c [] [] = 1) (i : O) (l : List O) (a : List V) (hl : l.length + 1 = a.length) :
    expStep t c i l a = t (i :: l) a + rest t c i l a := by
  rw [expStep_eq, sumS_full, rest]
  congr 1
  rw [sumS_full]
  unfold term
  rw [if_pos hl.symm, hc, mul_one]
  rw [sumS_congr_mem a _ (fun _ _ => 0), sumS_zero, add_zero]
  intro b d hb
  split
  · rfl
  · rw [if_neg (by omega)]

theorem rest_congr (t t' c : List O → List V → K) (i : O) (l : List O) (a : List V)
    (h : ∀ s b, s.length < l.length → s.length + 1 = b.length → t (i :: s) b = t' (i :: s) b) : rest t c i l a = rest t' c i l a := by
  refine sumS_congr_mem _ _ _ fun s r hs => ?_
  split
  · rfl
  · refine sumS_congr _ _ _ fun b d => ?_
    unfold term
    split
    · rename_i hb
      rw [h s b (by omega) hb.symm]
    · rfl

/-- Amplitudes from coefficients, up to rank `n`. -/
def logRank (c : List O → List V → K) : Nat → List O → List V → K
  | 0, _, _ => 0
  | _ + 1, [], _ => 0
  | n + 1, i :: l, a => if l.length + 1 = a.length then c (i :: l) a - rest (logRank c n) c i l a else 0

/-- Amplitudes from coefficients. -/
def logAmp (c : List O → List V → K) (l : List O) (a : List V) : K := logRank c l.length l a

theorem logRank_stable (c : List O → List V → K) (n : Nat) (l : List O) (a : List V) (h : l.length ≤ n) : logRank c n l a = logAmp c l a := by
  unfold logAmp
  generalize hm : l.length = m at h
  induction m using Nat.strong_induction_on generalizing n l a with
  | _ m ih =>
    rcases l with _ | ⟨i, l⟩
    · simp only [List.length_nil] at hm
      subst hm
      cases n <;> rfl
    · obtain ⟨m, rfl⟩ : ∃ k, m = k + 1 := ⟨l.length, by rw [← hm, List.length_cons]⟩
      obtain ⟨n, rfl⟩ : ∃ k, n = k + 1 := ⟨n - 1, by omega⟩
      simp only [List.length_cons, Nat.add_right_cancel_iff] at hm
      simp only [logRank]
      split
      · congr 1
        refine rest_congr _ _ _ _ _ _ fun s b hs _ => ?_
        rw [ih (s.length + 1) (by omega) n (i :: s) b (by simp) (by omega), ih (s.length + 1) (by omega) m (i :: s) b (by simp) (by omega)]
      · rfl

theorem logAmp_cons (c : List O → List V → K) (i : O) (l : List O) (a : List V) :
    logAmp c (i :: l) a = if l.length + 1 = a.length then c (i :: l) a - rest (logAmp c) c i l a else 0 := by
  show logRank c (l.length + 1) (i :: l) a = _
  rw [logRank]
  split
  · congr 1
    refine rest_congr _ _ _ _ _ _ fun s b hs _ => ?_
    exact logRank_stable _ _ _ _ (by simp only [List.length_cons]; omega)
  · rfl

theorem logAmp_step (c : List O → List V → K) (hc : c [] [] = 1) (i : O) (l : List O) (a : List V) (hl : l.length + 1 = a.length) :
    c (i :: l) a = expStep (logAmp c) c i l a := by
  rw [expStep_full _ _ hc _ _ _ hl, logAmp_cons, if_pos hl]
  ring

theorem expRank_log (c : List O → List V → K) (hc : c [] [] = 1) (n : Nat) (l : List O) (a : List V) (hn : l.length ≤ n) (hl : l.length = a.length) :
    expRank (logAmp c) n l a = c l a := by
  induction n generalizing l a with
  | zero =>
    rcases l with _ | ⟨i, l⟩
    · rcases a with _ | ⟨b, a⟩
      · simp [expRank, hc]
      · simp at hl
    · simp at hn
  | succ n ih =>
    rcases l with _ | ⟨i, l⟩
    · rcases a with _ | ⟨b, a⟩
      · simp [expRank, hc]
      · simp at hl
    · rw [expRank, logAmp_step c hc i l a hl]
      simp only [List.length_cons] at hn hl
      exact expStep_congr _ _ _ _ _ _ _ hl (fun _ _ _ _ => rfl) fun r d hr hd => ih r d (by omega) hd

/-- The exponential of the amplitudes gives back the coefficients. -/
theorem expCoeff_log (c : List O → List V → K) (hc : c [] [] = 1) (l : List O) (a : List V) (hl : l.length = a.length) :
    expCoeff (logAmp c) l a = c l a := expRank_log c hc _ l a (le_refl _) hl

/-- Amplitudes up to a rank. -/
def trunc (n : Nat) (t : List O → List V → K) (l : List O) (a : List V) : K := if l.length ≤ n then t l a else 0

theorem logAmp_trunc (c : List O → List V → K) (hc : c [] [] = 1) (i : O) (l : List O) (a : List V) (hl : l.length + 1 = a.length) :
    logAmp c (i :: l) a = c (i :: l) a - expStep (trunc l.length (logAmp c)) c i l a := by
  rw [logAmp_cons, if_pos hl, expStep_full _ _ hc _ _ _ hl]
  rw [trunc, if_neg (by simp), zero_add]
  congr 1
  refine rest_congr _ _ _ _ _ _ fun s b hs _ => ?_
  rw [trunc, if_pos (by simp only [List.length_cons]; omega)]

theorem trunc_antisymmetric (c : List O → List V → K) (hc : c [] [] = 1) (ha : Antisymmetric c) (n : Nat) : Antisymmetric (trunc n (logAmp c)) := by
  induction n with
  | zero =>
    constructor
    · intro l i j m a
      simp only [trunc, List.length_append, List.length_cons]
      rw [if_neg (by omega), if_neg (by omega), neg_zero]
    · intro l a i j b
      unfold trunc
      split
      · have : l = [] := List.length_eq_zero_iff.mp (by omega)
        subst this
        simp [logAmp, logRank]
      · rw [neg_zero]
  | succ n ih =>
    have lower : ∀ l a, l.length ≤ n → trunc (n + 1) (logAmp c) l a = trunc n (logAmp c) l a := by
      intro l a h
      unfold trunc
      rw [if_pos h, if_pos (by omega)]
    have top : ∀ i l a, l.length = n → l.length + 1 = a.length →
        trunc (n + 1) (logAmp c) (i :: l) a = c (i :: l) a - expStep (trunc n (logAmp c)) c i l a := by
      intro i l a h1 h2
      unfold trunc
      rw [if_pos (by simp only [List.length_cons]; omega), logAmp_trunc c hc i l a h2, h1]
      rfl
    have off : ∀ l a, l.length ≠ a.length → trunc (n + 1) (logAmp c) l a = 0 := by
      intro l a h
      unfold trunc
      split
      · rcases l with _ | ⟨i, l⟩
        · rfl
        · rw [logAmp_cons, if_neg (by simpa using h)]
      · rfl
    have big : ∀ l a, n + 1 < l.length → trunc (n + 1) (logAmp c) l a = 0 := by
      intro l a h
      unfold trunc
      rw [if_neg (by omega)]
    constructor
    · intro l i j m a
      have hlen : (l ++ i :: j :: m).length = (l ++ j :: i :: m).length := by simp
      by_cases h0 : (l ++ i :: j :: m).length = a.length
      · rcases Nat.lt_trichotomy (l ++ i :: j :: m).length (n + 1) with h | h | h
        · rw [lower _ _ (by omega), lower _ _ (by omega), ih.occ]
        · rcases l with _ | ⟨z, l⟩
          · simp only [List.nil_append, List.length_cons] at h h0 ⊢
            rw [top i (j :: m) a (by simp only [List.length_cons]; omega) (by simp only [List.length_cons]; omega),
              top j (i :: m) a (by simp only [List.length_cons]; omega) (by simp only [List.length_cons]; omega),
              expStep_first ih i j m a (by omega), show c (i :: j :: m) a = -c (j :: i :: m) a from ha.occ [] i j m a]
            · ring
            · intro i r d hr hd
              rw [logAmp_step c hc i r d hd]
              refine expStep_congr _ _ _ _ _ _ _ hd (fun s b hs _ => ?_) fun _ _ _ _ => rfl
              rw [trunc, if_pos (by simp only [List.length_cons]; omega)]
          · simp only [List.cons_append, List.length_cons] at h h0 hlen ⊢
            rw [top z _ a (by omega) (by omega), top z _ a (by omega) (by omega), expStep_occ ih ha,
              show c (z :: (l ++ i :: j :: m)) a = -c (z :: (l ++ j :: i :: m)) a from ha.occ (z :: l) i j m a]
            ring
        · rw [big _ _ h, big _ _ (by omega), neg_zero]
      · rw [off _ _ h0, off _ _ (by omega), neg_zero]
    · intro l a i j b
      have hlen : (a ++ i :: j :: b).length = (a ++ j :: i :: b).length := by simp
      by_cases h0 : l.length = (a ++ i :: j :: b).length
      · rcases Nat.lt_trichotomy l.length (n + 1) with h | h | h
        · rw [lower _ _ (by omega), lower _ _ (by omega), ih.vir]
        · rcases l with _ | ⟨z, l⟩
          · simp at h
          · simp only [List.length_cons] at h h0
            rw [top z _ _ (by omega) (by omega), top z _ _ (by omega) (by omega), expStep_vir ih ha, ha.vir]
            ring
        · rw [big _ _ h, big _ _ (by omega), neg_zero]
      · rw [off _ _ h0, off _ _ (by omega), neg_zero]

/-- Amplitudes of antisymmetric coefficients are antisymmetric. -/
theorem logAmp_antisymmetric (c : List O → List V → K) (hc : c [] [] = 1) (ha : Antisymmetric c) : Antisymmetric (logAmp c) := by
  have e : ∀ n l a, l.length ≤ n → trunc n (logAmp c) l a = logAmp c l a := fun n l a h => if_pos h
  constructor
  · intro l i j m a
    have := (trunc_antisymmetric c hc ha (l ++ i :: j :: m).length).occ l i j m a
    rwa [e _ _ _ (le_refl _), e _ _ _ (by simp)] at this
  · intro l a i j b
    have := (trunc_antisymmetric c hc ha l.length).vir l a i j b
    rwa [e _ _ _ (le_refl _), e _ _ _ (le_refl _)] at this

/-! ### Spin projection -/

theorem sumS_congr_perm (l : List α) (f g : List α → List α → K) (h : ∀ s r, (s ++ r).Perm l → f s r = g s r) : sumS l f = sumS l g := by
  induction l generalizing f g with
  | nil => rw [sumS_nil, sumS_nil, h [] [] (by simp)]
  | cons x l ih =>
    rw [sumS_cons, sumS_cons]
    congr 1
    · exact ih _ _ fun s r hs => h _ _ (by simpa using hs)
    · refine ih _ _ fun s r hs => ?_
      rw [h s (x :: r) (List.perm_middle.trans (by simpa using hs))]

theorem alphas_append {X Y : Type} (l m : List (X ⊕ Y)) : alphas (l ++ m) = alphas l + alphas m := by simp [alphas]

theorem alphas_perm {X Y : Type} {l m : List (X ⊕ Y)} (h : l.Perm m) : alphas l = alphas m := (h.filter _).length_eq

theorem alphas_cons {X Y : Type} (x : X ⊕ Y) (l : List (X ⊕ Y)) : alphas (x :: l) = alphas [x] + alphas l := alphas_append [x] l

theorem expStep_conserves {P W : Type} {t c : List (O ⊕ P) → List (V ⊕ W) → K} (ht : ConservesSpin t) (hc : ConservesSpin c) (i : O ⊕ P) (l : List (O ⊕ P))
    (a : List (V ⊕ W)) (hl : l.length + 1 = a.length) (h : alphas (i :: l) ≠ alphas a) : expStep t c i l a = 0 := by
  rw [expStep_eq, sumS_congr_perm l _ (fun _ _ => 0), sumS_zero]
  intro s r hs
  rw [sumS_congr_perm a _ (fun _ _ => 0), sumS_zero]
  intro b d hb
  unfold term
  split
  · rename_i hbs
    have l1 := hs.length_eq
    have l2 := hb.length_eq
    have a1 := alphas_perm hs
    have a2 := alphas_perm hb
    rw [List.length_append] at l1 l2
    rw [alphas_append] at a1 a2
    by_cases hx : alphas (i :: s) = alphas b
    · rw [hc r d (by omega), mul_zero]
      rw [alphas_cons] at h hx
      omega
    · rw [ht (i :: s) b (by simp only [List.length_cons]; omega) hx, zero_mul]
  · rfl

theorem trunc_off (c : List O → List V → K) (n : Nat) (l : List O) (a : List V) (h : l.length ≠ a.length) : trunc n (logAmp c) l a = 0 := by
  unfold trunc
  split
  · rcases l with _ | ⟨i, l⟩
    · rfl
    · rw [logAmp_cons, if_neg (by simpa using h)]
  · rfl

theorem trunc_lower (c : List O → List V → K) (n : Nat) (l : List O) (a : List V) (h : l.length ≤ n) :
    trunc (n + 1) (logAmp c) l a = trunc n (logAmp c) l a := by
  unfold trunc
  rw [if_pos h, if_pos (by omega)]

theorem trunc_top (c : List O → List V → K) (hc : c [] [] = 1) (n : Nat) (i : O) (l : List O) (a : List V) (h1 : l.length = n) (h2 : l.length + 1 = a.length) :
    trunc (n + 1) (logAmp c) (i :: l) a = c (i :: l) a - expStep (trunc n (logAmp c)) c i l a := by
  conv_lhs => unfold trunc
  rw [if_pos (by simp only [List.length_cons]; omega), logAmp_trunc c hc i l a h2, h1]

theorem trunc_big (c : List O → List V → K) (n : Nat) (l : List O) (a : List V) (h : n < l.length) : trunc n (logAmp c) l a = 0 := by
  unfold trunc
  rw [if_neg (by omega)]

theorem trunc_zero (c : List O → List V → K) (l : List O) (a : List V) : trunc 0 (logAmp c) l a = 0 := by
  unfold trunc
  split
  · have : l = [] := List.length_eq_zero_iff.mp (by omega)
    subst this
    rfl
  · rfl

theorem trunc_self (c : List O → List V → K) (n : Nat) (l : List O) (a : List V) (h : l.length ≤ n) : trunc n (logAmp c) l a = logAmp c l a := if_pos h

theorem trunc_conserves {P W : Type} (c : List (O ⊕ P) → List (V ⊕ W) → K) (hc : c [] [] = 1) (hs : ConservesSpin c) (n : Nat) :
    ConservesSpin (trunc n (logAmp c)) := by
  induction n with
  | zero => exact fun l a _ _ => trunc_zero c l a
  | succ n ih =>
    intro l a hl ha
    rcases Nat.lt_trichotomy l.length (n + 1) with h | h | h
    · rw [trunc_lower _ _ _ _ (by omega), ih l a hl ha]
    · rcases l with _ | ⟨i, l⟩
      · simp at h
      · simp only [List.length_cons] at h hl
        rw [trunc_top c hc n i l a (by omega) hl, hs (i :: l) a hl ha, expStep_conserves ih hs i l a hl ha, sub_zero]
    · rw [trunc_big _ _ _ _ h]

/-- Amplitudes of coefficients which conserve the spin projection do so as well. -/
theorem logAmp_conserves {P W : Type} (c : List (O ⊕ P) → List (V ⊕ W) → K) (hc : c [] [] = 1) (hs : ConservesSpin c) : ConservesSpin (logAmp c) := by
  intro l a hl ha
  rw [← trunc_self c l.length l a (le_refl _)]
  exact trunc_conserves c hc hs _ l a hl ha

/-! ### Exchange of spins -/

theorem sumS_map {γ : Type} (g : α → γ) (l : List α) (f : List γ → List γ → K) : sumS (l.map g) f = sumS l fun s r => f (s.map g) (r.map g) := by
  induction l generalizing f with
  | nil => simp [sumS_nil]
  | cons x l ih =>
    rw [List.map_cons, sumS_cons, sumS_cons, ih, ih]
    simp

theorem expStep_map {O' V' : Type} (g : O → O') (h : V → V') (t c : List O' → List V' → K) (i : O) (l : List O) (a : List V) :
    expStep t c (g i) (l.map g) (a.map h) = expStep (fun l a => t (l.map g) (a.map h)) (fun l a => c (l.map g) (a.map h)) i l a := by
  rw [expStep_eq, expStep_eq, sumS_map]
  refine sumS_congr _ _ _ fun s r => ?_
  rw [sumS_map]
  refine sumS_congr _ _ _ fun b d => ?_
  simp only [term, List.length_map, List.map_cons]

theorem trunc_map (c : List O → List V → K) (hc : c [] [] = 1) (g : O → O) (h : V → V) (hm : ∀ l a, c (l.map g) (a.map h) = c l a) (n : Nat) :
    ∀ l a, trunc n (logAmp c) (l.map g) (a.map h) = trunc n (logAmp c) l a := by
  induction n with
  | zero => intro l a; rw [trunc_zero, trunc_zero]
  | succ n ih =>
    intro l a
    by_cases hl : l.length = a.length
    · rcases Nat.lt_trichotomy l.length (n + 1) with hn | hn | hn
      · rw [trunc_lower _ _ _ _ (by rw [List.length_map]; omega), trunc_lower _ _ _ _ (by omega), ih l a]
      · rcases l with _ | ⟨i, l⟩
        · simp at hn
        · simp only [List.length_cons] at hn hl
          rw [trunc_top c hc n i l a (by omega) hl, List.map_cons, trunc_top c hc n (g i) (l.map g) (a.map h) (by rw [List.length_map]; omega) (by simpa using hl),
            expStep_map, ← List.map_cons, hm]
          congr 2
          · funext l a; exact ih l a
          · funext l a; exact hm l a
      · rw [trunc_big _ _ _ _ hn, trunc_big _ _ _ _ (by rw [List.length_map]; omega)]
    · rw [trunc_off _ _ _ _ hl, trunc_off _ _ _ _ (by simpa using hl)]

theorem logAmp_map (c : List O → List V → K) (hc : c [] [] = 1) (g : O → O) (h : V → V) (hm : ∀ l a, c (l.map g) (a.map h) = c l a) (l : List O) (a : List V) :
    logAmp c (l.map g) (a.map h) = logAmp c l a := by
  have := trunc_map c hc g h hm l.length l a
  rwa [trunc_self c l.length l a (le_refl _), trunc_self _ _ _ _ (by simp)] at this

/-! ### Total spin -/

/-- One entry changed, in all possible ways. -/
def changed (δ : α → List α) : List α → List (List α)
  | [] => []
  | x :: l => ((δ x).map fun y => y :: l) ++ (changed δ l).map (x :: ·)

/-- Sum over all ways to change one entry. -/
def sumC (δ : α → List α) (l : List α) (f : List α → K) : K := ((changed δ l).map f).sum

theorem sumC_cons (δ : α → List α) (x : α) (l : List α) (f : List α → K) :
    sumC δ (x :: l) f = ((δ x).map fun y => f (y :: l)).sum + sumC δ l fun m => f (x :: m) := by
  simp [sumC, changed, Function.comp_def]

theorem sumC_nil (δ : α → List α) (f : List α → K) : sumC δ [] f = 0 := by simp [sumC, changed]

theorem length_changed (δ : α → List α) (l m : List α) (h : m ∈ changed δ l) : m.length = l.length := by
  induction l generalizing m with
  | nil => simp [changed] at h
  | cons x l ih =>
    simp only [changed, List.mem_append, List.mem_map] at h
    rcases h with ⟨y, _, rfl⟩ | ⟨m, hm, rfl⟩
    · simp
    · simp [ih m hm]

theorem sumC_congr (δ : α → List α) (l : List α) (f g : List α → K) (h : ∀ m, m.length = l.length → f m = g m) : sumC δ l f = sumC δ l g := by
  unfold sumC
  congr 1
  exact List.map_congr_left fun m hm => h m (length_changed δ l m hm)

theorem list_sum_add (l : List β) (f g : β → K) : (l.map fun x => f x + g x).sum = (l.map f).sum + (l.map g).sum := by
  induction l with
  | nil => simp
  | cons x l ih => simp only [List.map_cons, List.sum_cons, ih]; ring

theorem list_sum_mul (l : List β) (k : K) (f : β → K) : (l.map fun x => k * f x).sum = k * (l.map f).sum := by
  induction l with
  | nil => simp
  | cons x l ih => simp only [List.map_cons, List.sum_cons, ih]; ring

theorem sumC_add (δ : α → List α) (l : List α) (f g : List α → K) : sumC δ l (fun m => f m + g m) = sumC δ l f + sumC δ l g := list_sum_add _ _ _

theorem sumC_mul (δ : α → List α) (l : List α) (k : K) (f : List α → K) : sumC δ l (fun m => k * f m) = k * sumC δ l f := list_sum_mul _ _ _

theorem sumC_zero (δ : α → List α) (l : List α) : sumC δ l (fun _ => (0 : K)) = 0 := by simp [sumC]

theorem list_sumS (l : List β) (a : List α) (f : β → List α → List α → K) :
    (l.map fun x => sumS a (f x)).sum = sumS a fun s r => (l.map fun x => f x s r).sum := by
  induction l with
  | nil => simp [sumS_zero]
  | cons x l ih => simp only [List.map_cons, List.sum_cons, ih, sumS_add]

theorem sumC_sumS (δ : β → List β) (l : List β) (a : List α) (f : List β → List α → List α → K) :
    sumC δ l (fun m => sumS a (f m)) = sumS a fun s r => sumC δ l fun m => f m s r := list_sumS _ _ _

/-- Product rule: an entry of a divided list is in one of the parts. -/
theorem sumC_splits (δ : α → List α) (l : List α) (f : List α → List α → K) :
    sumC δ l (fun m => sumS m f) = sumS l fun s r => (sumC δ s fun m => f m r) + sumC δ r fun m => f s m := by
  induction l generalizing f with
  | nil => simp [sumC_nil, sumS_nil]
  | cons x l ih =>
    rw [sumC_cons, sumS_cons]
    simp only [sumS_cons]
    rw [list_sum_add, sumC_add, ih, ih, list_sumS, list_sumS, ← sumS_add, ← sumS_add, ← sumS_add, ← sumS_add]
    refine sumS_congr _ _ _ fun s r => ?_
    rw [sumC_cons, sumC_cons, list_sum_mul, sumC_mul, sumC_congr δ s (fun m => (-1) ^ m.length * f m (x :: r)) (fun m => (-1) ^ s.length * f m (x :: r)), sumC_mul]
    · ring
    · intro m hm
      rw [hm]

/-- Sums over changes of the virtual and of the occupied entries agree. -/
def Balanced (δ : O → List O) (ε : V → List V) (t : List O → List V → K) : Prop :=
  ∀ l a, l.length = a.length → sumC ε a (fun b => t l b) = sumC δ l fun m => t m a

theorem term_vir (ε : V → List V) (t c : List O → List V → K) (i : O) (s r : List O) (b d : List V) :
    (sumC ε b fun m => term t c i s r m d) = if b.length = s.length + 1 then sumC ε b (fun m => t (i :: s) m) * c r d else 0 := by
  rw [sumC_congr ε b _ (fun m => if b.length = s.length + 1 then c r d * t (i :: s) m else 0)]
  · split
    · rw [sumC_mul, mul_comm]
    · rw [sumC_zero]
  · intro m hm
    unfold term
    rw [hm]
    split
    · ring
    · rfl

theorem expStep_balanced {δ : O → List O} {ε : V → List V} {t c : List O → List V → K} (ht : Balanced δ ε t) (hc : Balanced δ ε c) (i : O) (l : List O)
    (a : List V) (hl : l.length + 1 = a.length) :
    sumC ε a (fun b => expStep t c i l b) = ((δ i).map fun j => expStep t c j l a).sum + sumC δ l fun m => expStep t c i m a := by
  simp only [expStep_eq]
  rw [sumC_sumS, list_sumS, sumC_splits, ← sumS_add]
  refine sumS_congr_mem _ _ _ fun s r hs => ?_
  rw [sumC_splits, list_sumS, sumC_sumS, sumC_sumS, ← sumS_add, ← sumS_add]
  refine sumS_congr_mem _ _ _ fun b d hb => ?_
  rw [term_vir]
  by_cases h : b.length = s.length + 1
  · have e1 : (sumC ε d fun m => term t c i s r b m) = t (i :: s) b * sumC ε d fun m => c r m := by
      rw [← sumC_mul]
      exact sumC_congr _ _ _ _ fun m _ => by unfold term; rw [if_pos h]
    have e2 : (sumC δ r fun m => term t c i s m b d) = t (i :: s) b * sumC δ r fun m => c m d := by
      rw [← sumC_mul]
      exact sumC_congr _ _ _ _ fun m _ => by unfold term; rw [if_pos h]
    have e3 : (sumC δ s fun m => term t c i m r b d) = c r d * sumC δ s fun m => t (i :: m) b := by
      rw [← sumC_mul]
      exact sumC_congr _ _ _ _ fun m hm => by unfold term; rw [hm, if_pos h, mul_comm]
    have e4 : ((δ i).map fun j => term t c j s r b d).sum = c r d * ((δ i).map fun j => t (j :: s) b).sum := by
      rw [← list_sum_mul]
      congr 1
      exact List.map_congr_left fun j _ => by unfold term; rw [if_pos h, mul_comm]
    rw [if_pos h, e1, e2, e3, e4, ht (i :: s) b (by simpa using h.symm), hc r d (by omega), sumC_cons]
    ring
  · have z : ∀ (j : O) (m : List O) (m' : List O) (b' d' : List V), m.length = s.length → b'.length = b.length → term t c j m m' b' d' = 0 := by
      intro j m m' b' d' h1 h2
      unfold term
      rw [if_neg (by omega)]
    rw [if_neg h, sumC_congr ε d _ (fun _ => 0), sumC_congr δ s _ (fun _ => 0), sumC_congr δ r _ (fun _ => 0), sumC_zero, sumC_zero, sumC_zero,
      List.map_congr_left (g := fun _ => (0 : K))]
    · simp
    · exact fun j _ => z j s r b d rfl rfl
    · exact fun m _ => z i s m b d rfl rfl
    · exact fun m hm => z i m r b d hm rfl
    · exact fun m _ => z i s r b m rfl rfl

theorem trunc_balanced {δ : O → List O} {ε : V → List V} (c : List O → List V → K) (hc : c [] [] = 1) (hb : Balanced δ ε c) (n : Nat) :
    Balanced δ ε (trunc n (logAmp c)) := by
  induction n with
  | zero =>
    intro l a _
    rw [sumC_congr ε a _ (fun _ => 0) fun m _ => trunc_zero c l m, sumC_congr δ l _ (fun _ => 0) fun m _ => trunc_zero c m a, sumC_zero, sumC_zero]
  | succ n ih =>
    intro l a hl
    rcases Nat.lt_trichotomy l.length (n + 1) with h | h | h
    · rw [sumC_congr ε a _ (fun m => trunc n (logAmp c) l m) fun m _ => trunc_lower c n l m (by omega),
        sumC_congr δ l _ (fun m => trunc n (logAmp c) m a) fun m hm => trunc_lower c n m a (by omega), ih l a hl]
    · rcases l with _ | ⟨i, l⟩
      · simp at h
      · simp only [List.length_cons] at h hl
        have e := expStep_balanced ih hb i l a hl
        have f := hb (i :: l) a hl
        rw [sumC_cons] at f ⊢
        rw [sumC_congr ε a _ (fun m => c (i :: l) m + (-1) * expStep (trunc n (logAmp c)) c i l m) fun m hm => by
            rw [trunc_top c hc n i l m (by omega) (by omega)]; ring,
          sumC_congr δ l _ (fun m => c (i :: m) a + (-1) * expStep (trunc n (logAmp c)) c i m a) fun m hm => by
            rw [trunc_top c hc n i m a (by omega) (by omega)]; ring,
          List.map_congr_left (g := fun j => c (j :: l) a + (-1) * expStep (trunc n (logAmp c)) c j l a) fun j _ => by
            rw [trunc_top c hc n j l a (by omega) (by omega)]; ring,
          sumC_add, sumC_mul, sumC_add, sumC_mul, list_sum_add, list_sum_mul]
        linear_combination f - e
    · rw [sumC_congr ε a _ (fun _ => 0) fun m _ => trunc_big c _ l m (by omega), sumC_congr δ l _ (fun _ => 0) fun m hm => trunc_big c _ m a (by omega),
        sumC_zero, sumC_zero]

theorem logAmp_balanced {δ : O → List O} {ε : V → List V} (c : List O → List V → K) (hc : c [] [] = 1) (hb : Balanced δ ε c) :
    Balanced δ ε (logAmp c) := by
  intro l a hl
  have := trunc_balanced c hc hb l.length l a hl
  rwa [sumC_congr ε a _ (fun m => logAmp c l m) fun m _ => trunc_self c _ l m (le_refl _),
    sumC_congr δ l _ (fun m => logAmp c m a) fun m hm => trunc_self c _ m a (le_of_eq hm)] at this

/-- Alpha to beta. -/
def lowerOf {X : Type} : X ⊕ X → List (X ⊕ X)
  | .inl x => [.inr x]
  | .inr _ => []

/-- Beta to alpha. -/
def raiseOf {X : Type} : X ⊕ X → List (X ⊕ X)
  | .inl _ => []
  | .inr x => [.inl x]

theorem lowered_eq {X : Type} (l : List (X ⊕ X)) : lowered l = changed lowerOf l := by
  induction l with
  | nil => rfl
  | cons x l ih => cases x <;> simp [lowered, changed, lowerOf, ih]

theorem raised_eq {X : Type} (l : List (X ⊕ X)) : raised l = changed raiseOf l := by
  induction l with
  | nil => rfl
  | cons x l ih => cases x <;> simp [raised, changed, raiseOf, ih]

/-- Amplitudes of a closed-shell state are those of a closed-shell state. -/
theorem logAmp_closedShell (c : List (O ⊕ O) → List (V ⊕ V) → K) (hc : c [] [] = 1) (h : ClosedShell c) : ClosedShell (logAmp c) := by
  constructor
  · have hb : Balanced raiseOf lowerOf c := by
      intro l a hl
      have := h.spin l a hl
      rwa [lowered_eq, raised_eq] at this
    intro l a hl
    rw [lowered_eq, raised_eq]
    exact logAmp_balanced c hc hb l a hl
  · exact logAmp_map c hc _ _ h.flip

end Vayesta.ExpT
