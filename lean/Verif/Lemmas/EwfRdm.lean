import Verif.Model.EwfRdm
import Mathlib.Tactic.FieldSimp
import Mathlib.Tactic.LinearCombination
import Mathlib.Algebra.BigOperators.Pi

/-! Contractions of two arrays with four axes over three of them, and what a pair of fragments contributes to the density matrix. -/

set_option linter.unusedSectionVars false

namespace Vayesta.EwfRdm
open Vayesta.Amplitudes Vayesta.Tensor

section
variable {K : Type} [CommRing K] {m n p q a b c d m' a' b' : Type}

/-- Contraction over all axes but the first. -/
def dotO [Fintype m] [Fintype a] [Fintype b] (A : p → m → a → b → K) (B : q → m → a → b → K) : p → q → K :=
  fun i j => ∑ k, ∑ x, ∑ y, A i k x y * B j k x y

/-- Contraction over all axes but the last. -/
def dotV [Fintype m] [Fintype n] [Fintype a] (A : m → n → a → p → K) (B : m → n → a → q → K) : p → q → K :=
  fun x y => ∑ i, ∑ j, ∑ k, A i j k x * B i j k y

theorem move1 [Fintype m] [Fintype n] (M : m → n → K) (f : n → K) (g : m → K) : ∑ i, (∑ k, M i k * f k) * g i = ∑ k, f k * ∑ i, tp M k i * g i := by
  simp only [Finset.sum_mul, Finset.mul_sum, tp]
  rw [Finset.sum_comm]
  exact Finset.sum_congr rfl fun _ _ => Finset.sum_congr rfl fun _ _ => by ring

theorem sum3_comm1 {M : Type} [AddCommMonoid M] [Fintype a] [Fintype b] [Fintype c] (f : a → b → c → M) :
    ∑ x, ∑ y, ∑ z, f x y z = ∑ y, ∑ z, ∑ x, f x y z := by
  rw [Finset.sum_comm]
  exact Finset.sum_congr rfl fun _ _ => Finset.sum_comm

section
variable [Fintype m] [Fintype n] [Fintype a] [Fintype b] [Fintype m'] [Fintype a'] [Fintype b']

theorem dotO_L1l [Fintype p] (M : c → p → K) (A : p → m → a → b → K) (B : q → m → a → b → K) : dotO (L1 M A) B = mm M (dotO A B) := by
  funext i j
  show ∑ k, ∑ x, ∑ y, (∑ r, M i r * A r k x y) * B j k x y = ∑ r, M i r * ∑ k, ∑ x, ∑ y, A r k x y * B j k x y
  simp only [Finset.mul_sum, Finset.sum_mul]
  rw [sum3_comm1 (fun r k x => ∑ y, M i r * (A r k x y * B j k x y))]
  refine Finset.sum_congr rfl fun k _ => Finset.sum_congr rfl fun x _ => ?_
  rw [Finset.sum_comm]
  exact Finset.sum_congr rfl fun _ _ => Finset.sum_congr rfl fun _ _ => by ring

theorem dotO_swap (A : p → m → a → b → K) (B : q → m → a → b → K) : dotO A B = tp (dotO B A) := by
  funext i j
  exact Finset.sum_congr rfl fun _ _ => Finset.sum_congr rfl fun _ _ => Finset.sum_congr rfl fun _ _ => mul_comm _ _

theorem dotO_L1r [Fintype q] (M : c → q → K) (A : p → m → a → b → K) (B : q → m → a → b → K) : dotO A (L1 M B) = mm (dotO A B) (tp M) := by
  rw [dotO_swap, dotO_L1l, tp_mm, ← dotO_swap]

theorem dotO_L2 (M : m' → m → K) (A : p → m → a → b → K) (B : q → m' → a → b → K) : dotO (L2 M A) B = dotO A (L2 (tp M) B) := by
  funext i j
  show ∑ k, ∑ x, ∑ y, (∑ r, M k r * A i r x y) * B j k x y = ∑ k, ∑ x, ∑ y, A i k x y * ∑ r, tp M k r * B j r x y
  rw [sum3_comm1, sum3_comm1 (fun k x y => A i k x y * ∑ r, tp M k r * B j r x y)]
  exact Finset.sum_congr rfl fun _ _ => Finset.sum_congr rfl fun _ _ => move1 M _ _

theorem dotO_L3 (M : a' → a → K) (A : p → m → a → b → K) (B : q → m → a' → b → K) : dotO (L3 M A) B = dotO A (L3 (tp M) B) := by
  funext i j
  show ∑ k, ∑ x, ∑ y, (∑ r, M x r * A i k r y) * B j k x y = ∑ k, ∑ x, ∑ y, A i k x y * ∑ r, tp M x r * B j k r y
  refine Finset.sum_congr rfl fun k _ => ?_
  rw [Finset.sum_comm, Finset.sum_comm (f := fun x y => A i k x y * ∑ r, tp M x r * B j k r y)]
  exact Finset.sum_congr rfl fun _ _ => move1 M _ _

theorem dotO_L4 (M : b' → b → K) (A : p → m → a → b → K) (B : q → m → a → b' → K) : dotO (L4 M A) B = dotO A (L4 (tp M) B) := by
  funext i j
  exact Finset.sum_congr rfl fun _ _ => Finset.sum_congr rfl fun _ _ => move1 M _ _

theorem dotO_add_l (A A' : p → m → a → b → K) (B : q → m → a → b → K) : dotO (A + A') B = dotO A B + dotO A' B := by
  funext i j
  simp only [dotO, Pi.add_apply, add_mul, Finset.sum_add_distrib]

theorem dotO_add_r (A : p → m → a → b → K) (B B' : q → m → a → b → K) : dotO A (B + B') = dotO A B + dotO A B' := by
  funext i j
  simp only [dotO, Pi.add_apply, mul_add, Finset.sum_add_distrib]

theorem dotO_smul_l (r : K) (A : p → m → a → b → K) (B : q → m → a → b → K) : dotO (r • A) B = r • dotO A B := by
  funext i j
  simp only [dotO, Pi.smul_apply, smul_eq_mul, Finset.mul_sum, mul_assoc]

theorem dotO_smul_r (r : K) (A : p → m → a → b → K) (B : q → m → a → b → K) : dotO A (r • B) = r • dotO A B := by
  funext i j
  simp only [dotO, Pi.smul_apply, smul_eq_mul, Finset.mul_sum]
  exact Finset.sum_congr rfl fun _ _ => Finset.sum_congr rfl fun _ _ => Finset.sum_congr rfl fun _ _ => by ring

/-- Reverse the order of the axes: turns `dotV` into `dotO`. -/
def rev4 {m n a p : Type} (A : m → n → a → p → K) : p → a → n → m → K := fun x k j i => A i j k x

theorem dotV_eq (A : m → n → a → p → K) (B : m → n → a → q → K) : dotV A B = dotO (rev4 A) (rev4 B) := by
  funext x y
  show ∑ i, ∑ j, ∑ k, A i j k x * B i j k y = ∑ k, ∑ j, ∑ i, A i j k x * B i j k y
  rw [sum3_comm1 (fun k j i => A i j k x * B i j k y), Finset.sum_comm]

theorem rev4_L1 (M : m' → m → K) (A : m → n → a → p → K) : rev4 (L1 M A) = L4 M (rev4 A) := rfl
theorem rev4_L2 (M : m' → n → K) (A : m → n → a → p → K) : rev4 (L2 M A) = L3 M (rev4 A) := rfl
theorem rev4_L3 (M : m' → a → K) (A : m → n → a → p → K) : rev4 (L3 M A) = L2 M (rev4 A) := rfl
theorem rev4_L4 [Fintype p] (M : m' → p → K) (A : m → n → a → p → K) : rev4 (L4 M A) = L1 M (rev4 A) := rfl
theorem rev4_add (A B : m → n → a → p → K) : rev4 (A + B) = rev4 A + rev4 B := rfl
theorem rev4_smul (r : K) (A : m → n → a → p → K) : rev4 (r • A) = r • rev4 A := rfl

theorem dotV_L1 (M : m' → m → K) (A : m → n → a → p → K) (B : m' → n → a → q → K) : dotV (L1 M A) B = dotV A (L1 (tp M) B) := by
  simp only [dotV_eq, rev4_L1, dotO_L4]
theorem dotV_L2 (M : m' → n → K) (A : m → n → a → p → K) (B : m → m' → a → q → K) : dotV (L2 M A) B = dotV A (L2 (tp M) B) := by
  simp only [dotV_eq, rev4_L2, dotO_L3]
theorem dotV_L3 (M : m' → a → K) (A : m → n → a → p → K) (B : m → n → m' → q → K) : dotV (L3 M A) B = dotV A (L3 (tp M) B) := by
  simp only [dotV_eq, rev4_L3, dotO_L2]
theorem dotV_L4l [Fintype p] (M : c → p → K) (A : m → n → a → p → K) (B : m → n → a → q → K) : dotV (L4 M A) B = mm M (dotV A B) := by
  simp only [dotV_eq, rev4_L4, dotO_L1l]
theorem dotV_L4r [Fintype q] (M : c → q → K) (A : m → n → a → p → K) (B : m → n → a → q → K) : dotV A (L4 M B) = mm (dotV A B) (tp M) := by
  simp only [dotV_eq, rev4_L4, dotO_L1r]
theorem dotV_add_l (A A' : m → n → a → p → K) (B : m → n → a → q → K) : dotV (A + A') B = dotV A B + dotV A' B := by
  simp only [dotV_eq, rev4_add, dotO_add_l]
theorem dotV_add_r (A : m → n → a → p → K) (B B' : m → n → a → q → K) : dotV A (B + B') = dotV A B + dotV A B' := by
  simp only [dotV_eq, rev4_add, dotO_add_r]
theorem dotV_smul_l (r : K) (A : m → n → a → p → K) (B : m → n → a → q → K) : dotV (r • A) B = r • dotV A B := by
  simp only [dotV_eq, rev4_smul, dotO_smul_l]
theorem dotV_smul_r (r : K) (A : m → n → a → p → K) (B : m → n → a → q → K) : dotV A (r • B) = r • dotV A B := by
  simp only [dotV_eq, rev4_smul, dotO_smul_r]

end

variable [Fintype m] [Fintype n] [Fintype a]

theorem L1_add (M : p → m → K) (t u : m → b → c → d → K) : L1 M (t + u) = L1 M t + L1 M u := by
  funext i j x y; simp only [L1, Pi.add_apply, mul_add, Finset.sum_add_distrib]
theorem L2_add (M : p → m → K) (t u : b → m → c → d → K) : L2 M (t + u) = L2 M t + L2 M u := by
  funext i j x y; simp only [L2, Pi.add_apply, mul_add, Finset.sum_add_distrib]
theorem L3_add (M : p → m → K) (t u : b → c → m → d → K) : L3 M (t + u) = L3 M t + L3 M u := by
  funext i j x y; simp only [L3, Pi.add_apply, mul_add, Finset.sum_add_distrib]
theorem L4_add (M : p → m → K) (t u : b → c → d → m → K) : L4 M (t + u) = L4 M t + L4 M u := by
  funext i j x y; simp only [L4, Pi.add_apply, mul_add, Finset.sum_add_distrib]
theorem L1_smul (r : K) (M : p → m → K) (t : m → b → c → d → K) : L1 M (r • t) = r • L1 M t := by
  funext i j x y; simp only [L1, Pi.smul_apply, smul_eq_mul, Finset.mul_sum]; exact Finset.sum_congr rfl fun _ _ => by ring
theorem L2_smul (r : K) (M : p → m → K) (t : b → m → c → d → K) : L2 M (r • t) = r • L2 M t := by
  funext i j x y; simp only [L2, Pi.smul_apply, smul_eq_mul, Finset.mul_sum]; exact Finset.sum_congr rfl fun _ _ => by ring
theorem L3_smul (r : K) (M : p → m → K) (t : b → c → m → d → K) : L3 M (r • t) = r • L3 M t := by
  funext i j x y; simp only [L3, Pi.smul_apply, smul_eq_mul, Finset.mul_sum]; exact Finset.sum_congr rfl fun _ _ => by ring
theorem L4_smul (r : K) (M : p → m → K) (t : b → c → d → m → K) : L4 M (r • t) = r • L4 M t := by
  funext i j x y; simp only [L4, Pi.smul_apply, smul_eq_mul, Finset.mul_sum]; exact Finset.sum_congr rfl fun _ _ => by ring

theorem L1_zero (M : p → m → K) : L1 M (0 : m → b → c → d → K) = 0 := by funext i j x y; simp [L1]
theorem L2_zero (M : p → m → K) : L2 M (0 : b → m → c → d → K) = 0 := by funext i j x y; simp [L2]
theorem L3_zero (M : p → m → K) : L3 M (0 : b → c → m → d → K) = 0 := by funext i j x y; simp [L3]
theorem L4_zero (M : p → m → K) : L4 M (0 : b → c → d → m → K) = 0 := by funext i j x y; simp [L4]
theorem L2_zero' (t : b → m → c → d → K) : L2 (0 : p → m → K) t = 0 := by funext i j x y; simp [L2]
theorem L3_zero' (t : b → c → m → d → K) : L3 (0 : p → m → K) t = 0 := by funext i j x y; simp [L3]
theorem L1_zero' (t : m → b → c → d → K) : L1 (0 : p → m → K) t = 0 := by funext i j x y; simp [L1]
theorem dotO_zero [Fintype b] (A : p → m → a → b → K) : dotO A (0 : q → m → a → b → K) = 0 := by funext i j; simp [dotO]
theorem dotV_zero [Fintype b] (A : m → n → a → p → K) : dotV A (0 : m → n → a → q → K) = 0 := by funext i j; simp [dotV]

end

section
variable {K : Type} [Field K] {o v : Type}

/-- Transposition of both pairs of axes. -/
theorem transp_L2 {m n p q r : Type} [Fintype n] (M : m → n → K) (t : T2 p n q r K) : transp (L2 M t) = L1 M (transp t) := rfl
theorem transp_L1' {m n p q r : Type} [Fintype n] (M : m → n → K) (t : T2 n p q r K) : transp (L1 M t) = L2 M (transp t) := rfl
theorem transp_L3 {m n p q r : Type} [Fintype n] (M : m → n → K) (t : T2 p q n r K) : transp (L3 M t) = L4 M (transp t) := rfl
theorem transp_L4 {m n p q r : Type} [Fintype n] (M : m → n → K) (t : T2 p q r n K) : transp (L4 M t) = L3 M (transp t) := rfl
theorem transp_transp {m n p q : Type} (t : T2 m n p q K) : transp (transp t) = t := rfl

theorem restored_eq {f co cv : Type} [Fintype f] (p : f → co → K) (t : T2 f co cv cv K) :
    restored p t = (1 / 2 : K) • (L1 (tp p) t + L2 (tp p) (transp t)) := by
  funext i j a b
  show (L1 (tp p) t i j a b + L2 (tp p) (transp t) i j a b) / 2 = _
  show _ = (1 / 2 : K) * (L1 (tp p) t i j a b + L2 (tp p) (transp t) i j a b)
  ring

theorem theta_restored {f co cv : Type} [Fintype f] (p : f → co → K) (t : T2 f co cv cv K) : theta (restored p t) = restored p (theta t) := by
  funext i j a b
  simp only [theta, restored, symmetrizeC2, transp, projectC2, mul_sub, Finset.sum_sub_distrib]
  have e : ∀ f : f → K, ∑ x, f x * (2 * t x i b a) = 2 * ∑ x, f x * t x i b a := fun g => by
    rw [Finset.mul_sum]; exact Finset.sum_congr rfl fun _ _ => by ring
  have e' : ∀ f : f → K, ∑ x, f x * (2 * t x j a b) = 2 * ∑ x, f x * t x j a b := fun g => by
    rw [Finset.mul_sum]; exact Finset.sum_congr rfl fun _ _ => by ring
  rw [e, e']
  ring

section
variable {c d c' d' f f' : Type} [Fintype c] [Fintype d] [Fintype c'] [Fintype d'] [Fintype f] [Fintype f'] [Fintype o] [Fintype v]

/-- The factors kept reproduce the matrix. -/
def Keeps (svd : Option (∀ m n : Type, (m → n → K) → Factors m n K)) {m n : Type} (r : m → n → K) : Prop :=
  ∀ g, svd = some g → mm (g m n r).u (g m n r).w = r

variable (svd : Option (∀ m n : Type, (m → n → K) → Factors m n K)) (ro : c → c' → K) (rv : d → d' → K)

theorem tmpEarly_eq (ho : Keeps svd ro) (hv : Keeps svd rv) (th : T2 c c d d K) (l2 : T2 c' c' d' d' K) (i : c) (i' : c') (b : d) (b' : d') :
    tmpEarly svd th l2 ro rv i i' b b' = ∑ j, ∑ a, th i j a b * L2 ro (L3 rv l2) i' j a b' := by
  have key : ∀ {k k' : Type} [Fintype k] [Fintype k'] (u : c → k → K) (w : k → c' → K) (u' : d → k' → K) (w' : k' → d' → K),
      ∑ s, ∑ p, L2 (tp u) (L3 (tp u') th) i s p b * L2 w (L3 w' l2) i' s p b' = ∑ j, ∑ a, th i j a b * L2 (mm u w) (L3 (mm u' w') l2) i' j a b' := by
    intro k k' _ _ u w u' w'
    have h := congrFun (congrFun (dotO_L2 (tp u) (fun (_ : Unit) j a (_ : Unit) => L3 (tp u') th i j a b) (fun (_ : Unit) s p (_ : Unit) => L2 w (L3 w' l2) i' s p b')) ()) ()
    have h' := congrFun (congrFun (dotO_L3 (tp u') (fun (_ : Unit) j a (_ : Unit) => th i j a b) (fun (_ : Unit) j p (_ : Unit) => L2 u (L2 w (L3 w' l2)) i' j p b')) ()) ()
    simp only [dotO, Finset.univ_unique, Finset.sum_singleton] at h h'
    refine Eq.trans h (Eq.trans h' ?_)
    refine Finset.sum_congr rfl fun j _ => Finset.sum_congr rfl fun a _ => congrArg (th i j a b * ·) ?_
    show L3 u' (L2 u (L2 w (L3 w' l2))) i' j a b' = _
    rw [L2_L2, L3_L2, L3_L3]
  unfold tmpEarly
  cases hs : svd with
  | none =>
    classical
    have := key ro (delta : c' → c' → K) rv (delta : d' → d' → K)
    rw [mm_delta, mm_delta, L2_delta, L3_delta] at this
    exact this
  | some g =>
    dsimp only
    rw [key, ho g hs, hv g hs]

theorem pairEarly_eq (ho : Keeps svd ro) (hv : Keeps svd rv) (th : T2 c c d d K) (l2 : T2 c' c' d' d' K) (cyo : o → c' → K) (cyv : v → d' → K) :
    pairEarly svd th l2 ro rv cyo cyv =
      (-dotO th (L1 cyo (L2 ro (L3 rv (L4 rv l2)))), dotV th (L1 ro (L2 ro (L3 rv (L4 cyv l2))))) := by
  unfold pairEarly
  dsimp only
  refine Prod.ext ?_ ?_
  · dsimp only
    rw [dotO_L1r]
    funext p q
    show ∑ i', _ * _ = -∑ i', _ * _
    rw [← Finset.sum_neg_distrib]
    refine Finset.sum_congr rfl fun i' _ => ?_
    rw [neg_mul]
    refine congrArg (fun z => -(z * _)) ?_
    show _ = ∑ j, ∑ a, ∑ b, th p j a b * L2 ro (L3 rv (L4 rv l2)) i' j a b
    have : ∀ (b : d) (j : c) (a : d), th p j a b * L2 ro (L3 rv (L4 rv l2)) i' j a b = ∑ b', th p j a b * L2 ro (L3 rv l2) i' j a b' * rv b b' := by
      intro b j a
      rw [← L4_L3, ← L4_L2]
      show _ * (∑ b', rv b b' * _) = _
      rw [Finset.mul_sum]
      exact Finset.sum_congr rfl fun _ _ => by ring
    simp only [this, tmpEarly_eq svd ro rv ho hv, Finset.sum_mul]
    rw [← sum3_comm1 (fun b j a => ∑ b', th p j a b * L2 ro (L3 rv l2) i' j a b' * rv b b')]
    refine Finset.sum_congr rfl fun b _ => ?_
    rw [sum3_comm1]
  · dsimp only
    rw [← L4_L3, ← L4_L2, ← L4_L1, dotV_L4r]
    refine congrArg (fun z => mm z (tp cyv)) ?_
    funext b b'
    show _ = ∑ i, ∑ j, ∑ a, th i j a b * (∑ i', ro i i' * L2 ro (L3 rv l2) i' j a b')
    simp only [tmpEarly_eq svd ro rv ho hv, Finset.sum_mul, Finset.mul_sum]
    refine Finset.sum_congr rfl fun i _ => ?_
    rw [sum3_comm1]
    exact Finset.sum_congr rfl fun _ _ => Finset.sum_congr rfl fun _ _ => Finset.sum_congr rfl fun _ _ => by ring

theorem overlapsLate_eq (ho : Keeps svd ro) (cfx : c → f → K) (cfy : c' → f' → K) :
    overlapsLate svd ro cfx cfy = (mm ro cfy, mm (tp ro) cfx, mm (tp cfx) (mm ro cfy)) := by
  unfold overlapsLate
  cases hs : svd with
  | none => rfl
  | some g =>
    dsimp only
    have h := ho g hs
    have h' : mm (tp (g c c' ro).w) (tp (g c c' ro).u) = tp ro := by rw [← tp_mm, h]
    rw [← mm_assoc (g c c' ro).u, h, ← mm_assoc (tp (g c c' ro).w), h']

theorem dotO_cut {k p q m : Type} [Fintype k] [Fintype m] (U : d → k → K) (W : k → d' → K) (hv : mm U W = rv) (A : p → m → d → d → K)
    (B : q → m → d' → d' → K) : dotO (L3 (tp U) (L4 (tp U) A)) (L3 W (L4 W B)) = dotO A (L3 rv (L4 rv B)) := by
  rw [dotO_L3, dotO_L4]
  show dotO A (L4 U (L3 U (L3 W (L4 W B)))) = _
  rw [L3_L3, hv, ← L4_L3, L4_L4, hv, L4_L3]

theorem mm_neg_smul {k l p q : Type} [Fintype k] [Fintype l] (r : K) (A : p → k → K) (B : k → l → K) (C : l → q → K) :
    mm A (mm (r • B) C) = r • mm A (mm B C) := by
  funext i j
  simp only [mm, Pi.smul_apply, smul_eq_mul, Finset.mul_sum, Finset.sum_mul]
  exact Finset.sum_congr rfl fun _ _ => Finset.sum_congr rfl fun _ _ => by ring

theorem mm_smul_l {k p q : Type} [Fintype k] (r : K) (A : p → k → K) (B : k → q → K) : mm (r • A) B = r • mm A B := by
  funext i j
  simp only [mm, Pi.smul_apply, smul_eq_mul, Finset.mul_sum]
  exact Finset.sum_congr rfl fun _ _ => by ring

theorem mm_add_l {k p q : Type} [Fintype k] (A A' : p → k → K) (B : k → q → K) : mm (A + A') B = mm A B + mm A' B := by
  funext i j
  simp only [mm, Pi.add_apply, add_mul, Finset.sum_add_distrib]

theorem mm_add_r {k p q : Type} [Fintype k] (A : p → k → K) (B B' : k → q → K) : mm A (B + B') = mm A B + mm A B' := by
  funext i j
  simp only [mm, Pi.add_apply, mul_add, Finset.sum_add_distrib]

section
variable {k l : Type} [Fintype k] [Fintype l]

theorem tmp1_eq {k' : Type} [Fintype k'] (A : f → k' → k → l → K) (B : f' → k' → k → l → K) :
    (fun x y => -(∑ j, ∑ a, ∑ b, A x j a b * B y j a b) / 4 : f → f' → K) = (-1 / 4 : K) • dotO A B := by
  funext x y
  show -dotO A B x y / 4 = (-1 / 4 : K) * dotO A B x y
  ring
theorem tmp2_eq (A : f → f' → k → l → K) (B : f' → c' → l → k → K) :
    (fun x i => -(∑ y, ∑ a, ∑ b, A x y a b * B y i b a) / 4 : f → c' → K) = (-1 / 4 : K) • dotO A (transp B) := tmp1_eq A (transp B)
theorem tmp3_eq (A : f → c → k → l → K) (B : f' → f → l → k → K) :
    (fun i y => -(∑ x, ∑ a, ∑ b, A x i b a * B y x a b) / 4 : c → f' → K) = (-1 / 4 : K) • dotO (transp A) B := tmp1_eq (transp A) B
theorem tmp4_eq (A : f → c → k → l → K) (M : f → f' → K) (B : f' → c' → k → l → K) :
    (fun i i' => -(∑ x, ∑ y, ∑ a, ∑ b, A x i b a * M x y * B y i' b a) / 4 : c → c' → K) = (-1 / 4 : K) • dotO (transp A) (L2 M (transp B)) := by
  rw [← tmp1_eq]
  funext i i'
  refine congrArg (fun z => -z / 4) (Finset.sum_congr rfl fun x _ => ?_)
  rw [sum3_comm1]
  refine Finset.sum_congr rfl fun a _ => Finset.sum_congr rfl fun b _ => ?_
  show _ = A x i b a * ∑ y, M x y * B y i' b a
  rw [Finset.mul_sum]
  exact Finset.sum_congr rfl fun _ _ => by ring
end

section
variable (th : T2 f c d d K) (l2 : T2 f' c' d' d' K) (cfx : c → f → K) (cfy : c' → f' → K) (cyo : o → c' → K)

theorem occ1 : dotO (L1 cfx th) (L1 cyo (L2 ro (L3 rv (L4 rv (L1 cfy l2))))) = mm cfx (mm (dotO th (L2 ro (L3 rv (L4 rv l2)))) (tp (mm cyo cfy))) := by
  rw [dotO_L1l, dotO_L1r, L4_L1, L3_L1, L2_L1, dotO_L1r, tp_mm, mm_assoc]
theorem occ2 : dotO (L1 cfx th) (L1 cyo (L2 ro (L3 rv (L4 rv (L2 cfy (transp l2)))))) =
    mm cfx (mm (dotO th (L2 (mm ro cfy) (L3 rv (L4 rv (transp l2))))) (tp cyo)) := by
  rw [dotO_L1l, dotO_L1r, L4_L2, L3_L2, L2_L2]
theorem occ3 : dotO (L2 cfx (transp th)) (L1 cyo (L2 ro (L3 rv (L4 rv (L1 cfy l2))))) =
    mm (dotO (transp th) (L2 (mm (tp cfx) ro) (L3 rv (L4 rv l2)))) (tp (mm cyo cfy)) := by
  rw [dotO_L2, L4_L1, L3_L1, L2_L1 cfy ro, L1_L1, L2_L1, dotO_L1r, L2_L2]
theorem occ4 : dotO (L2 cfx (transp th)) (L1 cyo (L2 ro (L3 rv (L4 rv (L2 cfy (transp l2)))))) =
    mm (dotO (transp th) (L2 (mm (tp cfx) (mm ro cfy)) (L3 rv (L4 rv (transp l2))))) (tp cyo) := by
  rw [dotO_L2, L2_L1, dotO_L1r, L4_L2, L3_L2, L2_L2, L2_L2, mm_assoc]

theorem quarter : (4 : K)⁻¹ = 2⁻¹ * 2⁻¹ := by rw [← mul_inv]; norm_num

theorem occAll : -dotO (restored (tp cfx) th) (L1 cyo (L2 ro (L3 rv (L4 rv (restored (tp cfy) l2))))) =
    (-1 / 4 : K) • (mm cfx (mm (dotO th (L2 ro (L3 rv (L4 rv l2)))) (tp (mm cyo cfy))) +
      mm cfx (mm (dotO th (L2 (mm ro cfy) (L3 rv (L4 rv (transp l2))))) (tp cyo)) +
      mm (dotO (transp th) (L2 (mm (tp cfx) ro) (L3 rv (L4 rv l2)))) (tp (mm cyo cfy)) +
      mm (dotO (transp th) (L2 (mm (tp cfx) (mm ro cfy)) (L3 rv (L4 rv (transp l2))))) (tp cyo)) := by
  rw [← occ1, ← occ2, ← occ3, ← occ4, restored_eq, restored_eq]
  simp only [tp_tp, L4_smul, L3_smul, L2_smul, L1_smul, L4_add, L3_add, L2_add, L1_add, dotO_smul_l, dotO_smul_r, dotO_add_l, dotO_add_r]
  funext i j
  simp only [Pi.add_apply, Pi.smul_apply, Pi.neg_apply, smul_eq_mul, div_eq_mul_inv, quarter]
  ring

variable {k : Type} [Fintype k] (U : d → k → K) (W : k → d' → K)

theorem occSum_eq (hv : mm U W = rv) :
    occSum (mm ro cfy, mm (tp ro) cfx, mm (tp cfx) (mm ro cfy)) (L3 (tp U) (L4 (tp U) th)) (L3 W (L4 W l2))
      ((-1 / 4 : K) • dotO th (L2 ro (L3 rv (L4 rv l2)))) cfx (mm cyo cfy) cyo =
    -dotO (restored (tp cfx) th) (L1 cyo (L2 ro (L3 rv (L4 rv (restored (tp cfy) l2))))) := by
  have g2 : dotO (L2 (tp (mm ro cfy)) (L3 (tp U) (L4 (tp U) th))) (transp (L3 W (L4 W l2))) = dotO th (L2 (mm ro cfy) (L3 rv (L4 rv (transp l2)))) := by
    rw [transp_L3, transp_L4, L4_L3, ← L3_L2, ← L4_L2, dotO_cut rv U W hv, dotO_L2, tp_tp]
  have g3 : dotO (transp (L3 (tp U) (L4 (tp U) th))) (L2 (tp (mm (tp ro) cfx)) (L3 W (L4 W l2))) = dotO (transp th) (L2 (mm (tp cfx) ro) (L3 rv (L4 rv l2))) := by
    rw [transp_L3, transp_L4, L4_L3, ← L3_L2, ← L4_L2, dotO_cut rv U W hv, L4_L2, L3_L2, tp_mm, tp_tp]
  have g4 : dotO (transp (L3 (tp U) (L4 (tp U) th))) (L2 (mm (tp cfx) (mm ro cfy)) (transp (L3 W (L4 W l2)))) =
      dotO (transp th) (L2 (mm (tp cfx) (mm ro cfy)) (L3 rv (L4 rv (transp l2)))) := by
    rw [transp_L3, transp_L4, transp_L3, transp_L4, L4_L3, L4_L3, ← L3_L2, ← L4_L2, dotO_cut rv U W hv, L4_L2, L3_L2]
  rw [occAll]
  unfold occSum
  dsimp only
  rw [tmp2_eq, tmp3_eq, tmp4_eq, g2, g3, g4, mm_neg_smul, mm_neg_smul, mm_smul_l, mm_smul_l]
  funext i j
  simp only [Pi.add_apply, Pi.smul_apply, smul_eq_mul, mul_add]

end

theorem occLate_eq (ho : Keeps svd ro) (hv : Keeps svd rv) (th : T2 f c d d K) (l2 : T2 f' c' d' d' K)
    (cfx : c → f → K) (cfy : c' → f' → K) (cyo : o → c' → K) :
    occLate svd th l2 ro rv cfx cfy (mm cyo cfy) cyo = -dotO (restored (tp cfx) th) (L1 cyo (L2 ro (L3 rv (L4 rv (restored (tp cfy) l2))))) := by
  unfold occLate
  dsimp only
  rw [overlapsLate_eq svd ro ho]
  cases hs : svd with
  | none =>
    classical
    dsimp only
    have := occSum_eq ro rv th l2 cfx cfy cyo rv (delta : d' → d' → K) (mm_delta rv)
    rw [L4_delta, L3_delta] at this
    rw [← this, tmp1_eq]
    refine congrArg (fun z => occSum _ _ _ z _ _ _) (congrArg _ ?_)
    have h := dotO_cut rv rv (delta : d' → d' → K) (mm_delta rv) th (L2 ro l2)
    rw [L4_delta, L3_delta] at h
    rw [dotO_L2, tp_tp, h, L4_L2, L3_L2]
  | some g =>
    dsimp only
    rw [← occSum_eq ro rv th l2 cfx cfy cyo _ _ (hv g hs), tmp1_eq]
    refine congrArg (fun z => occSum _ _ _ z _ _ _) (congrArg _ ?_)
    rw [dotO_L2, tp_tp, L2_L2, ho g hs, ← L3_L2, ← L4_L2, dotO_cut rv _ _ (hv g hs), L4_L2, L3_L2]

section
variable {k l : Type} [Fintype k] [Fintype l]

theorem vir34 (A : f → f' → k → d → K) (B : f → f' → k → d' → K) (b : d) (b' : d') : (∑ y, ∑ j, ∑ a, A y j a b * B y j a b') = dotV A B b b' := rfl
theorem vir43 (A : f → f' → d → k → K) (B : f → f' → d' → k → K) (b : d) (b' : d') :
    (∑ y, ∑ j, ∑ a, A y j b a * B y j b' a) = dotV (transp A) (transp B) b b' := Finset.sum_comm
theorem virX (A : f → f' → k → d → K) (B : f' → f → d' → k → K) (b : d) (b' : d') :
    (∑ x, ∑ y, ∑ a, A x y a b * B y x b' a) = dotV A (transp B) b b' := rfl
theorem virY (A : f → f' → d → k → K) (B : f' → f → k → d' → K) (b : d) (b' : d') :
    (∑ x, ∑ y, ∑ a, A x y b a * B y x a b') = dotV (transp A) B b b' := Finset.sum_comm
end

section
variable (th : T2 f c d d K) (l2 : T2 f' c' d' d' K) (cfx : c → f → K) (cfy : c' → f' → K)

theorem virAll : dotV (restored (tp cfx) th) (L1 ro (L2 ro (L3 rv (restored (tp cfy) l2)))) = fun b b' =>
    dotV th (L1 (mm (tp cfx) (mm ro cfy)) (L2 ro (L3 rv l2))) b b' / 4 +
    dotV (transp th) (L2 (mm (tp cfx) (mm ro cfy)) (L1 ro (L3 rv (transp l2)))) b b' / 4 +
    dotV th (L2 (mm ro cfy) (L1 (mm (tp cfx) ro) (L3 rv (transp l2)))) b b' / 4 +
    dotV (transp th) (L1 (mm ro cfy) (L2 (mm (tp cfx) ro) (L3 rv l2))) b b' / 4 := by
  have h1 : dotV (L1 cfx th) (L1 ro (L2 ro (L3 rv (L1 cfy l2)))) = dotV th (L1 (mm (tp cfx) (mm ro cfy)) (L2 ro (L3 rv l2))) := by
    rw [dotV_L1, L3_L1, L2_L1, L1_L1, L1_L1, mm_assoc]
  have h2 : dotV (L2 cfx (transp th)) (L1 ro (L2 ro (L3 rv (L2 cfy (transp l2))))) =
      dotV (transp th) (L2 (mm (tp cfx) (mm ro cfy)) (L1 ro (L3 rv (transp l2)))) := by
    rw [dotV_L2, L2_L1, L3_L2, L2_L2, L2_L2, L2_L1, mm_assoc]
  have h3 : dotV (L1 cfx th) (L1 ro (L2 ro (L3 rv (L2 cfy (transp l2))))) = dotV th (L2 (mm ro cfy) (L1 (mm (tp cfx) ro) (L3 rv (transp l2)))) := by
    rw [dotV_L1, L1_L1, L3_L2, L2_L2, L2_L1]
  have h4 : dotV (L2 cfx (transp th)) (L1 ro (L2 ro (L3 rv (L1 cfy l2)))) = dotV (transp th) (L1 (mm ro cfy) (L2 (mm (tp cfx) ro) (L3 rv l2))) := by
    rw [dotV_L2, L3_L1, L2_L1 cfy ro, L1_L1, L2_L1, L2_L2]
  rw [← h1, ← h2, ← h3, ← h4, restored_eq, restored_eq]
  simp only [tp_tp, L4_smul, L3_smul, L2_smul, L1_smul, L4_add, L3_add, L2_add, L1_add, dotV_smul_l, dotV_smul_r, dotV_add_l, dotV_add_r]
  funext i j
  simp only [Pi.add_apply, Pi.smul_apply, Pi.neg_apply, smul_eq_mul, div_eq_mul_inv, quarter]
  ring

end

theorem virLate_eq (ho : Keeps svd ro) (hv : Keeps svd rv) (th : T2 f c d d K) (l2 : T2 f' c' d' d' K)
    (cfx : c → f → K) (cfy : c' → f' → K) (cyv : v → d' → K) :
    virLate svd th l2 ro rv cfx cfy cyv = dotV (restored (tp cfx) th) (L1 ro (L2 ro (L3 rv (L4 cyv (restored (tp cfy) l2))))) := by
  rw [← L4_L3, ← L4_L2, ← L4_L1, dotV_L4r, virAll]
  unfold virLate
  dsimp only
  rw [overlapsLate_eq svd ro ho]
  cases hs : svd with
  | none =>
    dsimp only
    refine congrArg (fun z => mm z (tp cyv)) ?_
    funext b b'
    rw [vir34, vir43, virX, virY]
    have h1 : dotV (L3 (tp rv) (L1 (tp (mm (tp cfx) (mm ro cfy))) (L2 (tp ro) th))) l2 = dotV th (L1 (mm (tp cfx) (mm ro cfy)) (L2 ro (L3 rv l2))) := by
      rw [dotV_L3, dotV_L1, dotV_L2]; simp only [tp_tp, L2_L1]
    have h2 : dotV (transp (L4 (tp rv) (L1 (tp (mm (tp cfx) (mm ro cfy))) (L2 (tp ro) th)))) (transp l2) =
        dotV (transp th) (L2 (mm (tp cfx) (mm ro cfy)) (L1 ro (L3 rv (transp l2)))) := by
      rw [transp_L4, transp_L1', transp_L2, dotV_L3, dotV_L2, dotV_L1]; simp only [tp_tp, L2_L1]
    have h3 : dotV (L3 (tp rv) (L2 (tp (mm ro cfy)) th)) (transp (L2 (tp (mm (tp ro) cfx)) l2)) =
        dotV th (L2 (mm ro cfy) (L1 (mm (tp cfx) ro) (L3 rv (transp l2)))) := by
      rw [transp_L2, dotV_L3, dotV_L2, tp_tp, tp_tp, L3_L1, tp_mm, tp_tp]
    have h4 : dotV (transp (L4 (tp rv) (L2 (tp (mm ro cfy)) th))) (L2 (tp (mm (tp ro) cfx)) l2) =
        dotV (transp th) (L1 (mm ro cfy) (L2 (mm (tp cfx) ro) (L3 rv l2))) := by
      rw [transp_L4, transp_L2, dotV_L3, dotV_L1, tp_tp, tp_tp, L3_L2, tp_mm, tp_tp]
    rw [h1, h2, h3, h4]
  | some g =>
    dsimp only
    refine congrArg (fun z => mm z (tp cyv)) ?_
    funext b b'
    rw [vir34, vir43, virX, virY]
    have go := ho g hs
    have gv := hv g hs
    have h1 : dotV (L3 (tp (g d d' rv).u) (L2 (tp (g c c' ro).u) th)) (L3 (g d d' rv).w (L1 (mm (tp cfx) (mm ro cfy)) (L2 (g c c' ro).w l2))) =
        dotV th (L1 (mm (tp cfx) (mm ro cfy)) (L2 ro (L3 rv l2))) := by
      rw [dotV_L3, dotV_L2, tp_tp, tp_tp, L3_L3, gv, L3_L1, L2_L1, L3_L2, L2_L2, go]
    have h2 : dotV (transp (L4 (tp (g d d' rv).u) (L2 (tp (g c c' ro).u) th))) (transp (L4 (g d d' rv).w (L1 (mm (tp cfx) (mm ro cfy)) (L2 (g c c' ro).w l2)))) =
        dotV (transp th) (L2 (mm (tp cfx) (mm ro cfy)) (L1 ro (L3 rv (transp l2)))) := by
      rw [transp_L4, transp_L2, transp_L4, transp_L1', transp_L2, dotV_L3, dotV_L1, tp_tp, tp_tp, L3_L3, gv, L3_L2, L3_L1, L2_L1, L1_L1, go, L2_L1]
    have h3 : dotV (L3 (tp (g d d' rv).u) (L2 (tp (mm ro cfy)) th)) (transp (L4 (g d d' rv).w (L2 (tp (mm (tp ro) cfx)) l2))) =
        dotV th (L2 (mm ro cfy) (L1 (mm (tp cfx) ro) (L3 rv (transp l2)))) := by
      rw [transp_L4, transp_L2, dotV_L3, dotV_L2, tp_tp, tp_tp, L3_L3, gv, L3_L1, tp_mm, tp_tp]
    have h4 : dotV (transp (L4 (tp (g d d' rv).u) (L2 (tp (mm ro cfy)) th))) (L3 (g d d' rv).w (L2 (tp (mm (tp ro) cfx)) l2)) =
        dotV (transp th) (L1 (mm ro cfy) (L2 (mm (tp cfx) ro) (L3 rv l2))) := by
      rw [transp_L4, transp_L2, dotV_L3, dotV_L1, tp_tp, tp_tp, L3_L3, gv, L3_L2, tp_mm, tp_tp]
    rw [h1, h2, h3, h4]

end
end
end Vayesta.EwfRdm
