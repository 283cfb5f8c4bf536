import Verif.Spec.EwfURdm
import Verif.Lemmas.EwfRdmTotal

/-! Arrays of two spins, and what a pair of fragments of an unrestricted calculation contributes to the density matrix. -/

set_option linter.unusedSectionVars false

namespace Vayesta.EwfURdm
open Vayesta.Amplitudes Vayesta.Tensor Vayesta.EwfRdm

section
variable {K : Type} [Field K] {p q m n a b c m' a' b' : Type}
variable [Fintype m] [Fintype n] [Fintype a] [Fintype b] [Fintype m'] [Fintype a'] [Fintype b']

/-- Contraction over all axes but the third. -/
def dotW (A : m → n → p → a → K) (B : m → n → q → a → K) : p → q → K := fun x y => ∑ i, ∑ j, ∑ k, A i j x k * B i j y k

theorem dotW_eq (A : T2 m n p a K) (B : T2 m n q a K) : dotW A B = dotV (transp A) (transp B) := by
  funext x y
  exact Finset.sum_comm

theorem dotW_L1 (M : m' → m → K) (A : T2 m n p a K) (B : T2 m' n q a K) : dotW (L1 M A) B = dotW A (L1 (tp M) B) := by
  rw [dotW_eq, dotW_eq, transp_L1', transp_L1', dotV_L2]
theorem dotW_L2 (M : m' → n → K) (A : T2 m n p a K) (B : T2 m m' q a K) : dotW (L2 M A) B = dotW A (L2 (tp M) B) := by
  rw [dotW_eq, dotW_eq, transp_L2, transp_L2, dotV_L1]
theorem dotW_L4 (M : m' → a → K) (A : T2 m n p a K) (B : T2 m n q m' K) : dotW (L4 M A) B = dotW A (L4 (tp M) B) := by
  rw [dotW_eq, dotW_eq, transp_L4, transp_L4, dotV_L3]
theorem dotW_L3l [Fintype p] (M : c → p → K) (A : T2 m n p a K) (B : T2 m n q a K) : dotW (L3 M A) B = mm M (dotW A B) := by
  rw [dotW_eq, dotW_eq, transp_L3, dotV_L4l]
theorem dotW_L3r [Fintype q] (M : c → q → K) (A : T2 m n p a K) (B : T2 m n q a K) : dotW A (L3 M B) = mm (dotW A B) (tp M) := by
  rw [dotW_eq, dotW_eq, transp_L3, dotV_L4r]
theorem dotW_add_l (A A' : T2 m n p a K) (B : T2 m n q a K) : dotW (A + A') B = dotW A B + dotW A' B := by
  funext i j
  simp only [dotW, Pi.add_apply, add_mul, Finset.sum_add_distrib]
theorem dotW_add_r (A : T2 m n p a K) (B B' : T2 m n q a K) : dotW A (B + B') = dotW A B + dotW A B' := by
  funext i j
  simp only [dotW, Pi.add_apply, mul_add, Finset.sum_add_distrib]
theorem dotW_smul_l (r : K) (A : T2 m n p a K) (B : T2 m n q a K) : dotW (r • A) B = r • dotW A B := by
  funext i j
  simp only [dotW, Pi.smul_apply, smul_eq_mul, Finset.mul_sum, mul_assoc]
theorem dotW_smul_r (r : K) (A : T2 m n p a K) (B : T2 m n q a K) : dotW A (r • B) = r • dotW A B := by
  funext i j
  simp only [dotW, Pi.smul_apply, smul_eq_mul, Finset.mul_sum]
  exact Finset.sum_congr rfl fun _ _ => Finset.sum_congr rfl fun _ _ => Finset.sum_congr rfl fun _ _ => by ring
theorem dotW_zero (A : T2 m n p a K) : dotW A (0 : T2 m n q a K) = 0 := by funext i j; simp [dotW]

/-- The trace of both contractions is the same. -/
theorem dotO_dotW_trc [Fintype p] (A B : T2 m n p a K) : ∑ i, dotO A B i i = ∑ x, dotW A B x x := by
  show ∑ i, ∑ j, ∑ x, ∑ k, _ = ∑ x, ∑ i, ∑ j, ∑ k, _
  rw [← sum3_comm1 (fun x i j => ∑ k, A i j x k * B i j x k)]

end

section
variable {K : Type} [Field K] {f g c d e h f' g' c' d' e' h' k k' O V O' V' : Type} [Fintype f] [Fintype g] [Fintype c] [Fintype d] [Fintype e] [Fintype h]
  [Fintype f'] [Fintype g'] [Fintype c'] [Fintype d'] [Fintype e'] [Fintype h'] [Fintype k] [Fintype k'] [Fintype O] [Fintype V] [Fintype O'] [Fintype V']

/-- A block of restored doubles: `t` has the spin of the first axis in front, `tr` that of the second one. -/
def restoredG (p : f → c → K) (p' : f' → c' → K) (t : T2 f c' d d' K) (tr : T2 f' c d' d K) : T2 c c' d d' K :=
  (1 / 2 : K) • (L1 (tp p) t + L2 (tp p') (transp tr))

theorem transp_restoredG (p : f → c → K) (p' : f' → c' → K) (t : T2 f c' d d' K) (tr : T2 f' c d' d K) :
    transp (restoredG p p' t tr) = restoredG p' p tr t := by
  funext i j a b
  show (1 / 2 : K) * (L1 (tp p) t j i b a + L2 (tp p') (transp tr) j i b a) = (1 / 2 : K) * (L1 (tp p') tr i j a b + L2 (tp p) (transp t) i j a b)
  rw [add_comm]
  rfl

/-- Transformation to molecular orbitals. -/
def backG (ro : O → c → K) (ro' : O' → c' → K) (rv : V → d → K) (rv' : V' → d' → K) (t : T2 c c' d d' K) : T2 O O' V V' K := L1 ro (L2 ro' (L3 rv (L4 rv' t)))

theorem backU_eq (ro : O → c → K) (ro' : O' → c' → K) (rv : V → d → K) (rv' : V' → d' → K) (t : T2 c c' d d' K) : backU ro ro' rv rv' t = backG ro ro' rv rv' t := by
  funext i j a b
  simp only [backU, backG, L1, L2, L3, L4, Finset.mul_sum]
  exact Finset.sum_congr rfl fun _ _ => Finset.sum_congr rfl fun _ _ => Finset.sum_congr rfl fun _ _ => Finset.sum_congr rfl fun _ _ => by ring

theorem transp_backG (ro : O → c → K) (ro' : O' → c' → K) (rv : V → d → K) (rv' : V' → d' → K) (t : T2 c c' d d' K) :
    transp (backG ro ro' rv rv' t) = backG ro' ro rv' rv (transp t) := by
  have : transp (backG ro ro' rv rv' t) = L2 ro (L1 ro' (L4 rv (L3 rv' (transp t)))) := rfl
  rw [this, L2_L1, L4_L3, backG]

theorem dotO_backG (ro : O → c → K) (ro' : O' → c' → K) (rv : V → d → K) (rv' : V' → d' → K) (t : T2 c c' d d' K) (B : T2 O O' V V' K) :
    dotO (backG ro ro' rv rv' t) B = mm ro (dotO t (L2 (tp ro') (L3 (tp rv) (L4 (tp rv') B)))) := by
  rw [backG, dotO_L1l, dotO_L2, dotO_L3, dotO_L4, L3_L2, L4_L2, L4_L3]

theorem dotW_backG (ro : O → c → K) (ro' : O' → c' → K) (rv : V → d → K) (rv' : V' → d' → K) (t : T2 c c' d d' K) (B : T2 O O' V V' K) :
    dotW (backG ro ro' rv rv' t) B = mm rv (dotW t (L1 (tp ro) (L2 (tp ro') (L4 (tp rv') B)))) := by
  rw [backG, dotW_L1, dotW_L2, dotW_L3l, dotW_L4, L2_L1, L4_L1, L4_L2]

theorem dotS_backG (ro : O → c → K) (ro' : O' → c' → K) (rv : V → d → K) (rv' : V' → d' → K) (t : T2 c c' d d' K) (B : T1 O' V' K) :
    dotS (backG ro ro' rv rv' t) B = mm ro (mm (dotS t (mm (tp ro') (mm B rv'))) (tp rv)) := by
  rw [backG, dotS_L1, dotS_L2, dotS_L3, dotS_L4, mm_assoc]

theorem dotS_restoredG (p : f → c → K) (p' : f' → c' → K) (t : T2 f c' d d' K) (tr : T2 f' c d' d K) (B : c' → d' → K) :
    dotS (restoredG p p' t tr) B = (1 / 2 : K) • (mm (tp p) (fun z a => ∑ j, ∑ b, t z j a b * B j b) + fun i a => ∑ z, ∑ b, tr z i b a * mm p' B z b) := by
  rw [restoredG, dotS_smul, dotS_add, dotS_L1, dotS_L2]
  rfl

/-- Intermediates of a fragment with an array in the basis of molecular orbitals. -/
def xOG (R : T2 c c' d d' K) (A' : O' → c' → K) (B : V → d → K) (B' : V' → d' → K) (L : T2 O O' V V' K) : c → O → K :=
  -dotO R (L2 (tp A') (L3 (tp B) (L4 (tp B') L)))
def xVG (R : T2 c c' d d' K) (A : O → c → K) (A' : O' → c' → K) (B' : V' → d' → K) (L : T2 O O' V V' K) : d → V → K :=
  dotW R (L1 (tp A) (L2 (tp A') (L4 (tp B') L)))

theorem xOG_add (R : T2 c c' d d' K) (A' : O' → c' → K) (B : V → d → K) (B' : V' → d' → K) (L M : T2 O O' V V' K) :
    xOG R A' B B' (L + M) = xOG R A' B B' L + xOG R A' B B' M := by
  unfold xOG
  rw [L4_add, L3_add, L2_add, dotO_add_r, neg_add]
theorem xVG_add (R : T2 c c' d d' K) (A : O → c → K) (A' : O' → c' → K) (B' : V' → d' → K) (L M : T2 O O' V V' K) :
    xVG R A A' B' (L + M) = xVG R A A' B' L + xVG R A A' B' M := by
  unfold xVG
  rw [L4_add, L2_add, L1_add, dotW_add_r]
theorem xOG_zero (R : T2 c c' d d' K) (A' : O' → c' → K) (B : V → d → K) (B' : V' → d' → K) : xOG R A' B B' (0 : T2 O O' V V' K) = 0 := by
  unfold xOG
  rw [L4_zero, L3_zero, L2_zero, dotO_zero, neg_zero]
theorem xVG_zero (R : T2 c c' d d' K) (A : O → c → K) (A' : O' → c' → K) (B' : V' → d' → K) : xVG R A A' B' (0 : T2 O O' V V' K) = 0 := by
  unfold xVG
  rw [L4_zero, L2_zero, L1_zero, dotW_zero]

theorem mm_xOG (R : T2 c c' d d' K) (A : O → c → K) (A' : O' → c' → K) (B : V → d → K) (B' : V' → d' → K) (L : T2 O O' V V' K) :
    mm A (xOG R A' B B' L) = -dotO (backG A A' B B' R) L := by
  rw [dotO_backG, xOG, mm_neg_r]
theorem mm_xVG (R : T2 c c' d d' K) (A : O → c → K) (A' : O' → c' → K) (B : V → d → K) (B' : V' → d' → K) (L : T2 O O' V V' K) :
    mm B (xVG R A A' B' L) = dotW (backG A A' B B' R) L := by
  rw [dotW_backG, xVG]

/-- With an array of a second fragment. -/
theorem xOG_pair (R : T2 c c' d d' K) (A' : O' → c' → K) (B : V → d → K) (B' : V' → d' → K) (C : O → e → K) (C' : O' → e' → K) (D : V → h → K)
    (D' : V' → h' → K) (Q : T2 e e' h h' K) :
    xOG R A' B B' (backG C C' D D' Q) = -dotO R (L1 C (L2 (mm (tp A') C') (L3 (mm (tp B) D) (L4 (mm (tp B') D') Q)))) := by
  unfold xOG backG
  rw [L4_L1, L4_L2, L4_L3, L4_L4, L3_L1, L3_L2, L3_L3, L2_L1, L2_L2]
theorem xVG_pair (R : T2 c c' d d' K) (A : O → c → K) (A' : O' → c' → K) (B' : V' → d' → K) (C : O → e → K) (C' : O' → e' → K) (D : V → h → K)
    (D' : V' → h' → K) (Q : T2 e e' h h' K) :
    xVG R A A' B' (backG C C' D D' Q) = mm (dotW R (L1 (mm (tp A) C) (L2 (mm (tp A') C') (L4 (mm (tp B') D') Q)))) (tp D) := by
  unfold xVG backG
  rw [L4_L1, L4_L2, L4_L3, L4_L4, L2_L1, L2_L2, L1_L1, ← dotW_L3r, L3_L1, L3_L2]

/-- Amplitudes symmetrised first. -/
theorem tlEarly_eq (svd : Option (∀ m n : Type, (m → n → K) → Factors m n K)) (R : T2 c c' d d' K) (Q : T2 e e' h h' K) (ro' : c' → e' → K) (rv' : d' → h' → K)
    (ho : Keeps svd ro') (hv : Keeps svd rv') (i : c) (I : e) (a : d) (A : h) :
    tlEarly svd R Q ro' rv' i I a A = ∑ j, ∑ b, R i j a b * L2 ro' (L4 rv' Q) I j A b := by
  have key : ∀ {k k' : Type} [Fintype k] [Fintype k'] (u : c' → k → K) (w : k → e' → K) (u' : d' → k' → K) (w' : k' → h' → K),
      ∑ s, ∑ p, L2 (tp u) (L4 (tp u') R) i s a p * L2 w (L4 w' Q) I s A p = ∑ j, ∑ b, R i j a b * L2 (mm u w) (L4 (mm u' w') Q) I j A b := by
    intro k k' _ _ u w u' w'
    have h := congrFun (congrFun (dotO_L2 (tp u) (fun (_ : Unit) j (_ : Unit) b => L4 (tp u') R i j a b) (fun (_ : Unit) s (_ : Unit) p => L2 w (L4 w' Q) I s A p)) ()) ()
    have h' := congrFun (congrFun (dotO_L4 (tp u') (fun (_ : Unit) j (_ : Unit) b => R i j a b) (fun (_ : Unit) j (_ : Unit) p => L2 u (L2 w (L4 w' Q)) I j A p)) ()) ()
    simp only [dotO, Finset.univ_unique, Finset.sum_singleton] at h h'
    refine Eq.trans h (Eq.trans h' ?_)
    refine Finset.sum_congr rfl fun j _ => Finset.sum_congr rfl fun b _ => congrArg (R i j a b * ·) ?_
    show L4 u' (L2 u (L2 w (L4 w' Q))) I j A b = _
    rw [L2_L2, L4_L2, L4_L4]
  unfold tlEarly
  cases hs : svd with
  | none =>
    classical
    have := key ro' (delta : e' → e' → K) rv' (delta : h' → h' → K)
    rw [mm_delta, mm_delta, L2_delta, L4_delta] at this
    exact this
  | some g =>
    dsimp only
    rw [key, ho g hs, hv g hs]

theorem fromTl_eq (svd : Option (∀ m n : Type, (m → n → K) → Factors m n K)) (R : T2 c c' d d' K) (Q : T2 e e' h h' K) (ro : c → e → K) (ro' : c' → e' → K)
    (rv : d → h → K) (rv' : d' → h' → K) (ho : Keeps svd ro') (hv : Keeps svd rv') (cyo : O → e → K) (cyv : V → h → K) :
    fromTl (tlEarly svd R Q ro' rv') ro rv cyo cyv =
      (-dotO R (L1 cyo (L2 ro' (L3 rv (L4 rv' Q)))), mm (dotW R (L1 ro (L2 ro' (L4 rv' Q)))) (tp cyv)) := by
  unfold fromTl
  refine Prod.ext ?_ ?_
  · dsimp only
    rw [dotO_L1r]
    funext i q
    show -∑ I, _ * _ = -∑ I, _ * _
    refine congrArg Neg.neg (Finset.sum_congr rfl fun I _ => congrArg (· * _) ?_)
    show _ = ∑ j, ∑ a, ∑ b, R i j a b * L2 ro' (L3 rv (L4 rv' Q)) I j a b
    have : ∀ (j : c') (a : d) (b : d'), R i j a b * L2 ro' (L3 rv (L4 rv' Q)) I j a b = ∑ A, R i j a b * L2 ro' (L4 rv' Q) I j A b * rv a A := by
      intro j a b
      rw [← L3_L2]
      show _ * (∑ A, rv a A * _) = _
      rw [Finset.mul_sum]
      exact Finset.sum_congr rfl fun _ _ => by ring
    simp only [this, tlEarly_eq svd R Q ro' rv' ho hv, Finset.sum_mul]
    conv_rhs => rw [Finset.sum_comm]
    exact Finset.sum_congr rfl fun a _ => sum3_comm1 _
  · dsimp only
    funext a q
    refine Finset.sum_congr rfl fun A _ => congrArg (· * _) ?_
    show _ = ∑ i, ∑ j, ∑ b, R i j a b * (∑ I, ro i I * L2 ro' (L4 rv' Q) I j A b)
    simp only [tlEarly_eq svd R Q ro' rv' ho hv, Finset.sum_mul, Finset.mul_sum]
    refine Finset.sum_congr rfl fun i _ => ?_
    rw [sum3_comm1]
    exact Finset.sum_congr rfl fun _ _ => Finset.sum_congr rfl fun _ _ => Finset.sum_congr rfl fun _ _ => by ring

/-! ### Amplitudes symmetrised late -/

/-- The four contractions for the occupied part. -/
def occFour (t : T2 f c' d d' K) (tr : T2 f' c d' d K) (l : T2 g e' h h' K) (lr : T2 g' e h' h K) (ro' : c' → e' → K) (rv : d → h → K) (rv' : d' → h' → K)
    (cfx' : c' → f' → K) (cfy' : e' → g' → K) : (f → g → K) × (f → e → K) × (c → g → K) × (c → e → K) :=
  (dotO t (L2 ro' (L3 rv (L4 rv' l))), dotO t (L2 (mm ro' cfy') (L3 rv (L4 rv' (transp lr)))), dotO (transp tr) (L2 (mm (tp cfx') ro') (L3 rv (L4 rv' l))),
    dotO (transp tr) (L2 (mm (tp cfx') (mm ro' cfy')) (L3 rv (L4 rv' (transp lr)))))

theorem dotO_cutU {p q m : Type} [Fintype m] (U : d → k → K) (W : k → h → K) (U' : d' → k' → K) (W' : k' → h' → K) (rv : d → h → K) (rv' : d' → h' → K)
    (hv : mm U W = rv) (hv' : mm U' W' = rv') (A : p → m → d → d' → K) (B : q → m → h → h' → K) :
    dotO (L3 (tp U) (L4 (tp U') A)) (L3 W (L4 W' B)) = dotO A (L3 rv (L4 rv' B)) := by
  rw [dotO_L3, dotO_L4]
  simp only [tp_tp, L3_L3, L4_L3, L4_L4, hv, hv']

theorem occSums_eq (ov : (c' → g' → K) × (e' → f' → K) × (f' → g' → K)) (t : T2 f c' k k' K) (tr : T2 f' c k' k K) (l : T2 g e' k k' K) (lr : T2 g' e k' k K) :
    occSums ov t tr l lr = (dotO (L2 (tp ov.1) t) (transp lr), dotO (transp tr) (L2 (tp ov.2.1) l), dotO (transp tr) (L2 ov.2.2 (transp lr))) := by
  refine Prod.ext rfl (Prod.ext rfl ?_)
  funext i I
  refine Finset.sum_congr rfl fun x _ => ?_
  rw [sum3_comm1]
  refine Finset.sum_congr rfl fun a _ => Finset.sum_congr rfl fun b _ => ?_
  show _ = tr x i b a * ∑ y, ov.2.2 x y * lr y I b a
  rw [Finset.mul_sum]
  exact Finset.sum_congr rfl fun _ _ => by ring

theorem occRaw_eq (svd : Option (∀ m n : Type, (m → n → K) → Factors m n K)) (t : T2 f c' d d' K) (tr : T2 f' c d' d K) (l : T2 g e' h h' K) (lr : T2 g' e h' h K)
    (ro' : c' → e' → K) (rv : d → h → K) (rv' : d' → h' → K) (cfx' : c' → f' → K) (cfy' : e' → g' → K) (ho' : Keeps svd ro') (hv : Keeps svd rv)
    (hv' : Keeps svd rv') : occRaw svd t tr l lr ro' rv rv' cfx' cfy' = occFour t tr l lr ro' rv rv' cfx' cfy' := by
  unfold occRaw
  dsimp only
  rw [overlapsLate_eq svd ro' ho']
  have key : ∀ {k k' : Type} [Fintype k] [Fintype k'] (U : d → k → K) (W : k → h → K) (U' : d' → k' → K) (W' : k' → h' → K), mm U W = rv → mm U' W' = rv' →
      occSums (mm ro' cfy', mm (tp ro') cfx', mm (tp cfx') (mm ro' cfy')) (L3 (tp U) (L4 (tp U') t)) (L3 (tp U') (L4 (tp U) tr)) (L3 W (L4 W' l)) (L3 W' (L4 W lr)) =
      (occFour t tr l lr ro' rv rv' cfx' cfy').2 := by
    intro k k' _ _ U W U' W' hv hv'
    rw [occSums_eq]
    dsimp only
    simp only [transp_L3, transp_L4, L4_L3]
    simp only [← L4_L2, ← L3_L2]
    simp only [← L4_L3]
    simp only [L4_L3]
    rw [dotO_cutU U W U' W' rv rv' hv hv', dotO_cutU U W U' W' rv rv' hv hv', dotO_cutU U W U' W' rv rv' hv hv', dotO_L2, tp_tp, tp_mm (tp ro'), tp_tp]
    simp only [occFour, L3_L2, L4_L2]
  cases hs : svd with
  | none =>
    classical
    dsimp only
    have hk := key rv (delta : h → h → K) rv' (delta : h' → h' → K) (mm_delta rv) (mm_delta rv')
    rw [L4_delta, L3_delta, L4_delta, L3_delta] at hk
    rw [hk]
    refine Prod.ext ?_ rfl
    have h1 := dotO_cutU rv (delta : h → h → K) rv' (delta : h' → h' → K) rv rv' (mm_delta rv) (mm_delta rv') t (L2 ro' l)
    rw [L4_delta, L3_delta] at h1
    show dotO (L2 (tp ro') (L3 (tp rv) (L4 (tp rv') t))) l = _
    rw [dotO_L2, tp_tp, h1]
    simp only [occFour, L3_L2, L4_L2]
  | some q =>
    dsimp only
    rw [key _ _ _ _ (hv q hs) (hv' q hs)]
    refine Prod.ext ?_ rfl
    show dotO (L2 (tp (q c' e' ro').u) _) (L2 (q c' e' ro').w _) = _
    rw [dotO_L2, tp_tp, L2_L2, ho' q hs, ← L3_L2, ← L4_L2, dotO_cutU _ _ _ _ rv rv' (hv q hs) (hv' q hs)]
    simp only [occFour, L3_L2, L4_L2]

/-- The occupied part of the pair. -/
def occTot (w : (f → g → K) × (f → e → K) × (c → g → K) × (c → e → K)) (cfx : c → f → K) (mfy : O → g → K) (cyo : O → e → K) : c → O → K :=
  mm cfx (mm w.1 (tp mfy)) + mm cfx (mm w.2.1 (tp cyo)) + mm w.2.2.1 (tp mfy) + mm w.2.2.2 (tp cyo)

theorem occTot_eq (t : T2 f c' d d' K) (tr : T2 f' c d' d K) (l : T2 g e' h h' K) (lr : T2 g' e h' h K) (ro' : c' → e' → K) (rv : d → h → K) (rv' : d' → h' → K)
    (cfx : c → f → K) (cfx' : c' → f' → K) (cfy : e → g → K) (cfy' : e' → g' → K) (cyo : O → e → K) :
    -dotO (restoredG (tp cfx) (tp cfx') t tr) (L1 cyo (L2 ro' (L3 rv (L4 rv' (restoredG (tp cfy) (tp cfy') l lr))))) =
      (-1 / 4 : K) • occTot (occFour t tr l lr ro' rv rv' cfx' cfy') cfx (mm cyo cfy) cyo := by
  have o1 : dotO (L1 cfx t) (L1 cyo (L2 ro' (L3 rv (L4 rv' (L1 cfy l))))) = mm cfx (mm (dotO t (L2 ro' (L3 rv (L4 rv' l)))) (tp (mm cyo cfy))) := by
    rw [dotO_L1l, dotO_L1r, L4_L1, L3_L1, L2_L1, dotO_L1r, tp_mm, mm_assoc]
  have o2 : dotO (L1 cfx t) (L1 cyo (L2 ro' (L3 rv (L4 rv' (L2 cfy' (transp lr)))))) =
      mm cfx (mm (dotO t (L2 (mm ro' cfy') (L3 rv (L4 rv' (transp lr))))) (tp cyo)) := by
    rw [dotO_L1l, dotO_L1r, L4_L2, L3_L2, L2_L2]
  have o3 : dotO (L2 cfx' (transp tr)) (L1 cyo (L2 ro' (L3 rv (L4 rv' (L1 cfy l))))) =
      mm (dotO (transp tr) (L2 (mm (tp cfx') ro') (L3 rv (L4 rv' l)))) (tp (mm cyo cfy)) := by
    rw [dotO_L2, L4_L1, L3_L1, L2_L1 cfy ro', L1_L1, L2_L1, dotO_L1r, L2_L2]
  have o4 : dotO (L2 cfx' (transp tr)) (L1 cyo (L2 ro' (L3 rv (L4 rv' (L2 cfy' (transp lr)))))) =
      mm (dotO (transp tr) (L2 (mm (tp cfx') (mm ro' cfy')) (L3 rv (L4 rv' (transp lr))))) (tp cyo) := by
    rw [dotO_L2, L2_L1, dotO_L1r, L4_L2, L3_L2, L2_L2, L2_L2, mm_assoc]
  unfold occTot occFour
  dsimp only
  rw [← o1, ← o2, ← o3, ← o4, restoredG, restoredG]
  simp only [tp_tp, L4_smul, L3_smul, L2_smul, L1_smul, L4_add, L3_add, L2_add, L1_add, dotO_smul_l, dotO_smul_r, dotO_add_l, dotO_add_r]
  funext i j
  simp only [Pi.add_apply, Pi.smul_apply, Pi.neg_apply, smul_eq_mul, div_eq_mul_inv, quarter]
  ring

theorem mm_smul_r {k p q : Type} [Fintype k] (r : K) (A : p → k → K) (B : k → q → K) : mm A (r • B) = r • mm A B := by
  funext i j
  simp only [mm, Pi.smul_apply, smul_eq_mul, Finset.mul_sum]
  exact Finset.sum_congr rfl fun _ _ => by ring

theorem eighth : (8 : K)⁻¹ = 2⁻¹ * 4⁻¹ := by rw [← mul_inv]; norm_num

theorem occJoin_eq (u w : (f → g → K) × (f → e → K) × (c → g → K) × (c → e → K)) (cfx : c → f → K) (mfy : O → g → K) (cyo : O → e → K) :
    occJoin u w cfx mfy cyo = fun i j => ((-1 / 4 : K) • occTot u cfx mfy cyo) i j * (1 / 2) + ((-1 / 4 : K) • occTot w cfx mfy cyo) i j := by
  have e : ∀ {m n : Type} (A B : m → n → K), (fun x y => -(A x y) / 8 + -(B x y) / 4) = (-1 / 8 : K) • A + (-1 / 4 : K) • B := by
    intro m n A B
    funext x y
    simp only [Pi.add_apply, Pi.smul_apply, smul_eq_mul]
    ring
  unfold occJoin occTot
  rw [e, e, e, e]
  simp only [mm_add_l, mm_add_r, mm_smul_l, mm_smul_r]
  funext i j
  simp only [Pi.add_apply, Pi.smul_apply, smul_eq_mul, div_eq_mul_inv, eighth]
  ring

/-- The four contractions for the virtual part. -/
theorem virTot_eq (t : T2 f c' d d' K) (tr : T2 f' c d' d K) (l : T2 g e' h h' K) (lr : T2 g' e h' h K) (ro : c → e → K) (ro' : c' → e' → K) (rv' : d' → h' → K)
    (cfx : c → f → K) (cfx' : c' → f' → K) (cfy : e → g → K) (cfy' : e' → g' → K) :
    dotW (restoredG (tp cfx) (tp cfx') t tr) (L1 ro (L2 ro' (L4 rv' (restoredG (tp cfy) (tp cfy') l lr)))) =
      (1 / 4 : K) • (dotW (transp tr) (L1 ro (L2 (mm (tp cfx') (mm ro' cfy')) (L4 rv' (transp lr)))) + dotW t (L1 (mm (tp cfx) (mm ro cfy)) (L2 ro' (L4 rv' l))) +
        dotW (transp tr) (L1 (mm ro cfy) (L2 (mm (tp cfx') ro') (L4 rv' l))) + dotW t (L1 (mm (tp cfx) ro) (L2 (mm ro' cfy') (L4 rv' (transp lr))))) := by
  have h1 : dotW (L2 cfx' (transp tr)) (L1 ro (L2 ro' (L4 rv' (L2 cfy' (transp lr))))) =
      dotW (transp tr) (L1 ro (L2 (mm (tp cfx') (mm ro' cfy')) (L4 rv' (transp lr)))) := by
    rw [dotW_L2, L2_L1, L4_L2, L2_L2, L2_L2, mm_assoc]
  have h2 : dotW (L1 cfx t) (L1 ro (L2 ro' (L4 rv' (L1 cfy l)))) = dotW t (L1 (mm (tp cfx) (mm ro cfy)) (L2 ro' (L4 rv' l))) := by
    rw [dotW_L1, L4_L1, L2_L1, L1_L1, L1_L1, mm_assoc]
  have h3 : dotW (L2 cfx' (transp tr)) (L1 ro (L2 ro' (L4 rv' (L1 cfy l)))) = dotW (transp tr) (L1 (mm ro cfy) (L2 (mm (tp cfx') ro') (L4 rv' l))) := by
    rw [dotW_L2, L4_L1, L2_L1 cfy ro', L1_L1, L2_L1, L2_L2]
  have h4 : dotW (L1 cfx t) (L1 ro (L2 ro' (L4 rv' (L2 cfy' (transp lr))))) = dotW t (L1 (mm (tp cfx) ro) (L2 (mm ro' cfy') (L4 rv' (transp lr)))) := by
    rw [dotW_L1, L1_L1, L4_L2, L2_L2]
  rw [← h1, ← h2, ← h3, ← h4, restoredG, restoredG]
  simp only [tp_tp, L4_smul, L3_smul, L2_smul, L1_smul, L4_add, L3_add, L2_add, L1_add, dotW_smul_l, dotW_smul_r, dotW_add_l, dotW_add_r]
  funext i j
  simp only [Pi.add_apply, Pi.smul_apply, Pi.neg_apply, smul_eq_mul, div_eq_mul_inv, quarter]
  ring

theorem vW1 (A : T2 f' c k d K) (B : T2 f' c k h K) (b : d) (B' : h) : (∑ y, ∑ j, ∑ a, A y j a b * B y j a B') = dotW (transp A) (transp B) b B' := Finset.sum_comm
theorem vW3 (A : T2 f' g k d K) (B : T2 g f' h k K) (b : d) (B' : h) : (∑ x, ∑ y, ∑ a, A x y a b * B y x B' a) = dotW (transp A) B b B' := Finset.sum_comm
theorem vW4 (A : T2 f g' d k K) (B : T2 g' f k h K) (b : d) (B' : h) : (∑ x, ∑ y, ∑ a, A x y b a * B y x a B') = dotW A (transp B) b B' := rfl
theorem vW2 (A : T2 f c' d k K) (B : T2 f c' h k K) (b : d) (B' : h) : (∑ y, ∑ j, ∑ a, A y j b a * B y j B' a) = dotW A B b B' := rfl

theorem virRaw_eq (svd : Option (∀ m n : Type, (m → n → K) → Factors m n K)) (t : T2 f c' d d' K) (tr : T2 f' c d' d K) (l : T2 g e' h h' K) (lr : T2 g' e h' h K)
    (ro : c → e → K) (ro' : c' → e' → K) (rv' : d' → h' → K) (cfx : c → f → K) (cfx' : c' → f' → K) (cfy : e → g → K) (cfy' : e' → g' → K)
    (ho : Keeps svd ro) (ho' : Keeps svd ro') (hv' : Keeps svd rv') : virRaw svd t tr l lr ro ro' rv' cfx cfx' cfy cfy' =
      dotW (transp tr) (L1 ro (L2 (mm (tp cfx') (mm ro' cfy')) (L4 rv' (transp lr)))) + dotW t (L1 (mm (tp cfx) (mm ro cfy)) (L2 ro' (L4 rv' l))) +
        dotW (transp tr) (L1 (mm ro cfy) (L2 (mm (tp cfx') ro') (L4 rv' l))) + dotW t (L1 (mm (tp cfx) ro) (L2 (mm ro' cfy') (L4 rv' (transp lr)))) := by
  unfold virRaw
  dsimp only
  rw [overlapsLate_eq svd ro ho, overlapsLate_eq svd ro' ho']
  cases hs : svd with
  | none =>
    dsimp only
    funext b B
    rw [vW1, vW2, vW3, vW4]
    simp only [Pi.add_apply]
    simp only [transp_L1', transp_L2, transp_L3, transp_L4, dotW_L4, dotW_L1, dotW_L2, tp_tp, tp_mm, L4_L2, L4_L1, L2_L1]
  | some q =>
    dsimp only
    funext b B
    rw [vW1, vW2, vW3, vW4]
    simp only [Pi.add_apply]
    simp only [transp_L1', transp_L2, transp_L3, transp_L4, dotW_L4, dotW_L1, dotW_L2, tp_tp, tp_mm, L4_L2, L4_L1, L2_L1, L4_L4, L2_L2, L1_L1, ho q hs, ho' q hs, hv' q hs]

end

end Vayesta.EwfURdm
