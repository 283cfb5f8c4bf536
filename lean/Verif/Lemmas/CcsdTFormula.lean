import Verif.Lemmas.CcsdT

/-! Sum over projectors; the closed-shell formula. -/

set_option linter.unusedSectionVars false

namespace Vayesta.CcsdT
open Vayesta.Amplitudes Vayesta.Tensor

variable {K : Type} [Field K] {o v : Type} [Fintype o] [Fintype v]

/-! ## Linearity in the projector -/

section
variable {o₁ o₂ o₃ v₁ v₂ v₃ : Type} [Fintype o₁] [Fintype o₂] [Fintype o₃] [Fintype v₁] [Fintype v₂] [Fintype v₃]

theorem usym_delta [CharZero K] [DecidableEq o₁] [DecidableEq o₂] [DecidableEq o₃] (t : T6 o₁ o₂ o₃ v₁ v₂ v₃ K) : usymProj delta delta delta t = t := by
  funext i j k a b c
  unfold usymProj
  rw [sum_delta i fun x => t x j k a b c, sum_delta j fun x => t i x k a b c, sum_delta k fun x => t i j x a b c]
  ring

theorem usym_lin (p p' : o₁ → o₁ → K) (q q' : o₂ → o₂ → K) (r r' : o₃ → o₃ → K) (n : K) (t : T6 o₁ o₂ o₃ v₁ v₂ v₃ K) (i : o₁) (j : o₂) (k : o₃) (a : v₁)
    (b : v₂) (c : v₃) :
    usymProj (fun i j => n * p i j + p' i j) (fun i j => n * q i j + q' i j) (fun i j => n * r i j + r' i j) t i j k a b c =
      n * usymProj p q r t i j k a b c + usymProj p' q' r' t i j k a b c := by
  have e : ∀ {m : Type} [Fintype m] (f g h : m → K), ∑ x, (n * f x + g x) * h x = n * (∑ x, f x * h x) + ∑ x, g x * h x := fun f g h => by
    simp only [add_mul, Finset.sum_add_distrib, mul_assoc, Finset.mul_sum]
  unfold usymProj
  rw [e, e, e]
  ring

theorem usym_zero (t : T6 o₁ o₂ o₃ v₁ v₂ v₃ K) (i : o₁) (j : o₂) (k : o₃) (a : v₁) (b : v₂) (c : v₃) :
    usymProj (fun _ _ => 0) (fun _ _ => 0) (fun _ _ => 0) t i j k a b c = 0 := by
  simp [usymProj]

/-- A linear functional of the projected array. -/
theorem list_usym {X : Type*} (l : List X) (n : X → K) (p : X → o₁ → o₁ → K) (q : X → o₂ → o₂ → K) (r : X → o₃ → o₃ → K) (t : T6 o₁ o₂ o₃ v₁ v₂ v₃ K)
    (F : T6 o₁ o₂ o₃ v₁ v₂ v₃ K → K) (hF : ∀ (x : K) (f g : T6 o₁ o₂ o₃ v₁ v₂ v₃ K), F (fun i j k a b c => x * f i j k a b c + g i j k a b c) = x * F f + F g) :
    (l.map fun x => n x * F (usymProj (p x) (q x) (r x) t)).sum =
      F (usymProj (fun i j => (l.map fun x => n x * p x i j).sum) (fun i j => (l.map fun x => n x * q x i j).sum)
        (fun i j => (l.map fun x => n x * r x i j).sum) t) := by
  have h0 : F (fun _ _ _ _ _ _ => 0) = 0 := by
    have := hF (-1) (fun _ _ _ _ _ _ => 0) (fun _ _ _ _ _ _ => 0)
    simp only [mul_zero, add_zero] at this
    rw [this]
    ring
  induction l with
  | nil =>
    simp only [List.map_nil, List.sum_nil]
    have : usymProj (fun _ _ => 0) (fun _ _ => 0) (fun _ _ => 0) t = fun _ _ _ _ _ _ => 0 := by
      funext i j k a b c; exact usym_zero t i j k a b c
    rw [this, h0]
  | cons x l ih =>
    simp only [List.map_cons, List.sum_cons]
    rw [ih, ← hF]
    congr 1
    funext i j k a b c
    exact (usym_lin (p x) _ (q x) _ (r x) _ (n x) t i j k a b c).symm

end

/-! ## The closed-shell formula -/

/-- Unchanged by simultaneous permutations of the three pairs. -/
structure Symm6 {o v : Type} (t : T6 o o o v v v K) : Prop where
  p12 : ∀ i j k a b c, t j i k b a c = t i j k a b c
  p23 : ∀ i j k a b c, t i k j a c b = t i j k a b c

theorem pairSum_symm {o v : Type} (t : T6 o o o v v v K) : Symm6 (pairSum t) where
  p12 := fun i j k a b c => by unfold pairSum; ring
  p23 := fun i j k a b c => by unfold pairSum; ring

theorem pair_pairSum (w y d : T6 o o o v v v K) (hw : Symm6 w) (hd : Symm6 d) :
    sum6 (fun i j k a b c => w i j k a b c * pairSum y i j k a b c / d i j k a b c) = 6 * sum6 fun i j k a b c => w i j k a b c * y i j k a b c / d i j k a b c := by
  have e : sum6 (fun i j k a b c => w i j k a b c * pairSum y i j k a b c / d i j k a b c) =
      sum6 (fun i j k a b c => w i j k a b c * y i j k a b c / d i j k a b c) + sum6 (fun i j k a b c => w i j k a b c * y i k j a c b / d i j k a b c) +
      sum6 (fun i j k a b c => w i j k a b c * y j i k b a c / d i j k a b c) + sum6 (fun i j k a b c => w i j k a b c * y j k i b c a / d i j k a b c) +
      sum6 (fun i j k a b c => w i j k a b c * y k i j c a b / d i j k a b c) + sum6 (fun i j k a b c => w i j k a b c * y k j i c b a / d i j k a b c) := by
    simp only [← sum6_add]
    refine sum6_congr fun i j k a b c => ?_
    unfold pairSum
    ring
  have e1 := sum6_23 fun i j k a b c => w i j k a b c * y i j k a b c / d i j k a b c
  have e2 := sum6_12 fun i j k a b c => w i j k a b c * y i j k a b c / d i j k a b c
  have e3 := sum6_231 fun i j k a b c => w i j k a b c * y i j k a b c / d i j k a b c
  have e4 := sum6_312 fun i j k a b c => w i j k a b c * y i j k a b c / d i j k a b c
  have e5 := sum6_13 fun i j k a b c => w i j k a b c * y i j k a b c / d i j k a b c
  have h231 : ∀ {t : T6 o o o v v v K}, Symm6 t → ∀ i j k a b c, t j k i b c a = t i j k a b c := fun h i j k a b c => by rw [h.p23, h.p12]
  have h312 : ∀ {t : T6 o o o v v v K}, Symm6 t → ∀ i j k a b c, t k i j c a b = t i j k a b c := fun h i j k a b c => by rw [h.p12, h.p23]
  have h13 : ∀ {t : T6 o o o v v v K}, Symm6 t → ∀ i j k a b c, t k j i c b a = t i j k a b c := fun h i j k a b c => by rw [h.p23, h312 h]
  simp only [hw.p12, hw.p23, h231 hw, h312 hw, h13 hw, hd.p12, hd.p23, h231 hd, h312 hd, h13 hd] at e1 e2 e3 e4 e5
  rw [e, e1, e2, e3, e4, e5]
  ring

/-- The denominators. -/
def Ham.den {o v : Type} (h : Ham o v K) : T6 o o o v v v K := fun i j k a b c => h.eo i + h.eo j + h.eo k - h.ev a - h.ev b - h.ev c

theorem den_symm {o v : Type} (h : Ham o v K) : Symm6 h.den where
  p12 := fun i j k a b c => by unfold Ham.den; ring
  p23 := fun i j k a b c => by unfold Ham.den; ring

/-- `r3` on the occupied axes. -/
def occR {o v : Type} (t : T6 o o o v v v K) : T6 o o o v v v K := fun i j k a b c => r3 (fun i j k => t i j k a b c) i j k

/-- The same on the virtual axes, with the roles of both three-cycles exchanged. -/
def virR {o v : Type} (t : T6 o o o v v v K) : T6 o o o v v v K := fun i j k a b c =>
  4 * t i j k a b c + t i j k b c a + t i j k c a b - 2 * t i j k c b a - 2 * t i j k a c b - 2 * t i j k b a c

theorem occR_pairSum {o v : Type} (t : T6 o o o v v v K) (i j k : o) (a b c : v) : occR (pairSum t) i j k a b c = pairSum (occR t) i j k a b c := by
  unfold occR pairSum r3
  ring

/-- With symmetric arrays permutations of occupied are permutations of virtual orbitals. -/
theorem occR_virR {o v : Type} (t : T6 o o o v v v K) (h : Symm6 t) (i j k : o) (a b c : v) : occR t i j k a b c = virR t i j k a b c := by
  have h312 : ∀ i j k a b c, t k i j c a b = t i j k a b c := fun i j k a b c => by rw [h.p12, h.p23]
  have h13 : ∀ i j k a b c, t k j i c b a = t i j k a b c := fun i j k a b c => by rw [h.p23, h312]
  show 4 * t i j k a b c + t k i j a b c + t j k i a b c - 2 * t k j i a b c - 2 * t i k j a b c - 2 * t j i k a b c = _
  unfold virR
  rw [show t k i j a b c = t i j k b c a from h312 i j k b c a, show t j k i a b c = t i j k c a b by rw [h.p23, h.p12],
    show t k j i a b c = t i j k c b a from h13 i j k c b a, show t i k j a b c = t i j k a c b from h.p23 i j k a c b,
    show t j i k a b c = t i j k b a c from h.p12 i j k b a c]

/-- Denominators do not depend on the order of the virtual orbitals. -/
structure VirSymm {o v : Type} (d : T6 o o o v v v K) : Prop where
  p12 : ∀ i j k a b c, d i j k b a c = d i j k a b c
  p23 : ∀ i j k a b c, d i j k a c b = d i j k a b c

/-- The expression with `r3` and that of Rendell, Lee and Komornicki. -/
theorem rendell (w u d : T6 o o o v v v K) (hw : Symm6 w) (hu : Symm6 u) (hs : Symm6 d) (hd : VirSymm d) :
    sum6 (fun i j k a b c => w i j k a b c * virR u i j k a b c / d i j k a b c) =
      sum6 fun i j k a b c => (4 * w i j k a b c + w i j k b c a + w i j k c a b) * (u i j k a b c - u i j k c b a) / d i j k a b c := by
  have d312 : ∀ i j k a b c, d i j k c a b = d i j k a b c := fun i j k a b c => by rw [hd.p12, hd.p23]
  have d231 : ∀ i j k a b c, d i j k b c a = d i j k a b c := fun i j k a b c => by rw [hd.p23, hd.p12]
  have d13 : ∀ i j k a b c, d i j k c b a = d i j k a b c := fun i j k a b c => by rw [hd.p23, d312]
  have q12 : ∀ f : T6 o o o v v v K, sum6 (fun i j k a b c => f i j k b a c) = sum6 f := sum6_vir12
  have q23 : ∀ f : T6 o o o v v v K, sum6 (fun i j k a b c => f i j k a c b) = sum6 f := sum6_vir23
  have q231 : ∀ f : T6 o o o v v v K, sum6 (fun i j k a b c => f i j k b c a) = sum6 f := fun f => (q12 fun i j k a b c => f i j k a c b).trans (q23 f)
  have q312 : ∀ f : T6 o o o v v v K, sum6 (fun i j k a b c => f i j k c a b) = sum6 f := fun f => (q23 fun i j k a b c => f i j k b a c).trans (q12 f)
  have q13 : ∀ f : T6 o o o v v v K, sum6 (fun i j k a b c => f i j k c b a) = sum6 f := fun f => (q12 fun i j k a b c => f i j k c a b).trans (q312 f)
  set y := fun i j k a b c => w i j k a b c / d i j k a b c with hy
  have e1 : sum6 (fun i j k a b c => w i j k a b c * virR u i j k a b c / d i j k a b c) =
      4 * sum6 (fun i j k a b c => y i j k a b c * u i j k a b c) + sum6 (fun i j k a b c => y i j k a b c * u i j k b c a) +
      sum6 (fun i j k a b c => y i j k a b c * u i j k c a b) + (-2) * sum6 (fun i j k a b c => y i j k a b c * u i j k c b a) +
      (-2) * sum6 (fun i j k a b c => y i j k a b c * u i j k a c b) + (-2) * sum6 (fun i j k a b c => y i j k a b c * u i j k b a c) := by
    simp only [← sum6_mul, ← sum6_add]
    refine sum6_congr fun i j k a b c => ?_
    simp only [hy]
    unfold virR
    ring
  have e2 : sum6 (fun i j k a b c => (4 * w i j k a b c + w i j k b c a + w i j k c a b) * (u i j k a b c - u i j k c b a) / d i j k a b c) =
      4 * sum6 (fun i j k a b c => y i j k a b c * u i j k a b c) + sum6 (fun i j k a b c => y i j k b c a * u i j k a b c) +
      sum6 (fun i j k a b c => y i j k c a b * u i j k a b c) + (-4) * sum6 (fun i j k a b c => y i j k a b c * u i j k c b a) +
      (-1) * sum6 (fun i j k a b c => y i j k b c a * u i j k c b a) + (-1) * sum6 (fun i j k a b c => y i j k c a b * u i j k c b a) := by
    simp only [← sum6_mul, ← sum6_add]
    refine sum6_congr fun i j k a b c => ?_
    simp only [hy, d231, d312]
    ring
  have f1 : sum6 (fun i j k a b c => y i j k b c a * u i j k a b c) = sum6 fun i j k a b c => y i j k a b c * u i j k c a b :=
    q231 fun i j k a b c => y i j k a b c * u i j k c a b
  have f2 : sum6 (fun i j k a b c => y i j k c a b * u i j k a b c) = sum6 fun i j k a b c => y i j k a b c * u i j k b c a :=
    q312 fun i j k a b c => y i j k a b c * u i j k b c a
  have f3 : sum6 (fun i j k a b c => y i j k b c a * u i j k c b a) = sum6 fun i j k a b c => y i j k a b c * u i j k b a c :=
    q231 fun i j k a b c => y i j k a b c * u i j k b a c
  have f4 : sum6 (fun i j k a b c => y i j k c a b * u i j k c b a) = sum6 fun i j k a b c => y i j k a b c * u i j k a c b :=
    q312 fun i j k a b c => y i j k a b c * u i j k a c b
  have y12 : ∀ i j k a b c, y j i k b a c = y i j k a b c := fun i j k a b c => by simp only [hy, hw.p12, hs.p12]
  have y23 : ∀ i j k a b c, y i k j a c b = y i j k a b c := fun i j k a b c => by simp only [hy, hw.p23, hs.p23]
  have g1 : sum6 (fun i j k a b c => y i j k a b c * u i j k a c b) = sum6 fun i j k a b c => y i j k a b c * u i j k c b a := by
    rw [← sum6_12 fun i j k a b c => y i j k a b c * u i j k c b a]
    refine sum6_congr fun i j k a b c => ?_
    rw [y12, hu.p12]
  have g2 : sum6 (fun i j k a b c => y i j k a b c * u i j k b a c) = sum6 fun i j k a b c => y i j k a b c * u i j k c b a := by
    rw [← sum6_23 fun i j k a b c => y i j k a b c * u i j k c b a]
    refine sum6_congr fun i j k a b c => ?_
    rw [y23, hu.p23]
  rw [e1, e2, f1, f2, f3, f4, g1, g2]
  ring

/-! ## Integrals and amplitudes of real, closed-shell systems -/

theorem conn_w6 (h : Ham o v K) (hr : h.Real) : pairSum h.w6 = h.conn := by
  unfold Ham.conn
  congr 1
  funext i j k a b c
  unfold Ham.w6 Ham.getW
  simp only [hr.ovvv i a b]

/-- Connected plus half of the disconnected part. -/
def Ham.u6 (h : Ham o v K) : T6 o o o v v v K := fun i j k a b c => h.getW a b c i j k + 1 / 2 * h.getV a b c i j k

theorem disc_v6 {o v : Type} [CharZero K] (h : Ham o v K) (hr : h.Real) (i j k : o) (a b c : v) :
    pairSum (fun i j k a b c => 1 / 2 * h.getV a b c i j k) i j k a b c = h.disc i j k a b c := by
  unfold pairSum Ham.getV Ham.disc
  beta_reduce
  rw [hr.ovov i a j b, hr.ovov i a k c, hr.ovov j b k c, hr.t2 i j a b, hr.t2 i k a c, hr.t2 j k b c]
  ring

theorem pairSum_u6 [CharZero K] (h : Ham o v K) (hr : h.Real) (i j k : o) (a b c : v) :
    pairSum h.u6 i j k a b c = h.conn i j k a b c + h.disc i j k a b c := by
  rw [← disc_v6 h hr, ← conn_w6 h hr]
  unfold pairSum Ham.u6 Ham.w6
  ring

/-- The sum over all triples without projector is the closed-shell formula. -/
theorem unprojected [CharZero K] (h : Ham o v K) (hr : h.Real) :
    2 * sum6 (fun i j k a b c => pairSum h.w6 i j k a b c * h.z6 i j k a b c) = h.triplesEnergy := by
  have hc : Symm6 h.conn := pairSum_symm _
  have hu : Symm6 (pairSum h.u6) := pairSum_symm _
  have hv : VirSymm h.den := ⟨fun i j k a b c => by unfold Ham.den; ring, fun i j k a b c => by unfold Ham.den; ring⟩
  have e0 : sum6 (fun i j k a b c => pairSum h.w6 i j k a b c * h.z6 i j k a b c) =
      sum6 fun i j k a b c => h.conn i j k a b c * occR h.u6 i j k a b c / h.den i j k a b c := by
    rw [conn_w6 h hr]
    refine sum6_congr fun i j k a b c => ?_
    rw [mul_div_assoc]
    rfl
  have e1 := pair_pairSum h.conn (occR h.u6) h.den hc (den_symm h)
  have e2 : sum6 (fun i j k a b c => h.conn i j k a b c * pairSum (occR h.u6) i j k a b c / h.den i j k a b c) =
      sum6 fun i j k a b c => h.conn i j k a b c * virR (pairSum h.u6) i j k a b c / h.den i j k a b c := by
    refine sum6_congr fun i j k a b c => ?_
    rw [← occR_pairSum, occR_virR _ hu]
  rw [e2, rendell _ _ _ hc hu (den_symm h) hv] at e1
  have e3 : h.triplesEnergy = 1 / 3 * sum6 fun i j k a b c => (4 * h.conn i j k a b c + h.conn i j k b c a + h.conn i j k c a b) *
      (pairSum h.u6 i j k a b c - pairSum h.u6 i j k c b a) / h.den i j k a b c := by
    unfold Ham.triplesEnergy sum6
    simp only [pairSum_u6 h hr]
    rfl
  rw [e3, e1, e0]
  ring

end Vayesta.CcsdT
