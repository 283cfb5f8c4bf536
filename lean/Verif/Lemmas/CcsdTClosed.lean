import Mathlib.Tactic.LinearCombination
import Verif.Lemmas.CcsdTSpin

/-! The spin-orbital expression of a closed-shell system is the closed-shell expression. -/

set_option linter.unusedSectionVars false

namespace Vayesta.CcsdT
open Vayesta.Amplitudes Vayesta.Tensor

variable {K : Type} [Field K] {o v : Type} [Fintype o] [Fintype v]

theorem closed_real {o v : Type} (h : Ham o v K) (hr : h.Real) (ho : ∀ i a j k, h.ovoo i a k j = h.ovoo i a j k) : h.closedShell.Real where
  aa := fun i j a b => ⟨by show h.t2 j i a b - h.t2 j i b a = -(h.t2 i j a b - h.t2 i j b a); rw [hr.t2 i j a b, hr.t2 i j b a]; ring,
    by show h.t2 i j b a - h.t2 i j a b = -(h.t2 i j a b - h.t2 i j b a); ring⟩
  bb := fun i j a b => ⟨by show h.t2 j i a b - h.t2 j i b a = -(h.t2 i j a b - h.t2 i j b a); rw [hr.t2 i j a b, hr.t2 i j b a]; ring,
    by show h.t2 i j b a - h.t2 i j a b = -(h.t2 i j a b - h.t2 i j b a); ring⟩
  ovov := hr.ovov
  OVOV := hr.ovov
  ovoo := ho
  OVOO := ho
  ovOO := ho
  OVoo := ho

private def cX (h : Ham o v K) (j k : o) (a : v) (i : o) (c b : v) : K := ∑ e, h.t2 j k a e * h.ovvv i c e b
private def cY (h : Ham o v K) (k : o) (b c : v) (i : o) (a : v) (j : o) : K := ∑ m, h.t2 m k b c * h.ovoo i a j m

private theorem conn_XY (h : Ham o v K) (hr : h.Real) : h.conn = pairSum fun i j k a b c => cX h k j c i a b - cY h k b c i a j := by
  unfold Ham.conn cX cY
  congr 1
  funext i j k a b c
  have e1 : ∑ d, h.ovvv i a b d * h.t2 k j c d = ∑ e, h.t2 k j c e * h.ovvv i a e b := Finset.sum_congr rfl fun d _ => by rw [hr.ovvv i a b d, mul_comm]
  have e2 : ∑ l, h.ovoo i a j l * h.t2 l k b c = ∑ m, h.t2 m k b c * h.ovoo i a j m := Finset.sum_congr rfl fun d _ => mul_comm _ _
  rw [e1, e2]

private theorem sumX (h : Ham o v K) (hr : h.Real) (j k i : o) (a b c : v) : ∑ e, (h.t2 j k a e - h.t2 j k e a) * h.ovvv i c e b = cX h j k a i c b - cX h k j a i c b := by
  unfold cX
  rw [← Finset.sum_sub_distrib]
  exact Finset.sum_congr rfl fun e _ => by rw [hr.t2 k j a e]; ring

private theorem sumX' (h : Ham o v K) (hr : h.Real) (j k i : o) (a b c : v) : ∑ e, h.t2 j k e a * h.ovvv i c e b = cX h k j a i c b := by
  unfold cX
  exact Finset.sum_congr rfl fun e _ => by rw [hr.t2 k j a e]

private theorem sumY (h : Ham o v K) (k i j : o) (b c a : v) : ∑ m, (h.t2 m k b c - h.t2 m k c b) * h.ovoo i a j m = cY h k b c i a j - cY h k c b i a j := by
  unfold cY
  rw [← Finset.sum_sub_distrib]
  exact Finset.sum_congr rfl fun e _ => by ring

private theorem sumY1 (h : Ham o v K) (hr : h.Real) (k i j : o) (b c a : v) : ∑ m, (h.t2 k m b c - h.t2 k m c b) * h.ovoo i a j m = cY h k c b i a j - cY h k b c i a j := by
  unfold cY
  rw [← Finset.sum_sub_distrib]
  exact Finset.sum_congr rfl fun m _ => by rw [hr.t2 m k c b, hr.t2 m k b c]; ring

private theorem sumY' (h : Ham o v K) (hr : h.Real) (k i j : o) (b c a : v) : ∑ m, h.t2 k m c b * h.ovoo i a j m = cY h k b c i a j := by
  unfold cY
  exact Finset.sum_congr rfl fun m _ => by rw [hr.t2 m k b c]

/-- The block of equal spins. -/
private theorem conn_aaa [CharZero K] (h : Ham o v K) (hr : h.Real) (ho : ∀ i a j k, h.ovoo i a k j = h.ovoo i a j k) (i j k : o) (a b c : v) :
    r6 (p6 h.closedShell.spinA.uw) i j k a b c = 2 * r6 h.conn i j k a b c := by
  have e : h.closedShell.spinA.uw = fun i j k a b c => cX h i j a k c b - cX h j i a k c b - (cY h k b c i a j - cY h k c b i a j) := by
    funext i j k a b c
    show (∑ e, (h.t2 i j a e - h.t2 i j e a) * h.ovvv k c e b) - ∑ m, (h.t2 m k b c - h.t2 m k c b) * h.ovoo i a j m = _
    rw [sumX h hr, sumY h]
  rw [e, conn_XY h hr]
  unfold r6 p6 pairSum
  ring

/-- The block of different spins. -/
private theorem conn_baa [CharZero K] (h : Ham o v K) (hr : h.Real) (i j k : o) (a b c : v) : r2 h.closedShell.wbaa i j k a b c = r2 h.conn i j k a b c := by
  have e : h.closedShell.wbaa = fun I j k A b c => cX h I j A k c b * 2 + cX h j I b k c A * 2 + (cX h j k b I A c - cX h k j b I A c) -
      cY h I b A k c j * 2 - cY h j A b k c I * 2 - (cY h j c b I A k - cY h j b c I A k) := by
    funext I j k A b c
    show (∑ e, h.t2 j I e A * h.ovvv k c e b) * 2 + (∑ E, h.t2 j I b E * h.ovvv k c E A) * 2 + (∑ e, (h.t2 j k b e - h.t2 j k e b) * h.ovvv I A e c) -
      (∑ m, h.t2 m I b A * h.ovoo k c j m) * 2 - (∑ M, h.t2 j M b A * h.ovoo k c I M) * 2 - ∑ m, (h.t2 j m b c - h.t2 j m c b) * h.ovoo I A k m = _
    rw [sumX' h hr, sumX h hr, sumY' h hr, sumY1 h hr]
    rfl
  rw [e, conn_XY h hr]
  unfold r2 pairSum
  ring

private theorem conn_abb [CharZero K] (h : Ham o v K) (hr : h.Real) (i j k : o) (a b c : v) : r2 h.closedShell.wabb i j k a b c = r2 h.conn i j k a b c := by
  have e : h.closedShell.wabb = fun I j k A b c => cX h I j A k c b * 2 + cX h j I b k c A * 2 + (cX h j k b I A c - cX h k j b I A c) -
      cY h I b A k c j * 2 - cY h j A b k c I * 2 - (cY h j c b I A k - cY h j b c I A k) := by
    funext I j k A b c
    show (∑ e, h.t2 I j A e * h.ovvv k c e b) * 2 + (∑ E, h.t2 I j E b * h.ovvv k c E A) * 2 + (∑ e, (h.t2 j k b e - h.t2 j k e b) * h.ovvv I A e c) -
      (∑ m, h.t2 I m A b * h.ovoo k c j m) * 2 - (∑ M, h.t2 M j A b * h.ovoo k c I M) * 2 - ∑ m, (h.t2 j m b c - h.t2 j m c b) * h.ovoo I A k m = _
    rw [sumX' h hr, sumX h hr, sumY' h hr, sumY1 h hr]
    rfl
  rw [e, conn_XY h hr]
  unfold r2 pairSum
  ring

private theorem disc_symm (h : Ham o v K) (hr : h.Real) : Symm6 h.disc where
  p12 := fun i j k a b c => by
    unfold Ham.disc
    rw [hr.ovov i a j b, hr.t2 i j a b]
    ring
  p23 := fun i j k a b c => by
    unfold Ham.disc
    rw [hr.ovov j b k c, hr.t2 j k b c]
    ring

private theorem disc_aaa [CharZero K] (h : Ham o v K) (hr : h.Real) (i j k : o) (a b c : v) :
    r6 (p6 h.closedShell.spinA.uv) i j k a b c = 2 * r6 h.disc i j k a b c := by
  have e : h.closedShell.spinA.uv = fun i j k a b c => h.ovov j b k c * h.t1 i a + (h.t2 j k b c - h.t2 j k c b) * h.fvo a i * (1 / 2) := rfl
  have ht : ∀ i j a b, h.t2 j i a b = h.t2 i j b a := fun i j a b => hr.t2 i j b a
  have hv : ∀ i j a b, h.ovov j a i b = h.ovov i b j a := fun i j a b => hr.ovov i b j a
  rw [e]
  unfold r6 p6 Ham.disc
  simp only [ht i j, ht i k, ht j k, hv i j, hv i k, hv j k]
  ring

private theorem disc_baa [CharZero K] (h : Ham o v K) (hr : h.Real) (i j k : o) (a b c : v) : r2 h.closedShell.vbaa i j k a b c = r2 h.disc i j k a b c := by
  have e : h.closedShell.vbaa = fun I j k A b c =>
    h.ovov j b k c * h.t1 I A + h.ovov k c I A * h.t1 j b + h.ovov k c I A * h.t1 j b + (h.t2 j k b c - h.t2 j k c b) * h.fvo A I * (1 / 2) +
    h.t2 k I c A * h.fvo b j * 2 := rfl
  have ht : ∀ i j a b, h.t2 j i a b = h.t2 i j b a := fun i j a b => hr.t2 i j b a
  have hv : ∀ i j a b, h.ovov j a i b = h.ovov i b j a := fun i j a b => hr.ovov i b j a
  rw [e]
  unfold r2 Ham.disc
  simp only [ht i j, ht i k, ht j k, hv i j, hv i k, hv j k]
  ring

private theorem disc_abb [CharZero K] (h : Ham o v K) (hr : h.Real) (i j k : o) (a b c : v) : r2 h.closedShell.vabb i j k a b c = r2 h.disc i j k a b c := by
  have e : h.closedShell.vabb = fun i j k a b c =>
    h.ovov j b k c * h.t1 i a + h.ovov i a k c * h.t1 j b + h.ovov i a k c * h.t1 j b + (h.t2 j k b c - h.t2 j k c b) * h.fvo a i * (1 / 2) +
    h.t2 i k a c * h.fvo b j * 2 := rfl
  have ht : ∀ i j a b, h.t2 j i a b = h.t2 i j b a := fun i j a b => hr.t2 i j b a
  have hv : ∀ i j a b, h.ovov j a i b = h.ovov i b j a := fun i j a b => hr.ovov i b j a
  rw [e]
  unfold r2 Ham.disc
  simp only [ht i j, ht i k, ht j k, hv i j, hv i k, hv j k]
  ring

/-- The sum of all triples. -/
private def cV (h : Ham o v K) : T6 o o o v v v K := fun i j k a b c => h.conn i j k a b c + h.disc i j k a b c

private theorem half_eq [CharZero K] {x y : K} (h : 2 * x = 2 * y) : x = y := mul_left_cancel₀ (by norm_num) h

private theorem same_sum {d : T6 o o o v v v K} (hd : Den6 d) (w u : T6 o o o v v v K) :
    sum6 (fun i j k a b c => r6 w i j k a b c * r6 u i j k a b c / d i j k a b c) = 6 * sum6 fun i j k a b c => w i j k a b c * r6 u i j k a b c / d i j k a b c := by
  have e : sum6 (fun i j k a b c => r6 w i j k a b c * r6 u i j k a b c / d i j k a b c) = dot6 (r6 w) (r6 fun i j k a b c => u i j k a b c / d i j k a b c) := by
    rw [r6_div hd]
    exact sum6_congr fun i j k a b c => mul_div_assoc _ _ _
  have e2 : r6 (r6 fun i j k a b c => u i j k a b c / d i j k a b c) = fun i j k a b c => 6 * (r6 u i j k a b c / d i j k a b c) := by
    funext i j k a b c
    rw [r6_r6, r6_div hd]
  rw [e, r6_adj, e2, dot6_mul']
  exact congrArg (6 * ·) (sum6_congr fun i j k a b c => (mul_div_assoc _ _ _).symm)

private theorem diff_sum {d : T6 o o o v v v K} (hd : Den6 d) (w u : T6 o o o v v v K) :
    sum6 (fun i j k a b c => r2 w i j k a b c * r2 u i j k a b c / d i j k a b c) = 4 * sum6 fun i j k a b c => w i j k a b c * r2 u i j k a b c / d i j k a b c := by
  have e : sum6 (fun i j k a b c => r2 w i j k a b c * r2 u i j k a b c / d i j k a b c) = dot6 (r2 w) (r2 fun i j k a b c => u i j k a b c / d i j k a b c) := by
    rw [r2_div u d (fun i j k a b c => hd.o23 i j k a b c) fun i j k a b c => hd.v23 i j k a b c]
    exact sum6_congr fun i j k a b c => mul_div_assoc _ _ _
  have e2 : r2 (r2 fun i j k a b c => u i j k a b c / d i j k a b c) = fun i j k a b c => 4 * (r2 u i j k a b c / d i j k a b c) := by
    funext i j k a b c
    rw [r2_r2, r2_div u d (fun i j k a b c => hd.o23 i j k a b c) fun i j k a b c => hd.v23 i j k a b c]
  rw [e, r2_adj, e2, dot6_mul']
  exact congrArg (4 * ·) (sum6_congr fun i j k a b c => (mul_div_assoc _ _ _).symm)

private theorem combine [CharZero K] {d : T6 o o o v v v K} (hs : Symm6 d) (w u : T6 o o o v v v K) (hw : Symm6 w) (hu : Symm6 u) :
    1 / 3 * sum6 (fun i j k a b c => w i j k a b c * r6 u i j k a b c / d i j k a b c) +
      1 / 2 * sum6 (fun i j k a b c => w i j k a b c * r2 u i j k a b c / d i j k a b c) =
    1 / 3 * sum6 fun i j k a b c => w i j k a b c * occR u i j k a b c / d i j k a b c := by
  let S (f : T6 o o o v v v K) : K := sum6 fun i j k a b c => w i j k a b c * f i j k a b c / d i j k a b c
  have lin : ∀ (n : K) (f g : T6 o o o v v v K), S (fun i j k a b c => n * f i j k a b c + g i j k a b c) = n * S f + S g := by
    intro n f g
    show sum6 _ = n * sum6 _ + sum6 _
    rw [← sum6_mul, ← sum6_add]
    exact sum6_congr fun i j k a b c => by ring
  have add : ∀ f g : T6 o o o v v v K, S (fun i j k a b c => f i j k a b c + g i j k a b c) = S f + S g := by
    intro f g
    have := lin 1 f g
    simpa only [one_mul] using this
  have s1 : S (fun i j k a b c => u j i k a b c) = S fun i j k a b c => u i k j a b c := by
    have e := sum6_13 fun i j k a b c => w i j k a b c * u j i k a b c / d i j k a b c
    refine e.symm.trans (sum6_congr fun i j k a b c => ?_)
    have h1 : ∀ (t : T6 o o o v v v K), Symm6 t → t k j i c b a = t i j k a b c := fun t ht => by rw [ht.p12 j k i b c a, ht.p23 j i k b a c, ht.p12 i j k a b c]
    have h2 : u j k i c b a = u i k j a b c := by rw [hu.p12 k j i b c a, hu.p23 k i j b a c, hu.p12 i k j a b c]
    show w k j i c b a * u j k i c b a / d k j i c b a = _
    rw [h1 w hw, h1 d hs, h2]
  have s2 : S (fun i j k a b c => u k j i a b c) = S fun i j k a b c => u i k j a b c := by
    have e := sum6_12 fun i j k a b c => w i j k a b c * u k j i a b c / d i j k a b c
    refine e.symm.trans (sum6_congr fun i j k a b c => ?_)
    have h2 : u k i j b a c = u i k j a b c := hu.p12 i k j a b c
    show w j i k b a c * u k i j b a c / d j i k b a c = _
    rw [hw.p12, hs.p12, h2]
  have h23 : ∀ i j k a b c, u i k j a c b = u i j k a b c := hu.p23
  have e1 : S (r6 u) = S u + S (fun i j k a b c => u j k i a b c) + S (fun i j k a b c => u k i j a b c) - 3 * S fun i j k a b c => u i k j a b c := by
    have : r6 u = fun i j k a b c => -1 * u k j i a b c + (-1 * u i k j a b c + (-1 * u j i k a b c + (u i j k a b c + (u j k i a b c + u k i j a b c)))) := by
      funext i j k a b c
      unfold r6; ring
    rw [this, lin, lin, lin, add, add, s1, s2]
    ring
  have e2 : S (r2 u) = 2 * S u - 2 * S fun i j k a b c => u i k j a b c := by
    have : r2 u = fun i j k a b c => -2 * u i k j a b c + (2 * u i j k a b c + 0 * u i j k a b c) := by
      funext i j k a b c
      unfold r2
      rw [h23 i j k a b c, show u i j k a c b = u i k j a b c from h23 i k j a b c]
      ring
    rw [this, lin, lin, show S (fun i j k a b c => 0 * u i j k a b c) = 0 * S u by
      have := lin 0 u fun i j k a b c => 0 * u i j k a b c
      simp only [zero_mul, zero_add] at this ⊢
      show sum6 _ = 0
      simp [sum6]]
    ring
  have e3 : S (occR u) = 4 * S u + S (fun i j k a b c => u j k i a b c) + S (fun i j k a b c => u k i j a b c) - 6 * S fun i j k a b c => u i k j a b c := by
    have : occR u = fun i j k a b c => -2 * u k j i a b c + (-2 * u i k j a b c + (-2 * u j i k a b c + (4 * u i j k a b c + (u j k i a b c + u k i j a b c)))) := by
      funext i j k a b c
      unfold occR r3; ring
    rw [this, lin, lin, lin, lin, add, s1, s2]
    ring
  show 1 / 3 * S (r6 u) + 1 / 2 * S (r2 u) = 1 / 3 * S (occR u)
  rw [e1, e2, e3]
  ring

theorem closed_shell [CharZero K] (h : Ham o v K) (hr : h.Real) (ho : ∀ i a j k, h.ovoo i a k j = h.ovoo i a j k) : h.closedShell.so.soTriples = h.triplesEnergy := by
  have H := closed_real h hr ho
  have hA := so_anti h.closedShell H
  have hD : Den6 h.den := den_den6 h
  have r6_add : ∀ x y : T6 o o o v v v K, ∀ i j k a b c, r6 (fun i j k a b c => x i j k a b c + y i j k a b c) i j k a b c = r6 x i j k a b c + r6 y i j k a b c := by
    intro x y i j k a b c
    unfold r6; ring
  have ua : ∀ i j k a b c, r6 (p6 h.closedShell.so.uw) (.inl i) (.inl j) (.inl k) (.inl a) (.inl b) (.inl c) = r6 (p6 h.closedShell.spinA.uw) i j k a b c := by
    intro i j k a b c
    unfold r6 p6
    simp only [uw_a]
  have ub : ∀ i j k a b c, r6 (p6 h.closedShell.so.uw) (.inr i) (.inr j) (.inr k) (.inr a) (.inr b) (.inr c) = r6 (p6 h.closedShell.spinA.uw) i j k a b c := by
    intro i j k a b c
    unfold r6 p6
    simp only [uw_b]
    rfl
  have c1 : ∀ i j k a b c, h.closedShell.so.soConn (.inl i) (.inl j) (.inl k) (.inl a) (.inl b) (.inl c) = r6 h.conn i j k a b c := by
    intro i j k a b c
    apply half_eq
    rw [← soConn_eq _ hA, ua, conn_aaa h hr ho]
  have c2 : ∀ i j k a b c, h.closedShell.so.soConn (.inr i) (.inr j) (.inr k) (.inr a) (.inr b) (.inr c) = r6 h.conn i j k a b c := by
    intro i j k a b c
    apply half_eq
    rw [← soConn_eq _ hA, ub, conn_aaa h hr ho]
  have c3 : ∀ i j k a b c, 2 * h.closedShell.so.soConn (.inr i) (.inl j) (.inl k) (.inr a) (.inl b) (.inl c) = r2 h.conn i j k a b c := by
    intro i j k a b c
    rw [← soConn_eq _ hA, wbaa_eq _ H, conn_baa h hr]
  have c4 : ∀ i j k a b c, 2 * h.closedShell.so.soConn (.inl i) (.inr j) (.inr k) (.inl a) (.inr b) (.inr c) = r2 h.conn i j k a b c := by
    intro i j k a b c
    rw [← soConn_eq _ hA, wabb_eq _ H, conn_abb h hr]
  have d1 : ∀ i j k a b c, h.closedShell.so.soDisc (.inl i) (.inl j) (.inl k) (.inl a) (.inl b) (.inl c) = r6 h.disc i j k a b c := by
    intro i j k a b c
    apply half_eq
    rw [← soDisc_eq _ hA, ← disc_aaa h hr]
    rfl
  have d2 : ∀ i j k a b c, h.closedShell.so.soDisc (.inr i) (.inr j) (.inr k) (.inr a) (.inr b) (.inr c) = r6 h.disc i j k a b c := by
    intro i j k a b c
    apply half_eq
    rw [← soDisc_eq _ hA, ← disc_aaa h hr]
    rfl
  have d3 : ∀ i j k a b c, 2 * h.closedShell.so.soDisc (.inr i) (.inl j) (.inl k) (.inr a) (.inl b) (.inl c) = r2 h.disc i j k a b c := by
    intro i j k a b c
    rw [← soDisc_eq _ hA, vbaa_eq _ H, disc_baa h hr]
  have d4 : ∀ i j k a b c, 2 * h.closedShell.so.soDisc (.inl i) (.inr j) (.inr k) (.inl a) (.inr b) (.inr c) = r2 h.disc i j k a b c := by
    intro i j k a b c
    rw [← soDisc_eq _ hA, vabb_eq _ H, disc_abb h hr]
  rw [soTriples_blocks _ H]
  have s1 : sum6 (blk .inl .inl .inl .inl .inl .inl h.closedShell.so.soTerm) = sum6 fun i j k a b c => r6 h.conn i j k a b c * r6 (cV h) i j k a b c / h.den i j k a b c :=
    sum6_congr fun i j k a b c => by
      show _ * (_ + _) / _ = _ * r6 (fun i j k a b c => h.conn i j k a b c + h.disc i j k a b c) i j k a b c / _
      rw [c1, d1, r6_add]
      rfl
  have s2 : sum6 (blk .inr .inr .inr .inr .inr .inr h.closedShell.so.soTerm) = sum6 fun i j k a b c => r6 h.conn i j k a b c * r6 (cV h) i j k a b c / h.den i j k a b c :=
    sum6_congr fun i j k a b c => by
      show _ * (_ + _) / _ = _ * r6 (fun i j k a b c => h.conn i j k a b c + h.disc i j k a b c) i j k a b c / _
      rw [c2, d2, r6_add]
      rfl
  have s3 : sum6 (blk .inr .inl .inl .inr .inl .inl h.closedShell.so.soTerm) = 1 / 4 * sum6 fun i j k a b c => r2 h.conn i j k a b c * r2 (cV h) i j k a b c / h.den i j k a b c := by
    rw [← sum6_mul]
    refine sum6_congr fun i j k a b c => ?_
    show _ * (_ + _) / _ = 1 / 4 * (_ * r2 (fun i j k a b c => h.conn i j k a b c + h.disc i j k a b c) i j k a b c / _)
    rw [r2_add, ← c3, ← d3]
    show _ * (_ + _) / h.den i j k a b c = _
    ring
  have s4 : sum6 (blk .inl .inr .inr .inl .inr .inr h.closedShell.so.soTerm) = 1 / 4 * sum6 fun i j k a b c => r2 h.conn i j k a b c * r2 (cV h) i j k a b c / h.den i j k a b c := by
    rw [← sum6_mul]
    refine sum6_congr fun i j k a b c => ?_
    show _ * (_ + _) / _ = 1 / 4 * (_ * r2 (fun i j k a b c => h.conn i j k a b c + h.disc i j k a b c) i j k a b c / _)
    rw [r2_add, ← c4, ← d4]
    show _ * (_ + _) / h.den i j k a b c = _
    ring
  have hc : Symm6 h.conn := pairSum_symm _
  have hd := disc_symm h hr
  have hV : Symm6 (cV h) := ⟨fun i j k a b c => by unfold cV; rw [hc.p12, hd.p12], fun i j k a b c => by unfold cV; rw [hc.p23, hd.p23]⟩
  have hv : VirSymm h.den := ⟨fun i j k a b c => by unfold Ham.den; ring, fun i j k a b c => by unfold Ham.den; ring⟩
  rw [s1, s2, s3, s4, same_sum hD, diff_sum hD]
  have e := combine (den_symm h) h.conn (cV h) hc hV
  have e2 : sum6 (fun i j k a b c => h.conn i j k a b c * occR (cV h) i j k a b c / h.den i j k a b c) = 3 * h.triplesEnergy := by
    have := rendell h.conn (cV h) h.den hc hV (den_symm h) hv
    rw [sum6_congr fun i j k a b c => by rw [occR_virR (cV h) hV], this]
    unfold Ham.triplesEnergy
    rw [← mul_assoc]
    norm_num
    rfl
  rw [e2] at e
  linear_combination e

end Vayesta.CcsdT
