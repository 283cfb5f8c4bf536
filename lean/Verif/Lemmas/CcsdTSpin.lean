import Verif.Lemmas.CcsdTPerm
import Verif.Spec.CcsdTSpin

/-! Unrestricted triples energies: blocks of spin orbitals. -/

set_option linter.unusedSectionVars false

namespace Vayesta.CcsdT
open Vayesta.Amplitudes Vayesta.Tensor

variable {K : Type} [Field K] {oa ob va vb o v : Type} [Fintype o] [Fintype v]

section
variable {o v : Type} [Fintype o] [Fintype v]

/-- The array `w` of equal spins. -/
def Ham.uw (h : Ham o v K) : T6 o o o v v v K := fun i j k a b c => (∑ e, h.t2 i j a e * h.ovvv k c e b) - ∑ m, h.t2 m k b c * h.ovoo i a j m

/-- The array `v` of equal spins. -/
def Ham.uv {o v : Type} (h : Ham o v K) : T6 o o o v v v K := fun i j k a b c => h.ovov j b k c * h.t1 i a + h.t2 j k b c * h.fvo a i * (1 / 2)

/-- Antisymmetric amplitudes, symmetric integrals. -/
structure Ham.Anti {o v : Type} (h : Ham o v K) : Prop where
  occ : ∀ i j a b, h.t2 j i a b = -h.t2 i j a b
  vir : ∀ i j a b, h.t2 i j b a = -h.t2 i j a b
  ovov : ∀ i a j b, h.ovov j b i a = h.ovov i a j b
  ovoo : ∀ i a j k, h.ovoo i a k j = h.ovoo i a j k

theorem soConn_eq (h : Ham o v K) (H : h.Anti) (i j k : o) (a b c : v) : r6 (p6 h.uw) i j k a b c = 2 * h.soConn i j k a b c := by
  let X : o → o → v → o → v → v → K := fun i j a k c b => ∑ e, h.t2 i j a e * h.ovvv k c e b
  let Y : o → v → v → o → v → o → K := fun k b c i a j => ∑ m, h.t2 m k b c * h.ovoo i a j m
  have hX : ∀ i j a k c b, X j i a k c b = -X i j a k c b := by
    intro i j a k c b
    show ∑ e, _ = -∑ e, _
    rw [← Finset.sum_neg_distrib]
    exact Finset.sum_congr rfl fun e _ => by rw [H.occ]; ring
  have hY : ∀ k b c i a j, Y k c b i a j = -Y k b c i a j := by
    intro k b c i a j
    show ∑ e, _ = -∑ e, _
    rw [← Finset.sum_neg_distrib]
    exact Finset.sum_congr rfl fun e _ => by rw [H.vir]; ring
  have e1 : h.uw = fun i j k a b c => X i j a k c b - Y k b c i a j := rfl
  have e2 : h.soConn = antiPerm fun i j k a b c => X j k a i c b - X j k a i b c - (-Y i b c k a j + Y i b c j a k) := by
    unfold Ham.soConn
    congr 1
    funext i j k a b c
    have f1 : ∑ e, h.t2 j k a e * (h.ovvv i c e b - h.ovvv i b e c) = X j k a i c b - X j k a i b c := by
      show _ = (∑ e, _) - ∑ e, _
      rw [← Finset.sum_sub_distrib]
      exact Finset.sum_congr rfl fun e _ => by ring
    have f2 : ∑ m, h.t2 i m b c * (h.ovoo k a m j - h.ovoo j a m k) = -Y i b c k a j + Y i b c j a k := by
      show _ = -(∑ e, _) + ∑ e, _
      rw [← Finset.sum_neg_distrib, ← Finset.sum_add_distrib]
      exact Finset.sum_congr rfl fun m _ => by rw [H.occ i m, H.ovoo k a m j, H.ovoo j a m k]; ring
    rw [f1, f2]
  rw [e1, e2]
  unfold r6 p6 antiPerm
  simp only [hX i j, hX i k, hX j k, hY _ a b, hY _ a c, hY _ b c]
  ring

theorem soDisc_eq [CharZero K] (h : Ham o v K) (H : h.Anti) (i j k : o) (a b c : v) : r6 (p6 h.uv) i j k a b c = 2 * h.soDisc i j k a b c := by
  unfold r6 p6 Ham.uv Ham.soDisc antiPerm
  simp only [H.occ i j, H.occ i k, H.occ j k, H.vir _ _ a b, H.vir _ _ a c, H.vir _ _ b c]
  simp only [H.ovov i a j b, H.ovov i a j c, H.ovov i b j a, H.ovov i b j c, H.ovov i c j a, H.ovov i c j b, H.ovov i a k b, H.ovov i a k c, H.ovov i b k a, H.ovov i b k c, H.ovov i c k a, H.ovov i c k b, H.ovov j a k b, H.ovov j a k c, H.ovov j b k a, H.ovov j b k c, H.ovov j c k a, H.ovov j c k b]
  ring

end

/-! ## Blocks of arrays over spin orbitals -/

section
variable [Fintype oa] [Fintype ob] [Fintype va] [Fintype vb]

/-- The input of alpha electrons. -/
def UHam.spinA {oa ob va vb : Type} (h : UHam oa ob va vb K) : Ham oa va K := ⟨h.t1a, h.t2aa, h.fvo, h.eoa, h.eva, h.ovvv, h.ovoo, h.ovov⟩

/-- The input of beta electrons. -/
def UHam.spinB {oa ob va vb : Type} (h : UHam oa ob va vb K) : Ham ob vb K := ⟨h.t1b, h.t2bb, h.fVO, h.eob, h.evb, h.OVVV, h.OVOO, h.OVOV⟩

theorem so_anti {oa ob va vb : Type} (h : UHam oa ob va vb K) (H : h.Real) : h.so.Anti where
  occ := fun i j a b => by
    rcases i with i | i <;> rcases j with j | j <;> rcases a with a | a <;> rcases b with b | b <;>
      first | exact (H.aa _ _ _ _).1 | exact (H.bb _ _ _ _).1 | exact neg_zero.symm | rfl | exact (neg_neg _).symm
  vir := fun i j a b => by
    rcases i with i | i <;> rcases j with j | j <;> rcases a with a | a <;> rcases b with b | b <;>
      first | exact (H.aa _ _ _ _).2 | exact (H.bb _ _ _ _).2 | exact neg_zero.symm | rfl | exact (neg_neg _).symm
  ovov := fun i a j b => by
    rcases i with i | i <;> rcases j with j | j <;> rcases a with a | a <;> rcases b with b | b <;>
      first | exact H.ovov _ _ _ _ | exact H.OVOV _ _ _ _ | rfl
  ovoo := fun i a j k => by
    rcases i with i | i <;> rcases j with j | j <;> rcases a with a | a <;> rcases k with b | b <;>
      first | exact H.ovoo _ _ _ _ | exact H.OVOO _ _ _ _ | exact H.ovOO _ _ _ _ | exact H.OVoo _ _ _ _ | rfl

theorem uw_a (h : UHam oa ob va vb K) (i j k : oa) (a b c : va) : h.so.uw (.inl i) (.inl j) (.inl k) (.inl a) (.inl b) (.inl c) = h.spinA.uw i j k a b c := by
  simp only [Ham.uw, UHam.so, UHam.spinA, Fintype.sum_sum_type, spinT2, spin4, zero_mul, mul_zero, Finset.sum_const_zero, add_zero]

theorem uw_b (h : UHam oa ob va vb K) (i j k : ob) (a b c : vb) : h.so.uw (.inr i) (.inr j) (.inr k) (.inr a) (.inr b) (.inr c) = h.spinB.uw i j k a b c := by
  simp only [Ham.uw, UHam.so, UHam.spinB, Fintype.sum_sum_type, spinT2, spin4, zero_mul, mul_zero, Finset.sum_const_zero, zero_add]

theorem uv_a {oa ob va vb : Type} (h : UHam oa ob va vb K) (i j k : oa) (a b c : va) :
    h.so.uv (.inl i) (.inl j) (.inl k) (.inl a) (.inl b) (.inl c) = h.spinA.uv i j k a b c := rfl

theorem uv_b {oa ob va vb : Type} (h : UHam oa ob va vb K) (i j k : ob) (a b c : vb) :
    h.so.uv (.inr i) (.inr j) (.inr k) (.inr a) (.inr b) (.inr c) = h.spinB.uv i j k a b c := rfl

/-- The array `w` of part "bbb". -/
def UHam.wbbb (h : UHam oa ob va vb K) : T6 ob ob ob vb vb vb K := fun i j k a b c => (∑ e, h.t2bb i j a e * h.OVVV k c e b) - ∑ m, h.t2bb i m a b * h.OVOO k c j m

theorem wbbb_eq (h : UHam oa ob va vb K) (H : h.Real) : p6 h.wbbb = p6 h.spinB.uw := by
  have e : ∀ i m a b, h.t2bb i m a b = h.t2bb m i b a := fun i m a b => by rw [(H.bb i m b a).1, (H.bb i m a b).2, neg_neg]
  have e' : h.wbbb = fun i j k a b c => (∑ e, h.t2bb i j a e * h.OVVV k c e b) - ∑ m, h.t2bb m i b a * h.OVOO k c j m := by
    funext i j k a b c
    unfold UHam.wbbb
    exact congrArg _ (Finset.sum_congr rfl fun m _ => by rw [e])
  rw [e']
  funext i j k a b c
  unfold p6 Ham.uw UHam.spinB
  ring

/-- The arrays `w`, `v` of part "baa". -/
def UHam.wbaa (h : UHam oa ob va vb K) : T6 ob oa oa vb va va K := fun I j k A b c =>
  (∑ e, h.t2ab j I e A * h.ovvv k c e b) * 2 + (∑ E, h.t2ab j I b E * h.ovVV k c E A) * 2 + (∑ e, h.t2aa j k b e * h.OVvv I A e c) -
  (∑ m, h.t2ab m I b A * h.ovoo k c j m) * 2 - (∑ M, h.t2ab j M b A * h.ovOO k c I M) * 2 - ∑ m, h.t2aa j m b c * h.OVoo I A k m

def UHam.vbaa {oa ob va vb : Type} (h : UHam oa ob va vb K) : T6 ob oa oa vb va va K := fun I j k A b c =>
  h.ovov j b k c * h.t1b I A + h.ovOV k c I A * h.t1a j b + h.ovOV k c I A * h.t1a j b + h.t2aa j k b c * h.fVO A I * (1 / 2) +
  h.t2ab k I c A * h.fvo b j * 2

/-- The arrays `w`, `v` of part "bba". -/
def UHam.wabb (h : UHam oa ob va vb K) : T6 oa ob ob va vb vb K := fun i j k a b c =>
  (∑ e, h.t2ab i j a e * h.OVVV k c e b) * 2 + (∑ e, h.t2ab i j e b * h.OVvv k c e a) * 2 + (∑ e, h.t2bb j k b e * h.ovVV i a e c) -
  (∑ m, h.t2ab i m a b * h.OVOO k c j m) * 2 - (∑ m, h.t2ab m j a b * h.OVoo k c i m) * 2 - ∑ m, h.t2bb j m b c * h.ovOO i a k m

def UHam.vabb {oa ob va vb : Type} (h : UHam oa ob va vb K) : T6 oa ob ob va vb vb K := fun i j k a b c =>
  h.OVOV j b k c * h.t1a i a + h.ovOV i a k c * h.t1b j b + h.ovOV i a k c * h.t1b j b + h.t2bb j k b c * h.fvo a i * (1 / 2) +
  h.t2ab i k a c * h.fVO b j * 2

theorem wbaa_eq (h : UHam oa ob va vb K) (H : h.Real) (I : ob) (j k : oa) (A : vb) (b c : va) :
    r6 (p6 h.so.uw) (.inr I) (.inl j) (.inl k) (.inr A) (.inl b) (.inl c) = r2 h.wbaa I j k A b c := by
  have hv : ∀ m a, h.t2aa j m a c = -h.t2aa m j a c := fun m a => (H.aa m j a c).1
  have ho : ∀ a e, h.t2aa k j a e = -h.t2aa j k a e := fun a e => (H.aa j k a e).1
  have e1 : ∀ b c, ∑ m, h.t2aa j m b c * h.OVoo I A k m = -∑ m, h.t2aa m j b c * h.OVoo I A k m := fun b c => by
    rw [← Finset.sum_neg_distrib]
    exact Finset.sum_congr rfl fun m _ => by rw [(H.aa m j b c).1]; ring
  have e2 : ∀ b c, ∑ m, h.t2aa k m b c * h.OVoo I A j m = -∑ m, h.t2aa m k b c * h.OVoo I A j m := fun b c => by
    rw [← Finset.sum_neg_distrib]
    exact Finset.sum_congr rfl fun m _ => by rw [(H.aa m k b c).1]; ring
  have e3 : ∀ m n, h.t2aa m n c b = -h.t2aa m n b c := fun m n => (H.aa m n b c).2
  unfold r2 UHam.wbaa
  rw [e1, e2, e1, e2]
  simp only [r6, p6, Ham.uw, UHam.so, Fintype.sum_sum_type, spinT2, spin4, zero_mul, mul_zero, Finset.sum_const_zero, zero_add, add_zero, neg_mul,
    Finset.sum_neg_distrib, ho, e3]
  ring


theorem vbaa_eq [CharZero K] (h : UHam oa ob va vb K) (H : h.Real) (I : ob) (j k : oa) (A : vb) (b c : va) :
    r6 (p6 h.so.uv) (.inr I) (.inl j) (.inl k) (.inr A) (.inl b) (.inl c) = r2 h.vbaa I j k A b c := by
  have ho : ∀ a e, h.t2aa k j a e = -h.t2aa j k a e := fun a e => (H.aa j k a e).1
  have e3 : ∀ m n, h.t2aa m n c b = -h.t2aa m n b c := fun m n => (H.aa m n b c).2
  unfold r2 UHam.vbaa
  simp only [r6, p6, Ham.uv, UHam.so, spin2, spinT2, spin4, zero_mul, mul_zero, zero_add, add_zero, neg_mul, ho, e3, H.ovov j b k c, H.ovov j c k b]
  ring

theorem wabb_eq (h : UHam oa ob va vb K) (H : h.Real) (i : oa) (j k : ob) (a : va) (b c : vb) :
    r6 (p6 h.so.uw) (.inl i) (.inr j) (.inr k) (.inl a) (.inr b) (.inr c) = r2 h.wabb i j k a b c := by
  have ho : ∀ a e, h.t2bb k j a e = -h.t2bb j k a e := fun a e => (H.bb j k a e).1
  have e1 : ∀ b c, ∑ m, h.t2bb j m b c * h.ovOO i a k m = -∑ m, h.t2bb m j b c * h.ovOO i a k m := fun b c => by
    rw [← Finset.sum_neg_distrib]
    exact Finset.sum_congr rfl fun m _ => by rw [(H.bb m j b c).1]; ring
  have e2 : ∀ b c, ∑ m, h.t2bb k m b c * h.ovOO i a j m = -∑ m, h.t2bb m k b c * h.ovOO i a j m := fun b c => by
    rw [← Finset.sum_neg_distrib]
    exact Finset.sum_congr rfl fun m _ => by rw [(H.bb m k b c).1]; ring
  have e3 : ∀ m n, h.t2bb m n c b = -h.t2bb m n b c := fun m n => (H.bb m n b c).2
  unfold r2 UHam.wabb
  rw [e1, e2, e1, e2]
  simp only [r6, p6, Ham.uw, UHam.so, Fintype.sum_sum_type, spinT2, spin4, zero_mul, mul_zero, Finset.sum_const_zero, zero_add, add_zero, neg_mul,
    Finset.sum_neg_distrib, ho, e3]
  ring

theorem vabb_eq [CharZero K] (h : UHam oa ob va vb K) (H : h.Real) (i : oa) (j k : ob) (a : va) (b c : vb) :
    r6 (p6 h.so.uv) (.inl i) (.inr j) (.inr k) (.inl a) (.inr b) (.inr c) = r2 h.vabb i j k a b c := by
  have ho : ∀ a e, h.t2bb k j a e = -h.t2bb j k a e := fun a e => (H.bb j k a e).1
  have e3 : ∀ m n, h.t2bb m n c b = -h.t2bb m n b c := fun m n => (H.bb m n b c).2
  unfold r2 UHam.vabb
  simp only [r6, p6, Ham.uv, UHam.so, spin2, spinT2, spin4, zero_mul, mul_zero, zero_add, add_zero, neg_mul, ho, e3, H.OVOV j b k c, H.OVOV j c k b]
  ring

/-! ## The energy in terms of connected and disconnected triples over spin orbitals -/

/-- A block of an array over spin orbitals. -/
def blk {m₁ m₂ m₃ n₁ n₂ n₃ o v : Type} (f₁ : m₁ → o) (f₂ : m₂ → o) (f₃ : m₃ → o) (g₁ : n₁ → v) (g₂ : n₂ → v) (g₃ : n₃ → v) (t : T6 o o o v v v K) :
    T6 m₁ m₂ m₃ n₁ n₂ n₃ K := fun i j k a b c => t (f₁ i) (f₂ j) (f₃ k) (g₁ a) (g₂ b) (g₃ c)

/-- Connected and disconnected triples. -/
def Ham.soAll {o v : Type} [Fintype o] [Fintype v] (h : Ham o v K) : T6 o o o v v v K := fun i j k a b c => h.soConn i j k a b c + h.soDisc i j k a b c

/-- The contribution of a block: connected triples `w`, all triples `u` and denominators; `early` tells if the divided array is `u`. -/
def part {o₁ o₂ o₃ v₁ v₂ v₃ : Type} [Fintype o₁] [Fintype o₂] [Fintype o₃] [Fintype v₁] [Fintype v₂] [Fintype v₃] (t : UTarget) (early : Bool)
    (p : o₁ → o₁ → K) (q : o₂ → o₂ → K) (r : o₃ → o₃ → K) (u w d : T6 o₁ o₂ o₃ v₁ v₂ v₃ K) : K :=
  if early then uPair t p q r (fun i j k a b c => u i j k a b c / d i j k a b c) w
  else uPair t p q r u fun i j k a b c => w i j k a b c / d i j k a b c

theorem part_mul {o₁ o₂ o₃ v₁ v₂ v₃ : Type} [Fintype o₁] [Fintype o₂] [Fintype o₃] [Fintype v₁] [Fintype v₂] [Fintype v₃] (t : UTarget) (early : Bool)
    (p : o₁ → o₁ → K) (q : o₂ → o₂ → K) (r : o₃ → o₃ → K) (u w d : T6 o₁ o₂ o₃ v₁ v₂ v₃ K) :
    part t early p q r (fun i j k a b c => 2 * u i j k a b c) (fun i j k a b c => 2 * w i j k a b c) d = 4 * part t early p q r u w d := by
  unfold part
  cases early <;> cases t <;> simp only [if_true, Bool.false_eq_true, if_false, uPair, mul_div_assoc, usym_mul, dot6_mul, dot6_mul'] <;> ring

theorem den_den6 {o v : Type} (h : Ham o v K) : Den6 h.den where
  o12 := fun i j k a b c => by unfold Ham.den; ring
  o23 := fun i j k a b c => by unfold Ham.den; ring
  v12 := fun i j k a b c => by unfold Ham.den; ring
  v23 := fun i j k a b c => by unfold Ham.den; ring

/-- The energy of a fragment over blocks of spin orbitals. -/
def UHam.parts (h : UHam oa ob va vb K) (t : UTarget) (pa : oa → oa → K) (pb : ob → ob → K) : K :=
  1 / 36 * part t true pa pa pa (blk .inl .inl .inl .inl .inl .inl h.so.soAll) (blk .inl .inl .inl .inl .inl .inl h.so.soConn) (blk .inl .inl .inl .inl .inl .inl h.so.den) +
  1 / 36 * part t true pb pb pb (blk .inr .inr .inr .inr .inr .inr h.so.soAll) (blk .inr .inr .inr .inr .inr .inr h.so.soConn) (blk .inr .inr .inr .inr .inr .inr h.so.den) +
  1 / 4 * part t false pb pa pa (blk .inr .inl .inl .inr .inl .inl h.so.soAll) (blk .inr .inl .inl .inr .inl .inl h.so.soConn) (blk .inr .inl .inl .inr .inl .inl h.so.den) +
  1 / 4 * part t false pa pb pb (blk .inl .inr .inr .inl .inr .inr h.so.soAll) (blk .inl .inr .inr .inl .inr .inr h.so.soConn) (blk .inl .inr .inr .inl .inr .inr h.so.den)

theorem r6_p6_add {o v : Type} (x y : T6 o o o v v v K) (i j k : o) (a b c : v) :
    r6 (p6 fun i j k a b c => x i j k a b c + y i j k a b c) i j k a b c = r6 (p6 x) i j k a b c + r6 (p6 y) i j k a b c := by
  unfold r6 p6; ring

theorem r2_add {o₁ o v₁ v : Type} (x y : T6 o₁ o o v₁ v v K) (i : o₁) (j k : o) (a : v₁) (b c : v) :
    r2 (fun i j k a b c => x i j k a b c + y i j k a b c) i j k a b c = r2 x i j k a b c + r2 y i j k a b c := by
  unfold r2; ring

private theorem all_eq [CharZero K] {o v : Type} [Fintype o] [Fintype v] (h : Ham o v K) (H : h.Anti) (i j k : o) (a b c : v) :
    r6 (p6 h.uw) i j k a b c + r6 (p6 h.uv) i j k a b c = 2 * h.soAll i j k a b c := by
  rw [soConn_eq h H, soDisc_eq h H]
  unfold Ham.soAll
  ring

theorem aaa_part [CharZero K] (h : UHam oa ob va vb K) (H : h.Real) (t : UTarget) (p : oa → oa → K) :
    h.aaa t p = 1 / 9 * part t true p p p (blk .inl .inl .inl .inl .inl .inl h.so.soAll) (blk .inl .inl .inl .inl .inl .inl h.so.soConn)
      (blk .inl .inl .inl .inl .inl .inl h.so.den) := by
  have hA := so_anti h H
  have e0 : h.aaa t p = uPair t p p p (fun i j k a b c => p6 (fun i j k a b c => h.spinA.uw i j k a b c + h.spinA.uv i j k a b c) i j k a b c / h.spinA.den i j k a b c)
      (r6 h.spinA.uw) := by
    have ed : (fun i j k a b c => p6 (fun i j k a b c => h.spinA.uw i j k a b c + h.spinA.uv i j k a b c) i j k a b c / (h.eoa i - h.eva a + (h.eoa j - h.eva b) + (h.eoa k - h.eva c))) =
        fun i j k a b c => p6 (fun i j k a b c => h.spinA.uw i j k a b c + h.spinA.uv i j k a b c) i j k a b c / h.spinA.den i j k a b c := by
      funext i j k a b c
      congr 1
      show _ = h.eoa i + h.eoa j + h.eoa k - h.eva a - h.eva b - h.eva c
      ring
    rw [← ed]
    rfl
  have f1 : (fun i j k a b c => r6 (p6 fun i j k a b c => h.spinA.uw i j k a b c + h.spinA.uv i j k a b c) i j k a b c / h.spinA.den i j k a b c) =
      fun i j k a b c => 2 * blk .inl .inl .inl .inl .inl .inl h.so.soAll i j k a b c / blk .inl .inl .inl .inl .inl .inl h.so.den i j k a b c := by
    funext i j k a b c
    congr 1
    show _ = 2 * h.so.soAll _ _ _ _ _ _
    rw [r6_p6_add, ← all_eq h.so hA]
    simp only [r6, p6, uw_a, uv_a]
  have f2 : r6 (p6 h.spinA.uw) = fun i j k a b c => 2 * blk .inl .inl .inl .inl .inl .inl h.so.soConn i j k a b c := by
    funext i j k a b c
    show _ = 2 * h.so.soConn _ _ _ _ _ _
    rw [← soConn_eq h.so hA]
    simp only [r6, p6, uw_a]
  rw [e0, same_spin p _ _ (den_den6 h.spinA) t, f1, f2]
  have := part_mul t true p p p (blk .inl .inl .inl .inl .inl .inl h.so.soAll) (blk .inl .inl .inl .inl .inl .inl h.so.soConn) (blk .inl .inl .inl .inl .inl .inl h.so.den)
  rw [show uPair t p p p (fun i j k a b c => 2 * blk .inl .inl .inl .inl .inl .inl h.so.soAll i j k a b c / blk .inl .inl .inl .inl .inl .inl h.so.den i j k a b c)
    (fun i j k a b c => 2 * blk .inl .inl .inl .inl .inl .inl h.so.soConn i j k a b c) = _ from this]
  ring

theorem bbb_part [CharZero K] (h : UHam oa ob va vb K) (H : h.Real) (t : UTarget) (p : ob → ob → K) :
    h.bbb t p = 1 / 9 * part t true p p p (blk .inr .inr .inr .inr .inr .inr h.so.soAll) (blk .inr .inr .inr .inr .inr .inr h.so.soConn)
      (blk .inr .inr .inr .inr .inr .inr h.so.den) := by
  have hA := so_anti h H
  have e0 : h.bbb t p = uPair t p p p (fun i j k a b c => p6 (fun i j k a b c => h.wbbb i j k a b c + h.spinB.uv i j k a b c) i j k a b c / h.spinB.den i j k a b c)
      (r6 h.wbbb) := by
    have ed : (fun i j k a b c => p6 (fun i j k a b c => h.wbbb i j k a b c + h.spinB.uv i j k a b c) i j k a b c / (h.eob i - h.evb a + (h.eob j - h.evb b) + (h.eob k - h.evb c))) =
        fun i j k a b c => p6 (fun i j k a b c => h.wbbb i j k a b c + h.spinB.uv i j k a b c) i j k a b c / h.spinB.den i j k a b c := by
      funext i j k a b c
      congr 1
      show _ = h.eob i + h.eob j + h.eob k - h.evb a - h.evb b - h.evb c
      ring
    rw [← ed]
    rfl
  have f1 : (fun i j k a b c => r6 (p6 fun i j k a b c => h.wbbb i j k a b c + h.spinB.uv i j k a b c) i j k a b c / h.spinB.den i j k a b c) =
      fun i j k a b c => 2 * blk .inr .inr .inr .inr .inr .inr h.so.soAll i j k a b c / blk .inr .inr .inr .inr .inr .inr h.so.den i j k a b c := by
    funext i j k a b c
    congr 1
    show _ = 2 * h.so.soAll _ _ _ _ _ _
    rw [r6_p6_add, ← all_eq h.so hA, wbbb_eq h H]
    simp only [r6, p6, uw_b, uv_b]
  have f2 : r6 (p6 h.wbbb) = fun i j k a b c => 2 * blk .inr .inr .inr .inr .inr .inr h.so.soConn i j k a b c := by
    funext i j k a b c
    show _ = 2 * h.so.soConn _ _ _ _ _ _
    rw [← soConn_eq h.so hA, wbbb_eq h H]
    simp only [r6, p6, uw_b]
  rw [e0, same_spin p _ _ (den_den6 h.spinB) t, f1, f2]
  have := part_mul t true p p p (blk .inr .inr .inr .inr .inr .inr h.so.soAll) (blk .inr .inr .inr .inr .inr .inr h.so.soConn) (blk .inr .inr .inr .inr .inr .inr h.so.den)
  rw [show uPair t p p p (fun i j k a b c => 2 * blk .inr .inr .inr .inr .inr .inr h.so.soAll i j k a b c / blk .inr .inr .inr .inr .inr .inr h.so.den i j k a b c)
    (fun i j k a b c => 2 * blk .inr .inr .inr .inr .inr .inr h.so.soConn i j k a b c) = _ from this]
  ring

theorem baa_part [CharZero K] (h : UHam oa ob va vb K) (H : h.Real) (t : UTarget) (pa : oa → oa → K) (pb : ob → ob → K) :
    h.baa t pa pb = part t false pb pa pa (blk .inr .inl .inl .inr .inl .inl h.so.soAll) (blk .inr .inl .inl .inr .inl .inl h.so.soConn)
      (blk .inr .inl .inl .inr .inl .inl h.so.den) := by
  have hA := so_anti h H
  have e0 : h.baa t pa pb = uPair t pb pa pa (fun I j k A b c => h.wbaa I j k A b c + h.vbaa I j k A b c)
      (fun I j k A b c => r2 h.wbaa I j k A b c / blk .inr .inl .inl .inr .inl .inl h.so.den I j k A b c) := by
    have ed : (fun I j k A b c => r2 h.wbaa I j k A b c / (h.eob I - h.evb A + (h.eoa j - h.eva b) + (h.eoa k - h.eva c))) =
        fun I j k A b c => r2 h.wbaa I j k A b c / blk .inr .inl .inl .inr .inl .inl h.so.den I j k A b c := by
      funext I j k A b c
      congr 1
      show _ = h.eob I + h.eoa j + h.eoa k - h.evb A - h.eva b - h.eva c
      ring
    rw [← ed]
    rfl
  have f1 : r2 (fun I j k A b c => h.wbaa I j k A b c + h.vbaa I j k A b c) = fun I j k A b c => 2 * blk .inr .inl .inl .inr .inl .inl h.so.soAll I j k A b c := by
    funext I j k A b c
    show _ = 2 * h.so.soAll _ _ _ _ _ _
    rw [r2_add, ← all_eq h.so hA, wbaa_eq h H, vbaa_eq h H]
  have f2 : r2 h.wbaa = fun I j k A b c => 2 * blk .inr .inl .inl .inr .inl .inl h.so.soConn I j k A b c := by
    funext I j k A b c
    show _ = 2 * h.so.soConn _ _ _ _ _ _
    rw [← soConn_eq h.so hA, wbaa_eq h H]
  have e3 := diff_spin pb pa (fun i j k a b c => h.wbaa i j k a b c + h.vbaa i j k a b c) h.wbaa (blk Sum.inr Sum.inl Sum.inl Sum.inr Sum.inl Sum.inl h.so.den)
    (fun i j k a b c => (den_den6 h.so).o23 (.inr i) (.inl j) (.inl k) (.inr a) (.inl b) (.inl c))
    (fun i j k a b c => (den_den6 h.so).v23 (.inr i) (.inl j) (.inl k) (.inr a) (.inl b) (.inl c)) t
  rw [e0, e3, f1, f2]
  have := part_mul t false pb pa pa (blk .inr .inl .inl .inr .inl .inl h.so.soAll) (blk .inr .inl .inl .inr .inl .inl h.so.soConn) (blk .inr .inl .inl .inr .inl .inl h.so.den)
  rw [show uPair t pb pa pa (fun i j k a b c => 2 * blk .inr .inl .inl .inr .inl .inl h.so.soAll i j k a b c)
    (fun i j k a b c => 2 * blk .inr .inl .inl .inr .inl .inl h.so.soConn i j k a b c / blk .inr .inl .inl .inr .inl .inl h.so.den i j k a b c) = _ from this]
  ring

theorem abb_part [CharZero K] (h : UHam oa ob va vb K) (H : h.Real) (t : UTarget) (pa : oa → oa → K) (pb : ob → ob → K) :
    h.bba t pa pb = part t false pa pb pb (blk .inl .inr .inr .inl .inr .inr h.so.soAll) (blk .inl .inr .inr .inl .inr .inr h.so.soConn)
      (blk .inl .inr .inr .inl .inr .inr h.so.den) := by
  have hA := so_anti h H
  have e0 : h.bba t pa pb = uPair t pa pb pb (fun i j k a b c => h.wabb i j k a b c + h.vabb i j k a b c)
      (fun i j k a b c => r2 h.wabb i j k a b c / blk .inl .inr .inr .inl .inr .inr h.so.den i j k a b c) := by
    have ed : (fun i j k a b c => r2 h.wabb i j k a b c / (h.eoa i - h.eva a + (h.eob j - h.evb b) + (h.eob k - h.evb c))) =
        fun i j k a b c => r2 h.wabb i j k a b c / blk .inl .inr .inr .inl .inr .inr h.so.den i j k a b c := by
      funext I j k A b c
      congr 1
      show _ = h.eoa I + h.eob j + h.eob k - h.eva A - h.evb b - h.evb c
      ring
    rw [← ed]
    rfl
  have f1 : r2 (fun i j k a b c => h.wabb i j k a b c + h.vabb i j k a b c) = fun i j k a b c => 2 * blk .inl .inr .inr .inl .inr .inr h.so.soAll i j k a b c := by
    funext i j k a b c
    show _ = 2 * h.so.soAll _ _ _ _ _ _
    rw [r2_add, ← all_eq h.so hA, wabb_eq h H, vabb_eq h H]
  have f2 : r2 h.wabb = fun i j k a b c => 2 * blk .inl .inr .inr .inl .inr .inr h.so.soConn i j k a b c := by
    funext i j k a b c
    show _ = 2 * h.so.soConn _ _ _ _ _ _
    rw [← soConn_eq h.so hA, wabb_eq h H]
  have e3 := diff_spin pa pb (fun i j k a b c => h.wabb i j k a b c + h.vabb i j k a b c) h.wabb (blk Sum.inl Sum.inr Sum.inr Sum.inl Sum.inr Sum.inr h.so.den)
    (fun i j k a b c => (den_den6 h.so).o23 (.inl i) (.inr j) (.inr k) (.inl a) (.inr b) (.inr c))
    (fun i j k a b c => (den_den6 h.so).v23 (.inl i) (.inr j) (.inr k) (.inl a) (.inr b) (.inr c)) t
  rw [e0, e3, f1, f2]
  have := part_mul t false pa pb pb (blk .inl .inr .inr .inl .inr .inr h.so.soAll) (blk .inl .inr .inr .inl .inr .inr h.so.soConn) (blk .inl .inr .inr .inl .inr .inr h.so.den)
  rw [show uPair t pa pb pb (fun i j k a b c => 2 * blk .inl .inr .inr .inl .inr .inr h.so.soAll i j k a b c)
    (fun i j k a b c => 2 * blk .inl .inr .inr .inl .inr .inr h.so.soConn i j k a b c / blk .inl .inr .inr .inl .inr .inr h.so.den i j k a b c) = _ from this]
  ring

theorem energy_parts [CharZero K] (h : UHam oa ob va vb K) (H : h.Real) (t : UTarget) (pa : oa → oa → K) (pb : ob → ob → K) :
    h.energy t pa pb = h.parts t pa pb := by
  unfold UHam.energy UHam.parts
  rw [aaa_part h H, bbb_part h H, baa_part h H, abb_part h H]
  ring

end

/-! ## The sum over all spin orbitals -/

section
variable {α β : Type} [Fintype α] [Fintype β]

theorem sum_spin3 (G : α ⊕ β → α ⊕ β → α ⊕ β → K) (h12 : ∀ x y z, G y x z = G x y z) (h23 : ∀ x y z, G x z y = G x y z) :
    ∑ x, ∑ y, ∑ z, G x y z = (∑ x, ∑ y, ∑ z, G (.inl x) (.inl y) (.inl z)) + 3 * (∑ x, ∑ y, ∑ z, G (.inr x) (.inl y) (.inl z)) +
      3 * (∑ x, ∑ y, ∑ z, G (.inl x) (.inr y) (.inr z)) + ∑ x, ∑ y, ∑ z, G (.inr x) (.inr y) (.inr z) := by
  have e1 : ∑ x : α, ∑ y : α, ∑ z : β, G (.inl x) (.inl y) (.inr z) = ∑ x : β, ∑ y : α, ∑ z : α, G (.inr x) (.inl y) (.inl z) := by
    have : ∀ (x y : α) (z : β), G (.inl x) (.inl y) (.inr z) = G (.inr z) (.inl x) (.inl y) := fun x y z => (h23 _ _ _).trans (h12 _ _ _)
    simp only [this]
    rw [Finset.sum_congr rfl fun (x : α) _ => Finset.sum_comm (s := (Finset.univ : Finset α)) (t := (Finset.univ : Finset β)) (f := fun y z => G (.inr z) (.inl x) (.inl y))]
    exact Finset.sum_comm
  have e2 : ∑ x : α, ∑ y : β, ∑ z : α, G (.inl x) (.inr y) (.inl z) = ∑ x : β, ∑ y : α, ∑ z : α, G (.inr x) (.inl y) (.inl z) := by
    have : ∀ (x z : α) (y : β), G (.inl x) (.inr y) (.inl z) = G (.inr y) (.inl x) (.inl z) := fun x z y => h12 _ _ _
    simp only [this]
    exact Finset.sum_comm
  have e3 : ∑ x : β, ∑ y : β, ∑ z : α, G (.inr x) (.inr y) (.inl z) = ∑ x : α, ∑ y : β, ∑ z : β, G (.inl x) (.inr y) (.inr z) := by
    have : ∀ (x y : β) (z : α), G (.inr x) (.inr y) (.inl z) = G (.inl z) (.inr x) (.inr y) := fun x y z => (h23 _ _ _).trans (h12 _ _ _)
    simp only [this]
    rw [Finset.sum_congr rfl fun (x : β) _ => Finset.sum_comm (s := (Finset.univ : Finset β)) (t := (Finset.univ : Finset α)) (f := fun y z => G (.inl z) (.inr x) (.inr y))]
    exact Finset.sum_comm
  have e4 : ∑ x : β, ∑ y : α, ∑ z : β, G (.inr x) (.inl y) (.inr z) = ∑ x : α, ∑ y : β, ∑ z : β, G (.inl x) (.inr y) (.inr z) := by
    have : ∀ (x z : β) (y : α), G (.inr x) (.inl y) (.inr z) = G (.inl y) (.inr x) (.inr z) := fun x z y => h12 _ _ _
    simp only [this]
    exact Finset.sum_comm
  simp only [Fintype.sum_sum_type, Finset.sum_add_distrib]
  rw [e1, e2, e3, e4]
  ring

end

/-- Unchanged by permutations of either kind of index: the sum over spin orbitals is a sum over four blocks if only those conserve spin. -/
theorem sum6_spin [Fintype oa] [Fintype ob] [Fintype va] [Fintype vb] (F : T6 (oa ⊕ ob) (oa ⊕ ob) (oa ⊕ ob) (va ⊕ vb) (va ⊕ vb) (va ⊕ vb) K) (hF : Den6 F)
    (z : ∀ (i j k : oa ⊕ ob) (a b c : va ⊕ vb), Sum.elim (fun _ => 0) (fun _ => 1) i + Sum.elim (fun _ => 0) (fun _ => 1) j + Sum.elim (fun _ => 0) (fun _ => 1) k ≠
      (Sum.elim (fun _ => 0) (fun _ => 1) a + Sum.elim (fun _ => 0) (fun _ => 1) b + Sum.elim (fun _ => 0) (fun _ => 1) c : Nat) → F i j k a b c = 0) :
    sum6 F = sum6 (blk .inl .inl .inl .inl .inl .inl F) + sum6 (blk .inr .inr .inr .inr .inr .inr F) + 9 * sum6 (blk .inr .inl .inl .inr .inl .inl F) +
      9 * sum6 (blk .inl .inr .inr .inl .inr .inr F) := by
  have e1 : ∀ i j k, ∑ a, ∑ b, ∑ c, F i j k a b c = (∑ a, ∑ b, ∑ c, F i j k (.inl a) (.inl b) (.inl c)) + 3 * (∑ a, ∑ b, ∑ c, F i j k (.inr a) (.inl b) (.inl c)) +
      3 * (∑ a, ∑ b, ∑ c, F i j k (.inl a) (.inr b) (.inr c)) + ∑ a, ∑ b, ∑ c, F i j k (.inr a) (.inr b) (.inr c) :=
    fun i j k => sum_spin3 (fun a b c => F i j k a b c) (fun a b c => hF.v12 i j k a b c) (fun a b c => hF.v23 i j k a b c)
  have e2 := sum_spin3 (fun i j k => ∑ a, ∑ b, ∑ c, F i j k a b c) (fun i j k => by simp only [hF.o12 i j k]) (fun i j k => by simp only [hF.o23 i j k])
  have z0 : ∀ {A B C : Type} [Fintype A] [Fintype B] [Fintype C] (g : A → B → C → K), (∀ a b c, g a b c = 0) → ∑ a, ∑ b, ∑ c, g a b c = 0 := by
    intro A B C _ _ _ g h
    simp only [h, Finset.sum_const_zero]
  unfold sum6 blk
  refine e2.trans ?_
  beta_reduce
  simp only [e1]
  have c1 : ∀ i j k : oa, (∑ a, ∑ b, ∑ c, F (.inl i) (.inl j) (.inl k) (.inl a) (.inl b) (.inl c)) + 3 * (∑ a, ∑ b, ∑ c, F (.inl i) (.inl j) (.inl k) (.inr a) (.inl b) (.inl c)) +
      3 * (∑ a, ∑ b, ∑ c, F (.inl i) (.inl j) (.inl k) (.inl a) (.inr b) (.inr c)) + (∑ a, ∑ b, ∑ c, F (.inl i) (.inl j) (.inl k) (.inr a) (.inr b) (.inr c)) =
      ∑ a, ∑ b, ∑ c, F (.inl i) (.inl j) (.inl k) (.inl a) (.inl b) (.inl c) := by
    intro i j k
    rw [z0 (fun a b c => F (.inl i) (.inl j) (.inl k) (.inr a) (.inl b) (.inl c)) fun a b c => z _ _ _ _ _ _ (by simp),
      z0 (fun a b c => F (.inl i) (.inl j) (.inl k) (.inl a) (.inr b) (.inr c)) fun a b c => z _ _ _ _ _ _ (by simp),
      z0 (fun a b c => F (.inl i) (.inl j) (.inl k) (.inr a) (.inr b) (.inr c)) fun a b c => z _ _ _ _ _ _ (by simp)]
    ring
  have c2 : ∀ (i : ob) (j k : oa), (∑ a, ∑ b, ∑ c, F (.inr i) (.inl j) (.inl k) (.inl a) (.inl b) (.inl c)) + 3 * (∑ a, ∑ b, ∑ c, F (.inr i) (.inl j) (.inl k) (.inr a) (.inl b) (.inl c)) +
      3 * (∑ a, ∑ b, ∑ c, F (.inr i) (.inl j) (.inl k) (.inl a) (.inr b) (.inr c)) + (∑ a, ∑ b, ∑ c, F (.inr i) (.inl j) (.inl k) (.inr a) (.inr b) (.inr c)) =
      3 * ∑ a, ∑ b, ∑ c, F (.inr i) (.inl j) (.inl k) (.inr a) (.inl b) (.inl c) := by
    intro i j k
    rw [z0 (fun a b c => F (.inr i) (.inl j) (.inl k) (.inl a) (.inl b) (.inl c)) fun a b c => z _ _ _ _ _ _ (by simp),
      z0 (fun a b c => F (.inr i) (.inl j) (.inl k) (.inl a) (.inr b) (.inr c)) fun a b c => z _ _ _ _ _ _ (by simp),
      z0 (fun a b c => F (.inr i) (.inl j) (.inl k) (.inr a) (.inr b) (.inr c)) fun a b c => z _ _ _ _ _ _ (by simp)]
    ring
  have c3 : ∀ (i : oa) (j k : ob), (∑ a, ∑ b, ∑ c, F (.inl i) (.inr j) (.inr k) (.inl a) (.inl b) (.inl c)) + 3 * (∑ a, ∑ b, ∑ c, F (.inl i) (.inr j) (.inr k) (.inr a) (.inl b) (.inl c)) +
      3 * (∑ a, ∑ b, ∑ c, F (.inl i) (.inr j) (.inr k) (.inl a) (.inr b) (.inr c)) + (∑ a, ∑ b, ∑ c, F (.inl i) (.inr j) (.inr k) (.inr a) (.inr b) (.inr c)) =
      3 * ∑ a, ∑ b, ∑ c, F (.inl i) (.inr j) (.inr k) (.inl a) (.inr b) (.inr c) := by
    intro i j k
    rw [z0 (fun a b c => F (.inl i) (.inr j) (.inr k) (.inl a) (.inl b) (.inl c)) fun a b c => z _ _ _ _ _ _ (by simp),
      z0 (fun a b c => F (.inl i) (.inr j) (.inr k) (.inr a) (.inl b) (.inl c)) fun a b c => z _ _ _ _ _ _ (by simp),
      z0 (fun a b c => F (.inl i) (.inr j) (.inr k) (.inr a) (.inr b) (.inr c)) fun a b c => z _ _ _ _ _ _ (by simp)]
    ring
  have c4 : ∀ (i : ob) (j k : ob), (∑ a, ∑ b, ∑ c, F (.inr i) (.inr j) (.inr k) (.inl a) (.inl b) (.inl c)) + 3 * (∑ a, ∑ b, ∑ c, F (.inr i) (.inr j) (.inr k) (.inr a) (.inl b) (.inl c)) +
      3 * (∑ a, ∑ b, ∑ c, F (.inr i) (.inr j) (.inr k) (.inl a) (.inr b) (.inr c)) + (∑ a, ∑ b, ∑ c, F (.inr i) (.inr j) (.inr k) (.inr a) (.inr b) (.inr c)) =
      ∑ a, ∑ b, ∑ c, F (.inr i) (.inr j) (.inr k) (.inr a) (.inr b) (.inr c) := by
    intro i j k
    rw [z0 (fun a b c => F (.inr i) (.inr j) (.inr k) (.inl a) (.inl b) (.inl c)) fun a b c => z _ _ _ _ _ _ (by simp),
      z0 (fun a b c => F (.inr i) (.inr j) (.inr k) (.inr a) (.inl b) (.inl c)) fun a b c => z _ _ _ _ _ _ (by simp),
      z0 (fun a b c => F (.inr i) (.inr j) (.inr k) (.inl a) (.inr b) (.inr c)) fun a b c => z _ _ _ _ _ _ (by simp)]
    ring
  simp only [c1, c2, c3, c4, ← Finset.mul_sum]
  ring

/-- Antisymmetric under permutations of either kind of index. -/
structure Anti6 {o v : Type} (t : T6 o o o v v v K) : Prop where
  o12 : ∀ i j k a b c, t j i k a b c = -t i j k a b c
  o23 : ∀ i j k a b c, t i k j a b c = -t i j k a b c
  v12 : ∀ i j k a b c, t i j k b a c = -t i j k a b c
  v23 : ∀ i j k a b c, t i j k a c b = -t i j k a b c

theorem anti_r6 {o v : Type} (x : T6 o o o v v v K) : Anti6 (r6 (p6 x)) where
  o12 := fun i j k a b c => by unfold r6 p6; ring
  o23 := fun i j k a b c => by unfold r6 p6; ring
  v12 := fun i j k a b c => by unfold r6 p6; ring
  v23 := fun i j k a b c => by unfold r6 p6; ring

theorem anti_half [CharZero K] {o v : Type} {x y : T6 o o o v v v K} (hy : Anti6 y) (h : ∀ i j k a b c, y i j k a b c = 2 * x i j k a b c) : Anti6 x := by
  have e : ∀ i j k a b c, x i j k a b c = 1 / 2 * y i j k a b c := fun i j k a b c => by rw [h]; ring
  refine ⟨fun i j k a b c => ?_, fun i j k a b c => ?_, fun i j k a b c => ?_, fun i j k a b c => ?_⟩
  · rw [e, e, hy.o12]; ring
  · rw [e, e, hy.o23]; ring
  · rw [e, e, hy.v12]; ring
  · rw [e, e, hy.v23]; ring

theorem conn_anti [CharZero K] {o v : Type} [Fintype o] [Fintype v] (h : Ham o v K) (H : h.Anti) : Anti6 h.soConn := anti_half (anti_r6 h.uw) (soConn_eq h H)

theorem disc_anti [CharZero K] {o v : Type} [Fintype o] [Fintype v] (h : Ham o v K) (H : h.Anti) : Anti6 h.soDisc := anti_half (anti_r6 h.uv) (soDisc_eq h H)

private abbrev ns {α β : Type} (x : α ⊕ β) : Nat := Sum.elim (fun _ => 0) (fun _ => 1) x

private theorem uw_zero [Fintype oa] [Fintype ob] [Fintype va] [Fintype vb] (h : UHam oa ob va vb K) (i j k : oa ⊕ ob) (a b c : va ⊕ vb)
    (hs : ns i + ns j + ns k ≠ ns a + ns b + ns c) : h.so.uw i j k a b c = 0 := by
  rcases i with i | i <;> rcases j with j | j <;> rcases k with k | k <;> rcases a with a | a <;> rcases b with b | b <;> rcases c with c | c <;>
    first
      | exact absurd rfl hs
      | simp only [Ham.uw, UHam.so, Fintype.sum_sum_type, spinT2, spin4, zero_mul, mul_zero, Finset.sum_const_zero, add_zero, sub_zero]

private theorem conn_zero [CharZero K] [Fintype oa] [Fintype ob] [Fintype va] [Fintype vb] (h : UHam oa ob va vb K) (H : h.Real) (i j k : oa ⊕ ob)
    (a b c : va ⊕ vb) (hs : ns i + ns j + ns k ≠ ns a + ns b + ns c) : h.so.soConn i j k a b c = 0 := by
  have e := soConn_eq h.so (so_anti h H) i j k a b c
  have e2 : r6 (p6 h.so.uw) i j k a b c = 0 := by
    unfold r6 p6
    have : ∀ i' j' k' a' b' c', ns i' + ns j' + ns k' = ns i + ns j + ns k → ns a' + ns b' + ns c' = ns a + ns b + ns c → h.so.uw i' j' k' a' b' c' = 0 :=
      fun i' j' k' a' b' c' h1 h2 => uw_zero h i' j' k' a' b' c' (by omega)
    simp only [this i j k a b c (by omega) (by omega),
      this i j k a c b (by omega) (by omega),
      this i j k b a c (by omega) (by omega),
      this i j k b c a (by omega) (by omega),
      this i j k c a b (by omega) (by omega),
      this i j k c b a (by omega) (by omega),
      this i k j a b c (by omega) (by omega),
      this i k j a c b (by omega) (by omega),
      this i k j b a c (by omega) (by omega),
      this i k j b c a (by omega) (by omega),
      this i k j c a b (by omega) (by omega),
      this i k j c b a (by omega) (by omega),
      this j i k a b c (by omega) (by omega),
      this j i k a c b (by omega) (by omega),
      this j i k b a c (by omega) (by omega),
      this j i k b c a (by omega) (by omega),
      this j i k c a b (by omega) (by omega),
      this j i k c b a (by omega) (by omega),
      this j k i a b c (by omega) (by omega),
      this j k i a c b (by omega) (by omega),
      this j k i b a c (by omega) (by omega),
      this j k i b c a (by omega) (by omega),
      this j k i c a b (by omega) (by omega),
      this j k i c b a (by omega) (by omega),
      this k i j a b c (by omega) (by omega),
      this k i j a c b (by omega) (by omega),
      this k i j b a c (by omega) (by omega),
      this k i j b c a (by omega) (by omega),
      this k i j c a b (by omega) (by omega),
      this k i j c b a (by omega) (by omega),
      this k j i a b c (by omega) (by omega),
      this k j i a c b (by omega) (by omega),
      this k j i b a c (by omega) (by omega),
      this k j i b c a (by omega) (by omega),
      this k j i c a b (by omega) (by omega),
      this k j i c b a (by omega) (by omega), add_zero, sub_zero]
  rw [e2] at e
  exact (mul_eq_zero.1 e.symm).resolve_left (by norm_num)

/-- The product summed over all spin orbitals. -/
def Ham.soTerm {o v : Type} [Fintype o] [Fintype v] (h : Ham o v K) : T6 o o o v v v K := fun i j k a b c =>
  h.soConn i j k a b c * h.soAll i j k a b c / h.den i j k a b c

theorem soTriples_blocks [CharZero K] [Fintype oa] [Fintype ob] [Fintype va] [Fintype vb] (h : UHam oa ob va vb K) (H : h.Real) :
    h.so.soTriples = 1 / 36 * sum6 (blk .inl .inl .inl .inl .inl .inl h.so.soTerm) + 1 / 36 * sum6 (blk .inr .inr .inr .inr .inr .inr h.so.soTerm) +
      1 / 4 * sum6 (blk .inr .inl .inl .inr .inl .inl h.so.soTerm) + 1 / 4 * sum6 (blk .inl .inr .inr .inl .inr .inr h.so.soTerm) := by
  have hc := conn_anti h.so (so_anti h H)
  have hd := disc_anti h.so (so_anti h H)
  have hF : Den6 h.so.soTerm := by
    have d := den_den6 h.so
    refine ⟨fun i j k a b c => ?_, fun i j k a b c => ?_, fun i j k a b c => ?_, fun i j k a b c => ?_⟩ <;> show _ * (_ + _) / _ = _ * (_ + _) / _
    · rw [hc.o12, hd.o12, d.o12]; ring
    · rw [hc.o23, hd.o23, d.o23]; ring
    · rw [hc.v12, hd.v12, d.v12]; ring
    · rw [hc.v23, hd.v23, d.v23]; ring
  have e := sum6_spin h.so.soTerm hF fun i j k a b c hs => by
    show h.so.soConn i j k a b c * _ / _ = 0
    rw [conn_zero h H i j k a b c hs, zero_mul, zero_div]
  refine (congrArg (1 / 36 * ·) e).trans ?_
  ring

theorem parts_delta [CharZero K] [Fintype oa] [Fintype ob] [Fintype va] [Fintype vb] [DecidableEq oa] [DecidableEq ob] (h : UHam oa ob va vb K) (H : h.Real)
    (t : UTarget) : h.parts t delta delta = h.so.soTriples := by
  have p : ∀ {o₁ o₂ o₃ v₁ v₂ v₃ : Type} [Fintype o₁] [Fintype o₂] [Fintype o₃] [Fintype v₁] [Fintype v₂] [Fintype v₃] [DecidableEq o₁] [DecidableEq o₂]
      [DecidableEq o₃] (early : Bool) (u w d : T6 o₁ o₂ o₃ v₁ v₂ v₃ K), part t early delta delta delta u w d =
      sum6 fun i j k a b c => w i j k a b c * u i j k a b c / d i j k a b c := by
    intro o₁ o₂ o₃ v₁ v₂ v₃ _ _ _ _ _ _ _ _ _ early u w d
    unfold part uPair
    cases early <;> cases t <;> simp only [if_true, Bool.false_eq_true, if_false, usym_delta] <;> exact sum6_congr fun i j k a b c => by ring
  unfold UHam.parts
  rw [p, p, p, p, soTriples_blocks h H]
  rfl

end Vayesta.CcsdT
