import Verif.Lemmas.CcsdTSpin
import Verif.Spec.CcsdTSpin

/-! Unrestricted triples energies: sums of projectors, rotated orbitals. -/

set_option linter.unusedSectionVars false

namespace Vayesta.CcsdT
open Vayesta.Amplitudes Vayesta.Tensor

variable {K : Type} [Field K]

/-! ## Sums of projectors -/

section
variable {o₁ o₂ o₃ v₁ v₂ v₃ : Type} [Fintype o₁] [Fintype o₂] [Fintype o₃] [Fintype v₁] [Fintype v₂] [Fintype v₃]

private theorem lin_left (x : K) (f g y : T6 o₁ o₂ o₃ v₁ v₂ v₃ K) :
    dot6 (fun i j k a b c => x * f i j k a b c + g i j k a b c) y = x * dot6 f y + dot6 g y := by
  rw [dot6_eq, dot6_eq, dot6_eq, ← sum6_mul, ← sum6_add]
  exact sum6_congr fun i j k a b c => by ring

private theorem upair_list {X : Type*} (t : UTarget) (l : List X) (n : X → K) (p : X → o₁ → o₁ → K) (q : X → o₂ → o₂ → K) (r : X → o₃ → o₃ → K)
    (x y : T6 o₁ o₂ o₃ v₁ v₂ v₃ K) :
    (l.map fun z => n z * uPair t (p z) (q z) (r z) x y).sum = uPair t (fun i j => (l.map fun z => n z * p z i j).sum)
      (fun i j => (l.map fun z => n z * q z i j).sum) (fun i j => (l.map fun z => n z * r z i j).sum) x y := by
  cases t with
  | w =>
    exact list_usym l n p q r x (fun t => dot6 t y) fun c f g => lin_left c f g y
  | r =>
    exact list_usym l n p q r y (fun t => dot6 x t) fun c f g => by
      rw [dot6_comm, lin_left, dot6_comm f, dot6_comm g]

theorem part_list {X : Type*} (t : UTarget) (early : Bool) (l : List X) (n : X → K) (p : X → o₁ → o₁ → K) (q : X → o₂ → o₂ → K) (r : X → o₃ → o₃ → K)
    (u w d : T6 o₁ o₂ o₃ v₁ v₂ v₃ K) :
    (l.map fun z => n z * part t early (p z) (q z) (r z) u w d).sum = part t early (fun i j => (l.map fun z => n z * p z i j).sum)
      (fun i j => (l.map fun z => n z * q z i j).sum) (fun i j => (l.map fun z => n z * r z i j).sum) u w d := by
  unfold part
  cases early
  · exact upair_list t l n p q r _ _
  · exact upair_list t l n p q r _ _

end

section
variable {oa ob va vb : Type} [Fintype oa] [Fintype ob] [Fintype va] [Fintype vb]

theorem parts_list {X : Type*} (h : UHam oa ob va vb K) (t : UTarget) (l : List X) (n : X → K) (pa : X → oa → oa → K) (pb : X → ob → ob → K) :
    (l.map fun z => n z * h.parts t (pa z) (pb z)).sum = h.parts t (fun i j => (l.map fun z => n z * pa z i j).sum) (fun i j => (l.map fun z => n z * pb z i j).sum) := by
  unfold UHam.parts
  rw [← part_list, ← part_list, ← part_list, ← part_list, ← List.sum_map_mul_left, ← List.sum_map_mul_left, ← List.sum_map_mul_left, ← List.sum_map_mul_left,
    ← List.sum_map_add, ← List.sum_map_add, ← List.sum_map_add]
  exact congrArg List.sum (List.map_congr_left fun z _ => by ring)

end

/-! ## Rotated spin orbitals -/

section
variable {O V o v : Type} [Fintype O] [Fintype V] [Fintype o] [Fintype v] {h : Ham O V K} {h' : Ham o v K} {ro : O → o → K} {rv : V → v → K}

private theorem R6_r6 (t : T6 O O O V V V K) : r6 (R6 ro rv t) = R6 ro rv (r6 t) := by
  funext i j k a b c
  have e : R6 ro rv (r6 t) i j k a b c = R6 ro rv t i j k a b c + R6 ro rv (fun i j k a b c => t j k i a b c) i j k a b c +
      R6 ro rv (fun i j k a b c => t k i j a b c) i j k a b c - R6 ro rv (fun i j k a b c => t k j i a b c) i j k a b c -
      R6 ro rv (fun i j k a b c => t i k j a b c) i j k a b c - R6 ro rv (fun i j k a b c => t j i k a b c) i j k a b c := by
    unfold R6
    rw [← rot6_add, ← rot6_add, ← rot6_sub, ← rot6_sub, ← rot6_sub]
    rfl
  rw [e, occ_12 ro rv t, occ_23 ro rv t, occ_231 ro rv t, occ_312 ro rv t, occ_13 ro rv t]
  rfl

private theorem uw_w6 (h : Ham O V K) : p6 h.uw = pairSum h.w6 := by
  funext i j k a b c
  unfold p6 pairSum Ham.uw Ham.w6 Ham.getW
  simp only [mul_comm (h.ovvv _ _ _ _), mul_comm (h.ovoo _ _ _ _)]
  ring

/-- The Fock matrix halved. -/
private def halved {o v : Type} (h : Ham o v K) : Ham o v K := { h with fvo := fun a i => h.fvo a i * (1 / 2) }

private theorem halved_rot (H : Rotated h h' ro rv) : Rotated (halved h) (halved h') ro rv where
  t1 := H.t1
  t2 := H.t2
  fvo := fun a i => by
    show h'.fvo a i * (1 / 2) = ∑ A, rv A a * ∑ I, ro I i * (h.fvo A I * (1 / 2))
    rw [H.fvo, Finset.sum_mul]
    refine Finset.sum_congr rfl fun A _ => ?_
    rw [mul_assoc, Finset.sum_mul]
    exact congrArg (rv A a * ·) (Finset.sum_congr rfl fun I _ => mul_assoc _ _ _)
  ovvv := H.ovvv
  ovoo := H.ovoo
  ovov := H.ovov
  eo := H.eo
  ev := H.ev

private theorem uv_v6 (h : Ham O V K) : p6 h.uv = pairSum fun i j k a b c => (halved h).getV a b c i j k := by
  funext i j k a b c
  unfold p6 pairSum Ham.uv Ham.getV halved
  ring

variable [DecidableEq O] [DecidableEq V]

theorem soConn_rot [CharZero K] (H : Rotated h h' ro rv) (ho : mm ro (tp ro) = delta) (hv : mm rv (tp rv) = delta) (ha : h.Anti) (ha' : h'.Anti) :
    h'.soConn = R6 ro rv h.soConn := by
  have e : ∀ {O V : Type} [Fintype O] [Fintype V] (h : Ham O V K), h.Anti → h.soConn = fun i j k a b c => 1 / 2 * r6 (pairSum h.w6) i j k a b c := by
    intro O V _ _ h ha
    funext i j k a b c
    rw [← uw_w6, soConn_eq h ha]
    ring
  rw [e h' ha', e h ha, w6_rot H ho hv, R6_pairSum, R6_r6]
  funext i j k a b c
  exact (rot6_mul ro ro ro rv rv rv (1 / 2) (r6 (pairSum h.w6)) i j k a b c).symm

theorem soDisc_rot [CharZero K] (H : Rotated h h' ro rv) (ha : h.Anti) (ha' : h'.Anti) : h'.soDisc = R6 ro rv h.soDisc := by
  have e : ∀ {O V : Type} [Fintype O] [Fintype V] (h : Ham O V K), h.Anti →
      h.soDisc = fun i j k a b c => 1 / 2 * r6 (pairSum fun i j k a b c => (halved h).getV a b c i j k) i j k a b c := by
    intro O V _ _ h ha
    funext i j k a b c
    rw [← uv_v6, soDisc_eq h ha]
    ring
  rw [e h' ha', e h ha, v6_rot (halved_rot H), R6_pairSum, R6_r6]
  funext i j k a b c
  exact (rot6_mul ro ro ro rv rv rv (1 / 2) (r6 (pairSum fun i j k a b c => (halved h).getV a b c i j k)) i j k a b c).symm

theorem soAll_rot [CharZero K] (H : Rotated h h' ro rv) (ho : mm ro (tp ro) = delta) (hv : mm rv (tp rv) = delta) (ha : h.Anti) (ha' : h'.Anti) :
    h'.soAll = R6 ro rv h.soAll := by
  unfold Ham.soAll
  rw [soConn_rot H ho hv ha ha', soDisc_rot H ha ha']
  funext i j k a b c
  exact (rot6_add ro ro ro rv rv rv h.soConn h.soDisc i j k a b c).symm

end

/-! ## Blocks -/

section
variable {O₁ O₂ O₃ V₁ V₂ V₃ o₁ o₂ o₃ v₁ v₂ v₃ : Type} [Fintype O₁] [Fintype O₂] [Fintype O₃] [Fintype V₁] [Fintype V₂] [Fintype V₃]
  [Fintype o₁] [Fintype o₂] [Fintype o₃] [Fintype v₁] [Fintype v₂] [Fintype v₃]

private theorem rot6_nested (r₁ : O₁ → o₁ → K) (r₂ : O₂ → o₂ → K) (r₃ : O₃ → o₃ → K) (w₁ : V₁ → v₁ → K) (w₂ : V₂ → v₂ → K) (w₃ : V₃ → v₃ → K)
    (t : T6 O₁ O₂ O₃ V₁ V₂ V₃ K) (i : o₁) (j : o₂) (k : o₃) (a : v₁) (b : v₂) (c : v₃) :
    rot6 r₁ r₂ r₃ w₁ w₂ w₃ t i j k a b c = ∑ I, r₁ I i * ∑ J, r₂ J j * ∑ L, r₃ L k * ∑ A, w₁ A a * ∑ B, w₂ B b * ∑ C, w₃ C c * t I J L A B C := by
  unfold rot6 sum6
  simp only [Finset.mul_sum]
  exact Finset.sum_congr rfl fun I _ => Finset.sum_congr rfl fun J _ => Finset.sum_congr rfl fun L _ => Finset.sum_congr rfl fun A _ =>
    Finset.sum_congr rfl fun B _ => Finset.sum_congr rfl fun C _ => by ring

/-- A block of a rotation. -/
private def Emb {X Y x y : Type} [Fintype X] [Fintype Y] (R : X → x → K) (r : Y → y → K) (F : Y → X) (f : y → x) : Prop :=
  ∀ (i : y) (g : X → K), ∑ z, R z (f i) * g z = ∑ z, r z i * g (F z)

variable {O V o v : Type} [Fintype O] [Fintype V] [Fintype o] [Fintype v]

private theorem blk_rot {R : O → o → K} {W : V → v → K} {r₁ : O₁ → o₁ → K} {r₂ : O₂ → o₂ → K} {r₃ : O₃ → o₃ → K} {w₁ : V₁ → v₁ → K} {w₂ : V₂ → v₂ → K} {w₃ : V₃ → v₃ → K}
    {F₁ : O₁ → O} {F₂ : O₂ → O} {F₃ : O₃ → O} {G₁ : V₁ → V} {G₂ : V₂ → V} {G₃ : V₃ → V} {f₁ : o₁ → o} {f₂ : o₂ → o} {f₃ : o₃ → o} {g₁ : v₁ → v} {g₂ : v₂ → v} {g₃ : v₃ → v}
    (h₁ : Emb R r₁ F₁ f₁) (h₂ : Emb R r₂ F₂ f₂) (h₃ : Emb R r₃ F₃ f₃) (k₁ : Emb W w₁ G₁ g₁) (k₂ : Emb W w₂ G₂ g₂) (k₃ : Emb W w₃ G₃ g₃) (t : T6 O O O V V V K) :
    blk f₁ f₂ f₃ g₁ g₂ g₃ (R6 R W t) = rot6 r₁ r₂ r₃ w₁ w₂ w₃ (blk F₁ F₂ F₃ G₁ G₂ G₃ t) := by
  funext i j k a b c
  show R6 R W t (f₁ i) (f₂ j) (f₃ k) (g₁ a) (g₂ b) (g₃ c) = _
  unfold R6
  rw [rot6_nested, rot6_nested]
  refine (h₁ i _).trans (Finset.sum_congr rfl fun I _ => congrArg (r₁ I i * ·) ?_)
  refine (h₂ j _).trans (Finset.sum_congr rfl fun J _ => congrArg (r₂ J j * ·) ?_)
  refine (h₃ k _).trans (Finset.sum_congr rfl fun L _ => congrArg (r₃ L k * ·) ?_)
  refine (k₁ a _).trans (Finset.sum_congr rfl fun A _ => congrArg (w₁ A a * ·) ?_)
  refine (k₂ b _).trans (Finset.sum_congr rfl fun B _ => congrArg (w₂ B b * ·) ?_)
  exact k₃ c _

private theorem part_rot [DecidableEq O₁] [DecidableEq O₂] [DecidableEq O₃] [DecidableEq V₁] [DecidableEq V₂] [DecidableEq V₃] {r₁ : O₁ → o₁ → K} {r₂ : O₂ → o₂ → K} {r₃ : O₃ → o₃ → K} {w₁ : V₁ → v₁ → K} {w₂ : V₂ → v₂ → K} {w₃ : V₃ → v₃ → K}
    (h₁ : mm r₁ (tp r₁) = delta) (h₂ : mm r₂ (tp r₂) = delta) (h₃ : mm r₃ (tp r₃) = delta) (k₁ : mm w₁ (tp w₁) = delta) (k₂ : mm w₂ (tp w₂) = delta)
    (k₃ : mm w₃ (tp w₃) = delta) (t : UTarget) (early : Bool) (p : O₁ → O₁ → K) (q : O₂ → O₂ → K) (r : O₃ → O₃ → K) (u w d : T6 O₁ O₂ O₃ V₁ V₂ V₃ K)
    (d' : T6 o₁ o₂ o₃ v₁ v₂ v₃ K)
    (hd : ∀ i j k a b c I J L A B C, r₁ I i ≠ 0 → r₂ J j ≠ 0 → r₃ L k ≠ 0 → w₁ A a ≠ 0 → w₂ B b ≠ 0 → w₃ C c ≠ 0 → d I J L A B C = d' i j k a b c) :
    part t early (mm (tp r₁) (mm p r₁)) (mm (tp r₂) (mm q r₂)) (mm (tp r₃) (mm r r₃)) (rot6 r₁ r₂ r₃ w₁ w₂ w₃ u) (rot6 r₁ r₂ r₃ w₁ w₂ w₃ w) d' =
      part t early p q r u w d := by
  have e : ∀ f : T6 O₁ O₂ O₃ V₁ V₂ V₃ K, (fun i j k a b c => rot6 r₁ r₂ r₃ w₁ w₂ w₃ f i j k a b c / d' i j k a b c) =
      rot6 r₁ r₂ r₃ w₁ w₂ w₃ fun i j k a b c => f i j k a b c / d i j k a b c := by
    intro f
    funext i j k a b c
    exact (rot6_div d d' f i j k a b c (hd i j k a b c)).symm
  have e2 : ∀ x y : T6 O₁ O₂ O₃ V₁ V₂ V₃ K, uPair t (mm (tp r₁) (mm p r₁)) (mm (tp r₂) (mm q r₂)) (mm (tp r₃) (mm r r₃)) (rot6 r₁ r₂ r₃ w₁ w₂ w₃ x)
      (rot6 r₁ r₂ r₃ w₁ w₂ w₃ y) = uPair t p q r x y := by
    intro x y
    cases t with
    | w =>
      show dot6 (usymProj _ _ _ _) _ = _
      rw [usym_rot h₁ h₂ h₃]
      exact sum6_rot h₁ h₂ h₃ k₁ k₂ k₃ _ _
    | r =>
      show dot6 _ (usymProj _ _ _ _) = _
      rw [usym_rot h₁ h₂ h₃]
      exact sum6_rot h₁ h₂ h₃ k₁ k₂ k₃ _ _
  unfold part
  cases early
  · simp only [Bool.false_eq_true, if_false]
    rw [e, e2]
  · simp only [if_true]
    rw [e, e2]

end

/-! ## Spin blocks -/

section
variable {Oa Ob Va Vb oa ob va vb : Type} [Fintype Oa] [Fintype Ob] [Fintype Va] [Fintype Vb] [Fintype oa] [Fintype ob] [Fintype va] [Fintype vb]

private theorem emb_a {X Y x y : Type} [Fintype X] [Fintype Y] (ra : X → x → K) (rb : Y → y → K) : Emb (spin2 ra rb) ra Sum.inl Sum.inl := by
  intro i g
  rw [Fintype.sum_sum_type]
  simp only [spin2, zero_mul, Finset.sum_const_zero, add_zero]

private theorem emb_b {X Y x y : Type} [Fintype X] [Fintype Y] (ra : X → x → K) (rb : Y → y → K) : Emb (spin2 ra rb) rb Sum.inr Sum.inr := by
  intro i g
  rw [Fintype.sum_sum_type]
  simp only [spin2, zero_mul, Finset.sum_const_zero, zero_add]

private theorem spin2_span [DecidableEq Oa] [DecidableEq Ob] (ra : Oa → oa → K) (rb : Ob → ob → K) (ha : mm ra (tp ra) = delta) (hb : mm rb (tp rb) = delta) :
    mm (spin2 ra rb) (tp (spin2 ra rb)) = delta := by
  funext i j
  unfold mm tp
  rw [Fintype.sum_sum_type]
  rcases i with i | i <;> rcases j with j | j <;> simp only [spin2, zero_mul, mul_zero, Finset.sum_const_zero, zero_add, add_zero]
  · refine (congrFun (congrFun ha i) j).trans ?_
    simp [delta]
  · simp [delta]
  · simp [delta]
  · refine (congrFun (congrFun hb i) j).trans ?_
    simp [delta]

variable {h : UHam Oa Ob Va Vb K} {h' : UHam oa ob va vb K} {roa : Oa → oa → K} {rob : Ob → ob → K} {rva : Va → va → K} {rvb : Vb → vb → K}

/-- Exchange of both pairs of axes. -/
private theorem rot4_pairs {M₁ M₂ M₃ M₄ m₁ m₂ m₃ m₄ : Type} [Fintype M₁] [Fintype M₂] [Fintype M₃] [Fintype M₄] (r₁ : M₁ → m₁ → K) (r₂ : M₂ → m₂ → K) (r₃ : M₃ → m₃ → K)
    (r₄ : M₄ → m₄ → K) (g : M₁ → M₂ → M₃ → M₄ → K) (i : m₁) (j : m₂) (k : m₃) (l : m₄) :
    rot4 r₁ r₂ r₃ r₄ g i j k l = rot4 r₃ r₄ r₁ r₂ (fun k l i j => g i j k l) k l i j := by
  rw [rot4_3, rot4_eq]
  refine Finset.sum_congr rfl fun L _ => congrArg (r₃ L k * ·) ?_
  have e : ∀ I, ∑ J, r₂ J j * ∑ N, r₄ N l * g I J L N = ∑ N, r₄ N l * ∑ J, r₂ J j * g I J L N := fun I => sum_swap _ _ _
  simp only [e]
  exact sum_swap _ _ _

private theorem rot4_swap12 {M₁ M₂ M₃ M₄ m₁ m₂ m₃ m₄ : Type} [Fintype M₁] [Fintype M₂] [Fintype M₃] [Fintype M₄] (r₁ : M₁ → m₁ → K) (r₂ : M₂ → m₂ → K) (r₃ : M₃ → m₃ → K)
    (r₄ : M₄ → m₄ → K) (g : M₁ → M₂ → M₃ → M₄ → K) (i : m₁) (j : m₂) (k : m₃) (l : m₄) :
    rot4 r₁ r₂ r₃ r₄ g i j k l = rot4 r₂ r₁ r₃ r₄ (fun j i k l => g i j k l) j i k l := by
  rw [rot4_2, rot4_eq]

private theorem rot4_swap34 {M₁ M₂ M₃ M₄ m₁ m₂ m₃ m₄ : Type} [Fintype M₁] [Fintype M₂] [Fintype M₃] [Fintype M₄] (r₁ : M₁ → m₁ → K) (r₂ : M₂ → m₂ → K) (r₃ : M₃ → m₃ → K)
    (r₄ : M₄ → m₄ → K) (g : M₁ → M₂ → M₃ → M₄ → K) (i : m₁) (j : m₂) (k : m₃) (l : m₄) :
    rot4 r₁ r₂ r₃ r₄ g i j k l = rot4 r₁ r₂ r₄ r₃ (fun i j l k => g i j k l) i j l k := by
  rw [rot4_eq, rot4_eq]
  exact Finset.sum_congr rfl fun I _ => congrArg (r₁ I i * ·) (Finset.sum_congr rfl fun J _ => congrArg (r₂ J j * ·) (sum_swap _ _ _))

private theorem rot4_neg {M₁ M₂ M₃ M₄ m₁ m₂ m₃ m₄ : Type} [Fintype M₁] [Fintype M₂] [Fintype M₃] [Fintype M₄] (r₁ : M₁ → m₁ → K) (r₂ : M₂ → m₂ → K) (r₃ : M₃ → m₃ → K)
    (r₄ : M₄ → m₄ → K) (g : M₁ → M₂ → M₃ → M₄ → K) (i : m₁) (j : m₂) (k : m₃) (l : m₄) :
    rot4 r₁ r₂ r₃ r₄ (fun i j k l => -g i j k l) i j k l = -rot4 r₁ r₂ r₃ r₄ g i j k l := by
  rw [rot4_eq, rot4_eq]
  simp only [mul_neg, Finset.sum_neg_distrib]

private theorem rot4_anti {O V o v : Type} [Fintype O] [Fintype V] (t : T2 O O V V K) (H : ∀ i j a b, t j i a b = -t i j a b ∧ t i j b a = -t i j a b) (r : O → o → K)
    (w : V → v → K) (i j : o) (a b : v) : rot4 r r w w t j i a b = -rot4 r r w w t i j a b ∧ rot4 r r w w t i j b a = -rot4 r r w w t i j a b := by
  constructor
  · rw [rot4_swap12, ← rot4_neg]
    refine congrArg (fun f => rot4 r r w w f i j a b) ?_
    funext i j a b
    exact (H i j a b).1
  · rw [rot4_swap34, ← rot4_neg]
    refine congrArg (fun f => rot4 r r w w f i j a b) ?_
    funext i j a b
    exact (H i j a b).2

private theorem rot4_ov {O V o v : Type} [Fintype O] [Fintype V] (t : O → V → O → V → K) (H : ∀ i a j b, t j b i a = t i a j b) (r : O → o → K)
    (w : V → v → K) (i j : o) (a b : v) : rot4 r w r w t j b i a = rot4 r w r w t i a j b := by
  rw [rot4_pairs]
  refine congrArg (fun f => rot4 r w r w f i a j b) ?_
  funext i a j b
  exact H i a j b

private theorem rot4_sym34 {M₁ M₂ M₃ m₁ m₂ m₃ : Type} [Fintype M₁] [Fintype M₂] [Fintype M₃] (r₁ : M₁ → m₁ → K) (r₂ : M₂ → m₂ → K) (r₃ : M₃ → m₃ → K)
    (g : M₁ → M₂ → M₃ → M₃ → K) (H : ∀ i j k l, g i j l k = g i j k l) (i : m₁) (j : m₂) (k l : m₃) : rot4 r₁ r₂ r₃ r₃ g i j l k = rot4 r₁ r₂ r₃ r₃ g i j k l := by
  rw [rot4_swap34]
  refine congrArg (fun f => rot4 r₁ r₂ r₃ r₃ f i j k l) ?_
  funext i j k l
  exact H i j k l

private theorem rot4_emb {M₁ M₂ M₃ M₄ m₁ m₂ m₃ m₄ N₁ N₂ N₃ N₄ n₁ n₂ n₃ n₄ : Type} [Fintype M₁] [Fintype M₂] [Fintype M₃] [Fintype M₄] [Fintype N₁] [Fintype N₂] [Fintype N₃] [Fintype N₄]
    {R₁ : M₁ → m₁ → K} {R₂ : M₂ → m₂ → K} {R₃ : M₃ → m₃ → K} {R₄ : M₄ → m₄ → K} {r₁ : N₁ → n₁ → K} {r₂ : N₂ → n₂ → K} {r₃ : N₃ → n₃ → K} {r₄ : N₄ → n₄ → K}
    {F₁ : N₁ → M₁} {F₂ : N₂ → M₂} {F₃ : N₃ → M₃} {F₄ : N₄ → M₄} {f₁ : n₁ → m₁} {f₂ : n₂ → m₂} {f₃ : n₃ → m₃} {f₄ : n₄ → m₄}
    (h₁ : Emb R₁ r₁ F₁ f₁) (h₂ : Emb R₂ r₂ F₂ f₂) (h₃ : Emb R₃ r₃ F₃ f₃) (h₄ : Emb R₄ r₄ F₄ f₄) (g : M₁ → M₂ → M₃ → M₄ → K) (i : n₁) (j : n₂) (k : n₃) (l : n₄) :
    rot4 R₁ R₂ R₃ R₄ g (f₁ i) (f₂ j) (f₃ k) (f₄ l) = rot4 r₁ r₂ r₃ r₄ (fun I J L N => g (F₁ I) (F₂ J) (F₃ L) (F₄ N)) i j k l := by
  rw [rot4_eq, rot4_eq]
  refine (h₁ i _).trans (Finset.sum_congr rfl fun I _ => congrArg (r₁ I i * ·) ?_)
  refine (h₂ j _).trans (Finset.sum_congr rfl fun J _ => congrArg (r₂ J j * ·) ?_)
  refine (h₃ k _).trans (Finset.sum_congr rfl fun L _ => congrArg (r₃ L k * ·) ?_)
  exact h₄ l _

private theorem rot4_zero {M₁ M₂ M₃ M₄ m₁ m₂ m₃ m₄ : Type} [Fintype M₁] [Fintype M₂] [Fintype M₃] [Fintype M₄] (r₁ : M₁ → m₁ → K) (r₂ : M₂ → m₂ → K) (r₃ : M₃ → m₃ → K)
    (r₄ : M₄ → m₄ → K) (i : m₁) (j : m₂) (k : m₃) (l : m₄) : rot4 r₁ r₂ r₃ r₄ (fun _ _ _ _ => (0 : K)) i j k l = 0 := by
  rw [rot4_eq]
  simp only [mul_zero, Finset.sum_const_zero]

private theorem spin_rot4 {M M' N N' P P' Q Q' m m' n n' p p' q q' : Type} [Fintype M] [Fintype M'] [Fintype N] [Fintype N'] [Fintype P] [Fintype P'] [Fintype Q] [Fintype Q']
    (r₁ : M → m → K) (r₁' : M' → m' → K) (r₂ : N → n → K) (r₂' : N' → n' → K) (r₃ : P → p → K) (r₃' : P' → p' → K) (r₄ : Q → q → K) (r₄' : Q' → q' → K)
    (aa : M → N → P → Q → K) (ab : M → N → P' → Q' → K) (ba : M' → N' → P → Q → K) (bb : M' → N' → P' → Q' → K) :
    spin4 (rot4 r₁ r₂ r₃ r₄ aa) (rot4 r₁ r₂ r₃' r₄' ab) (rot4 r₁' r₂' r₃ r₄ ba) (rot4 r₁' r₂' r₃' r₄' bb) =
      rot4 (spin2 r₁ r₁') (spin2 r₂ r₂') (spin2 r₃ r₃') (spin2 r₄ r₄') (spin4 aa ab ba bb) := by
  funext i j k l
  rcases i with i | i <;> rcases j with j | j <;> rcases k with k | k <;> rcases l with l | l
  · refine Eq.symm ((rot4_emb (emb_a r₁ r₁') (emb_a r₂ r₂') (emb_a r₃ r₃') (emb_a r₄ r₄') _ i j k l).trans ?_)
    exact rfl
  · refine Eq.symm ((rot4_emb (emb_a r₁ r₁') (emb_a r₂ r₂') (emb_a r₃ r₃') (emb_b r₄ r₄') _ i j k l).trans ?_)
    exact rot4_zero _ _ _ _ i j k l
  · refine Eq.symm ((rot4_emb (emb_a r₁ r₁') (emb_a r₂ r₂') (emb_b r₃ r₃') (emb_a r₄ r₄') _ i j k l).trans ?_)
    exact rot4_zero _ _ _ _ i j k l
  · refine Eq.symm ((rot4_emb (emb_a r₁ r₁') (emb_a r₂ r₂') (emb_b r₃ r₃') (emb_b r₄ r₄') _ i j k l).trans ?_)
    exact rfl
  · refine Eq.symm ((rot4_emb (emb_a r₁ r₁') (emb_b r₂ r₂') (emb_a r₃ r₃') (emb_a r₄ r₄') _ i j k l).trans ?_)
    exact rot4_zero _ _ _ _ i j k l
  · refine Eq.symm ((rot4_emb (emb_a r₁ r₁') (emb_b r₂ r₂') (emb_a r₃ r₃') (emb_b r₄ r₄') _ i j k l).trans ?_)
    exact rot4_zero _ _ _ _ i j k l
  · refine Eq.symm ((rot4_emb (emb_a r₁ r₁') (emb_b r₂ r₂') (emb_b r₃ r₃') (emb_a r₄ r₄') _ i j k l).trans ?_)
    exact rot4_zero _ _ _ _ i j k l
  · refine Eq.symm ((rot4_emb (emb_a r₁ r₁') (emb_b r₂ r₂') (emb_b r₃ r₃') (emb_b r₄ r₄') _ i j k l).trans ?_)
    exact rot4_zero _ _ _ _ i j k l
  · refine Eq.symm ((rot4_emb (emb_b r₁ r₁') (emb_a r₂ r₂') (emb_a r₃ r₃') (emb_a r₄ r₄') _ i j k l).trans ?_)
    exact rot4_zero _ _ _ _ i j k l
  · refine Eq.symm ((rot4_emb (emb_b r₁ r₁') (emb_a r₂ r₂') (emb_a r₃ r₃') (emb_b r₄ r₄') _ i j k l).trans ?_)
    exact rot4_zero _ _ _ _ i j k l
  · refine Eq.symm ((rot4_emb (emb_b r₁ r₁') (emb_a r₂ r₂') (emb_b r₃ r₃') (emb_a r₄ r₄') _ i j k l).trans ?_)
    exact rot4_zero _ _ _ _ i j k l
  · refine Eq.symm ((rot4_emb (emb_b r₁ r₁') (emb_a r₂ r₂') (emb_b r₃ r₃') (emb_b r₄ r₄') _ i j k l).trans ?_)
    exact rot4_zero _ _ _ _ i j k l
  · refine Eq.symm ((rot4_emb (emb_b r₁ r₁') (emb_b r₂ r₂') (emb_a r₃ r₃') (emb_a r₄ r₄') _ i j k l).trans ?_)
    exact rfl
  · refine Eq.symm ((rot4_emb (emb_b r₁ r₁') (emb_b r₂ r₂') (emb_a r₃ r₃') (emb_b r₄ r₄') _ i j k l).trans ?_)
    exact rot4_zero _ _ _ _ i j k l
  · refine Eq.symm ((rot4_emb (emb_b r₁ r₁') (emb_b r₂ r₂') (emb_b r₃ r₃') (emb_a r₄ r₄') _ i j k l).trans ?_)
    exact rot4_zero _ _ _ _ i j k l
  · refine Eq.symm ((rot4_emb (emb_b r₁ r₁') (emb_b r₂ r₂') (emb_b r₃ r₃') (emb_b r₄ r₄') _ i j k l).trans ?_)
    exact rfl

private theorem spinT2_rot4 (aa : T2 Oa Oa Va Va K) (ab : T2 Oa Ob Va Vb K) (bb : T2 Ob Ob Vb Vb K) (roa : Oa → oa → K) (rob : Ob → ob → K) (rva : Va → va → K)
    (rvb : Vb → vb → K) : spinT2 (rot4 roa roa rva rva aa) (rot4 roa rob rva rvb ab) (rot4 rob rob rvb rvb bb) =
      rot4 (spin2 roa rob) (spin2 roa rob) (spin2 rva rvb) (spin2 rva rvb) (spinT2 aa ab bb) := by
  funext i j k l
  rcases i with i | i <;> rcases j with j | j <;> rcases k with k | k <;> rcases l with l | l
  · refine Eq.symm ((rot4_emb (emb_a roa rob) (emb_a roa rob) (emb_a rva rvb) (emb_a rva rvb) _ i j k l).trans ?_)
    exact rfl
  · refine Eq.symm ((rot4_emb (emb_a roa rob) (emb_a roa rob) (emb_a rva rvb) (emb_b rva rvb) _ i j k l).trans ?_)
    exact rot4_zero _ _ _ _ i j k l
  · refine Eq.symm ((rot4_emb (emb_a roa rob) (emb_a roa rob) (emb_b rva rvb) (emb_a rva rvb) _ i j k l).trans ?_)
    exact rot4_zero _ _ _ _ i j k l
  · refine Eq.symm ((rot4_emb (emb_a roa rob) (emb_a roa rob) (emb_b rva rvb) (emb_b rva rvb) _ i j k l).trans ?_)
    exact rot4_zero _ _ _ _ i j k l
  · refine Eq.symm ((rot4_emb (emb_a roa rob) (emb_b roa rob) (emb_a rva rvb) (emb_a rva rvb) _ i j k l).trans ?_)
    exact rot4_zero _ _ _ _ i j k l
  · refine Eq.symm ((rot4_emb (emb_a roa rob) (emb_b roa rob) (emb_a rva rvb) (emb_b rva rvb) _ i j k l).trans ?_)
    exact rfl
  · refine Eq.symm ((rot4_emb (emb_a roa rob) (emb_b roa rob) (emb_b rva rvb) (emb_a rva rvb) _ i j k l).trans ?_)
    exact (rot4_neg roa rob rvb rva (fun I J B A => ab I J A B) i j k l).trans (congrArg Neg.neg (rot4_swap34 roa rob rva rvb ab i j l k).symm)
  · refine Eq.symm ((rot4_emb (emb_a roa rob) (emb_b roa rob) (emb_b rva rvb) (emb_b rva rvb) _ i j k l).trans ?_)
    exact rot4_zero _ _ _ _ i j k l
  · refine Eq.symm ((rot4_emb (emb_b roa rob) (emb_a roa rob) (emb_a rva rvb) (emb_a rva rvb) _ i j k l).trans ?_)
    exact rot4_zero _ _ _ _ i j k l
  · refine Eq.symm ((rot4_emb (emb_b roa rob) (emb_a roa rob) (emb_a rva rvb) (emb_b rva rvb) _ i j k l).trans ?_)
    exact (rot4_neg rob roa rva rvb (fun J I A B => ab I J A B) i j k l).trans (congrArg Neg.neg (rot4_swap12 roa rob rva rvb ab j i k l).symm)
  · refine Eq.symm ((rot4_emb (emb_b roa rob) (emb_a roa rob) (emb_b rva rvb) (emb_a rva rvb) _ i j k l).trans ?_)
    exact ((rot4_swap12 roa rob rva rvb ab j i l k).trans (rot4_swap34 rob roa rva rvb (fun J I A B => ab I J A B) i j l k)).symm
  · refine Eq.symm ((rot4_emb (emb_b roa rob) (emb_a roa rob) (emb_b rva rvb) (emb_b rva rvb) _ i j k l).trans ?_)
    exact rot4_zero _ _ _ _ i j k l
  · refine Eq.symm ((rot4_emb (emb_b roa rob) (emb_b roa rob) (emb_a rva rvb) (emb_a rva rvb) _ i j k l).trans ?_)
    exact rot4_zero _ _ _ _ i j k l
  · refine Eq.symm ((rot4_emb (emb_b roa rob) (emb_b roa rob) (emb_a rva rvb) (emb_b rva rvb) _ i j k l).trans ?_)
    exact rot4_zero _ _ _ _ i j k l
  · refine Eq.symm ((rot4_emb (emb_b roa rob) (emb_b roa rob) (emb_b rva rvb) (emb_a rva rvb) _ i j k l).trans ?_)
    exact rot4_zero _ _ _ _ i j k l
  · refine Eq.symm ((rot4_emb (emb_b roa rob) (emb_b roa rob) (emb_b rva rvb) (emb_b rva rvb) _ i j k l).trans ?_)
    exact rfl

theorem real_rot (H : URotated h h' roa rob rva rvb) (hr : h.Real) : h'.Real where
  aa := fun i j a b => by rw [H.t2aa]; exact rot4_anti h.t2aa hr.aa roa rva i j a b
  bb := fun i j a b => by rw [H.t2bb]; exact rot4_anti h.t2bb hr.bb rob rvb i j a b
  ovov := fun i a j b => by rw [H.ovov]; exact rot4_ov h.ovov hr.ovov roa rva i j a b
  OVOV := fun i a j b => by rw [H.OVOV]; exact rot4_ov h.OVOV hr.OVOV rob rvb i j a b
  ovoo := fun i a j k => by rw [H.ovoo]; exact rot4_sym34 roa rva roa h.ovoo hr.ovoo i a j k
  OVOO := fun i a j k => by rw [H.OVOO]; exact rot4_sym34 rob rvb rob h.OVOO hr.OVOO i a j k
  ovOO := fun i a j k => by rw [H.ovOO]; exact rot4_sym34 roa rva rob h.ovOO hr.ovOO i a j k
  OVoo := fun i a j k => by rw [H.OVoo]; exact rot4_sym34 rob rvb roa h.OVoo hr.OVoo i a j k

theorem so_rotated (H : URotated h h' roa rob rva rvb) : Rotated h.so h'.so (spin2 roa rob) (spin2 rva rvb) where
  t1 := fun i a => by
    show spin2 h'.t1a h'.t1b i a = ∑ I, spin2 roa rob I i * ∑ A, spin2 rva rvb A a * spin2 h.t1a h.t1b I A
    rcases i with i | i <;> rcases a with a | a <;>
      simp only [Fintype.sum_sum_type, spin2, zero_mul, mul_zero, Finset.sum_const_zero, zero_add, add_zero, H.t1a, H.t1b]
  t2 := by
    show spinT2 h'.t2aa h'.t2ab h'.t2bb = _
    rw [H.t2aa, H.t2ab, H.t2bb, spinT2_rot4]
    rfl
  fvo := fun a i => by
    show spin2 h'.fvo h'.fVO a i = ∑ A, spin2 rva rvb A a * ∑ I, spin2 roa rob I i * spin2 h.fvo h.fVO A I
    rcases i with i | i <;> rcases a with a | a <;>
      simp only [Fintype.sum_sum_type, spin2, zero_mul, mul_zero, Finset.sum_const_zero, zero_add, add_zero, H.fvo, H.fVO]
  ovvv := by
    show spin4 h'.ovvv h'.ovVV h'.OVvv h'.OVVV = _
    rw [H.ovvv, H.ovVV, H.OVvv, H.OVVV, spin_rot4]
    rfl
  ovoo := by
    show spin4 h'.ovoo h'.ovOO h'.OVoo h'.OVOO = _
    rw [H.ovoo, H.ovOO, H.OVoo, H.OVOO, spin_rot4]
    rfl
  ovov := by
    show spin4 h'.ovov h'.ovOV (fun i a j b => h'.ovOV j b i a) h'.OVOV = _
    have e : (fun i a j b => h'.ovOV j b i a) = rot4 rob rvb roa rva fun i a j b => h.ovOV j b i a := by
      funext i a j b
      rw [H.ovOV]
      exact rot4_pairs roa rva rob rvb h.ovOV j b i a
    rw [e, H.ovov, H.ovOV, H.OVOV, spin_rot4]
    rfl
  eo := fun I i hI => by
    rcases I with I | I <;> rcases i with i | i
    · exact H.eoa I i hI
    · exact absurd rfl hI
    · exact absurd rfl hI
    · exact H.eob I i hI
  ev := fun I i hI => by
    rcases I with I | I <;> rcases i with i | i
    · exact H.eva I i hI
    · exact absurd rfl hI
    · exact absurd rfl hI
    · exact H.evb I i hI

variable [DecidableEq Oa] [DecidableEq Ob] [DecidableEq Va] [DecidableEq Vb]

theorem parts_rot [CharZero K] (H : URotated h h' roa rob rva rvb) (hoa : mm roa (tp roa) = delta) (hob : mm rob (tp rob) = delta) (hva : mm rva (tp rva) = delta)
    (hvb : mm rvb (tp rvb) = delta) (hr : h.Real) (t : UTarget) (pa : Oa → Oa → K) (pb : Ob → Ob → K) :
    h'.parts t (mm (tp roa) (mm pa roa)) (mm (tp rob) (mm pb rob)) = h.parts t pa pb := by
  have R := so_rotated H
  have hr' := real_rot H hr
  have ho := spin2_span roa rob hoa hob
  have hv := spin2_span rva rvb hva hvb
  have ea := emb_a roa rob
  have eb := emb_b roa rob
  have fa := emb_a rva rvb
  have fb := emb_b rva rvb
  unfold UHam.parts
  rw [soConn_rot R ho hv (so_anti h hr) (so_anti h' hr'), soAll_rot R ho hv (so_anti h hr) (so_anti h' hr')]
  rw [blk_rot ea ea ea fa fa fa, blk_rot ea ea ea fa fa fa, blk_rot eb eb eb fb fb fb, blk_rot eb eb eb fb fb fb, blk_rot eb ea ea fb fa fa, blk_rot eb ea ea fb fa fa,
    blk_rot ea eb eb fa fb fb, blk_rot ea eb eb fa fb fb]
  rw [part_rot hoa hoa hoa hva hva hva t true pa pa pa _ _ (blk .inl .inl .inl .inl .inl .inl h.so.den), part_rot hob hob hob hvb hvb hvb t true pb pb pb _ _ (blk .inr .inr .inr .inr .inr .inr h.so.den),
    part_rot hob hoa hoa hvb hva hva t false pb pa pa _ _ (blk .inr .inl .inl .inr .inl .inl h.so.den), part_rot hoa hob hob hva hvb hvb t false pa pb pb _ _ (blk .inl .inr .inr .inl .inr .inr h.so.den)]
  · intro i j k a b c I J L A B C h1 h2 h3 h4 h5 h6
    show h.eoa I + h.eob J + h.eob L - h.eva A - h.evb B - h.evb C = h'.eoa i + h'.eob j + h'.eob k - h'.eva a - h'.evb b - h'.evb c
    rw [H.eoa I i h1, H.eob J j h2, H.eob L k h3, H.eva A a h4, H.evb B b h5, H.evb C c h6]
  · intro i j k a b c I J L A B C h1 h2 h3 h4 h5 h6
    show h.eob I + h.eoa J + h.eoa L - h.evb A - h.eva B - h.eva C = h'.eob i + h'.eoa j + h'.eoa k - h'.evb a - h'.eva b - h'.eva c
    rw [H.eob I i h1, H.eoa J j h2, H.eoa L k h3, H.evb A a h4, H.eva B b h5, H.eva C c h6]
  · intro i j k a b c I J L A B C h1 h2 h3 h4 h5 h6
    show h.eob I + h.eob J + h.eob L - h.evb A - h.evb B - h.evb C = h'.eob i + h'.eob j + h'.eob k - h'.evb a - h'.evb b - h'.evb c
    rw [H.eob I i h1, H.eob J j h2, H.eob L k h3, H.evb A a h4, H.evb B b h5, H.evb C c h6]
  · intro i j k a b c I J L A B C h1 h2 h3 h4 h5 h6
    show h.eoa I + h.eoa J + h.eoa L - h.eva A - h.eva B - h.eva C = h'.eoa i + h'.eoa j + h'.eoa k - h'.eva a - h'.eva b - h'.eva c
    rw [H.eoa I i h1, H.eoa J j h2, H.eoa L k h3, H.eva A a h4, H.eva B b h5, H.eva C c h6]

end

end Vayesta.CcsdT
