import Verif.Lemmas.CcsdTRot

/-! The triples energy in rotated orbitals. -/

set_option linter.unusedSectionVars false

namespace Vayesta.CcsdT
open Vayesta.Amplitudes Vayesta.Tensor

variable {K : Type} [Field K]

section
variable {O₁ O₂ O₃ V₁ V₂ V₃ : Type} [Fintype O₁] [Fintype O₂] [Fintype O₃] [Fintype V₁] [Fintype V₂] [Fintype V₃]

theorem sum6_sum {F : Type} [Fintype F] (f : F → T6 O₁ O₂ O₃ V₁ V₂ V₃ K) : sum6 (fun i j k a b c => ∑ x, f x i j k a b c) = ∑ x, sum6 (f x) := by
  unfold sum6
  have h := Fintype.sum_equiv (⟨fun x => (x.2.2.2.2.2.2, x.1, x.2.1, x.2.2.1, x.2.2.2.1, x.2.2.2.2.1, x.2.2.2.2.2.1),
    fun x => (x.2.1, x.2.2.1, x.2.2.2.1, x.2.2.2.2.1, x.2.2.2.2.2.1, x.2.2.2.2.2.2, x.1), fun _ => rfl, fun _ => rfl⟩ :
      O₁ × O₂ × O₃ × V₁ × V₂ × V₃ × F ≃ F × O₁ × O₂ × O₃ × V₁ × V₂ × V₃)
    (fun x => f x.2.2.2.2.2.2 x.1 x.2.1 x.2.2.1 x.2.2.2.1 x.2.2.2.2.1 x.2.2.2.2.2.1)
    (fun x => f x.1 x.2.1 x.2.2.1 x.2.2.2.1 x.2.2.2.2.1 x.2.2.2.2.2.1 x.2.2.2.2.2.2) fun _ => rfl
  simpa only [Fintype.sum_prod_type] using h

end

section
variable {M₁ M₂ M₃ M₄ m₁ m₂ m₃ m₄ : Type} [Fintype M₁] [Fintype M₂] [Fintype M₃] [Fintype M₄] (r₁ : M₁ → m₁ → K) (r₂ : M₂ → m₂ → K) (r₃ : M₃ → m₃ → K)
    (r₄ : M₄ → m₄ → K) (g : M₁ → M₂ → M₃ → M₄ → K) (i : m₁) (j : m₂) (k : m₃) (l : m₄)

theorem rot4_eq : rot4 r₁ r₂ r₃ r₄ g i j k l = ∑ I, r₁ I i * ∑ J, r₂ J j * ∑ L, r₃ L k * ∑ N, r₄ N l * g I J L N := rfl

theorem rot4_1 : rot4 r₁ r₂ r₃ r₄ g i j k l = ∑ I, r₁ I i * ∑ J, r₂ J j * ∑ L, r₃ L k * ∑ N, r₄ N l * g I J L N := rfl

theorem rot4_2 : rot4 r₁ r₂ r₃ r₄ g i j k l = ∑ J, r₂ J j * ∑ I, r₁ I i * ∑ L, r₃ L k * ∑ N, r₄ N l * g I J L N := by
  unfold rot4
  rw [← L2_L1]
  rfl

theorem rot4_3 : rot4 r₁ r₂ r₃ r₄ g i j k l = ∑ L, r₃ L k * ∑ I, r₁ I i * ∑ J, r₂ J j * ∑ N, r₄ N l * g I J L N := by
  unfold rot4
  rw [← L3_L2, ← L3_L1]
  rfl

theorem rot4_4 : rot4 r₁ r₂ r₃ r₄ g i j k l = ∑ N, r₄ N l * ∑ I, r₁ I i * ∑ J, r₂ J j * ∑ L, r₃ L k * g I J L N := by
  unfold rot4
  rw [← L4_L3, ← L4_L2, ← L4_L1]
  rfl

end

section
variable {O V o v : Type} [Fintype O] [Fintype V] [Fintype o] [Fintype v]

variable {h : Ham O V K} {h' : Ham o v K} {ro : O → o → K} {rv : V → v → K}

private theorem prodA (p : O → V → V → K) (q : O → O → V → K) (i j k : o) (a b c : v) :
    sum6 (fun I J L A B C => ro I i * ro J j * ro L k * (rv A a * rv B b * rv C c) * (p I A B * q L J C)) =
      (∑ I, ro I i * ∑ A, rv A a * ∑ B, rv B b * p I A B) * ∑ L, ro L k * ∑ J, ro J j * ∑ C, rv C c * q L J C := by
  rw [← sum6_occ23]
  simp only [Finset.mul_sum]
  rw [sum6_congr (g := fun I L J A B C => (ro I i * (rv A a * (rv B b * p I A B))) * (ro L k * (ro J j * (rv C c * q L J C)))) fun I L J A B C => by ring]
  unfold sum6
  simp only [← Finset.mul_sum, ← Finset.sum_mul]

private theorem prodB (p : O → V → O → K) (q : O → V → V → K) (i j k : o) (a b c : v) :
    sum6 (fun I J L A B C => ro I i * ro J j * ro L k * (rv A a * rv B b * rv C c) * (p I A J * q L B C)) =
      (∑ I, ro I i * ∑ A, rv A a * ∑ J, ro J j * p I A J) * ∑ L, ro L k * ∑ B, rv B b * ∑ C, rv C c * q L B C := by
  have e : ∀ I : O, ∑ A, rv A a * ∑ J, ro J j * p I A J = ∑ J, ro J j * ∑ A, rv A a * p I A J := fun I => sum_swap _ _ _
  simp only [e]
  simp only [Finset.mul_sum]
  rw [sum6_congr (g := fun I J L A B C => (ro I i * (ro J j * (rv A a * p I A J))) * (ro L k * (rv B b * (rv C c * q L B C)))) fun I L J A B C => by ring]
  unfold sum6
  simp only [← Finset.mul_sum, ← Finset.sum_mul]

private theorem prodC (p : O → V → O → V → K) (q : O → V → K) (i j k : o) (a b c : v) :
    sum6 (fun I J L A B C => ro I i * ro J j * ro L k * (rv A a * rv B b * rv C c) * (p I A J B * q L C)) =
      (∑ I, ro I i * ∑ A, rv A a * ∑ J, ro J j * ∑ B, rv B b * p I A J B) * ∑ L, ro L k * ∑ C, rv C c * q L C := by
  have e : ∀ I : O, ∑ A, rv A a * ∑ J, ro J j * ∑ B, rv B b * p I A J B = ∑ J, ro J j * ∑ A, rv A a * ∑ B, rv B b * p I A J B := fun I => sum_swap _ _ _
  simp only [e]
  simp only [Finset.mul_sum]
  rw [sum6_congr (g := fun I J L A B C => (ro I i * (ro J j * (rv A a * (rv B b * p I A J B)))) * (ro L k * (rv C c * q L C))) fun I L J A B C => by ring]
  unfold sum6
  simp only [← Finset.mul_sum, ← Finset.sum_mul]

theorem w6_rot [DecidableEq O] [DecidableEq V] (H : Rotated h h' ro rv) (ho : mm ro (tp ro) = delta) (hv : mm rv (tp rv) = delta) : h'.w6 = R6 ro rv h.w6 := by
  funext i j k a b c
  show (∑ f, h'.ovvv i a f b * h'.t2 k j c f) - (∑ m, h'.ovoo i a j m * h'.t2 m k b c) = _
  have e1 : ∑ f, h'.ovvv i a f b * h'.t2 k j c f = R6 ro rv (fun i j k a b c => ∑ f, h.ovvv i a f b * h.t2 k j c f) i j k a b c := by
    have : ∀ f, h'.ovvv i a f b * h'.t2 k j c f = (∑ F, rv F f * ∑ I, ro I i * ∑ A, rv A a * ∑ B, rv B b * h.ovvv I A F B) *
        ∑ F, rv F f * ∑ L, ro L k * ∑ J, ro J j * ∑ C, rv C c * h.t2 L J C F := by
      intro f
      rw [H.ovvv, H.t2, rot4_3, rot4_4]
    simp only [this]
    rw [dot_rot rv hv]
    unfold R6 rot6
    simp only [Finset.mul_sum (s := (Finset.univ : Finset V))]
    rw [sum6_sum]
    refine Finset.sum_congr rfl fun F _ => ?_
    simp only [← Finset.mul_sum]
    exact (prodA (fun I A B => h.ovvv I A F B) (fun L J C => h.t2 L J C F) i j k a b c).symm
  have e2 : ∑ m, h'.ovoo i a j m * h'.t2 m k b c = R6 ro rv (fun i j k a b c => ∑ m, h.ovoo i a j m * h.t2 m k b c) i j k a b c := by
    have : ∀ m, h'.ovoo i a j m * h'.t2 m k b c = (∑ M, ro M m * ∑ I, ro I i * ∑ A, rv A a * ∑ J, ro J j * h.ovoo I A J M) *
        ∑ M, ro M m * ∑ L, ro L k * ∑ B, rv B b * ∑ C, rv C c * h.t2 M L B C := by
      intro f
      rw [H.ovoo, H.t2, rot4_4, rot4_1]
    simp only [this]
    rw [dot_rot ro ho]
    unfold R6 rot6
    simp only [Finset.mul_sum (s := (Finset.univ : Finset O))]
    rw [sum6_sum]
    refine Finset.sum_congr rfl fun M _ => ?_
    simp only [← Finset.mul_sum]
    exact (prodB (fun I A J => h.ovoo I A J M) (fun L B C => h.t2 M L B C) i j k a b c).symm
  rw [e1, e2]
  unfold R6
  rw [← rot6_sub]
  rfl

theorem v6_rot (H : Rotated h h' ro rv) : (fun i j k a b c => h'.getV a b c i j k) = R6 ro rv fun i j k a b c => h.getV a b c i j k := by
  funext i j k a b c
  show h'.ovov i a j b * h'.t1 k c + h'.t2 i j a b * h'.fvo c k = _
  have e1 : h'.ovov i a j b * h'.t1 k c = R6 ro rv (fun i j k a b c => h.ovov i a j b * h.t1 k c) i j k a b c := by
    rw [H.ovov, H.t1, rot4_eq]
    exact (prodC (fun I A J B => h.ovov I A J B) h.t1 i j k a b c).symm
  have e2 : h'.t2 i j a b * h'.fvo c k = R6 ro rv (fun i j k a b c => h.t2 i j a b * h.fvo c k) i j k a b c := by
    rw [H.t2, H.fvo, rot4_eq]
    have := prodC (ro := ro) (rv := rv) (fun I A J B => h.t2 I J A B) (fun L C => h.fvo C L) i j k a b c
    have x1 : ∑ C, rv C c * ∑ L, ro L k * h.fvo C L = ∑ L, ro L k * ∑ C, rv C c * h.fvo C L := sum_swap _ _ _
    have x2 : ∀ I, ∑ J, ro J j * ∑ A, rv A a * ∑ B, rv B b * h.t2 I J A B = ∑ A, rv A a * ∑ J, ro J j * ∑ B, rv B b * h.t2 I J A B := fun I => sum_swap _ _ _
    rw [x1]
    simp only [x2]
    exact this.symm
  rw [e1, e2]
  unfold R6
  rw [← rot6_add]
  rfl

theorem z6_eq (h : Ham O V K) : h.z6 = fun i j k a b c => occR h.u6 i j k a b c / h.den i j k a b c := rfl

theorem z6_rot [DecidableEq O] [DecidableEq V] (H : Rotated h h' ro rv) (ho : mm ro (tp ro) = delta) (hv : mm rv (tp rv) = delta) : h'.z6 = R6 ro rv h.z6 := by
  have eu : h'.u6 = R6 ro rv h.u6 := by
    funext i j k a b c
    have e1 := congrFun (congrFun (congrFun (congrFun (congrFun (congrFun (w6_rot H ho hv) i) j) k) a) b) c
    have e2 := congrFun (congrFun (congrFun (congrFun (congrFun (congrFun (v6_rot H) i) j) k) a) b) c
    show h'.w6 i j k a b c + 1 / 2 * h'.getV a b c i j k = _
    rw [e1, show h'.getV a b c i j k = _ from e2]
    unfold R6
    rw [← rot6_mul, ← rot6_add]
    rfl
  rw [z6_eq, z6_eq, eu, R6_occR]
  funext i j k a b c
  refine (rot6_div h.den h'.den (occR h.u6) i j k a b c fun I J L A B C h1 h2 h3 h4 h5 h6 => ?_).symm
  unfold Ham.den
  rw [H.eo I i h1, H.eo J j h2, H.eo L k h3, H.ev A a h4, H.ev B b h5, H.ev C c h6]

/-- The projected energy as a sum over all triples. -/
def Ham.projected (h : Ham O V K) (q : O → O → K) : Target → K
  | .w => 2 * sum6 fun i j k a b c => pairSum (usymProj q q q h.w6) i j k a b c * h.z6 i j k a b c
  | .z => 2 * sum6 fun i j k a b c => pairSum h.w6 i j k a b c * usymProj q q q h.z6 i j k a b c

theorem energy_projected [CharZero K] [LinearOrder V] (h : Ham O V K) (q : O → O → K) (p : Target) : h.energy q p = h.projected q p := by
  cases p with
  | w => exact energy_w h q
  | z => exact energy_z h q

/-- The projected energies in rotated orbitals. -/
theorem projected_rot [DecidableEq O] [DecidableEq V] (H : Rotated h h' ro rv) (ho : mm ro (tp ro) = delta)
    (hv : mm rv (tp rv) = delta) (q : O → O → K) (p : Target) : h'.projected (mm (tp ro) (mm q ro)) p = h.projected q p := by
  cases p with
  | w =>
    unfold Ham.projected
    rw [w6_rot H ho hv, z6_rot H ho hv]
    have e := usym_rot (w₁ := rv) (w₂ := rv) (w₃ := rv) ho ho ho q q q h.w6
    rw [show usymProj (mm (tp ro) (mm q ro)) (mm (tp ro) (mm q ro)) (mm (tp ro) (mm q ro)) (R6 ro rv h.w6) = R6 ro rv (usymProj q q q h.w6) from e, R6_pairSum]
    exact congrArg (2 * ·) (sum6_rot ho ho ho hv hv hv (pairSum (usymProj q q q h.w6)) h.z6)
  | z =>
    unfold Ham.projected
    rw [w6_rot H ho hv, z6_rot H ho hv]
    have e := usym_rot (w₁ := rv) (w₂ := rv) (w₃ := rv) ho ho ho q q q h.z6
    rw [show usymProj (mm (tp ro) (mm q ro)) (mm (tp ro) (mm q ro)) (mm (tp ro) (mm q ro)) (R6 ro rv h.z6) = R6 ro rv (usymProj q q q h.z6) from e, R6_pairSum]
    exact congrArg (2 * ·) (sum6_rot ho ho ho hv hv hv (pairSum h.w6) (usymProj q q q h.z6))

theorem projected_delta [CharZero K] [DecidableEq O] (h : Ham O V K) (hr : h.Real) (p : Target) : h.projected delta p = h.triplesEnergy := by
  cases p with
  | w =>
    unfold Ham.projected
    rw [usym_delta]
    exact unprojected h hr
  | z =>
    have e : usymProj delta delta delta h.z6 = h.z6 := usym_delta h.z6
    show 2 * sum6 (fun i j k a b c => pairSum h.w6 i j k a b c * usymProj delta delta delta h.z6 i j k a b c) = _
    rw [e]
    exact unprojected h hr

private theorem lin_right (w : T6 O O O V V V K) (x : K) (f g : T6 O O O V V V K) :
    2 * sum6 (fun i j k a b c => w i j k a b c * (x * f i j k a b c + g i j k a b c)) =
      x * (2 * sum6 fun i j k a b c => w i j k a b c * f i j k a b c) + 2 * sum6 fun i j k a b c => w i j k a b c * g i j k a b c := by
  rw [mul_left_comm x, ← mul_add, ← sum6_mul x, ← sum6_add]
  exact congrArg (2 * ·) (sum6_congr fun i j k a b c => by ring)

private theorem lin_left (z : T6 O O O V V V K) (x : K) (f g : T6 O O O V V V K) :
    2 * sum6 (fun i j k a b c => pairSum (fun i j k a b c => x * f i j k a b c + g i j k a b c) i j k a b c * z i j k a b c) =
      x * (2 * sum6 fun i j k a b c => pairSum f i j k a b c * z i j k a b c) + 2 * sum6 fun i j k a b c => pairSum g i j k a b c * z i j k a b c := by
  rw [mul_left_comm x, ← mul_add, ← sum6_mul x, ← sum6_add]
  exact congrArg (2 * ·) (sum6_congr fun i j k a b c => by unfold pairSum; ring)

theorem projected_list {X : Type*} (h : Ham O V K) (p : Target) (l : List X) (n : X → K) (q : X → O → O → K) :
    (l.map fun x => n x * h.projected (q x) p).sum = h.projected (fun i j => (l.map fun x => n x * q x i j).sum) p := by
  cases p with
  | w => exact list_usym l n q q q h.w6 (fun t => 2 * sum6 fun i j k a b c => pairSum t i j k a b c * h.z6 i j k a b c) (lin_left h.z6)
  | z => exact list_usym l n q q q h.z6 (fun t => 2 * sum6 fun i j k a b c => pairSum h.w6 i j k a b c * t i j k a b c) (lin_right (pairSum h.w6))

end

/-! ## Clusters -/

section
variable {ι o v : Type} [Fintype ι] [Fintype o] [Fintype v]

theorem trafo_rot4 {M₁ M₂ M₃ M₄ m₁ m₂ m₃ m₄ : Type} [Fintype M₁] [Fintype M₂] [Fintype M₃] [Fintype M₄] (g : ι → ι → ι → ι → K)
    (c₁ : ι → M₁ → K) (c₂ : ι → M₂ → K) (c₃ : ι → M₃ → K) (c₄ : ι → M₄ → K) (r₁ : M₁ → m₁ → K) (r₂ : M₂ → m₂ → K) (r₃ : M₃ → m₃ → K) (r₄ : M₄ → m₄ → K) :
    trafo g (mm c₁ r₁) (mm c₂ r₂) (mm c₃ r₃) (mm c₄ r₄) = rot4 r₁ r₂ r₃ r₄ (trafo g c₁ c₂ c₃ c₄) := by
  unfold trafo rot4
  simp only [tp_mm, ← L1_L1, ← L2_L2, ← L3_L3, ← L4_L4]
  simp only [L4_L1, L4_L2, L4_L3, L3_L1, L3_L2, L2_L1]

theorem restrict2_rot4 {co cv : Type} (ro : o → co → K) (rv : v → cv → K) (t : T2 o o v v K) : EwfEnergy.restrict2 ro rv t = rot4 ro ro rv rv t := by
  funext k l d e
  rw [rot4_eq]
  unfold EwfEnergy.restrict2
  simp only [Finset.mul_sum]
  exact Finset.sum_congr rfl fun _ _ => Finset.sum_congr rfl fun _ _ => Finset.sum_congr rfl fun _ _ => Finset.sum_congr rfl fun _ _ => by ring

/-- Diagonal Fock matrices in both sets of orbitals: rotations only mix orbitals with equal energy. -/
theorem canonical_energies {M m : Type} [Fintype M] [Fintype m] [DecidableEq M] (f : M → M → K) (hf : ∀ i j, i ≠ j → f i j = 0) (r : M → m → K)
    (hr : mm r (tp r) = delta) (f' : m → m → K) (hf' : f' = mm (tp r) (mm f r)) (hd : ∀ i j, i ≠ j → f' i j = 0) (I : M) (i : m) (h : r I i ≠ 0) : f I I = f' i i := by
  have e : mm r f' = mm f r := by rw [hf', ← mm_assoc, hr, delta_mm]
  have e1 : mm r f' I i = r I i * f' i i := by
    unfold mm
    rw [Finset.sum_eq_single i]
    · intro b _ hb
      rw [hd b i hb, mul_zero]
    · intro hh; exact absurd (Finset.mem_univ _) hh
  have e2 : mm f r I i = f I I * r I i := by
    unfold mm
    rw [Finset.sum_eq_single I]
    · intro b _ hb
      rw [hf I b (Ne.symm hb), zero_mul]
    · intro hh; exact absurd (Finset.mem_univ _) hh
  have := congrFun (congrFun e I) i
  rw [e1, e2] at this
  have h2 : (f I I - f' i i) * r I i = 0 := by rw [sub_mul, ← this]; ring
  rcases mul_eq_zero.mp h2 with h3 | h3
  · exact sub_eq_zero.mp h3
  · exact absurd h3 h

variable [DecidableEq o] [DecidableEq v]

/-- The input of an exact cluster is that of the whole system in rotated orbitals. -/
theorem exact_rotated (s : Sys ι o v K) (hco : Canonical s s.moOcc) (hcv : Canonical s s.moVir) (t1 : T1 o v K) (t2 : T2 o o v v K) (x : Frag ι K)
    (ro : o → x.co → K) (rv : v → x.cv → K) (h : Exact s t1 t2 x ro rv) : Rotated (s.mos t1 t2) (s.ham x.cOcc x.cVir x.t1 x.t2) ro rv := by
  have hF : ∀ {M N m n : Type} [Fintype M] [Fintype N] (c : ι → M → K) (d : ι → N → K) (r : M → m → K) (w : N → n → K),
      mm (tp (mm c r)) (mm s.fock (mm d w)) = mm (tp r) (mm (mm (tp c) (mm s.fock d)) w) := by
    intro M N m n _ _ c d r w
    simp only [tp_mm, mm_assoc]
  refine ⟨?_, ?_, ?_, ?_, ?_, ?_, ?_, ?_⟩
  · intro i a
    show x.t1 i a = _
    rw [h.t1]
    unfold EwfEnergy.restrict1
    simp only [Finset.mul_sum]
    exact Finset.sum_congr rfl fun _ _ => Finset.sum_congr rfl fun _ _ => mul_assoc _ _ _
  · show x.t2 = _
    rw [h.t2, restrict2_rot4]
    rfl
  · intro a i
    show mm (tp x.cVir) (mm s.fock x.cOcc) a i = _
    rw [h.occ, h.vir, hF]
    show ∑ A, tp rv a A * ∑ I, mm (tp s.moVir) (mm s.fock s.moOcc) A I * ro I i = ∑ A, rv A a * ∑ I, ro I i * mm (tp s.moVir) (mm s.fock s.moOcc) A I
    refine Finset.sum_congr rfl fun A _ => ?_
    refine congrArg (tp rv a A * ·) (Finset.sum_congr rfl fun I _ => mul_comm _ _)
  · show trafo s.eri x.cOcc x.cVir x.cVir x.cVir = _
    rw [h.occ, h.vir, trafo_rot4]
    rfl
  · show trafo s.eri x.cOcc x.cVir x.cOcc x.cOcc = _
    rw [h.occ, h.vir, trafo_rot4]
    rfl
  · show trafo s.eri x.cOcc x.cVir x.cOcc x.cVir = _
    rw [h.occ, h.vir, trafo_rot4]
    rfl
  · intro I i hI
    exact canonical_energies (mm (tp s.moOcc) (mm s.fock s.moOcc)) hco ro h.spanOcc (mm (tp x.cOcc) (mm s.fock x.cOcc)) (by rw [h.occ, hF]) h.canOcc I i hI
  · intro A a hA
    exact canonical_energies (mm (tp s.moVir) (mm s.fock s.moVir)) hcv rv h.spanVir (mm (tp x.cVir) (mm s.fock x.cVir)) (by rw [h.vir, hF]) h.canVir A a hA

/-- The projector of a fragment in molecular orbitals. -/
def Frag.weight (s : Sys ι o v K) (x : Frag ι K) : o → o → K := fun i j =>
  ∑ y, mm (tp s.moOcc) (mm s.ovlp x.cFrag) i y * mm (tp s.moOcc) (mm s.ovlp x.cFrag) j y

theorem cfc_rot (s : Sys ι o v K) (x : Frag ι K) (ro : o → x.co → K) (h : x.cOcc = mm s.moOcc ro) : x.cfc s = mm (tp ro) (mm (x.weight s) ro) := by
  show mm (mm (tp x.cOcc) (mm s.ovlp x.cFrag)) (tp (mm (tp x.cOcc) (mm s.ovlp x.cFrag))) = _
  have e : x.weight s = mm (mm (tp s.moOcc) (mm s.ovlp x.cFrag)) (tp (mm (tp s.moOcc) (mm s.ovlp x.cFrag))) := rfl
  rw [e, h]
  simp only [tp_mm, mm_assoc, tp_tp]

theorem mos_real (s : Sys ι o v K) (hg : RealIntegrals s.eri) (t1 : T1 o v K) (t2 : T2 o o v v K) (ht : ∀ i j a b, t2 j i b a = t2 i j a b) :
    (s.mos t1 t2).Real where
  ovvv := fun i a b c => by
    show trafo s.eri s.moOcc s.moVir s.moVir s.moVir i a c b = trafo s.eri s.moOcc s.moVir s.moVir s.moVir i a b c
    have e : (fun p q r t => s.eri p q t r) = s.eri := by funext p q r t; exact hg.real p q r t
    show L1 (tp s.moOcc) (L2 (tp s.moVir) (L3 (tp s.moVir) (L4 (tp s.moVir) s.eri))) i a c b = L1 (tp s.moOcc) (L2 (tp s.moVir) (L3 (tp s.moVir) (L4 (tp s.moVir) s.eri))) i a b c
    conv_rhs => rw [← e, ← L4_L3]
    rfl
  ovov := fun i a j b => by
    show rot4 s.moOcc s.moVir s.moOcc s.moVir s.eri j b i a = rot4 s.moOcc s.moVir s.moOcc s.moVir s.eri i a j b
    rw [rot4_eq, rot4_eq]
    simp only [Finset.mul_sum]
    have h := Fintype.sum_equiv (⟨fun x => (x.2.2.1, x.2.2.2, x.1, x.2.1), fun x => (x.2.2.1, x.2.2.2, x.1, x.2.1), fun _ => rfl, fun _ => rfl⟩ :
      ι × ι × ι × ι ≃ ι × ι × ι × ι) (fun x => s.moOcc x.1 j * (s.moVir x.2.1 b * (s.moOcc x.2.2.1 i * (s.moVir x.2.2.2 a * s.eri x.1 x.2.1 x.2.2.1 x.2.2.2))))
      (fun x => s.moOcc x.1 i * (s.moVir x.2.1 a * (s.moOcc x.2.2.1 j * (s.moVir x.2.2.2 b * s.eri x.1 x.2.1 x.2.2.1 x.2.2.2)))) fun x => by
        dsimp only [Equiv.coe_fn_mk]
        rw [hg.swap x.1 x.2.1 x.2.2.1 x.2.2.2]
        ring
    simpa only [Fintype.sum_prod_type] using h
  t2 := ht

end

end Vayesta.CcsdT
