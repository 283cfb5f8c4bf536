import Verif.Lemmas.CcsdTFormula

/-! Arrays with six axes in rotated orbitals. -/

set_option linter.unusedSectionVars false

namespace Vayesta.CcsdT
open Vayesta.Amplitudes Vayesta.Tensor

variable {K : Type} [Field K]

section
variable {O₁ O₂ O₃ V₁ V₂ V₃ o₁ o₂ o₃ v₁ v₂ v₃ : Type} [Fintype O₁] [Fintype O₂] [Fintype O₃] [Fintype V₁] [Fintype V₂] [Fintype V₃]
  [Fintype o₁] [Fintype o₂] [Fintype o₃] [Fintype v₁] [Fintype v₂] [Fintype v₃]

/-- All six axes rotated. -/
def rot6 (r₁ : O₁ → o₁ → K) (r₂ : O₂ → o₂ → K) (r₃ : O₃ → o₃ → K) (w₁ : V₁ → v₁ → K) (w₂ : V₂ → v₂ → K) (w₃ : V₃ → v₃ → K) (t : T6 O₁ O₂ O₃ V₁ V₂ V₃ K) :
    T6 o₁ o₂ o₃ v₁ v₂ v₃ K := fun i j k a b c =>
  sum6 fun I J L A B C => r₁ I i * r₂ J j * r₃ L k * (w₁ A a * w₂ B b * w₃ C c) * t I J L A B C

variable (r₁ : O₁ → o₁ → K) (r₂ : O₂ → o₂ → K) (r₃ : O₃ → o₃ → K) (w₁ : V₁ → v₁ → K) (w₂ : V₂ → v₂ → K) (w₃ : V₃ → v₃ → K)

theorem rot6_lin (x : K) (f g : T6 O₁ O₂ O₃ V₁ V₂ V₃ K) (i : o₁) (j : o₂) (k : o₃) (a : v₁) (b : v₂) (c : v₃) :
    rot6 r₁ r₂ r₃ w₁ w₂ w₃ (fun i j k a b c => x * f i j k a b c + g i j k a b c) i j k a b c =
      x * rot6 r₁ r₂ r₃ w₁ w₂ w₃ f i j k a b c + rot6 r₁ r₂ r₃ w₁ w₂ w₃ g i j k a b c := by
  unfold rot6
  rw [← sum6_mul, ← sum6_add]
  exact sum6_congr fun I J L A B C => by ring

theorem rot6_add (f g : T6 O₁ O₂ O₃ V₁ V₂ V₃ K) (i : o₁) (j : o₂) (k : o₃) (a : v₁) (b : v₂) (c : v₃) :
    rot6 r₁ r₂ r₃ w₁ w₂ w₃ (fun i j k a b c => f i j k a b c + g i j k a b c) i j k a b c =
      rot6 r₁ r₂ r₃ w₁ w₂ w₃ f i j k a b c + rot6 r₁ r₂ r₃ w₁ w₂ w₃ g i j k a b c := by
  have := rot6_lin r₁ r₂ r₃ w₁ w₂ w₃ 1 f g i j k a b c
  simpa only [one_mul] using this

theorem rot6_sub (f g : T6 O₁ O₂ O₃ V₁ V₂ V₃ K) (i : o₁) (j : o₂) (k : o₃) (a : v₁) (b : v₂) (c : v₃) :
    rot6 r₁ r₂ r₃ w₁ w₂ w₃ (fun i j k a b c => f i j k a b c - g i j k a b c) i j k a b c =
      rot6 r₁ r₂ r₃ w₁ w₂ w₃ f i j k a b c - rot6 r₁ r₂ r₃ w₁ w₂ w₃ g i j k a b c := by
  have := rot6_lin r₁ r₂ r₃ w₁ w₂ w₃ (-1) g f i j k a b c
  have e : (fun i j k a b c => f i j k a b c - g i j k a b c) = fun i j k a b c => -1 * g i j k a b c + f i j k a b c := by
    funext i j k a b c; ring
  rw [e, this]
  ring

theorem rot6_mul (x : K) (f : T6 O₁ O₂ O₃ V₁ V₂ V₃ K) (i : o₁) (j : o₂) (k : o₃) (a : v₁) (b : v₂) (c : v₃) :
    rot6 r₁ r₂ r₃ w₁ w₂ w₃ (fun i j k a b c => x * f i j k a b c) i j k a b c = x * rot6 r₁ r₂ r₃ w₁ w₂ w₃ f i j k a b c := by
  unfold rot6
  rw [← sum6_mul]
  exact sum6_congr fun I J L A B C => by ring

/-- Exchange of the first two axes. -/
theorem rot6_swap12 (f : T6 O₁ O₂ O₃ V₁ V₂ V₃ K) (i : o₁) (j : o₂) (k : o₃) (a : v₁) (b : v₂) (c : v₃) :
    rot6 r₂ r₁ r₃ w₁ w₂ w₃ (fun j i k a b c => f i j k a b c) j i k a b c = rot6 r₁ r₂ r₃ w₁ w₂ w₃ f i j k a b c := by
  unfold rot6
  rw [← sum6_occ12]
  exact sum6_congr fun I J L A B C => by ring

theorem rot6_swap23 (f : T6 O₁ O₂ O₃ V₁ V₂ V₃ K) (i : o₁) (j : o₂) (k : o₃) (a : v₁) (b : v₂) (c : v₃) :
    rot6 r₁ r₃ r₂ w₁ w₂ w₃ (fun i k j a b c => f i j k a b c) i k j a b c = rot6 r₁ r₂ r₃ w₁ w₂ w₃ f i j k a b c := by
  unfold rot6
  rw [← sum6_occ23]
  exact sum6_congr fun I J L A B C => by ring

theorem rot6_swap45 (f : T6 O₁ O₂ O₃ V₁ V₂ V₃ K) (i : o₁) (j : o₂) (k : o₃) (a : v₁) (b : v₂) (c : v₃) :
    rot6 r₁ r₂ r₃ w₂ w₁ w₃ (fun i j k b a c => f i j k a b c) i j k b a c = rot6 r₁ r₂ r₃ w₁ w₂ w₃ f i j k a b c := by
  unfold rot6
  rw [← sum6_vir12]
  exact sum6_congr fun I J L A B C => by ring

theorem rot6_swap56 (f : T6 O₁ O₂ O₃ V₁ V₂ V₃ K) (i : o₁) (j : o₂) (k : o₃) (a : v₁) (b : v₂) (c : v₃) :
    rot6 r₁ r₂ r₃ w₁ w₃ w₂ (fun i j k a c b => f i j k a b c) i j k a c b = rot6 r₁ r₂ r₃ w₁ w₂ w₃ f i j k a b c := by
  unfold rot6
  rw [← sum6_vir23]
  exact sum6_congr fun I J L A B C => by ring

/-! ## Scalar products -/

theorem dot_rot {F f : Type} [Fintype F] [Fintype f] [DecidableEq F] (w : F → f → K) (hw : mm w (tp w) = delta) (G H : F → K) :
    ∑ x, (∑ X, w X x * G X) * (∑ X, w X x * H X) = ∑ X, G X * H X := by
  have e : ∀ X, ∑ x, w X x * ∑ Y, w Y x * H Y = H X := fun X => by
    have h := sum_mm (w X) (fun x Y => w Y x) H
    have h2 : ∀ Y, ∑ x, w X x * w Y x = delta X Y := fun Y => congrFun (congrFun hw X) Y
    simp only [h2] at h
    exact h.trans (sum_delta X H)
  calc ∑ x, (∑ X, w X x * G X) * (∑ X, w X x * H X) = ∑ x, ∑ X, G X * (w X x * ∑ X, w X x * H X) := by
        refine Finset.sum_congr rfl fun x _ => ?_
        rw [Finset.sum_mul]
        exact Finset.sum_congr rfl fun X _ => by ring
    _ = ∑ X, G X * ∑ x, w X x * ∑ Y, w Y x * H Y := by
        rw [Finset.sum_comm]
        simp only [Finset.mul_sum]
    _ = _ := by simp only [e]

variable {r₁ r₂ r₃ w₁ w₂ w₃}

/-- Rotations that preserve scalar products. -/
theorem sum6_rot [DecidableEq O₁] [DecidableEq O₂] [DecidableEq O₃] [DecidableEq V₁] [DecidableEq V₂] [DecidableEq V₃]
    (h₁ : mm r₁ (tp r₁) = delta) (h₂ : mm r₂ (tp r₂) = delta) (h₃ : mm r₃ (tp r₃) = delta) (k₁ : mm w₁ (tp w₁) = delta) (k₂ : mm w₂ (tp w₂) = delta)
    (k₃ : mm w₃ (tp w₃) = delta) (f g : T6 O₁ O₂ O₃ V₁ V₂ V₃ K) :
    sum6 (fun i j k a b c => rot6 r₁ r₂ r₃ w₁ w₂ w₃ f i j k a b c * rot6 r₁ r₂ r₃ w₁ w₂ w₃ g i j k a b c) =
      sum6 fun i j k a b c => f i j k a b c * g i j k a b c := by
  have e : ∀ (f : T6 O₁ O₂ O₃ V₁ V₂ V₃ K) i j k a b c, rot6 r₁ r₂ r₃ w₁ w₂ w₃ f i j k a b c =
      ∑ C, w₃ C c * ∑ B, w₂ B b * ∑ A, w₁ A a * ∑ L, r₃ L k * ∑ J, r₂ J j * ∑ I, r₁ I i * f I J L A B C := by
    intro f i j k a b c
    have e1 : ∀ (F : O₁ → O₂ → O₃ → V₁ → V₂ → V₃ → K), sum6 F = ∑ C, ∑ B, ∑ A, ∑ L, ∑ J, ∑ I, F I J L A B C := by
      intro F
      unfold sum6
      have h6 := Fintype.sum_equiv (⟨fun x => (x.2.2.2.2.2, x.2.2.2.2.1, x.2.2.2.1, x.2.2.1, x.2.1, x.1),
        fun x => (x.2.2.2.2.2, x.2.2.2.2.1, x.2.2.2.1, x.2.2.1, x.2.1, x.1), fun _ => rfl, fun _ => rfl⟩ :
          O₁ × O₂ × O₃ × V₁ × V₂ × V₃ ≃ V₃ × V₂ × V₁ × O₃ × O₂ × O₁) (fun x => F x.1 x.2.1 x.2.2.1 x.2.2.2.1 x.2.2.2.2.1 x.2.2.2.2.2)
        (fun x => F x.2.2.2.2.2 x.2.2.2.2.1 x.2.2.2.1 x.2.2.1 x.2.1 x.1) fun _ => rfl
      simpa only [Fintype.sum_prod_type] using h6
    unfold rot6
    rw [e1]
    simp only [Finset.mul_sum]
    exact Finset.sum_congr rfl fun C _ => Finset.sum_congr rfl fun B _ => Finset.sum_congr rfl fun A _ => Finset.sum_congr rfl fun L _ =>
      Finset.sum_congr rfl fun J _ => Finset.sum_congr rfl fun I _ => by ring
  have s6 : ∀ {i₁ i₂ i₃ i₄ i₅ i₆ : Type} [Fintype i₁] [Fintype i₂] [Fintype i₃] [Fintype i₄] [Fintype i₅] [Fintype i₆] (F G : i₁ → i₂ → i₃ → i₄ → i₅ → i₆ → K),
      (∀ a b c d e f, F a b c d e f = G a b c d e f) → ∑ a, ∑ b, ∑ c, ∑ d, ∑ e, ∑ f, F a b c d e f = ∑ a, ∑ b, ∑ c, ∑ d, ∑ e, ∑ f, G a b c d e f := by
    intro i₁ i₂ i₃ i₄ i₅ i₆ _ _ _ _ _ _ F G h
    simp only [h]
  unfold sum6
  rw [s6 _ _ fun i j k a b c => by rw [e, e]]
  have mv6 : ∀ (F : o₁ → o₂ → o₃ → v₁ → v₂ → V₃ → K), ∑ i, ∑ j, ∑ k, ∑ a, ∑ b, ∑ X, F i j k a b X = ∑ X, ∑ i, ∑ j, ∑ k, ∑ a, ∑ b, F i j k a b X := by
    intro F
    have h6 := Fintype.sum_equiv (⟨fun x => (x.2.2.2.2.2, x.1, x.2.1, x.2.2.1, x.2.2.2.1, x.2.2.2.2.1),
      fun x => (x.2.1, x.2.2.1, x.2.2.2.1, x.2.2.2.2.1, x.2.2.2.2.2, x.1), fun _ => rfl, fun _ => rfl⟩ :
        o₁ × o₂ × o₃ × v₁ × v₂ × V₃ ≃ V₃ × o₁ × o₂ × o₃ × v₁ × v₂) (fun x => F x.1 x.2.1 x.2.2.1 x.2.2.2.1 x.2.2.2.2.1 x.2.2.2.2.2)
      (fun x => F x.2.1 x.2.2.1 x.2.2.2.1 x.2.2.2.2.1 x.2.2.2.2.2 x.1) fun _ => rfl
    simpa only [Fintype.sum_prod_type] using h6
  have mv5 : ∀ (F : o₁ → o₂ → o₃ → v₁ → V₂ → K), ∑ i, ∑ j, ∑ k, ∑ a, ∑ X, F i j k a X = ∑ X, ∑ i, ∑ j, ∑ k, ∑ a, F i j k a X := by
    intro F
    have h6 := Fintype.sum_equiv (⟨fun x => (x.2.2.2.2, x.1, x.2.1, x.2.2.1, x.2.2.2.1),
      fun x => (x.2.1, x.2.2.1, x.2.2.2.1, x.2.2.2.2, x.1), fun _ => rfl, fun _ => rfl⟩ :
        o₁ × o₂ × o₃ × v₁ × V₂ ≃ V₂ × o₁ × o₂ × o₃ × v₁) (fun x => F x.1 x.2.1 x.2.2.1 x.2.2.2.1 x.2.2.2.2)
      (fun x => F x.2.1 x.2.2.1 x.2.2.2.1 x.2.2.2.2 x.1) fun _ => rfl
    simpa only [Fintype.sum_prod_type] using h6
  have mv4 : ∀ (F : o₁ → o₂ → o₃ → V₁ → K), ∑ i, ∑ j, ∑ k, ∑ X, F i j k X = ∑ X, ∑ i, ∑ j, ∑ k, F i j k X := by
    intro F
    have h6 := Fintype.sum_equiv (⟨fun x => (x.2.2.2, x.1, x.2.1, x.2.2.1), fun x => (x.2.1, x.2.2.1, x.2.2.2, x.1), fun _ => rfl, fun _ => rfl⟩ :
        o₁ × o₂ × o₃ × V₁ ≃ V₁ × o₁ × o₂ × o₃) (fun x => F x.1 x.2.1 x.2.2.1 x.2.2.2) (fun x => F x.2.1 x.2.2.1 x.2.2.2 x.1) fun _ => rfl
    simpa only [Fintype.sum_prod_type] using h6
  have mv3 : ∀ (F : o₁ → o₂ → O₃ → K), ∑ i, ∑ j, ∑ X, F i j X = ∑ X, ∑ i, ∑ j, F i j X := by
    intro F
    have h6 := Fintype.sum_equiv (⟨fun x => (x.2.2, x.1, x.2.1), fun x => (x.2.1, x.2.2, x.1), fun _ => rfl, fun _ => rfl⟩ :
        o₁ × o₂ × O₃ ≃ O₃ × o₁ × o₂) (fun x => F x.1 x.2.1 x.2.2) (fun x => F x.2.1 x.2.2 x.1) fun _ => rfl
    simpa only [Fintype.sum_prod_type] using h6
  have mv2 : ∀ (F : o₁ → O₂ → K), ∑ i, ∑ X, F i X = ∑ X, ∑ i, F i X := fun F => Finset.sum_comm
  simp only [dot_rot w₃ k₃]
  rw [mv6]
  simp only [dot_rot w₂ k₂]
  simp only [mv5, dot_rot w₁ k₁, mv4, dot_rot r₃ h₃, mv3, dot_rot r₂ h₂, mv2, dot_rot r₁ h₁]
  have h6 := Fintype.sum_equiv (⟨fun x => (x.2.2.2.2.2, x.2.2.2.2.1, x.2.2.2.1, x.2.2.1, x.2.1, x.1),
    fun x => (x.2.2.2.2.2, x.2.2.2.2.1, x.2.2.2.1, x.2.2.1, x.2.1, x.1), fun _ => rfl, fun _ => rfl⟩ :
      O₁ × O₂ × O₃ × V₁ × V₂ × V₃ ≃ V₃ × V₂ × V₁ × O₃ × O₂ × O₁)
    (fun x => f x.1 x.2.1 x.2.2.1 x.2.2.2.1 x.2.2.2.2.1 x.2.2.2.2.2 * g x.1 x.2.1 x.2.2.1 x.2.2.2.1 x.2.2.2.2.1 x.2.2.2.2.2)
    (fun x => f x.2.2.2.2.2 x.2.2.2.2.1 x.2.2.2.1 x.2.2.1 x.2.1 x.1 * g x.2.2.2.2.2 x.2.2.2.2.1 x.2.2.2.1 x.2.2.1 x.2.1 x.1) fun _ => rfl
  simp only [Fintype.sum_prod_type] at h6
  exact h6.symm

/-! ## Projectors -/

/-- Projector on the first axis. -/
private theorem proj1_rot [DecidableEq O₁] (h₁ : mm r₁ (tp r₁) = delta) (q : O₁ → O₁ → K) (t : T6 O₁ O₂ O₃ V₁ V₂ V₃ K) (i : o₁) (j : o₂) (k : o₃) (a : v₁)
    (b : v₂) (c : v₃) :
    ∑ x, mm (tp r₁) (mm q r₁) i x * rot6 r₁ r₂ r₃ w₁ w₂ w₃ t x j k a b c =
      rot6 r₁ r₂ r₃ w₁ w₂ w₃ (fun i j k a b c => ∑ x, q i x * t x j k a b c) i j k a b c := by
  let R : O₁ → K := fun I => ∑ J, ∑ L, ∑ A, ∑ B, ∑ C, r₂ J j * r₃ L k * (w₁ A a * w₂ B b * w₃ C c) * t I J L A B C
  have e : ∀ x, rot6 r₁ r₂ r₃ w₁ w₂ w₃ t x j k a b c = ∑ I, r₁ I x * R I := by
    intro x
    unfold rot6 sum6
    refine Finset.sum_congr rfl fun I _ => ?_
    show _ = r₁ I x * ∑ J, ∑ L, ∑ A, ∑ B, ∑ C, r₂ J j * r₃ L k * (w₁ A a * w₂ B b * w₃ C c) * t I J L A B C
    simp only [Finset.mul_sum]
    exact Finset.sum_congr rfl fun J _ => Finset.sum_congr rfl fun L _ => Finset.sum_congr rfl fun A _ => Finset.sum_congr rfl fun B _ =>
      Finset.sum_congr rfl fun C _ => by ring
  have e2 : rot6 r₁ r₂ r₃ w₁ w₂ w₃ (fun i j k a b c => ∑ x, q i x * t x j k a b c) i j k a b c = ∑ I, r₁ I i * ∑ X, q I X * R X := by
    unfold rot6 sum6
    refine Finset.sum_congr rfl fun I _ => ?_
    have : ∑ X, q I X * R X = ∑ J, ∑ L, ∑ A, ∑ B, ∑ C, r₂ J j * r₃ L k * (w₁ A a * w₂ B b * w₃ C c) * ∑ X, q I X * t X J L A B C := by
      have h6 := Fintype.sum_equiv (⟨fun x => (x.2.1, x.2.2.1, x.2.2.2.1, x.2.2.2.2.1, x.2.2.2.2.2, x.1),
        fun x => (x.2.2.2.2.2, x.1, x.2.1, x.2.2.1, x.2.2.2.1, x.2.2.2.2.1), fun _ => rfl, fun _ => rfl⟩ :
          O₁ × O₂ × O₃ × V₁ × V₂ × V₃ ≃ O₂ × O₃ × V₁ × V₂ × V₃ × O₁)
        (fun x => q I x.1 * (r₂ x.2.1 j * r₃ x.2.2.1 k * (w₁ x.2.2.2.1 a * w₂ x.2.2.2.2.1 b * w₃ x.2.2.2.2.2 c) * t x.1 x.2.1 x.2.2.1 x.2.2.2.1 x.2.2.2.2.1 x.2.2.2.2.2))
        (fun x => r₂ x.1 j * r₃ x.2.1 k * (w₁ x.2.2.1 a * w₂ x.2.2.2.1 b * w₃ x.2.2.2.2.1 c) * (q I x.2.2.2.2.2 * t x.2.2.2.2.2 x.1 x.2.1 x.2.2.1 x.2.2.2.1 x.2.2.2.2.1))
        fun x => by
          dsimp only [Equiv.coe_fn_mk]
          ring
      simp only [Fintype.sum_prod_type] at h6
      show ∑ X, q I X * ∑ J, ∑ L, ∑ A, ∑ B, ∑ C, r₂ J j * r₃ L k * (w₁ A a * w₂ B b * w₃ C c) * t X J L A B C = _
      simp only [Finset.mul_sum]
      exact h6
    rw [this]
    simp only [Finset.mul_sum]
    exact Finset.sum_congr rfl fun J _ => Finset.sum_congr rfl fun L _ => Finset.sum_congr rfl fun A _ => Finset.sum_congr rfl fun B _ =>
      Finset.sum_congr rfl fun C _ => Finset.sum_congr rfl fun X _ => by ring
  simp only [e]
  rw [e2]
  have h1 := sum_mm (mm (tp r₁) (mm q r₁) i) (fun x I => r₁ I x) R
  rw [h1]
  have h2 : ∀ X, ∑ x, mm (tp r₁) (mm q r₁) i x * r₁ X x = mm (tp r₁) q i X := by
    intro X
    have : mm (mm (tp r₁) (mm q r₁)) (tp r₁) = mm (tp r₁) q := by
      rw [mm_assoc, mm_assoc, h₁, mm_delta]
    exact congrFun (congrFun this i) X
  simp only [h2]
  exact (sum_mm (fun I => r₁ I i) q R).symm

theorem usym_rot [DecidableEq O₁] [DecidableEq O₂] [DecidableEq O₃] (h₁ : mm r₁ (tp r₁) = delta) (h₂ : mm r₂ (tp r₂) = delta) (h₃ : mm r₃ (tp r₃) = delta)
    (p : O₁ → O₁ → K) (q : O₂ → O₂ → K) (r : O₃ → O₃ → K) (t : T6 O₁ O₂ O₃ V₁ V₂ V₃ K) :
    usymProj (mm (tp r₁) (mm p r₁)) (mm (tp r₂) (mm q r₂)) (mm (tp r₃) (mm r r₃)) (rot6 r₁ r₂ r₃ w₁ w₂ w₃ t) = rot6 r₁ r₂ r₃ w₁ w₂ w₃ (usymProj p q r t) := by
  funext i j k a b c
  have e1 := proj1_rot (r₂ := r₂) (r₃ := r₃) (w₁ := w₁) (w₂ := w₂) (w₃ := w₃) h₁ p t i j k a b c
  have e2 := proj1_rot (r₂ := r₁) (r₃ := r₃) (w₁ := w₁) (w₂ := w₂) (w₃ := w₃) h₂ q (fun j i k a b c => t i j k a b c) j i k a b c
  simp only [rot6_swap12 r₁ r₂ r₃ w₁ w₂ w₃ t] at e2
  rw [rot6_swap12 r₁ r₂ r₃ w₁ w₂ w₃ fun i j k a b c => ∑ x, q j x * t i x k a b c] at e2
  have e3 := proj1_rot (r₂ := r₁) (r₃ := r₂) (w₁ := w₁) (w₂ := w₂) (w₃ := w₃) h₃ r (fun k i j a b c => t i j k a b c) k i j a b c
  have sw : ∀ (f : T6 O₁ O₂ O₃ V₁ V₂ V₃ K) x, rot6 r₃ r₁ r₂ w₁ w₂ w₃ (fun k i j a b c => f i j k a b c) x i j a b c = rot6 r₁ r₂ r₃ w₁ w₂ w₃ f i j x a b c := by
    intro f x
    rw [rot6_swap12 r₁ r₃ r₂ w₁ w₂ w₃ fun i k j a b c => f i j k a b c, rot6_swap23 r₁ r₂ r₃ w₁ w₂ w₃ f]
  simp only [sw t] at e3
  rw [sw fun i j k a b c => ∑ x, r k x * t i j x a b c] at e3
  show 1 / 3 * (_ + _ + _) = _
  rw [e1, e2, e3, ← rot6_add, ← rot6_add, ← rot6_mul]
  rfl

/-! ## Denominators -/

theorem rot6_div (d : T6 O₁ O₂ O₃ V₁ V₂ V₃ K) (d' : T6 o₁ o₂ o₃ v₁ v₂ v₃ K) (t : T6 O₁ O₂ O₃ V₁ V₂ V₃ K) (i : o₁) (j : o₂) (k : o₃) (a : v₁) (b : v₂) (c : v₃)
    (h : ∀ I J L A B C, r₁ I i ≠ 0 → r₂ J j ≠ 0 → r₃ L k ≠ 0 → w₁ A a ≠ 0 → w₂ B b ≠ 0 → w₃ C c ≠ 0 → d I J L A B C = d' i j k a b c) :
    rot6 r₁ r₂ r₃ w₁ w₂ w₃ (fun i j k a b c => t i j k a b c / d i j k a b c) i j k a b c = rot6 r₁ r₂ r₃ w₁ w₂ w₃ t i j k a b c / d' i j k a b c := by
  unfold rot6
  rw [div_eq_mul_inv, mul_comm, ← sum6_mul]
  refine sum6_congr fun I J L A B C => ?_
  by_cases h1 : r₁ I i = 0
  · simp [h1]
  by_cases h2 : r₂ J j = 0
  · simp [h2]
  by_cases h3 : r₃ L k = 0
  · simp [h3]
  by_cases h4 : w₁ A a = 0
  · simp [h4]
  by_cases h5 : w₂ B b = 0
  · simp [h5]
  by_cases h6 : w₃ C c = 0
  · simp [h6]
  beta_reduce
  rw [h I J L A B C h1 h2 h3 h4 h5 h6]
  ring

end

/-! ## Permutations -/

section
variable {O V o v : Type} [Fintype O] [Fintype V] [Fintype o] [Fintype v] (ro : O → o → K) (rv : V → v → K)

/-- All axes, two kinds of orbitals. -/
def R6 (t : T6 O O O V V V K) : T6 o o o v v v K := rot6 ro ro ro rv rv rv t

theorem R6_12 (t : T6 O O O V V V K) (i j k : o) (a b c : v) : R6 ro rv (fun i j k a b c => t j i k b a c) i j k a b c = R6 ro rv t j i k b a c := by
  unfold R6 rot6
  rw [← sum6_12]
  exact sum6_congr fun I J L A B C => by ring

theorem R6_23 (t : T6 O O O V V V K) (i j k : o) (a b c : v) : R6 ro rv (fun i j k a b c => t i k j a c b) i j k a b c = R6 ro rv t i k j a c b := by
  unfold R6 rot6
  rw [← sum6_23]
  exact sum6_congr fun I J L A B C => by ring

theorem R6_231 (t : T6 O O O V V V K) (i j k : o) (a b c : v) : R6 ro rv (fun i j k a b c => t j k i b c a) i j k a b c = R6 ro rv t j k i b c a :=
  (R6_12 ro rv (fun i j k a b c => t i k j a c b) i j k a b c).trans (R6_23 ro rv t j i k b a c)

theorem R6_312 (t : T6 O O O V V V K) (i j k : o) (a b c : v) : R6 ro rv (fun i j k a b c => t k i j c a b) i j k a b c = R6 ro rv t k i j c a b :=
  (R6_23 ro rv (fun i j k a b c => t j i k b a c) i j k a b c).trans (R6_12 ro rv t i k j a c b)

theorem R6_13 (t : T6 O O O V V V K) (i j k : o) (a b c : v) : R6 ro rv (fun i j k a b c => t k j i c b a) i j k a b c = R6 ro rv t k j i c b a :=
  (R6_12 ro rv (fun i j k a b c => t k i j c a b) i j k a b c).trans (R6_312 ro rv t j i k b a c)

theorem R6_pairSum (t : T6 O O O V V V K) : pairSum (R6 ro rv t) = R6 ro rv (pairSum t) := by
  funext i j k a b c
  have e : R6 ro rv (pairSum t) i j k a b c = R6 ro rv t i j k a b c + R6 ro rv (fun i j k a b c => t i k j a c b) i j k a b c +
      R6 ro rv (fun i j k a b c => t j i k b a c) i j k a b c + R6 ro rv (fun i j k a b c => t j k i b c a) i j k a b c +
      R6 ro rv (fun i j k a b c => t k i j c a b) i j k a b c + R6 ro rv (fun i j k a b c => t k j i c b a) i j k a b c := by
    unfold R6
    rw [← rot6_add, ← rot6_add, ← rot6_add, ← rot6_add, ← rot6_add]
    rfl
  rw [e, R6_12 ro rv t, R6_23 ro rv t, R6_231 ro rv t, R6_312 ro rv t, R6_13 ro rv t]
  rfl

theorem occ_12 (t : T6 O O O V V V K) (i j k : o) (a b c : v) : R6 ro rv (fun i j k a b c => t j i k a b c) i j k a b c = R6 ro rv t j i k a b c :=
  rot6_swap12 ro ro ro rv rv rv t j i k a b c

theorem occ_23 (t : T6 O O O V V V K) (i j k : o) (a b c : v) : R6 ro rv (fun i j k a b c => t i k j a b c) i j k a b c = R6 ro rv t i k j a b c :=
  rot6_swap23 ro ro ro rv rv rv t i k j a b c

theorem occ_231 (t : T6 O O O V V V K) (i j k : o) (a b c : v) : R6 ro rv (fun i j k a b c => t j k i a b c) i j k a b c = R6 ro rv t j k i a b c :=
  (occ_12 ro rv (fun i j k a b c => t i k j a b c) i j k a b c).trans (occ_23 ro rv t j i k a b c)

theorem occ_312 (t : T6 O O O V V V K) (i j k : o) (a b c : v) : R6 ro rv (fun i j k a b c => t k i j a b c) i j k a b c = R6 ro rv t k i j a b c :=
  (occ_23 ro rv (fun i j k a b c => t j i k a b c) i j k a b c).trans (occ_12 ro rv t i k j a b c)

theorem occ_13 (t : T6 O O O V V V K) (i j k : o) (a b c : v) : R6 ro rv (fun i j k a b c => t k j i a b c) i j k a b c = R6 ro rv t k j i a b c :=
  (occ_12 ro rv (fun i j k a b c => t k i j a b c) i j k a b c).trans (occ_312 ro rv t j i k a b c)

theorem R6_occR (t : T6 O O O V V V K) : occR (R6 ro rv t) = R6 ro rv (occR t) := by
  funext i j k a b c
  have e : R6 ro rv (occR t) i j k a b c = 4 * R6 ro rv t i j k a b c + R6 ro rv (fun i j k a b c => t k i j a b c) i j k a b c +
      R6 ro rv (fun i j k a b c => t j k i a b c) i j k a b c - 2 * R6 ro rv (fun i j k a b c => t k j i a b c) i j k a b c -
      2 * R6 ro rv (fun i j k a b c => t i k j a b c) i j k a b c - 2 * R6 ro rv (fun i j k a b c => t j i k a b c) i j k a b c := by
    unfold R6
    rw [← rot6_mul, ← rot6_mul, ← rot6_mul, ← rot6_mul, ← rot6_add, ← rot6_add, ← rot6_sub, ← rot6_sub, ← rot6_sub]
    rfl
  rw [e, occ_12 ro rv t, occ_23 ro rv t, occ_231 ro rv t, occ_312 ro rv t, occ_13 ro rv t]
  rfl

end

end Vayesta.CcsdT
