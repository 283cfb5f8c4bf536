import Verif.Lemmas.CcsdTSpinRot

/-! Clusters of unrestricted calculations that span the whole system. -/

set_option linter.unusedSectionVars false

namespace Vayesta.CcsdT
open Vayesta.Amplitudes Vayesta.Tensor

variable {K : Type} [Field K] {ι oa ob va vb : Type} [Fintype ι] [Fintype oa] [Fintype ob] [Fintype va] [Fintype vb]

theorem explicit_rot4 {M₁ M₂ M₃ M₄ m₁ m₂ m₃ m₄ : Type} [Fintype M₁] [Fintype M₂] [Fintype M₃] [Fintype M₄] (r₁ : M₁ → m₁ → K) (r₂ : M₂ → m₂ → K)
    (r₃ : M₃ → m₃ → K) (r₄ : M₄ → m₄ → K) (g : M₁ → M₂ → M₃ → M₄ → K) (f : m₁ → m₂ → m₃ → m₄ → K)
    (h : ∀ i j a b, f i j a b = ∑ I, ∑ J, ∑ A, ∑ B, r₁ I i * r₂ J j * r₃ A a * r₄ B b * g I J A B) : f = rot4 r₁ r₂ r₃ r₄ g := by
  funext i j a b
  rw [rot4_eq, h]
  simp only [Finset.mul_sum]
  exact Finset.sum_congr rfl fun _ _ => Finset.sum_congr rfl fun _ _ => Finset.sum_congr rfl fun _ _ => Finset.sum_congr rfl fun _ _ => by ring

private theorem fock_rot (f : ι → ι → K) {M N m n : Type} [Fintype M] [Fintype N] (c : ι → M → K) (d : ι → N → K) (r : M → m → K) (w : N → n → K) :
    mm (tp (mm c r)) (mm f (mm d w)) = mm (tp r) (mm (mm (tp c) (mm f d)) w) := by
  simp only [tp_mm, mm_assoc]

private theorem fvo_rot (f : ι → ι → K) {M N m n : Type} [Fintype M] [Fintype N] (c : ι → M → K) (d : ι → N → K) (r : M → m → K) (w : N → n → K) (a : m) (i : n) :
    mm (tp (mm c r)) (mm f (mm d w)) a i = ∑ A, r A a * ∑ I, w I i * mm (tp c) (mm f d) A I := by
  rw [fock_rot]
  show ∑ A, tp r a A * ∑ I, mm (tp c) (mm f d) A I * w I i = _
  refine Finset.sum_congr rfl fun A _ => ?_
  exact congrArg (tp r a A * ·) (Finset.sum_congr rfl fun I _ => mul_comm _ _)

private theorem t1_rot {O V o v : Type} [Fintype O] [Fintype V] (ro : O → o → K) (rv : V → v → K) (t : T1 O V K) (t' : T1 o v K)
    (h : t' = EwfEnergy.restrict1 ro rv t) (i : o) (a : v) : t' i a = ∑ I, ro I i * ∑ A, rv A a * t I A := by
  rw [h]
  unfold EwfEnergy.restrict1
  simp only [Finset.mul_sum]
  exact Finset.sum_congr rfl fun _ _ => Finset.sum_congr rfl fun _ _ => mul_assoc _ _ _

private theorem energies (f : ι → ι → K) {M m : Type} [Fintype M] [Fintype m] [DecidableEq M] (c : ι → M → K) (c' : ι → m → K) (hd : Diagonal f c)
    (r : M → m → K) (hc : c' = mm c r) (hr : mm r (tp r) = delta) (hd' : Diagonal f c') (I : M) (i : m) (h : r I i ≠ 0) :
    mm (tp c) (mm f c) I I = mm (tp c') (mm f c') i i :=
  canonical_energies (mm (tp c) (mm f c)) hd r hr (mm (tp c') (mm f c')) (by rw [hc, fock_rot]) hd' I i h

section
variable [DecidableEq oa] [DecidableEq ob] [DecidableEq va] [DecidableEq vb]

theorem uexact_rotated (s : USys ι oa ob va vb K) (hc : UCanonical s) (t : UAmp oa ob va vb K) (x : UFrag ι K)
    (roa : oa → x.coa → K) (rob : ob → x.cob → K) (rva : va → x.cva → K) (rvb : vb → x.cvb → K) (h : UExact s t x roa rob rva rvb) :
    URotated (s.mos t) (s.ham x.cOccA x.cOccB x.cVirA x.cVirB x.t1a x.t1b x.t2aa x.t2ab x.t2bb) roa rob rva rvb where
  t1a := t1_rot roa rva t.t1a x.t1a h.t1a
  t1b := t1_rot rob rvb t.t1b x.t1b h.t1b
  t2aa := explicit_rot4 _ _ _ _ _ _ h.t2aa
  t2ab := explicit_rot4 _ _ _ _ _ _ h.t2ab
  t2bb := explicit_rot4 _ _ _ _ _ _ h.t2bb
  fvo := fun a i => by
    show mm (tp x.cVirA) (mm s.focka x.cOccA) a i = _
    rw [h.occA, h.virA]
    exact fvo_rot _ _ _ _ _ _ _
  fVO := fun a i => by
    show mm (tp x.cVirB) (mm s.fockb x.cOccB) a i = _
    rw [h.occB, h.virB]
    exact fvo_rot _ _ _ _ _ _ _
  ovvv := by
    show trafo s.eri x.cOccA x.cVirA x.cVirA x.cVirA = _
    rw [h.occA, h.virA, trafo_rot4]; rfl
  OVVV := by
    show trafo s.eri x.cOccB x.cVirB x.cVirB x.cVirB = _
    rw [h.occB, h.virB, trafo_rot4]; rfl
  ovVV := by
    show trafo s.eri x.cOccA x.cVirA x.cVirB x.cVirB = _
    rw [h.occA, h.virA, h.virB, trafo_rot4]; rfl
  OVvv := by
    show trafo s.eri x.cOccB x.cVirB x.cVirA x.cVirA = _
    rw [h.occB, h.virA, h.virB, trafo_rot4]; rfl
  ovoo := by
    show trafo s.eri x.cOccA x.cVirA x.cOccA x.cOccA = _
    rw [h.occA, h.virA, trafo_rot4]; rfl
  OVOO := by
    show trafo s.eri x.cOccB x.cVirB x.cOccB x.cOccB = _
    rw [h.occB, h.virB, trafo_rot4]; rfl
  ovOO := by
    show trafo s.eri x.cOccA x.cVirA x.cOccB x.cOccB = _
    rw [h.occA, h.occB, h.virA, trafo_rot4]; rfl
  OVoo := by
    show trafo s.eri x.cOccB x.cVirB x.cOccA x.cOccA = _
    rw [h.occA, h.occB, h.virB, trafo_rot4]; rfl
  ovov := by
    show trafo s.eri x.cOccA x.cVirA x.cOccA x.cVirA = _
    rw [h.occA, h.virA, trafo_rot4]; rfl
  OVOV := by
    show trafo s.eri x.cOccB x.cVirB x.cOccB x.cVirB = _
    rw [h.occB, h.virB, trafo_rot4]; rfl
  ovOV := by
    show trafo s.eri x.cOccA x.cVirA x.cOccB x.cVirB = _
    rw [h.occA, h.occB, h.virA, h.virB, trafo_rot4]; rfl
  eoa := energies _ _ _ hc.occA _ h.occA h.spanOccA h.canOccA
  eob := energies _ _ _ hc.occB _ h.occB h.spanOccB h.canOccB
  eva := energies _ _ _ hc.virA _ h.virA h.spanVirA h.canVirA
  evb := energies _ _ _ hc.virB _ h.virB h.spanVirB h.canVirB

end

/-- The projector onto a fragment in given orbitals. -/
def weightOf {m f : Type} [Fintype f] (c : ι → m → K) (ovlp : ι → ι → K) (d : ι → f → K) : m → m → K := fun i j =>
  ∑ y, mm (tp c) (mm ovlp d) i y * mm (tp c) (mm ovlp d) j y

private theorem weight_rot {M m f : Type} [Fintype M] [Fintype f] (c : ι → M → K) (r : M → m → K) (ovlp : ι → ι → K) (d : ι → f → K) :
    mm (mm (tp (mm c r)) (mm ovlp d)) (tp (mm (tp (mm c r)) (mm ovlp d))) = mm (tp r) (mm (weightOf c ovlp d) r) := by
  have e : weightOf c ovlp d = mm (mm (tp c) (mm ovlp d)) (tp (mm (tp c) (mm ovlp d))) := rfl
  rw [e]
  simp only [tp_mm, mm_assoc, tp_tp]

theorem cfca_rot (s : USys ι oa ob va vb K) (x : UFrag ι K) (r : oa → x.coa → K) (h : x.cOccA = mm s.moOccA r) :
    x.cfca s = mm (tp r) (mm (weightOf s.moOccA s.ovlp x.cFragA) r) := by
  show mm (mm (tp x.cOccA) (mm s.ovlp x.cFragA)) (tp (mm (tp x.cOccA) (mm s.ovlp x.cFragA))) = _
  rw [h]
  exact weight_rot _ _ _ _

theorem cfcb_rot (s : USys ι oa ob va vb K) (x : UFrag ι K) (r : ob → x.cob → K) (h : x.cOccB = mm s.moOccB r) :
    x.cfcb s = mm (tp r) (mm (weightOf s.moOccB s.ovlp x.cFragB) r) := by
  show mm (mm (tp x.cOccB) (mm s.ovlp x.cFragB)) (tp (mm (tp x.cOccB) (mm s.ovlp x.cFragB))) = _
  rw [h]
  exact weight_rot _ _ _ _

/-! ## Symmetry -/

theorem trafo_pairs {g : ι → ι → ι → ι → K} (hg : RealIntegrals g) {m₁ m₂ m₃ m₄ : Type} (c₁ : ι → m₁ → K) (c₂ : ι → m₂ → K) (c₃ : ι → m₃ → K) (c₄ : ι → m₄ → K)
    (i : m₁) (a : m₂) (j : m₃) (b : m₄) : trafo g c₃ c₄ c₁ c₂ j b i a = trafo g c₁ c₂ c₃ c₄ i a j b := by
  show rot4 c₃ c₄ c₁ c₂ g j b i a = rot4 c₁ c₂ c₃ c₄ g i a j b
  rw [rot4_eq, rot4_eq]
  simp only [Finset.mul_sum]
  have h := Fintype.sum_equiv (⟨fun x => (x.2.2.1, x.2.2.2, x.1, x.2.1), fun x => (x.2.2.1, x.2.2.2, x.1, x.2.1), fun _ => rfl, fun _ => rfl⟩ :
    ι × ι × ι × ι ≃ ι × ι × ι × ι) (fun x => c₃ x.1 j * (c₄ x.2.1 b * (c₁ x.2.2.1 i * (c₂ x.2.2.2 a * g x.1 x.2.1 x.2.2.1 x.2.2.2))))
    (fun x => c₁ x.1 i * (c₂ x.2.1 a * (c₃ x.2.2.1 j * (c₄ x.2.2.2 b * g x.1 x.2.1 x.2.2.1 x.2.2.2)))) fun x => by
      dsimp only [Equiv.coe_fn_mk]
      rw [hg.swap x.1 x.2.1 x.2.2.1 x.2.2.2]
      ring
  simpa only [Fintype.sum_prod_type] using h

theorem trafo_real {g : ι → ι → ι → ι → K} (hg : RealIntegrals g) {m₁ m₂ m₃ : Type} (c₁ : ι → m₁ → K) (c₂ : ι → m₂ → K) (c₃ : ι → m₃ → K)
    (i : m₁) (a : m₂) (j k : m₃) : trafo g c₁ c₂ c₃ c₃ i a k j = trafo g c₁ c₂ c₃ c₃ i a j k := by
  have e : (fun p q r t => g p q t r) = g := by funext p q r t; exact hg.real p q r t
  show L1 (tp c₁) (L2 (tp c₂) (L3 (tp c₃) (L4 (tp c₃) g))) i a k j = L1 (tp c₁) (L2 (tp c₂) (L3 (tp c₃) (L4 (tp c₃) g))) i a j k
  conv_rhs => rw [← e, ← L4_L3]
  rfl

theorem umos_real (s : USys ι oa ob va vb K) (hg : RealIntegrals s.eri) (t : UAmp oa ob va vb K) (ht : t.Anti) : (s.mos t).Real where
  aa := ht.aa
  bb := ht.bb
  ovov := fun i a j b => trafo_pairs hg s.moOccA s.moVirA s.moOccA s.moVirA i a j b
  OVOV := fun i a j b => trafo_pairs hg s.moOccB s.moVirB s.moOccB s.moVirB i a j b
  ovoo := fun i a j k => trafo_real hg s.moOccA s.moVirA s.moOccA i a j k
  OVOO := fun i a j k => trafo_real hg s.moOccB s.moVirB s.moOccB i a j k
  ovOO := fun i a j k => trafo_real hg s.moOccA s.moVirA s.moOccB i a j k
  OVoo := fun i a j k => trafo_real hg s.moOccB s.moVirB s.moOccA i a j k

theorem uleaves_ham {U : ι → ι → K} {s : USys ι oa ob va vb K} (hU : ULeaves U s) (x : UFrag ι K) :
    s.ham (mm U x.cOccA) (mm U x.cOccB) (mm U x.cVirA) (mm U x.cVirB) x.t1a x.t1b x.t2aa x.t2ab x.t2bb =
      s.ham x.cOccA x.cOccB x.cVirA x.cVirB x.t1a x.t1b x.t2aa x.t2ab x.t2bb := by
  have hA : ∀ {m n : Type} (c : ι → m → K) (d : ι → n → K), mm (tp (mm U c)) (mm s.focka (mm U d)) = mm (tp c) (mm s.focka d) := by
    intro m n c d
    conv_rhs => rw [← hU.focka]
    simp only [tp_mm, mm_assoc]
  have hB : ∀ {m n : Type} (c : ι → m → K) (d : ι → n → K), mm (tp (mm U c)) (mm s.fockb (mm U d)) = mm (tp c) (mm s.fockb d) := by
    intro m n c d
    conv_rhs => rw [← hU.fockb]
    simp only [tp_mm, mm_assoc]
  have hE : ∀ {m n p q : Type} (c₁ : ι → m → K) (c₂ : ι → n → K) (c₃ : ι → p → K) (c₄ : ι → q → K),
      trafo s.eri (mm U c₁) (mm U c₂) (mm U c₃) (mm U c₄) = trafo s.eri c₁ c₂ c₃ c₄ := by
    intro m n p q c₁ c₂ c₃ c₄
    rw [trafo_rot4]
    have e : trafo s.eri U U U U = s.eri := by
      funext p q r t
      rw [← hU.eri p q r t]
      simp only [trafo, L1, L2, L3, L4, tp, Finset.mul_sum]
    rw [e]
    rfl
  unfold USys.ham
  simp only [hA, hB, hE]

theorem uleaves_cfc {U : ι → ι → K} {s : USys ι oa ob va vb K} (hU : ULeaves U s) (x : UFrag ι K) :
    (x.image U).cfca s = x.cfca s ∧ (x.image U).cfcb s = x.cfcb s := by
  have hS : ∀ {m n : Type} (c : ι → m → K) (d : ι → n → K), mm (tp (mm U c)) (mm s.ovlp (mm U d)) = mm (tp c) (mm s.ovlp d) := by
    intro m n c d
    conv_rhs => rw [← hU.ovlp]
    simp only [tp_mm, mm_assoc]
  constructor
  · show mm (mm (tp (mm U x.cOccA)) (mm s.ovlp (mm U x.cFragA))) (tp (mm (tp (mm U x.cOccA)) (mm s.ovlp (mm U x.cFragA)))) = _
    rw [hS]
    rfl
  · show mm (mm (tp (mm U x.cOccB)) (mm s.ovlp (mm U x.cFragB))) (tp (mm (tp (mm U x.cOccB)) (mm s.ovlp (mm U x.cFragB)))) = _
    rw [hS]
    rfl

end Vayesta.CcsdT
