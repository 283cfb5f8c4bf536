import Verif.Lemmas.EwfURdm

/-! Sums over fragments, their symmetry children and pairs of fragments for `Verif/Model/EwfURdm.lean`. -/

set_option linter.unusedSectionVars false

namespace Vayesta.EwfURdm
open Vayesta.Amplitudes Vayesta.Tensor Vayesta.EwfRdm

variable {K : Type} [Field K] {ι : Type} {o v : Spin → Type} [Fintype ι] [∀ σ, Fintype (o σ)] [∀ σ, Fintype (v σ)]

/-! ### Blocks -/

theorem block_add (t u : UT o v K) (σ τ : Spin) : block (t + u) σ τ = block t σ τ + block u σ τ := by
  cases σ <;> cases τ <;> rfl
theorem block_zero (σ τ : Spin) : block (0 : UT o v K) σ τ = 0 := by
  cases σ <;> cases τ <;> rfl
theorem block_sum {α : Type*} (c : α → UT o v K) (l : List α) (σ τ : Spin) : block (l.map c).sum σ τ = (l.map fun x => block (c x) σ τ).sum :=
  map_sum_add (fun t : UT o v K => block t σ τ) (block_zero σ τ) (fun a b => block_add a b σ τ) c l

theorem sum_pi {α S : Type*} {A : S → Type*} [∀ σ, AddMonoid (A σ)] (c : α → ∀ σ, A σ) (l : List α) (σ : S) : (l.map c).sum σ = (l.map fun x => c x σ).sum :=
  map_sum_add (fun f : ∀ σ, A σ => f σ) rfl (fun _ _ => rfl) c l

theorem block_restoredU {f c d : Spin → Type} [∀ σ, Fintype (f σ)] [∀ σ, Fintype (c σ)] [∀ σ, Fintype (d σ)] (p : ∀ σ, f σ → c σ → K) (t : ∀ σ τ, T2 (f σ) (c τ) (d σ) (d τ) K) (σ τ : Spin) :
    block (restoredU p t) σ τ = restoredG (p σ) (p τ) (t σ τ) (t τ σ) := by
  have h : ∀ {c c' d d' : Type} (A B : T2 c c' d d' K), (fun i j a b => (A i j a b + B i j a b) / 2) = (1 / 2 : K) • (A + B) := by
    intro c c' d d' A B
    funext i j a b
    simp only [Pi.add_apply, Pi.smul_apply, smul_eq_mul]
    ring
  cases σ <;> cases τ
  · exact h (L1 (tp (p .a)) (t .a .a)) (L2 (tp (p .a)) (transp (t .a .a)))
  · exact h (L1 (tp (p .a)) (t .a .b)) (L2 (tp (p .b)) (transp (t .b .a)))
  · rw [← transp_restoredG]
    exact congrArg transp (h (L1 (tp (p .a)) (t .a .b)) (L2 (tp (p .b)) (transp (t .b .a))))
  · exact h (L1 (tp (p .b)) (t .b .b)) (L2 (tp (p .b)) (transp (t .b .b)))

/-! ### One fragment -/

/-- Restored doubles of a fragment, in its cluster and in the basis of molecular orbitals. -/
def Rg (s : UMf ι o v K) (z : UFrag ι K) (t : ∀ σ τ, T2 (z.f σ) (z.c τ) (z.d σ) (z.d τ) K) (σ τ : Spin) : T2 (z.c σ) (z.c τ) (z.d σ) (z.d τ) K :=
  restoredG (z.px s σ) (z.px s τ) (t σ τ) (t τ σ)
def Bg (s : UMf ι o v K) (z : UFrag ι K) (t : ∀ σ τ, T2 (z.f σ) (z.c τ) (z.d σ) (z.d τ) K) (σ τ : Spin) : T2 (o σ) (o τ) (v σ) (v τ) K :=
  backG (z.mco s σ) (z.mco s τ) (z.mcv s σ) (z.mcv s τ) (Rg s z t σ τ)

theorem transp_Bg (s : UMf ι o v K) (z : UFrag ι K) (t : ∀ σ τ, T2 (z.f σ) (z.c τ) (z.d σ) (z.d τ) K) (σ τ : Spin) : transp (Bg s z t σ τ) = Bg s z t τ σ := by
  rw [Bg, transp_backG, Rg, transp_restoredG]
  rfl

/-- The stored blocks. -/
def BU (s : UMf ι o v K) (z : UFrag ι K) (t : ∀ σ τ, T2 (z.f σ) (z.c τ) (z.d σ) (z.d τ) K) : UT o v K := (Bg s z t .a .a, Bg s z t .a .b, Bg s z t .b .b)

theorem block_BU (s : UMf ι o v K) (z : UFrag ι K) (t : ∀ σ τ, T2 (z.f σ) (z.c τ) (z.d σ) (z.d τ) K) (σ τ : Spin) : block (BU s z t) σ τ = Bg s z t σ τ := by
  cases σ <;> cases τ
  · rfl
  · rfl
  · exact transp_Bg s z t .a .b
  · rfl

theorem contrib_eq (s : UMf ι o v K) (z : UFrag ι K) (t : ∀ σ τ, T2 (z.f σ) (z.c τ) (z.d σ) (z.d τ) K) :
    (backU (z.mco s .a) (z.mco s .a) (z.mcv s .a) (z.mcv s .a) (restoredU (z.px s) t).1, backU (z.mco s .a) (z.mco s .b) (z.mcv s .a) (z.mcv s .b) (restoredU (z.px s) t).2.1,
      backU (z.mco s .b) (z.mco s .b) (z.mcv s .b) (z.mcv s .b) (restoredU (z.px s) t).2.2) = BU s z t := by
  have h := block_restoredU (z.px s) t
  rw [backU_eq, backU_eq, backU_eq]
  have h1 : (restoredU (z.px s) t).1 = Rg s z t .a .a := h .a .a
  have h2 : (restoredU (z.px s) t).2.1 = Rg s z t .a .b := h .a .b
  have h3 : (restoredU (z.px s) t).2.2 = Rg s z t .b .b := h .b .b
  rw [h1, h2, h3]
  rfl

/-- Lambda amplitudes used. -/
def lamA (tl : Bool) (z : UFrag ι K) : ∀ σ τ, T2 (z.f σ) (z.c τ) (z.d σ) (z.d τ) K := if tl || z.tAsLambda || z.mp2 then z.t2 else z.l2.getD z.t2
def lamA1 (tl : Bool) (z : UFrag ι K) : ∀ σ, T1 (z.f σ) (z.d σ) K := if tl || z.tAsLambda then z.t1 else z.l1.getD z.t1

theorem lam_ok {tl : Bool} {z : UFrag ι K} (h : UHasLambda tl z) : z.lam tl = .ok (lamA tl z) := by
  unfold UFrag.lam lamA
  rcases h with rfl | h | ⟨-, h2, -⟩
  · rfl
  · rw [h]; cases tl <;> rfl
  · obtain ⟨l2, h2⟩ := Option.isSome_iff_exists.1 h2
    rw [h2]
    cases tl <;> cases z.mp2 <;> cases z.tAsLambda <;> rfl

theorem t2Contrib_t (s : UMf ι o v K) (z : UFrag ι K) : z.t2Contrib s false = .ok (BU s z z.t2) := congrArg Except.ok (contrib_eq s z z.t2)

theorem t2Contrib_l (s : UMf ι o v K) (tl : Bool) (z : UFrag ι K) (h : UHasLambda tl z) : z.t2Contrib s (!tl) = .ok (BU s z (lamA tl z)) := by
  have key : ∀ t, (if !tl && !z.tAsLambda then z.l2 else some z.t2) = some t → z.t2Contrib s (!tl) = .ok (BU s z t) := by
    intro t ht
    unfold UFrag.t2Contrib
    rw [ht]
    exact congrArg Except.ok (contrib_eq s z t)
  refine key _ ?_
  unfold lamA
  rcases h with rfl | h | ⟨-, h2, h3⟩
  · rfl
  · rw [h]; cases tl <;> rfl
  · obtain ⟨l2, h2⟩ := Option.isSome_iff_exists.1 h2
    rw [h2] at h3 ⊢
    cases hm : z.mp2 with
    | false => cases tl <;> cases z.tAsLambda <;> rfl
    | true =>
      have e := h3 hm
      cases tl <;> cases z.tAsLambda <;> first | rfl | exact e

/-- Singles of a fragment in the basis of molecular orbitals. -/
def B1 (s : UMf ι o v K) (z : UFrag ι K) (t : ∀ σ, T1 (z.f σ) (z.d σ) K) (σ : Spin) : T1 (o σ) (v σ) K :=
  mm (z.mco s σ) (mm (mm (tp (z.px s σ)) (t σ)) (tp (z.mcv s σ)))

theorem contrib1_eq (s : UMf ι o v K) (z : UFrag ι K) (t : ∀ σ, T1 (z.f σ) (z.d σ) K) :
    (fun σ i a => ∑ k, ∑ e, projectC1 (tr (z.px s σ)) (t σ) k e * z.mco s σ i k * z.mcv s σ a e : U1 o v K) = B1 s z t := by
  funext σ i a
  show _ = ∑ k, z.mco s σ i k * ∑ e, projectC1 (tr (z.px s σ)) (t σ) k e * z.mcv s σ a e
  simp only [Finset.mul_sum]
  exact Finset.sum_congr rfl fun _ _ => Finset.sum_congr rfl fun _ _ => by ring

theorem t1Contrib_t (s : UMf ι o v K) (z : UFrag ι K) : z.t1Contrib s false = .ok (B1 s z z.t1) := congrArg Except.ok (contrib1_eq s z z.t1)

theorem t1Contrib_l (s : UMf ι o v K) (tl : Bool) (z : UFrag ι K) (h : UHasLambda tl z) : z.t1Contrib s (!tl) = .ok (B1 s z (lamA1 tl z)) := by
  have key : ∀ t, (if !tl && !z.tAsLambda then z.l1 else some z.t1) = some t → z.t1Contrib s (!tl) = .ok (B1 s z t) := by
    intro t ht
    unfold UFrag.t1Contrib
    rw [ht]
    exact congrArg Except.ok (contrib1_eq s z t)
  refine key _ ?_
  unfold lamA1
  rcases h with rfl | h | ⟨h1, -⟩
  · rfl
  · rw [h]; cases tl <;> rfl
  · obtain ⟨l1, h1⟩ := Option.isSome_iff_exists.1 h1
    rw [h1]
    cases tl <;> cases z.tAsLambda <;> rfl

/-! ### Families -/

/-- The fragment or its image. -/
def memberU (y : UFrag ι K) : Option (ι → ι → K) → UFrag ι K
  | none => { y with ops := [] }
  | some u => y.image u

theorem hasLambda_member {tl : Bool} {y : UFrag ι K} (h : UHasLambda tl y) (u : Option (ι → ι → K)) : UHasLambda tl (memberU y u) := by
  cases u <;> exact h

theorem family_eq (y : UFrag ι K) : y.family = (y.copies true).map (memberU y) := by
  show _ = memberU y none :: (y.ops.map some).map (memberU y)
  rw [List.map_map]
  rfl

theorem mem_family {l : List (UFrag ι K)} {z : UFrag ι K} (h : z ∈ l.flatMap UFrag.family) : ∃ y ∈ l, ∃ u ∈ y.copies true, z = memberU y u := by
  obtain ⟨y, hy, hz⟩ := List.mem_flatMap.1 h
  rw [family_eq] at hz
  obtain ⟨u, hu, rfl⟩ := List.mem_map.1 hz
  exact ⟨y, hy, u, hu, rfl⟩

theorem member_mem {l : List (UFrag ι K)} {y : UFrag ι K} (h : y ∈ l) {u : Option (ι → ι → K)} (hu : u ∈ y.copies true) : memberU y u ∈ l.flatMap UFrag.family :=
  List.mem_flatMap.2 ⟨y, h, by rw [family_eq]; exact List.mem_map_of_mem hu⟩

theorem lam_family {tl : Bool} {l : List (UFrag ι K)} (h : ∀ x ∈ l, UHasLambda tl x) : ∀ z ∈ l.flatMap UFrag.family, UHasLambda tl z := by
  intro z hz
  obtain ⟨y, hy, u, -, rfl⟩ := mem_family hz
  exact hasLambda_member (h y hy) u

/-- Loop over fragments used. -/
def loopOf (w : Opts K) (l : List (UFrag ι K)) : List (UFrag ι K) := if w.useSym then l else l.flatMap UFrag.family

theorem loop_mem {w : Opts K} {l : List (UFrag ι K)} {x : UFrag ι K} (hx : x ∈ loopOf w l) : { x with ops := [] } ∈ l.flatMap UFrag.family := by
  unfold loopOf at hx
  split_ifs at hx with h
  · exact member_mem hx (u := none) (by simp [UFrag.copies])
  · obtain ⟨y, hy, u, hu, rfl⟩ := mem_family hx
    cases u <;> exact member_mem hy hu

theorem sum_loop {M : Type*} [AddMonoid M] (w : Opts K) (l : List (UFrag ι K)) (c : UFrag ι K → M) :
    ((loopOf w l).map fun y => ((y.copies w.useSym).map fun u => c (memberU y u)).sum).sum = ((l.flatMap UFrag.family).map c).sum := by
  unfold loopOf
  cases hw : w.useSym with
  | true =>
    rw [if_pos rfl, sum_flatMap']
    refine congrArg List.sum (List.map_congr_left fun y _ => ?_)
    rw [family_eq, List.map_map]
    rfl
  | false =>
    rw [if_neg (by simp)]
    refine congrArg List.sum (List.map_congr_left fun y hy => ?_)
    obtain ⟨y', -, u, -, rfl⟩ := mem_family hy
    show (c (memberU (memberU y' u) none) + 0) = _
    rw [add_zero]
    cases u <;> rfl

theorem copies_iso {w : Opts K} {l : List (UFrag ι K)} {y : UFrag ι K} (hy : y ∈ loopOf w l) {u : Option (ι → ι → K)}
    (hu : u ∈ y.copies w.useSym) : ∀ g, u = some g → w.useSym = true ∧ y ∈ l ∧ g ∈ y.ops := by
  rintro g rfl
  unfold UFrag.copies at hu
  cases hw : w.useSym with
  | false => rw [hw] at hu; simp at hu
  | true =>
    rw [hw] at hu
    unfold loopOf at hy
    rw [hw, if_pos rfl] at hy
    refine ⟨rfl, hy, ?_⟩
    simpa using hu

theorem copies_true {w : Opts K} {l : List (UFrag ι K)} {y : UFrag ι K} (hy : y ∈ loopOf w l) {u : Option (ι → ι → K)} (hu : u ∈ y.copies w.useSym) :
    memberU y u ∈ l.flatMap UFrag.family := by
  unfold loopOf at hy
  cases hw : w.useSym with
  | true =>
    rw [hw] at hu hy
    exact member_mem (by simpa using hy) hu
  | false =>
    rw [hw] at hu hy
    have hu' : u = none := by simpa [UFrag.copies] using hu
    subst hu'
    obtain ⟨y', hy', u', hu', rfl⟩ := mem_family (by simpa using hy)
    cases u' <;> exact member_mem hy' hu'

/-! ### Global amplitudes -/

/-- Sums of the amplitudes of all fragments. -/
def TgU (s : UMf ι o v K) (l : List (UFrag ι K)) : UT o v K := ((l.flatMap UFrag.family).map fun z => BU s z z.t2).sum
def LgU (s : UMf ι o v K) (tl : Bool) (l : List (UFrag ι K)) : UT o v K := ((l.flatMap UFrag.family).map fun z => BU s z (lamA tl z)).sum
def Tg1 (s : UMf ι o v K) (l : List (UFrag ι K)) : U1 o v K := ((l.flatMap UFrag.family).map fun z => B1 s z z.t1).sum
def Lg1 (s : UMf ι o v K) (tl : Bool) (l : List (UFrag ι K)) : U1 o v K := ((l.flatMap UFrag.family).map fun z => B1 s z (lamA1 tl z)).sum

theorem block_Tg (s : UMf ι o v K) (l : List (UFrag ι K)) (σ τ : Spin) :
    block (TgU s l) σ τ = ((l.flatMap UFrag.family).map fun z => Bg s z z.t2 σ τ).sum := by
  unfold TgU
  rw [block_sum]
  exact congrArg List.sum (List.map_congr_left fun z _ => block_BU s z _ σ τ)
theorem block_Lg (s : UMf ι o v K) (tl : Bool) (l : List (UFrag ι K)) (σ τ : Spin) :
    block (LgU s tl l) σ τ = ((l.flatMap UFrag.family).map fun z => Bg s z (lamA tl z) σ τ).sum := by
  unfold LgU
  rw [block_sum]
  exact congrArg List.sum (List.map_congr_left fun z _ => block_BU s z _ σ τ)

theorem globT2_t (s : UMf ι o v K) (l : List (UFrag ι K)) : globT2 s false l = .ok (TgU s l) := accumulate_ok _ _ _ fun z _ => t2Contrib_t s z
theorem globT1_t (s : UMf ι o v K) (l : List (UFrag ι K)) : globT1 s false l = .ok (Tg1 s l) := accumulate_ok _ _ _ fun z _ => t1Contrib_t s z
theorem globT2_l (s : UMf ι o v K) (tl : Bool) (l : List (UFrag ι K)) (h : ∀ x ∈ l, UHasLambda tl x) : globT2 s (!tl) l = .ok (LgU s tl l) :=
  accumulate_ok _ _ _ fun z hz => t2Contrib_l s tl z (lam_family h z hz)
theorem globT1_l (s : UMf ι o v K) (tl : Bool) (l : List (UFrag ι K)) (h : ∀ x ∈ l, UHasLambda tl x) : globT1 s (!tl) l = .ok (Lg1 s tl l) :=
  accumulate_ok _ _ _ fun z hz => t1Contrib_l s tl z (lam_family h z hz)
theorem LgU_true (s : UMf ι o v K) (l : List (UFrag ι K)) : LgU s true l = TgU s l := rfl
theorem Lg1_true (s : UMf ι o v K) (l : List (UFrag ι K)) : Lg1 s true l = Tg1 s l := rfl

theorem transp_block (t : UT o v K) (haa : transp t.1 = t.1) (hbb : transp t.2.2 = t.2.2) (σ τ : Spin) : transp (block t σ τ) = block t τ σ := by
  cases σ <;> cases τ
  · exact haa
  · rfl
  · rfl
  · exact hbb

theorem transp_block_sum {α : Type*} (l : List α) (c : α → UT o v K) (h : ∀ x ∈ l, ∀ σ τ, transp (block (c x) σ τ) = block (c x) τ σ) (σ τ : Spin) :
    transp (block (l.map c).sum σ τ) = block (l.map c).sum τ σ := by
  rw [block_sum, block_sum, map_sum_add (fun t : T2 (o σ) (o τ) (v σ) (v τ) K => transp t) rfl (fun _ _ => rfl)]
  exact congrArg List.sum (List.map_congr_left fun x hx => h x hx σ τ)

theorem transp_Tg (s : UMf ι o v K) (l : List (UFrag ι K)) (σ τ : Spin) : transp (block (TgU s l) σ τ) = block (TgU s l) τ σ :=
  transp_block_sum _ _ (fun z _ σ τ => by rw [block_BU, block_BU, transp_Bg]) σ τ
theorem transp_Lg (s : UMf ι o v K) (tl : Bool) (l : List (UFrag ι K)) (σ τ : Spin) : transp (block (LgU s tl l) σ τ) = block (LgU s tl l) τ σ :=
  transp_block_sum _ _ (fun z _ σ τ => by rw [block_BU, block_BU, transp_Bg]) σ τ

/-! ### Density matrix of global amplitudes -/

/-- Weight one half for equal spins. -/
def half {m n : Type} (A B : m → n → K) : m → n → K := fun i j => A i j * (1 / 2) + B i j

theorem half_add {m n : Type} (A A' B B' : m → n → K) : half (A + A') (B + B') = half A B + half A' B' := by
  funext i j; simp only [half, Pi.add_apply]; ring
theorem half_zero {m n : Type} : half (0 : m → n → K) 0 = 0 := by
  funext i j; simp [half]
theorem mm_half_r {k m n : Type} [Fintype k] (M : m → k → K) (A B : k → n → K) : mm M (half A B) = half (mm M A) (mm M B) := by
  have e : ∀ {m : Type} (A B : m → n → K), half A B = (1 / 2 : K) • A + B := by
    intro m A B; funext i j; simp only [half, Pi.add_apply, Pi.smul_apply, smul_eq_mul]; ring
  rw [e, e, mm_add_r, mm_smul_r]
theorem mm_half_l {k m n : Type} [Fintype k] (A B : m → k → K) (M : k → n → K) : mm (half A B) M = half (mm A M) (mm B M) := by
  have e : ∀ {n : Type} (A B : m → n → K), half A B = (1 / 2 : K) • A + B := by
    intro m A B; funext i j; simp only [half, Pi.add_apply, Pi.smul_apply, smul_eq_mul]; ring
  rw [e, e, mm_add_l, mm_smul_l]
theorem half_sum {α : Type*} {m n : Type} (l : List α) (A B : α → m → n → K) : (l.map fun x => half (A x) (B x)).sum = half (l.map A).sum (l.map B).sum := by
  induction l with
  | nil => exact half_zero.symm
  | cons x l ih => rw [List.map_cons, List.sum_cons, ih, List.map_cons, List.sum_cons, List.map_cons, List.sum_cons, half_add]

/-- Intermediates of the density matrix. -/
def OOu (t l : ∀ σ τ, T2 (o σ) (o τ) (v σ) (v τ) K) (σ : Spin) : o σ → o σ → K := half (dotO (t σ σ) (l σ σ)) (dotO (t σ σ.other) (l σ σ.other))
def VVu (t l : ∀ σ τ, T2 (o σ) (o τ) (v σ) (v τ) K) (σ : Spin) : v σ → v σ → K := half (dotW (t σ σ) (l σ σ)) (dotW (t σ σ.other) (l σ σ.other))
def OVu (t : ∀ σ τ, T2 (o σ) (o τ) (v σ) (v τ) K) (l1 : U1 o v K) (σ : Spin) : o σ → v σ → K := dotS (t σ σ) (l1 σ) + dotS (t σ σ.other) (l1 σ.other)

theorem ccU_oo (t1 l1 : U1 o v K) (t l : ∀ σ τ, T2 (o σ) (o τ) (v σ) (v τ) K) (σ : Spin) (i j : o σ) : ccRdm1U t1 t l1 l σ (.inl i) (.inl j) =
    (-(∑ a, (t1 σ i a * l1 σ j a + t1 σ j a * l1 σ i a)) - (OOu t l σ i j + OOu t l σ j i)) / 2 := by
  show (-(∑ a, (t1 σ i a * l1 σ j a + t1 σ j a * l1 σ i a)) - (dotO (t σ σ) (l σ σ) i j / 2 + dotO (t σ σ.other) (l σ σ.other) i j +
    (dotO (t σ σ) (l σ σ) j i / 2 + dotO (t σ σ.other) (l σ σ.other) j i))) / 2 = _
  unfold OOu half
  ring
theorem ccU_vv (t1 l1 : U1 o v K) (t l : ∀ σ τ, T2 (o σ) (o τ) (v σ) (v τ) K) (σ : Spin) (a b : v σ) : ccRdm1U t1 t l1 l σ (.inr a) (.inr b) =
    ((∑ i, (t1 σ i a * l1 σ i b + t1 σ i b * l1 σ i a)) + (VVu t l σ a b + VVu t l σ b a)) / 2 := by
  show ((∑ i, (t1 σ i a * l1 σ i b + t1 σ i b * l1 σ i a)) + (dotW (t σ σ) (l σ σ) a b / 2 + dotW (t σ σ.other) (l σ σ.other) a b +
    (dotW (t σ σ) (l σ σ) b a / 2 + dotW (t σ σ.other) (l σ σ.other) b a))) / 2 = _
  unfold VVu half
  ring
theorem ccU_ov (t1 l1 : U1 o v K) (t l : ∀ σ τ, T2 (o σ) (o τ) (v σ) (v τ) K) (σ : Spin) (i : o σ) (a : v σ) : ccRdm1U t1 t l1 l σ (.inl i) (.inr a) =
    (t1 σ i a + l1 σ i a + OVu t l1 σ i a - (∑ e, ∑ m, t1 σ i e * l1 σ m e * t1 σ m a) - (∑ m, OOu t l σ i m * t1 σ m a) - ∑ e, t1 σ i e * VVu t l σ a e) / 2 := by
  have h1 : ∀ i j, OOu t l σ i j = dotO (t σ σ) (l σ σ) i j / 2 + dotO (t σ σ.other) (l σ σ.other) i j := by intro i j; unfold OOu half; ring
  have h2 : ∀ i j, VVu t l σ i j = dotW (t σ σ) (l σ σ) i j / 2 + dotW (t σ σ.other) (l σ σ.other) i j := by intro i j; unfold VVu half; ring
  simp only [h1, h2]
  show (t1 σ i a + l1 σ i a + dotS (t σ σ) (l1 σ) i a + dotS (t σ σ.other) (l1 σ.other) i a - _ - _ - _) / 2 = (_ + (dotS (t σ σ) (l1 σ) i a + dotS (t σ σ.other) (l1 σ.other) i a) - _ - _ - _) / 2
  rw [← add_assoc]
  rfl
theorem ccU_vo (t1 l1 : U1 o v K) (t l : ∀ σ τ, T2 (o σ) (o τ) (v σ) (v τ) K) (σ : Spin) (i : o σ) (a : v σ) :
    ccRdm1U t1 t l1 l σ (.inr a) (.inl i) = ccRdm1U t1 t l1 l σ (.inl i) (.inr a) := rfl

theorem makeRdm1U_eq (t1 l1 : U1 o v K) (t l : UT o v K) (σ : Spin) : makeRdm1U t1 l1 t l σ = ccRdm1U t1 (block t) l1 (block l) σ := by
  have h1 : ∀ i m, (∑ n, ∑ e, ∑ f, block l σ σ.other m n e f * block t σ σ.other i n e f) + (∑ n, ∑ e, ∑ f, block l σ σ m n e f * block t σ σ i n e f) * (1 / 2) =
      OOu (block t) (block l) σ i m := by
    intro i m
    unfold OOu half dotO
    rw [add_comm]
    simp only [mul_comm]
  have h2 : ∀ a e, (∑ m, ∑ n, ∑ f, block t σ σ.other m n a f * block l σ σ.other m n e f) + (∑ m, ∑ n, ∑ f, block t σ σ m n a f * block l σ σ m n e f) * (1 / 2) =
      VVu (block t) (block l) σ a e := by
    intro a e
    unfold VVu half dotW
    rw [add_comm]
  have hov : ∀ i a, makeRdm1U t1 l1 t l σ (.inl i) (.inr a) = ccRdm1U t1 (block t) l1 (block l) σ (.inl i) (.inr a) := by
    intro i a
    show (l1 σ i a + ((∑ m, ∑ e, block t σ σ i m a e * l1 σ m e) + (∑ m, ∑ e, block t σ σ.other i m a e * l1 σ.other m e) -
      (∑ m, ((∑ n, ∑ e, ∑ f, block l σ σ.other m n e f * block t σ σ.other i n e f) + (∑ n, ∑ e, ∑ f, block l σ σ m n e f * block t σ σ i n e f) * (1 / 2)) * t1 σ m a) -
      (∑ e, t1 σ i e * ((∑ m, ∑ n, ∑ f, block t σ σ.other m n a f * block l σ σ.other m n e f) + (∑ m, ∑ n, ∑ f, block t σ σ m n a f * block l σ σ m n e f) * (1 / 2) +
        ∑ m, t1 σ m a * l1 σ m e)) + t1 σ i a)) * (1 / 2) = _
    rw [ccU_ov]
    simp only [h1, h2]
    have e : (∑ e, t1 σ i e * (VVu (block t) (block l) σ a e + ∑ m, t1 σ m a * l1 σ m e)) =
        (∑ e, t1 σ i e * VVu (block t) (block l) σ a e) + ∑ e, ∑ m, t1 σ i e * l1 σ m e * t1 σ m a := by
      rw [← Finset.sum_add_distrib]
      refine Finset.sum_congr rfl fun e _ => ?_
      rw [mul_add, Finset.mul_sum]
      exact congrArg _ (Finset.sum_congr rfl fun _ _ => by ring)
    rw [e]
    show (l1 σ i a + (dotS (block t σ σ) (l1 σ) i a + dotS (block t σ σ.other) (l1 σ.other) i a - _ - _ + t1 σ i a)) * (1 / 2) =
      (t1 σ i a + l1 σ i a + (dotS (block t σ σ) (l1 σ) i a + dotS (block t σ σ.other) (l1 σ.other) i a) - _ - _ - _) / 2
    ring
  funext p q
  rcases p with i | a <;> rcases q with j | b
  · rw [ccU_oo, ← h1, ← h1, Finset.sum_add_distrib]
    show (-(∑ e, l1 σ i e * t1 σ j e) - _ + (-(∑ e, l1 σ j e * t1 σ i e) - _)) * (1 / 2) = _
    simp only [mul_comm (l1 σ _ _)]
    ring
  · exact hov i b
  · exact hov j a
  · rw [ccU_vv, ← h2, ← h2, Finset.sum_add_distrib]
    show ((∑ m, t1 σ m a * l1 σ m b) + _ + ((∑ m, t1 σ m b * l1 σ m a) + _)) * (1 / 2) = _
    ring

theorem slowU_ok (s : UMf ι o v K) (tl withT1 : Bool) (l : List (UFrag ι K)) (h : ∀ x ∈ l, UHasLambda tl x) :
    slowU s tl withT1 l = .ok (if withT1 then ccRdm1U (Tg1 s l) (block (TgU s l)) (Lg1 s tl l) (block (LgU s tl l)) else ccRdm1U 0 (block (TgU s l)) 0 (block (LgU s tl l))) := by
  unfold slowU
  rw [globT1_t, globT2_t]
  have e1 : (bif tl then pure (Tg1 s l) else globT1 s true l) = (.ok (Lg1 s tl l) : Except PyErr _) := by
    cases tl with
    | true => rfl
    | false => exact globT1_l s false l h
  have e2 : (bif tl then pure (TgU s l) else globT2 s true l) = (.ok (LgU s tl l) : Except PyErr _) := by
    cases tl with
    | true => rfl
    | false => exact globT2_l s false l h
  show (do
    let l1 ← (bif tl then pure (Tg1 s l) else globT1 s true l)
    let l2 ← (bif tl then pure (TgU s l) else globT2 s true l)
    pure (if withT1 then makeRdm1U (Tg1 s l) l1 (TgU s l) l2 else makeRdm1U 0 0 (TgU s l) l2)) = _
  rw [e1, e2]
  refine congrArg Except.ok ?_
  cases withT1 with
  | true => funext σ; exact makeRdm1U_eq _ _ _ _ σ
  | false => funext σ; exact makeRdm1U_eq _ _ _ _ σ

end Vayesta.EwfURdm
