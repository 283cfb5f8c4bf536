import Verif.Lemmas.EwfRdm
import Verif.Spec.EwfRdm
import Verif.Props.GlobalAmplitudes
import Mathlib.LinearAlgebra.Matrix.NonsingularInverse

/-! Sums over fragments, their symmetry children and pairs of fragments, for `Verif/Model/EwfRdm.lean`. -/

set_option linter.unusedSectionVars false

namespace Vayesta.EwfRdm
open Vayesta.Amplitudes Vayesta.Tensor Vayesta.Props

variable {K : Type} [Field K] {ι o v : Type} [Fintype ι] [Fintype o] [Fintype v]

/-! ### Lists -/

theorem accumulate_ok {α M : Type*} [AddMonoid M] (f : α → Except PyErr M) (c : α → M) (l : List α) (h : ∀ x ∈ l, f x = .ok (c x)) :
    accumulate f l = .ok (l.map c).sum := by
  suffices H : ∀ (l : List α) (acc : M), (∀ x ∈ l, f x = .ok (c x)) →
      l.foldlM (fun acc x => do let c ← f x; pure (acc + c)) acc = (.ok (acc + (l.map c).sum) : Except PyErr M) by
    have := H l 0 h
    rw [zero_add] at this
    exact this
  intro l
  induction l with
  | nil => intro acc _; simp; rfl
  | cons x l ih =>
    intro acc h
    rw [List.foldlM_cons, h x (by simp)]
    have := ih (acc + c x) fun y hy => h y (by simp [hy])
    rw [List.map_cons, List.sum_cons, ← add_assoc]
    exact this

theorem map_sum_add {α M N : Type*} [AddMonoid M] [AddMonoid N] (f : M → N) (h0 : f 0 = 0) (ha : ∀ a b, f (a + b) = f a + f b) (c : α → M)
    (l : List α) : f (l.map c).sum = (l.map fun x => f (c x)).sum := by
  induction l with
  | nil => simpa using h0
  | cons x l ih => rw [List.map_cons, List.sum_cons, ha, ih, List.map_cons, List.sum_cons]

theorem sum_flatMap' {α β M : Type*} [AddMonoid M] (g : α → List β) (c : β → M) (l : List α) :
    ((l.flatMap g).map c).sum = (l.map fun x => ((g x).map c).sum).sum := by
  induction l with
  | nil => rfl
  | cons x l ih => rw [List.flatMap_cons, List.map_append, List.sum_append, ih, List.map_cons, List.sum_cons]

theorem sum_prod {α M N : Type*} [AddMonoid M] [AddMonoid N] (c : α → M) (d : α → N) (l : List α) :
    (l.map fun x => (c x, d x)).sum = ((l.map c).sum, (l.map d).sum) := by
  induction l with
  | nil => rfl
  | cons x l ih => rw [List.map_cons, List.sum_cons, ih]; rfl

theorem sum_apply2 {α A B : Type*} (c : α → A → B → K) (l : List α) (i : A) (j : B) : (l.map c).sum i j = (l.map fun x => c x i j).sum :=
  map_sum_add (fun f : A → B → K => f i j) rfl (fun _ _ => rfl) c l

theorem sum_apply4 {α A B C D : Type*} (c : α → A → B → C → D → K) (l : List α) (i : A) (j : B) (k : C) (m : D) :
    (l.map c).sum i j k m = (l.map fun x => c x i j k m).sum :=
  map_sum_add (fun f : A → B → C → D → K => f i j k m) rfl (fun _ _ => rfl) c l

/-! ### Contractions -/

section
variable {p q m n a b : Type} [Fintype m] [Fintype a]

/-- Contraction over the second and fourth axis. -/
def dotS (A : p → m → q → a → K) (B : m → a → K) : p → q → K := fun i x => ∑ k, ∑ y, A i k x y * B k y

theorem dotS_L1 [Fintype p] (M : n → p → K) (A : p → m → q → a → K) (B : m → a → K) : dotS (L1 M A) B = mm M (dotS A B) := by
  funext i x
  show ∑ k, ∑ y, (∑ r, M i r * A r k x y) * B k y = ∑ r, M i r * ∑ k, ∑ y, A r k x y * B k y
  simp only [Finset.mul_sum, Finset.sum_mul]
  rw [sum3_comm1 (fun r k y => M i r * (A r k x y * B k y))]
  exact Finset.sum_congr rfl fun _ _ => Finset.sum_congr rfl fun _ _ => Finset.sum_congr rfl fun _ _ => by ring

theorem dotS_L3 [Fintype q] (M : n → q → K) (A : p → m → q → a → K) (B : m → a → K) : dotS (L3 M A) B = mm (dotS A B) (tp M) := by
  funext i x
  show ∑ k, ∑ y, (∑ r, M x r * A i k r y) * B k y = ∑ r, (∑ k, ∑ y, A i k r y * B k y) * M x r
  simp only [Finset.sum_mul]
  rw [sum3_comm1 (fun r k y => A i k r y * B k y * M x r)]
  exact Finset.sum_congr rfl fun _ _ => Finset.sum_congr rfl fun _ _ => Finset.sum_congr rfl fun _ _ => by ring

theorem dotS_L2 [Fintype n] (M : n → m → K) (A : p → m → q → a → K) (B : n → a → K) : dotS (L2 M A) B = dotS A (mm (tp M) B) := by
  funext i x
  show ∑ k, ∑ y, (∑ r, M k r * A i r x y) * B k y = ∑ k, ∑ y, A i k x y * ∑ r, tp M k r * B r y
  rw [Finset.sum_comm, Finset.sum_comm (f := fun k y => A i k x y * ∑ r, tp M k r * B r y)]
  exact Finset.sum_congr rfl fun _ _ => move1 M _ _

theorem dotS_L4 [Fintype n] (M : n → a → K) (A : p → m → q → a → K) (B : m → n → K) : dotS (L4 M A) B = dotS A (mm B M) := by
  funext i x
  show ∑ k, ∑ y, (∑ r, M y r * A i k x r) * B k y = ∑ k, ∑ y, A i k x y * ∑ r, B k r * M r y
  refine Finset.sum_congr rfl fun k _ => (move1 M _ _).trans (Finset.sum_congr rfl fun y _ => ?_)
  exact congrArg (A i k x y * ·) (Finset.sum_congr rfl fun _ _ => mul_comm _ _)

theorem dotS_add (A A' : p → m → q → a → K) (B : m → a → K) : dotS (A + A') B = dotS A B + dotS A' B := by
  funext i x
  simp only [dotS, Pi.add_apply, add_mul, Finset.sum_add_distrib]

theorem dotS_smul (r : K) (A : p → m → q → a → K) (B : m → a → K) : dotS (r • A) B = r • dotS A B := by
  funext i x
  simp only [dotS, Pi.smul_apply, smul_eq_mul, Finset.mul_sum, mul_assoc]

theorem dotS_zero (B : m → a → K) : dotS (0 : p → m → q → a → K) B = 0 := by
  funext i x; simp [dotS]

end

theorem theta_add {f c d : Type} (t u : T2 f c d d K) : theta (t + u) = theta t + theta u := by
  funext i j a b; simp only [theta, Pi.add_apply]; ring
theorem theta_zero {f c d : Type} : theta (0 : T2 f c d d K) = 0 := by
  funext i j a b; simp [theta]

/-- Transformation of an array to the basis of molecular orbitals. -/
def back {c d : Type} [Fintype c] [Fintype d] (ro : o → c → K) (rv : v → d → K) (t : T2 c c d d K) : T2 o o v v K := L1 ro (L2 ro (L3 rv (L4 rv t)))

theorem theta_back {c d : Type} [Fintype c] [Fintype d] (ro : o → c → K) (rv : v → d → K) (t : T2 c c d d K) :
    theta (back ro rv t) = back ro rv (theta t) := by
  have h : back ro rv (fun i j a b => t i j b a) = fun i j a b => back ro rv t i j b a := by
    have : back ro rv (fun i j a b => t i j b a) = fun i j a b => L1 ro (L2 ro (L4 rv (L3 rv t))) i j b a := rfl
    rw [this, L4_L3]; rfl
  have e : theta t = (2 : K) • t + (-1 : K) • fun i j a b => t i j b a := by
    funext i j a b
    simp only [theta, Pi.add_apply, Pi.smul_apply, smul_eq_mul]; ring
  have e' : back ro rv (theta t) = (2 : K) • back ro rv t + (-1 : K) • back ro rv (fun i j a b => t i j b a) := by
    rw [e]
    simp only [back, L4_add, L3_add, L2_add, L1_add, L4_smul, L3_smul, L2_smul, L1_smul]
  rw [e', h]
  funext i j a b
  simp only [theta, Pi.add_apply, Pi.smul_apply, smul_eq_mul]; ring

theorem dotO_back {c d : Type} [Fintype c] [Fintype d] (ro : o → c → K) (rv : v → d → K) (t : T2 c c d d K) (B : T2 o o v v K) :
    dotO (back ro rv t) B = mm ro (dotO t (L2 (tp ro) (L3 (tp rv) (L4 (tp rv) B)))) := by
  rw [back, dotO_L1l, dotO_L2, dotO_L3, dotO_L4, L3_L2, L4_L2, L4_L3]

theorem dotV_back {c d : Type} [Fintype c] [Fintype d] (ro : o → c → K) (rv : v → d → K) (t : T2 c c d d K) (B : T2 o o v v K) :
    dotV (back ro rv t) B = mm rv (dotV t (L1 (tp ro) (L2 (tp ro) (L3 (tp rv) B)))) := by
  rw [back, dotV_L1, dotV_L2, dotV_L3, dotV_L4l, L2_L1, L3_L1, L3_L2]

theorem dotS_back {c d : Type} [Fintype c] [Fintype d] (ro : o → c → K) (rv : v → d → K) (t : T2 c c d d K) (B : T1 o v K) :
    dotS (back ro rv t) B = mm ro (mm (dotS t (mm (tp ro) (mm B rv))) (tp rv)) := by
  rw [back, dotS_L1, dotS_L2, dotS_L3, dotS_L4, mm_assoc]

theorem backT2_eq' {c d : Type} [Fintype c] [Fintype d] (ro : o → c → K) (rv : v → d → K) (t : T2 c c d d K) :
    backT2 ro rv t = back ro rv t := by
  classical
  exact backT2_eq ro rv t

/-! ### One fragment -/

/-- Lambda amplitudes used. -/
def lamA (tl : Bool) (z : Frag ι K) : T2 z.f z.co z.cv z.cv K := if tl || z.mp2 then z.t2 else z.l2.getD 0

/-- Amplitudes of a fragment in the basis of molecular orbitals. -/
def Bt (s : Mf ι o v K) (z : Frag ι K) : T2 o o v v K := back (z.mco s) (z.mcv s) (restored (z.px s) z.t2)
def Bl (s : Mf ι o v K) (tl : Bool) (z : Frag ι K) : T2 o o v v K := back (z.mco s) (z.mcv s) (restored (z.px s) (lamA tl z))

theorem lam_ok {tl : Bool} {z : Frag ι K} (h : HasLambda tl z) : z.lam tl = .ok (lamA tl z) := by
  unfold Frag.lam lamA
  rcases h with rfl | ⟨-, -, h2, -⟩
  · rfl
  · obtain ⟨l2, h2⟩ := Option.isSome_iff_exists.1 h2
    rw [h2]
    cases tl <;> cases z.mp2 <;> rfl

theorem t2Contrib_t (s : Mf ι o v K) (z : Frag ι K) : (z.toAmp s).t2Contrib false = .ok (Bt s z) :=
  congrArg Except.ok (backT2_eq' (z.mco s) (z.mcv s) (restored (z.px s) z.t2))

theorem t2Contrib_l (s : Mf ι o v K) (tl : Bool) (z : Frag ι K) (h : HasLambda tl z) : (z.toAmp s).t2Contrib (!tl) = .ok (Bl s tl z) := by
  rcases h with rfl | ⟨h1, -, h2, h3⟩
  · exact t2Contrib_t s z
  · obtain ⟨l2, h2⟩ := Option.isSome_iff_exists.1 h2
    cases htl : tl with
    | true =>
      have : Bl s true z = Bt s z := rfl
      rw [this]
      exact t2Contrib_t s z
    | false =>
      have hl : lamA false z = l2 := by
        unfold lamA
        cases hm : z.mp2 with
        | false => rw [h2]; rfl
        | true =>
          have := h3 hm
          rw [h2] at this
          exact (Option.some.inj this).symm
      have e : (z.toAmp s).t2Contrib true = .ok (backT2 (z.mco s) (z.mcv s) (restored (z.px s) l2)) := by
        have ha : z.toAmp s = { ro := z.mco s, rv := z.mcv s, pwf := .ccsd (.proj (z.px s) z.t1 z.t2 z.l1 (some l2)), tAsLambda := false } := by
          unfold Frag.toAmp; rw [h1, h2]
        rw [ha]
        rfl
      rw [show (!false) = true from rfl, e, backT2_eq']
      unfold Bl
      rw [hl]

theorem t1Contrib_ok (s : Mf ι o v K) (tl : Bool) (z : Frag ι K) (h : HasLambda tl z) : ∃ c, (z.toAmp s).t1Contrib (!tl) = .ok c := by
  rcases h with rfl | ⟨h1, h2, -⟩
  · exact ⟨_, rfl⟩
  · obtain ⟨l1, h2⟩ := Option.isSome_iff_exists.1 h2
    cases htl : tl with
    | true => exact ⟨_, rfl⟩
    | false =>
      refine ⟨backT1 (z.mco s) (z.mcv s) (projectC1 (tr (z.px s)) l1), ?_⟩
      have ha : z.toAmp s = { ro := z.mco s, rv := z.mcv s, pwf := .ccsd (.proj (z.px s) z.t1 z.t2 (some l1) z.l2), tAsLambda := false } := by
        unfold Frag.toAmp; rw [h1, h2]
      rw [ha]
      rfl

theorem globT2_eq (s : Mf ι o v K) (g : Bool) (l : List (Frag ι K)) (c : Frag ι K → T2 o o v v K)
    (h : ∀ z ∈ l.flatMap Frag.family, (z.toAmp s).t2Contrib g = .ok (c z)) : globT2 s g l = .ok ((l.flatMap Frag.family).map c).sum := by
  have e : globT2 s g l = accumulate (fun z : Frag ι K => (z.toAmp s).t2Contrib g) (l.flatMap Frag.family) := by
    unfold globT2 globalT2 accumulate
    rw [List.foldlM_map]
    rfl
  rw [e]
  exact accumulate_ok _ _ _ h

theorem globT1_ok (s : Mf ι o v K) (g : Bool) (l : List (Frag ι K))
    (h : ∀ z ∈ l.flatMap Frag.family, ∃ c, (z.toAmp s).t1Contrib g = .ok c) : ∃ t, globT1 s g l = .ok t := by
  have e : globT1 s g l = accumulate (fun z : Frag ι K => (z.toAmp s).t1Contrib g) (l.flatMap Frag.family) := by
    unfold globT1 globalT1 accumulate
    rw [List.foldlM_map]
    rfl
  rw [e]
  classical
  exact ⟨_, accumulate_ok _ (fun z => if h : ∃ c, (z.toAmp s).t1Contrib g = .ok c then h.choose else 0) _ fun z hz => by
    rw [dif_pos (h z hz)]; exact (h z hz).choose_spec⟩

/-! ### Symmetry operations -/

theorem mm_comm_delta {n : Type} [Fintype n] [DecidableEq n] {A B : n → n → K} (h : mm A B = delta) : mm B A = delta := by
  have h1 : (Matrix.of A) * (Matrix.of B) = 1 := by
    ext i j
    rw [Matrix.one_apply]
    exact congrFun (congrFun h i) j
  have h2 := mul_eq_one_comm.1 h1
  funext i j
  have := congrFun (congrFun h2 i) j
  rw [Matrix.one_apply] at this
  exact this

section
variable {n : Type} [Fintype n] [DecidableEq n] {s : Mf ι o v K} {u : ι → ι → K} {c : ι → n → K} {d : n → n → K}

theorem rep_eq (hc : mm (tp c) (mm s.ovlp c) = delta) (hd : mm u c = mm c d) : rep s u c = d := by
  rw [rep, hd, ← mm_assoc s.ovlp, ← mm_assoc, hc, delta_mm]

theorem rep_orth (hu : mm (tp u) (mm s.ovlp u) = s.ovlp) (hc : mm (tp c) (mm s.ovlp c) = delta) (hd : mm u c = mm c d) : mm (tp d) d = delta := by
  have h1 : mm (tp (mm u c)) (mm s.ovlp (mm u c)) = delta := by
    have : mm (tp (mm u c)) (mm s.ovlp (mm u c)) = mm (tp c) (mm (mm (tp u) (mm s.ovlp u)) c) := by
      rw [tp_mm]; simp only [mm_assoc]
    rw [this, hu, hc]
  rw [hd, tp_mm, mm_assoc] at h1
  have h2 : mm (tp c) (mm s.ovlp (mm c d)) = d := by rw [← mm_assoc s.ovlp, ← mm_assoc, hc, delta_mm]
  rw [h2] at h1
  exact h1

theorem rep_move (hu : mm (tp u) (mm s.ovlp u) = s.ovlp) (hc : mm (tp c) (mm s.ovlp c) = delta) (hd : mm u c = mm c d) :
    mm (tp c) (mm s.ovlp u) = mm d (mm (tp c) s.ovlp) := by
  have h1 := mm_comm_delta (rep_orth hu hc hd)
  have h2 : mm (tp d) (mm (tp c) (mm s.ovlp u)) = mm (tp c) s.ovlp := by
    rw [← mm_assoc, ← tp_mm, ← hd, tp_mm, mm_assoc, hu]
  rw [← h2, ← mm_assoc d, h1, delta_mm]

end

/-! ### Pairs of fragments -/

/-- Body of the pair loop as function of what it reads of the second fragment. -/
def pairCore (s : Mf ι o v K) (w : Opts K) (x : Frag ι K) {f c d : Type} [Fintype f] [Fintype c] [Fintype d] (lam : Except PyErr (T2 f c d d K))
    (cf : c → f → K) (px : f → c → K) (cyo : o → c → K) (cyv : v → d → K) (mfy : o → f → K) : Except PyErr ((x.co → o → K) × (x.cv → v → K)) :=
  let ro := mm (tp (x.mco s)) cyo
  let rv := mm (tp (x.mcv s)) cyv
  if skipped w.small ro rv then .ok 0
  else do
    let l2 ← lam
    if w.late then
      pure (occLate w.svd (theta x.t2) l2 ro rv (x.cf s) cf mfy cyo, virLate w.svd (theta x.t2) l2 ro rv (x.cf s) cf cyv)
    else pure (pairEarly w.svd (theta (restored (x.px s) x.t2)) (restored px l2) ro rv cyo cyv)

/-- The fragment or its image. -/
def member (y : Frag ι K) : Option (ι → ι → K) → Frag ι K
  | none => { y with ops := [] }
  | some u => y.image u

theorem hasLambda_member {tl : Bool} {y : Frag ι K} (h : HasLambda tl y) (u : Option (ι → ι → K)) : HasLambda tl (member y u) := by
  cases u <;> exact h

theorem family_eq (y : Frag ι K) : y.family = (y.copies true).map (member y) := by
  show _ = member y none :: (y.ops.map some).map (member y)
  rw [List.map_map]
  rfl

theorem image_cf (s : Mf ι o v K) (y : Frag ι K) (u : ι → ι → K) (hu : mm (tp u) (mm s.ovlp u) = s.ovlp) : (y.image u).cf s = y.cf s := by
  show mm (tp (mm u y.cOcc)) (mm s.ovlp (mm u y.cFrag)) = mm (tp y.cOcc) (mm s.ovlp y.cFrag)
  have : mm (tp (mm u y.cOcc)) (mm s.ovlp (mm u y.cFrag)) = mm (tp y.cOcc) (mm (mm (tp u) (mm s.ovlp u)) y.cFrag) := by
    rw [tp_mm]; simp only [mm_assoc]
  rw [this, hu]

theorem image_px (s : Mf ι o v K) (y : Frag ι K) (u : ι → ι → K) (hu : mm (tp u) (mm s.ovlp u) = s.ovlp) : (y.image u).px s = y.px s := by
  show mm (tp (mm u y.cFrag)) (mm s.ovlp (mm u y.cOcc)) = mm (tp y.cFrag) (mm s.ovlp y.cOcc)
  have : mm (tp (mm u y.cFrag)) (mm s.ovlp (mm u y.cOcc)) = mm (tp y.cFrag) (mm (mm (tp u) (mm s.ovlp u)) y.cOcc) := by
    rw [tp_mm]; simp only [mm_assoc]
  rw [this, hu]

theorem pairTerm_core (s : Mf ι o v K) (w : Opts K) (x y : Frag ι K) (u : Option (ι → ι → K)) :
    pairTerm s w x y u = pairCore s w x (y.lam w.tAsLambda) (y.cf s) (y.px s) (mm (mm (tp s.moOcc) s.ovlp) (act u y.cOcc))
      (mm (mm (tp s.moVir) s.ovlp) (act u y.cVir)) (mm (mm (tp s.moOcc) s.ovlp) (act u y.cFrag)) := rfl

theorem pairTerm_member (s : Mf ι o v K) (w : Opts K) (x y : Frag ι K) (hl : HasLambda w.tAsLambda y) (u : Option (ι → ι → K))
    (hu : ∀ g, u = some g → mm (tp g) (mm s.ovlp g) = s.ovlp) : pairTerm s w x y u = pairTerm s w x (member y u) none := by
  rw [pairTerm_core, pairTerm_core, lam_ok hl, lam_ok (hasLambda_member hl u)]
  cases u with
  | none => rfl
  | some g =>
    have hg := hu g rfl
    show _ = pairCore s w x (.ok (lamA w.tAsLambda y)) ((y.image g).cf s) ((y.image g).px s) _ _ _
    rw [image_cf s y g hg, image_px s y g hg]
    rfl

/-- Intermediates of fragment `x` with an array in the basis of molecular orbitals. -/
def xO (s : Mf ι o v K) (x : Frag ι K) (B : T2 o o v v K) : x.co → o → K :=
  -dotO (theta (restored (x.px s) x.t2)) (L2 (tp (x.mco s)) (L3 (tp (x.mcv s)) (L4 (tp (x.mcv s)) B)))
def xV (s : Mf ι o v K) (x : Frag ι K) (B : T2 o o v v K) : x.cv → v → K :=
  dotV (theta (restored (x.px s) x.t2)) (L1 (tp (x.mco s)) (L2 (tp (x.mco s)) (L3 (tp (x.mcv s)) B)))

theorem xO_add (s : Mf ι o v K) (x : Frag ι K) (B C : T2 o o v v K) : xO s x (B + C) = xO s x B + xO s x C := by
  unfold xO
  rw [L4_add, L3_add, L2_add, dotO_add_r, neg_add]
theorem xV_add (s : Mf ι o v K) (x : Frag ι K) (B C : T2 o o v v K) : xV s x (B + C) = xV s x B + xV s x C := by
  unfold xV
  rw [L3_add, L2_add, L1_add, dotV_add_r]
theorem xO_zero (s : Mf ι o v K) (x : Frag ι K) : xO s x 0 = 0 := by
  unfold xO
  rw [L4_zero, L3_zero, L2_zero, dotO_zero, neg_zero]
theorem xV_zero (s : Mf ι o v K) (x : Frag ι K) : xV s x 0 = 0 := by
  unfold xV
  rw [L3_zero, L2_zero, L1_zero]
  funext i j; simp [dotV]

theorem pairO (s : Mf ι o v K) (x : Frag ι K) {c d : Type} [Fintype c] [Fintype d] (cyo : o → c → K) (cyv : v → d → K) (t : T2 c c d d K) :
    xO s x (back cyo cyv t) = -dotO (theta (restored (x.px s) x.t2))
      (L1 cyo (L2 (mm (tp (x.mco s)) cyo) (L3 (mm (tp (x.mcv s)) cyv) (L4 (mm (tp (x.mcv s)) cyv) t)))) := by
  unfold xO back
  rw [L4_L1, L4_L2, L4_L3, L4_L4, L3_L1, L3_L2, L3_L3, L2_L1, L2_L2]

theorem pairV (s : Mf ι o v K) (x : Frag ι K) {c d : Type} [Fintype c] [Fintype d] (cyo : o → c → K) (cyv : v → d → K) (t : T2 c c d d K) :
    xV s x (back cyo cyv t) = dotV (theta (restored (x.px s) x.t2))
      (L1 (mm (tp (x.mco s)) cyo) (L2 (mm (tp (x.mco s)) cyo) (L3 (mm (tp (x.mcv s)) cyv) (L4 cyv t)))) := by
  unfold xV back
  rw [L3_L1, L3_L2, L3_L3, L2_L1, L2_L2, L1_L1]

theorem cf_px (s : Mf ι o v K) (hS : tp s.ovlp = s.ovlp) (x : Frag ι K) : tp (x.cf s) = x.px s := by
  show tp (mm (tp x.cOcc) (mm s.ovlp x.cFrag)) = mm (tp x.cFrag) (mm s.ovlp x.cOcc)
  rw [tp_mm, tp_mm, hS, tp_tp, mm_assoc]

/-- A pair of fragments. -/
theorem pairTerm_ok (s : Mf ι o v K) (hS : tp s.ovlp = s.ovlp) (w : Opts K) (x z : Frag ι K)
    (ho : Keeps w.svd (occOvlp s x z)) (hv : Keeps w.svd (virOvlp s x z)) (hso : ∀ g, w.small = some g → g _ _ (occOvlp s x z) = true → occOvlp s x z = 0)
    (hsv : ∀ g, w.small = some g → g _ _ (virOvlp s x z) = true → virOvlp s x z = 0) (hl : HasLambda w.tAsLambda z)
    (hin : w.late = true → OccInCluster s z) :
    pairTerm s w x z none = .ok (xO s x (Bl s w.tAsLambda z), xV s x (Bl s w.tAsLambda z)) := by
  rw [pairTerm_core, lam_ok hl, mm_assoc, mm_assoc, mm_assoc]
  show pairCore s w x (.ok (lamA w.tAsLambda z)) (z.cf s) (z.px s) (z.mco s) (z.mcv s) (z.mf s) = _
  unfold pairCore Bl
  dsimp only
  rw [pairO, pairV]
  change Keeps w.svd (mm (tp (x.mco s)) (z.mco s)) at ho
  change Keeps w.svd (mm (tp (x.mcv s)) (z.mcv s)) at hv
  change ∀ g, w.small = some g → g _ _ (mm (tp (x.mco s)) (z.mco s)) = true → mm (tp (x.mco s)) (z.mco s) = 0 at hso
  change ∀ g, w.small = some g → g _ _ (mm (tp (x.mcv s)) (z.mcv s)) = true → mm (tp (x.mcv s)) (z.mcv s) = 0 at hsv
  split_ifs with hsk hlate
  · unfold skipped at hsk
    cases hsm : w.small with
    | none => rw [hsm] at hsk; simp at hsk
    | some g =>
      rw [hsm] at hsk
      dsimp only at hsk
      rw [Bool.or_eq_true] at hsk
      rcases hsk with h | h
      · rw [hso g hsm h]
        simp only [L2_zero', L1_zero, dotO_zero, neg_zero]
        refine congrArg Except.ok (Prod.ext rfl ?_)
        funext i j; simp [dotV]
      · rw [hsv g hsm h]
        simp only [L3_zero', L2_zero, L1_zero, dotO_zero, neg_zero]
        refine congrArg Except.ok (Prod.ext rfl ?_)
        funext i j; simp [dotV]
  · have hm : z.mf s = mm (z.mco s) (z.cf s) := by
      have := hin hlate
      unfold OccInCluster at this
      show mm (tp s.moOcc) (mm s.ovlp z.cFrag) = mm (mm (tp s.moOcc) (mm s.ovlp z.cOcc)) (mm (tp z.cOcc) (mm s.ovlp z.cFrag))
      rw [this]
      simp only [mm_assoc]
    rw [hm]
    show Except.ok _ = _
    rw [occLate_eq _ _ _ ho hv, virLate_eq _ _ _ ho hv, cf_px s hS, cf_px s hS, theta_restored]
  · show Except.ok _ = _
    rw [pairEarly_eq _ _ _ ho hv]

/-! ### Sums over fragments -/

/-- What is needed of the fragments. -/
structure Good (s : Mf ι o v K) (w : Opts K) (l : List (Frag ι K)) : Prop where
  ovlp : tp s.ovlp = s.ovlp
  loss : NoLoss s w (l.flatMap Frag.family)
  lam : ∀ x ∈ l, HasLambda w.tAsLambda x
  inC : w.late = true → ∀ z ∈ l.flatMap Frag.family, OccInCluster s z
  iso : w.useSym = true → ∀ x ∈ l, ∀ u ∈ x.ops, mm (tp u) (mm s.ovlp u) = s.ovlp

theorem mem_family {l : List (Frag ι K)} {z : Frag ι K} (h : z ∈ l.flatMap Frag.family) : ∃ y ∈ l, ∃ u ∈ y.copies true, z = member y u := by
  obtain ⟨y, hy, hz⟩ := List.mem_flatMap.1 h
  rw [family_eq] at hz
  obtain ⟨u, hu, rfl⟩ := List.mem_map.1 hz
  exact ⟨y, hy, u, hu, rfl⟩

theorem member_mem {l : List (Frag ι K)} {y : Frag ι K} (h : y ∈ l) {u : Option (ι → ι → K)} (hu : u ∈ y.copies true) : member y u ∈ l.flatMap Frag.family :=
  List.mem_flatMap.2 ⟨y, h, by rw [family_eq]; exact List.mem_map_of_mem hu⟩

theorem good_lam {s : Mf ι o v K} {w : Opts K} {l : List (Frag ι K)} (h : Good s w l) {z : Frag ι K} (hz : z ∈ l.flatMap Frag.family) :
    HasLambda w.tAsLambda z := by
  obtain ⟨y, hy, u, -, rfl⟩ := mem_family hz
  exact hasLambda_member (h.lam y hy) u

/-- The same fragment up to the list of operations. -/
theorem pair_all {s : Mf ι o v K} {w : Opts K} {l : List (Frag ι K)} (h : Good s w l) (x : Frag ι K) (hx : { x with ops := [] } ∈ l.flatMap Frag.family)
    {z : Frag ι K} (hz : z ∈ l.flatMap Frag.family) :
    pairTerm s w x z none = .ok (xO s x (Bl s w.tAsLambda z), xV s x (Bl s w.tAsLambda z)) :=
  pairTerm_ok s h.ovlp w x z (fun g hg => h.loss.occ g hg _ hx z hz) (fun g hg => h.loss.vir g hg _ hx z hz)
    (fun g hg => h.loss.smallOcc g hg _ hx z hz) (fun g hg => h.loss.smallVir g hg _ hx z hz) (good_lam h hz) fun hl => h.inC hl z hz

/-- Loop over fragments used. -/
def loopOf (w : Opts K) (l : List (Frag ι K)) : List (Frag ι K) := if w.useSym then l else l.flatMap Frag.family

theorem loop_mem {w : Opts K} {l : List (Frag ι K)} {x : Frag ι K} (hx : x ∈ loopOf w l) : { x with ops := [] } ∈ l.flatMap Frag.family := by
  unfold loopOf at hx
  split_ifs at hx with h
  · exact member_mem hx (u := none) (by simp [Frag.copies])
  · obtain ⟨y, hy, u, hu, rfl⟩ := mem_family hx
    cases u <;> exact member_mem hy hu

/-- Sum of the lambda amplitudes. -/
def Lg (s : Mf ι o v K) (w : Opts K) (l : List (Frag ι K)) : T2 o o v v K := ((l.flatMap Frag.family).map (Bl s w.tAsLambda)).sum
def Tg (s : Mf ι o v K) (l : List (Frag ι K)) : T2 o o v v K := ((l.flatMap Frag.family).map (Bt s)).sum

theorem sum_loop {M : Type} [AddMonoid M] (w : Opts K) (l : List (Frag ι K)) (c : Frag ι K → M) :
    ((loopOf w l).map fun y => ((y.copies w.useSym).map fun u => c (member y u)).sum).sum = ((l.flatMap Frag.family).map c).sum := by
  unfold loopOf
  cases hw : w.useSym with
  | true =>
    rw [if_pos rfl, sum_flatMap']
    refine congrArg List.sum (List.map_congr_left fun y _ => ?_)
    rw [family_eq, List.map_map]
    rfl
  | false =>
    rw [if_neg (by simp)]
    refine congrArg List.sum (List.map_congr_left fun y hy => ?_)
    obtain ⟨y', -, u, -, rfl⟩ := mem_family hy
    show (c (member (member y' u) none) + 0) = _
    rw [add_zero]
    cases u <;> rfl

theorem copies_iso {w : Opts K} {l : List (Frag ι K)} {y : Frag ι K} (hy : y ∈ loopOf w l) {u : Option (ι → ι → K)}
    (hu : u ∈ y.copies w.useSym) : ∀ g, u = some g → w.useSym = true ∧ y ∈ l ∧ g ∈ y.ops := by
  rintro g rfl
  unfold Frag.copies at hu
  cases hw : w.useSym with
  | false => rw [hw] at hu; simp at hu
  | true =>
    rw [hw] at hu
    unfold loopOf at hy
    rw [hw, if_pos rfl] at hy
    refine ⟨rfl, hy, ?_⟩
    simpa using hu

theorem copies_true {w : Opts K} {l : List (Frag ι K)} {y : Frag ι K} (hy : y ∈ loopOf w l) {u : Option (ι → ι → K)} (hu : u ∈ y.copies w.useSym) :
    member y u ∈ l.flatMap Frag.family := by
  unfold loopOf at hy
  cases hw : w.useSym with
  | true =>
    rw [hw] at hu hy
    exact member_mem (by simpa using hy) hu
  | false =>
    rw [hw] at hu hy
    have hu' : u = none := by simpa [Frag.copies] using hu
    subst hu'
    obtain ⟨y', hy', u', hu', rfl⟩ := mem_family (by simpa using hy)
    cases u' <;> exact member_mem hy' hu'

theorem loop_lam {s : Mf ι o v K} {w : Opts K} {l : List (Frag ι K)} (h : Good s w l) {y : Frag ι K} (hy : y ∈ loopOf w l) : HasLambda w.tAsLambda y := by
  unfold loopOf at hy
  split_ifs at hy with h'
  · exact h.lam y hy
  · exact good_lam h hy

theorem xIntermediates_ok {s : Mf ι o v K} {w : Opts K} {l : List (Frag ι K)} (h : Good s w l) {x : Frag ι K} (hx : x ∈ loopOf w l) :
    xIntermediates s w (loopOf w l) x = .ok (xO s x (Lg s w l), xV s x (Lg s w l)) := by
  have h1 : ∀ y ∈ loopOf w l, accumulate (pairTerm s w x y) (y.copies w.useSym) =
      .ok ((y.copies w.useSym).map fun u => (xO s x (Bl s w.tAsLambda (member y u)), xV s x (Bl s w.tAsLambda (member y u)))).sum := by
    intro y hy
    refine accumulate_ok _ _ _ fun u hu => ?_
    rw [pairTerm_member s w x y (loop_lam h hy) u fun g hg => by
      obtain ⟨a, b, c⟩ := copies_iso hy hu g hg
      exact h.iso a y b g c]
    exact pair_all h x (loop_mem hx) (copies_true hy hu)
  unfold xIntermediates
  rw [accumulate_ok _ _ _ h1, sum_loop w l fun z => (xO s x (Bl s w.tAsLambda z), xV s x (Bl s w.tAsLambda z)), sum_prod]
  refine congrArg Except.ok (Prod.ext ?_ ?_)
  · exact (map_sum_add _ (xO_zero s x) (xO_add s x) _ _).symm
  · exact (map_sum_add _ (xV_zero s x) (xV_add s x) _ _).symm

end Vayesta.EwfRdm
