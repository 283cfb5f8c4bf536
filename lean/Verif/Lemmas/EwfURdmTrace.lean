import Verif.Lemmas.EwfURdmExact

/-! Traces of unrestricted density matrices, errors, and amplitudes of fragments closed under symmetry, for `Verif/Model/EwfURdm.lean`. -/

set_option linter.unusedSectionVars false

namespace Vayesta.EwfURdm
open Vayesta.Amplitudes Vayesta.Tensor Vayesta.EwfRdm

variable {K : Type} [Field K] {ι : Type} {o v : Spin → Type} [Fintype ι] [∀ σ, Fintype (o σ)] [∀ σ, Fintype (v σ)]

/-! ### Symmetry of the matrices and their traces -/

theorem combineU_symm {o v : Type} [Fintype o] [Fintype v] (wt : Bool) (t1 l1 : T1 o v K) (d : (o → o → K) × (v → v → K) × (o → v → K)) :
    tp (combineU wt t1 l1 d) = combineU wt t1 l1 d := by
  funext p q
  show (_ + _) / 4 = (_ + _) / 4
  rw [add_comm]

theorem combineF_symm {o v : Type} [Fintype o] [Fintype v] (mp2 : Bool) (t1 l1 : T1 o v K) (d : (o → o → K) × (v → v → K) × (o → v → K)) :
    tp (combineF mp2 t1 l1 d) = combineF mp2 t1 l1 d := by
  have h : ∀ (m : o ⊕ v → o ⊕ v → K), tp m = m → tp (fun p q => m p q / 2) = fun p q => m p q / 2 := by
    intro m hm
    funext p q
    exact congrArg (· / 2) (congrFun (congrFun hm p) q)
  cases mp2
  · exact h _ (blocks_symm _ _ _ (by funext i j; exact add_comm _ _) (by funext i j; exact add_comm _ _))
  · exact h _ (blocks_symm _ _ _ (by funext i j; exact add_comm _ _) (by funext i j; exact add_comm _ _))

theorem makeRdm1U_symm (t1 l1 : U1 o v K) (t2 l2 : UT o v K) (σ : Spin) : tp (makeRdm1U t1 l1 t2 l2 σ) = makeRdm1U t1 l1 t2 l2 σ := by
  funext p q
  exact congrArg (· * (1 / 2)) (congrFun (congrFun (makeRdm1_symm (gammaU (t1 σ) (l1 σ) (l1 σ.other) (block t2 σ σ) (block l2 σ σ) (block t2 σ σ.other) (block l2 σ σ.other))) p) q)

section
variable {o v : Type} [Fintype o] [Fintype v]

theorem trc_combineU (wt : Bool) (t1 l1 : T1 o v K) (d : (o → o → K) × (v → v → K) × (o → v → K)) (h : Bal d) : ∑ p, combineU wt t1 l1 d p p = 0 := by
  have h' : (∑ i, d.1 i i) + ∑ a, d.2.1 a a = 0 := h
  rw [Fintype.sum_sum_type]
  cases wt with
  | false =>
    show (∑ i, (d.1 i i + d.1 i i + (d.1 i i + d.1 i i)) / 4) + ∑ a, (d.2.1 a a + d.2.1 a a + (d.2.1 a a + d.2.1 a a)) / 4 = 0
    rw [← Finset.sum_div, ← Finset.sum_div]
    simp only [Finset.sum_add_distrib]
    linear_combination 4 * h' / 4
  | true =>
    show (∑ i, (d.1 i i - (∑ a, l1 i a * t1 i a) + (d.1 i i - ∑ a, l1 i a * t1 i a) + (d.1 i i - (∑ a, l1 i a * t1 i a) + (d.1 i i - ∑ a, l1 i a * t1 i a))) / 4) +
      ∑ a, (d.2.1 a a + (∑ i, t1 i a * l1 i a) + (d.2.1 a a + ∑ i, t1 i a * l1 i a) + (d.2.1 a a + (∑ i, t1 i a * l1 i a) + (d.2.1 a a + ∑ i, t1 i a * l1 i a))) / 4 = 0
    rw [← Finset.sum_div, ← Finset.sum_div]
    simp only [Finset.sum_add_distrib, Finset.sum_sub_distrib, mul_comm (l1 _ _)]
    rw [Finset.sum_comm (f := fun a i => t1 i a * l1 i a)]
    linear_combination 4 * h' / 4

theorem trc_combineF (mp2 : Bool) (t1 l1 : T1 o v K) (d : (o → o → K) × (v → v → K) × (o → v → K)) (h : Bal d) : ∑ p, combineF mp2 t1 l1 d p p = 0 := by
  have h' : (∑ i, d.1 i i) + ∑ a, d.2.1 a a = 0 := h
  rw [Fintype.sum_sum_type]
  cases mp2 with
  | true =>
    show (∑ i, (d.1 i i + d.1 i i) / 2) + ∑ a, (d.2.1 a a + d.2.1 a a) / 2 = 0
    rw [← Finset.sum_div, ← Finset.sum_div]
    simp only [Finset.sum_add_distrib]
    linear_combination 2 * h' / 2
  | false =>
    show (∑ i, (d.1 i i - (∑ a, l1 i a * t1 i a) + (d.1 i i - ∑ a, l1 i a * t1 i a)) / 2) +
      ∑ a, (d.2.1 a a + (∑ i, t1 i a * l1 i a) + (d.2.1 a a + ∑ i, t1 i a * l1 i a)) / 2 = 0
    rw [← Finset.sum_div, ← Finset.sum_div]
    simp only [Finset.sum_add_distrib, Finset.sum_sub_distrib, mul_comm (l1 _ _)]
    rw [Finset.sum_comm (f := fun a i => t1 i a * l1 i a)]
    linear_combination 2 * h' / 2

end

theorem bal_half {o v : Type} [Fintype o] [Fintype v] {A A' : o → o → K} {B B' : v → v → K} (h : trc A = trc B) (h' : trc A' = trc B') (z : o → v → K) :
    Bal (-half A A', half B B', z) := by
  have e : ∀ {n : Type} [Fintype n] (A B : n → n → K), trc (half A B) = trc A * (1 / 2) + trc B := by
    intro n _ A B
    show ∑ i, (A i i * (1 / 2) + B i i) = _
    rw [Finset.sum_add_distrib, ← Finset.sum_mul]
    rfl
  have n : trc (-half A A') = -trc (half A A') := Finset.sum_neg_distrib _
  show trc (-half A A') + trc (half B B') = 0
  rw [n, e, e, h, h']
  ring

theorem bal_tp {o v : Type} [Fintype o] [Fintype v] (A : o → o → K) (B : v → v → K) (z : o → v → K) (h : Bal (-A, B, z)) : Bal (-tp A, B, z) := h

theorem trc_ccU (t1 l1 : U1 o v K) (t l : ∀ σ τ, T2 (o σ) (o τ) (v σ) (v τ) K) (σ : Spin) : ∑ p, ccRdm1U t1 t l1 l σ p p = 0 := by
  rw [← combineF_false]
  exact trc_combineF _ _ _ _ (bal_tp _ _ _ (bal_half (dotO_dotW_trc _ _) (dotO_dotW_trc _ _) _))

/-! ### Pairs of fragments -/

theorem fromTl_trc {c d e g O V : Type} [Fintype c] [Fintype d] [Fintype e] [Fintype g] [Fintype O] [Fintype V] (tl : c → e → d → g → K) (co : O → c → K)
    (cv : V → d → K) (cyo : O → e → K) (cyv : V → g → K) :
    trc (mm co (fromTl tl (mm (tp co) cyo) (mm (tp cv) cyv) cyo cyv).1) + trc (mm cv (fromTl tl (mm (tp co) cyo) (mm (tp cv) cyv) cyo cyv).2) = 0 := by
  have h : ∀ {m n n' : Type} [Fintype m] [Fintype n] [Fintype n'] (C : m → n → K) (X : n → n' → K) (D : m → n' → K), trc (mm C (mm X (tp D))) = ∑ i, ∑ j, X i j * mm (tp C) D i j := by
    intro m n n' _ _ _ C X D
    rw [trc_comm, mm_assoc]
    refine Finset.sum_congr rfl fun i _ => Finset.sum_congr rfl fun j _ => ?_
    congr 1
    exact Finset.sum_congr rfl fun _ _ => mul_comm _ _
  have e1 : (fromTl tl (mm (tp co) cyo) (mm (tp cv) cyv) cyo cyv).1 = mm (fun i I => -∑ a, ∑ A, tl i I a A * mm (tp cv) cyv a A) (tp cyo) := by
    funext i q
    show -∑ I, _ * cyo q I = ∑ I, -_ * cyo q I
    rw [← Finset.sum_neg_distrib]
    exact Finset.sum_congr rfl fun _ _ => (neg_mul _ _).symm
  have e2 : (fromTl tl (mm (tp co) cyo) (mm (tp cv) cyv) cyo cyv).2 = mm (fun a A => ∑ i, ∑ I, tl i I a A * mm (tp co) cyo i I) (tp cyv) := rfl
  rw [e1, e2, h, h]
  have e1 : (∑ i, ∑ j, (-∑ b, ∑ b', tl i j b b' * mm (tp cv) cyv b b') * mm (tp co) cyo i j) =
      -∑ i, ∑ j, ∑ b, ∑ b', tl i j b b' * mm (tp cv) cyv b b' * mm (tp co) cyo i j := by
    simp only [neg_mul, Finset.sum_neg_distrib, Finset.sum_mul]
  have e2 : (∑ b, ∑ b', (∑ i, ∑ j, tl i j b b' * mm (tp co) cyo i j) * mm (tp cv) cyv b b') =
      ∑ i, ∑ j, ∑ b, ∑ b', tl i j b b' * mm (tp cv) cyv b b' * mm (tp co) cyo i j := by
    simp only [Finset.sum_mul]
    have s1 : ∀ F : d → g → c → e → K, (∑ b, ∑ b', ∑ i, ∑ j, F b b' i j) = ∑ i, ∑ j, ∑ b, ∑ b', F b b' i j := by
      intro F
      have a := Finset.sum_comm (s := (Finset.univ : Finset (d × g))) (t := (Finset.univ : Finset (c × e))) (f := fun p q => F p.1 p.2 q.1 q.2)
      simpa only [Fintype.sum_prod_type] using a
    rw [s1]
    exact Finset.sum_congr rfl fun _ _ => Finset.sum_congr rfl fun _ _ => Finset.sum_congr rfl fun _ _ => Finset.sum_congr rfl fun _ _ => by ring
  rw [e1, e2]
  ring

/-- Traces of contributions with open cluster index. -/
def BalX (s : UMf ι o v K) (x : UFrag ι K) (d : ∀ σ, (x.c σ → o σ → K) × (x.d σ → v σ → K)) : Prop :=
  ∀ σ, trc (mm (x.mco s σ) (d σ).1) + trc (mm (x.mcv s σ) (d σ).2) = 0

theorem balX_zero (s : UMf ι o v K) (x : UFrag ι K) : BalX s x 0 := by
  intro σ
  have e : ∀ {m n : Type} [Fintype m] [Fintype n] (C : m → n → K), trc (mm C 0) = 0 := by intro m n _ _ C; simp [trc, mm]
  show trc (mm _ 0) + trc (mm _ 0) = 0
  rw [e, e, add_zero]

theorem balX_add (s : UMf ι o v K) (x : UFrag ι K) (a b : ∀ σ, (x.c σ → o σ → K) × (x.d σ → v σ → K)) (ha : BalX s x a) (hb : BalX s x b) : BalX s x (a + b) := by
  intro σ
  show trc (mm _ ((a σ).1 + (b σ).1)) + trc (mm _ ((a σ).2 + (b σ).2)) = 0
  rw [mm_add_r, mm_add_r, trc_add, trc_add, add_add_add_comm, ha σ, hb σ, add_zero]

theorem pairTermU_trc (s : UMf ι o v K) (w : Opts K) (hw : w.late = false) (x y : UFrag ι K) (d : ∀ σ, (x.c σ → o σ → K) × (x.d σ → v σ → K))
    (h : pairTermU s w x y = .ok d) : BalX s x d := by
  unfold pairTermU at h
  dsimp only at h
  rw [hw] at h
  split_ifs at h with h1 h3
  · cases h
    exact balX_zero s x
  · exact absurd h3 (by simp)
  · obtain ⟨l2, hl⟩ := bind_pure_ok _ _ h
    rw [← hl]
    intro σ
    dsimp only
    have e : ∀ {m n : Type} [Fintype m] [Fintype n] (C : m → n → K) (A B : n → m → K), trc (mm C (fun i j => A i j * (1 / 2) + B i j)) = trc (mm C A) * (1 / 2) + trc (mm C B) := by
      intro m n _ _ C A B
      have : mm C (fun i j => A i j * (1 / 2) + B i j) = half (mm C A) (mm C B) := mm_half_r C A B
      rw [this]
      show ∑ i, (mm C A i i * (1 / 2) + mm C B i i) = _
      rw [Finset.sum_add_distrib, ← Finset.sum_mul]
      rfl
    rw [e, e]
    have k := fun tl => fromTl_trc (O := o σ) (V := v σ) tl (x.mco s σ) (x.mcv s σ) (y.mco s σ) (y.mcv s σ)
    have k1 := k (tlEarly w.svd (block (restoredU (x.px s) x.t2) σ σ) (block (restoredU (y.px s) l2) σ σ) (mm (tp (x.mco s σ)) (y.mco s σ)) (mm (tp (x.mcv s σ)) (y.mcv s σ)))
    have k2 := k (tlEarly w.svd (block (restoredU (x.px s) x.t2) σ σ.other) (block (restoredU (y.px s) l2) σ σ.other) (mm (tp (x.mco s σ.other)) (y.mco s σ.other))
      (mm (tp (x.mcv s σ.other)) (y.mcv s σ.other)))
    linear_combination k1 * (1 / 2) + k2

section
variable [∀ σ, DecidableEq (o σ)] [∀ σ, DecidableEq (v σ)] {s : UMf ι o v K}

theorem xTermU_trc {w : Opts K} (hw : w.late = false) {l : List (UFrag ι K)} {l1 : U1 o v K} {x : UFrag ι K}
    (hs : w.useSym = true → (∀ σ, Orthonormal (s.spin σ)) ∧ ∀ u ∈ x.ops, ∀ σ, Operation (s.spin σ) u) (d : ∀ σ, (o σ → o σ → K) × (v σ → v σ → K) × (o σ → v σ → K))
    (h : xTermU s w l l1 x = .ok d) (σ : Spin) : Bal (d σ) := by
  unfold xTermU at h
  obtain ⟨d', hd', rfl⟩ := bind_pure_ok' _ _ h
  have hb := accumulate_inv (BalX s x) (balX_zero s x) (balX_add s x) _ _ (fun y _ c hc => pairTermU_trc s w hw x y c hc) d' hd' σ
  show trc (mm (x.mco s σ) (d' σ).1 + _) + trc (mm (x.mcv s σ) (d' σ).2 + _) = 0
  rw [trc_add, trc_add, add_add_add_comm, hb, zero_add]
  have key : ∀ p : (o σ → o σ → K) × (v σ → v σ → K), p ∈ ((if w.useSym then x.ops else []).map fun u : ι → ι → K =>
    (mm (mm (tp (s.moOcc σ)) s.ovlp) (mm (mm u (x.cOcc σ)) (mm (mm (mm (d' σ).1 (tp (s.moOcc σ))) (tp u)) (tp (mm (tp (s.moOcc σ)) s.ovlp)))),
      mm (mm (tp (s.moVir σ)) s.ovlp) (mm (mm u (x.cVir σ)) (mm (mm (mm (d' σ).2 (tp (s.moVir σ))) (tp u)) (tp (mm (tp (s.moVir σ)) s.ovlp)))))) → trc p.1 + trc p.2 = 0 := by
    intro p hp
    obtain ⟨u, hu, rfl⟩ := List.mem_map.1 hp
    cases hsym : w.useSym with
    | false => rw [hsym] at hu; simp at hu
    | true =>
      rw [hsym] at hu
      obtain ⟨ho, hop⟩ := hs hsym
      have hu' := hop u (by simpa using hu)
      have hS : tp s.ovlp = s.ovlp := (ho σ).ovlp
      have hr : ∀ {n : Type} (c : ι → n → K), tp (rep (s.spin σ) u c) = mm (tp c) (mm (tp u) (mm s.ovlp c)) := by
        intro n c
        rw [rep, tp_mm, tp_mm, tp_mm, (ho σ).ovlp, tp_tp, mm_assoc, mm_assoc]
        rfl
      dsimp only
      have e1 : mm (mm (tp (s.moOcc σ)) s.ovlp) (mm (mm u (x.cOcc σ)) (mm (mm (mm (d' σ).1 (tp (s.moOcc σ))) (tp u)) (tp (mm (tp (s.moOcc σ)) s.ovlp)))) =
          mm (rO s u σ) (mm (mm (x.mco s σ) (d' σ).1) (tp (rO s u σ))) := by
        have h1 : mm (tp (s.moOcc σ)) (mm s.ovlp (mm u (x.cOcc σ))) = mm (rO s u σ) (x.mco s σ) := image_mco (ho σ) (hu' σ) (x.spin σ)
        have h2 : tp (rO s u σ) = mm (tp (s.moOcc σ)) (mm (tp u) (mm s.ovlp (s.moOcc σ))) := hr _
        rw [h2, ← mm_assoc (rO s u σ), ← mm_assoc (rO s u σ) (x.mco s σ), ← h1, tp_mm, hS, tp_tp]
        simp only [mm_assoc]
      have e2 : mm (mm (tp (s.moVir σ)) s.ovlp) (mm (mm u (x.cVir σ)) (mm (mm (mm (d' σ).2 (tp (s.moVir σ))) (tp u)) (tp (mm (tp (s.moVir σ)) s.ovlp)))) =
          mm (rV s u σ) (mm (mm (x.mcv s σ) (d' σ).2) (tp (rV s u σ))) := by
        have h1 : mm (tp (s.moVir σ)) (mm s.ovlp (mm u (x.cVir σ))) = mm (rV s u σ) (x.mcv s σ) := image_mcv (ho σ) (hu' σ) (x.spin σ)
        have h2 : tp (rV s u σ) = mm (tp (s.moVir σ)) (mm (tp u) (mm s.ovlp (s.moVir σ))) := hr _
        rw [h2, ← mm_assoc (rV s u σ), ← mm_assoc (rV s u σ) (x.mcv s σ), ← h1, tp_mm, hS, tp_tp]
        simp only [mm_assoc]
      rw [e1, e2, trc_conj (rO_orth ho hu' σ), trc_conj (rV_orth ho hu' σ), hb]
  have sumz : ∀ q : List ((o σ → o σ → K) × (v σ → v σ → K)), (∀ p ∈ q, trc p.1 + trc p.2 = 0) → trc q.sum.1 + trc q.sum.2 = 0 := by
    intro q
    induction q with
    | nil => intro _; show trc 0 + trc 0 = 0; rw [trc_zero, trc_zero, add_zero]
    | cons p q ih =>
      intro hq
      rw [List.sum_cons]
      show trc (p.1 + q.sum.1) + trc (p.2 + q.sum.2) = 0
      rw [trc_add, trc_add, add_add_add_comm, hq p (by simp), ih fun r hr => hq r (by simp [hr]), add_zero]
  exact sumz _ key

end

/-! ### Sums of fragment contributions -/

theorem fragBlocksU_trc (s : UMf ι o v K) (sym mp2 : Bool) (m1 : U1 o v K) (x : UFrag ι K) (σ : Spin) [DecidableEq (x.c σ)] [DecidableEq (x.d σ)]
    (ho : mm (tp (x.mco s σ)) (x.mco s σ) = delta) (hv : mm (tp (x.mcv s σ)) (x.mcv s σ) = delta) (l2 : ∀ σ τ, T2 (x.f σ) (x.c τ) (x.d σ) (x.d τ) K) :
    Bal (fragBlocksU s sym mp2 m1 x l2 σ) := by
  rw [fragBlocksU_eq]
  have t1 : ∀ {m a b : Type} [Fintype m] [Fintype a] [Fintype b] (A B : x.c σ → m → a → b → K), trc (dotO (L1 (x.mco s σ) A) (L1 (x.mco s σ) B)) = trc (dotO A B) := by
    intro m a b _ _ _ A B
    rw [dotO_L1l, dotO_L1r, trc_comm, mm_assoc, ho, mm_delta]
  have t2 : ∀ {m n a : Type} [Fintype m] [Fintype n] [Fintype a] (A B : m → n → x.d σ → a → K), trc (dotW (L3 (x.mcv s σ) A) (L3 (x.mcv s σ) B)) = trc (dotW A B) := by
    intro m n a _ _ _ A B
    rw [dotW_L3l, dotW_L3r, trc_comm, mm_assoc, hv, mm_delta]
  have t3 : ∀ {m n a : Type} [Fintype m] [Fintype n] [Fintype a] (A B : m → n → a → x.d σ → K), trc (dotV (L4 (x.mcv s σ) A) (L4 (x.mcv s σ) B)) = trc (dotV A B) := by
    intro m n a _ _ _ A B
    rw [dotV_L4l, dotV_L4r, trc_comm, mm_assoc, hv, mm_delta]
  have comm : ∀ {p m a b : Type} [Fintype p] [Fintype m] [Fintype a] [Fintype b] (A B : p → m → a → b → K), trc (dotO A B) = trc (dotO B A) := by
    intro p m a b _ _ _ _ A B
    rw [dotO_swap]
    rfl
  refine bal_half ?_ ?_ _
  · rw [t1, t2, comm]
    exact (dotO_transp (x.t2 σ σ) (l2 σ σ)).trans (dotO_dotW_trc _ _)
  · rw [t1, t3, comm]
    exact (dotO_transp (x.t2 σ.other σ) (l2 σ.other σ)).trans (dotO_trc _ _)

/-! ### Fragments closed under an operation -/

section
variable [∀ σ, DecidableEq (o σ)] [∀ σ, DecidableEq (v σ)] {s : UMf ι o v K} (hs : ∀ σ, Orthonormal (s.spin σ)) {u : ι → ι → K} (hu : ∀ σ, Operation (s.spin σ) u)
include hs hu

theorem B1_image (x : UFrag ι K) (t : ∀ σ, T1 (x.f σ) (x.d σ) K) (σ : Spin) : B1 s (x.image u) t σ = mm (rO s u σ) (mm (B1 s x t σ) (tp (rV s u σ))) := by
  have e : ∀ {A A' : o σ → x.c σ → K} {B B' : v σ → x.d σ → K} {p p' : x.f σ → x.c σ → K} (t : T1 (x.f σ) (x.d σ) K), A = A' → B = B' → p = p' →
      mm A (mm (mm (tp p) t) (tp B)) = mm A' (mm (mm (tp p') t) (tp B')) := by
    rintro A A' B B' p p' t rfl rfl rfl; rfl
  refine (e (t σ) (image_mco (hs σ) (hu σ) (x.spin σ)) (image_mcv (hs σ) (hu σ) (x.spin σ)) (image_px (s.spin σ) (x.spin σ) u (hu σ).ovlp)).trans ?_
  show mm (mm (rO s u σ) (x.mco s σ)) (mm (mm (tp (x.px s σ)) (t σ)) (tp (mm (rV s u σ) (x.mcv s σ)))) = _
  unfold B1
  rw [tp_mm]
  simp only [mm_assoc]

theorem invU_of_closed (tl : Bool) {l : List (UFrag ι K)} (hc : ((l.flatMap UFrag.family).map fun z => z.image u).Perm (l.flatMap UFrag.family)) :
    UInvariant s u (block (LgU s tl l)) := by
  have h1 : ∀ σ τ, backG (rO s u σ) (rO s u τ) (rV s u σ) (rV s u τ) (block (LgU s tl l) σ τ) = block (LgU s tl l) σ τ := by
    intro σ τ
    rw [block_Lg]
    have hp := (hc.map fun z => Bg s z (lamA tl z) σ τ).sum_eq
    rw [List.map_map] at hp
    conv_rhs => rw [← hp]
    have e : ((fun z => Bg s z (lamA tl z) σ τ) ∘ fun z => z.image u) = fun z : UFrag ι K => backG (rO s u σ) (rO s u τ) (rV s u σ) (rV s u τ) (Bg s z (lamA tl z) σ τ) :=
      funext fun z => Bg_image hs hu z (lamA tl z) σ τ
    rw [e]
    refine map_sum_add (fun t : T2 (o σ) (o τ) (v σ) (v τ) K => backG (rO s u σ) (rO s u τ) (rV s u σ) (rV s u τ) t) ?_ ?_ _ _
    · funext i j a b; simp [backG, L1, L2, L3, L4]
    · intro a b
      unfold backG
      rw [L4_add, L3_add, L2_add, L1_add]
  intro σ τ i j a b
  conv_rhs => rw [← h1]
  simp only [backG, rO, rV, L1, L2, L3, L4, Finset.mul_sum]

theorem inv1U_of_closed (tl : Bool) {l : List (UFrag ι K)} (hc : ((l.flatMap UFrag.family).map fun z => z.image u).Perm (l.flatMap UFrag.family)) (σ : Spin) :
    Invariant1 (s.spin σ) u (Lg1 s tl l σ) := by
  have h1 : mm (rO s u σ) (mm (Lg1 s tl l σ) (tp (rV s u σ))) = Lg1 s tl l σ := by
    unfold Lg1
    rw [sum_pi]
    have hp := (hc.map fun z => B1 s z (lamA1 tl z) σ).sum_eq
    rw [List.map_map] at hp
    conv_rhs => rw [← hp]
    have e : ((fun z => B1 s z (lamA1 tl z) σ) ∘ fun z => z.image u) = fun z : UFrag ι K => mm (rO s u σ) (mm (B1 s z (lamA1 tl z) σ) (tp (rV s u σ))) :=
      funext fun z => B1_image hs hu z (lamA1 tl z) σ
    rw [e]
    refine map_sum_add (fun t : T1 (o σ) (v σ) K => mm (rO s u σ) (mm t (tp (rV s u σ)))) ?_ ?_ _ _
    · funext i a; simp [mm]
    · intro a b
      show mm _ (mm (a + b) _) = _
      rw [mm_add_l, mm_add_r]
  intro i a
  conv_rhs => rw [← h1]
  simp only [mm, tp, rO, rV, Finset.mul_sum]
  have e : ∀ a b c : K, a * (b * c) = a * (c * b) := fun a b c => by ring
  exact Finset.sum_congr rfl fun _ _ => Finset.sum_congr rfl fun _ _ => e _ _ _

end

end Vayesta.EwfURdm
