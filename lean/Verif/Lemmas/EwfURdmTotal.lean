import Verif.Lemmas.EwfURdmSum

/-! The sum of all contributions of the unrestricted `make_rdm1_ccsd_global_wf`. -/

set_option linter.unusedSectionVars false

namespace Vayesta.EwfURdm
open Vayesta.Amplitudes Vayesta.Tensor Vayesta.EwfRdm

variable {K : Type} [Field K] {ι : Type} {o v : Spin → Type} [Fintype ι] [∀ σ, Fintype (o σ)] [∀ σ, Fintype (v σ)]

/-! ### Pairs -/

/-- Intermediates of fragment `x` with doubles in the basis of molecular orbitals. -/
def xOu (s : UMf ι o v K) (x : UFrag ι K) (L : ∀ σ τ, T2 (o σ) (o τ) (v σ) (v τ) K) (σ : Spin) : x.c σ → o σ → K :=
  half (xOG (Rg s x x.t2 σ σ) (x.mco s σ) (x.mcv s σ) (x.mcv s σ) (L σ σ)) (xOG (Rg s x x.t2 σ σ.other) (x.mco s σ.other) (x.mcv s σ) (x.mcv s σ.other) (L σ σ.other))
def xVu (s : UMf ι o v K) (x : UFrag ι K) (L : ∀ σ τ, T2 (o σ) (o τ) (v σ) (v τ) K) (σ : Spin) : x.d σ → v σ → K :=
  half (xVG (Rg s x x.t2 σ σ) (x.mco s σ) (x.mco s σ) (x.mcv s σ) (L σ σ)) (xVG (Rg s x x.t2 σ σ.other) (x.mco s σ) (x.mco s σ.other) (x.mcv s σ.other) (L σ σ.other))

theorem xOu_add (s : UMf ι o v K) (x : UFrag ι K) (L M : ∀ σ τ, T2 (o σ) (o τ) (v σ) (v τ) K) (σ : Spin) : xOu s x (L + M) σ = xOu s x L σ + xOu s x M σ := by
  unfold xOu
  rw [← half_add, ← xOG_add, ← xOG_add]
  rfl
theorem xVu_add (s : UMf ι o v K) (x : UFrag ι K) (L M : ∀ σ τ, T2 (o σ) (o τ) (v σ) (v τ) K) (σ : Spin) : xVu s x (L + M) σ = xVu s x L σ + xVu s x M σ := by
  unfold xVu
  rw [← half_add, ← xVG_add, ← xVG_add]
  rfl
theorem xOu_zero (s : UMf ι o v K) (x : UFrag ι K) (σ : Spin) : xOu s x 0 σ = 0 := by
  have := half_zero (K := K) (m := x.c σ) (n := o σ)
  unfold xOu
  rw [← this]
  exact congrArg₂ half (xOG_zero _ _ _ _) (xOG_zero _ _ _ _)
theorem xVu_zero (s : UMf ι o v K) (x : UFrag ι K) (σ : Spin) : xVu s x 0 σ = 0 := by
  have := half_zero (K := K) (m := x.d σ) (n := v σ)
  unfold xVu
  rw [← this]
  exact congrArg₂ half (xVG_zero _ _ _ _) (xVG_zero _ _ _ _)

theorem cf_pxU (s : UMf ι o v K) (hS : tp s.ovlp = s.ovlp) (x : UFrag ι K) (σ : Spin) : tp (x.cf s σ) = x.px s σ := cf_px (s.spin σ) hS (x.spin σ)
theorem inC_eqU {s : UMf ι o v K} {x : UFrag ι K} {σ : Spin} (h : OccInCluster (s.spin σ) (x.spin σ)) : x.mf s σ = mm (x.mco s σ) (x.cf s σ) := inC_eq h

section
variable {K : Type} [Field K] {f g c d e h f' g' c' d' e' h' O V : Type} [Fintype f] [Fintype g] [Fintype c] [Fintype d] [Fintype e] [Fintype h]
  [Fintype f'] [Fintype g'] [Fintype c'] [Fintype d'] [Fintype e'] [Fintype h'] [Fintype O] [Fintype V]

theorem occPair (svd : Option (∀ m n : Type, (m → n → K) → Factors m n K)) (t : T2 f c d d K) (l : T2 g e h h K) (t' : T2 f c' d d' K) (tr' : T2 f' c d' d K)
    (l' : T2 g e' h h' K) (lr' : T2 g' e h' h K) (ro : c → e → K) (rv : d → h → K) (ro' : c' → e' → K) (rv' : d' → h' → K) (cfx : c → f → K) (cfx' : c' → f' → K)
    (cfy : e → g → K) (cfy' : e' → g' → K) (cyo : O → e → K) (ho : Keeps svd ro) (hv : Keeps svd rv) (ho' : Keeps svd ro') (hv' : Keeps svd rv') :
    occJoin (occRaw svd t t l l ro rv rv cfx cfy) (occRaw svd t' tr' l' lr' ro' rv rv' cfx' cfy') cfx (mm cyo cfy) cyo = half
      (-dotO (restoredG (tp cfx) (tp cfx) t t) (L1 cyo (L2 ro (L3 rv (L4 rv (restoredG (tp cfy) (tp cfy) l l))))))
      (-dotO (restoredG (tp cfx) (tp cfx') t' tr') (L1 cyo (L2 ro' (L3 rv (L4 rv' (restoredG (tp cfy) (tp cfy') l' lr')))))) := by
  rw [occJoin_eq, occRaw_eq _ _ _ _ _ _ _ _ _ _ ho hv hv, occRaw_eq _ _ _ _ _ _ _ _ _ _ ho' hv hv', ← occTot_eq, ← occTot_eq]
  rfl

theorem virPair (svd : Option (∀ m n : Type, (m → n → K) → Factors m n K)) (t : T2 f c d d K) (l : T2 g e h h K) (t' : T2 f c' d d' K) (tr' : T2 f' c d' d K)
    (l' : T2 g e' h h' K) (lr' : T2 g' e h' h K) (ro : c → e → K) (rv : d → h → K) (ro' : c' → e' → K) (rv' : d' → h' → K) (cfx : c → f → K) (cfx' : c' → f' → K)
    (cfy : e → g → K) (cfy' : e' → g' → K) (cyv : V → h → K) (ho : Keeps svd ro) (hv : Keeps svd rv) (ho' : Keeps svd ro') (hv' : Keeps svd rv') :
    mm (fun b B => virRaw svd t t l l ro ro rv cfx cfx cfy cfy b B / 8 + virRaw svd t' tr' l' lr' ro ro' rv' cfx cfx' cfy cfy' b B / 4) (tp cyv) = half
      (mm (dotW (restoredG (tp cfx) (tp cfx) t t) (L1 ro (L2 ro (L4 rv (restoredG (tp cfy) (tp cfy) l l))))) (tp cyv))
      (mm (dotW (restoredG (tp cfx) (tp cfx') t' tr') (L1 ro (L2 ro' (L4 rv' (restoredG (tp cfy) (tp cfy') l' lr'))))) (tp cyv)) := by
  have e8 : ∀ {m n : Type} (A B : m → n → K), (fun b B' => A b B' / 8 + B b B' / 4) = half ((1 / 4 : K) • A) ((1 / 4 : K) • B) := by
    intro m n A B
    funext i j
    simp only [half, Pi.smul_apply, smul_eq_mul, div_eq_mul_inv, eighth]
    ring
  rw [virRaw_eq _ _ _ _ _ _ _ _ _ _ _ _ ho ho hv, virRaw_eq _ _ _ _ _ _ _ _ _ _ _ _ ho ho' hv', virTot_eq, virTot_eq, e8, mm_half_l]

theorem earlyPair (svd : Option (∀ m n : Type, (m → n → K) → Factors m n K)) (R : T2 c c d d K) (Q : T2 e e h h K) (R' : T2 c c' d d' K) (Q' : T2 e e' h h' K)
    (ro : c → e → K) (rv : d → h → K) (ro' : c' → e' → K) (rv' : d' → h' → K) (cyo : O → e → K) (cyv : V → h → K)
    (ho : Keeps svd ro) (hv : Keeps svd rv) (ho' : Keeps svd ro') (hv' : Keeps svd rv') :
    (fun i j => (fromTl (tlEarly svd R Q ro rv) ro rv cyo cyv).1 i j * (1 / 2) + (fromTl (tlEarly svd R' Q' ro' rv') ro rv cyo cyv).1 i j,
      fun a b => (fromTl (tlEarly svd R Q ro rv) ro rv cyo cyv).2 a b * (1 / 2) + (fromTl (tlEarly svd R' Q' ro' rv') ro rv cyo cyv).2 a b) =
    (half (-dotO R (L1 cyo (L2 ro (L3 rv (L4 rv Q))))) (-dotO R' (L1 cyo (L2 ro' (L3 rv (L4 rv' Q'))))),
      half (mm (dotW R (L1 ro (L2 ro (L4 rv Q)))) (tp cyv)) (mm (dotW R' (L1 ro (L2 ro' (L4 rv' Q')))) (tp cyv))) := by
  rw [fromTl_eq _ _ _ _ _ _ _ ho hv, fromTl_eq _ _ _ _ _ _ _ ho' hv']
  rfl

end

theorem Rg_cf (s : UMf ι o v K) (hS : tp s.ovlp = s.ovlp) (x : UFrag ι K) (t : ∀ σ τ, T2 (x.f σ) (x.c τ) (x.d σ) (x.d τ) K) (σ τ : Spin) :
    Rg s x t σ τ = restoredG (tp (x.cf s σ)) (tp (x.cf s τ)) (t σ τ) (t τ σ) := by
  rw [cf_pxU s hS, cf_pxU s hS]
  rfl

/-- A pair of fragments. -/
theorem pairTermU_ok (s : UMf ι o v K) (hS : tp s.ovlp = s.ovlp) (w : Opts K) (x z : UFrag ι K)
    (ho : ∀ σ, Keeps w.svd (mm (tp (x.mco s σ)) (z.mco s σ))) (hv : ∀ σ, Keeps w.svd (mm (tp (x.mcv s σ)) (z.mcv s σ)))
    (hso : ∀ g, w.small = some g → (∀ σ, g _ _ (mm (tp (x.mco s σ)) (z.mco s σ)) = true) → ∀ σ, mm (tp (x.mco s σ)) (z.mco s σ) = 0)
    (hsv : ∀ g, w.small = some g → (∀ σ, g _ _ (mm (tp (x.mcv s σ)) (z.mcv s σ)) = true) → ∀ σ, mm (tp (x.mcv s σ)) (z.mcv s σ) = 0)
    (hl : UHasLambda w.tAsLambda z) (hin : w.late = true → ∀ σ, OccInCluster (s.spin σ) (z.spin σ)) :
    pairTermU s w x z = .ok fun σ => (xOu s x (Bg s z (lamA w.tAsLambda z)) σ, xVu s x (Bg s z (lamA w.tAsLambda z)) σ) := by
  unfold pairTermU
  dsimp only
  rw [lam_ok hl]
  obtain ⟨l2, hl2⟩ : ∃ l2, l2 = lamA w.tAsLambda z := ⟨_, rfl⟩
  rw [← hl2]
  have eO : ∀ σ, xOu s x (Bg s z l2) σ = half
      (-dotO (Rg s x x.t2 σ σ) (L1 (z.mco s σ) (L2 (mm (tp (x.mco s σ)) (z.mco s σ)) (L3 (mm (tp (x.mcv s σ)) (z.mcv s σ)) (L4 (mm (tp (x.mcv s σ)) (z.mcv s σ)) (Rg s z l2 σ σ))))))
      (-dotO (Rg s x x.t2 σ σ.other) (L1 (z.mco s σ) (L2 (mm (tp (x.mco s σ.other)) (z.mco s σ.other)) (L3 (mm (tp (x.mcv s σ)) (z.mcv s σ))
        (L4 (mm (tp (x.mcv s σ.other)) (z.mcv s σ.other)) (Rg s z l2 σ σ.other)))))) := by
    intro σ
    exact congrArg₂ half (xOG_pair _ _ _ _ _ _ _ _ _) (xOG_pair _ _ _ _ _ _ _ _ _)
  have eV : ∀ σ, xVu s x (Bg s z l2) σ = half
      (mm (dotW (Rg s x x.t2 σ σ) (L1 (mm (tp (x.mco s σ)) (z.mco s σ)) (L2 (mm (tp (x.mco s σ)) (z.mco s σ)) (L4 (mm (tp (x.mcv s σ)) (z.mcv s σ)) (Rg s z l2 σ σ))))) (tp (z.mcv s σ)))
      (mm (dotW (Rg s x x.t2 σ σ.other) (L1 (mm (tp (x.mco s σ)) (z.mco s σ)) (L2 (mm (tp (x.mco s σ.other)) (z.mco s σ.other))
        (L4 (mm (tp (x.mcv s σ.other)) (z.mcv s σ.other)) (Rg s z l2 σ σ.other))))) (tp (z.mcv s σ))) := by
    intro σ
    exact congrArg₂ half (xVG_pair _ _ _ _ _ _ _ _ _) (xVG_pair _ _ _ _ _ _ _ _ _)
  split_ifs with hsk hlate
  · unfold skippedU at hsk
    have z0 : ∀ {m n k : Type} [Fintype k] (M : k → n → K), mm (0 : m → k → K) M = 0 := by intro m n k _ M; funext i j; simp [mm]
    cases hsm : w.small with
    | none => rw [hsm] at hsk; simp at hsk
    | some g =>
      rw [hsm] at hsk
      dsimp only at hsk
      rw [Bool.or_eq_true, Bool.and_eq_true, Bool.and_eq_true] at hsk
      refine congrArg Except.ok ?_
      funext σ
      rw [eO, eV]
      rcases hsk with h | h
      · have hz := hso g hsm fun σ => by cases σ; exacts [h.1, h.2]
        rw [hz σ, hz σ.other]
        simp only [L2_zero', L1_zero, L1_zero', dotO_zero, dotW_zero, neg_zero, z0, half_zero]
        rfl
      · have hz := hsv g hsm fun σ => by cases σ; exacts [h.1, h.2]
        rw [hz σ, hz σ.other]
        have l4 : ∀ {a b c d m : Type} [Fintype m] (t : T2 a b c m K), L4 (0 : d → m → K) t = 0 := by intro a b c d m _ t; funext i j x y; simp [L4]
        simp only [l4, L3_zero, L2_zero, L1_zero, dotO_zero, dotW_zero, neg_zero, z0, half_zero]
        rfl
  · refine congrArg Except.ok ?_
    funext σ
    rw [eO, eV]
    simp only [Rg_cf s hS]
    refine Prod.ext ?_ ?_
    · dsimp only
      rw [inC_eqU (hin hlate σ)]
      exact occPair w.svd _ _ _ _ _ _ _ _ _ _ _ _ _ _ _ (ho σ) (hv σ) (ho σ.other) (hv σ.other)
    · exact virPair w.svd _ _ _ _ _ _ _ _ _ _ _ _ _ _ _ (ho σ) (hv σ) (ho σ.other) (hv σ.other)
  · refine congrArg Except.ok ?_
    funext σ
    rw [eO, eV]
    simp only [block_restoredU]
    exact earlyPair w.svd _ _ _ _ _ _ _ _ _ _ (ho σ) (hv σ) (ho σ.other) (hv σ.other)

/-- What is needed of the fragments. -/
structure GoodU (s : UMf ι o v K) (w : Opts K) (l : List (UFrag ι K)) : Prop where
  ovlp : tp s.ovlp = s.ovlp
  loss : UNoLoss s w (l.flatMap UFrag.family)
  lam : ∀ x ∈ l, UHasLambda w.tAsLambda x
  inC : w.late = true → ∀ z ∈ l.flatMap UFrag.family, ∀ σ, OccInCluster (s.spin σ) (z.spin σ)

theorem pair_all {s : UMf ι o v K} {w : Opts K} {l : List (UFrag ι K)} (h : GoodU s w l) (x : UFrag ι K) (hx : { x with ops := [] } ∈ l.flatMap UFrag.family)
    {z : UFrag ι K} (hz : z ∈ l.flatMap UFrag.family) :
    pairTermU s w x z = .ok fun σ => (xOu s x (Bg s z (lamA w.tAsLambda z)) σ, xVu s x (Bg s z (lamA w.tAsLambda z)) σ) :=
  pairTermU_ok s h.ovlp w x z (fun σ g hg => h.loss.occ g hg _ hx z hz σ) (fun σ g hg => h.loss.vir g hg _ hx z hz σ)
    (fun g hg => h.loss.smallOcc g hg _ hx z hz) (fun g hg => h.loss.smallVir g hg _ hx z hz) (lam_family h.lam z hz) fun hl => h.inC hl z hz

theorem intermediates_ok {s : UMf ι o v K} {w : Opts K} {l : List (UFrag ι K)} (h : GoodU s w l) {x : UFrag ι K} (hx : x ∈ loopOf w l) :
    accumulate (pairTermU s w x) (l.flatMap UFrag.family) =
      .ok fun σ => (xOu s x (block (LgU s w.tAsLambda l)) σ, xVu s x (block (LgU s w.tAsLambda l)) σ) := by
  rw [accumulate_ok _ _ _ fun z hz => pair_all h x (loop_mem hx) hz]
  refine congrArg Except.ok ?_
  have hL : block (LgU s w.tAsLambda l) = ((l.flatMap UFrag.family).map fun z => Bg s z (lamA w.tAsLambda z)).sum := by
    funext σ τ
    rw [block_Lg, sum_pi, sum_pi]
  funext σ
  rw [sum_pi, sum_prod, hL]
  exact Prod.ext (map_sum_add (fun L => xOu s x L σ) (xOu_zero s x σ) (fun L M => xOu_add s x L M σ) _ _).symm
    (map_sum_add (fun L => xVu s x L σ) (xVu_zero s x σ) (fun L M => xVu_add s x L M σ) _ _).symm

/-! ### Contributions of one fragment -/

/-- Contributions of a fragment to the intermediates. -/
def termOO (s : UMf ι o v K) (L : ∀ σ τ, T2 (o σ) (o τ) (v σ) (v τ) K) (z : UFrag ι K) (σ : Spin) : o σ → o σ → K := -OOu (Bg s z z.t2) L σ
def termVV (s : UMf ι o v K) (L : ∀ σ τ, T2 (o σ) (o τ) (v σ) (v τ) K) (z : UFrag ι K) (σ : Spin) : v σ → v σ → K := VVu (Bg s z z.t2) L σ
def termOV (s : UMf ι o v K) (l1 : U1 o v K) (z : UFrag ι K) (σ : Spin) : o σ → v σ → K := OVu (Bg s z z.t2) l1 σ

theorem half_neg {m n : Type} (A B : m → n → K) : half (-A) (-B) = -half A B := by
  funext i j; simp only [half, Pi.neg_apply]; ring

theorem termOO_eq (s : UMf ι o v K) (L : ∀ σ τ, T2 (o σ) (o τ) (v σ) (v τ) K) (z : UFrag ι K) (σ : Spin) : mm (z.mco s σ) (xOu s z L σ) = termOO s L z σ := by
  unfold xOu termOO OOu Bg
  rw [mm_half_r, mm_xOG, mm_xOG, half_neg]
theorem termVV_eq (s : UMf ι o v K) (L : ∀ σ τ, T2 (o σ) (o τ) (v σ) (v τ) K) (z : UFrag ι K) (σ : Spin) : mm (z.mcv s σ) (xVu s z L σ) = termVV s L z σ := by
  unfold xVu termVV VVu Bg
  rw [mm_half_r, mm_xVG, mm_xVG]

/-- Singles in the cluster. -/
def l1x (s : UMf ι o v K) (l1 : U1 o v K) (x : UFrag ι K) (σ : Spin) : x.c σ → x.d σ → K := mm (tp (x.mco s σ)) (mm (l1 σ) (x.mcv s σ))
def dS (s : UMf ι o v K) (l1 : U1 o v K) (x : UFrag ι K) (σ : Spin) : x.c σ → x.d σ → K :=
  dotS (Rg s x x.t2 σ σ) (l1x s l1 x σ) + dotS (Rg s x x.t2 σ σ.other) (l1x s l1 x σ.other)

theorem termOV_eq (s : UMf ι o v K) (l1 : U1 o v K) (x : UFrag ι K) (σ : Spin) : mm (x.mco s σ) (mm (dS s l1 x σ) (tp (x.mcv s σ))) = termOV s l1 x σ := by
  unfold dS termOV OVu Bg l1x
  rw [mm_add_l, mm_add_r, dotS_backG, dotS_backG]

theorem ovCore (s : UMf ι o v K) (hS : tp s.ovlp = s.ovlp) (w : Opts K) (l1 : U1 o v K) (x : UFrag ι K) (u : Option (ι → ι → K)) (σ : Spin)
    (hin : ∀ g, u = some g → w.late = true → mm (tp (s.moOcc σ)) (mm s.ovlp (mm g (x.cFrag σ))) = mm (mm (tp (s.moOcc σ)) (mm s.ovlp (mm g (x.cOcc σ)))) (x.cf s σ)) :
    ovTermU s w l1 x u σ = mm (mm (tp (s.moOcc σ)) (mm s.ovlp (act u (x.cOcc σ)))) (mm (dS s l1 x σ) (tp (mm (tp (s.moVir σ)) (mm s.ovlp (act u (x.cVir σ)))))) := by
  unfold ovTermU
  dsimp only
  rw [mm_assoc (tp (s.moVir σ)) s.ovlp (act u (x.cVir σ)), mm_assoc (tp (s.moOcc σ)) s.ovlp (act u (x.cOcc σ))]
  split_ifs with hl
  · have e2 : ∀ {m n : Type} (A B : m → n → K), (fun z a => A z a / 2 + B z a / 2) = (1 / 2 : K) • (A + B) := by
      intro m n A B; funext z a; simp only [Pi.smul_apply, Pi.add_apply, smul_eq_mul]; ring
    have d1 := dotS_restoredG (x.px s σ) (x.px s σ) (x.t2 σ σ) (x.t2 σ σ) (l1x s l1 x σ)
    have d2 := dotS_restoredG (x.px s σ) (x.px s σ.other) (x.t2 σ σ.other) (x.t2 σ.other σ) (l1x s l1 x σ.other)
    have hd : dS s l1 x σ = (1 / 2 : K) • (mm (x.cf s σ) ((fun z a => ∑ j, ∑ b, x.t2 σ σ z j a b * l1x s l1 x σ j b) + fun z a => ∑ j, ∑ b, x.t2 σ σ.other z j a b * l1x s l1 x σ.other j b) +
        ((fun i a => ∑ z, ∑ b, x.t2 σ σ z i b a * mm (tp (x.cf s σ)) (l1x s l1 x σ) z b) + fun i a => ∑ z, ∑ b, x.t2 σ.other σ z i b a * mm (tp (x.cf s σ.other)) (l1x s l1 x σ.other) z b)) := by
      unfold dS Rg
      rw [d1, d2, ← cf_pxU s hS, ← cf_pxU s hS, tp_tp, mm_add_r, ← smul_add]
      refine congrArg _ ?_
      abel
    rw [hd]
    have e : ∀ (A : x.f σ → x.d σ → K) (B : x.c σ → x.d σ → K) (C : o σ → x.c σ → K) (D : x.d σ → v σ → K),
        mm (mm C (x.cf s σ)) (mm ((1 / 2 : K) • A) D) + mm C (mm ((1 / 2 : K) • B) D) = mm C (mm ((1 / 2 : K) • (mm (x.cf s σ) A + B)) D) := by
      intro A B C D
      rw [mm_neg_smul, mm_neg_smul, mm_neg_smul, mm_add_l, mm_add_r, mm_assoc, mm_assoc, smul_add]
    have key : ∀ (X : o σ → x.f σ → K) (A B : x.f σ → x.d σ → K) (A' B' : x.c σ → x.d σ → K) (C : o σ → x.c σ → K) (D : x.d σ → v σ → K), X = mm C (x.cf s σ) →
        mm X (mm (fun z a => A z a / 2 + B z a / 2) D) + mm C (mm (fun z a => A' z a / 2 + B' z a / 2) D) =
          mm C (mm ((1 / 2 : K) • (mm (x.cf s σ) (A + B) + (A' + B'))) D) := by
      intro X A B A' B' C D hX
      rw [hX, e2, e2, e]
    cases u with
    | none => exact key _ _ _ _ _ _ _ rfl
    | some g => exact key _ _ _ _ _ _ _ (by dsimp only; rw [mm_assoc (tp (s.moOcc σ)), hin g rfl hl]; rfl)
  · simp only [block_restoredU]
    rfl

/-! ### Images -/

section
variable {K : Type} [Field K] {O O' V V' : Type} [Fintype O] [Fintype O'] [Fintype V] [Fintype V'] [DecidableEq O] [DecidableEq O'] [DecidableEq V] [DecidableEq V']
variable {D : O → O → K} {D' : O' → O' → K} {E : V → V → K} {E' : V' → V' → K}

theorem dotO_conj (hD' : mm (tp D') D' = delta) (hE : mm (tp E) E = delta) (hE' : mm (tp E') E' = delta) (B L : T2 O O' V V' K) (hL : backG D D' E E' L = L) :
    dotO (backG D D' E E' B) L = mm D (mm (dotO B L) (tp D)) := by
  rw [dotO_backG]
  conv_lhs => rw [← hL]
  unfold backG
  rw [L4_L1, L4_L2, L4_L3, L4_L4, L3_L1, L3_L2, L3_L3, L2_L1, L2_L2, hD', hE, hE', L2_delta, L3_delta, L4_delta, dotO_L1r]

theorem dotW_conj (hD : mm (tp D) D = delta) (hD' : mm (tp D') D' = delta) (hE' : mm (tp E') E' = delta) (B L : T2 O O' V V' K) (hL : backG D D' E E' L = L) :
    dotW (backG D D' E E' B) L = mm E (mm (dotW B L) (tp E)) := by
  rw [dotW_backG]
  conv_lhs => rw [← hL]
  unfold backG
  rw [L4_L1, L4_L2, L4_L3, L4_L4, L2_L1, L2_L2, L1_L1, hD, hD', hE', L1_delta, L2_delta, L4_delta, dotW_L3r]

theorem dotS_conj (hD' : mm (tp D') D' = delta) (hE' : mm (tp E') E' = delta) (B : T2 O O' V V' K) (l : T1 O' V' K) (hl : mm D' (mm l (tp E')) = l) :
    dotS (backG D D' E E' B) l = mm D (mm (dotS B l) (tp E)) := by
  rw [dotS_backG]
  conv_lhs => rw [← hl]
  have : mm (tp D') (mm (mm D' (mm l (tp E'))) E') = mm (mm (tp D') D') (mm l (mm (tp E') E')) := by simp only [mm_assoc]
  rw [this, hD', hE', mm_delta, delta_mm]

variable {c c' d d' f f' : Type} [Fintype c] [Fintype c'] [Fintype d] [Fintype d'] [Fintype f] [Fintype f']

theorem backG_congr {A₁ A₂ : O → c → K} {B₁ B₂ : O' → c' → K} {C₁ C₂ : V → d → K} {E₁ E₂ : V' → d' → K} {p₁ p₂ : f → c → K} {q₁ q₂ : f' → c' → K} (h1 : A₁ = A₂) (h2 : B₁ = B₂)
    (h3 : C₁ = C₂) (h4 : E₁ = E₂) (h5 : p₁ = p₂) (h6 : q₁ = q₂) (t : T2 f c' d d' K) (tr : T2 f' c d' d K) :
    backG A₁ B₁ C₁ E₁ (restoredG p₁ q₁ t tr) = backG A₂ B₂ C₂ E₂ (restoredG p₂ q₂ t tr) := by
  rw [h1, h2, h3, h4, h5, h6]

theorem backG_backG (A : O → c → K) (A' : O' → c' → K) (B : V → d → K) (B' : V' → d' → K) (t : T2 c c' d d' K) :
    backG D D' E E' (backG A A' B B' t) = backG (mm D A) (mm D' A') (mm E B) (mm E' B') t := by
  unfold backG
  rw [L4_L1, L4_L2, L4_L3, L4_L4, L3_L1, L3_L2, L3_L3, L2_L1, L2_L2, L1_L1]
end

section
variable [∀ σ, DecidableEq (o σ)] [∀ σ, DecidableEq (v σ)] {s : UMf ι o v K}

/-- Representations of an operation. -/
def rO (s : UMf ι o v K) (u : ι → ι → K) (σ : Spin) : o σ → o σ → K := rep (s.spin σ) u (s.moOcc σ)
def rV (s : UMf ι o v K) (u : ι → ι → K) (σ : Spin) : v σ → v σ → K := rep (s.spin σ) u (s.moVir σ)

variable (hs : ∀ σ, Orthonormal (s.spin σ)) {u : ι → ι → K} (hu : ∀ σ, Operation (s.spin σ) u)
include hs hu

theorem rO_orth (σ : Spin) : mm (tp (rO s u σ)) (rO s u σ) = delta := repO_orth (hs σ) (hu σ)
theorem rV_orth (σ : Spin) : mm (tp (rV s u σ)) (rV s u σ) = delta := repV_orth (hs σ) (hu σ)

theorem Bg_image (x : UFrag ι K) (t : ∀ σ τ, T2 (x.f σ) (x.c τ) (x.d σ) (x.d τ) K) (σ τ : Spin) :
    Bg s (x.image u) t σ τ = backG (rO s u σ) (rO s u τ) (rV s u σ) (rV s u τ) (Bg s x t σ τ) := by
  unfold Bg Rg
  rw [backG_backG]
  exact backG_congr (c := x.c σ) (c' := x.c τ) (d := x.d σ) (d' := x.d τ) (f := x.f σ) (f' := x.f τ) (image_mco (hs σ) (hu σ) (x.spin σ))
    (image_mco (hs τ) (hu τ) (x.spin τ)) (image_mcv (hs σ) (hu σ) (x.spin σ)) (image_mcv (hs τ) (hu τ) (x.spin τ))
    (image_px (s.spin σ) (x.spin σ) u (hu σ).ovlp) (image_px (s.spin τ) (x.spin τ) u (hu τ).ovlp) (t σ τ) (t τ σ)

theorem invU_eq {t : ∀ σ τ, T2 (o σ) (o τ) (v σ) (v τ) K} (ht : UInvariant s u t) (σ τ : Spin) :
    backG (rO s u σ) (rO s u τ) (rV s u σ) (rV s u τ) (t σ τ) = t σ τ := by
  funext i j a b
  rw [← ht σ τ i j a b]
  simp only [backG, rO, rV, L1, L2, L3, L4, Finset.mul_sum]

theorem termOO_image (x : UFrag ι K) {L : ∀ σ τ, T2 (o σ) (o τ) (v σ) (v τ) K} (hL : UInvariant s u L) (σ : Spin) :
    termOO s L (x.image u) σ = mm (rO s u σ) (mm (termOO s L x σ) (tp (rO s u σ))) := by
  have hO := rO_orth hs hu
  have hV := rV_orth hs hu
  have h : ∀ τ, dotO (Bg s (x.image u) x.t2 σ τ) (L σ τ) = mm (rO s u σ) (mm (dotO (Bg s x x.t2 σ τ) (L σ τ)) (tp (rO s u σ))) := by
    intro τ
    rw [Bg_image hs hu]
    exact dotO_conj (hO τ) (hV σ) (hV τ) _ _ (invU_eq hs hu hL σ τ)
  show -half (dotO (Bg s (x.image u) x.t2 σ σ) (L σ σ)) (dotO (Bg s (x.image u) x.t2 σ σ.other) (L σ σ.other)) =
    mm (rO s u σ) (mm (-half (dotO (Bg s x x.t2 σ σ) (L σ σ)) (dotO (Bg s x x.t2 σ σ.other) (L σ σ.other))) (tp (rO s u σ)))
  rw [h, h, ← half_neg, ← half_neg, mm_half_l, mm_half_r]
  have hn : ∀ A : o σ → o σ → K, mm (rO s u σ) (mm (-A) (tp (rO s u σ))) = -mm (rO s u σ) (mm A (tp (rO s u σ))) := by
    intro A
    rw [← neg_one_smul K A, mm_neg_smul, neg_one_smul]
  rw [hn, hn]

theorem termVV_image (x : UFrag ι K) {L : ∀ σ τ, T2 (o σ) (o τ) (v σ) (v τ) K} (hL : UInvariant s u L) (σ : Spin) :
    termVV s L (x.image u) σ = mm (rV s u σ) (mm (termVV s L x σ) (tp (rV s u σ))) := by
  have hO := rO_orth hs hu
  have hV := rV_orth hs hu
  have h : ∀ τ, dotW (Bg s (x.image u) x.t2 σ τ) (L σ τ) = mm (rV s u σ) (mm (dotW (Bg s x x.t2 σ τ) (L σ τ)) (tp (rV s u σ))) := by
    intro τ
    rw [Bg_image hs hu]
    exact dotW_conj (hO σ) (hO τ) (hV τ) _ _ (invU_eq hs hu hL σ τ)
  show half (dotW (Bg s (x.image u) x.t2 σ σ) (L σ σ)) (dotW (Bg s (x.image u) x.t2 σ σ.other) (L σ σ.other)) =
    mm (rV s u σ) (mm (half (dotW (Bg s x x.t2 σ σ) (L σ σ)) (dotW (Bg s x x.t2 σ σ.other) (L σ σ.other))) (tp (rV s u σ)))
  rw [h, h, mm_half_l, mm_half_r]

theorem termOV_image (x : UFrag ι K) {l1 : U1 o v K} (h1 : ∀ σ, Invariant1 (s.spin σ) u (l1 σ)) (σ : Spin) :
    termOV s l1 (x.image u) σ = mm (rO s u σ) (mm (termOV s l1 x σ) (tp (rV s u σ))) := by
  have hO := rO_orth hs hu
  have hV := rV_orth hs hu
  have h : ∀ τ, dotS (Bg s (x.image u) x.t2 σ τ) (l1 τ) = mm (rO s u σ) (mm (dotS (Bg s x x.t2 σ τ) (l1 τ)) (tp (rV s u σ))) := by
    intro τ
    rw [Bg_image hs hu]
    exact dotS_conj (hO τ) (hV τ) _ _ (inv1_eq (hs τ) (hu τ) (h1 τ))
  show dotS (Bg s (x.image u) x.t2 σ σ) (l1 σ) + dotS (Bg s (x.image u) x.t2 σ σ.other) (l1 σ.other) =
    mm (rO s u σ) (mm (dotS (Bg s x x.t2 σ σ) (l1 σ) + dotS (Bg s x x.t2 σ σ.other) (l1 σ.other)) (tp (rV s u σ)))
  rw [h, h, mm_add_l, mm_add_r]

theorem imageTermU (x : UFrag ι K) {L : ∀ σ τ, T2 (o σ) (o τ) (v σ) (v τ) K} (hL : UInvariant s u L) (σ : Spin) :
    mm (mm (tp (s.moOcc σ)) s.ovlp) (mm (mm u (x.cOcc σ)) (mm (mm (mm (xOu s x L σ) (tp (s.moOcc σ))) (tp u)) (tp (mm (tp (s.moOcc σ)) s.ovlp)))) =
      termOO s L (x.image u) σ ∧
    mm (mm (tp (s.moVir σ)) s.ovlp) (mm (mm u (x.cVir σ)) (mm (mm (mm (xVu s x L σ) (tp (s.moVir σ))) (tp u)) (tp (mm (tp (s.moVir σ)) s.ovlp)))) =
      termVV s L (x.image u) σ := by
  have hr : ∀ {n : Type} (c : ι → n → K), tp (rep (s.spin σ) u c) = mm (tp c) (mm (tp u) (mm s.ovlp c)) := by
    intro n c
    rw [rep, tp_mm, tp_mm, tp_mm, (hs σ).ovlp, tp_tp, mm_assoc, mm_assoc]
    rfl
  have hovlp : tp s.ovlp = s.ovlp := (hs σ).ovlp
  refine ⟨?_, ?_⟩
  · rw [termOO_image hs hu x hL, ← termOO_eq]
    have h1 : mm (tp (s.moOcc σ)) (mm s.ovlp (mm u (x.cOcc σ))) = mm (rO s u σ) (x.mco s σ) := image_mco (hs σ) (hu σ) (x.spin σ)
    rw [tp_mm, hovlp, tp_tp]
    have h2 : tp (rO s u σ) = mm (tp (s.moOcc σ)) (mm (tp u) (mm s.ovlp (s.moOcc σ))) := hr _
    rw [h2]
    simp only [mm_assoc]
    rw [← mm_assoc (rO s u σ), ← h1]
    simp only [mm_assoc]
  · rw [termVV_image hs hu x hL, ← termVV_eq]
    have h1 : mm (tp (s.moVir σ)) (mm s.ovlp (mm u (x.cVir σ))) = mm (rV s u σ) (x.mcv s σ) := image_mcv (hs σ) (hu σ) (x.spin σ)
    rw [tp_mm, hovlp, tp_tp]
    have h2 : tp (rV s u σ) = mm (tp (s.moVir σ)) (mm (tp u) (mm s.ovlp (s.moVir σ))) := hr _
    rw [h2]
    simp only [mm_assoc]
    rw [← mm_assoc (rV s u σ), ← h1]
    simp only [mm_assoc]

end

section
variable [∀ σ, DecidableEq (o σ)] [∀ σ, DecidableEq (v σ)] {s : UMf ι o v K}

theorem ovTermU_ok (hS : tp s.ovlp = s.ovlp) (w : Opts K) (l1 : U1 o v K) (x : UFrag ι K) (u : Option (ι → ι → K))
    (hs : ∀ g, u = some g → (∀ σ, Orthonormal (s.spin σ)) ∧ (∀ σ, Operation (s.spin σ) g) ∧ ∀ σ, Invariant1 (s.spin σ) g (l1 σ))
    (hin : w.late = true → ∀ σ, OccInCluster (s.spin σ) ((memberU x u).spin σ)) (σ : Spin) : ovTermU s w l1 x u σ = termOV s l1 (memberU x u) σ := by
  cases u with
  | none =>
    rw [ovCore s hS w l1 x none σ (by rintro g ⟨⟩)]
    exact termOV_eq s l1 x σ
  | some g =>
    obtain ⟨ho, hu, h1⟩ := hs g rfl
    rw [ovCore s hS w l1 x (some g) σ fun g' hg' hl => by
      obtain rfl := Option.some.inj hg'
      exact (inC_eq (hin hl σ)).trans (congrArg (fun A : x.c σ → x.f σ → K => mm (mm (tp (s.moOcc σ)) (mm s.ovlp (mm g (x.cOcc σ)))) A)
        (image_cf (s.spin σ) (x.spin σ) g (hu σ).ovlp))]
    show _ = termOV s l1 (x.image g) σ
    rw [termOV_image ho hu x h1, ← termOV_eq]
    have h2 : mm (tp (s.moOcc σ)) (mm s.ovlp (act (some g) (x.cOcc σ))) = mm (rO s g σ) (x.mco s σ) := image_mco (ho σ) (hu σ) (x.spin σ)
    have h3 : mm (tp (s.moVir σ)) (mm s.ovlp (act (some g) (x.cVir σ))) = mm (rV s g σ) (x.mcv s σ) := image_mcv (ho σ) (hu σ) (x.spin σ)
    rw [h2, h3, tp_mm]
    simp only [mm_assoc]

/-- Conditions for the use of symmetry. -/
structure GoodSymU (s : UMf ι o v K) (w : Opts K) (l : List (UFrag ι K)) (l1 : U1 o v K) (L : ∀ σ τ, T2 (o σ) (o τ) (v σ) (v τ) K) : Prop where
  orth : w.useSym = true → ∀ σ, Orthonormal (s.spin σ)
  op : w.useSym = true → ∀ x ∈ l, ∀ u ∈ x.ops, (∀ σ, Operation (s.spin σ) u) ∧ UInvariant s u L ∧ (w.withT1 = true → ∀ σ, Invariant1 (s.spin σ) u (l1 σ))

theorem xTermU_ok {w : Opts K} {l : List (UFrag ι K)} (h : GoodU s w l) {l1 : U1 o v K} (hs : GoodSymU s w l l1 (block (LgU s w.tAsLambda l))) {x : UFrag ι K}
    (hx : x ∈ loopOf w l) : xTermU s w (l.flatMap UFrag.family) l1 x = .ok fun σ =>
      ((x.copies w.useSym).map fun u => (termOO s (block (LgU s w.tAsLambda l)) (memberU x u) σ, termVV s (block (LgU s w.tAsLambda l)) (memberU x u) σ,
        if w.withT1 then termOV s l1 (memberU x u) σ else 0)).sum := by
  unfold xTermU
  rw [intermediates_ok h hx]
  refine congrArg Except.ok ?_
  funext σ
  dsimp only
  obtain ⟨L, hL⟩ : ∃ L, L = block (LgU s w.tAsLambda l) := ⟨_, rfl⟩
  rw [← hL] at hs ⊢
  have hc : x.copies w.useSym = none :: (if w.useSym then x.ops else []).map some := by
    unfold UFrag.copies
    cases w.useSym <;> rfl
  have hops : ∀ u ∈ (if w.useSym then x.ops else []), some u ∈ x.copies w.useSym := by
    intro u hu; rw [hc]; exact List.mem_cons_of_mem _ (List.mem_map_of_mem hu)
  have h2 : ((if w.useSym then x.ops else []).map fun u : ι → ι → K =>
      (mm (mm (tp (s.moOcc σ)) s.ovlp) (mm (mm u (x.cOcc σ)) (mm (mm (mm (xOu s x L σ) (tp (s.moOcc σ))) (tp u)) (tp (mm (tp (s.moOcc σ)) s.ovlp)))),
        mm (mm (tp (s.moVir σ)) s.ovlp) (mm (mm u (x.cVir σ)) (mm (mm (mm (xVu s x L σ) (tp (s.moVir σ))) (tp u)) (tp (mm (tp (s.moVir σ)) s.ovlp)))))) =
      ((if w.useSym then x.ops else []).map fun u : ι → ι → K => (termOO s L (x.image u) σ, termVV s L (x.image u) σ)) := by
    refine List.map_congr_left fun u hu => ?_
    obtain ⟨a, b, c⟩ := copies_iso hx (hops u hu) u rfl
    obtain ⟨p, q, -⟩ := hs.op a x b u c
    obtain ⟨e1, e2⟩ := imageTermU (hs.orth a) p x q σ
    rw [e1, e2]
  have h3 : w.withT1 = true → ((x.copies w.useSym).map fun u => ovTermU s w l1 x u σ) = (x.copies w.useSym).map fun u => termOV s l1 (memberU x u) σ := by
    intro ht
    refine List.map_congr_left fun u hu => ?_
    refine ovTermU_ok h.ovlp w l1 x u ?_ (fun hl => h.inC hl _ (copies_true hx hu)) σ
    intro g hg
    obtain ⟨a, b, c⟩ := copies_iso hx hu g hg
    exact ⟨hs.orth a, (hs.op a x b g c).1, (hs.op a x b g c).2.2 ht⟩
  refine Eq.trans (congrArg (fun S : (o σ → o σ → K) × (v σ → v σ → K) => (mm (x.mco s σ) (xOu s x L σ) + S.1, mm (x.mcv s σ) (xVu s x L σ) + S.2,
    if w.withT1 then ((x.copies w.useSym).map fun u => ovTermU s w l1 x u σ).sum else 0)) (congrArg List.sum h2)) ?_
  rw [sum_prod, sum_prod, sum_prod]
  refine Prod.ext ?_ (Prod.ext ?_ ?_)
  · dsimp only
    rw [hc, termOO_eq]
    simp only [List.map_cons, List.sum_cons, List.map_map]
    rfl
  · dsimp only
    rw [hc, termVV_eq]
    simp only [List.map_cons, List.sum_cons, List.map_map]
    rfl
  · dsimp only
    cases ht : w.withT1 with
    | true =>
      rw [if_pos rfl, h3 ht]
      rfl
    | false =>
      rw [if_neg (by simp)]
      symm
      apply List.sum_eq_zero
      intro y hy
      obtain ⟨u, -, rfl⟩ := List.mem_map.1 hy
      rfl

theorem totalU_ok {w : Opts K} {l : List (UFrag ι K)} (h : GoodU s w l) {l1 : U1 o v K} (hs : GoodSymU s w l l1 (block (LgU s w.tAsLambda l))) :
    accumulate (xTermU s w (l.flatMap UFrag.family) l1) (loopOf w l) = .ok fun σ =>
      (-OOu (block (TgU s l)) (block (LgU s w.tAsLambda l)) σ, VVu (block (TgU s l)) (block (LgU s w.tAsLambda l)) σ, if w.withT1 then OVu (block (TgU s l)) l1 σ else 0) := by
  rw [accumulate_ok _ _ _ fun x hx => xTermU_ok h hs hx]
  refine congrArg Except.ok ?_
  funext σ
  rw [sum_pi, sum_loop w l fun z => (termOO s (block (LgU s w.tAsLambda l)) z σ, termVV s (block (LgU s w.tAsLambda l)) z σ,
    if w.withT1 then termOV s l1 z σ else 0), sum_prod, sum_prod]
  obtain ⟨L, hL⟩ : ∃ L, L = block (LgU s w.tAsLambda l) := ⟨_, rfl⟩
  rw [← hL]
  have hO : ∀ τ, dotO (block (TgU s l) σ τ) (L σ τ) = ((l.flatMap UFrag.family).map fun z => dotO (Bg s z z.t2 σ τ) (L σ τ)).sum := by
    intro τ
    rw [block_Tg]
    refine map_sum_add (fun A : T2 (o σ) (o τ) (v σ) (v τ) K => dotO A (L σ τ)) ?_ (fun a b => dotO_add_l _ _ _) _ _
    funext i j; simp [dotO]
  have hV : ∀ τ, dotW (block (TgU s l) σ τ) (L σ τ) = ((l.flatMap UFrag.family).map fun z => dotW (Bg s z z.t2 σ τ) (L σ τ)).sum := by
    intro τ
    rw [block_Tg]
    refine map_sum_add (fun A : T2 (o σ) (o τ) (v σ) (v τ) K => dotW A (L σ τ)) ?_ (fun a b => dotW_add_l _ _ _) _ _
    funext i j; simp [dotW]
  have hSs : ∀ τ, dotS (block (TgU s l) σ τ) (l1 τ) = ((l.flatMap UFrag.family).map fun z => dotS (Bg s z z.t2 σ τ) (l1 τ)).sum := by
    intro τ
    rw [block_Tg]
    exact map_sum_add (fun A : T2 (o σ) (o τ) (v σ) (v τ) K => dotS A (l1 τ)) (dotS_zero _) (fun a b => dotS_add _ _ _) _ _
  refine Prod.ext ?_ (Prod.ext ?_ ?_)
  · dsimp only
    unfold OOu
    rw [hO, hO, ← half_sum]
    exact (map_sum_add (fun A : o σ → o σ → K => -A) neg_zero neg_add _ _).symm
  · dsimp only
    unfold VVu
    rw [hV, hV, ← half_sum]
    rfl
  · dsimp only
    cases w.withT1 with
    | true =>
      show _ = OVu _ _ _
      unfold OVu
      rw [hSs, hSs]
      exact List.sum_map_add
    | false =>
      apply List.sum_eq_zero
      intro y hy
      obtain ⟨u, -, rfl⟩ := List.mem_map.1 hy
      rfl

end

/-! ### The end of the function -/

theorem quarter_half (h2 : (2 : K) ≠ 0) (x : K) : (x + x) / 4 = x / 2 := by
  have h4 : (4 : K) ≠ 0 := by
    have : (4 : K) = 2 * 2 := by norm_num
    rw [this]; exact mul_ne_zero h2 h2
  field_simp
  ring

theorem combineU_true (h2 : (2 : K) ≠ 0) (t1 l1 : U1 o v K) (t l : ∀ σ τ, T2 (o σ) (o τ) (v σ) (v τ) K) (σ : Spin) :
    combineU true (t1 σ) (l1 σ) (-OOu t l σ, VVu t l σ, OVu t l1 σ) = ccRdm1U t1 t l1 l σ := by
  have hov : ∀ i a, OVu t l1 σ i a - (∑ m, -(-(OOu t l σ) i m) * t1 σ m a) - (∑ e, t1 σ i e * (VVu t l σ a e + ∑ m, t1 σ m a * l1 σ m e)) + (t1 σ i a + l1 σ i a) =
      t1 σ i a + l1 σ i a + OVu t l1 σ i a - (∑ e, ∑ m, t1 σ i e * l1 σ m e * t1 σ m a) - (∑ m, OOu t l σ i m * t1 σ m a) - ∑ e, t1 σ i e * VVu t l σ a e := by
    intro i a
    have e : (∑ e, t1 σ i e * (VVu t l σ a e + ∑ m, t1 σ m a * l1 σ m e)) =
        (∑ e, t1 σ i e * VVu t l σ a e) + ∑ e, ∑ m, t1 σ i e * l1 σ m e * t1 σ m a := by
      rw [← Finset.sum_add_distrib]
      refine Finset.sum_congr rfl fun e _ => ?_
      rw [mul_add, Finset.mul_sum]
      exact congrArg _ (Finset.sum_congr rfl fun _ _ => by ring)
    rw [e]
    simp only [Pi.neg_apply, neg_neg]
    ring
  funext p q
  rcases p with i | a <;> rcases q with j | b
  · rw [ccU_oo]
    show ((-OOu t l σ) i j - (∑ e, l1 σ i e * t1 σ j e) + ((-OOu t l σ) j i - ∑ e, l1 σ j e * t1 σ i e) +
      ((-OOu t l σ) j i - (∑ e, l1 σ j e * t1 σ i e) + ((-OOu t l σ) i j - ∑ e, l1 σ i e * t1 σ j e))) / 4 = _
    rw [add_comm ((-OOu t l σ) j i - (∑ e, l1 σ j e * t1 σ i e)), quarter_half h2, Finset.sum_add_distrib]
    simp only [mul_comm (l1 σ _ _), Pi.neg_apply]
    ring
  · rw [ccU_ov, ← hov, ← quarter_half h2]
    rfl
  · rw [ccU_vo, ccU_ov, ← hov, ← quarter_half h2]
    rfl
  · rw [ccU_vv]
    show (VVu t l σ a b + (∑ m, t1 σ m a * l1 σ m b) + (VVu t l σ b a + ∑ m, t1 σ m b * l1 σ m a) +
      (VVu t l σ b a + (∑ m, t1 σ m b * l1 σ m a) + (VVu t l σ a b + ∑ m, t1 σ m a * l1 σ m b))) / 4 = _
    rw [add_comm (VVu t l σ b a + (∑ m, t1 σ m b * l1 σ m a)), quarter_half h2, Finset.sum_add_distrib]
    ring

theorem combineU_false (h2 : (2 : K) ≠ 0) (t1 l1 : T1 (o σ) (v σ) K) (t l : ∀ σ τ, T2 (o σ) (o τ) (v σ) (v τ) K) (z : o σ → v σ → K) :
    combineU false t1 l1 (-OOu t l σ, VVu t l σ, z) = ccRdm1U 0 t 0 l σ := by
  rw [← combineU_true h2]
  have e : OVu t (0 : U1 o v K) σ = 0 := by funext i a; simp [OVu, dotS]
  rw [e]
  funext p q
  rcases p with i | a <;> rcases q with j | b <;> simp [combineU, blocks]

theorem fastU_ok [∀ σ, DecidableEq (o σ)] [∀ σ, DecidableEq (v σ)] {s : UMf ι o v K} (h2 : (2 : K) ≠ 0) {w : Opts K} {l : List (UFrag ι K)} (h : GoodU s w l)
    (hs : GoodSymU s w l (Lg1 s w.tAsLambda l) (block (LgU s w.tAsLambda l))) :
    fastU s w l = .ok (if w.withT1 then ccRdm1U (Tg1 s l) (block (TgU s l)) (Lg1 s w.tAsLambda l) (block (LgU s w.tAsLambda l))
      else ccRdm1U 0 (block (TgU s l)) 0 (block (LgU s w.tAsLambda l))) := by
  have hl : (if w.useSym then l else l.flatMap UFrag.family) = loopOf w l := rfl
  unfold fastU
  dsimp only
  rw [hl]
  cases ht : w.withT1 with
  | true =>
    have e1 : (bif w.tAsLambda then pure (Tg1 s l) else globT1 s true l) = (.ok (Lg1 s w.tAsLambda l) : Except PyErr _) := by
      have := globT1_l s w.tAsLambda l h.lam
      cases htl : w.tAsLambda with
      | true => rfl
      | false => rw [htl] at this; exact this
    rw [globT1_t]
    show (do
      let l1 ← (bif w.tAsLambda then pure (Tg1 s l) else globT1 s true l)
      let d ← accumulate (xTermU s w (l.flatMap UFrag.family) l1) (loopOf w l)
      pure fun σ => combineU true (Tg1 s l σ) (l1 σ) (d σ)) = _
    rw [e1]
    show (do
      let d ← accumulate (xTermU s w (l.flatMap UFrag.family) (Lg1 s w.tAsLambda l)) (loopOf w l)
      pure fun σ => combineU true (Tg1 s l σ) (Lg1 s w.tAsLambda l σ) (d σ)) = _
    rw [totalU_ok h hs, ht]
    refine congrArg Except.ok ?_
    funext σ
    exact combineU_true h2 _ _ _ _ σ
  | false =>
    have hs' : GoodSymU s w l 0 (block (LgU s w.tAsLambda l)) := ⟨hs.orth, fun a x b u c => ⟨(hs.op a x b u c).1, (hs.op a x b u c).2.1, fun h => by rw [ht] at h; cases h⟩⟩
    show (do
      let d ← accumulate (xTermU s w (l.flatMap UFrag.family) 0) (loopOf w l)
      pure fun σ => combineU false ((0 : U1 o v K) σ) ((0 : U1 o v K) σ) (d σ)) = _
    rw [totalU_ok h hs']
    refine congrArg Except.ok ?_
    funext σ
    exact combineU_false h2 _ _ _ _ _

end Vayesta.EwfURdm
