import Verif.Lemmas.EwfRdmSum

/-! The sum of all contributions of `make_rdm1_ccsd_global_wf`. -/

set_option linter.unusedSectionVars false

namespace Vayesta.EwfRdm
open Vayesta.Amplitudes Vayesta.Tensor Vayesta.Props

variable {K : Type} [Field K] {ι o v : Type} [Fintype ι] [Fintype o] [Fintype v]

/-- Contribution of the fragment to the three intermediates. -/
def termOO (s : Mf ι o v K) (L : T2 o o v v K) (z : Frag ι K) : o → o → K := -dotO (theta (Bt s z)) L
def termVV (s : Mf ι o v K) (L : T2 o o v v K) (z : Frag ι K) : v → v → K := dotV (theta (Bt s z)) L
def termOV (s : Mf ι o v K) (l1 : T1 o v K) (z : Frag ι K) : o → v → K := dotS (theta (Bt s z)) l1

theorem mm_neg_r {k p q : Type} [Fintype k] (A : p → k → K) (B : k → q → K) : mm A (-B) = -mm A B := by
  funext i j; simp [mm]

theorem termOO_eq (s : Mf ι o v K) (L : T2 o o v v K) (z : Frag ι K) : mm (z.mco s) (xO s z L) = termOO s L z := by
  unfold xO termOO Bt
  rw [theta_back, dotO_back, mm_neg_r]

theorem termVV_eq (s : Mf ι o v K) (L : T2 o o v v K) (z : Frag ι K) : mm (z.mcv s) (xV s z L) = termVV s L z := by
  unfold xV termVV Bt
  rw [theta_back, dotV_back]

theorem termOV_eq (s : Mf ι o v K) (l1 : T1 o v K) (z : Frag ι K) :
    mm (z.mco s) (mm (dotS (theta (restored (z.px s) z.t2)) (mm (tp (z.mco s)) (mm l1 (z.mcv s)))) (tp (z.mcv s))) = termOV s l1 z := by
  unfold termOV Bt
  rw [theta_back, dotS_back]

theorem dotS_restored {f c d : Type} [Fintype f] [Fintype c] [Fintype d] (p : f → c → K) (th : T2 f c d d K) (B : c → d → K) :
    dotS (restored p th) B = (1 / 2 : K) • (mm (tp p) (fun z a => ∑ j, ∑ b, th z j a b * B j b) + fun i a => ∑ z, ∑ b, th z i b a * mm p B z b) := by
  rw [restored_eq, dotS_smul, dotS_add, dotS_L1, dotS_L2]
  rfl

/-! ### Images -/

section
variable {c d : Type} [Fintype c] [Fintype d]
def xOg (th : T2 c c d d K) (A : o → c → K) (B : v → d → K) (L : T2 o o v v K) : c → o → K := -dotO th (L2 (tp A) (L3 (tp B) (L4 (tp B) L)))
def xVg (th : T2 c c d d K) (A : o → c → K) (B : v → d → K) (L : T2 o o v v K) : d → v → K := dotV th (L1 (tp A) (L2 (tp A) (L3 (tp B) L)))
def l1g (A : o → c → K) (B : v → d → K) (l1 : T1 o v K) : c → d → K := mm (tp A) (mm l1 B)
def ovg (th : T2 c c d d K) (A : o → c → K) (B : v → d → K) (l : c → d → K) : o → v → K := mm A (mm (dotS th l) (tp B))
theorem xOg_congr {th th' : T2 c c d d K} {A A' : o → c → K} {B B' : v → d → K} (h1 : th = th') (h2 : A = A') (h3 : B = B') (L : T2 o o v v K) :
    xOg th A B L = xOg th' A' B' L := by rw [h1, h2, h3]
theorem xVg_congr {th th' : T2 c c d d K} {A A' : o → c → K} {B B' : v → d → K} (h1 : th = th') (h2 : A = A') (h3 : B = B') (L : T2 o o v v K) :
    xVg th A B L = xVg th' A' B' L := by rw [h1, h2, h3]
theorem l1g_congr {A A' : o → c → K} {B B' : v → d → K} (h2 : A = A') (h3 : B = B') (l1 : T1 o v K) : l1g A B l1 = l1g A' B' l1 := by rw [h2, h3]
theorem ovg_congr {th th' : T2 c c d d K} {l l' : c → d → K} (h1 : th = th') (h2 : l = l') (A : o → c → K) (B : v → d → K) : ovg th A B l = ovg th' A B l' := by
  rw [h1, h2]
end

section
variable [DecidableEq o] [DecidableEq v] {s : Mf ι o v K} (hs : Orthonormal s) {u : ι → ι → K} (hu : Operation s u)
include hs hu

theorem image_mco (x : Frag ι K) : (x.image u).mco s = mm (rep s u s.moOcc) (x.mco s) := by
  obtain ⟨d, hd⟩ := hu.occ
  rw [rep_eq hs.occ hd]
  show mm (tp s.moOcc) (mm s.ovlp (mm u x.cOcc)) = mm d (mm (tp s.moOcc) (mm s.ovlp x.cOcc))
  have := congrArg (fun A => mm A x.cOcc) (rep_move hu.ovlp hs.occ hd)
  simpa only [mm_assoc] using this

theorem image_mcv (x : Frag ι K) : (x.image u).mcv s = mm (rep s u s.moVir) (x.mcv s) := by
  obtain ⟨d, hd⟩ := hu.vir
  rw [rep_eq hs.vir hd]
  show mm (tp s.moVir) (mm s.ovlp (mm u x.cVir)) = mm d (mm (tp s.moVir) (mm s.ovlp x.cVir))
  have := congrArg (fun A => mm A x.cVir) (rep_move hu.ovlp hs.vir hd)
  simpa only [mm_assoc] using this

theorem repO_orth : mm (tp (rep s u s.moOcc)) (rep s u s.moOcc) = delta := by
  obtain ⟨d, hd⟩ := hu.occ
  rw [rep_eq hs.occ hd]
  exact rep_orth hu.ovlp hs.occ hd

theorem repV_orth : mm (tp (rep s u s.moVir)) (rep s u s.moVir) = delta := by
  obtain ⟨d, hd⟩ := hu.vir
  rw [rep_eq hs.vir hd]
  exact rep_orth hu.ovlp hs.vir hd

theorem inv_eq {t : T2 o o v v K} (ht : Invariant s u t) : L1 (rep s u s.moOcc) (L2 (rep s u s.moOcc) (L3 (rep s u s.moVir) (L4 (rep s u s.moVir) t))) = t := by
  funext i j a b
  rw [← ht i j a b]
  simp only [L1, L2, L3, L4, Finset.mul_sum]

theorem inv1_eq {t : T1 o v K} (ht : Invariant1 s u t) : mm (rep s u s.moOcc) (mm t (tp (rep s u s.moVir))) = t := by
  funext i a
  rw [← ht i a]
  simp only [mm, tp, Finset.mul_sum]
  exact Finset.sum_congr rfl fun _ _ => Finset.sum_congr rfl fun _ _ => by ring

theorem cancel {n k : Type} [Fintype n] [DecidableEq n] {D : n → n → K} (hD : mm (tp D) D = delta) (C : n → k → K) : mm (tp (mm D C)) D = tp C := by
  rw [tp_mm, mm_assoc, hD, mm_delta]

theorem image_xO (x : Frag ι K) {L : T2 o o v v K} (hL : Invariant s u L) :
    xO s (x.image u) L = (mm (xO s x L) (tp (rep s u s.moOcc)) : x.co → o → K) := by
  have hO := repO_orth hs hu
  have hV := repV_orth hs hu
  refine (xOg_congr (c := x.co) (d := x.cv) (congrArg (fun p : x.f → x.co → K => theta (restored p x.t2)) (image_px s x u hu.ovlp)) (image_mco hs hu x)
    (image_mcv hs hu x) L).trans ?_
  show -dotO (theta (restored (x.px s) x.t2)) (L2 (tp (mm (rep s u s.moOcc) (x.mco s)))
    (L3 (tp (mm (rep s u s.moVir) (x.mcv s))) (L4 (tp (mm (rep s u s.moVir) (x.mcv s))) L))) = _
  have e : L2 (tp (mm (rep s u s.moOcc) (x.mco s))) (L3 (tp (mm (rep s u s.moVir) (x.mcv s))) (L4 (tp (mm (rep s u s.moVir) (x.mcv s))) L)) =
      L1 (rep s u s.moOcc) (L2 (tp (x.mco s)) (L3 (tp (x.mcv s)) (L4 (tp (x.mcv s)) L))) := by
    conv_lhs => rw [← inv_eq hs hu hL]
    rw [L4_L1, L4_L2, L4_L3, L4_L4, L3_L1, L3_L2, L3_L3, L2_L1, L2_L2, cancel hs hu hO, cancel hs hu hV]
  rw [e, dotO_L1r]
  unfold xO
  rw [← neg_one_smul K (dotO _ _), ← neg_one_smul K (mm _ _), mm_smul_l]

theorem image_xV (x : Frag ι K) {L : T2 o o v v K} (hL : Invariant s u L) :
    xV s (x.image u) L = (mm (xV s x L) (tp (rep s u s.moVir)) : x.cv → v → K) := by
  have hO := repO_orth hs hu
  have hV := repV_orth hs hu
  refine (xVg_congr (c := x.co) (d := x.cv) (congrArg (fun p : x.f → x.co → K => theta (restored p x.t2)) (image_px s x u hu.ovlp)) (image_mco hs hu x)
    (image_mcv hs hu x) L).trans ?_
  show dotV (theta (restored (x.px s) x.t2)) (L1 (tp (mm (rep s u s.moOcc) (x.mco s))) (L2 (tp (mm (rep s u s.moOcc) (x.mco s)))
    (L3 (tp (mm (rep s u s.moVir) (x.mcv s))) L))) = _
  have e : L1 (tp (mm (rep s u s.moOcc) (x.mco s))) (L2 (tp (mm (rep s u s.moOcc) (x.mco s))) (L3 (tp (mm (rep s u s.moVir) (x.mcv s))) L)) =
      L4 (rep s u s.moVir) (L1 (tp (x.mco s)) (L2 (tp (x.mco s)) (L3 (tp (x.mcv s)) L))) := by
    conv_lhs => rw [← inv_eq hs hu hL]
    rw [L3_L1, L3_L2, L3_L3, L2_L1, L2_L2, L1_L1, cancel hs hu hO, cancel hs hu hV, ← L4_L3, ← L4_L2, ← L4_L1]
  rw [e, dotV_L4r]
  rfl

theorem image_l1 (x : Frag ι K) {l1 : T1 o v K} (h1 : Invariant1 s u l1) :
    l1g ((x.image u).mco s) ((x.image u).mcv s) l1 = (l1g (x.mco s) (x.mcv s) l1 : x.co → x.cv → K) := by
  have hO := repO_orth hs hu
  have hV := repV_orth hs hu
  refine (l1g_congr (c := x.co) (d := x.cv) (image_mco hs hu x) (image_mcv hs hu x) l1).trans ?_
  unfold l1g
  conv_lhs => rw [← inv1_eq hs hu h1]
  have : mm (tp (mm (rep s u s.moOcc) (x.mco s))) (mm (mm (rep s u s.moOcc) (mm l1 (tp (rep s u s.moVir)))) (mm (rep s u s.moVir) (x.mcv s))) =
      mm (mm (tp (mm (rep s u s.moOcc) (x.mco s))) (rep s u s.moOcc)) (mm l1 (mm (mm (tp (rep s u s.moVir)) (rep s u s.moVir)) (x.mcv s))) := by
    simp only [mm_assoc]
  rw [this, cancel hs hu hO, hV, delta_mm]

end

/-! ### Contributions of a fragment and its children -/

/-- The contribution to the occupied-virtual block. -/
theorem ovCore (s : Mf ι o v K) (hS : tp s.ovlp = s.ovlp) (w : Opts K) (l1 : T1 o v K) (x : Frag ι K) (u : Option (ι → ι → K))
    (hin : w.late = true → mm (tp s.moOcc) (mm s.ovlp (act u x.cFrag)) = mm (mm (tp s.moOcc) (mm s.ovlp (act u x.cOcc))) (x.cf s)) :
    ovTerm s w l1 x u = ovg (theta (restored (x.px s) x.t2)) (mm (tp s.moOcc) (mm s.ovlp (act u x.cOcc))) (mm (tp s.moVir) (mm s.ovlp (act u x.cVir)))
      (l1g (x.mco s) (x.mcv s) l1) := by
  unfold ovTerm
  dsimp only
  rw [mm_assoc (tp s.moOcc) s.ovlp (act u x.cFrag), mm_assoc (tp s.moVir) s.ovlp (act u x.cVir), mm_assoc (tp s.moOcc) s.ovlp (act u x.cOcc)]
  split_ifs with hl
  · rw [hin hl]
    unfold ovg
    rw [theta_restored, dotS_restored, ← cf_px s hS, tp_tp]
    have e : ∀ (A : x.f → x.cv → K) (B : x.co → x.cv → K) (C : o → x.co → K) (D : x.cv → v → K),
        (fun i a => mm (mm C (x.cf s)) (mm (fun z a => A z a / 2) D) i a + mm C (mm (fun i a => B i a / 2) D) i a) =
          mm C (mm ((1 / 2 : K) • (mm (x.cf s) A + B)) D) := by
      intro A B C D
      have h1 : (fun z a => A z a / 2) = (1 / 2 : K) • A := by funext z a; simp only [Pi.smul_apply, smul_eq_mul]; ring
      have h2 : (fun z a => B z a / 2) = (1 / 2 : K) • B := by funext z a; simp only [Pi.smul_apply, smul_eq_mul]; ring
      rw [h1, h2, mm_neg_smul, mm_neg_smul, mm_neg_smul, mm_add_l, mm_add_r, mm_assoc, mm_assoc, smul_add]
      rfl
    exact e _ _ _ _
  · rfl

theorem inC_eq {s : Mf ι o v K} {x : Frag ι K} (h : OccInCluster s x) : mm (tp s.moOcc) (mm s.ovlp x.cFrag) = mm (mm (tp s.moOcc) (mm s.ovlp x.cOcc)) (x.cf s) := by
  unfold OccInCluster at h
  rw [h]
  unfold Frag.cf
  simp only [mm_assoc]

section
variable [DecidableEq o] [DecidableEq v] {s : Mf ι o v K}

theorem ovTerm_ok (hS : tp s.ovlp = s.ovlp) (w : Opts K) (l1 : T1 o v K) (x : Frag ι K) (u : Option (ι → ι → K))
    (hs : ∀ g, u = some g → Orthonormal s ∧ Operation s g ∧ Invariant1 s g l1)
    (hin : w.late = true → OccInCluster s (member x u)) : ovTerm s w l1 x u = termOV s l1 (member x u) := by
  cases u with
  | none =>
    rw [ovCore s hS w l1 x none fun hl => inC_eq (hin hl)]
    exact termOV_eq s l1 x
  | some g =>
    obtain ⟨ho, hu, h1⟩ := hs g rfl
    rw [ovCore s hS w l1 x (some g) fun hl => (inC_eq (hin hl)).trans (congrArg (fun A : x.co → x.f → K => mm (mm (tp s.moOcc) (mm s.ovlp (mm g x.cOcc))) A)
      (image_cf s x g hu.ovlp))]
    rw [← termOV_eq s l1 (member x (some g))]
    exact (ovg_congr (c := x.co) (d := x.cv) (congrArg (fun p : x.f → x.co → K => theta (restored p x.t2)) (image_px s x g hu.ovlp)) (image_l1 ho hu x h1)
      ((x.image g).mco s) ((x.image g).mcv s)).symm

theorem imageTerm (hs : Orthonormal s) (x : Frag ι K) {u : ι → ι → K} (hu : Operation s u) {L : T2 o o v v K} (hL : Invariant s u L) :
    mm (mm (tp s.moOcc) s.ovlp) (mm (mm u x.cOcc) (mm (mm (mm (xO s x L) (tp s.moOcc)) (tp u)) (tp (mm (tp s.moOcc) s.ovlp)))) = termOO s L (x.image u) ∧
    mm (mm (tp s.moVir) s.ovlp) (mm (mm u x.cVir) (mm (mm (mm (xV s x L) (tp s.moVir)) (tp u)) (tp (mm (tp s.moVir) s.ovlp)))) = termVV s L (x.image u) := by
  have hr : ∀ {n : Type} (c : ι → n → K), tp (rep s u c) = mm (tp c) (mm (tp u) (mm s.ovlp c)) := by
    intro n c
    rw [rep, tp_mm, tp_mm, tp_mm, hs.ovlp, tp_tp, mm_assoc, mm_assoc]
  refine ⟨?_, ?_⟩
  · rw [← termOO_eq, show xO s (x.image u) L = _ from image_xO hs hu x hL, hr, tp_mm, hs.ovlp, tp_tp]
    show _ = mm (mm (tp s.moOcc) (mm s.ovlp (mm u x.cOcc))) (mm (xO s x L) (mm (tp s.moOcc) (mm (tp u) (mm s.ovlp s.moOcc))))
    simp only [mm_assoc]
  · rw [← termVV_eq, show xV s (x.image u) L = _ from image_xV hs hu x hL, hr, tp_mm, hs.ovlp, tp_tp]
    show _ = mm (mm (tp s.moVir) (mm s.ovlp (mm u x.cVir))) (mm (xV s x L) (mm (tp s.moVir) (mm (tp u) (mm s.ovlp s.moVir))))
    simp only [mm_assoc]

/-- Conditions for the use of symmetry. -/
structure GoodSym (s : Mf ι o v K) (w : Opts K) (l : List (Frag ι K)) (l1 : T1 o v K) (L : T2 o o v v K) : Prop where
  orth : w.useSym = true → Orthonormal s
  op : w.useSym = true → ∀ x ∈ l, ∀ u ∈ x.ops, Operation s u ∧ Invariant s u L ∧ (w.withT1 = true → Invariant1 s u l1)

theorem xTerm_ok {w : Opts K} {l : List (Frag ι K)} (h : Good s w l) {l1 : T1 o v K} (hs : GoodSym s w l l1 (Lg s w l)) {x : Frag ι K} (hx : x ∈ loopOf w l) :
    xTerm s w (loopOf w l) l1 x = .ok ((x.copies w.useSym).map fun u => (termOO s (Lg s w l) (member x u), termVV s (Lg s w l) (member x u),
      if w.withT1 then termOV s l1 (member x u) else 0)).sum := by
  have h1 : xTerm s w (loopOf w l) l1 x = .ok (mm (x.mco s) (xO s x (Lg s w l)) + (((if w.useSym then x.ops else []).map fun u : ι → ι → K =>
      (mm (mm (tp s.moOcc) s.ovlp) (mm (mm u x.cOcc) (mm (mm (mm (xO s x (Lg s w l)) (tp s.moOcc)) (tp u)) (tp (mm (tp s.moOcc) s.ovlp)))),
        mm (mm (tp s.moVir) s.ovlp) (mm (mm u x.cVir) (mm (mm (mm (xV s x (Lg s w l)) (tp s.moVir)) (tp u)) (tp (mm (tp s.moVir) s.ovlp)))))).sum).1,
      mm (x.mcv s) (xV s x (Lg s w l)) + (((if w.useSym then x.ops else []).map fun u : ι → ι → K =>
      (mm (mm (tp s.moOcc) s.ovlp) (mm (mm u x.cOcc) (mm (mm (mm (xO s x (Lg s w l)) (tp s.moOcc)) (tp u)) (tp (mm (tp s.moOcc) s.ovlp)))),
        mm (mm (tp s.moVir) s.ovlp) (mm (mm u x.cVir) (mm (mm (mm (xV s x (Lg s w l)) (tp s.moVir)) (tp u)) (tp (mm (tp s.moVir) s.ovlp)))))).sum).2,
      if w.withT1 then ((x.copies w.useSym).map (ovTerm s w l1 x)).sum else 0) := by
    unfold xTerm
    rw [xIntermediates_ok h hx]
    rfl
  have hc : x.copies w.useSym = none :: (if w.useSym then x.ops else []).map some := by
    unfold Frag.copies
    cases w.useSym <;> rfl
  have hops : ∀ u ∈ (if w.useSym then x.ops else []), some u ∈ x.copies w.useSym := by
    intro u hu; rw [hc]; exact List.mem_cons_of_mem _ (List.mem_map_of_mem hu)
  have h2 : ((if w.useSym then x.ops else []).map fun u : ι → ι → K =>
      (mm (mm (tp s.moOcc) s.ovlp) (mm (mm u x.cOcc) (mm (mm (mm (xO s x (Lg s w l)) (tp s.moOcc)) (tp u)) (tp (mm (tp s.moOcc) s.ovlp)))),
        mm (mm (tp s.moVir) s.ovlp) (mm (mm u x.cVir) (mm (mm (mm (xV s x (Lg s w l)) (tp s.moVir)) (tp u)) (tp (mm (tp s.moVir) s.ovlp)))))) =
      ((if w.useSym then x.ops else []).map fun u : ι → ι → K => (termOO s (Lg s w l) (x.image u), termVV s (Lg s w l) (x.image u))) := by
    refine List.map_congr_left fun u hu => ?_
    obtain ⟨a, b, c⟩ := copies_iso hx (hops u hu) u rfl
    obtain ⟨p, q, -⟩ := hs.op a x b u c
    obtain ⟨e1, e2⟩ := imageTerm (hs.orth a) x p q
    rw [e1, e2]
  rw [h1, h2, termOO_eq, termVV_eq]
  have h3 : w.withT1 = true → (x.copies w.useSym).map (ovTerm s w l1 x) = (x.copies w.useSym).map fun u => termOV s l1 (member x u) := by
    intro ht
    refine List.map_congr_left fun u hu => ?_
    refine ovTerm_ok h.ovlp w l1 x u ?_ fun hl => h.inC hl _ (copies_true hx hu)
    intro g hg
    obtain ⟨a, b, c⟩ := copies_iso hx hu g hg
    exact ⟨hs.orth a, (hs.op a x b g c).1, (hs.op a x b g c).2.2 ht⟩
  rw [sum_prod, sum_prod, sum_prod]
  refine congrArg Except.ok (Prod.ext ?_ (Prod.ext ?_ ?_))
  · rw [hc]
    simp only [List.map_cons, List.sum_cons, List.map_map]
    rfl
  · rw [hc]
    simp only [List.map_cons, List.sum_cons, List.map_map]
    rfl
  · show (if w.withT1 = true then _ else _) = _
    cases ht : w.withT1 with
    | true =>
      rw [if_pos rfl, h3 ht]
      rfl
    | false =>
      rw [if_neg (by simp)]
      symm
      apply List.sum_eq_zero
      intro y hy
      obtain ⟨u, -, rfl⟩ := List.mem_map.1 hy
      rfl

theorem total_ok {w : Opts K} {l : List (Frag ι K)} (h : Good s w l) {l1 : T1 o v K} (hs : GoodSym s w l l1 (Lg s w l)) :
    accumulate (xTerm s w (loopOf w l) l1) (loopOf w l) = .ok (-dotO (theta (Tg s l)) (Lg s w l), dotV (theta (Tg s l)) (Lg s w l),
      if w.withT1 then dotS (theta (Tg s l)) l1 else 0) := by
  rw [accumulate_ok _ _ _ fun x hx => xTerm_ok h hs hx, sum_loop w l fun z => (termOO s (Lg s w l) z, termVV s (Lg s w l) z,
    if w.withT1 then termOV s l1 z else 0), sum_prod, sum_prod]
  have ht : theta (Tg s l) = ((l.flatMap Frag.family).map fun z => theta (Bt s z)).sum := map_sum_add theta theta_zero theta_add _ _
  rw [ht]
  refine congrArg Except.ok (Prod.ext ?_ (Prod.ext ?_ ?_))
  · refine (map_sum_add (fun A : T2 o o v v K => -dotO A (Lg s w l)) ?_ ?_ _ _).symm
    · funext i j; simp [dotO]
    · intro a b; show -dotO (a + b) _ = _; rw [dotO_add_l, neg_add]
  · refine (map_sum_add (fun A : T2 o o v v K => dotV A (Lg s w l)) ?_ ?_ _ _).symm
    · funext i j; simp [dotV]
    · intro a b; exact dotV_add_l _ _ _
  · show _ = if w.withT1 = true then _ else _
    cases w.withT1 with
    | true => exact (map_sum_add (fun A : T2 o o v v K => dotS A l1) (dotS_zero _) (fun a b => dotS_add _ _ _) _ _).symm
    | false =>
      apply List.sum_eq_zero
      intro y hy
      obtain ⟨u, -, rfl⟩ := List.mem_map.1 hy
      rfl

end

theorem combine_eq (t1 l1 : T1 o v K) (t2 l2 : T2 o o v v K) :
    combine true t1 l1 (-dotO (theta t2) l2, dotV (theta t2) l2, dotS (theta t2) l1) = ccRdm1 t1 t2 l1 l2 := by
  funext p q
  have hov : ∀ i a, combine true t1 l1 (-dotO (theta t2) l2, dotV (theta t2) l2, dotS (theta t2) l1) (.inl i) (.inr a) =
      ccRdm1 t1 t2 l1 l2 (.inl i) (.inr a) := by
    intro i a
    show dotS (theta t2) l1 i a + (t1 i a + l1 i a - ∑ e, ∑ m, t1 i e * l1 m e * t1 m a) + (∑ m, -dotO (theta t2) l2 i m * t1 m a) -
      ∑ e, t1 i e * dotV (theta t2) l2 a e = t1 i a + l1 i a + dotS (theta t2) l1 i a - (∑ e, ∑ m, t1 i e * l1 m e * t1 m a) -
      (∑ m, dotO (theta t2) l2 i m * t1 m a) - ∑ e, t1 i e * dotV (theta t2) l2 a e
    simp only [neg_mul, Finset.sum_neg_distrib]
    ring
  rcases p with i | a <;> rcases q with j | b
  · show -dotO (theta t2) l2 i j - (∑ a, t1 j a * l1 i a) + (-dotO (theta t2) l2 j i - ∑ a, t1 i a * l1 j a) =
      -(∑ a, (t1 i a * l1 j a + t1 j a * l1 i a)) - (dotO (theta t2) l2 i j + dotO (theta t2) l2 j i)
    rw [Finset.sum_add_distrib]; ring
  · exact hov i b
  · exact hov j a
  · show dotV (theta t2) l2 a b + (∑ i, t1 i a * l1 i b) + (dotV (theta t2) l2 b a + ∑ i, t1 i b * l1 i a) =
      (∑ i, (t1 i a * l1 i b + t1 i b * l1 i a)) + (dotV (theta t2) l2 a b + dotV (theta t2) l2 b a)
    rw [Finset.sum_add_distrib]; ring

theorem combine_false (t1 l1 : T1 o v K) (t2 l2 : T2 o o v v K) (d : o → v → K) :
    combine false t1 l1 (-dotO (theta t2) l2, dotV (theta t2) l2, d) = ccRdm1 0 t2 0 l2 := by
  rw [← combine_eq]
  funext p q
  rcases p with i | a <;> rcases q with j | b
  · show -dotO (theta t2) l2 i j + -dotO (theta t2) l2 j i = -dotO (theta t2) l2 i j - (∑ a : v, (0 : K) * 0) + (-dotO (theta t2) l2 j i - ∑ a : v, (0 : K) * 0)
    simp
  · show (0 : K) = dotS (theta t2) 0 i b + (0 + 0 - ∑ e : v, ∑ m : o, (0 : K) * 0 * 0) + (∑ m : o, -dotO (theta t2) l2 i m * 0) - ∑ e : v, 0 * dotV (theta t2) l2 b e
    simp [dotS]
  · show (0 : K) = dotS (theta t2) 0 j a + (0 + 0 - ∑ e : v, ∑ m : o, (0 : K) * 0 * 0) + (∑ m : o, -dotO (theta t2) l2 j m * 0) - ∑ e : v, 0 * dotV (theta t2) l2 a e
    simp [dotS]
  · show dotV (theta t2) l2 a b + dotV (theta t2) l2 b a = dotV (theta t2) l2 a b + (∑ i : o, (0 : K) * 0) + (dotV (theta t2) l2 b a + ∑ i : o, (0 : K) * 0)
    simp

/-- The density matrix of symmetric amplitudes. -/
theorem makeRdm1_eq (t1 l1 : T1 o v K) (t2 l2 : T2 o o v v K) (ht : transp t2 = t2) (hl : transp l2 = l2) :
    makeRdm1 (gamma1 t1 t2 l1 l2) = ccRdm1 t1 t2 l1 l2 := by
  have e1 : ∀ i m, (∑ n, ∑ e, ∑ f, l2 m n e f * theta t2 i n e f) = dotO (theta t2) l2 i m := by
    intro i m
    exact Finset.sum_congr rfl fun _ _ => Finset.sum_congr rfl fun _ _ => Finset.sum_congr rfl fun _ _ => mul_comm _ _
  have e2 : ∀ a e, (∑ m, ∑ n, ∑ f, l2 m n e f * theta t2 m n a f) = dotV (theta t2) l2 a e := by
    intro a e
    rw [Finset.sum_comm]
    refine Finset.sum_congr rfl fun n _ => Finset.sum_congr rfl fun m _ => Finset.sum_congr rfl fun f _ => ?_
    have h1 : l2 m n e f = l2 n m f e := congrFun (congrFun (congrFun (congrFun hl m) n) e) f |>.symm
    have h2 : theta t2 m n a f = theta t2 n m f a := by
      have := fun x y => (congrFun (congrFun (congrFun (congrFun ht m) n) x) y).symm
      simp only [theta, transp] at this ⊢
      rw [this a f, this f a]
    rw [h1, h2, mul_comm]
  have hov : ∀ i a, makeRdm1 (gamma1 t1 t2 l1 l2) (.inl i) (.inr a) = ccRdm1 t1 t2 l1 l2 (.inl i) (.inr a) := by
    intro i a
    show l1 i a + (t1 i a - (∑ m, (∑ e, t1 i e * l1 m e) * t1 m a) + dotS (theta t2) l1 i a - (∑ m, (∑ n, ∑ e, ∑ f, l2 m n e f * theta t2 i n e f) * t1 m a) -
      ∑ e, t1 i e * (∑ m, ∑ n, ∑ f, l2 m n e f * theta t2 m n a f)) = t1 i a + l1 i a + dotS (theta t2) l1 i a - (∑ e, ∑ m, t1 i e * l1 m e * t1 m a) -
      (∑ m, dotO (theta t2) l2 i m * t1 m a) - ∑ e, t1 i e * dotV (theta t2) l2 a e
    simp only [e1, e2]
    have : (∑ m, (∑ e, t1 i e * l1 m e) * t1 m a) = ∑ e, ∑ m, t1 i e * l1 m e * t1 m a := by
      simp only [Finset.sum_mul]; exact Finset.sum_comm
    rw [this]; ring
  funext p q
  rcases p with i | a <;> rcases q with j | b
  · show -(∑ a, t1 j a * l1 i a) - dotO (theta t2) l2 j i + (-(∑ a, t1 i a * l1 j a) - dotO (theta t2) l2 i j) =
      -(∑ a, (t1 i a * l1 j a + t1 j a * l1 i a)) - (dotO (theta t2) l2 i j + dotO (theta t2) l2 j i)
    rw [Finset.sum_add_distrib]; ring
  · exact hov i b
  · exact hov j a
  · show (∑ i, t1 i a * l1 i b) + dotV (theta t2) l2 a b + ((∑ i, t1 i b * l1 i a) + dotV (theta t2) l2 b a) =
      (∑ i, (t1 i a * l1 i b + t1 i b * l1 i a)) + (dotV (theta t2) l2 a b + dotV (theta t2) l2 b a)
    rw [Finset.sum_add_distrib]; ring

theorem transp_restored {f c d : Type} [Fintype f] (p : f → c → K) (t : T2 f c d d K) : transp (restored p t) = restored p t := by
  rw [restored_eq]
  funext i j a b
  show (1 / 2 : K) * (L1 (tp p) t j i b a + L2 (tp p) (transp t) j i b a) = (1 / 2 : K) * (L1 (tp p) t i j a b + L2 (tp p) (transp t) i j a b)
  have h : ∀ i j a b, L2 (tp p) (transp t) i j a b = L1 (tp p) t j i b a := fun _ _ _ _ => rfl
  rw [h, h, add_comm]

theorem transp_back' {c d : Type} [Fintype c] [Fintype d] (ro : o → c → K) (rv : v → d → K) {t : T2 c c d d K} (ht : transp t = t) :
    transp (back ro rv t) = back ro rv t := by
  have : transp (back ro rv t) = L2 ro (L1 ro (L4 rv (L3 rv (transp t)))) := rfl
  rw [this, L2_L1, L4_L3, ht, back]

theorem transp_sum {α : Type*} (l : List α) (c : α → T2 o o v v K) (h : ∀ x ∈ l, transp (c x) = c x) : transp (l.map c).sum = (l.map c).sum := by
  rw [map_sum_add (fun t : T2 o o v v K => transp t) rfl (fun _ _ => rfl)]
  exact congrArg List.sum (List.map_congr_left h)

theorem transp_Tg (s : Mf ι o v K) (l : List (Frag ι K)) : transp (Tg s l) = Tg s l :=
  transp_sum _ _ fun _ _ => transp_back' _ _ (transp_restored _ _)
theorem transp_Lg (s : Mf ι o v K) (w : Opts K) (l : List (Frag ι K)) : transp (Lg s w l) = Lg s w l :=
  transp_sum _ _ fun _ _ => transp_back' _ _ (transp_restored _ _)

end Vayesta.EwfRdm
