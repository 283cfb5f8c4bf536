import Verif.Lemmas.EwfRdmTrace

/-! One-body density matrices of restricted EWF calculations (C84). -/

set_option linter.unusedSectionVars false

namespace Vayesta.Props
open Vayesta.EwfRdm Vayesta.Amplitudes Vayesta.Tensor

variable {K : Type} [Field K] {ι o v : Type} [Fintype ι] [Fintype o] [Fintype v]

section
variable [DecidableEq o] [DecidableEq v]

/-- The fast and the slow algorithm of the density matrix of the global wave function both give the coupled-cluster density matrix of the global
amplitudes, for every combination of options of the fast one, as long as nothing is truncated. Symmetry can be used if the operations leave the
mean-field and the global amplitudes unchanged. -/
theorem rdm1_global (s : Mf ι o v K) (w : Opts K) (l : List (EwfRdm.Frag ι K)) (hS : tp s.ovlp = s.ovlp) (hloss : NoLoss s w (l.flatMap Frag.family))
    (hlam : ∀ x ∈ l, HasLambda w.tAsLambda x) (hin : w.late = true → ∀ z ∈ l.flatMap Frag.family, OccInCluster s z)
    (hsym : w.useSym = true → Orthonormal s ∧ ∀ x ∈ l, ∀ u ∈ x.ops, Operation s u ∧
      (∀ l2, globT2 s (!w.tAsLambda) l = .ok l2 → Invariant s u l2) ∧ ∀ l1, globT1 s (!w.tAsLambda) l = .ok l1 → Invariant1 s u l1) :
    ∃ t1 t2 l1 l2, globT1 s false l = .ok t1 ∧ globT2 s false l = .ok t2 ∧ globT1 s (!w.tAsLambda) l = .ok l1 ∧ globT2 s (!w.tAsLambda) l = .ok l2 ∧
      fast s w l = .ok (if w.withT1 then ccRdm1 t1 t2 l1 l2 else ccRdm1 0 t2 0 l2) ∧
      slow s w.tAsLambda w.withT1 l = .ok (if w.withT1 then ccRdm1 t1 t2 l1 l2 else ccRdm1 0 t2 0 l2) := by
  have hg : Good s w l := ⟨hS, hloss, hlam, hin, fun h x hx u hu => ((hsym h).2 x hx u hu).1.ovlp⟩
  have hl' : ∀ z ∈ l.flatMap Frag.family, HasLambda w.tAsLambda z := fun z hz => good_lam hg hz
  have e1 : globT1 s false l = .ok _ := globT1_B1 s true l fun z _ => Or.inl rfl
  have e2 : globT2 s false l = .ok (Tg s l) := globT2_eq s false l (Bt s) fun z _ => t2Contrib_t s z
  have e3 := globT1_B1 s w.tAsLambda l hl'
  have e4 : globT2 s (!w.tAsLambda) l = .ok (Lg s w l) := globT2_eq s _ l (Bl s w.tAsLambda) fun z hz => t2Contrib_l s w.tAsLambda z (hl' z hz)
  generalize ((l.flatMap Frag.family).map (B1 s true)).sum = t1 at e1
  generalize ((l.flatMap Frag.family).map (B1 s w.tAsLambda)).sum = l1 at e3
  refine ⟨t1, Tg s l, l1, Lg s w l, e1, e2, e3, e4, ?_, ?_⟩
  · have hgs : ∀ m1 : T1 o v K, (w.withT1 = true → m1 = l1) → GoodSym s w l m1 (Lg s w l) := fun m1 hm =>
      ⟨fun h => (hsym h).1, fun h x hx u hu => ⟨((hsym h).2 x hx u hu).1, ((hsym h).2 x hx u hu).2.1 _ e4, fun ht => by
        rw [hm ht]; exact ((hsym h).2 x hx u hu).2.2 _ e3⟩⟩
    unfold fast
    rw [e1, e3]
    cases ht : w.withT1 with
    | true =>
      have := total_ok hg (hgs l1 fun _ => rfl)
      rw [ht, if_pos rfl] at this
      show (do let d ← accumulate (xTerm s w (loopOf w l) l1) (loopOf w l); pure (combine true t1 l1 d) : Except PyErr _) = _
      rw [this]
      exact congrArg Except.ok (combine_eq _ _ _ _)
    | false =>
      have := total_ok hg (hgs 0 (by rw [ht]; intro h; cases h))
      rw [ht] at this
      show (do let d ← accumulate (xTerm s w (loopOf w l) 0) (loopOf w l); pure (combine false 0 0 d) : Except PyErr _) = _
      rw [this]
      exact congrArg Except.ok (combine_false _ _ _ _ _)
  · have h1 : (bif w.tAsLambda then (pure t1 : Except PyErr _) else globT1 s true l) = .ok l1 := by
      cases htl : w.tAsLambda with
      | true => rw [htl] at e3; exact e1.symm.trans e3
      | false => rw [htl] at e3; exact e3
    have h2 : (bif w.tAsLambda then (pure (Tg s l) : Except PyErr _) else globT2 s true l) = .ok (Lg s w l) := by
      cases htl : w.tAsLambda with
      | true => rw [htl] at e4; exact e2.symm.trans e4
      | false => rw [htl] at e4; exact e4
    have h : slow s w.tAsLambda w.withT1 l = .ok (if w.withT1 then makeRdm1 (gamma1 t1 (Tg s l) l1 (Lg s w l)) else makeRdm1 (gamma1 0 (Tg s l) 0 (Lg s w l))) := by
      unfold slow
      rw [e1, e2]
      show (do let l1 ← bif w.tAsLambda then (pure t1 : Except PyErr _) else globT1 s true l
               let l2 ← bif w.tAsLambda then (pure (Tg s l) : Except PyErr _) else globT2 s true l
               pure (if w.withT1 then makeRdm1 (gamma1 t1 (Tg s l) l1 l2) else makeRdm1 (gamma1 0 (Tg s l) 0 l2)) : Except PyErr _) = _
      rw [h1, h2]
      rfl
    rw [h, makeRdm1_eq _ _ _ _ (transp_Tg s l) (transp_Lg s w l), makeRdm1_eq _ _ _ _ (transp_Tg s l) (transp_Lg s w l)]

/-- The global amplitudes do not change under an operation if it maps the set of all fragments to itself. -/
theorem global_amplitudes_invariant (s : Mf ι o v K) (hs : Orthonormal s) (tAsLambda : Bool) (l : List (EwfRdm.Frag ι K)) (hlam : ∀ x ∈ l, HasLambda tAsLambda x)
    (u : ι → ι → K) (hu : Operation s u) (hc : ((l.flatMap Frag.family).map fun z => z.image u).Perm (l.flatMap Frag.family)) :
    (∀ l2, globT2 s (!tAsLambda) l = .ok l2 → Invariant s u l2) ∧ ∀ l1, globT1 s (!tAsLambda) l = .ok l1 → Invariant1 s u l1 := by
  have hl' : ∀ z ∈ l.flatMap Frag.family, HasLambda tAsLambda z := by
    intro z hz
    obtain ⟨y, hy, u, -, rfl⟩ := mem_family hz
    exact hasLambda_member (hlam y hy) u
  refine ⟨fun l2 h => ?_, fun l1 h => ?_⟩
  · have e4 : globT2 s (!tAsLambda) l = .ok (Lg s (⟨tAsLambda, true, none, none, true, true⟩ : Opts K) l) :=
      globT2_eq s _ l (Bl s tAsLambda) fun z hz => t2Contrib_l s tAsLambda z (hl' z hz)
    rw [e4] at h
    cases h
    exact inv_of_closed hs hu hc
  · rw [globT1_B1 s tAsLambda l hl'] at h
    cases h
    exact inv1_of_closed hs hu tAsLambda hc

/-- The use of symmetry does not change the density matrix if every operation maps the set of all fragments to itself. -/
theorem rdm1_global_symmetry (s : Mf ι o v K) (hs : Orthonormal s) (w : Opts K) (l : List (EwfRdm.Frag ι K)) (hloss : NoLoss s w (l.flatMap Frag.family))
    (hlam : ∀ x ∈ l, HasLambda w.tAsLambda x) (hin : w.late = true → ∀ z ∈ l.flatMap Frag.family, OccInCluster s z)
    (hc : ∀ x ∈ l, ∀ u ∈ x.ops, Operation s u ∧ ((l.flatMap Frag.family).map fun z => z.image u).Perm (l.flatMap Frag.family)) :
    ∃ d, fast s { w with useSym := true } l = .ok d ∧ fast s { w with useSym := false } l = .ok d := by
  obtain ⟨t1, t2, l1, l2, a1, a2, a3, a4, a5, -⟩ := rdm1_global s { w with useSym := true } l hs.ovlp ⟨hloss.1, hloss.2, hloss.3, hloss.4⟩ hlam hin fun _ =>
    ⟨hs, fun x hx u hu => ⟨(hc x hx u hu).1, global_amplitudes_invariant s hs w.tAsLambda l hlam u (hc x hx u hu).1 (hc x hx u hu).2⟩⟩
  obtain ⟨t1', t2', l1', l2', b1, b2, b3, b4, b5, -⟩ := rdm1_global s { w with useSym := false } l hs.ovlp ⟨hloss.1, hloss.2, hloss.3, hloss.4⟩ hlam hin
    (fun h => by cases h)
  rw [a1] at b1
  rw [a2] at b2
  dsimp only at a3 a4 b3 b4
  rw [a3] at b3
  rw [a4] at b4
  cases b1; cases b2; cases b3; cases b4
  exact ⟨_, a5, b5⟩

/-! ## Exact clusters -/

/-- With clusters that span the whole space, and fragments that partition the occupied space, the global amplitudes are those of the whole system. -/
theorem global_amplitudes_exact (s : Mf ι o v K) (hs : Orthonormal s) (h2 : (2 : K) ≠ 0) (t1 l1 : T1 o v K) (t2 l2 : T2 o o v v K)
    (ht : ∀ i j a b, t2 j i b a = t2 i j a b) (hl : ∀ i j a b, l2 j i b a = l2 i j a b) (l : List (EwfRdm.Frag ι K))
    (hx : ∀ z ∈ l.flatMap Frag.family, ∃ ro rv, Exact s t1 t2 l1 l2 z ro rv) (hp : Partitions s (l.flatMap Frag.family))
    (ho : ∀ x ∈ l, x.tAsLambda = false) (hm : ∀ x ∈ l, x.mp2 = true → l2 = t2) :
    globT1 s false l = .ok t1 ∧ globT2 s false l = .ok t2 ∧ globT1 s true l = .ok l1 ∧ globT2 s true l = .ok l2 := by
  have hlz : ∀ z ∈ l.flatMap Frag.family, z.tAsLambda = false := by
    intro z hz
    obtain ⟨y, hy, u, -, rfl⟩ := mem_family hz
    cases u <;> exact ho y hy
  have hmz : ∀ z ∈ l.flatMap Frag.family, z.mp2 = true → l2 = t2 := by
    intro z hz
    obtain ⟨y, hy, u, -, rfl⟩ := mem_family hz
    cases u <;> exact hm y hy
  have htr : transp t2 = t2 := by funext i j a b; exact ht i j a b
  have hlr : transp l2 = l2 := by funext i j a b; exact hl i j a b
  have hla : ∀ z ∈ l.flatMap Frag.family, HasLambda false z := by
    intro z hz
    obtain ⟨ro, rv, h⟩ := hx z hz
    refine Or.inr ⟨hlz z hz, by rw [h.l1]; rfl, by rw [h.l2]; rfl, fun hmp => ?_⟩
    rw [h.l2, h.t2, hmz z hz hmp]
  obtain ⟨a, b⟩ := globT1_exact hs hx hp hlz
  refine ⟨a, ?_, b, ?_⟩
  · rw [globT2_eq s false l (Bt s) fun z _ => t2Contrib_t s z]
    exact congrArg Except.ok (Tg_exact hs h2 hx hp htr)
  · have e4 : globT2 s true l = .ok (Lg s (⟨false, true, none, none, true, true⟩ : Opts K) l) :=
      globT2_eq s _ l (Bl s false) fun z hz => t2Contrib_l s false z (hla z hz)
    rw [e4]
    exact congrArg Except.ok (Lg_exact hs h2 hx hp _ htr hlr hmz)

/-- With clusters that span the whole space the fast algorithm, with any options, gives the density matrix of the whole system. -/
theorem rdm1_global_exact (s : Mf ι o v K) (hs : Orthonormal s) (h2 : (2 : K) ≠ 0) (t1 l1 : T1 o v K) (t2 l2 : T2 o o v v K)
    (ht : ∀ i j a b, t2 j i b a = t2 i j a b) (hl : ∀ i j a b, l2 j i b a = l2 i j a b) (w : Opts K) (l : List (EwfRdm.Frag ι K))
    (hx : ∀ z ∈ l.flatMap Frag.family, ∃ ro rv, Exact s t1 t2 l1 l2 z ro rv) (hp : Partitions s (l.flatMap Frag.family))
    (ho : ∀ x ∈ l, x.tAsLambda = false) (hm : ∀ x ∈ l, x.mp2 = true → l2 = t2) (hloss : NoLoss s w (l.flatMap Frag.family))
    (hsym : w.useSym = true → ∀ x ∈ l, ∀ u ∈ x.ops, Operation s u ∧ Invariant s u (if w.tAsLambda then t2 else l2) ∧
      Invariant1 s u (if w.tAsLambda then t1 else l1)) :
    fast s w l = .ok (if w.withT1 then ccRdm1 t1 t2 (if w.tAsLambda then t1 else l1) (if w.tAsLambda then t2 else l2)
      else ccRdm1 0 t2 0 (if w.tAsLambda then t2 else l2)) := by
  obtain ⟨g1, g2, g3, g4⟩ := global_amplitudes_exact s hs h2 t1 l1 t2 l2 ht hl l hx hp ho hm
  have g3' : globT1 s (!w.tAsLambda) l = .ok (if w.tAsLambda then t1 else l1) := by cases w.tAsLambda <;> assumption
  have g4' : globT2 s (!w.tAsLambda) l = .ok (if w.tAsLambda then t2 else l2) := by cases w.tAsLambda <;> assumption
  have hlam : ∀ x ∈ l, HasLambda w.tAsLambda x := by
    intro x hxl
    obtain ⟨ro, rv, h⟩ := hx { x with ops := [] } (member_mem hxl (u := none) (by simp [Frag.copies]))
    cases htl : w.tAsLambda with
    | true => exact Or.inl rfl
    | false =>
      have e1 : x.l1 = some _ := h.l1
      have e2 : x.l2 = some _ := h.l2
      have e3 : x.t2 = _ := h.t2
      refine Or.inr ⟨ho x hxl, by rw [e1]; rfl, by rw [e2]; rfl, fun hmp => ?_⟩
      rw [e2, e3, hm x hxl hmp]
  have hin : w.late = true → ∀ z ∈ l.flatMap Frag.family, OccInCluster s z := by
    intro _ z hz
    obtain ⟨ro, rv, h⟩ := hx z hz
    show mm (tp s.moOcc) (mm s.ovlp z.cFrag) = mm (tp s.moOcc) (mm s.ovlp (mm z.cOcc (mm (tp z.cOcc) (mm s.ovlp z.cFrag))))
    have : mm (tp s.moOcc) (mm s.ovlp (mm z.cOcc (mm (tp z.cOcc) (mm s.ovlp z.cFrag)))) =
        mm (mm (tp s.moOcc) (mm s.ovlp s.moOcc)) (mm (mm ro (tp ro)) (mm (tp s.moOcc) (mm s.ovlp z.cFrag))) := by
      rw [h.occ, tp_mm]
      simp only [mm_assoc]
    rw [this, hs.occ, h.spanOcc, delta_mm, delta_mm]
  obtain ⟨a1, a2, a3, a4, b1, b2, b3, b4, b5, -⟩ := rdm1_global s w l hs.ovlp hloss hlam hin fun hu => ⟨hs, fun x hx u hxu => by
    obtain ⟨c1, c2, c3⟩ := hsym hu x hx u hxu
    refine ⟨c1, fun m h => ?_, fun m h => ?_⟩
    · rw [g4'] at h; cases h; exact c2
    · rw [g3'] at h; cases h; exact c3⟩
  rw [g1] at b1
  rw [g2] at b2
  rw [g3'] at b3
  rw [g4'] at b4
  cases b1; cases b2; cases b3; cases b4
  exact b5

/-- The same for the sum of fragment contributions, with both values of `symmetrize`. The MP2 version has no singles and uses the amplitudes as lambda
amplitudes. -/
theorem rdm1_ccsd_exact (s : Mf ι o v K) (hs : Orthonormal s) (h2 : (2 : K) ≠ 0) (t1 l1 : T1 o v K) (t2 l2 : T2 o o v v K)
    (ht : ∀ i j a b, t2 j i b a = t2 i j a b) (hl : ∀ i j a b, l2 j i b a = l2 i j a b) (l : List (EwfRdm.Frag ι K))
    (hx : ∀ z ∈ l.flatMap Frag.family, ∃ ro rv, Exact s t1 t2 l1 l2 z ro rv) (hp : Partitions s (l.flatMap Frag.family))
    (ho : ∀ x ∈ l, x.tAsLambda = false) (tAsLambda symmetrize : Bool) :
    rdm1Ccsd s tAsLambda symmetrize false l = .ok (ccRdm1 t1 t2 (if tAsLambda then t1 else l1) (if tAsLambda then t2 else l2)) ∧
    rdm1Ccsd s tAsLambda symmetrize true l = .ok (ccRdm1 0 t2 0 t2) := by
  have hlz : ∀ z ∈ l.flatMap Frag.family, z.tAsLambda = false := by
    intro z hz
    obtain ⟨y, hy, u, -, rfl⟩ := mem_family hz
    cases u <;> exact ho y hy
  have htr : transp t2 = t2 := by funext i j a b; exact ht i j a b
  have hlr : transp l2 = l2 := by funext i j a b; exact hl i j a b
  obtain ⟨a, b⟩ := globT1_exact hs hx hp hlz
  refine ⟨?_, ?_⟩
  · unfold rdm1Ccsd
    rw [a, b]
    have := rdm1Ccsd_total hs h2 tAsLambda symmetrize false (if tAsLambda then t1 else l1) htr hlr hx hp
    cases tAsLambda with
    | true =>
      show (do let d ← accumulate (fragTerm s true symmetrize false t1) (l.flatMap Frag.family); pure (combine true t1 t1 d) : Except PyErr _) = _
      rw [if_pos rfl, if_pos rfl] at this
      rw [this]
      exact congrArg Except.ok (combine_eq _ _ _ _)
    | false =>
      show (do let d ← accumulate (fragTerm s false symmetrize false l1) (l.flatMap Frag.family); pure (combine true t1 l1 d) : Except PyErr _) = _
      rw [if_neg (by simp), if_neg (by simp)] at this
      rw [this]
      exact congrArg Except.ok (combine_eq _ _ _ _)
  · unfold rdm1Ccsd
    have := rdm1Ccsd_total hs h2 true symmetrize true 0 htr hlr hx hp
    show (do let d ← accumulate (fragTerm s (tAsLambda || true) symmetrize true 0) (l.flatMap Frag.family); pure (combine false 0 0 d) : Except PyErr _) = _
    rw [Bool.or_true, this]
    exact congrArg Except.ok (combine_false _ _ _ _ _)

/-- The same for projected lambda amplitudes, with both values of `sym_t2`. -/
theorem rdm1_proj_lambda_exact (s : Mf ι o v K) (hs : Orthonormal s) (h2 : (2 : K) ≠ 0) (t1 l1 : T1 o v K) (t2 l2 : T2 o o v v K)
    (ht : ∀ i j a b, t2 j i b a = t2 i j a b) (hl : ∀ i j a b, l2 j i b a = l2 i j a b) (l : List (LFrag ι K))
    (hx : ∀ y ∈ l, ∃ ro rv, Exact s t1 t2 l1 l2 y.x ro rv ∧ y.t1 = EwfEnergy.restrict1 ro rv t1 ∧ y.t2 = EwfEnergy.restrict2 ro rv t2)
    (hp : Partitions s (l.map LFrag.x)) (tAsLambda symT2 : Bool) :
    rdm1ProjLambda s tAsLambda symT2 l = .ok (ccRdm1 t1 t2 (if tAsLambda then t1 else l1) (if tAsLambda then t2 else l2)) := by
  have htr : transp t2 = t2 := by funext i j a b; exact ht i j a b
  have hlr : transp l2 = l2 := by funext i j a b; exact hl i j a b
  rw [projLambda_total hs h2 tAsLambda symT2 htr hlr hx hp, G_plain, makeRdm1_eq _ _ _ _ htr (by split_ifs <;> assumption)]

/-! ## Number of electrons and symmetry -/

private theorem ite_of {n : Type} [DecidableEq n] {i j : n} {a : K} (h : (i = j → a = 1) ∧ (i ≠ j → a = 0)) : a = delta i j := by
  unfold delta
  split_ifs with e
  · exact h.1 e
  · exact h.2 e


/-- Coupled-cluster density matrices have no effect on the number of electrons. -/
theorem cc_rdm1_trace (t1 l1 : T1 o v K) (t2 l2 : T2 o o v v K) : ∑ p, ccRdm1 t1 t2 l1 l2 p p = 0 := trc_cc t1 l1 t2 l2

/-- The fast algorithm conserves the number of electrons, for any fragments and amplitudes, also if singular values are removed and pairs of fragments
left out, if amplitudes are symmetrised before. -/
theorem rdm1_global_electrons (s : Mf ι o v K) (w : Opts K) (hw : w.late = false) (l : List (EwfRdm.Frag ι K))
    (hs : w.useSym = true → Orthonormal s ∧ ∀ x ∈ l, ∀ u ∈ x.ops, Operation s u) (d : o ⊕ v → o ⊕ v → K) (h : fast s w l = .ok d) :
    ∑ p, d p p = 0 := by
  have key : ∀ (t1 l1 : T1 o v K), (do let e ← accumulate (xTerm s w (loopOf w l) l1) (loopOf w l); pure (combine w.withT1 t1 l1 e) : Except PyErr _) = .ok d →
      ∑ p, d p p = 0 := by
    intro t1 l1 h
    cases he : accumulate (xTerm s w (loopOf w l) l1) (loopOf w l) with
    | error e => rw [he] at h; cases h
    | ok e =>
      rw [he] at h
      cases h
      refine trc_combine _ _ _ _ (accumulate_inv Bal ?_ bal_add _ _ (fun x hx c hc => xTerm_trc hw ?_ c hc) e he)
      · show trc 0 + trc 0 = 0
        rw [trc_zero, trc_zero, add_zero]
      · intro hu
        refine ⟨(hs hu).1, (hs hu).2 x ?_⟩
        unfold loopOf at hx
        rwa [if_pos hu] at hx
  unfold fast at h
  cases h1 : (bif w.withT1 then globT1 s false l else pure 0 : Except PyErr (T1 o v K)) with
  | error e => rw [h1] at h; cases h
  | ok t1 =>
    cases h2 : (bif w.withT1 then globT1 s (!w.tAsLambda) l else pure 0 : Except PyErr (T1 o v K)) with
    | error e => rw [h1, h2] at h; cases h
    | ok l1 =>
      rw [h1, h2] at h
      exact key t1 l1 h

/-- Sums of fragment contributions conserve the number of electrons, for any amplitudes, if clusters are made of orthonormal occupied and orthonormal virtual
orbitals. -/
theorem rdm1_ccsd_electrons (s : Mf ι o v K) (h2 : (2 : K) ≠ 0) (l : List (EwfRdm.Frag ι K))
    (ho : ∀ z ∈ l.flatMap Frag.family, ∀ i j, (i = j → ∑ k, z.mco s k i * z.mco s k j = 1) ∧ (i ≠ j → ∑ k, z.mco s k i * z.mco s k j = 0))
    (hv : ∀ z ∈ l.flatMap Frag.family, ∀ a b, (a = b → ∑ k, z.mcv s k a * z.mcv s k b = 1) ∧ (a ≠ b → ∑ k, z.mcv s k a * z.mcv s k b = 0))
    (tAsLambda symmetrize mp2 : Bool) (d : o ⊕ v → o ⊕ v → K) (h : rdm1Ccsd s tAsLambda symmetrize mp2 l = .ok d) : ∑ p, d p p = 0 := by
  classical
  have key : ∀ (t1 l1 : T1 o v K), (do let e ← accumulate (fragTerm s (tAsLambda || mp2) symmetrize mp2 l1) (l.flatMap Frag.family)
                                       pure (combine (!mp2) t1 l1 e) : Except PyErr _) = .ok d → ∑ p, d p p = 0 := by
    intro t1 l1 h
    cases he : accumulate (fragTerm s (tAsLambda || mp2) symmetrize mp2 l1) (l.flatMap Frag.family) with
    | error e => rw [he] at h; cases h
    | ok e =>
      rw [he] at h
      cases h
      refine trc_combine _ _ _ _ (accumulate_inv Bal ?_ bal_add _ _ (fun x hx c hc => ?_) e he)
      · show trc 0 + trc 0 = 0
        rw [trc_zero, trc_zero, add_zero]
      · unfold fragTerm at hc
        cases hl : x.lamPlain (tAsLambda || mp2) with
        | error e => rw [hl] at hc; cases hc
        | ok l2 =>
          rw [hl] at hc
          rw [← Except.ok.inj hc]
          refine fragBlocks_trc h2 s _ _ _ x ?_ ?_ l2
          · funext i j
            exact ite_of (ho x hx i j)
          · funext i j
            exact ite_of (hv x hx i j)
  unfold rdm1Ccsd at h
  dsimp only at h
  cases h1 : (bif mp2 then pure 0 else globT1 s false l : Except PyErr (T1 o v K)) with
  | error e => rw [h1] at h; cases h
  | ok t1 =>
    rw [h1] at h
    cases h2 : (bif mp2 then pure 0 else bif (tAsLambda || mp2) then pure t1 else globT1 s true l : Except PyErr (T1 o v K)) with
    | error e =>
      have h' : (do let l1 ← (bif mp2 then pure 0 else bif (tAsLambda || mp2) then pure t1 else globT1 s true l : Except PyErr (T1 o v K))
                    let e ← accumulate (fragTerm s (tAsLambda || mp2) symmetrize mp2 l1) (l.flatMap Frag.family)
                    pure (combine (!mp2) t1 l1 e) : Except PyErr _) = .ok d := h
      rw [h2] at h'; cases h'
    | ok l1 =>
      have h' : (do let l1 ← (bif mp2 then pure 0 else bif (tAsLambda || mp2) then pure t1 else globT1 s true l : Except PyErr (T1 o v K))
                    let e ← accumulate (fragTerm s (tAsLambda || mp2) symmetrize mp2 l1) (l.flatMap Frag.family)
                    pure (combine (!mp2) t1 l1 e) : Except PyErr _) = .ok d := h
      rw [h2] at h'
      exact key t1 l1 h'

/-- The same for projected lambda amplitudes. -/
theorem rdm1_proj_lambda_electrons (s : Mf ι o v K) (l : List (LFrag ι K))
    (hc : ∀ y ∈ l, ∀ i j, (i = j → ∑ k, y.mc s k i * y.mc s k j = 1) ∧ (i ≠ j → ∑ k, y.mc s k i * y.mc s k j = 0)) (tAsLambda symT2 : Bool) (d : o ⊕ v → o ⊕ v → K)
    (h : rdm1ProjLambda s tAsLambda symT2 l = .ok d) : ∑ p, d p p = 0 := by
  classical
  refine accumulate_inv (fun d : o ⊕ v → o ⊕ v → K => trc d = 0) trc_zero (fun a b ha hb => ?_) _ _ (fun y hy c hcc => ?_) d h
  · show trc (a + b) = 0
    rw [trc_add, ha, hb, add_zero]
  · obtain ⟨e, h1, he⟩ := bind_pure_ok' _ _ hcc
    obtain ⟨m, -, hm⟩ := map_ok _ _ h1
    have hd : mm (tp (y.mc s)) (y.mc s) = delta := by
      funext i j
      exact ite_of (hc y hy i j)
    show trc c = 0
    rw [← he, trc_comm, mm_assoc, hd, mm_delta, ← hm]
    exact trc_gamma _ _ _ _ _

/-- With the mean-field contribution, in the AO basis: the number of electrons is that of the mean-field. -/
theorem rdm1_ao_electrons (s : Mf ι o v K) (hs : Orthonormal s) (d : o ⊕ v → o ⊕ v → K) (hd : ∑ p, d p p = 0) :
    ∑ p, ∑ q, toAo s (finish true d) p q * s.ovlp q p = 2 * (Fintype.card o : K) := by
  have hm : mm (tp s.mo) (mm s.ovlp s.mo) = delta := by
    have h0 : mm (tp s.moVir) (mm s.ovlp s.moOcc) = 0 := by
      have := congrArg tp hs.mixed
      rw [tp_mm, tp_mm, tp_tp, hs.ovlp, mm_assoc] at this
      exact this
    funext p q
    rcases p with i | a <;> rcases q with j | b
    · exact (congrFun (congrFun hs.occ i) j).trans (by simp [delta])
    · exact (congrFun (congrFun hs.mixed i) b).trans (by simp [delta])
    · exact (congrFun (congrFun h0 a) j).trans (by simp [delta])
    · exact (congrFun (congrFun hs.vir a) b).trans (by simp [delta])
  have e : ∑ p, ∑ q, toAo s (finish true d) p q * s.ovlp q p = trc (addMf d) := by
    show trc (mm (mm s.mo (mm (addMf d) (tp s.mo))) s.ovlp) = _
    rw [mm_assoc, trc_comm, mm_assoc, mm_assoc, hm, mm_delta]
  rw [e]
  unfold trc
  rw [Fintype.sum_sum_type] at hd ⊢
  show (∑ i, (d (.inl i) (.inl i) + if i = i then 2 else 0)) + ∑ a, d (.inr a) (.inr a) = _
  simp only [if_true, Finset.sum_add_distrib, Finset.sum_const, Finset.card_univ, nsmul_eq_mul]
  linear_combination hd

/-- All these density matrices are symmetric. -/
theorem rdm1_symmetric (s : Mf ι o v K) (d : o ⊕ v → o ⊕ v → K) (h : (∃ w l, fast s w l = .ok d) ∨ (∃ tl wt l, slow s tl wt l = .ok d) ∨
    (∃ tl sym mp2 l, rdm1Ccsd s tl sym mp2 l = .ok d) ∨ ∃ tl sym l, rdm1ProjLambda s tl sym l = .ok d) (p q : o ⊕ v) : d p q = d q p := by
  suffices H : tp d = d from congrFun (congrFun H q) p
  rcases h with ⟨w, l, h⟩ | ⟨tl, wt, l, h⟩ | ⟨tl, sym, mp2, l, h⟩ | ⟨tl, sym, l, h⟩
  · unfold fast at h
    cases h1 : (bif w.withT1 then globT1 s false l else pure 0 : Except PyErr (T1 o v K)) with
    | error e => rw [h1] at h; cases h
    | ok t1 =>
      cases h2 : (bif w.withT1 then globT1 s (!w.tAsLambda) l else pure 0 : Except PyErr (T1 o v K)) with
      | error e => rw [h1, h2] at h; cases h
      | ok l1 =>
        rw [h1, h2] at h
        obtain ⟨a, ha⟩ := bind_pure_ok _ _ h
        rw [← ha]
        exact combine_symm _ _ _ _
  · unfold slow at h
    cases h1 : globT1 s false l with
    | error e => rw [h1] at h; cases h
    | ok t1 =>
      cases h2 : globT2 s false l with
      | error e => rw [h1, h2] at h; cases h
      | ok t2 =>
        rw [h1, h2] at h
        have h' : (do let l1 ← bif tl then (pure t1 : Except PyErr _) else globT1 s true l
                      let l2 ← bif tl then (pure t2 : Except PyErr _) else globT2 s true l
                      pure (if wt then makeRdm1 (gamma1 t1 t2 l1 l2) else makeRdm1 (gamma1 0 t2 0 l2)) : Except PyErr _) = .ok d := h
        cases h3 : (bif tl then (pure t1 : Except PyErr _) else globT1 s true l) with
        | error e => rw [h3] at h'; cases h'
        | ok l1 =>
          cases h4 : (bif tl then (pure t2 : Except PyErr _) else globT2 s true l) with
          | error e => rw [h3, h4] at h'; cases h'
          | ok l2 =>
            rw [h3, h4] at h'
            rw [← Except.ok.inj h']
            split_ifs <;> exact makeRdm1_symm _
  · unfold rdm1Ccsd at h
    dsimp only at h
    cases h1 : (bif mp2 then pure 0 else globT1 s false l : Except PyErr (T1 o v K)) with
    | error e => rw [h1] at h; cases h
    | ok t1 =>
      rw [h1] at h
      have h' : (do let l1 ← (bif mp2 then pure 0 else bif (tl || mp2) then pure t1 else globT1 s true l : Except PyErr (T1 o v K))
                    let e ← accumulate (fragTerm s (tl || mp2) sym mp2 l1) (l.flatMap Frag.family)
                    pure (combine (!mp2) t1 l1 e) : Except PyErr _) = .ok d := h
      cases h2 : (bif mp2 then pure 0 else bif (tl || mp2) then pure t1 else globT1 s true l : Except PyErr (T1 o v K)) with
      | error e => rw [h2] at h'; cases h'
      | ok l1 =>
        rw [h2] at h'
        obtain ⟨a, ha⟩ := bind_pure_ok _ _ h'
        rw [← ha]
        exact combine_symm _ _ _ _
  · refine accumulate_inv (fun d : o ⊕ v → o ⊕ v → K => tp d = d) rfl (fun a b ha hb => ?_) _ _ (fun y _ c hcc => ?_) d h
    · show tp a + tp b = a + b
      rw [ha, hb]
    · obtain ⟨e, h1, he⟩ := bind_pure_ok' _ _ hcc
      obtain ⟨m, -, hm⟩ := map_ok _ _ h1
      have hes : tp e = e := by rw [← hm]; exact makeRdm1_symm _
      show tp c = c
      rw [← he, tp_mm, tp_mm, tp_tp, hes, mm_assoc]

/-! ## Missing lambda amplitudes -/

private theorem pairTerm_cases (s : Mf ι o v K) (w : Opts K) (hw : w.small = none) (ht : w.tAsLambda = false) (x y : EwfRdm.Frag ι K) (u : Option (ι → ι → K)) :
    ((∃ c, pairTerm s w x y u = .ok c) ∨ pairTerm s w x y u = .error .runtimeError) ∧
      (y.mp2 = false → y.l2 = none → pairTerm s w x y u = .error .runtimeError) := by
  have h : ∀ e : Except PyErr (T2 y.f y.co y.cv y.cv K), y.lam w.tAsLambda = e → (∃ c, e = .ok c) ∨ e = .error .runtimeError := by
    intro e he
    unfold Frag.lam at he
    split_ifs at he
    · exact Or.inl ⟨_, he.symm⟩
    · cases hl : y.l2 with
      | none => rw [hl] at he; exact Or.inr he.symm
      | some l2 => rw [hl] at he; exact Or.inl ⟨_, he.symm⟩
  have hk : skipped w.small = (fun (_ : x.co → y.co → K) (_ : x.cv → y.cv → K) => false) := by rw [hw]; rfl
  unfold pairTerm
  dsimp only
  rw [hk]
  refine ⟨?_, fun h1 h2 => ?_⟩
  · rcases h _ rfl with ⟨c, hc⟩ | hc
    · rw [hc]
      cases w.late <;> exact Or.inl ⟨_, rfl⟩
    · rw [hc]
      cases w.late <;> exact Or.inr rfl
  · have : y.lam w.tAsLambda = .error .runtimeError := by
      unfold Frag.lam
      rw [ht, h1, h2]
      rfl
    rw [this]
    cases w.late <;> rfl

/-- The third algorithm raises NotCalculatedError, a kind of AttributeError, if lambda amplitudes are used but a fragment has no doubles; with MP2 or `t_as_lambda`
they are not needed. -/
theorem rdm1_ccsd_missing_lambda (s : Mf ι o v K) (l : List (EwfRdm.Frag ι K)) (x : EwfRdm.Frag ι K) (hx : x ∈ l) (hl : x.l2 = none) (symmetrize : Bool) :
    ((∃ l1, globT1 s true l = .ok l1) → rdm1Ccsd s false symmetrize false l = .error .attributeError) ∧
    (∀ mp2 tAsLambda, (mp2 = true ∨ tAsLambda = true) → ∃ d, rdm1Ccsd s tAsLambda symmetrize mp2 l = .ok d) := by
  obtain ⟨t1, e1⟩ : ∃ t1, globT1 s false l = .ok t1 := ⟨_, globT1_B1 s true l fun z _ => Or.inl rfl⟩
  constructor
  · rintro ⟨l1, h1⟩
    have key : ∀ y : EwfRdm.Frag ι K, y.l2 = none → fragTerm s false symmetrize false l1 y = .error .attributeError := by
      intro y hy
      unfold fragTerm Frag.lamPlain
      rw [hy]
      rfl
    have hacc : accumulate (fragTerm s false symmetrize false l1) (l.flatMap Frag.family) = .error .attributeError := by
      refine accumulate_err _ _ _ (fun y _ => ?_) ⟨{ x with ops := [] }, member_mem hx (u := none) (by simp [Frag.copies]), ?_⟩
      · unfold fragTerm Frag.lamPlain
        cases y.l2 with
        | none => exact Or.inr rfl
        | some l2 => exact Or.inl ⟨_, rfl⟩
      · exact key { x with ops := [] } hl
    show (do
      let t1 ← globT1 s false l
      let l1 ← globT1 s true l
      let d ← accumulate (fragTerm s false symmetrize false l1) (l.flatMap Frag.family)
      pure (combine true t1 l1 d) : Except PyErr _) = _
    rw [e1, h1]
    show (do
      let d ← accumulate (fragTerm s false symmetrize false l1) (l.flatMap Frag.family)
      pure (combine true t1 l1 d) : Except PyErr _) = _
    rw [hacc]
    rfl
  · have hok : ∀ mp2 l1, accumulate (fragTerm s true symmetrize mp2 l1) (l.flatMap Frag.family) = .ok _ := fun mp2 l1 =>
      accumulate_ok _ (fun y => fragBlocks s symmetrize mp2 l1 y y.t2) _ fun y _ => rfl
    rintro mp2 tl h
    have e : (tl || mp2) = true := by rcases h with rfl | rfl <;> simp
    unfold rdm1Ccsd
    rw [e]
    cases mp2 with
    | true =>
      show ∃ d, (do let d ← accumulate (fragTerm s true symmetrize true 0) (l.flatMap Frag.family); pure (combine false 0 0 d) : Except PyErr _) = .ok d
      rw [hok]
      exact ⟨_, rfl⟩
    | false =>
      show ∃ d, (do
        let t1 ← globT1 s false l
        let d ← accumulate (fragTerm s true symmetrize false t1) (l.flatMap Frag.family)
        pure (combine true t1 t1 d) : Except PyErr _) = .ok d
      rw [e1]
      show ∃ d, (do let d ← accumulate (fragTerm s true symmetrize false t1) (l.flatMap Frag.family); pure (combine true t1 t1 d) : Except PyErr _) = .ok d
      rw [hok]
      exact ⟨_, rfl⟩

/-- If lambda amplitudes are used but one of the fragments, not solved with MP2, has no doubles, both algorithms raise: the fast one RuntimeError
(if singles are there, and no screening leaves out the fragment), the slow one NotCalculatedError, a kind of AttributeError. -/
theorem rdm1_missing_lambda (s : Mf ι o v K) (l : List (EwfRdm.Frag ι K)) (x : EwfRdm.Frag ι K) (hx : x ∈ l) (hl : x.l2 = none) (hm : x.mp2 = false) :
    (∀ w : Opts K, w.tAsLambda = false → w.small = none → (∃ l1, globT1 s true l = .ok l1) → fast s w l = .error .runtimeError) ∧
    (∀ withT1, x.tAsLambda = false → slow s false withT1 l = .error .attributeError) := by
  refine ⟨fun w ht hs ⟨l1, h1⟩ => ?_, fun wt ho => ?_⟩
  · have hloop : { x with ops := [] } ∈ l.flatMap Frag.family := member_mem hx (u := none) (by simp [Frag.copies])
    obtain ⟨x', hx', hl', hm'⟩ : ∃ x' ∈ loopOf w l, x'.l2 = none ∧ x'.mp2 = false := by
      unfold loopOf
      split_ifs
      · exact ⟨x, hx, hl, hm⟩
      · exact ⟨_, hloop, hl, hm⟩
    have key : ∀ z, xIntermediates s w (loopOf w l) z = .error .runtimeError := by
      intro z
      unfold xIntermediates
      refine accumulate_err _ _ _ (fun y _ => ?_) ⟨x', hx', ?_⟩
      · by_cases h : ∃ u ∈ y.copies w.useSym, pairTerm s w z y u = .error .runtimeError
        · exact Or.inr (accumulate_err _ _ _ (fun u _ => (pairTerm_cases s w hs ht z y u).1) h)
        · push Not at h
          have : ∀ u ∈ y.copies w.useSym, ∃ c, pairTerm s w z y u = .ok c := fun u hu => (pairTerm_cases s w hs ht z y u).1.resolve_right (h u hu)
          classical
          exact Or.inl ⟨_, accumulate_ok _ (fun u => if h : ∃ c, pairTerm s w z y u = .ok c then h.choose else 0) _ fun u hu => by
            rw [dif_pos (this u hu)]; exact (this u hu).choose_spec⟩
      · exact accumulate_err _ _ _ (fun u _ => (pairTerm_cases s w hs ht z x' u).1) ⟨none, by simp [Frag.copies], (pairTerm_cases s w hs ht z x' none).2 hm' hl'⟩
    have e1 : ∃ t1, globT1 s false l = .ok t1 := ⟨_, globT1_B1 s true l fun z _ => Or.inl rfl⟩
    obtain ⟨t1, e1⟩ := e1
    have hxt : ∀ m z, xTerm s w (loopOf w l) m z = .error .runtimeError := by
      intro m z
      unfold xTerm
      rw [key z]
      rfl
    have hacc : ∀ m, accumulate (xTerm s w (loopOf w l) m) (loopOf w l) = .error .runtimeError := fun m =>
      accumulate_err _ _ _ (fun z _ => Or.inr (hxt m z)) ⟨x', hx', hxt m x'⟩
    unfold fast
    rw [ht, show (!false) = true from rfl, h1, e1]
    have hfin : ∀ (t m : T1 o v K), (do let d ← accumulate (xTerm s w (loopOf w l) m) (loopOf w l); pure (combine w.withT1 t m d) : Except PyErr _) =
        .error .runtimeError := by
      intro t m
      rw [hacc]
      rfl
    cases hwt : w.withT1 with
    | true => rw [hwt] at hfin; exact hfin t1 l1
    | false => rw [hwt] at hfin; exact hfin 0 0
  · have hloop : { x with ops := [] } ∈ l.flatMap Frag.family := member_mem hx (u := none) (by simp [Frag.copies])
    obtain ⟨t1, e1⟩ : ∃ t1, globT1 s false l = .ok t1 := ⟨_, globT1_B1 s true l fun z _ => Or.inl rfl⟩
    have e2 : globT2 s false l = .ok (Tg s l) := globT2_eq s false l (Bt s) fun z _ => t2Contrib_t s z
    have c2 : ∀ z : EwfRdm.Frag ι K, ((∃ c, (z.toAmp s).t2Contrib true = .ok c) ∨ (z.toAmp s).t2Contrib true = .error .attributeError) ∧
        (z.tAsLambda = false → z.l2 = none → (z.toAmp s).t2Contrib true = .error .attributeError) := by
      intro z
      have ha : z.toAmp s = { ro := z.mco s, rv := z.mcv s, pwf := .ccsd (.proj (z.px s) z.t1 z.t2 z.l1 z.l2), tAsLambda := z.tAsLambda } := rfl
      rw [ha]
      cases z.tAsLambda <;> cases z.l2 <;> refine ⟨?_, fun h1 h2 => ?_⟩ <;> first | exact Or.inl ⟨_, rfl⟩ | exact Or.inr rfl | rfl | (cases h1; done) | (cases h2; done)
    have c1 : ∀ z : EwfRdm.Frag ι K, ((∃ c, (z.toAmp s).t1Contrib true = .ok c) ∨ (z.toAmp s).t1Contrib true = .error .attributeError) := by
      intro z
      have ha : z.toAmp s = { ro := z.mco s, rv := z.mcv s, pwf := .ccsd (.proj (z.px s) z.t1 z.t2 z.l1 z.l2), tAsLambda := z.tAsLambda } := rfl
      rw [ha]
      cases z.tAsLambda <;> cases z.l1 <;> first | exact Or.inl ⟨_, rfl⟩ | exact Or.inr rfl
    have g2 : globT2 s true l = .error .attributeError := by
      have e : globT2 s true l = accumulate (fun z : EwfRdm.Frag ι K => (z.toAmp s).t2Contrib true) (l.flatMap Frag.family) := by
        unfold globT2 globalT2 accumulate
        rw [List.foldlM_map]
        rfl
      rw [e]
      exact accumulate_err _ _ _ (fun z _ => (c2 z).1) ⟨_, hloop, (c2 _).2 ho hl⟩
    have g1 : (∃ c, globT1 s true l = .ok c) ∨ globT1 s true l = .error .attributeError := by
      have e : globT1 s true l = accumulate (fun z : EwfRdm.Frag ι K => (z.toAmp s).t1Contrib true) (l.flatMap Frag.family) := by
        unfold globT1 globalT1 accumulate
        rw [List.foldlM_map]
        rfl
      by_cases h : ∃ z ∈ l.flatMap Frag.family, (z.toAmp s).t1Contrib true = .error .attributeError
      · rw [e]; exact Or.inr (accumulate_err _ _ _ (fun z _ => c1 z) h)
      · push Not at h
        exact Or.inl (globT1_ok s true l fun z hz => (c1 z).resolve_right (h z hz))
    unfold slow
    rw [e1, e2]
    show (do let l1 ← globT1 s true l
             let l2 ← globT2 s true l
             pure (if wt then makeRdm1 (gamma1 t1 (Tg s l) l1 l2) else makeRdm1 (gamma1 0 (Tg s l) 0 l2)) : Except PyErr _) = _
    rcases g1 with ⟨c, g1⟩ | g1
    · rw [g1, g2]; rfl
    · rw [g1]; rfl

end

/-! ## The option `t_as_lambda` of a fragment -/

private def rMf : Mf (Fin 2) (Fin 1) (Fin 1) ℚ where
  ovlp := delta
  moOcc p _ := if p.val = 0 then 1 else 0
  moVir p _ := if p.val = 1 then 1 else 0
private def rFrag (opt : Bool) : EwfRdm.Frag (Fin 2) ℚ where
  f := Fin 1
  co := Fin 1
  cv := Fin 1
  cFrag p _ := if p.val = 0 then 1 else 0
  cOcc p _ := if p.val = 0 then 1 else 0
  cVir p _ := if p.val = 1 then 1 else 0
  t1 _ _ := 0
  t2 _ _ _ _ := 1
  l1 := some fun _ _ => 0
  l2 := some fun _ _ _ _ => 2
  mp2 := false
  tAsLambda := opt
  ops := []
private def rOpts (tl : Bool) : Opts ℚ := ⟨tl, true, none, none, false, false⟩

/-- The fast algorithm ignores the option `t_as_lambda` of fragments, which the slow one follows: with the option but not the argument the results differ. The
condition on the option in `HasLambda` cannot be left out. -/
theorem rdm1_fragment_option_false : ∃ (s : Mf (Fin 2) (Fin 1) (Fin 1) ℚ) (w : Opts ℚ) (x : EwfRdm.Frag (Fin 2) ℚ), Orthonormal s ∧ x.tAsLambda = true ∧
    w.tAsLambda = false ∧ ∃ d d', fast s w [x] = .ok d ∧ slow s false true [x] = .ok d' ∧ d ≠ d' := by
  have h1 : (fast rMf (rOpts false) [rFrag true]).toOption.map (fun d => d (.inl 0) (.inl 0)) = some (-4) := by decide +kernel
  have h2 : (slow rMf false true [rFrag true]).toOption.map (fun d => d (.inl 0) (.inl 0)) = some (-2) := by decide +kernel
  refine ⟨rMf, rOpts false, rFrag true, ⟨by decide +kernel, by decide +kernel, by decide +kernel, by decide +kernel⟩, rfl, rfl, ?_⟩
  cases e1 : fast rMf (rOpts false) [rFrag true] with
  | error e => rw [e1] at h1; cases h1
  | ok d =>
    cases e2 : slow rMf false true [rFrag true] with
    | error e => rw [e2] at h2; cases h2
    | ok d' =>
      rw [e1] at h1
      rw [e2] at h2
      refine ⟨d, d', rfl, rfl, fun h => ?_⟩
      rw [h] at h1
      exact absurd (h1.symm.trans h2) (by decide)

/-! ## Examples: three orthonormal AOs, the first two occupied and exchanged by a symmetry; one fragment that stands for two. -/

private def qMf : Mf (Fin 3) (Fin 2) (Fin 1) ℚ where
  ovlp := delta
  moOcc p i := if p.val = i.val then 1 else 0
  moVir p _ := if p.val = 2 then 1 else 0
private def qT1 (_ : Fin 2) (_ : Fin 1) : ℚ := 1 / 2
private def qT2 (i j : Fin 2) (_ _ : Fin 1) : ℚ := if i = j then 1 / 3 else 1 / 5
private def qL1 (_ : Fin 2) (_ : Fin 1) : ℚ := 1 / 4
private def qL2 (i j : Fin 2) (_ _ : Fin 1) : ℚ := if i = j then 1 / 7 else 1 / 9
private def qSwap (p q : Fin 3) : ℚ := if (p.val = 0 ∧ q.val = 1) ∨ (p.val = 1 ∧ q.val = 0) ∨ (p.val = 2 ∧ q.val = 2) then 1 else 0
private def qFlip (i j : Fin 2) : ℚ := if i = j then 0 else 1
private def qC (p : Fin 3) (_ : Fin 1) : ℚ := if p.val = 0 then 1 else 0
private def qO (p : Fin 3) (i : Fin 2) : ℚ := if p.val = i.val then 1 else 0
private def qFrag : EwfRdm.Frag (Fin 3) ℚ where
  f := Fin 1
  co := Fin 2
  cv := Fin 1
  cFrag := qC
  cOcc := qO
  cVir p _ := if p.val = 2 then 1 else 0
  t1 _ a := qT1 0 a
  t2 _ j a b := qT2 0 j a b
  l1 := some fun _ a => qL1 0 a
  l2 := some fun _ j a b => qL2 0 j a b
  mp2 := false
  tAsLambda := false
  ops := [qSwap]

/-- An exact decomposition of any matrix, and a test that only finds zero matrices. -/
private noncomputable def qSvd (m n : Type) (A : m → n → ℚ) : Factors m n ℚ :=
  open Classical in if h : Nonempty (Fintype n) then { k := n, fk := h.some, u := A, w := delta } else { k := Empty, u := fun _ e => e.elim, w := fun e => e.elim }
private noncomputable def qSmall (m n : Type) (A : m → n → ℚ) : Bool := open Classical in decide (A = 0)
private noncomputable def qOpts (tl useSym late : Bool) : Opts ℚ := ⟨tl, true, some qSvd, some qSmall, useSym, late⟩

private theorem q_noLoss (tl useSym late : Bool) (l : List (EwfRdm.Frag (Fin 3) ℚ)) : NoLoss qMf (qOpts tl useSym late) l := by
  have h : ∀ (m n : Type) [Fintype n] (A : m → n → ℚ), mm (qSvd m n A).u (qSvd m n A).w = A := by
    intro m n _ A
    unfold qSvd
    rw [dif_pos ⟨inferInstance⟩]
    exact @mm_delta _ _ _ _ (_) (_) A
  refine ⟨?_, ?_, ?_, ?_⟩
  · intro g hg x _ y _; cases hg; exact h _ _ _
  · intro g hg x _ y _; cases hg; exact h _ _ _
  · intro g hg x _ y _ hh; cases hg; exact @of_decide_eq_true _ (Classical.propDecidable _) hh
  · intro g hg x _ y _ hh; cases hg; exact @of_decide_eq_true _ (Classical.propDecidable _) hh

private theorem q_orth : Orthonormal qMf := ⟨by decide +kernel, by decide +kernel, by decide +kernel, by decide +kernel⟩
private theorem q_op : Operation qMf qSwap := ⟨by decide +kernel, ⟨qFlip, by decide +kernel⟩, ⟨delta, by decide +kernel⟩⟩
private theorem q_family : [qFrag].flatMap Frag.family = [{ qFrag with ops := [] }, qFrag.image qSwap] := rfl
private theorem q_lam (tl : Bool) : ∀ x ∈ [qFrag], HasLambda tl x := by
  intro x hx
  rw [List.mem_singleton.1 hx]
  exact Or.inr ⟨rfl, rfl, rfl, fun h => by cases h⟩
private theorem q_in : ∀ z ∈ [qFrag].flatMap Frag.family, OccInCluster qMf z := by
  intro z hz
  rw [q_family] at hz
  simp only [List.mem_cons, List.not_mem_nil, or_false] at hz
  rcases hz with rfl | rfl
  · show _ = _
    decide +kernel
  · show _ = _
    decide +kernel
private theorem q_closed : (([qFrag].flatMap Frag.family).map fun z => z.image qSwap).Perm ([qFrag].flatMap Frag.family) := by
  have h : ∀ {n : Type} (c : Fin 3 → n → ℚ), mm qSwap (mm qSwap c) = c := by
    intro n c
    rw [← mm_assoc, show mm qSwap qSwap = delta by decide +kernel, delta_mm]
  have e : (qFrag.image qSwap).image qSwap = { qFrag with ops := [] } := by
    have mk : ∀ {a a' : Fin 3 → qFrag.f → ℚ} {b b' : Fin 3 → qFrag.co → ℚ} {c c' : Fin 3 → qFrag.cv → ℚ}, a = a' → b = b' → c = c' →
        ({ qFrag with cFrag := a, cOcc := b, cVir := c, ops := [] } : EwfRdm.Frag (Fin 3) ℚ) = { qFrag with cFrag := a', cOcc := b', cVir := c', ops := [] } := by
      rintro a a' b b' c c' rfl rfl rfl; rfl
    exact mk (h _) (h _) (h _)
  rw [q_family]
  show [qFrag.image qSwap, (qFrag.image qSwap).image qSwap].Perm _
  rw [e]
  exact List.Perm.swap _ _ _
private theorem q_exact : ∀ z ∈ [qFrag].flatMap Frag.family, ∃ ro rv, Exact qMf qT1 qT2 qL1 qL2 z ro rv := by
  intro z hz
  rw [q_family] at hz
  simp only [List.mem_cons, List.not_mem_nil, or_false] at hz
  rcases hz with rfl | rfl
  · exact ⟨(delta : Fin 2 → Fin 2 → ℚ), (delta : Fin 1 → Fin 1 → ℚ), by decide +kernel, by decide +kernel, by decide +kernel, by decide +kernel,
      by decide +kernel, by decide +kernel, congrArg some (show (fun _ a => qL1 0 a : Fin 1 → Fin 1 → ℚ) = projectC1 (mm (tp qC) (mm delta qO)) (EwfEnergy.restrict1 (delta : Fin 2 → Fin 2 → ℚ) (delta : Fin 1 → Fin 1 → ℚ) qL1) by decide +kernel),
      congrArg some (show (fun _ j a b => qL2 0 j a b : Fin 1 → Fin 2 → Fin 1 → Fin 1 → ℚ) = projectC2 (mm (tp qC) (mm delta qO)) (EwfEnergy.restrict2 (delta : Fin 2 → Fin 2 → ℚ) (delta : Fin 1 → Fin 1 → ℚ) qL2) by decide +kernel)⟩
  · exact ⟨qFlip, (delta : Fin 1 → Fin 1 → ℚ), by decide +kernel, by decide +kernel, by decide +kernel, by decide +kernel,
      by decide +kernel, by decide +kernel, congrArg some (show (fun _ a => qL1 0 a : Fin 1 → Fin 1 → ℚ) = projectC1 (mm (tp (mm qSwap qC)) (mm delta (mm qSwap qO))) (EwfEnergy.restrict1 qFlip (delta : Fin 1 → Fin 1 → ℚ) qL1) by decide +kernel),
      congrArg some (show (fun _ j a b => qL2 0 j a b : Fin 1 → Fin 2 → Fin 1 → Fin 1 → ℚ) = projectC2 (mm (tp (mm qSwap qC)) (mm delta (mm qSwap qO))) (EwfEnergy.restrict2 qFlip (delta : Fin 1 → Fin 1 → ℚ) qL2) by decide +kernel)⟩
private theorem q_part : Partitions qMf ([qFrag].flatMap Frag.family) := by
  show ∀ i j : Fin 2, _
  decide +kernel

/-- The hypotheses of `rdm1_global_symmetry`, and with it of `rdm1_global` and `global_amplitudes_invariant`, can be met, with a decomposition and screening. -/
example (tl late : Bool) : ∃ d, fast qMf (qOpts tl true late) [qFrag] = .ok d ∧ fast qMf (qOpts tl false late) [qFrag] = .ok d :=
  rdm1_global_symmetry qMf q_orth (qOpts tl true late) [qFrag] (q_noLoss _ _ _ _) (q_lam tl) (fun _ => q_in) fun x hx u hu => by
    rw [List.mem_singleton.1 hx] at hu
    rw [List.mem_singleton.1 (show u ∈ [qSwap] from hu)]
    exact ⟨q_op, q_closed⟩

/-- The hypotheses of `rdm1_global_exact`, `rdm1_ccsd_exact` and `global_amplitudes_exact` can be met, and the density matrix is not zero. -/
example : fast qMf (qOpts false true true) [qFrag] = .ok (ccRdm1 qT1 qT2 qL1 qL2) ∧ rdm1Ccsd qMf false true false [qFrag] = .ok (ccRdm1 qT1 qT2 qL1 qL2) ∧
    ccRdm1 qT1 qT2 qL1 qL2 (.inl 0) (.inl 0) ≠ 0 ∧ ccRdm1 qT1 qT2 qL1 qL2 (.inl 0) (.inr 0) ≠ 0 := by
  have hop : ∀ x ∈ [qFrag], x.tAsLambda = false := by
    intro x hx
    rw [List.mem_singleton.1 hx]
    rfl
  refine ⟨?_, ?_, by decide +kernel, by decide +kernel⟩
  · refine rdm1_global_exact qMf q_orth (by norm_num) qT1 qL1 qT2 qL2 (by decide +kernel) (by decide +kernel) (qOpts false true true) [qFrag] q_exact q_part hop
      (fun x hx h => by rw [List.mem_singleton.1 hx] at h; cases h) (q_noLoss _ _ _ _) fun _ x hx u hu => ?_
    rw [List.mem_singleton.1 hx] at hu
    rw [List.mem_singleton.1 (show u ∈ [qSwap] from hu)]
    refine ⟨q_op, ?_, ?_⟩
    · show ∀ i j a b, _
      decide +kernel
    · show ∀ i a, _
      decide +kernel
  · exact (rdm1_ccsd_exact qMf q_orth (by norm_num) qT1 qL1 qT2 qL2 (by decide +kernel) (by decide +kernel) [qFrag] q_exact q_part hop false true).1

private def qL (z : EwfRdm.Frag (Fin 3) ℚ) (h1 : z.co = Fin 2) (h2 : z.cv = Fin 1) : LFrag (Fin 3) ℚ :=
  ⟨z, fun i a => qT1 (cast h1 i) (cast h2 a), fun i j a b => qT2 (cast h1 i) (cast h1 j) (cast h2 a) (cast h2 b)⟩

/-- The hypotheses of `rdm1_proj_lambda_exact` and `rdm1_proj_lambda_electrons` can be met. -/
example (tl sym : Bool) : ∃ d, rdm1ProjLambda qMf tl sym [qL { qFrag with ops := [] } rfl rfl, qL (qFrag.image qSwap) rfl rfl] = .ok d ∧ ∑ p, d p p = 0 := by
  have h := rdm1_proj_lambda_exact qMf q_orth (by norm_num) qT1 qL1 qT2 qL2 (by decide +kernel) (by decide +kernel)
    [qL { qFrag with ops := [] } rfl rfl, qL (qFrag.image qSwap) rfl rfl] ?_ q_part tl sym
  · refine ⟨_, h, ?_⟩
    refine rdm1_proj_lambda_electrons qMf _ ?_ tl sym _ h
    intro y hy
    simp only [List.mem_cons, List.not_mem_nil, or_false] at hy
    rcases hy with rfl | rfl
    · intro i j
      exact (show ∀ i j : Fin 2 ⊕ Fin 1, (i = j → ∑ k, (qL { qFrag with ops := [] } rfl rfl).mc qMf k i * (qL { qFrag with ops := [] } rfl rfl).mc qMf k j = 1) ∧ (i ≠ j → ∑ k, (qL { qFrag with ops := [] } rfl rfl).mc qMf k i * (qL { qFrag with ops := [] } rfl rfl).mc qMf k j = 0) by decide +kernel) i j
    · intro i j
      exact (show ∀ i j : Fin 2 ⊕ Fin 1, (i = j → ∑ k, (qL (qFrag.image qSwap) rfl rfl).mc qMf k i * (qL (qFrag.image qSwap) rfl rfl).mc qMf k j = 1) ∧ (i ≠ j → ∑ k, (qL (qFrag.image qSwap) rfl rfl).mc qMf k i * (qL (qFrag.image qSwap) rfl rfl).mc qMf k j = 0) by decide +kernel) i j
  · intro y hy
    simp only [List.mem_cons, List.not_mem_nil, or_false] at hy
    rcases hy with rfl | rfl
    · exact ⟨(delta : Fin 2 → Fin 2 → ℚ), (delta : Fin 1 → Fin 1 → ℚ), ⟨by decide +kernel, by decide +kernel, by decide +kernel, by decide +kernel,
        by decide +kernel, by decide +kernel, congrArg some (show (fun _ a => qL1 0 a : Fin 1 → Fin 1 → ℚ) = projectC1 (mm (tp qC) (mm delta qO)) (EwfEnergy.restrict1 (delta : Fin 2 → Fin 2 → ℚ) (delta : Fin 1 → Fin 1 → ℚ) qL1) by decide +kernel),
      congrArg some (show (fun _ j a b => qL2 0 j a b : Fin 1 → Fin 2 → Fin 1 → Fin 1 → ℚ) = projectC2 (mm (tp qC) (mm delta qO)) (EwfEnergy.restrict2 (delta : Fin 2 → Fin 2 → ℚ) (delta : Fin 1 → Fin 1 → ℚ) qL2) by decide +kernel)⟩,
        (by decide +kernel : qT1 = EwfEnergy.restrict1 (delta : Fin 2 → Fin 2 → ℚ) (delta : Fin 1 → Fin 1 → ℚ) qT1),
        (by decide +kernel : qT2 = EwfEnergy.restrict2 (delta : Fin 2 → Fin 2 → ℚ) (delta : Fin 1 → Fin 1 → ℚ) qT2)⟩
    · exact ⟨qFlip, (delta : Fin 1 → Fin 1 → ℚ), ⟨by decide +kernel, by decide +kernel, by decide +kernel, by decide +kernel,
        by decide +kernel, by decide +kernel, congrArg some (show (fun _ a => qL1 0 a : Fin 1 → Fin 1 → ℚ) = projectC1 (mm (tp (mm qSwap qC)) (mm delta (mm qSwap qO))) (EwfEnergy.restrict1 qFlip (delta : Fin 1 → Fin 1 → ℚ) qL1) by decide +kernel),
      congrArg some (show (fun _ j a b => qL2 0 j a b : Fin 1 → Fin 2 → Fin 1 → Fin 1 → ℚ) = projectC2 (mm (tp (mm qSwap qC)) (mm delta (mm qSwap qO))) (EwfEnergy.restrict2 qFlip (delta : Fin 1 → Fin 1 → ℚ) qL2) by decide +kernel)⟩,
        (by decide +kernel : qT1 = EwfEnergy.restrict1 qFlip (delta : Fin 1 → Fin 1 → ℚ) qT1),
        (by decide +kernel : qT2 = EwfEnergy.restrict2 qFlip (delta : Fin 1 → Fin 1 → ℚ) qT2)⟩

/-- A decomposition that removes everything: `rdm1_global_electrons` applies, with non-zero off-diagonal elements of the result, and so does
`rdm1_ao_electrons`. -/
example : ∃ d, fast qMf ⟨false, true, some fun _ _ _ => ⟨fun _ (e : Empty) => e.elim, fun e => e.elim⟩, none, true, false⟩ [qFrag] = .ok d ∧ d (.inl 0) (.inr 0) ≠ 0 ∧
    (∑ p, d p p) = 0 ∧ ∑ p, ∑ q, toAo qMf (finish true d) p q * qMf.ovlp q p = 4 := by
  have h1 : ((fast qMf ⟨false, true, some fun _ _ _ => ⟨fun _ (e : Empty) => e.elim, fun e => e.elim⟩, none, true, false⟩ [qFrag]).toOption.map
    fun d => decide (d (.inl 0) (.inr 0) ≠ 0)) = some true := by decide +kernel
  cases e : fast qMf ⟨false, true, some fun _ _ _ => ⟨fun _ (e : Empty) => e.elim, fun e => e.elim⟩, none, true, false⟩ [qFrag] with
  | error e' => rw [e] at h1; cases h1
  | ok d =>
    rw [e] at h1
    have h0 := rdm1_global_electrons qMf _ rfl [qFrag] (fun _ => ⟨q_orth, fun x hx u hu => by
      rw [List.mem_singleton.1 hx] at hu
      rw [List.mem_singleton.1 (show u ∈ [qSwap] from hu)]
      exact q_op⟩) d e
    refine ⟨d, rfl, by simpa [Except.toOption] using h1, h0, ?_⟩
    rw [rdm1_ao_electrons qMf q_orth d h0]
    norm_num

/-- The hypotheses of `rdm1_ccsd_electrons` can be met with amplitudes that are not those of the whole system: the trace does not depend on them. -/
example (a b : ℚ) : ∀ d, rdm1Ccsd qMf true true false [{ qFrag with t1 := fun _ _ => a, t2 := fun _ _ _ _ => b }] = .ok d → ∑ p, d p p = 0 := by
  refine rdm1_ccsd_electrons qMf (by norm_num) _ ?_ ?_ true true false
  · intro z hz
    simp only [List.flatMap_cons, List.flatMap_nil, List.append_nil, Frag.family, List.mem_cons, List.map_cons, List.map_nil, List.not_mem_nil, or_false, qFrag] at hz
    rcases hz with rfl | rfl
    · intro i j
      exact (show ∀ i j : Fin 2, (i = j → ∑ k, qFrag.mco qMf k i * qFrag.mco qMf k j = 1) ∧ (i ≠ j → ∑ k, qFrag.mco qMf k i * qFrag.mco qMf k j = 0) by decide +kernel) i j
    · intro i j
      exact (show ∀ i j : Fin 2, (i = j → ∑ k, (qFrag.image qSwap).mco qMf k i * (qFrag.image qSwap).mco qMf k j = 1) ∧ (i ≠ j → ∑ k, (qFrag.image qSwap).mco qMf k i * (qFrag.image qSwap).mco qMf k j = 0) by decide +kernel) i j
  · intro z hz
    simp only [List.flatMap_cons, List.flatMap_nil, List.append_nil, Frag.family, List.mem_cons, List.map_cons, List.map_nil, List.not_mem_nil, or_false, qFrag] at hz
    rcases hz with rfl | rfl
    · intro i j
      exact (show ∀ i j : Fin 1, (i = j → ∑ k, qFrag.mcv qMf k i * qFrag.mcv qMf k j = 1) ∧ (i ≠ j → ∑ k, qFrag.mcv qMf k i * qFrag.mcv qMf k j = 0) by decide +kernel) i j
    · intro i j
      exact (show ∀ i j : Fin 1, (i = j → ∑ k, (qFrag.image qSwap).mcv qMf k i * (qFrag.image qSwap).mcv qMf k j = 1) ∧ (i ≠ j → ∑ k, (qFrag.image qSwap).mcv qMf k i * (qFrag.image qSwap).mcv qMf k j = 0) by decide +kernel) i j

/-- The hypotheses of `rdm1_missing_lambda` can be met. -/
example : fast qMf ⟨false, false, none, none, true, true⟩ [{ qFrag with l2 := none }] = .error .runtimeError ∧
    slow qMf false true [{ qFrag with l2 := none }] = .error .attributeError := by
  have h := rdm1_missing_lambda qMf [{ qFrag with l2 := none }] { qFrag with l2 := none } (by simp) rfl rfl
  refine ⟨h.1 _ rfl rfl (globT1_ok qMf true _ fun z hz => ?_), h.2 true rfl⟩
  simp only [List.flatMap_cons, List.flatMap_nil, List.append_nil, Frag.family, List.mem_cons, List.map_cons, List.map_nil, List.not_mem_nil, or_false, qFrag] at hz
  rcases hz with rfl | rfl <;> exact ⟨_, rfl⟩

/-- The hypotheses of `rdm1_ccsd_missing_lambda` can be met. -/
example : rdm1Ccsd qMf false true false [{ qFrag with l2 := none }] = .error .attributeError ∧ ∃ d, rdm1Ccsd qMf true true false [{ qFrag with l2 := none }] = .ok d := by
  have h := rdm1_ccsd_missing_lambda qMf [{ qFrag with l2 := none }] { qFrag with l2 := none } (by simp) rfl true
  refine ⟨h.1 (globT1_ok qMf true _ fun z hz => ?_), h.2 false true (.inr rfl)⟩
  simp only [List.flatMap_cons, List.flatMap_nil, List.append_nil, Frag.family, List.mem_cons, List.map_cons, List.map_nil, List.not_mem_nil, or_false, qFrag] at hz
  rcases hz with rfl | rfl <;> exact ⟨_, rfl⟩

end Vayesta.Props
