import Verif.Lemmas.EwfURdmTrace

/-! One-body density matrices of unrestricted EWF calculations (C93). -/

set_option linter.unusedSectionVars false

namespace Vayesta.Props
open Vayesta.EwfURdm Vayesta.Amplitudes Vayesta.Tensor
open Vayesta.EwfRdm (Opts Factors Orthonormal Operation OccInCluster Invariant1 Partitions ccRdm1 Bal bal_add trc trc_zero trc_add accumulate accumulate_ok accumulate_inv accumulate_err
  bind_pure_ok bind_pure_ok')

variable {K : Type} [Field K] {ι : Type} {o v : Spin → Type} [Fintype ι] [∀ σ, Fintype (o σ)] [∀ σ, Fintype (v σ)]

section
variable [∀ σ, DecidableEq (o σ)] [∀ σ, DecidableEq (v σ)]

/-- The fast and the slow algorithm of the density matrices of the global wave function both give the coupled-cluster density matrices of the global
amplitudes of both spins, for every combination of options of the fast one, as long as nothing is truncated. Symmetry can be used if the operations leave the
mean-field and the global amplitudes unchanged. -/
theorem rdm1_unrestricted_global (s : UMf ι o v K) (h2 : (2 : K) ≠ 0) (w : Opts K) (l : List (UFrag ι K)) (hS : tp s.ovlp = s.ovlp)
    (hloss : UNoLoss s w (l.flatMap UFrag.family)) (hlam : ∀ x ∈ l, UHasLambda w.tAsLambda x)
    (hin : w.late = true → ∀ z ∈ l.flatMap UFrag.family, ∀ σ, OccInCluster (s.spin σ) (z.spin σ))
    (hsym : w.useSym = true → (∀ σ, Orthonormal (s.spin σ)) ∧ ∀ x ∈ l, ∀ u ∈ x.ops, (∀ σ, Operation (s.spin σ) u) ∧
      (∀ l2, globT2 s (!w.tAsLambda) l = .ok l2 → UInvariant s u (block l2)) ∧ ∀ l1, globT1 s (!w.tAsLambda) l = .ok l1 → ∀ σ, Invariant1 (s.spin σ) u (l1 σ)) :
    ∃ t1 t2 l1 l2, globT1 s false l = .ok t1 ∧ globT2 s false l = .ok t2 ∧ globT1 s (!w.tAsLambda) l = .ok l1 ∧ globT2 s (!w.tAsLambda) l = .ok l2 ∧
      fastU s w l = .ok (if w.withT1 then ccRdm1U t1 (block t2) l1 (block l2) else ccRdm1U 0 (block t2) 0 (block l2)) ∧
      slowU s w.tAsLambda w.withT1 l = .ok (if w.withT1 then ccRdm1U t1 (block t2) l1 (block l2) else ccRdm1U 0 (block t2) 0 (block l2)) := by
  have e3 := globT1_l s w.tAsLambda l hlam
  have e4 := globT2_l s w.tAsLambda l hlam
  refine ⟨Tg1 s l, TgU s l, Lg1 s w.tAsLambda l, LgU s w.tAsLambda l, globT1_t s l, globT2_t s l, e3, e4, ?_, slowU_ok s _ _ l hlam⟩
  exact fastU_ok h2 ⟨hS, hloss, hlam, hin⟩ ⟨fun h => (hsym h).1, fun h x hx u hu =>
    ⟨((hsym h).2 x hx u hu).1, ((hsym h).2 x hx u hu).2.1 _ e4, fun _ => ((hsym h).2 x hx u hu).2.2 _ e3⟩⟩

/-- The global amplitudes do not change under an operation if it maps the set of all fragments to itself. -/
theorem global_amplitudes_unrestricted_invariant (s : UMf ι o v K) (hs : ∀ σ, Orthonormal (s.spin σ)) (tAsLambda : Bool) (l : List (UFrag ι K))
    (hlam : ∀ x ∈ l, UHasLambda tAsLambda x) (u : ι → ι → K) (hu : ∀ σ, Operation (s.spin σ) u)
    (hc : ((l.flatMap UFrag.family).map fun z => z.image u).Perm (l.flatMap UFrag.family)) :
    (∀ l2, globT2 s (!tAsLambda) l = .ok l2 → UInvariant s u (block l2)) ∧ ∀ l1, globT1 s (!tAsLambda) l = .ok l1 → ∀ σ, Invariant1 (s.spin σ) u (l1 σ) := by
  refine ⟨fun l2 h => ?_, fun l1 h => ?_⟩
  · rw [globT2_l s tAsLambda l hlam] at h
    cases h
    exact invU_of_closed hs hu tAsLambda hc
  · rw [globT1_l s tAsLambda l hlam] at h
    cases h
    exact inv1U_of_closed hs hu tAsLambda hc

/-- The use of symmetry does not change the density matrices if every operation maps the set of all fragments to itself. -/
theorem rdm1_unrestricted_symmetry (s : UMf ι o v K) (h2 : (2 : K) ≠ 0) (hs : ∀ σ, Orthonormal (s.spin σ)) (w : Opts K) (l : List (UFrag ι K))
    (hloss : UNoLoss s w (l.flatMap UFrag.family)) (hlam : ∀ x ∈ l, UHasLambda w.tAsLambda x)
    (hin : w.late = true → ∀ z ∈ l.flatMap UFrag.family, ∀ σ, OccInCluster (s.spin σ) (z.spin σ))
    (hc : ∀ x ∈ l, ∀ u ∈ x.ops, (∀ σ, Operation (s.spin σ) u) ∧ ((l.flatMap UFrag.family).map fun z => z.image u).Perm (l.flatMap UFrag.family)) :
    ∃ d, fastU s { w with useSym := true } l = .ok d ∧ fastU s { w with useSym := false } l = .ok d := by
  obtain ⟨t1, t2, l1, l2, a1, a2, a3, a4, a5, -⟩ := rdm1_unrestricted_global s h2 { w with useSym := true } l (hs .a).ovlp ⟨hloss.1, hloss.2, hloss.3, hloss.4⟩ hlam hin
    fun _ => ⟨hs, fun x hx u hu => ⟨(hc x hx u hu).1, global_amplitudes_unrestricted_invariant s hs w.tAsLambda l hlam u (hc x hx u hu).1 (hc x hx u hu).2⟩⟩
  obtain ⟨t1', t2', l1', l2', b1, b2, b3, b4, b5, -⟩ := rdm1_unrestricted_global s h2 { w with useSym := false } l (hs .a).ovlp ⟨hloss.1, hloss.2, hloss.3, hloss.4⟩ hlam hin
    (fun h => by cases h)
  rw [a1] at b1
  rw [a2] at b2
  dsimp only at a3 a4 b3 b4
  rw [a3] at b3
  rw [a4] at b4
  cases b1; cases b2; cases b3; cases b4
  exact ⟨_, a5, b5⟩

/-! ## Exact clusters -/

private theorem members {l : List (UFrag ι K)} (P : UFrag ι K → Prop) (hP : ∀ y u, P y → P (memberU y u)) (h : ∀ x ∈ l, P x) : ∀ z ∈ l.flatMap UFrag.family, P z := by
  intro z hz
  obtain ⟨y, hy, u, -, rfl⟩ := mem_family hz
  exact hP y u (h y hy)

/-- With clusters that span the whole space, and fragments that partition the occupied space of both spins, the global amplitudes are those of the whole system:
the blocks `(aa, ab, bb)` of doubles are stored. -/
theorem global_amplitudes_unrestricted_exact (s : UMf ι o v K) (hs : ∀ σ, Orthonormal (s.spin σ)) (h2 : (2 : K) ≠ 0) (t1 l1 : ∀ σ, o σ → v σ → K)
    (t2 l2 : ∀ σ τ, o σ → o τ → v σ → v τ → K) (ht : ∀ σ τ i j a b, t2 τ σ j i b a = t2 σ τ i j a b) (hl : ∀ σ τ i j a b, l2 τ σ j i b a = l2 σ τ i j a b)
    (l : List (UFrag ι K)) (hx : ∀ z ∈ l.flatMap UFrag.family, ∃ ro rv, UExact s t1 t2 l1 l2 z ro rv)
    (hp : ∀ σ, Partitions (s.spin σ) ((l.flatMap UFrag.family).map fun z => z.spin σ)) (ho : ∀ x ∈ l, x.tAsLambda = true → l1 = t1 ∧ l2 = t2)
    (hm : ∀ x ∈ l, x.mp2 = true → l2 = t2) :
    globT1 s false l = .ok t1 ∧ globT2 s false l = .ok (t2 .a .a, t2 .a .b, t2 .b .b) ∧ globT1 s true l = .ok l1 ∧ globT2 s true l = .ok (l2 .a .a, l2 .a .b, l2 .b .b) := by
  have htr : ∀ σ τ, transp (t2 τ σ) = t2 σ τ := by intro σ τ; funext i j a b; exact ht σ τ i j a b
  have hlr : ∀ σ τ, transp (l2 τ σ) = l2 σ τ := by intro σ τ; funext i j a b; exact hl σ τ i j a b
  have hoz := members (fun x => x.tAsLambda = true → l1 = t1 ∧ l2 = t2) (by intro y u h; cases u <;> exact h) ho
  have hmz := members (fun x => x.mp2 = true → l2 = t2) (by intro y u h; cases u <;> exact h) hm
  have hla : ∀ x ∈ l, UHasLambda false x := by
    intro x hxl
    obtain ⟨ro, rv, h⟩ := hx { x with ops := [] } (member_mem hxl (u := none) (by simp [UFrag.copies]))
    have e1 : x.l1 = some _ := h.l1
    have e2 : x.l2 = some _ := h.l2
    have e3 : x.t2 = _ := h.t2
    refine Or.inr (Or.inr ⟨by rw [e1]; rfl, by rw [e2]; rfl, fun hmp => ?_⟩)
    rw [e2, e3, hm x hxl hmp]
  have eq : ∀ (t : UT o v K) (m : ∀ σ τ, o σ → o τ → v σ → v τ → K), block t = m → t = (m .a .a, m .a .b, m .b .b) := by
    rintro t m rfl; rfl
  refine ⟨?_, ?_, ?_, ?_⟩
  · rw [globT1_t, Tg1_exact hs hx hp]
  · rw [globT2_t]
    exact congrArg Except.ok (eq _ _ (Tg_exactU hs h2 hx hp htr))
  · rw [show true = !false from rfl, globT1_l s false l hla, Lg1_exact hs hx hp false fun z hz h => (hoz z hz h).1]
    rfl
  · rw [show true = !false from rfl, globT2_l s false l hla]
    refine congrArg Except.ok (eq _ _ ?_)
    rw [Lg_exactU hs h2 hx hp false htr hlr fun z hz h => h.elim (fun h => (hoz z hz h).2) (hmz z hz)]
    rfl

/-- With clusters that span the whole space the fast algorithm, with any options, gives the density matrices of the whole system. -/
theorem rdm1_unrestricted_exact (s : UMf ι o v K) (hs : ∀ σ, Orthonormal (s.spin σ)) (h2 : (2 : K) ≠ 0) (t1 l1 : ∀ σ, o σ → v σ → K)
    (t2 l2 : ∀ σ τ, o σ → o τ → v σ → v τ → K) (ht : ∀ σ τ i j a b, t2 τ σ j i b a = t2 σ τ i j a b) (hl : ∀ σ τ i j a b, l2 τ σ j i b a = l2 σ τ i j a b)
    (w : Opts K) (l : List (UFrag ι K)) (hx : ∀ z ∈ l.flatMap UFrag.family, ∃ ro rv, UExact s t1 t2 l1 l2 z ro rv)
    (hp : ∀ σ, Partitions (s.spin σ) ((l.flatMap UFrag.family).map fun z => z.spin σ)) (ho : ∀ x ∈ l, x.tAsLambda = true → l1 = t1 ∧ l2 = t2)
    (hm : ∀ x ∈ l, x.mp2 = true → l2 = t2) (hloss : UNoLoss s w (l.flatMap UFrag.family))
    (hsym : w.useSym = true → ∀ x ∈ l, ∀ u ∈ x.ops, (∀ σ, Operation (s.spin σ) u) ∧ UInvariant s u (if w.tAsLambda then t2 else l2) ∧
      ∀ σ, Invariant1 (s.spin σ) u ((if w.tAsLambda then t1 else l1) σ)) :
    fastU s w l = .ok (if w.withT1 then ccRdm1U t1 t2 (if w.tAsLambda then t1 else l1) (if w.tAsLambda then t2 else l2)
      else ccRdm1U 0 t2 0 (if w.tAsLambda then t2 else l2)) := by
  have htr : ∀ σ τ, transp (t2 τ σ) = t2 σ τ := by intro σ τ; funext i j a b; exact ht σ τ i j a b
  have hlr : ∀ σ τ, transp (l2 τ σ) = l2 σ τ := by intro σ τ; funext i j a b; exact hl σ τ i j a b
  have hoz := members (fun x => x.tAsLambda = true → l1 = t1 ∧ l2 = t2) (by intro y u h; cases u <;> exact h) ho
  have hmz := members (fun x => x.mp2 = true → l2 = t2) (by intro y u h; cases u <;> exact h) hm
  have hlam : ∀ x ∈ l, UHasLambda w.tAsLambda x := by
    intro x hxl
    obtain ⟨ro, rv, h⟩ := hx { x with ops := [] } (member_mem hxl (u := none) (by simp [UFrag.copies]))
    have e1 : x.l1 = some _ := h.l1
    have e2 : x.l2 = some _ := h.l2
    have e3 : x.t2 = _ := h.t2
    refine Or.inr (Or.inr ⟨by rw [e1]; rfl, by rw [e2]; rfl, fun hmp => ?_⟩)
    rw [e2, e3, hm x hxl hmp]
  have hin : w.late = true → ∀ z ∈ l.flatMap UFrag.family, ∀ σ, OccInCluster (s.spin σ) (z.spin σ) := by
    intro _ z hz σ
    obtain ⟨ro, rv, h⟩ := hx z hz
    show mm (tp (s.moOcc σ)) (mm s.ovlp (z.cFrag σ)) = mm (tp (s.moOcc σ)) (mm s.ovlp (mm (z.cOcc σ) (mm (tp (z.cOcc σ)) (mm s.ovlp (z.cFrag σ)))))
    have : mm (tp (s.moOcc σ)) (mm s.ovlp (mm (z.cOcc σ) (mm (tp (z.cOcc σ)) (mm s.ovlp (z.cFrag σ))))) =
        mm (mm (tp (s.moOcc σ)) (mm s.ovlp (s.moOcc σ))) (mm (mm (ro σ) (tp (ro σ))) (mm (tp (s.moOcc σ)) (mm s.ovlp (z.cFrag σ)))) := by
      rw [h.occ, tp_mm]
      simp only [mm_assoc]
    have hocc : mm (tp (s.moOcc σ)) (mm s.ovlp (s.moOcc σ)) = delta := (hs σ).occ
    rw [this, hocc, h.spanOcc, delta_mm, delta_mm]
  have e1 := Tg1_exact hs hx hp
  have e2 := Tg_exactU hs h2 hx hp htr
  have e3 := Lg1_exact hs hx hp w.tAsLambda fun z hz h => (hoz z hz h).1
  have e4 := Lg_exactU hs h2 hx hp w.tAsLambda htr hlr fun z hz h => h.elim (fun h => (hoz z hz h).2) (hmz z hz)
  rw [← e3, ← e4, ← e1, ← e2]
  exact fastU_ok h2 ⟨(hs .a).ovlp, hloss, hlam, hin⟩ ⟨fun _ => hs, fun h x hx u hu => by
    obtain ⟨c1, c2, c3⟩ := hsym h x hx u hu
    rw [e3, e4]
    exact ⟨c1, c2, fun _ => c3⟩⟩

/-- The same for the sum of fragment contributions, with both values of `symmetrize`. The MP2 version has no singles and uses the amplitudes as lambda
amplitudes. -/
theorem rdm1_unrestricted_ccsd_exact (s : UMf ι o v K) (hs : ∀ σ, Orthonormal (s.spin σ)) (h2 : (2 : K) ≠ 0) (t1 l1 : ∀ σ, o σ → v σ → K)
    (t2 l2 : ∀ σ τ, o σ → o τ → v σ → v τ → K) (ht : ∀ σ τ i j a b, t2 τ σ j i b a = t2 σ τ i j a b) (hl : ∀ σ τ i j a b, l2 τ σ j i b a = l2 σ τ i j a b)
    (l : List (UFrag ι K)) (hx : ∀ z ∈ l.flatMap UFrag.family, ∃ ro rv, UExact s t1 t2 l1 l2 z ro rv)
    (hp : ∀ σ, Partitions (s.spin σ) ((l.flatMap UFrag.family).map fun z => z.spin σ)) (ho : ∀ x ∈ l, x.tAsLambda = true → l1 = t1) (tAsLambda symmetrize : Bool) :
    rdm1CcsdU s tAsLambda symmetrize false l = .ok (ccRdm1U t1 t2 (if tAsLambda then t1 else l1) (if tAsLambda then t2 else l2)) ∧
    rdm1CcsdU s tAsLambda symmetrize true l = .ok (ccRdm1U 0 t2 0 t2) := by
  have htr : ∀ σ τ, transp (t2 τ σ) = t2 σ τ := by intro σ τ; funext i j a b; exact ht σ τ i j a b
  have hlr : ∀ σ τ, transp (l2 τ σ) = l2 σ τ := by intro σ τ; funext i j a b; exact hl σ τ i j a b
  have hoz := members (fun x => x.tAsLambda = true → l1 = t1) (by intro y u h; cases u <;> exact h) ho
  have g1 : globT1 s false l = .ok t1 := by rw [globT1_t, Tg1_exact hs hx hp]
  refine ⟨?_, ?_⟩
  · unfold rdm1CcsdU
    have := rdm1CcsdU_total hs h2 tAsLambda symmetrize false (if tAsLambda then t1 else l1) htr hlr hx hp
    cases tAsLambda with
    | true =>
      show (do let t1 ← globT1 s false l
               let d ← accumulate (fragTermU s true symmetrize false t1) (l.flatMap UFrag.family)
               pure fun σ => combineF false (t1 σ) (t1 σ) (d σ) : Except PyErr _) = _
      rw [if_pos rfl, if_pos rfl] at this
      rw [g1]
      show (do let d ← accumulate (fragTermU s true symmetrize false t1) (l.flatMap UFrag.family)
               pure fun σ => combineF false (t1 σ) (t1 σ) (d σ) : Except PyErr _) = _
      rw [this]
      exact congrArg Except.ok (funext fun σ => combineF_false t1 t1 t2 t2 σ)
    | false =>
      have hla : ∀ x ∈ l, x.l1.isSome := by
        intro x hxl
        obtain ⟨ro, rv, h⟩ := hx { x with ops := [] } (member_mem hxl (u := none) (by simp [UFrag.copies]))
        have e1 : x.l1 = some _ := h.l1
        rw [e1]; rfl
      have hlaz := members (fun x => x.l1.isSome) (by intro y u h; cases u <;> exact h) hla
      have g3 : globT1 s true l = .ok l1 := by
        have e := Lg1_exact hs hx hp false hoz
        rw [if_neg (by simp)] at e
        rw [← e]
        refine accumulate_ok _ _ _ fun z hz => ?_
        have : (if (true && !z.tAsLambda) then z.l1 else some z.t1) = some (lamA1 false z) := by
          unfold lamA1
          cases z.tAsLambda with
          | true => rfl
          | false =>
            obtain ⟨q, hq⟩ := Option.isSome_iff_exists.1 (hlaz z hz)
            rw [hq]; rfl
        unfold UFrag.t1Contrib
        rw [this]
        exact congrArg Except.ok (contrib1_eq s z _)
      show (do let t1 ← globT1 s false l
               let l1 ← globT1 s true l
               let d ← accumulate (fragTermU s false symmetrize false l1) (l.flatMap UFrag.family)
               pure fun σ => combineF false (t1 σ) (l1 σ) (d σ) : Except PyErr _) = _
      rw [if_neg (by simp), if_neg (by simp)] at this
      rw [g1, g3]
      show (do let d ← accumulate (fragTermU s false symmetrize false l1) (l.flatMap UFrag.family)
               pure fun σ => combineF false (t1 σ) (l1 σ) (d σ) : Except PyErr _) = _
      rw [this]
      exact congrArg Except.ok (funext fun σ => combineF_false t1 l1 t2 l2 σ)
  · unfold rdm1CcsdU
    have := rdm1CcsdU_total hs h2 true symmetrize true 0 htr hlr hx hp
    show (do let d ← accumulate (fragTermU s (tAsLambda || true) symmetrize true 0) (l.flatMap UFrag.family)
             pure fun σ => combineF true ((0 : U1 o v K) σ) ((0 : U1 o v K) σ) (d σ) : Except PyErr _) = _
    rw [Bool.or_true, this]
    exact congrArg Except.ok (funext fun σ => combineF_true t2 t2 σ _ _ _)

/-! ## Number of electrons and symmetry -/

/-- Coupled-cluster density matrices have no effect on the number of electrons of either spin; with the mean-field contribution this is the number of occupied
orbitals of the spin. -/
theorem cc_rdm1_unrestricted_trace (t1 l1 : ∀ σ, o σ → v σ → K) (t2 l2 : ∀ σ τ, o σ → o τ → v σ → v τ → K) (σ : Spin) : ∑ p, ccRdm1U t1 t2 l1 l2 σ p p = 0 :=
  trc_ccU t1 l1 t2 l2 σ

theorem rdm1_unrestricted_mf (d : ∀ σ, o σ ⊕ v σ → o σ ⊕ v σ → K) (σ : Spin) (hd : ∑ p, d σ p p = 0) :
    ∑ p, finishU true d σ p p = (Fintype.card (o σ) : K) ∧ ∑ p, finishU false d σ p p = 0 := by
  refine ⟨?_, hd⟩
  rw [Fintype.sum_sum_type] at hd ⊢
  show (∑ i, (d σ (.inl i) (.inl i) + if i = i then 1 else 0)) + ∑ a, d σ (.inr a) (.inr a) = _
  simp only [if_true, Finset.sum_add_distrib, Finset.sum_const, Finset.card_univ, nsmul_eq_mul]
  linear_combination hd

/-- The fast algorithm conserves the number of electrons of both spins, for any fragments and amplitudes, also if singular values are removed and pairs of
fragments left out, if amplitudes are symmetrised before. -/
theorem rdm1_unrestricted_electrons (s : UMf ι o v K) (w : Opts K) (hw : w.late = false) (l : List (UFrag ι K))
    (hs : w.useSym = true → (∀ σ, Orthonormal (s.spin σ)) ∧ ∀ x ∈ l, ∀ u ∈ x.ops, ∀ σ, Operation (s.spin σ) u) (d : ∀ σ, o σ ⊕ v σ → o σ ⊕ v σ → K)
    (h : fastU s w l = .ok d) (σ : Spin) : ∑ p, d σ p p = 0 := by
  have key : ∀ (t1 l1 : U1 o v K), (do let e ← accumulate (xTermU s w (l.flatMap UFrag.family) l1) (if w.useSym then l else l.flatMap UFrag.family)
                                       pure fun σ => combineU w.withT1 (t1 σ) (l1 σ) (e σ) : Except PyErr _) = .ok d → ∑ p, d σ p p = 0 := by
    intro t1 l1 h
    obtain ⟨e, he, rfl⟩ := bind_pure_ok' _ _ h
    refine trc_combineU _ _ _ _ (accumulate_inv (fun d : ∀ σ, (o σ → o σ → K) × (v σ → v σ → K) × (o σ → v σ → K) => Bal (d σ)) ?_ (fun a b => bal_add (a σ) (b σ)) _ _
      (fun x hx c hc => xTermU_trc hw ?_ c hc σ) e he)
    · show trc 0 + trc 0 = 0
      rw [trc_zero, trc_zero, add_zero]
    · intro hu
      rw [if_pos hu] at hx
      exact ⟨(hs hu).1, (hs hu).2 x hx⟩
  unfold fastU at h
  cases h1 : (bif w.withT1 then globT1 s false l else pure 0 : Except PyErr (U1 o v K)) with
  | error e => rw [h1] at h; cases h
  | ok t1 =>
    rw [h1] at h
    have h' : (do let l1 ← (bif w.withT1 then (bif w.tAsLambda then pure t1 else globT1 s true l) else pure 0 : Except PyErr (U1 o v K))
                  let e ← accumulate (xTermU s w (l.flatMap UFrag.family) l1) (if w.useSym then l else l.flatMap UFrag.family)
                  pure fun σ => combineU w.withT1 (t1 σ) (l1 σ) (e σ) : Except PyErr _) = .ok d := h
    cases h2 : (bif w.withT1 then (bif w.tAsLambda then pure t1 else globT1 s true l) else pure 0 : Except PyErr (U1 o v K)) with
    | error e => rw [h2] at h'; cases h'
    | ok l1 =>
      rw [h2] at h'
      exact key t1 l1 h'

private theorem ite_of' {n : Type} [DecidableEq n] {i j : n} {a : K} (h : (i = j → a = 1) ∧ (i ≠ j → a = 0)) : a = delta i j := by
  unfold delta
  split_ifs with e
  · exact h.1 e
  · exact h.2 e

/-- Sums of fragment contributions conserve the number of electrons of a spin, for any amplitudes, if clusters are made of orthonormal occupied and orthonormal
virtual orbitals of this spin. -/
theorem rdm1_unrestricted_ccsd_electrons (s : UMf ι o v K) (l : List (UFrag ι K)) (σ : Spin)
    (ho : ∀ z ∈ l.flatMap UFrag.family, ∀ i j, (i = j → ∑ k, z.mco s σ k i * z.mco s σ k j = 1) ∧ (i ≠ j → ∑ k, z.mco s σ k i * z.mco s σ k j = 0))
    (hv : ∀ z ∈ l.flatMap UFrag.family, ∀ a b, (a = b → ∑ k, z.mcv s σ k a * z.mcv s σ k b = 1) ∧ (a ≠ b → ∑ k, z.mcv s σ k a * z.mcv s σ k b = 0))
    (tAsLambda symmetrize mp2 : Bool) (d : ∀ σ, o σ ⊕ v σ → o σ ⊕ v σ → K) (h : rdm1CcsdU s tAsLambda symmetrize mp2 l = .ok d) : ∑ p, d σ p p = 0 := by
  classical
  have key : ∀ (t1 l1 : U1 o v K), (do let e ← accumulate (fragTermU s (tAsLambda || mp2) symmetrize mp2 l1) (l.flatMap UFrag.family)
                                       pure fun σ => combineF mp2 (t1 σ) (l1 σ) (e σ) : Except PyErr _) = .ok d → ∑ p, d σ p p = 0 := by
    intro t1 l1 h
    obtain ⟨e, he, rfl⟩ := bind_pure_ok' _ _ h
    refine trc_combineF _ _ _ _ (accumulate_inv (fun d : ∀ σ, (o σ → o σ → K) × (v σ → v σ → K) × (o σ → v σ → K) => Bal (d σ)) ?_ (fun a b => bal_add (a σ) (b σ)) _ _
      (fun x hx c hc => ?_) e he)
    · show trc 0 + trc 0 = 0
      rw [trc_zero, trc_zero, add_zero]
    · unfold fragTermU at hc
      cases hl : (if (tAsLambda || mp2) then some x.t2 else x.l2) with
      | none => rw [hl] at hc; cases hc
      | some l2 =>
        rw [hl] at hc
        rw [← Except.ok.inj hc]
        refine fragBlocksU_trc s _ _ _ x σ ?_ ?_ l2
        · funext i j
          exact ite_of' (ho x hx i j)
        · funext i j
          exact ite_of' (hv x hx i j)
  unfold rdm1CcsdU at h
  dsimp only at h
  cases h1 : (bif mp2 then pure 0 else globT1 s false l : Except PyErr (U1 o v K)) with
  | error e => rw [h1] at h; cases h
  | ok t1 =>
    rw [h1] at h
    have h' : (do let l1 ← (bif mp2 then pure 0 else bif (tAsLambda || mp2) then pure t1 else globT1 s true l : Except PyErr (U1 o v K))
                  let e ← accumulate (fragTermU s (tAsLambda || mp2) symmetrize mp2 l1) (l.flatMap UFrag.family)
                  pure fun σ => combineF mp2 (t1 σ) (l1 σ) (e σ) : Except PyErr _) = .ok d := h
    cases h2 : (bif mp2 then pure 0 else bif (tAsLambda || mp2) then pure t1 else globT1 s true l : Except PyErr (U1 o v K)) with
    | error e => rw [h2] at h'; cases h'
    | ok l1 =>
      rw [h2] at h'
      exact key t1 l1 h'

/-- All these density matrices are symmetric. -/
theorem rdm1_unrestricted_symmetric (s : UMf ι o v K) (d : ∀ σ, o σ ⊕ v σ → o σ ⊕ v σ → K) (h : (∃ w l, fastU s w l = .ok d) ∨ (∃ tl wt l, slowU s tl wt l = .ok d) ∨
    ∃ tl sym mp2 l, rdm1CcsdU s tl sym mp2 l = .ok d) (σ : Spin) (p q : o σ ⊕ v σ) : d σ p q = d σ q p := by
  suffices H : tp (d σ) = d σ from congrFun (congrFun H q) p
  rcases h with ⟨w, l, h⟩ | ⟨tl, wt, l, h⟩ | ⟨tl, sym, mp2, l, h⟩
  · unfold fastU at h
    cases h1 : (bif w.withT1 then globT1 s false l else pure 0 : Except PyErr (U1 o v K)) with
    | error e => rw [h1] at h; cases h
    | ok t1 =>
      rw [h1] at h
      have h' : (do let l1 ← (bif w.withT1 then (bif w.tAsLambda then pure t1 else globT1 s true l) else pure 0 : Except PyErr (U1 o v K))
                    let e ← accumulate (xTermU s w (l.flatMap UFrag.family) l1) (if w.useSym then l else l.flatMap UFrag.family)
                    pure fun σ => combineU w.withT1 (t1 σ) (l1 σ) (e σ) : Except PyErr _) = .ok d := h
      cases h2 : (bif w.withT1 then (bif w.tAsLambda then pure t1 else globT1 s true l) else pure 0 : Except PyErr (U1 o v K)) with
      | error e => rw [h2] at h'; cases h'
      | ok l1 =>
        rw [h2] at h'
        obtain ⟨a, -, rfl⟩ := bind_pure_ok' _ _ h'
        exact combineU_symm _ _ _ _
  · unfold slowU at h
    cases h1 : globT1 s false l with
    | error e => rw [h1] at h; cases h
    | ok t1 =>
      cases h2 : globT2 s false l with
      | error e => rw [h1, h2] at h; cases h
      | ok t2 =>
        rw [h1, h2] at h
        have h' : (do let l1 ← bif tl then (pure t1 : Except PyErr _) else globT1 s true l
                      let l2 ← bif tl then (pure t2 : Except PyErr _) else globT2 s true l
                      pure (if wt then makeRdm1U t1 l1 t2 l2 else makeRdm1U 0 0 t2 l2) : Except PyErr _) = .ok d := h
        cases h3 : (bif tl then (pure t1 : Except PyErr _) else globT1 s true l) with
        | error e => rw [h3] at h'; cases h'
        | ok l1 =>
          cases h4 : (bif tl then (pure t2 : Except PyErr _) else globT2 s true l) with
          | error e => rw [h3, h4] at h'; cases h'
          | ok l2 =>
            rw [h3, h4] at h'
            rw [← Except.ok.inj h']
            split_ifs <;> exact makeRdm1U_symm _ _ _ _ σ
  · unfold rdm1CcsdU at h
    dsimp only at h
    cases h1 : (bif mp2 then pure 0 else globT1 s false l : Except PyErr (U1 o v K)) with
    | error e => rw [h1] at h; cases h
    | ok t1 =>
      rw [h1] at h
      have h' : (do let l1 ← (bif mp2 then pure 0 else bif (tl || mp2) then pure t1 else globT1 s true l : Except PyErr (U1 o v K))
                    let e ← accumulate (fragTermU s (tl || mp2) sym mp2 l1) (l.flatMap UFrag.family)
                    pure fun σ => combineF mp2 (t1 σ) (l1 σ) (e σ) : Except PyErr _) = .ok d := h
      cases h2 : (bif mp2 then pure 0 else bif (tl || mp2) then pure t1 else globT1 s true l : Except PyErr (U1 o v K)) with
      | error e => rw [h2] at h'; cases h'
      | ok l1 =>
        rw [h2] at h'
        obtain ⟨a, -, rfl⟩ := bind_pure_ok' _ _ h'
        exact combineF_symm _ _ _ _

end

/-! ## Closed shells -/

/-- For a closed shell, each of the density matrices is half of the one of the restricted calculation. -/
theorem rdm1_unrestricted_closed_shell {o v : Type} [Fintype o] [Fintype v] (h2 : (2 : K) ≠ 0) (t1 l1 : o → v → K) (t2 l2 : o → o → v → v → K)
    (ht : ∀ i j a b, t2 j i b a = t2 i j a b) (hl : ∀ i j a b, l2 j i b a = l2 i j a b) (σ : Spin) (p q : o ⊕ v) :
    2 * ccRdm1U (o := fun _ => o) (v := fun _ => v) (fun _ => t1) (fun σ τ i j a b => if σ = τ then t2 i j a b - t2 i j b a else t2 i j a b) (fun _ => l1)
      (fun σ τ i j a b => if σ = τ then l2 i j a b - l2 i j b a else l2 i j a b) σ p q = ccRdm1 t1 t2 l1 l2 p q := by
  have hne : ∀ σ : Spin, σ ≠ σ.other := by intro σ; cases σ <;> decide
  have c2 : ∀ F : v → v → K, ∑ e, ∑ f, F e f = ∑ e, ∑ f, F f e := fun F => Finset.sum_comm
  have hγ : ∀ i j, (∑ m, ∑ e, ∑ f, (t2 i m e f - t2 i m f e) * (l2 j m e f - l2 j m f e)) / 2 + ∑ m, ∑ e, ∑ f, t2 i m e f * l2 j m e f =
      ∑ m, ∑ e, ∑ f, (2 * t2 i m e f - t2 i m f e) * l2 j m e f := by
    intro i j
    have e1 : ∀ m, (∑ e, ∑ f, (t2 i m e f - t2 i m f e) * (l2 j m e f - l2 j m f e)) = 2 * ∑ e, ∑ f, (t2 i m e f - t2 i m f e) * l2 j m e f := by
      intro m
      simp only [mul_sub, Finset.sum_sub_distrib]
      rw [c2 fun e f => (t2 i m e f - t2 i m f e) * l2 j m f e, two_mul]
      simp only [sub_mul, Finset.sum_sub_distrib]
      ring
    rw [Finset.sum_congr rfl fun m _ => e1 m, ← Finset.mul_sum, mul_div_cancel_left₀ _ h2]
    simp only [← Finset.sum_add_distrib]
    exact Finset.sum_congr rfl fun _ _ => Finset.sum_congr rfl fun _ _ => Finset.sum_congr rfl fun _ _ => by ring
  have hη : ∀ a b, (∑ m, ∑ n, ∑ e, (t2 m n a e - t2 m n e a) * (l2 m n b e - l2 m n e b)) / 2 + ∑ m, ∑ n, ∑ e, t2 m n a e * l2 m n b e =
      ∑ m, ∑ n, ∑ e, (2 * t2 m n e a - t2 m n a e) * l2 m n e b := by
    intro a b
    have sw : ∀ F : o → o → v → K, ∑ m, ∑ n, ∑ e, F m n e = ∑ m, ∑ n, ∑ e, F n m e := fun F => Finset.sum_comm
    have e1 : (∑ m, ∑ n, ∑ e, (t2 m n a e - t2 m n e a) * (l2 m n b e - l2 m n e b)) = 2 * ∑ m, ∑ n, ∑ e, (t2 m n e a - t2 m n a e) * l2 m n e b := by
      simp only [mul_sub, Finset.sum_sub_distrib]
      rw [sw fun m n e => (t2 m n a e - t2 m n e a) * l2 m n b e, two_mul]
      have : ∀ m n e, (t2 n m a e - t2 n m e a) * l2 n m b e = (t2 m n e a - t2 m n a e) * l2 m n e b := by
        intro m n e
        rw [ht m n e a, ht m n a e, hl m n e b]
      simp only [this, sub_mul, Finset.sum_sub_distrib]
      ring
    have e2 : (∑ m, ∑ n, ∑ e, t2 m n a e * l2 m n b e) = ∑ m, ∑ n, ∑ e, t2 m n e a * l2 m n e b := by
      rw [sw fun m n e => t2 m n a e * l2 m n b e]
      exact Finset.sum_congr rfl fun m _ => Finset.sum_congr rfl fun n _ => Finset.sum_congr rfl fun e _ => by rw [ht m n e a, hl m n e b]
    rw [e1, e2, mul_div_cancel_left₀ _ h2]
    simp only [← Finset.sum_add_distrib]
    exact Finset.sum_congr rfl fun _ _ => Finset.sum_congr rfl fun _ _ => Finset.sum_congr rfl fun _ _ => by ring
  have ho : ∀ i a, (∑ m, ∑ e, (t2 i m a e - t2 i m e a) * l1 m e) + (∑ m, ∑ e, t2 i m a e * l1 m e) = ∑ m, ∑ e, (2 * t2 i m a e - t2 i m e a) * l1 m e := by
    intro i a
    simp only [← Finset.sum_add_distrib]
    exact Finset.sum_congr rfl fun _ _ => Finset.sum_congr rfl fun _ _ => by ring
  rcases p with i | a <;> rcases q with j | b
  all_goals
    simp only [ccRdm1U, ccRdm1, if_true, if_neg (hne σ), hγ, hη]
  · rw [mul_div_cancel₀ _ h2]
  · rw [mul_div_cancel₀ _ h2, ← ho]
    ring
  · rw [mul_div_cancel₀ _ h2, ← ho]
    ring
  · rw [mul_div_cancel₀ _ h2]

/-! ## Missing lambda amplitudes -/

private theorem lam_cases (y : UFrag ι K) (tl : Bool) : (∃ c, y.lam tl = .ok c) ∨ y.lam tl = .error .typeError := by
  unfold UFrag.lam
  split_ifs
  · exact Or.inl ⟨_, rfl⟩
  · cases y.l2 with
    | none => exact Or.inr rfl
    | some l2 => exact Or.inl ⟨_, rfl⟩

private theorem pairTermU_cases (s : UMf ι o v K) (w : Opts K) (hw : w.small = none) (x y : UFrag ι K) :
    ((∃ c, pairTermU s w x y = .ok c) ∨ pairTermU s w x y = .error .typeError) ∧ (y.lam w.tAsLambda = .error .typeError → pairTermU s w x y = .error .typeError) := by
  have hk : skippedU w.small (fun σ => mm (tp (x.mco s σ)) (y.mco s σ)) (fun σ => mm (tp (x.mcv s σ)) (y.mcv s σ)) = false := by rw [hw]; rfl
  unfold pairTermU
  dsimp only
  rw [hk]
  refine ⟨?_, fun h => ?_⟩
  · rcases lam_cases y w.tAsLambda with ⟨c, hc⟩ | hc
    · rw [hc]
      cases w.late <;> exact Or.inl ⟨_, rfl⟩
    · rw [hc]
      cases w.late <;> exact Or.inr rfl
  · rw [h]
    cases w.late <;> rfl

private theorem contrib_cases (s : UMf ι o v K) (z : UFrag ι K) :
    ((∃ c, z.t2Contrib s true = .ok c) ∨ z.t2Contrib s true = .error .typeError) ∧ ((∃ c, z.t1Contrib s true = .ok c) ∨ z.t1Contrib s true = .error .typeError) ∧
      (z.tAsLambda = false → z.l2 = none → z.t2Contrib s true = .error .typeError) := by
  unfold UFrag.t2Contrib UFrag.t1Contrib
  refine ⟨?_, ?_, fun h1 h2 => ?_⟩
  · cases (if (true && !z.tAsLambda) then z.l2 else some z.t2) with
    | none => exact Or.inr rfl
    | some t => exact Or.inl ⟨_, rfl⟩
  · cases (if (true && !z.tAsLambda) then z.l1 else some z.t1) with
    | none => exact Or.inr rfl
    | some t => exact Or.inl ⟨_, rfl⟩
  · rw [h1, h2]; rfl

private theorem acc_cases {α M : Type*} [AddMonoid M] (f : α → Except PyErr M) (l : List α) (e : PyErr) (h : ∀ x ∈ l, (∃ c, f x = .ok c) ∨ f x = .error e) :
    (∃ c, accumulate f l = .ok c) ∨ accumulate f l = .error e := by
  by_cases hx : ∃ x ∈ l, f x = .error e
  · exact Or.inr (accumulate_err e f l h hx)
  · push Not at hx
    classical
    have h' : ∀ x ∈ l, ∃ c, f x = .ok c := fun x hxl => (h x hxl).resolve_right (hx x hxl)
    exact Or.inl ⟨_, accumulate_ok f (fun x => if h : ∃ c, f x = .ok c then h.choose else 0) l fun x hxl => by rw [dif_pos (h' x hxl)]; exact (h' x hxl).choose_spec⟩

/-- If lambda amplitudes are used but one of the fragments has no doubles, all three algorithms raise TypeError (the first one if no screening leaves out the
fragment and it was not solved with MP2). The option `t_as_lambda` of the fragment avoids this for the first two but not for the third one. -/
theorem rdm1_unrestricted_missing_lambda (s : UMf ι o v K) (l : List (UFrag ι K)) (x : UFrag ι K) (hx : x ∈ l) (hl : x.l2 = none) :
    (∀ w : Opts K, w.tAsLambda = false → w.small = none → x.mp2 = false → x.tAsLambda = false → fastU s w l = .error .typeError) ∧
    (∀ withT1, x.tAsLambda = false → slowU s false withT1 l = .error .typeError) ∧
    (∀ symmetrize, rdm1CcsdU s false symmetrize false l = .error .typeError) ∧
    ∀ mp2 tAsLambda symmetrize, (mp2 = true ∨ tAsLambda = true) → ∃ d, rdm1CcsdU s tAsLambda symmetrize mp2 l = .ok d := by
  have hmem : { x with ops := [] } ∈ l.flatMap UFrag.family := member_mem hx (u := none) (by simp [UFrag.copies])
  have g1 : (∃ c, globT1 s true l = .ok c) ∨ globT1 s true l = .error .typeError := acc_cases _ _ _ fun z _ => (contrib_cases s z).2.1
  refine ⟨fun w ht hs hm ho => ?_, fun wt ho => ?_, fun sym => ?_, fun mp2 tl sym h => ?_⟩
  · have hlm : ∀ y : UFrag ι K, y.l2 = none → y.mp2 = false → y.tAsLambda = false → y.lam w.tAsLambda = .error .typeError := by
      intro y h1 h2 h3
      unfold UFrag.lam
      rw [ht, h1, h2, h3]
      rfl
    have hxt : ∀ m z, xTermU s w (l.flatMap UFrag.family) m z = .error .typeError := by
      intro m z
      have : accumulate (pairTermU s w z) (l.flatMap UFrag.family) = .error .typeError :=
        accumulate_err _ _ _ (fun y _ => (pairTermU_cases s w hs z y).1) ⟨_, hmem, (pairTermU_cases s w hs z _).2 (hlm { x with ops := [] } hl hm ho)⟩
      unfold xTermU
      rw [this]
      rfl
    have hacc : ∀ m, accumulate (xTermU s w (l.flatMap UFrag.family) m) (if w.useSym then l else l.flatMap UFrag.family) = .error .typeError := by
      intro m
      refine accumulate_err _ _ _ (fun z _ => Or.inr (hxt m z)) ?_
      split_ifs
      · exact ⟨_, hx, hxt m _⟩
      · exact ⟨_, hmem, hxt m _⟩
    have hfin : ∀ (t m : U1 o v K), (do let d ← accumulate (xTermU s w (l.flatMap UFrag.family) m) (if w.useSym then l else l.flatMap UFrag.family)
                                        pure fun σ => combineU w.withT1 (t σ) (m σ) (d σ) : Except PyErr _) = .error .typeError := by
      intro t m
      rw [hacc]
      rfl
    unfold fastU
    rw [globT1_t, ht]
    cases hwt : w.withT1 with
    | false => rw [hwt] at hfin; exact hfin 0 0
    | true =>
      show (do let l1 ← globT1 s true l
               let d ← accumulate (xTermU s w (l.flatMap UFrag.family) l1) (if w.useSym then l else l.flatMap UFrag.family)
               pure fun σ => combineU true (Tg1 s l σ) (l1 σ) (d σ) : Except PyErr _) = _
      rcases g1 with ⟨c, hc⟩ | hc
      · rw [hc]
        rw [hwt] at hfin
        exact hfin _ c
      · rw [hc]
        rfl
  · have g2 : globT2 s true l = .error .typeError := accumulate_err _ _ _ (fun z _ => (contrib_cases s z).1) ⟨_, hmem, (contrib_cases s _).2.2 ho hl⟩
    unfold slowU
    rw [globT1_t, globT2_t]
    show (do let l1 ← globT1 s true l
             let l2 ← globT2 s true l
             pure (if wt then makeRdm1U (Tg1 s l) l1 (TgU s l) l2 else makeRdm1U 0 0 (TgU s l) l2) : Except PyErr _) = _
    rcases g1 with ⟨c, g1⟩ | g1
    · rw [g1, g2]; rfl
    · rw [g1]; rfl
  · have hacc : ∀ m, accumulate (fragTermU s false sym false m) (l.flatMap UFrag.family) = .error .typeError := by
      intro m
      refine accumulate_err _ _ _ (fun y _ => ?_) ⟨_, hmem, ?_⟩
      · unfold fragTermU
        rw [if_neg (by simp)]
        cases y.l2 with
        | none => exact Or.inr rfl
        | some l2 => exact Or.inl ⟨_, rfl⟩
      · have : ∀ y : UFrag ι K, y.l2 = none → fragTermU s false sym false m y = .error .typeError := by
          intro y hy
          unfold fragTermU
          rw [if_neg (by simp), hy]
        exact this { x with ops := [] } hl
    show (do let t1 ← globT1 s false l
             let l1 ← globT1 s true l
             let d ← accumulate (fragTermU s false sym false l1) (l.flatMap UFrag.family)
             pure fun σ => combineF false (t1 σ) (l1 σ) (d σ) : Except PyErr _) = _
    rw [globT1_t]
    show (do let l1 ← globT1 s true l
             let d ← accumulate (fragTermU s false sym false l1) (l.flatMap UFrag.family)
             pure fun σ => combineF false (Tg1 s l σ) (l1 σ) (d σ) : Except PyErr _) = _
    rcases g1 with ⟨c, g1⟩ | g1
    · rw [g1]
      show (do let d ← accumulate (fragTermU s false sym false c) (l.flatMap UFrag.family)
               pure fun σ => combineF false (Tg1 s l σ) (c σ) (d σ) : Except PyErr _) = _
      rw [hacc]
      rfl
    · rw [g1]; rfl
  · have hok : ∀ mp2 m, accumulate (fragTermU s true sym mp2 m) (l.flatMap UFrag.family) = .ok _ := fun mp2 m =>
      accumulate_ok _ (fun y => fragBlocksU s sym mp2 m y y.t2) _ fun y _ => rfl
    have e : (tl || mp2) = true := by rcases h with rfl | rfl <;> simp
    unfold rdm1CcsdU
    rw [e]
    cases mp2 with
    | true =>
      show ∃ d, (do let d ← accumulate (fragTermU s true sym true 0) (l.flatMap UFrag.family)
                    pure fun σ => combineF true ((0 : U1 o v K) σ) ((0 : U1 o v K) σ) (d σ) : Except PyErr _) = .ok d
      rw [hok]
      exact ⟨_, rfl⟩
    | false =>
      rw [globT1_t]
      show ∃ d, (do let d ← accumulate (fragTermU s true sym false (Tg1 s l)) (l.flatMap UFrag.family)
                    pure fun σ => combineF false (Tg1 s l σ) (Tg1 s l σ) (d σ) : Except PyErr _) = .ok d
      rw [hok]
      exact ⟨_, rfl⟩

/-! ## Examples: five orthonormal AOs, of which the first four are occupied with spin up and the first two with spin down; a symmetry exchanges the first two and
the next two. One fragment stands for two. -/

private def eO : Spin → Nat
  | .a => 4
  | .b => 2
private def eV : Spin → Nat
  | .a => 1
  | .b => 3
private def eF : Spin → Nat
  | .a => 2
  | .b => 1
private def eMf : UMf (Fin 5) (fun σ => Fin (eO σ)) (fun σ => Fin (eV σ)) ℚ where
  ovlp := delta
  moOcc _ p i := if p.val = i.val then 1 else 0
  moVir σ p a := if p.val = eO σ + a.val then 1 else 0
private def eSw (n : Nat) : Nat := if n = 0 then 1 else if n = 1 then 0 else if n = 2 then 3 else if n = 3 then 2 else n
private def eSwap (p q : Fin 5) : ℚ := if eSw p.val = q.val then 1 else 0
private def eT1 (σ : Spin) (_ : Fin (eO σ)) (_ : Fin (eV σ)) : ℚ := if σ = .a then 1 / 2 else 1 / 4
private def eT2 (σ τ : Spin) (i : Fin (eO σ)) (j : Fin (eO τ)) (_ : Fin (eV σ)) (_ : Fin (eV τ)) : ℚ := if i.val = j.val then 1 / 3 else 1 / 5
private def eL1 (σ : Spin) (_ : Fin (eO σ)) (_ : Fin (eV σ)) : ℚ := if σ = .a then 1 / 7 else 1 / 9
private def eL2 (σ τ : Spin) (i : Fin (eO σ)) (j : Fin (eO τ)) (_ : Fin (eV σ)) (_ : Fin (eV τ)) : ℚ := if i.val = j.val then 1 / 11 else 1 / 13
private def eC (σ : Spin) (p : Fin 5) (k : Fin (eF σ)) : ℚ := if p.val = 2 * k.val then 1 else 0
private def eK1 (σ : Spin) (_ : Fin (eF σ)) (_ : Fin (eV σ)) : ℚ := if σ = .a then 1 / 7 else 1 / 9
private def eK2 (σ τ : Spin) (k : Fin (eF σ)) (j : Fin (eO τ)) (_ : Fin (eV σ)) (_ : Fin (eV τ)) : ℚ := if 2 * k.val = j.val then 1 / 11 else 1 / 13
private def eFrag : UFrag (Fin 5) ℚ where
  f σ := Fin (eF σ)
  c σ := Fin (eO σ)
  d σ := Fin (eV σ)
  cFrag := eC
  cOcc := eMf.moOcc
  cVir := eMf.moVir
  t1 σ _ _ := if σ = .a then 1 / 2 else 1 / 4
  t2 _ _ k j _ _ := if 2 * k.val = j.val then 1 / 3 else 1 / 5
  l1 := some eK1
  l2 := some eK2
  mp2 := false
  tAsLambda := false
  ops := [eSwap]

/-- An exact decomposition of any matrix, and a test that only finds zero matrices. -/
private noncomputable def eSvd (m n : Type) (A : m → n → ℚ) : Factors m n ℚ :=
  open Classical in if h : Nonempty (Fintype n) then { k := n, fk := h.some, u := A, w := delta } else { k := Empty, u := fun _ e => e.elim, w := fun e => e.elim }
private noncomputable def eSmall (m n : Type) (A : m → n → ℚ) : Bool := open Classical in decide (A = 0)
private noncomputable def eOpts (tl useSym late : Bool) : Opts ℚ := ⟨tl, true, some eSvd, some eSmall, useSym, late⟩

private theorem e_noLoss (tl useSym late : Bool) (l : List (UFrag (Fin 5) ℚ)) : UNoLoss eMf (eOpts tl useSym late) l := by
  have h : ∀ (m n : Type) [Fintype n] (A : m → n → ℚ), mm (eSvd m n A).u (eSvd m n A).w = A := by
    intro m n _ A
    unfold eSvd
    rw [dif_pos ⟨inferInstance⟩]
    exact @mm_delta _ _ _ _ (_) (_) A
  refine ⟨?_, ?_, ?_, ?_⟩
  · intro g hg x _ y _ σ; cases hg; exact h _ _ _
  · intro g hg x _ y _ σ; cases hg; exact h _ _ _
  · intro g hg x _ y _ hh σ; cases hg; exact @of_decide_eq_true _ (Classical.propDecidable _) (hh σ)
  · intro g hg x _ y _ hh σ; cases hg; exact @of_decide_eq_true _ (Classical.propDecidable _) (hh σ)

private theorem e_orth (σ : Spin) : Orthonormal (eMf.spin σ) := by
  cases σ <;> exact ⟨by decide +kernel, by decide +kernel, by decide +kernel, by decide +kernel⟩
private def eFlipO (σ : Spin) (i k : Fin (eO σ)) : ℚ := if eSw i.val = k.val then 1 else 0
private def eFlipV (σ : Spin) (i k : Fin (eV σ)) : ℚ := if eSw (eO σ + i.val) = eO σ + k.val then 1 else 0
private theorem e_op (σ : Spin) : Operation (eMf.spin σ) eSwap := by
  cases σ
  · exact ⟨by decide +kernel, ⟨eFlipO .a, by decide +kernel⟩, ⟨eFlipV .a, by decide +kernel⟩⟩
  · exact ⟨by decide +kernel, ⟨eFlipO .b, by decide +kernel⟩, ⟨eFlipV .b, by decide +kernel⟩⟩
private theorem e_family : [eFrag].flatMap UFrag.family = [{ eFrag with ops := [] }, eFrag.image eSwap] := rfl
private theorem e_lam (tl : Bool) : ∀ x ∈ [eFrag], UHasLambda tl x := by
  intro x hx
  rw [List.mem_singleton.1 hx]
  exact Or.inr (Or.inr ⟨rfl, rfl, fun h => by cases h⟩)
private theorem e_in : ∀ z ∈ [eFrag].flatMap UFrag.family, ∀ σ, OccInCluster (eMf.spin σ) (z.spin σ) := by
  intro z hz σ
  rw [e_family] at hz
  simp only [List.mem_cons, List.not_mem_nil, or_false] at hz
  rcases hz with rfl | rfl <;> cases σ <;> show _ = _ <;> decide +kernel
private theorem e_closed : (([eFrag].flatMap UFrag.family).map fun z => z.image eSwap).Perm ([eFrag].flatMap UFrag.family) := by
  have h : ∀ {n : Type} (c : Fin 5 → n → ℚ), mm eSwap (mm eSwap c) = c := by
    intro n c
    rw [← mm_assoc, show mm eSwap eSwap = delta by decide +kernel, delta_mm]
  have e : (eFrag.image eSwap).image eSwap = { eFrag with ops := [] } := by
    have mk : ∀ {a a' : ∀ σ, Fin 5 → eFrag.f σ → ℚ} {b b' : ∀ σ, Fin 5 → eFrag.c σ → ℚ} {c c' : ∀ σ, Fin 5 → eFrag.d σ → ℚ}, a = a' → b = b' → c = c' →
        ({ eFrag with cFrag := a, cOcc := b, cVir := c, ops := [] } : UFrag (Fin 5) ℚ) = { eFrag with cFrag := a', cOcc := b', cVir := c', ops := [] } := by
      rintro a a' b b' c c' rfl rfl rfl; rfl
    exact mk (funext fun σ => h _) (funext fun σ => h _) (funext fun σ => h _)
  rw [e_family]
  show [eFrag.image eSwap, (eFrag.image eSwap).image eSwap].Perm _
  rw [e]
  exact List.Perm.swap _ _ _

private theorem spin_all {P : Spin → Prop} (ha : P .a) (hb : P .b) : ∀ σ, P σ := by rintro (_ | _) <;> assumption
private theorem spin_ext {F : Spin → Type} {f g : ∀ σ, F σ} (ha : f .a = g .a) (hb : f .b = g .b) : f = g := by funext σ; cases σ <;> assumption
private theorem spin_ext2 {F : Spin → Spin → Type} {f g : ∀ σ τ, F σ τ} (h1 : f .a .a = g .a .a) (h2 : f .a .b = g .a .b) (h3 : f .b .a = g .b .a) (h4 : f .b .b = g .b .b) : f = g := by
  funext σ τ; cases σ <;> cases τ <;> assumption

private def eP1 (C : ∀ σ, Fin 5 → Fin (eF σ) → ℚ) (O : ∀ σ, Fin 5 → Fin (eO σ) → ℚ) (ro : ∀ σ, Fin (eO σ) → Fin (eO σ) → ℚ) (rv : ∀ σ, Fin (eV σ) → Fin (eV σ) → ℚ) (σ : Spin) :
    Fin (eF σ) → Fin (eV σ) → ℚ := projectC1 (mm (tp (C σ)) (mm delta (O σ))) (EwfEnergy.restrict1 (ro σ) (rv σ) (eL1 σ))
private def eP2 (C : ∀ σ, Fin 5 → Fin (eF σ) → ℚ) (O : ∀ σ, Fin 5 → Fin (eO σ) → ℚ) (ro : ∀ σ, Fin (eO σ) → Fin (eO σ) → ℚ) (rv : ∀ σ, Fin (eV σ) → Fin (eV σ) → ℚ) (σ τ : Spin) :
    Fin (eF σ) → Fin (eO τ) → Fin (eV σ) → Fin (eV τ) → ℚ := projectC2 (mm (tp (C σ)) (mm delta (O σ))) (restrict2U (ro σ) (ro τ) (rv σ) (rv τ) (eL2 σ τ))
private theorem e_l1 : eK1 = eP1 eC eMf.moOcc (fun _ => delta) (fun _ => delta) ∧ eK1 = eP1 (fun σ => mm eSwap (eC σ)) (fun σ => mm eSwap (eMf.moOcc σ)) eFlipO eFlipV :=
  ⟨spin_ext (by decide +kernel) (by decide +kernel), spin_ext (by decide +kernel) (by decide +kernel)⟩
private theorem e_l2 : eK2 = eP2 eC eMf.moOcc (fun _ => delta) (fun _ => delta) ∧ eK2 = eP2 (fun σ => mm eSwap (eC σ)) (fun σ => mm eSwap (eMf.moOcc σ)) eFlipO eFlipV :=
  ⟨spin_ext2 (by decide +kernel) (by decide +kernel) (by decide +kernel) (by decide +kernel), spin_ext2 (by decide +kernel) (by decide +kernel) (by decide +kernel) (by decide +kernel)⟩

private theorem e_exact1 (z : UFrag (Fin 5) ℚ) (hz : z ∈ [{ eFrag with ops := [] }, eFrag.image eSwap]) : ∃ ro rv, UExact eMf eT1 eT2 eL1 eL2 z ro rv := by
  simp only [List.mem_cons, List.not_mem_nil, or_false] at hz
  rcases hz with rfl | rfl
  · refine ⟨fun σ => (delta : Fin (eO σ) → Fin (eO σ) → ℚ), fun σ => (delta : Fin (eV σ) → Fin (eV σ) → ℚ), ?_, ?_, ?_, ?_, ?_, ?_, ?_, ?_⟩
    · exact spin_all (by decide +kernel) (by decide +kernel)
    · exact spin_all (by decide +kernel) (by decide +kernel)
    · exact spin_all (by decide +kernel) (by decide +kernel)
    · exact spin_all (by decide +kernel) (by decide +kernel)
    · exact spin_ext (by decide +kernel) (by decide +kernel)
    · exact spin_ext2 (by decide +kernel) (by decide +kernel) (by decide +kernel) (by decide +kernel)
    · exact congrArg some e_l1.1
    · exact congrArg some e_l2.1
  · refine ⟨eFlipO, eFlipV, ?_, ?_, ?_, ?_, ?_, ?_, ?_, ?_⟩
    · exact spin_all (by decide +kernel) (by decide +kernel)
    · exact spin_all (by decide +kernel) (by decide +kernel)
    · exact spin_all (by decide +kernel) (by decide +kernel)
    · exact spin_all (by decide +kernel) (by decide +kernel)
    · exact spin_ext (by decide +kernel) (by decide +kernel)
    · exact spin_ext2 (by decide +kernel) (by decide +kernel) (by decide +kernel) (by decide +kernel)
    · exact congrArg some e_l1.2
    · exact congrArg some e_l2.2
private theorem e_exact : ∀ z ∈ [eFrag].flatMap UFrag.family, ∃ ro rv, UExact eMf eT1 eT2 eL1 eL2 z ro rv := e_exact1
private theorem e_part (σ : Spin) : Partitions (eMf.spin σ) (([eFrag].flatMap UFrag.family).map fun z => z.spin σ) := by
  cases σ
  · show ∀ i j : Fin 4, _
    decide +kernel
  · show ∀ i j : Fin 2, _
    decide +kernel

/-- The hypotheses of `rdm1_unrestricted_symmetry`, and with it of `rdm1_unrestricted_global` and `global_amplitudes_unrestricted_invariant`, can be met, with a
decomposition and screening. -/
example (tl late : Bool) : ∃ d, fastU eMf (eOpts tl true late) [eFrag] = .ok d ∧ fastU eMf (eOpts tl false late) [eFrag] = .ok d :=
  rdm1_unrestricted_symmetry eMf (by norm_num) e_orth (eOpts tl true late) [eFrag] (e_noLoss _ _ _ _) (e_lam tl) (fun _ => e_in) fun x hx u hu => by
    rw [List.mem_singleton.1 hx] at hu
    rw [List.mem_singleton.1 (show u ∈ [eSwap] from hu)]
    exact ⟨e_op, e_closed⟩

private theorem e_ht : ∀ σ τ i j a b, eT2 τ σ j i b a = eT2 σ τ i j a b := by intro σ τ i j a b; simp only [eT2, eq_comm]
private theorem e_hl : ∀ σ τ i j a b, eL2 τ σ j i b a = eL2 σ τ i j a b := by intro σ τ i j a b; simp only [eL2, eq_comm]

/-- The hypotheses of `rdm1_unrestricted_exact`, `rdm1_unrestricted_ccsd_exact` and `global_amplitudes_unrestricted_exact` can be met, and the density matrices are
not zero. -/
example : fastU eMf (eOpts false false true) [eFrag] = .ok (ccRdm1U eT1 eT2 eL1 eL2) ∧ rdm1CcsdU eMf false true false [eFrag] = .ok (ccRdm1U eT1 eT2 eL1 eL2) ∧
    globT2 eMf true [eFrag] = .ok (eL2 .a .a, eL2 .a .b, eL2 .b .b) ∧
    ccRdm1U eT1 eT2 eL1 eL2 .a (.inl (0 : Fin 4)) (.inl (0 : Fin 4)) ≠ 0 ∧ ccRdm1U eT1 eT2 eL1 eL2 .b (.inl (0 : Fin 2)) (.inr (2 : Fin 3)) ≠ 0 := by
  have hop : ∀ x ∈ [eFrag], x.tAsLambda = true → eL1 = eT1 ∧ eL2 = eT2 := by
    intro x hx h
    rw [List.mem_singleton.1 hx] at h
    cases h
  have hmp : ∀ x ∈ [eFrag], x.mp2 = true → eL2 = eT2 := fun x hx h => by rw [List.mem_singleton.1 hx] at h; cases h
  refine ⟨?_, ?_, ?_, by decide +kernel, by decide +kernel⟩
  · exact rdm1_unrestricted_exact eMf e_orth (by norm_num) eT1 eL1 eT2 eL2 e_ht e_hl (eOpts false false true) [eFrag] e_exact e_part hop hmp (e_noLoss _ _ _ _)
      fun h => by cases h
  · exact (rdm1_unrestricted_ccsd_exact eMf e_orth (by norm_num) eT1 eL1 eT2 eL2 e_ht e_hl [eFrag] e_exact e_part (fun x hx h => (hop x hx h).1) false true).1
  · exact (global_amplitudes_unrestricted_exact eMf e_orth (by norm_num) eT1 eL1 eT2 eL2 e_ht e_hl [eFrag] e_exact e_part hop hmp).2.2.2

/-- A decomposition that removes everything: `rdm1_unrestricted_electrons` applies, with non-zero off-diagonal elements of the result, and with the mean-field
there are four and two electrons. -/
example : ∃ d, fastU eMf ⟨false, true, some fun _ _ _ => ⟨fun _ (e : Empty) => e.elim, fun e => e.elim⟩, none, true, false⟩ [eFrag] = .ok d ∧
    d .a (.inl (0 : Fin 4)) (.inr (0 : Fin 1)) ≠ 0 ∧ (∀ σ, ∑ p, d σ p p = 0) ∧ ∀ σ, ∑ p, finishU true d σ p p = eO σ := by
  have h1 : ((fastU eMf ⟨false, true, some fun _ _ _ => ⟨fun _ (e : Empty) => e.elim, fun e => e.elim⟩, none, true, false⟩ [eFrag]).toOption.map
    fun d => decide (d .a (.inl (0 : Fin 4)) (.inr (0 : Fin 1)) ≠ 0)) = some true := by decide +kernel
  cases e : fastU eMf ⟨false, true, some fun _ _ _ => ⟨fun _ (e : Empty) => e.elim, fun e => e.elim⟩, none, true, false⟩ [eFrag] with
  | error e' => rw [e] at h1; cases h1
  | ok d =>
    rw [e] at h1
    have h0 := rdm1_unrestricted_electrons eMf _ rfl [eFrag] (fun _ => ⟨e_orth, fun x hx u hu => by
      rw [List.mem_singleton.1 hx] at hu
      rw [List.mem_singleton.1 (show u ∈ [eSwap] from hu)]
      exact e_op⟩) d e
    refine ⟨d, rfl, by simpa [Except.toOption] using h1, h0, fun σ => ?_⟩
    rw [(rdm1_unrestricted_mf d σ (h0 σ)).1, Fintype.card_fin]

/-- The hypotheses of `rdm1_unrestricted_ccsd_electrons` can be met with amplitudes that are not those of the whole system: the trace does not depend on them. -/
example (a b : ℚ) : ∀ d, rdm1CcsdU eMf true true false [{ eFrag with t1 := fun _ _ _ => a, t2 := fun _ _ _ _ _ _ => b }] = .ok d → ∑ p, d .b p p = 0 := by
  refine rdm1_unrestricted_ccsd_electrons eMf _ .b ?_ ?_ true true false
  · intro z hz
    simp only [List.flatMap_cons, List.flatMap_nil, List.append_nil, UFrag.family, List.mem_cons, List.map_cons, List.map_nil, List.not_mem_nil, or_false, eFrag] at hz
    rcases hz with rfl | rfl
    · intro i j
      exact (show ∀ i j : Fin 2, (i = j → ∑ k, eFrag.mco eMf .b k i * eFrag.mco eMf .b k j = 1) ∧ (i ≠ j → ∑ k, eFrag.mco eMf .b k i * eFrag.mco eMf .b k j = 0) by decide +kernel) i j
    · intro i j
      exact (show ∀ i j : Fin 2, (i = j → ∑ k, (eFrag.image eSwap).mco eMf .b k i * (eFrag.image eSwap).mco eMf .b k j = 1) ∧
        (i ≠ j → ∑ k, (eFrag.image eSwap).mco eMf .b k i * (eFrag.image eSwap).mco eMf .b k j = 0) by decide +kernel) i j
  · intro z hz
    simp only [List.flatMap_cons, List.flatMap_nil, List.append_nil, UFrag.family, List.mem_cons, List.map_cons, List.map_nil, List.not_mem_nil, or_false, eFrag] at hz
    rcases hz with rfl | rfl
    · intro i j
      exact (show ∀ i j : Fin 3, (i = j → ∑ k, eFrag.mcv eMf .b k i * eFrag.mcv eMf .b k j = 1) ∧ (i ≠ j → ∑ k, eFrag.mcv eMf .b k i * eFrag.mcv eMf .b k j = 0) by decide +kernel) i j
    · intro i j
      exact (show ∀ i j : Fin 3, (i = j → ∑ k, (eFrag.image eSwap).mcv eMf .b k i * (eFrag.image eSwap).mcv eMf .b k j = 1) ∧
        (i ≠ j → ∑ k, (eFrag.image eSwap).mcv eMf .b k i * (eFrag.image eSwap).mcv eMf .b k j = 0) by decide +kernel) i j

/-- The hypotheses of `rdm1_unrestricted_missing_lambda` can be met; the option of the fragment makes a difference for the second algorithm, not for the third one. -/
example : fastU eMf ⟨false, false, none, none, true, true⟩ [{ eFrag with l2 := none }] = .error .typeError ∧
    slowU eMf false true [{ eFrag with l2 := none }] = .error .typeError ∧ (∃ d, slowU eMf false true [{ eFrag with l2 := none, tAsLambda := true }] = .ok d) ∧
    rdm1CcsdU eMf false true false [{ eFrag with l2 := none, tAsLambda := true }] = .error .typeError := by
  have h := rdm1_unrestricted_missing_lambda eMf [{ eFrag with l2 := none }] { eFrag with l2 := none } (by simp) rfl
  have h' := rdm1_unrestricted_missing_lambda eMf [{ eFrag with l2 := none, tAsLambda := true }] { eFrag with l2 := none, tAsLambda := true } (by simp) rfl
  refine ⟨h.1 _ rfl rfl rfl rfl, h.2.1 true rfl, ⟨_, slowU_ok _ _ _ _ fun x hx => ?_⟩, h'.2.2.1 true⟩
  rw [List.mem_singleton.1 hx]
  exact Or.inr (Or.inl rfl)

private def cT2 (i j a b : Fin 2) : ℚ := if i.val + j.val = a.val + b.val then 1 / 2 else (i.val + a.val) * (j.val + b.val)

/-- `rdm1_unrestricted_closed_shell` applies to amplitudes that are not zero. -/
example : 2 * ccRdm1U (o := fun _ => Fin 2) (v := fun _ => Fin 2) (fun _ _ _ => (1 / 2 : ℚ)) (fun σ τ i j a b => if σ = τ then cT2 i j a b - cT2 i j b a else cT2 i j a b)
      (fun _ _ _ => 1) (fun σ τ i j a b => if σ = τ then cT2 i j a b - cT2 i j b a else cT2 i j a b) .a (.inl (0 : Fin 2)) (.inr (1 : Fin 2)) =
    ccRdm1 (fun _ _ => (1 / 2 : ℚ)) cT2 (fun _ _ => 1) cT2 (.inl (0 : Fin 2)) (.inr (1 : Fin 2)) ∧
    ccRdm1 (fun _ _ => (1 / 2 : ℚ)) cT2 (fun _ _ => 1) cT2 (.inl (0 : Fin 2)) (.inr (1 : Fin 2)) ≠ 0 :=
  ⟨rdm1_unrestricted_closed_shell (o := Fin 2) (v := Fin 2) (by norm_num) (fun _ _ => (1 / 2 : ℚ)) (fun _ _ => 1) cT2 cT2 (by decide +kernel) (by decide +kernel) .a
    (.inl 0) (.inr 1), by decide +kernel⟩

end Vayesta.Props
