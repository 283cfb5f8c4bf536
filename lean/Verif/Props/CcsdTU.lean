import Verif.Lemmas.CcsdTUCluster
import Verif.Lemmas.CcsdTClosed
import Verif.Lemmas.EwfRdmTrace

/-! C86: perturbative triples energies of unrestricted calculations. -/

set_option linter.unusedSectionVars false

namespace Vayesta.Props
open Vayesta.Amplitudes Vayesta.Tensor Vayesta.CcsdT

variable {K : Type} [Field K] {ι oa ob va vb : Type} [Fintype ι] [Fintype oa] [Fintype ob] [Fintype va] [Fintype vb]

private theorem target_of {project : String} (hpr : project = "w" ∨ project = "r") :
    ∃ t : UTarget, ∀ {oa ob va vb : Type} [Fintype oa] [Fintype ob] [Fintype va] [Fintype vb] (h : UHam oa ob va vb K) pa pb,
      h.uccsdT pa pb project false = .ok (h.energy t pa pb) := by
  rcases hpr with rfl | rfl
  · exact ⟨.w, fun _ _ _ => rfl⟩
  · exact ⟨.r, fun _ _ _ => rfl⟩

private theorem eq_delta {n : Type} [DecidableEq n] (f : n → n → K) (h : ∀ i j, (i = j → f i j = 1) ∧ (i ≠ j → f i j = 0)) : f = delta := by
  funext i j
  unfold delta
  split_ifs with e
  · exact (h i j).1 e
  · exact (h i j).2 e

/-- C86 (formula). For any cluster with real integrals and amplitudes that are antisymmetric for equal spins, and any pairs of projectors that add up to the
identity of the occupied space of both spins, the energies of the two projections add up to the spin-orbital expression for the perturbative triples. -/
theorem uccsd_t_partition [CharZero K] (h : UHam oa ob va vb K) (hr : h.Real) (l : List ((oa → oa → K) × (ob → ob → K)))
    (ha : ∀ i j, (i = j → (l.map fun q => q.1 i j).sum = 1) ∧ (i ≠ j → (l.map fun q => q.1 i j).sum = 0))
    (hb : ∀ i j, (i = j → (l.map fun q => q.2 i j).sum = 1) ∧ (i ≠ j → (l.map fun q => q.2 i j).sum = 0)) (project : String)
    (hpr : project = "w" ∨ project = "r") :
    EwfRdm.accumulate (fun q => h.uccsdT q.1 q.2 project false) l = .ok h.so.soTriples := by
  classical
  obtain ⟨t, e⟩ := target_of (K := K) hpr
  rw [EwfRdm.accumulate_ok _ (fun q => h.parts t q.1 q.2) l fun q _ => by rw [e, energy_parts h hr]]
  have := parts_list h t l (fun _ => 1) (fun q => q.1) fun q => q.2
  simp only [one_mul] at this
  rw [this, eq_delta _ ha, eq_delta _ hb, parts_delta h hr]

/-- C86 (rotations). The energy of a fragment does not change if canonical orbitals of both spins are chosen differently: orbitals of equal energy may be mixed,
all may be reordered or change sign. -/
theorem uccsd_t_rotation [CharZero K] [DecidableEq oa] [DecidableEq ob] [DecidableEq va] [DecidableEq vb] {oa' ob' va' vb' : Type} [Fintype oa'] [Fintype ob']
    [Fintype va'] [Fintype vb'] (h : UHam oa ob va vb K) (h' : UHam oa' ob' va' vb' K) (hr : h.Real) (roa : oa → oa' → K) (rob : ob → ob' → K)
    (rva : va → va' → K) (rvb : vb → vb' → K) (H : URotated h h' roa rob rva rvb) (hoa : mm roa (tp roa) = delta) (hob : mm rob (tp rob) = delta)
    (hva : mm rva (tp rva) = delta) (hvb : mm rvb (tp rvb) = delta) (pa : oa → oa → K) (pb : ob → ob → K) (project : String) (hpr : project = "w" ∨ project = "r") :
    h'.uccsdT (mm (tp roa) (mm pa roa)) (mm (tp rob) (mm pb rob)) project false = h.uccsdT pa pb project false := by
  obtain ⟨t, e⟩ := target_of (K := K) hpr
  rw [e, e, energy_parts h hr, energy_parts h' (real_rot H hr), parts_rot H hoa hob hva hvb hr]

/-- C86 (closed shells). In a closed-shell system, written for both spins, the energies add up to the closed-shell expression used by restricted calculations. -/
theorem uccsd_t_closed_shell [CharZero K] {o v : Type} [Fintype o] [Fintype v] (h : Ham o v K) (hr : h.Real)
    (ho : ∀ i a j k, h.ovoo i a k j = h.ovoo i a j k) (l : List ((o → o → K) × (o → o → K)))
    (ha : ∀ i j, (i = j → (l.map fun q => q.1 i j).sum = 1) ∧ (i ≠ j → (l.map fun q => q.1 i j).sum = 0))
    (hb : ∀ i j, (i = j → (l.map fun q => q.2 i j).sum = 1) ∧ (i ≠ j → (l.map fun q => q.2 i j).sum = 0)) (project : String)
    (hpr : project = "w" ∨ project = "r") :
    EwfRdm.accumulate (fun q => h.closedShell.uccsdT q.1 q.2 project false) l = .ok h.triplesEnergy := by
  rw [uccsd_t_partition h.closedShell (closed_real h hr ho) l ha hb project hpr, closed_shell h hr ho]

/-! ## Fragments -/

private def uvalue (s : USys ι oa ob va vb K) (t : UTarget) (x : UFrag ι K) : K :=
  (s.ham x.cOccA x.cOccB x.cVirA x.cVirB x.t1a x.t1b x.t2aa x.t2ab x.t2bb).energy t (x.cfca s) (x.cfcb s)

private theorem uvalue_image (s : USys ι oa ob va vb K) (t : UTarget) (x : UFrag ι K) (U : ι → ι → K) (hU : ULeaves U s) :
    uvalue s t (x.image U) = uvalue s t x := by
  obtain ⟨e1, e2⟩ := uleaves_cfc hU x
  show (s.ham (mm U x.cOccA) (mm U x.cOccB) (mm U x.cVirA) (mm U x.cVirB) x.t1a x.t1b x.t2aa x.t2ab x.t2bb).energy t ((x.image U).cfca s) ((x.image U).cfcb s) = _
  rw [uleaves_ham hU, e1, e2]
  rfl

section Exact
variable [DecidableEq oa] [DecidableEq ob] [DecidableEq va] [DecidableEq vb]

private theorem uvalue_exact [CharZero K] {s : USys ι oa ob va vb K} (hc : UCanonical s) (hg : RealIntegrals s.eri) {t : UAmp oa ob va vb K} (ht : t.Anti)
    (p : UTarget) {x : UFrag ι K} (h : ∃ roa rob rva rvb, UExact s t x roa rob rva rvb) :
    uvalue s p x = (s.mos t).parts p (weightOf s.moOccA s.ovlp x.cFragA) (weightOf s.moOccB s.ovlp x.cFragB) := by
  obtain ⟨roa, rob, rva, rvb, h⟩ := h
  have H := uexact_rotated s hc t x roa rob rva rvb h
  have hr := umos_real s hg t ht
  unfold uvalue
  rw [energy_parts _ (real_rot H hr), cfca_rot s x roa h.occA, cfcb_rot s x rob h.occB, parts_rot H h.spanOccA h.spanOccB h.spanVirA h.spanVirB hr]

/-- C86 (exactness). If the cluster of every fragment, including symmetry images, spans the whole space of both spins, has canonical orbitals and the amplitudes
of the whole system, and the fragments partition the occupied space of both spins, then the energy is the perturbative triples energy of the whole system, per
cell, for both projections. -/
theorem uccsd_t_exact [CharZero K] (s : USys ι oa ob va vb K) (hc : UCanonical s) (hg : RealIntegrals s.eri) (t : UAmp oa ob va vb K) (ht : t.Anti)
    (project : String) (hpr : project = "w" ∨ project = "r") (l : List (UFrag ι K)) (ops : UFrag ι K → List (ι → ι → K))
    (hn : ∀ x ∈ l, x.contributes = true → x.root = true → (ops x).length = x.symmetryFactor)
    (hU : ∀ x ∈ l, ∀ U ∈ ops x, ULeaves U s) (all : List (UFrag ι K))
    (hall : all = (l.filter fun x => x.contributes && x.root).flatMap fun x => (ops x).map fun U => x.image U)
    (hx : ∀ y ∈ all, ∃ roa rob rva rvb, UExact s t y roa rob rva rvb)
    (ha : PartitionsOf s.moOccA s.ovlp (fun x : UFrag ι K => x.fa) (fun x => x.cFragA) all)
    (hb : PartitionsOf s.moOccB s.ovlp (fun x : UFrag ι K => x.fb) (fun x => x.cFragB) all) :
    uccsdTCorrEnergy s project l = .ok ((s.mos t).so.soTriples / s.ncells) := by
  have hmem : ∀ x ∈ l.filter (fun x => x.contributes && x.root), x ∈ l ∧ x.contributes = true ∧ x.root = true := by
    intro x hxm
    simpa using hxm
  obtain ⟨p, hp⟩ := target_of (K := K) hpr
  have hterm : ∀ x ∈ l.filter (fun x => x.contributes && x.root), (do
      let e ← x.ccsdT s project
      pure ((x.symmetryFactor : K) * e) : Except PyErr K) = .ok ((x.symmetryFactor : K) * uvalue s p x) := by
    intro x _
    unfold UFrag.ccsdT
    rw [hp]
    rfl
  unfold uccsdTCorrEnergy
  rw [EwfRdm.accumulate_ok _ _ _ hterm]
  refine congrArg Except.ok (congrArg (· / s.ncells) ?_)
  have e1 : ((l.filter fun x => x.contributes && x.root).map fun x => (x.symmetryFactor : K) * uvalue s p x).sum = (all.map fun y => uvalue s p y).sum := by
    rw [hall, EwfRdm.sum_flatMap']
    refine congrArg List.sum (List.map_congr_left fun x hxm => ?_)
    obtain ⟨hxl, hc, hr⟩ := hmem x hxm
    have hc' : (((ops x).map fun U => x.image U).map fun y => uvalue s p y) = List.replicate (ops x).length (uvalue s p x) := by
      rw [List.map_map, ← List.map_const']
      refine List.map_congr_left fun U hUm => ?_
      exact uvalue_image s p x U (hU x hxl U hUm)
    rw [hc', List.sum_replicate, nsmul_eq_mul, hn x hxl hc hr]
  rw [e1]
  have e2 : (all.map fun y => uvalue s p y) = all.map fun y => (1 : K) * (s.mos t).parts p (weightOf s.moOccA s.ovlp y.cFragA) (weightOf s.moOccB s.ovlp y.cFragB) :=
    List.map_congr_left fun y hy => by rw [uvalue_exact hc hg ht p (hx y hy), one_mul]
  rw [e2, parts_list (s.mos t) p all (fun _ => 1) (fun y => weightOf s.moOccA s.ovlp y.cFragA) fun y => weightOf s.moOccB s.ovlp y.cFragB]
  simp only [one_mul]
  have e3 : (fun i j => (all.map fun y : UFrag ι K => weightOf s.moOccA s.ovlp y.cFragA i j).sum) = delta := eq_delta _ ha
  have e4 : (fun i j => (all.map fun y : UFrag ι K => weightOf s.moOccB s.ovlp y.cFragB i j).sum) = delta := eq_delta _ hb
  rw [e3, e4, parts_delta _ (umos_real s hg t ht)]

/-- C86 (no symmetry). The same for a calculation in which every fragment contributes and stands for itself. -/
theorem uccsd_t_exact_plain [CharZero K] (s : USys ι oa ob va vb K) (hc : UCanonical s) (hg : RealIntegrals s.eri) (t : UAmp oa ob va vb K) (ht : t.Anti)
    (project : String) (hpr : project = "w" ∨ project = "r") (l : List (UFrag ι K))
    (hl : ∀ x ∈ l, x.contributes = true ∧ x.root = true ∧ x.symmetryFactor = 1) (hx : ∀ x ∈ l, ∃ roa rob rva rvb, UExact s t x roa rob rva rvb)
    (ha : PartitionsOf s.moOccA s.ovlp (fun x : UFrag ι K => x.fa) (fun x => x.cFragA) l)
    (hb : PartitionsOf s.moOccB s.ovlp (fun x : UFrag ι K => x.fb) (fun x => x.cFragB) l) :
    uccsdTCorrEnergy s project l = .ok ((s.mos t).so.soTriples / s.ncells) := by
  classical
  have f1 : (l.filter fun x => x.contributes && x.root) = l := List.filter_eq_self.2 fun x hm => by simp [hl x hm]
  have f3 : (l.flatMap fun x => [(delta : ι → ι → K)].map fun U => x.image U) = l := by
    have : ∀ x : UFrag ι K, ([(delta : ι → ι → K)].map fun U => x.image U) = [x] := by
      intro x
      simp only [List.map_cons, List.map_nil, UFrag.image, delta_mm]
    simp only [this]
    exact List.flatMap_singleton' l
  refine uccsd_t_exact s hc hg t ht project hpr l (fun _ => [delta]) (fun x hm _ _ => (hl x hm).2.2.symm) ?_ l (by rw [f1, f3]) hx ha hb
  intro x _ U hU
  rw [List.mem_singleton.1 hU]
  have hd : tp (delta : ι → ι → K) = delta := by
    funext i j
    simp only [tp, delta, eq_comm]
  refine ⟨by rw [hd, delta_mm, mm_delta], by rw [hd, delta_mm, mm_delta], by rw [hd, delta_mm, mm_delta], fun p q r t => ?_⟩
  simp [delta]

/-! ## Calls that fail -/

/-- C86 (integrals). Passing integrals never works. -/
theorem uccsd_t_given_integrals (h : UHam oa ob va vb K) (pa : oa → oa → K) (pb : ob → ob → K) (project : String) :
    h.uccsdT pa pb project true = .error .nameError := by
  unfold UHam.uccsdT
  rw [if_pos rfl]

/-- C86 (projection). A projection other than of `w` or `r` is an error as soon as there is a fragment whose energy is needed; in particular the projection `z` of
restricted calculations does not exist here. -/
theorem uccsd_t_unknown_projection (s : USys ι oa ob va vb K) (project : String) (hw : project ≠ "w") (hz : project ≠ "r") (l : List (UFrag ι K))
    (hl : ∃ x ∈ l, x.contributes = true ∧ x.root = true) : uccsdTCorrEnergy s project l = .error .notImplementedError := by
  have key : ∀ x : UFrag ι K, (do let e ← x.ccsdT s project; pure ((x.symmetryFactor : K) * e) : Except PyErr K) = .error .notImplementedError := by
    intro x
    unfold UFrag.ccsdT UHam.uccsdT
    rw [if_neg (by simp), if_neg hw, if_neg hz]
    rfl
  unfold uccsdTCorrEnergy
  rw [EwfRdm.accumulate_err .notImplementedError]
  · rfl
  · exact fun x _ => .inr (key x)
  · obtain ⟨x, hm, hc, hr⟩ := hl
    exact ⟨x, List.mem_filter.2 ⟨hm, by simp [hc, hr]⟩, key x⟩

end Exact

/-! ## Examples -/

/-- Three electrons, open shell. -/
private def uHam : UHam (Fin 2) (Fin 1) (Fin 2) (Fin 1) ℚ where
  t1a := fun i a => if i = a then 1 else 2
  t1b := fun _ _ => 1
  t2aa := fun i j a b => if i = j ∨ a = b then 0 else if i = a then 1 else -1
  t2ab := fun i _ a _ => if i = a then 2 else 1
  t2bb := fun _ _ _ _ => 0
  fvo := fun _ _ => 0
  fVO := fun _ _ => 0
  eoa := fun i => if i = 0 then -1 else 0
  eob := fun _ => -1
  eva := fun _ => 1
  evb := fun _ => 2
  ovvv := fun i a b c => if i = 0 ∧ b = c then 1 else if a = 0 then 2 else 0
  OVVV := fun _ _ _ _ => 1
  ovVV := fun i a _ _ => if i = a then 1 else 0
  OVvv := fun _ _ b c => if b = c then 1 else 0
  ovoo := fun i a j k => if j = k ∧ i = a then 1 else 0
  OVOO := fun _ _ _ _ => 1
  ovOO := fun i a _ _ => if i = a then 1 else 0
  OVoo := fun _ _ b c => if b = c then 1 else 0
  ovov := fun i a j b => if i = a ∧ j = b then 1 else 0
  OVOV := fun _ _ _ _ => 2
  ovOV := fun i a _ _ => if i = a then 1 else 3

private theorem uHam_real : uHam.Real := ⟨by decide +kernel, by decide +kernel, by decide +kernel, by decide +kernel, by decide +kernel, by decide +kernel,
  by decide +kernel, by decide +kernel⟩

/-- The hypotheses of `uccsd_t_partition` can be met, and the energy is not zero. -/
example : EwfRdm.accumulate (fun q => uHam.uccsdT q.1 q.2 "r" false)
    [((fun i j => if i = 0 ∧ j = 0 then 1 else 0), fun _ _ => 1), ((fun i j => if i = 1 ∧ j = 1 then 1 else 0), fun _ _ => 0)] =
    .ok uHam.so.soTriples ∧ uHam.so.soTriples ≠ 0 :=
  ⟨uccsd_t_partition uHam uHam_real _ (by decide +kernel) (by decide +kernel) "r" (.inr rfl), by decide +kernel⟩

/-- The hypotheses of `uccsd_t_closed_shell` can be met. -/
private def uClosed : Ham (Fin 2) (Fin 2) ℚ where
  t1 := fun i a => if i = a then 1 else 2
  t2 := fun i j a b => if a = i ∧ b = j ∧ i = j then 2 else if a = 0 ∧ b = 0 ∨ i = 0 ∧ j = 0 then 1 else 0
  fvo := fun _ _ => 0
  eo := fun i => if i = 0 then -1 else 0
  ev := fun _ => 1
  ovvv := fun i a b c => if i = 0 ∧ b = c then 1 else if a = 0 then 2 else 0
  ovoo := fun _ _ _ _ => 0
  ovov := fun i a j b => if i = a ∧ j = b then 1 else 0

example : EwfRdm.accumulate (fun q => uClosed.closedShell.uccsdT q.1 q.2 "w" false)
    [((fun i j => if i = 0 ∧ j = 0 then 1 else 0), fun i j => if i = j then 1 else 0), ((fun i j => if i = 1 ∧ j = 1 then 1 else 0), fun _ _ => 0)] =
    .ok uClosed.triplesEnergy ∧ uClosed.triplesEnergy ≠ 0 :=
  ⟨uccsd_t_closed_shell uClosed ⟨by decide +kernel, by decide +kernel, by decide +kernel⟩ (by decide +kernel) _ (by decide +kernel) (by decide +kernel) "w" (.inl rfl),
    by decide +kernel⟩

private def uO : Fin 4 → Fin 2 → ℚ := fun p i => if p.val = i.val then 1 else 0
private def uV : Fin 4 → Fin 2 → ℚ := fun p i => if p.val = i.val + 2 then 1 else 0
private def uS : USys (Fin 4) (Fin 2) (Fin 2) (Fin 2) (Fin 2) ℚ where
  ovlp := delta
  focka := fun p q => if p = q then (if p.val < 2 then -1 else 2) else 0
  fockb := fun p q => if p = q then (if p.val < 2 then -2 else 2) else 0
  eri := fun p q r t => (if p = q then 2 else 1) * (if r = t then 2 else 1)
  moOccA := uO
  moOccB := uO
  moVirA := uV
  moVirB := uV
  ncells := 3
private def uFlip : Fin 2 → Fin 2 → ℚ := fun i j => if i = j then 0 else 1
private def uPerm (q : Fin 4) : Fin 4 := if q = 0 then 1 else if q = 1 then 0 else if q = 2 then 3 else 2
private def uU : Fin 4 → Fin 4 → ℚ := fun p q => if p = uPerm q then 1 else 0
private def uT : UAmp (Fin 2) (Fin 2) (Fin 2) (Fin 2) ℚ where
  t1a := fun i a => if i = a then 1 else 2
  t1b := fun i a => if i = a then 3 else 2
  t2aa := fun i j a b => if i = j ∨ a = b then 0 else if i = a then 1 else -1
  t2ab := fun i j a b => if i = j then 1 else if a = i ∧ b = j then 3 else 0
  t2bb := fun i j a b => if i = j ∨ a = b then 0 else if i = a then 2 else -2
private def uC : Fin 4 → Fin 1 → ℚ := fun p _ => if p.val = 0 then 1 else 0
private def uD : Fin 4 → Fin 1 → ℚ := fun p _ => if p.val = 1 then 1 else 0
private def uFrag : UFrag (Fin 4) ℚ :=
  { fa := Fin 1, fb := Fin 1, coa := Fin 2, cob := Fin 2, cva := Fin 2, cvb := Fin 2, cFragA := uC, cFragB := uD, cOccA := uO, cOccB := uO, cVirA := uV, cVirB := uV,
    t1a := uT.t1a, t1b := uT.t1b, t2aa := uT.t2aa, t2ab := uT.t2ab, t2bb := uT.t2bb, symmetryFactor := 2, root := true, contributes := true }

private theorem u_can : UCanonical uS :=
  have ho : ∀ i j : Fin 2, i ≠ j → mm (tp uO) (mm uS.focka uO) i j = 0 := by decide +kernel
  have hv : ∀ i j : Fin 2, i ≠ j → mm (tp uV) (mm uS.focka uV) i j = 0 := by decide +kernel
  have ho' : ∀ i j : Fin 2, i ≠ j → mm (tp uO) (mm uS.fockb uO) i j = 0 := by decide +kernel
  have hv' : ∀ i j : Fin 2, i ≠ j → mm (tp uV) (mm uS.fockb uV) i j = 0 := by decide +kernel
  ⟨ho, ho', hv, hv'⟩
private theorem u_real : RealIntegrals uS.eri := ⟨by decide +kernel, by decide +kernel⟩
private theorem u_anti : uT.Anti := ⟨by decide +kernel, by decide +kernel⟩
private theorem u_unit : mm (delta : Fin 2 → Fin 2 → ℚ) (tp delta) = delta := by decide +kernel
private theorem u_flip_unit : mm uFlip (tp uFlip) = delta := by decide +kernel
private theorem u_id : UExact uS uT uFrag (delta : Fin 2 → Fin 2 → ℚ) (delta : Fin 2 → Fin 2 → ℚ) (delta : Fin 2 → Fin 2 → ℚ) (delta : Fin 2 → Fin 2 → ℚ) :=
  ⟨(by decide +kernel : uO = mm uO delta), (by decide +kernel : uO = mm uO delta), (by decide +kernel : uV = mm uV delta), (by decide +kernel : uV = mm uV delta),
    u_unit, u_unit, u_unit, u_unit, u_can.occA, u_can.occB, u_can.virA, u_can.virB,
    (by decide +kernel : uT.t1a = EwfEnergy.restrict1 delta delta uT.t1a), (by decide +kernel : uT.t1b = EwfEnergy.restrict1 delta delta uT.t1b),
    (by decide +kernel : ∀ i j a b, uT.t2aa i j a b = ∑ I, ∑ J, ∑ A, ∑ B, delta I i * delta J j * delta A a * delta B b * uT.t2aa I J A B),
    (by decide +kernel : ∀ i j a b, uT.t2ab i j a b = ∑ I, ∑ J, ∑ A, ∑ B, delta I i * delta J j * delta A a * delta B b * uT.t2ab I J A B),
    (by decide +kernel : ∀ i j a b, uT.t2bb i j a b = ∑ I, ∑ J, ∑ A, ∑ B, delta I i * delta J j * delta A a * delta B b * uT.t2bb I J A B)⟩
private theorem u_flip : UExact uS uT (uFrag.image uU) uFlip uFlip uFlip uFlip :=
  ⟨(by decide +kernel : mm uU uO = mm uO uFlip), (by decide +kernel : mm uU uO = mm uO uFlip), (by decide +kernel : mm uU uV = mm uV uFlip),
    (by decide +kernel : mm uU uV = mm uV uFlip), u_flip_unit, u_flip_unit, u_flip_unit, u_flip_unit,
    (show ∀ i j : Fin 2, i ≠ j → mm (tp (mm uU uO)) (mm uS.focka (mm uU uO)) i j = 0 by decide +kernel),
    (show ∀ i j : Fin 2, i ≠ j → mm (tp (mm uU uO)) (mm uS.fockb (mm uU uO)) i j = 0 by decide +kernel),
    (show ∀ i j : Fin 2, i ≠ j → mm (tp (mm uU uV)) (mm uS.focka (mm uU uV)) i j = 0 by decide +kernel),
    (show ∀ i j : Fin 2, i ≠ j → mm (tp (mm uU uV)) (mm uS.fockb (mm uU uV)) i j = 0 by decide +kernel),
    (by decide +kernel : uT.t1a = EwfEnergy.restrict1 uFlip uFlip uT.t1a), (by decide +kernel : uT.t1b = EwfEnergy.restrict1 uFlip uFlip uT.t1b),
    (by decide +kernel : ∀ i j a b, uT.t2aa i j a b = ∑ I, ∑ J, ∑ A, ∑ B, uFlip I i * uFlip J j * uFlip A a * uFlip B b * uT.t2aa I J A B),
    (by decide +kernel : ∀ i j a b, uT.t2ab i j a b = ∑ I, ∑ J, ∑ A, ∑ B, uFlip I i * uFlip J j * uFlip A a * uFlip B b * uT.t2ab I J A B),
    (by decide +kernel : ∀ i j a b, uT.t2bb i j a b = ∑ I, ∑ J, ∑ A, ∑ B, uFlip I i * uFlip J j * uFlip A a * uFlip B b * uT.t2bb I J A B)⟩
private theorem u_image : uFrag.image delta = uFrag := by
  simp only [UFrag.image, delta_mm]
private theorem u_leaves : ULeaves uU uS := by
  refine ⟨by decide +kernel, by decide +kernel, by decide +kernel, fun p q r t => ?_⟩
  simp only [← Finset.mul_sum]
  simp only [uU, ite_mul, one_mul, zero_mul, Finset.sum_ite_eq', Finset.mem_univ, if_true]
  have h : ∀ a b, uPerm a = uPerm b ↔ a = b := by decide
  simp only [uS, h]
private theorem u_leaves' : ULeaves delta uS := by
  refine ⟨by decide +kernel, by decide +kernel, by decide +kernel, fun p q r t => ?_⟩
  simp only [← Finset.mul_sum]
  simp only [delta, ite_mul, one_mul, zero_mul, Finset.sum_ite_eq', Finset.mem_univ, if_true]

/-- The hypotheses of `uccsd_t_exact` can be met: one fragment that stands for two. -/
example (project : String) (hpr : project = "w" ∨ project = "r") : uccsdTCorrEnergy uS project [uFrag] = .ok ((uS.mos uT).so.soTriples / 3) := by
  refine uccsd_t_exact uS u_can u_real uT u_anti project hpr [uFrag] (fun _ => [delta, uU]) ?_ ?_ [uFrag, uFrag.image uU] ?_ ?_ ?_ ?_
  · intro x hx _ _
    rw [List.mem_singleton.1 hx]
    rfl
  · intro x _ U hU
    rcases List.mem_cons.1 hU with rfl | h
    · exact u_leaves'
    · rw [List.mem_singleton.1 h]; exact u_leaves
  · show _ = [uFrag.image delta, uFrag.image uU]
    rw [u_image]
  · intro y hy
    rcases List.mem_cons.1 hy with rfl | h
    · exact ⟨delta, delta, delta, delta, u_id⟩
    · rw [List.mem_singleton.1 h]; exact ⟨uFlip, uFlip, uFlip, uFlip, u_flip⟩
  · show ∀ i j : Fin 2, (i = j → ([uC, mm uU uC].map fun c => ∑ y, mm (tp uO) (mm uS.ovlp c) i y * mm (tp uO) (mm uS.ovlp c) j y).sum = 1) ∧
      (i ≠ j → ([uC, mm uU uC].map fun c => ∑ y, mm (tp uO) (mm uS.ovlp c) i y * mm (tp uO) (mm uS.ovlp c) j y).sum = 0)
    decide +kernel
  · show ∀ i j : Fin 2, (i = j → ([uD, mm uU uD].map fun c => ∑ y, mm (tp uO) (mm uS.ovlp c) i y * mm (tp uO) (mm uS.ovlp c) j y).sum = 1) ∧
      (i ≠ j → ([uD, mm uU uD].map fun c => ∑ y, mm (tp uO) (mm uS.ovlp c) i y * mm (tp uO) (mm uS.ovlp c) j y).sum = 0)
    decide +kernel

/-- The hypothesis of `uccsd_t_unknown_projection` can be met. -/
example : uccsdTCorrEnergy uS "z" [uFrag] = .error .notImplementedError :=
  uccsd_t_unknown_projection uS "z" (by decide) (by decide) [uFrag] ⟨uFrag, by simp, rfl, rfl⟩

/-- The hypotheses of `uccsd_t_rotation` can be met. -/
example (pa : Fin 2 → Fin 2 → ℚ) (pb : Fin 2 → Fin 2 → ℚ) :
    (uS.ham (mm uU uO) (mm uU uO) (mm uU uV) (mm uU uV) uT.t1a uT.t1b uT.t2aa uT.t2ab uT.t2bb).uccsdT (mm (tp uFlip) (mm pa uFlip)) (mm (tp uFlip) (mm pb uFlip)) "w" false =
      (uS.mos uT).uccsdT pa pb "w" false :=
  uccsd_t_rotation (uS.mos uT) _ (umos_real uS u_real uT u_anti) uFlip uFlip uFlip uFlip (uexact_rotated uS u_can uT (uFrag.image uU) uFlip uFlip uFlip uFlip u_flip)
    u_flip_unit u_flip_unit u_flip_unit u_flip_unit pa pb "w" (.inl rfl)

end Vayesta.Props
