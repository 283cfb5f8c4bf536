import Verif.Props.Icmp2
import Verif.Lemmas.Icmp2USpin

/-! C92, unrestricted calculations: they are restricted ones in spin orbitals, and the energy is that of pairs of fragments. -/

set_option linter.unusedSectionVars false

namespace Vayesta.Props
open Vayesta.Icmp2 Vayesta.Tensor

variable {K : Type} [Field K] {ι L N o v o' v' : Type} [Fintype ι] [Fintype L] [Fintype N] [Fintype o] [Fintype v] [Fintype o'] [Fintype v']

/-- A fragment in spin orbitals. -/
private def spinRoot (x : URoot ι L K) : Root (ι ⊕ ι) L K :=
  ⟨x.tag, x.alpha.spin x.beta, x.children.map fun y => ⟨y.tag, y.direct, y.op.spin, blocks y.cProjA y.cProjB⟩⟩

private theorem map_filter_map {A B : Type} {C : Type _} (l : List A) (g : A → B) (p : B → Bool) (F : B → C) (q : A → Bool) (G : A → C) (hp : ∀ x, p (g x) = q x)
    (hF : ∀ x, F (g x) = G x) : ((l.map g).filter p).map F = (l.filter q).map G := by
  rw [List.filter_map, List.map_map]
  rw [show p ∘ g = q from funext hp, show F ∘ g = G from funext hF]

private theorem any_of_map {A B : Type} (l : List A) (g : A → B) (p : B → Bool) (q : A → Bool) (hp : ∀ x, p (g x) = q x) : (l.map g).any p = l.any q := by
  rw [List.any_map, show p ∘ g = q from funext hp]

private theorem spin_partners (s : Icmp2.Sys ι L N K) (fA fB : ι → ι → K) (l : List (URoot ι L K)) :
    (l.map spinRoot).flatMap (Root.partners s.spin (blocks fA fB)) = (l.flatMap (URoot.partners s fA fB)).map (Except.map UPartner.spin) := by
  induction l with
  | nil => rfl
  | cons x t ih =>
    rw [List.map_cons, List.flatMap_cons, ih, List.flatMap_cons, List.map_append]
    congr 1
    unfold URoot.partners Root.partners
    rw [List.map_append]
    congr 1
    · show (if x.tag.passes = true then _ else _) = _
      by_cases h : x.tag.passes = true
      · rw [if_pos h, if_pos h]
        show [Except.ok (Partner.mk x.tag (blocks x.alpha.cProj x.beta.cProj) ((x.alpha.spin x.beta).own s.spin (blocks fA fB)))] = [Except.ok _]
        rw [own_spin]
        rfl
      · rw [if_neg h, if_neg h]; rfl
    · rw [List.map_map]
      refine map_filter_map x.children _ _ _ _ _ (fun _ => rfl) fun y => ?_
      show (if (x.tag.passes && y.direct) = true then _ else _) = Except.map UPartner.spin (if (x.tag.passes && y.direct) = true then _ else _)
      by_cases h : (x.tag.passes && y.direct) = true
      · rw [if_pos h, if_pos h]
        show Except.ok (Partner.mk y.tag (blocks y.cProjA y.cProjB) ((x.alpha.spin x.beta).related s.spin (blocks fA fB) y.op.spin)) = Except.ok _
        rw [related_spin]
        rfl
      · rw [if_neg h, if_neg h]; rfl

private theorem spin_setup (l : List (URoot ι L K)) : setup (l.map spinRoot) = setupU l := by
  unfold setupU setup
  rw [List.any_map]
  have : ((fun x : Root (ι ⊕ ι) L K => x.tag.passes && x.children.any fun y => y.tag.passes && y.direct && !y.op.translation) ∘ spinRoot) =
      fun x : URoot ι L K => x.tag.passes && x.children.any fun y => y.tag.passes && y.direct && !y.op.translation := by
    funext x
    exact congrArg (fun b => x.tag.passes && b) (any_of_map x.children _ _ _ fun _ => rfl)
  rw [this]

private def args (d e : Bool) : Args := ⟨some "vir", d, e, 1, .yes, fun _ => true⟩

private def scale (p : K × K) : K × K := (4 * p.1, 2 * p.2)

private theorem spin_turn (h2 : (2 : K) ≠ 0) (s : Icmp2.Sys ι L N K) (fA fB : ι → ι → K) (d e : Bool) (x : URoot ι L K) (q : Except PyErr (UPartner ι L N K)) :
    turn s.spin (blocks fA fB) (args d e) .vir (spinRoot x) (q.map UPartner.spin) = (turnU s fA fB d e x q).map fun p => [scale p] := by
  cases q with
  | error err => rfl
  | ok y =>
    show Except.ok [weigh (args d e) (spinRoot x) y.spin (pair s.spin (blocks fA fB) .vir 1 (x.alpha.spin x.beta) y.spin)] = Except.ok [scale (weighU d e x y (pairU s fA fB x y))]
    rw [pair_spin h2]
    have hl : (spinRoot x).children.length = x.children.length := List.length_map ..
    unfold weigh weighU scale Root.symmetryFactor
    rw [hl]
    show Except.ok [(x.tag.symFactor * ((x.children.length + 1 : Nat) : K) * y.alpha.tag.symFactor * (if d = true then _ else 0),
      x.tag.symFactor * ((x.children.length + 1 : Nat) : K) * y.alpha.tag.symFactor * (if e = true then _ else 0))] = _
    cases d <;> cases e <;> simp [mul_left_comm]

private theorem mapM_map_ok {A B C D : Type _} (f : A → Except PyErr B) (g : C → A) (f' : C → Except PyErr D) (u : D → B) (h : ∀ c, f (g c) = (f' c).map u) (l : List C) :
    (l.map g).mapM f = (l.mapM f').map (List.map u) := by
  induction l with
  | nil => rfl
  | cons c t ih =>
    rw [List.map_cons, List.mapM_cons, List.mapM_cons, ih, h]
    cases f' c with
    | error _ => rfl
    | ok b => cases t.mapM f' <;> rfl

private theorem flatten_single {A B : Type _} (u : A → B) (l : List A) : (l.map fun p => [u p]).flatten = l.map u := by
  induction l with
  | nil => rfl
  | cons a t ih => rw [List.map_cons, List.flatten_cons, ih]; rfl

private theorem spin_row (h2 : (2 : K) ≠ 0) (s : Icmp2.Sys ι L N K) (fA fB : ι → ι → K) (d e : Bool) (l : List (URoot ι L K)) (x : URoot ι L K) :
    row s.spin (blocks fA fB) (args d e) .vir (l.map spinRoot) (spinRoot x) =
      ((l.flatMap (URoot.partners s fA fB)).mapM (turnU s fA fB d e x)).map (List.map scale) := by
  unfold row
  rw [spin_partners, mapM_map_ok _ _ _ _ (spin_turn h2 s fA fB d e x)]
  cases (l.flatMap (URoot.partners s fA fB)).mapM (turnU s fA fB d e x) with
  | error _ => rfl
  | ok r =>
    show Except.ok ((r.map fun p => [scale p]).flatten) = _
    rw [flatten_single]
    rfl

private def uRows (s : Icmp2.Sys ι L N K) (fA fB : ι → ι → K) (d e : Bool) (l : List (URoot ι L K)) : Except PyErr (List (List (K × K))) :=
  (l.filter fun x => x.tag.passes).mapM fun x => (l.flatMap (URoot.partners s fA fB)).mapM (turnU s fA fB d e x)

private theorem spin_rows (h2 : (2 : K) ≠ 0) (s : Icmp2.Sys ι L N K) (fA fB : ι → ι → K) (d e : Bool) (l : List (URoot ι L K)) :
    ((l.map spinRoot).filter fun x => x.tag.passes && (args d e).sel x.tag.id).mapM (row s.spin (blocks fA fB) (args d e) .vir (l.map spinRoot)) =
      (uRows s fA fB d e l).map (List.map (List.map scale)) := by
  have hc : (l.map spinRoot).filter (fun x => x.tag.passes && (args d e).sel x.tag.id) = (l.filter fun x => x.tag.passes).map spinRoot := by
    rw [List.filter_map]
    congr 1
    exact List.filter_congr fun x _ => Bool.and_true _
  rw [hc]
  exact mapM_map_ok _ _ _ _ (spin_row h2 s fA fB d e l) _

private theorem scale_sums (r : List (List (K × K))) :
    (((r.map (List.map scale)).flatten).map Prod.fst).sum = 4 * (r.flatten.map Prod.fst).sum ∧ (((r.map (List.map scale)).flatten).map Prod.snd).sum = 2 * (r.flatten.map Prod.snd).sum ∧
      ((r.map (List.map scale)).flatten).isEmpty = r.flatten.isEmpty := by
  rw [← List.map_flatten]
  refine ⟨?_, ?_, by cases r.flatten <;> rfl⟩
  · rw [List.map_map]
    show (r.flatten.map fun p => 4 * p.1).sum = _
    rw [List.sum_map_mul_left]
  · rw [List.map_map]
    show (r.flatten.map fun p => 2 * p.2).sum = _
    rw [List.sum_map_mul_left]

private theorem spin_energy (h2 : (2 : K) ≠ 0) (s : Icmp2.Sys ι L N K) (hdf : s.hasDf = true) (fA fB : ι → ι → K) (d e : Bool) (l : List (URoot ι L K)) :
    (∃ err, setupU l = .error err ∧ energyRhf s.spin (blocks fA fB) (args d e) (l.map spinRoot) = .error err ∧ energyUhf s fA fB (some "vir") d e l = .error err) ∨
    setupU l = .ok () ∧
    ((∃ err, uRows s fA fB d e l = .error err ∧ energyRhf s.spin (blocks fA fB) (args d e) (l.map spinRoot) = .error err ∧ energyUhf s fA fB (some "vir") d e l = .error err) ∨
     ∃ r, uRows s fA fB d e l = .ok r ∧
      energyRhf s.spin (blocks fA fB) (args d e) (l.map spinRoot) = (if r.flatten.isEmpty then .error .nameError else .ok (4 * (r.flatten.map Prod.fst).sum / s.ncells + 2 * (r.flatten.map Prod.snd).sum / s.ncells)) ∧
      energyUhf s fA fB (some "vir") d e l = (if r.flatten.isEmpty then .error .nameError else .ok ((r.flatten.map Prod.fst).sum / s.ncells + (r.flatten.map Prod.snd).sum / s.ncells))) := by
  have hR : energyRhf s.spin (blocks fA fB) (args d e) (l.map spinRoot) = (do
      setupU l
      let rows ← (uRows s fA fB d e l).map (List.map (List.map scale))
      if rows.flatten.isEmpty then .error .nameError
      pure ((rows.flatten.map Prod.fst).sum / (s.ncells : K) + (rows.flatten.map Prod.snd).sum / (s.ncells : K))) := by
    unfold energyRhf
    rw [spin_setup]
    show (do
      let dc ← Except.ok Dc.vir
      if !s.hasDf then Except.error PyErr.runtimeError
      setupU l
      let rows ← ((l.map spinRoot).filter fun x : Root (ι ⊕ ι) L K => x.tag.passes && (args d e).sel x.tag.id).mapM (row s.spin (blocks fA fB) (args d e) dc (l.map spinRoot))
      if rows.flatten.isEmpty then .error .nameError
      pure ((rows.flatten.map Prod.fst).sum / (s.ncells : K) + (rows.flatten.map Prod.snd).sum / (s.ncells : K))) = _
    rw [hdf, ← spin_rows h2]
    rfl
  have hU : energyUhf s fA fB (some "vir") d e l = (do
      setupU l
      let rows ← uRows s fA fB d e l
      if rows.flatten.isEmpty then .error .nameError
      pure ((rows.flatten.map Prod.fst).sum / (s.ncells : K) + (rows.flatten.map Prod.snd).sum / (s.ncells : K))) := by
    unfold energyUhf
    rw [hdf]
    rfl
  rw [hR, hU]
  cases setupU l with
  | error err => exact .inl ⟨err, rfl, rfl, rfl⟩
  | ok u =>
    refine .inr ⟨rfl, ?_⟩
    cases uRows s fA fB d e l with
    | error err => exact .inl ⟨err, rfl, rfl, rfl⟩
    | ok r =>
      refine .inr ⟨r, rfl, ?_, ?_⟩
      · show (do
          if ((r.map (List.map scale)).flatten).isEmpty then .error .nameError
          pure ((((r.map (List.map scale)).flatten).map Prod.fst).sum / (s.ncells : K) + (((r.map (List.map scale)).flatten).map Prod.snd).sum / (s.ncells : K)) : Except PyErr K) = _
        rw [(scale_sums r).1, (scale_sums r).2.1, (scale_sums r).2.2]
        cases r.flatten.isEmpty <;> rfl
      · show (do
          if (r.flatten).isEmpty then .error .nameError
          pure (((r.flatten).map Prod.fst).sum / (s.ncells : K) + ((r.flatten).map Prod.snd).sum / (s.ncells : K)) : Except PyErr K) = _
        cases r.flatten.isEmpty <;> rfl

private theorem turnU_split (s : Icmp2.Sys ι L N K) (fA fB : ι → ι → K) (d e : Bool) (x : URoot ι L K) (q : Except PyErr (UPartner ι L N K)) :
    turnU s fA fB d e x q = (turnU s fA fB true true x q).map fun p => (if d then p.1 else 0, if e then p.2 else 0) := by
  cases q with
  | error _ => rfl
  | ok y => cases d <;> cases e <;> simp [turnU, weighU, Except.map]

private theorem uRows_split (s : Icmp2.Sys ι L N K) (fA fB : ι → ι → K) (d e : Bool) (l : List (URoot ι L K)) :
    uRows s fA fB d e l = (uRows s fA fB true true l).map (List.map (List.map fun p => (if d then p.1 else 0, if e then p.2 else 0))) := by
  unfold uRows
  have h : ∀ x, (l.flatMap (URoot.partners s fA fB)).mapM (turnU s fA fB d e x) =
      ((l.flatMap (URoot.partners s fA fB)).mapM (turnU s fA fB true true x)).map (List.map fun p => (if d then p.1 else 0, if e then p.2 else 0)) := by
    intro x
    have := mapM_map_ok (turnU s fA fB d e x) id (turnU s fA fB true true x) _ (fun c => turnU_split s fA fB d e x c) (l.flatMap (URoot.partners s fA fB))
    rwa [List.map_id] at this
  have := mapM_map_ok (fun x => (l.flatMap (URoot.partners s fA fB)).mapM (turnU s fA fB d e x)) id (fun x => (l.flatMap (URoot.partners s fA fB)).mapM (turnU s fA fB true true x)) _ h
    (l.filter fun x => x.tag.passes)
  rwa [List.map_id] at this

private theorem sum_zero_map {A : Type _} (l : List A) : (l.map fun _ => (0 : K)).sum = 0 := by
  induction l with
  | nil => rfl
  | cons a t ih => rw [List.map_cons, List.sum_cons, ih, add_zero]

private theorem energyU_split (s : Icmp2.Sys ι L N K) (hdf : s.hasDf = true) (fA fB : ι → ι → K) (d e : Bool) (l : List (URoot ι L K)) {r : List (List (K × K))}
    (hs : setupU l = .ok ()) (hr : uRows s fA fB true true l = .ok r) (hne : r.flatten.isEmpty = false) :
    energyUhf s fA fB (some "vir") d e l = .ok ((if d then (r.flatten.map Prod.fst).sum else 0) / s.ncells + (if e then (r.flatten.map Prod.snd).sum else 0) / s.ncells) := by
  have hu : uRows s fA fB d e l = .ok (r.map (List.map fun p => (if d then p.1 else 0, if e then p.2 else 0))) := by rw [uRows_split, hr]; rfl
  have hU : energyUhf s fA fB (some "vir") d e l = (do
      setupU l
      let rows ← uRows s fA fB d e l
      if rows.flatten.isEmpty then .error .nameError
      pure ((rows.flatten.map Prod.fst).sum / (s.ncells : K) + (rows.flatten.map Prod.snd).sum / (s.ncells : K))) := by
    unfold energyUhf
    rw [hdf]
    rfl
  rw [hU, hs, hu]
  show (do
    if ((r.map (List.map fun p : K × K => (if d then p.1 else 0, if e then p.2 else 0))).flatten).isEmpty then .error .nameError
    pure ((((r.map (List.map fun p : K × K => (if d then p.1 else 0, if e then p.2 else 0))).flatten).map Prod.fst).sum / (s.ncells : K) +
      (((r.map (List.map fun p : K × K => (if d then p.1 else 0, if e then p.2 else 0))).flatten).map Prod.snd).sum / (s.ncells : K)) : Except PyErr K) = _
  rw [← List.map_flatten]
  have he : (r.flatten.map fun p : K × K => (if d then p.1 else 0, if e then p.2 else 0)).isEmpty = false := by
    rw [← hne]; cases r.flatten <;> rfl
  rw [he, List.map_map, List.map_map]
  show Except.ok ((r.flatten.map fun p => if d = true then p.1 else 0).sum / _ + (r.flatten.map fun p => if e = true then p.2 else 0).sum / _) = _
  have h1 : (r.flatten.map fun p : K × K => if d = true then p.1 else 0).sum = if d = true then (r.flatten.map Prod.fst).sum else 0 := by
    cases d
    · exact sum_zero_map _
    · rfl
  have h2 : (r.flatten.map fun p : K × K => if e = true then p.2 else 0).sum = if e = true then (r.flatten.map Prod.snd).sum else 0 := by
    cases e
    · exact sum_zero_map _
    · rfl
  rw [h1, h2]

private theorem spin_family [DecidableEq L] {s : Icmp2.Sys ι L N K} {m : Mf ι o v K} {m' : Mf ι o' v' K} {l : List (URoot ι L K)} (hF : ∀ x ∈ l, UFamily s m m' x) :
    ∀ x ∈ l.map spinRoot, Family s.spin (m.spin m') x := by
  intro x hx
  obtain ⟨u, hu, rfl⟩ := List.mem_map.1 hx
  refine ⟨(hF u hu).passes, (hF u hu).factor, fun y hy => ?_⟩
  have hy' : y ∈ u.children.map fun y => (⟨y.tag, y.direct, y.op.spin, blocks y.cProjA y.cProjB⟩ : Child (ι ⊕ ι) L (u.alpha.f ⊕ u.beta.f) K) := hy
  obtain ⟨c, hc, rfl⟩ := List.mem_map.1 hy'
  obtain ⟨h1, h2, h3, h4, h5, h6, h7⟩ := (hF u hu).child c hc
  refine ⟨h1, h2, h3, ?_, leaves_spin h6 h7⟩
  show blocks c.cProjA c.cProjB = mm (blocks c.op.ao c.op.ao) (blocks u.alpha.cProj u.beta.cProj)
  rw [mm_blocks, h4, h5]

private theorem map_three {A B C D E : Type _} (l : List A) (g : A → B) (F : B → C) (u : C → D) (G : A → E) (w : E → D) (h : ∀ a, u (F (g a)) = w (G a)) :
    ((l.map g).map F).map u = (l.map G).map w := by
  rw [List.map_map, List.map_map, List.map_map]
  exact List.map_congr_left fun a _ => h a

private theorem spin_members (x : URoot ι L K) : (spinRoot x).members.map Prod.snd = x.members.map fun Y => Y.1.spin Y.2 := by
  have h0 : (spinRoot x).chan.region = x.alpha.region.spin x.beta.region := region_spin x.alpha x.beta
  unfold Root.members URoot.members
  rw [List.map_cons, List.map_cons]
  congr 1
  refine map_three x.children _ _ _ _ _ fun y => ?_
  show (spinRoot x).chan.region.image (blocks y.op.ao y.op.ao) = (x.alpha.region.image y.op.ao).spin (x.beta.region.image y.op.ao)
  rw [h0, image_spin]

private theorem spin_all (l : List (URoot ι L K)) : ((l.map spinRoot).flatMap Root.members).map Prod.snd = (l.flatMap URoot.members).map fun Y => Y.1.spin Y.2 := by
  induction l with
  | nil => rfl
  | cons x t ih => rw [List.map_cons, List.flatMap_cons, List.flatMap_cons, List.map_append, List.map_append, ih, spin_members]

private theorem energyR_split (h2 : (2 : K) ≠ 0) (s : Icmp2.Sys ι L N K) (hdf : s.hasDf = true) (fA fB : ι → ι → K) (d e : Bool) (l : List (URoot ι L K)) {E : K}
    (h : energyRhf s.spin (blocks fA fB) (args d e) (l.map spinRoot) = .ok E) :
    ∃ r, setupU l = .ok () ∧ uRows s fA fB true true l = .ok r ∧ r.flatten.isEmpty = false ∧
      E = 4 * ((if d then (r.flatten.map Prod.fst).sum else 0) / s.ncells) + 2 * ((if e then (r.flatten.map Prod.snd).sum else 0) / s.ncells) := by
  rcases spin_energy h2 s hdf fA fB d e l with ⟨err, _, hR, _⟩ | ⟨hset, ⟨err, _, hR, _⟩ | ⟨r', hu, hR, _⟩⟩
  · rw [hR] at h; cases h
  · rw [hR] at h; cases h
  · rw [uRows_split] at hu
    cases hr : uRows s fA fB true true l with
    | error err => rw [hr] at hu; cases hu
    | ok r =>
      rw [hr] at hu
      have hr' : r' = r.map (List.map fun p => (if d then p.1 else 0, if e then p.2 else 0)) := (Except.ok.inj hu).symm
      rw [hR] at h
      have hm : r'.flatten = r.flatten.map fun p => (if d then p.1 else 0, if e then p.2 else 0) := by rw [hr', List.map_flatten]
      have he : r'.flatten.isEmpty = r.flatten.isEmpty := by rw [hm]; cases r.flatten <;> rfl
      have h1 : (r'.flatten.map Prod.fst).sum = if d = true then (r.flatten.map Prod.fst).sum else 0 := by
        rw [hm, List.map_map]
        cases d
        · exact sum_zero_map _
        · rfl
      have h2 : (r'.flatten.map Prod.snd).sum = if e = true then (r.flatten.map Prod.snd).sum else 0 := by
        rw [hm, List.map_map]
        cases e
        · exact sum_zero_map _
        · rfl
      rw [he, h1, h2] at h
      cases hem : r.flatten.isEmpty with
      | true => rw [hem] at h; cases h
      | false =>
        rw [hem] at h
        refine ⟨r, hset, rfl, hem, ?_⟩
        have := Except.ok.inj h
        rw [← this, mul_div_assoc, mul_div_assoc]

private theorem spin_sum (s : Icmp2.Sys ι L N K) (m : Mf ι o v K) (m' : Mf ι o' v' K) [DecidableEq v] [DecidableEq v'] (l : List (URoot ι L K)) (d e : Bool) (c : K)
    (hc : ∀ x x' y y' : Region ι K, pairEnergy s.spin (m.spin m') d e .vir (x.spin x') (y.spin y') = c * spinPair s m m' d e (x, x') (y, y')) :
    (((l.map spinRoot).filter fun x => (args d e).sel x.tag.id).map fun x => ((x.children.length + 1 : Nat) : K) *
      ((((l.map spinRoot).flatMap Root.members).filter fun Y => (args d e).diagonal.keeps x.tag.id Y.1).map fun Y => pairEnergy s.spin (m.spin m') d e .vir x.chan.region Y.2).sum).sum =
    c * (l.map fun x => ((x.children.length + 1 : Nat) : K) * ((l.flatMap URoot.members).map fun Y => spinPair s m m' d e x.region Y).sum).sum := by
  have hf : ((l.map spinRoot).filter fun x => (args d e).sel x.tag.id) = l.map spinRoot := List.filter_eq_self.2 fun _ _ => rfl
  rw [hf, List.map_map, ← List.sum_map_mul_left]
  refine congrArg List.sum (List.map_congr_left fun x _ => ?_)
  have hk : (((l.map spinRoot).flatMap Root.members).filter fun Y => (args d e).diagonal.keeps (spinRoot x).tag.id Y.1) = (l.map spinRoot).flatMap Root.members :=
    List.filter_eq_self.2 fun _ _ => rfl
  have hl : (spinRoot x).children.length = x.children.length := List.length_map ..
  show (((spinRoot x).children.length + 1 : Nat) : K) * ((((l.map spinRoot).flatMap Root.members).filter fun Y => (args d e).diagonal.keeps (spinRoot x).tag.id Y.1).map
    fun Y => pairEnergy s.spin (m.spin m') d e .vir (spinRoot x).chan.region Y.2).sum = _
  have h0 : (spinRoot x).chan.region = x.alpha.region.spin x.beta.region := region_spin x.alpha x.beta
  rw [hk, hl, h0]
  have hm : (((l.map spinRoot).flatMap Root.members).map fun Y => pairEnergy s.spin (m.spin m') d e .vir (x.alpha.region.spin x.beta.region) Y.2) =
      ((l.flatMap URoot.members).map fun Y => c * spinPair s m m' d e x.region Y) := by
    have h := congrArg (List.map fun Y => pairEnergy s.spin (m.spin m') d e .vir (x.alpha.region.spin x.beta.region) Y) (spin_all l)
    rw [List.map_map, List.map_map] at h
    refine h.trans (List.map_congr_left fun Y _ => ?_)
    exact hc _ _ _ _
  rw [hm, List.sum_map_mul_left]
  ring

/-- C92 (pairs, unrestricted). If the spaces for the amplitudes of both spins are exact, the energy of an unrestricted calculation is the sum over pairs of fragments, each with its
energy in the whole system: four direct terms, for the spins of both electrons, and two exchange terms. -/
theorem icmp2_unrestricted_pairs [DecidableEq L] [DecidableEq o] [DecidableEq v] [DecidableEq o'] [DecidableEq v'] (h2 : (2 : K) ≠ 0) {s : Icmp2.Sys ι L N K} {m : Mf ι o v K}
    {m' : Mf ι o' v' K} (hm : Icmp2.Canonical s m) (hm' : Icmp2.Canonical s m') (hdf : s.hasDf = true) (l : List (URoot ι L K)) (hF : ∀ x ∈ l, UFamily s m m' x)
    (hE : ∀ x ∈ l, (∃ ro rv, Icmp2.Exact s m x.alpha ro rv) ∧ ∃ ro rv, Icmp2.Exact s m' x.beta ro rv) (d e : Bool) (hl : l ≠ []) :
    energyUhf s m.fock m'.fock (some "vir") d e l =
      .ok ((l.map fun x => ((x.children.length + 1 : Nat) : K) * ((l.flatMap URoot.members).map fun Y => spinPair s m m' d e x.region Y).sum).sum / s.ncells) := by
  have hE' : ∀ x ∈ l.map spinRoot, ∃ ro rv, Icmp2.Exact s.spin (m.spin m') x.chan ro rv := by
    intro x hx
    obtain ⟨u, hu, rfl⟩ := List.mem_map.1 hx
    obtain ⟨⟨ro, rv, h⟩, ro', rv', h'⟩ := hE u hu
    exact ⟨blocks ro ro', blocks rv rv', exact_spin h h'⟩
  have hne : ∀ d e, ∃ x ∈ l.map spinRoot, (args d e).sel x.tag.id = true ∧ ∃ Y ∈ (l.map spinRoot).flatMap Root.members, (args d e).diagonal.keeps x.tag.id Y.1 = true := by
    intro d e
    obtain ⟨x, t, rfl⟩ := List.exists_cons_of_ne_nil hl
    exact ⟨spinRoot x, List.mem_cons_self .., rfl, _, List.mem_flatMap.2 ⟨spinRoot x, List.mem_cons_self .., List.mem_cons_self ..⟩, rfl⟩
  have hp : ∀ d e, _ := fun d e => icmp2_pairs (canonical_spin hm hm') (s := s.spin) hdf (l.map spinRoot) (spin_family hF) hE' (args d e) .vir rfl (.inl (.inl rfl)) (hne d e)
  have h4 : (4 : K) ≠ 0 := by
    have : (4 : K) = 2 * 2 := by norm_num
    rw [this]
    exact mul_ne_zero h2 h2
  obtain ⟨r, hset, hr, hem, hD⟩ := energyR_split h2 s hdf m.fock m'.fock true false l (hp true false)
  obtain ⟨r', _, hr', _, hX⟩ := energyR_split h2 s hdf m.fock m'.fock false true l (hp false true)
  have : r' = r := Except.ok.inj (hr'.symm.trans hr)
  subst this
  have hD' := hD
  have hX' := hX
  have hsD := spin_sum s m m' l true false 4 (fun x x' y y' => pairEnergy_direct s m m' h2 x x' y y')
  have hsX := spin_sum s m m' l false true 2 (fun x x' y y' => pairEnergy_exchange s m m' h2 x x' y y')
  rw [energyU_split s hdf m.fock m'.fock d e l hset hr hem]
  have eD : (r'.flatten.map Prod.fst).sum / (s.ncells : K) =
      (l.map fun x => ((x.children.length + 1 : Nat) : K) * ((l.flatMap URoot.members).map fun Y => spinPair s m m' true false x.region Y).sum).sum / s.ncells := by
    have : 4 * ((r'.flatten.map Prod.fst).sum / (s.ncells : K)) = 4 * ((l.map fun x => ((x.children.length + 1 : Nat) : K) *
        ((l.flatMap URoot.members).map fun Y => spinPair s m m' true false x.region Y).sum).sum / s.ncells) := by
      have h := hD'.symm
      simp only [if_true, if_false, Bool.false_eq_true, zero_div, mul_zero, add_zero] at h
      exact h.trans ((congrArg (· / (s.ncells : K)) hsD).trans (mul_div_assoc ..))
    exact mul_left_cancel₀ h4 this
  have eX : (r'.flatten.map Prod.snd).sum / (s.ncells : K) =
      (l.map fun x => ((x.children.length + 1 : Nat) : K) * ((l.flatMap URoot.members).map fun Y => spinPair s m m' false true x.region Y).sum).sum / s.ncells := by
    have : 2 * ((r'.flatten.map Prod.snd).sum / (s.ncells : K)) = 2 * ((l.map fun x => ((x.children.length + 1 : Nat) : K) *
        ((l.flatMap URoot.members).map fun Y => spinPair s m m' false true x.region Y).sum).sum / s.ncells) := by
      have h := hX'.symm
      simp only [if_true, if_false, Bool.false_eq_true, zero_div, mul_zero, zero_add] at h
      exact h.trans ((congrArg (· / (s.ncells : K)) hsX).trans (mul_div_assoc ..))
    exact mul_left_cancel₀ h2 this
  refine congrArg Except.ok ?_
  have hz : (l.map fun x => ((x.children.length + 1 : Nat) : K) * ((l.flatMap URoot.members).map fun Y => spinPair s m m' false false x.region Y).sum).sum = 0 := by
    have : ∀ X Y, spinPair s m m' false false X Y = 0 := fun X Y => by unfold spinPair; simp
    simp only [this, sum_zero_map, mul_zero]
  cases d <;> cases e
  · rw [hz]; simp
  · simpa using eX
  · simpa using eD
  · have hs : ∀ X Y, spinPair s m m' true true X Y = spinPair s m m' true false X Y + spinPair s m m' false true X Y := fun X Y => by unfold spinPair; simp
    simp only [hs, List.sum_map_add, mul_add, add_div]
    exact congrArg₂ (· + ·) eD eX

/-! ## Example

Three orbitals, with two electrons of spin up and one of spin down, and one fragment; its cluster has all occupied orbitals and no virtual one. -/

private def exS : Icmp2.Sys (Fin 3) (Fin 1) (Fin 1) ℚ where
  ovlp := delta
  cderi := fun _ p q => (p.val + q.val + p.val * q.val : ℕ)
  neg := none
  ncells := 1
  hasDf := true

private def exUp : Mf (Fin 3) (Fin 2) (Fin 1) ℚ where
  fock := fun i j => if i = j then (i.val : ℚ) - 3/2 else 0
  moOcc := fun i j => if i.val = j.val then 1 else 0
  moVir := fun i _ => if i = 2 then 1 else 0

private def exDown : Mf (Fin 3) (Fin 1) (Fin 2) ℚ where
  fock := fun i j => if i = j then (i.val : ℚ) - 1/2 else 0
  moOcc := fun i _ => if i = 0 then 1 else 0
  moVir := fun i j => if i.val = j.val + 1 then 1 else 0

private def exChanUp : Chan (Fin 3) ℚ where
  f := Fin 3
  o := Fin 2
  v := Fin 1
  a := Fin 2
  av := Fin 0
  cProj := delta
  cOcc := exUp.moOcc
  cVir := exUp.moVir
  cActive := exUp.moOcc
  cActiveVir := fun _ _ => 0

private def exChanDown : Chan (Fin 3) ℚ where
  f := Fin 3
  o := Fin 1
  v := Fin 2
  a := Fin 1
  av := Fin 0
  cProj := delta
  cOcc := exDown.moOcc
  cVir := exDown.moVir
  cActive := exDown.moOcc
  cActiveVir := fun _ _ => 0

private def exRoot : URoot (Fin 3) (Fin 1) ℚ := ⟨⟨0, true, true, 1⟩, exChanUp, exChanDown, []⟩

private theorem ex_up : Icmp2.Canonical exS exUp where
  symm := by funext i j; revert i j; decide +kernel
  occ := by funext i j; revert i j; decide +kernel
  vir := by funext i j; revert i j; decide +kernel
  fockOcc := by decide +kernel
  fockVir := by decide +kernel

private theorem ex_down : Icmp2.Canonical exS exDown where
  symm := by funext i j; revert i j; decide +kernel
  occ := by funext i j; revert i j; decide +kernel
  vir := by funext i j; revert i j; decide +kernel
  fockOcc := by decide +kernel
  fockVir := by decide +kernel

private theorem eigen_delta {n : Type} [Fintype n] [DecidableEq n] (e : n → ℚ) : Eigen e (delta : n → n → ℚ) where
  norm := fun i => by simp [delta]
  eig := ⟨e, fun I i => by
    unfold delta
    by_cases h : I = i
    · rw [if_pos h, h]; ring
    · rw [if_neg h]; ring⟩

private theorem ex_exact_up : Icmp2.Exact exS exUp exChanUp (delta : Fin 2 → Fin 2 → ℚ) (delta : Fin 1 → Fin 1 → ℚ) where
  occ := (mm_delta exUp.moOcc).symm
  vir := (mm_delta exUp.moVir).symm
  eigOcc := eigen_delta _
  eigVir := eigen_delta _
  covers := by
    have : mm (delta : Fin 2 → Fin 2 → ℚ) (tp delta) = delta := by funext i j; revert i j; decide +kernel
    exact (congrArg (mm _) this).trans (mm_delta _)
  spans := by
    have : mm (delta : Fin 1 → Fin 1 → ℚ) (tp delta) = delta := by funext i j; revert i j; decide +kernel
    exact this

private theorem ex_exact_down : Icmp2.Exact exS exDown exChanDown (delta : Fin 1 → Fin 1 → ℚ) (delta : Fin 2 → Fin 2 → ℚ) where
  occ := (mm_delta exDown.moOcc).symm
  vir := (mm_delta exDown.moVir).symm
  eigOcc := eigen_delta _
  eigVir := eigen_delta _
  covers := by
    have : mm (delta : Fin 1 → Fin 1 → ℚ) (tp delta) = delta := by funext i j; revert i j; decide +kernel
    exact (congrArg (mm _) this).trans (mm_delta _)
  spans := by
    have : mm (delta : Fin 2 → Fin 2 → ℚ) (tp delta) = delta := by funext i j; revert i j; decide +kernel
    exact this

example : ∃ e, energyUhf exS exUp.fock exDown.fock (some "vir") true true [exRoot] = .ok e ∧ e ≠ 0 := by
  refine ⟨_, icmp2_unrestricted_pairs (by norm_num) ex_up ex_down rfl [exRoot] ?_ ?_ true true (by simp), ?_⟩
  · intro x hx
    rw [List.mem_singleton] at hx
    subst hx
    refine ⟨rfl, rfl, fun y hy => ?_⟩
    have : y ∈ ([] : List (UChild (Fin 3) (Fin 1) (Fin 3) (Fin 3) ℚ)) := hy
    cases this
  · intro x hx
    rw [List.mem_singleton] at hx
    subst hx
    exact ⟨⟨_, _, ex_exact_up⟩, _, _, ex_exact_down⟩
  · show (((0 + 1 : Nat) : ℚ) * (spinPair exS exUp exDown true true (exChanUp.region, exChanDown.region) (exChanUp.region, exChanDown.region) + 0) + 0) / ((1 : Nat) : ℚ) ≠ 0
    decide +kernel

end Vayesta.Props
