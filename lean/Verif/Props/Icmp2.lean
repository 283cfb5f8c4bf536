import Verif.Lemmas.Icmp2Image
import Verif.Model.Icmp2U

/-! C92: the intercluster MP2 energy. -/

set_option linter.unusedSectionVars false

namespace Vayesta.Props
open Vayesta.Tensor Vayesta.Icmp2

variable {K : Type} [Field K] {ι L N o v : Type} [Fintype ι] [Fintype L] [Fintype N] [Fintype o] [Fintype v]

/-! ## The loops -/

/-- The energies of all pairs of the loops. -/
private def entries (s : Icmp2.Sys ι L N K) (fock : ι → ι → K) (a : Args) (dc : Dc) (ps : List (Partner ι L N K)) (xs : List (Root ι L K)) : List (K × K) :=
  xs.flatMap fun x => (ps.filter fun y => a.diagonal.keeps x.tag.id y.tag.id).map fun y => weigh a x y (pair s fock dc a.vers x.chan y)

private theorem row_ok {s : Icmp2.Sys ι L N K} {fock : ι → ι → K} (a : Args) (dc : Dc) {l : List (Root ι L K)} {ps : List (Partner ι L N K)}
    (h : l.flatMap (Root.partners s fock) = ps.map .ok) (x : Root ι L K) :
    row s fock a dc l x = .ok ((ps.filter fun y => a.diagonal.keeps x.tag.id y.tag.id).map fun y => weigh a x y (pair s fock dc a.vers x.chan y)) := by
  unfold row
  rw [h]
  have e : ∀ ps : List (Partner ι L N K), (ps.map Except.ok).mapM (turn s fock a dc x) =
      (.ok (ps.map fun y => if a.diagonal.keeps x.tag.id y.tag.id then [weigh a x y (pair s fock dc a.vers x.chan y)] else []) : Except PyErr _) := by
    intro ps
    induction ps with
    | nil => rfl
    | cons y t ih =>
      rw [List.map_cons, List.mapM_cons, ih]
      rfl
  rw [e]
  show Except.ok _ = _
  refine congrArg Except.ok ?_
  induction ps generalizing l with
  | nil => rfl
  | cons y t ih =>
    rw [List.map_cons, List.flatten_cons]
    have ih' : (t.map fun y => if a.diagonal.keeps x.tag.id y.tag.id then [weigh a x y (pair s fock dc a.vers x.chan y)] else []).flatten =
        (t.filter fun y => a.diagonal.keeps x.tag.id y.tag.id).map fun y => weigh a x y (pair s fock dc a.vers x.chan y) := by
      clear h ih e
      induction t with
      | nil => rfl
      | cons z t ih =>
        rw [List.map_cons, List.flatten_cons, ih]
        by_cases h : a.diagonal.keeps x.tag.id z.tag.id = true
        · rw [if_pos h, List.filter_cons_of_pos (by simpa using h)]; rfl
        · rw [if_neg h, List.filter_cons_of_neg (by simpa using h)]; rfl
    rw [ih']
    by_cases h : a.diagonal.keeps x.tag.id y.tag.id = true
    · rw [if_pos h, List.filter_cons_of_pos (by simpa using h)]; rfl
    · rw [if_neg h, List.filter_cons_of_neg (by simpa using h)]; rfl

private theorem mapM_rows {s : Icmp2.Sys ι L N K} {fock : ι → ι → K} (a : Args) (dc : Dc) {l : List (Root ι L K)} {ps : List (Partner ι L N K)}
    (h : l.flatMap (Root.partners s fock) = ps.map .ok) (xs : List (Root ι L K)) :
    ∃ rows, xs.mapM (row s fock a dc l) = .ok rows ∧ rows.flatten = entries s fock a dc ps xs := by
  induction xs with
  | nil => exact ⟨[], rfl, rfl⟩
  | cons x t ih =>
    obtain ⟨rows, h1, h2⟩ := ih
    refine ⟨((ps.filter fun y => a.diagonal.keeps x.tag.id y.tag.id).map fun y => weigh a x y (pair s fock dc a.vers x.chan y)) :: rows, ?_, ?_⟩
    · rw [List.mapM_cons, row_ok a dc h x, h1]
      rfl
    · rw [List.flatten_cons, h2]
      rfl

/-- The result of the function if nothing fails. -/
private theorem energy_eq {s : Icmp2.Sys ι L N K} {fock : ι → ι → K} {a : Args} {dc : Dc} {l : List (Root ι L K)} {ps : List (Partner ι L N K)}
    (hdc : Dc.parse a.projectDc = .ok dc) (hdf : s.hasDf = true) (hset : setup l = .ok ()) (h : l.flatMap (Root.partners s fock) = ps.map .ok) :
    energyRhf s fock a l =
      if (entries s fock a dc ps (l.filter fun x => x.tag.passes && a.sel x.tag.id)).isEmpty then .error .nameError else
        .ok (((entries s fock a dc ps (l.filter fun x => x.tag.passes && a.sel x.tag.id)).map Prod.fst).sum / (s.ncells : K) +
          ((entries s fock a dc ps (l.filter fun x => x.tag.passes && a.sel x.tag.id)).map Prod.snd).sum / (s.ncells : K)) := by
  obtain ⟨rows, h1, h2⟩ := mapM_rows a dc h (l.filter fun x => x.tag.passes && a.sel x.tag.id)
  unfold energyRhf
  rw [hdc]
  simp only [hdf, Bool.not_true, hset]
  show (do
    let rows ← (l.filter fun x => x.tag.passes && a.sel x.tag.id).mapM (row s fock a dc l)
    if rows.flatten.isEmpty then Except.error PyErr.nameError
    pure ((rows.flatten.map Prod.fst).sum / (s.ncells : K) + (rows.flatten.map Prod.snd).sum / (s.ncells : K)) : Except PyErr K) = _
  rw [h1, ← h2]
  show (do
    if rows.flatten.isEmpty then Except.error PyErr.nameError
    pure ((rows.flatten.map Prod.fst).sum / (s.ncells : K) + (rows.flatten.map Prod.snd).sum / (s.ncells : K)) : Except PyErr K) = _
  by_cases h : rows.flatten.isEmpty = true
  · rw [if_pos h, if_pos h]; rfl
  · rw [if_neg h, if_neg h]; rfl

private theorem parse_name (dc : Dc) : Dc.parse dc.name = .ok dc := by
  cases dc <;> rfl

private theorem mapM_turn {s : Icmp2.Sys ι L N K} {fock : ι → ι → K} {a : Args} {dc : Dc} {x : Root ι L K} (l : List (Except PyErr (Partner ι L N K))) (r : List (List (K × K)))
    (h : l.mapM (turn s fock a dc x) = .ok r) : ∃ ps : List (Partner ι L N K), l = ps.map .ok := by
  induction l generalizing r with
  | nil => exact ⟨[], rfl⟩
  | cons y t ih =>
    rw [List.mapM_cons] at h
    cases y with
    | error e => cases h
    | ok y =>
      cases ht : t.mapM (turn s fock a dc x) with
      | error e => rw [ht] at h; cases h
      | ok r' =>
        obtain ⟨ps, hps⟩ := ih r' ht
        exact ⟨y :: ps, by rw [List.map_cons, hps]⟩

/-- If the function returns, nothing failed on the way. -/
private theorem energy_inv {s : Icmp2.Sys ι L N K} {fock : ι → ι → K} {a : Args} {l : List (Root ι L K)} {e : K} (h : energyRhf s fock a l = .ok e) :
    ∃ dc ps, Dc.parse a.projectDc = .ok dc ∧ s.hasDf = true ∧ setup l = .ok () ∧ l.flatMap (Root.partners s fock) = List.map .ok ps := by
  unfold energyRhf at h
  cases hdc : Dc.parse a.projectDc with
  | error x => rw [hdc] at h; cases h
  | ok dc =>
    cases hdf : s.hasDf with
    | false => rw [hdc, hdf] at h; cases h
    | true =>
      cases hset : setup l with
      | error x => rw [hdc, hdf, hset] at h; cases h
      | ok u =>
        rw [hdc, hdf, hset] at h
        cases hr : (l.filter fun x => x.tag.passes && a.sel x.tag.id).mapM (row s fock a dc l) with
        | error x =>
          have h' : (do
            let rows ← (l.filter fun x => x.tag.passes && a.sel x.tag.id).mapM (row s fock a dc l)
            if rows.flatten.isEmpty then Except.error PyErr.nameError
            pure ((rows.flatten.map Prod.fst).sum / (s.ncells : K) + (rows.flatten.map Prod.snd).sum / (s.ncells : K)) : Except PyErr K) = .ok e := h
          rw [hr] at h'
          cases h'
        | ok rows =>
          cases hxs : l.filter fun x => x.tag.passes && a.sel x.tag.id with
          | nil =>
            have h' : (do
              let rows ← (l.filter fun x => x.tag.passes && a.sel x.tag.id).mapM (row s fock a dc l)
              if rows.flatten.isEmpty then Except.error PyErr.nameError
              pure ((rows.flatten.map Prod.fst).sum / (s.ncells : K) + (rows.flatten.map Prod.snd).sum / (s.ncells : K)) : Except PyErr K) = .ok e := h
            rw [hxs] at h'
            cases h'
          | cons x t =>
            rw [hxs, List.mapM_cons] at hr
            cases hx : row s fock a dc l x with
            | error y => rw [hx] at hr; cases hr
            | ok r =>
              unfold row at hx
              cases hm : (l.flatMap (Root.partners s fock)).mapM (turn s fock a dc x) with
              | error y => rw [hm] at hx; cases hx
              | ok es =>
                obtain ⟨ps, hps⟩ := mapM_turn _ _ hm
                exact ⟨dc, ps, rfl, rfl, rfl, hps⟩

private theorem entries_fst_snd (n : K) (q : List (K × K)) : (q.map Prod.fst).sum / n + (q.map Prod.snd).sum / n = (q.map fun p => p.1 + p.2).sum / n := by
  rw [← add_div]
  congr 1
  induction q with
  | nil => simp
  | cons p t ih =>
    simp only [List.map_cons, List.sum_cons, ← ih]
    ring

/-- The sum of all energies. -/
private def total (s : Icmp2.Sys ι L N K) (fock : ι → ι → K) (a : Args) (dc : Dc) (ps : List (Partner ι L N K)) (xs : List (Root ι L K)) : K :=
  (xs.map fun x => ((ps.filter fun y => a.diagonal.keeps x.tag.id y.tag.id).map fun y =>
    (weigh a x y (pair s fock dc a.vers x.chan y)).1 + (weigh a x y (pair s fock dc a.vers x.chan y)).2).sum).sum

private theorem entries_total (s : Icmp2.Sys ι L N K) (fock : ι → ι → K) (a : Args) (dc : Dc) (ps : List (Partner ι L N K)) (xs : List (Root ι L K)) :
    ((entries s fock a dc ps xs).map fun p => p.1 + p.2).sum = total s fock a dc ps xs := by
  unfold entries total
  induction xs with
  | nil => rfl
  | cons x t ih =>
    rw [List.flatMap_cons, List.map_append, List.sum_append, ih, List.map_cons, List.sum_cons, List.map_map]
    rfl

/-- The energy if nothing fails and there is at least one pair. -/
private theorem energy_total {s : Icmp2.Sys ι L N K} {fock : ι → ι → K} {a : Args} {dc : Dc} {l : List (Root ι L K)} {ps : List (Partner ι L N K)}
    (hdc : Dc.parse a.projectDc = .ok dc) (hdf : s.hasDf = true) (hset : setup l = .ok ()) (h : l.flatMap (Root.partners s fock) = ps.map .ok)
    (hne : ∃ x ∈ l, x.tag.passes = true ∧ a.sel x.tag.id = true ∧ ∃ y ∈ ps, a.diagonal.keeps x.tag.id y.tag.id = true) :
    energyRhf s fock a l = .ok (total s fock a dc ps (l.filter fun x => x.tag.passes && a.sel x.tag.id) / (s.ncells : K)) := by
  rw [energy_eq hdc hdf hset h, if_neg, entries_fst_snd, entries_total]
  obtain ⟨x, hx, h1, h2, y, hy, h3⟩ := hne
  intro hem
  rw [List.isEmpty_iff] at hem
  have : weigh a x y (pair s fock dc a.vers x.chan y) ∈ entries s fock a dc ps (l.filter fun x => x.tag.passes && a.sel x.tag.id) :=
    List.mem_flatMap.2 ⟨x, List.mem_filter.2 ⟨hx, by simp [h1, h2]⟩, List.mem_map.2 ⟨y, List.mem_filter.2 ⟨hy, h3⟩, rfl⟩⟩
  rw [hem] at this
  cases this

/-- The energy of a call that returns, and what is known about the call. -/
private theorem energy_ok {s : Icmp2.Sys ι L N K} {fock : ι → ι → K} {a : Args} {l : List (Root ι L K)} {e : K} (h : energyRhf s fock a l = .ok e) :
    ∃ dc ps, Dc.parse a.projectDc = .ok dc ∧ s.hasDf = true ∧ setup l = .ok () ∧ l.flatMap (Root.partners s fock) = List.map .ok ps ∧
      (∃ x ∈ l, x.tag.passes = true ∧ a.sel x.tag.id = true ∧ ∃ y ∈ ps, a.diagonal.keeps x.tag.id y.tag.id = true) ∧
      e = total s fock a dc ps (l.filter fun x => x.tag.passes && a.sel x.tag.id) / (s.ncells : K) := by
  obtain ⟨dc, ps, h1, h2, h3, h4⟩ := energy_inv h
  refine ⟨dc, ps, h1, h2, h3, h4, ?_, ?_⟩
  · rw [energy_eq h1 h2 h3 h4] at h
    by_cases hem : (entries s fock a dc ps (l.filter fun x => x.tag.passes && a.sel x.tag.id)).isEmpty = true
    · rw [if_pos hem] at h; cases h
    · rw [List.isEmpty_iff] at hem
      obtain ⟨p, hp⟩ := List.exists_mem_of_ne_nil _ hem
      obtain ⟨x, hx, hp⟩ := List.mem_flatMap.1 hp
      obtain ⟨y, hy, _⟩ := List.mem_map.1 hp
      obtain ⟨hx1, hx2⟩ := List.mem_filter.1 hx
      obtain ⟨hy1, hy2⟩ := List.mem_filter.1 hy
      simp only [Bool.and_eq_true] at hx2
      exact ⟨x, hx1, hx2.1, hx2.2, y, hy1, hy2⟩
  · rw [energy_eq h1 h2 h3 h4] at h
    by_cases hem : (entries s fock a dc ps (l.filter fun x => x.tag.passes && a.sel x.tag.id)).isEmpty = true
    · rw [if_pos hem] at h; cases h
    · rw [if_neg hem, entries_fst_snd, entries_total] at h
      exact (Except.ok.inj h).symm

/-! ## Exact spaces for the amplitudes -/

section Exact
variable [DecidableEq L] [DecidableEq o] [DecidableEq v]

/-- The fragments of a family as if none of them was related by symmetry. -/
private def chans (x : Root ι L K) : List (Tag K × Chan ι K) := (x.tag, x.chan) :: x.children.map fun y => (y.tag, x.chan.image y.op.ao)

private def partner (s : Icmp2.Sys ι L N K) (fock : ι → ι → K) (p : Tag K × Chan ι K) : Partner ι L N K := ⟨p.1, p.2.cProj, p.2.own s fock⟩

private theorem partners_family {s : Icmp2.Sys ι L N K} {m : Mf ι o v K} {x : Root ι L K} (h : Family s m x) :
    x.partners s m.fock = (chans x).map fun p => .ok (partner s m.fock p) := by
  unfold Root.partners chans
  rw [if_pos h.passes, List.map_cons, List.map_map, List.filter_eq_self.2 fun y hy => (h.child y hy).1]
  show _ :: x.children.map _ = _ :: x.children.map _
  refine congrArg₂ List.cons rfl (List.map_congr_left fun y hy => ?_)
  obtain ⟨_, _, h3, h4, h5⟩ := h.child y hy
  rw [if_pos (by simp [h.passes, h3]), h4, related_eq h5]
  rfl

private theorem partners_all {s : Icmp2.Sys ι L N K} {m : Mf ι o v K} {l : List (Root ι L K)} (h : ∀ x ∈ l, Family s m x) :
    l.flatMap (Root.partners s m.fock) = ((l.flatMap chans).map (partner s m.fock)).map .ok := by
  induction l with
  | nil => rfl
  | cons x t ih =>
    rw [List.flatMap_cons, List.flatMap_cons, List.map_append, List.map_append, ih fun y hy => h y (List.mem_cons_of_mem _ hy), partners_family (h x (List.mem_cons_self ..))]
    simp only [List.map_map]
    rfl

private theorem setup_family {s : Icmp2.Sys ι L N K} {m : Mf ι o v K} {l : List (Root ι L K)} (h : ∀ x ∈ l, Family s m x) : setup l = .ok () := by
  unfold setup
  rw [if_neg]
  intro hh
  obtain ⟨x, hx, h1⟩ := List.any_eq_true.1 hh
  simp only [Bool.and_eq_true, List.any_eq_true] at h1
  obtain ⟨_, y, hy, h2⟩ := h1
  have := ((h x hx).child y hy).2.2.2.2.trans
  simp [this] at h2

private theorem members_eq (x : Root ι L K) : x.members = (chans x).map fun p => (p.1.id, p.2.region) := by
  unfold Root.members chans
  rw [List.map_cons, List.map_map]
  refine congrArg₂ List.cons rfl (List.map_congr_left fun y _ => ?_)
  show (y.tag.id, x.chan.region.image y.op.ao) = (y.tag.id, (x.chan.image y.op.ao).region)
  rw [Chan.region_image]

private theorem members_all (l : List (Root ι L K)) : l.flatMap Root.members = (l.flatMap chans).map fun p => (p.1.id, p.2.region) := by
  induction l with
  | nil => rfl
  | cons x t ih => rw [List.flatMap_cons, List.flatMap_cons, List.map_append, ih, members_eq]

private theorem chans_exact {s : Icmp2.Sys ι L N K} {m : Mf ι o v K} (hs : Icmp2.Canonical s m) {l : List (Root ι L K)} (hF : ∀ x ∈ l, Family s m x)
    (hE : ∀ x ∈ l, ∃ ro rv, Icmp2.Exact s m x.chan ro rv) : ∀ p ∈ l.flatMap chans, p.1.symFactor = 1 ∧ ∃ ro rv, Icmp2.Exact s m p.2 ro rv := by
  intro p hp
  obtain ⟨x, hx, hp⟩ := List.mem_flatMap.1 hp
  unfold chans at hp
  rcases List.mem_cons.1 hp with rfl | hp
  · exact ⟨(hF x hx).factor, hE x hx⟩
  · obtain ⟨y, hy, rfl⟩ := List.mem_map.1 hp
    obtain ⟨_, h2, _, _, h5⟩ := (hF x hx).child y hy
    exact ⟨h2, exact_image hs h5 (hE x hx)⟩

/-- C92 (pairs). If the spaces for the amplitudes are exact, the energy is a sum over pairs of fragments, each with its energy in the whole system: over all fragments
`x` without symmetry parent, times the number of fragments related to them, and all fragments `Y`, those related by symmetry included. -/
theorem icmp2_pairs {s : Icmp2.Sys ι L N K} {m : Mf ι o v K} (hs : Icmp2.Canonical s m) (hdf : s.hasDf = true) (l : List (Root ι L K)) (hF : ∀ x ∈ l, Family s m x)
    (hE : ∀ x ∈ l, ∃ ro rv, Icmp2.Exact s m x.chan ro rv) (a : Args) (dc : Dc) (hdc : a.projectDc = dc.name)
    (hv : (a.vers = 1 ∨ a.vers = 2) ∨ dc = .both ∨ dc = .none)
    (hne : ∃ x ∈ l, a.sel x.tag.id = true ∧ ∃ Y ∈ l.flatMap Root.members, a.diagonal.keeps x.tag.id Y.1 = true) :
    energyRhf s m.fock a l = .ok (((l.filter fun x => a.sel x.tag.id).map fun x => ((x.children.length + 1 : Nat) : K) *
      (((l.flatMap Root.members).filter fun Y => a.diagonal.keeps x.tag.id Y.1).map fun Y => pairEnergy s m a.direct a.exchange dc x.chan.region Y.2).sum).sum / s.ncells) := by
  have hex := chans_exact hs hF hE
  rw [energy_total (dc := dc) (by rw [hdc, parse_name]) hdf (setup_family hF) (partners_all hF)]
  · have hfil : (l.filter fun x => x.tag.passes && a.sel x.tag.id) = l.filter fun x => a.sel x.tag.id :=
      List.filter_congr fun x hx => by rw [(hF x hx).passes, Bool.true_and]
    rw [hfil]
    unfold total
    congr 2
    refine congrArg List.sum (List.map_congr_left fun x hx => ?_)
    have hxl := (List.mem_filter.1 hx).1
    rw [members_all, List.filter_map, List.filter_map, List.map_map, List.map_map, ← List.sum_map_mul_left]
    refine congrArg List.sum (List.map_congr_left fun p hp => ?_)
    obtain ⟨h1, h2⟩ := hex p (List.mem_filter.1 hp).1
    show (weigh a x (partner s m.fock p) (pair s m.fock dc a.vers x.chan (partner s m.fock p))).1 + (weigh a x (partner s m.fock p) (pair s m.fock dc a.vers x.chan (partner s m.fock p))).2 =
      ((x.children.length + 1 : Nat) : K) * pairEnergy s m a.direct a.exchange dc x.chan.region p.2.region
    have hp := pair_exact hs (hE x hxl) h2 dc a.vers hv p.1
    rw [show pair s m.fock dc a.vers x.chan (partner s m.fock p) = _ from hp]
    unfold weigh
    dsimp only [partner]
    rw [(hF x hxl).factor, h1, one_mul, mul_one, ← mul_add]
    unfold pairEnergy Root.symmetryFactor
    rw [part_split (m.whole s) a.direct a.exchange]
  · obtain ⟨x, hx, h1, Y, hY, h2⟩ := hne
    rw [members_all] at hY
    obtain ⟨p, hp, rfl⟩ := List.mem_map.1 hY
    exact ⟨x, hx, (hF x hx).passes, h1, partner s m.fock p, List.mem_map.2 ⟨p, hp, rfl⟩, h2⟩

private theorem part_sum (w : Whole o v K) (d x : Bool) (P : o → o → K) (Q : v → v → K) {A : Type} (l : List A) (W : A → o → o → K) :
    (l.map fun Y => w.part d x P (W Y) Q).sum = w.part d x P (fun i j => (l.map fun Y => W Y i j).sum) Q := by
  induction l with
  | nil => simp [Whole.part]
  | cons y t ih =>
    rw [List.map_cons, List.sum_cons, ih]
    simp only [Whole.part, List.map_cons, List.sum_cons, add_mul, Finset.sum_add_distrib, mul_add]

private theorem part_sum' (w : Whole o v K) (d x : Bool) (W : o → o → K) (Q : v → v → K) {A : Type} (l : List A) (P : A → o → o → K) :
    (l.map fun Y => w.part d x (P Y) W Q).sum = w.part d x (fun i j => (l.map fun Y => P Y i j).sum) W Q := by
  induction l with
  | nil => simp [Whole.part]
  | cons y t ih =>
    rw [List.map_cons, List.sum_cons, ih]
    simp only [Whole.part, List.map_cons, List.sum_cons, add_mul, Finset.sum_add_distrib, mul_add]

private theorem part_delta (w : Whole o v K) (d x : Bool) : w.part d x delta delta delta = w.mp2 d x := by
  unfold Whole.part Whole.mp2
  refine Finset.sum_congr rfl fun i _ => Finset.sum_congr rfl fun j _ => Finset.sum_congr rfl fun a _ => Finset.sum_congr rfl fun b _ => ?_
  simp only [sum_delta]

/-- What is the same for related fragments can be summed over all fragments. -/
private theorem unfold_sum (l : List (Root ι L K)) (G : Region ι K → K) (h : ∀ x ∈ l, ∀ y ∈ x.children, G (x.chan.region.image y.op.ao) = G x.chan.region) :
    (l.map fun x => ((x.children.length + 1 : Nat) : K) * G x.chan.region).sum = ((l.flatMap Root.members).map fun X => G X.2).sum := by
  induction l with
  | nil => rfl
  | cons x t ih =>
    rw [List.map_cons, List.sum_cons, ih fun x hx => h x (List.mem_cons_of_mem _ hx), List.flatMap_cons, List.map_append, List.sum_append]
    congr 1
    have h1 : x.children.map (fun y => G (x.chan.region.image y.op.ao)) = x.children.map fun _ => G x.chan.region :=
      List.map_congr_left fun y hy => h x (List.mem_cons_self ..) y hy
    unfold Root.members
    rw [List.map_cons, List.map_map, List.sum_cons]
    show _ = G x.chan.region + (x.children.map fun y => G (x.chan.region.image y.op.ao)).sum
    rw [h1, List.map_const', List.sum_replicate, nsmul_eq_mul]
    push_cast
    ring

private theorem filter_all {A : Type _} (l : List A) (p : A → Bool) (h : ∀ x ∈ l, p x = true) : l.filter p = l := List.filter_eq_self.2 h

/-- C92 (symmetry). Over all pairs of fragments: the result is the sum over all pairs, as if there was no symmetry. -/
theorem icmp2_symmetry {s : Icmp2.Sys ι L N K} {m : Mf ι o v K} (hs : Icmp2.Canonical s m) (hdf : s.hasDf = true) (l : List (Root ι L K)) (hF : ∀ x ∈ l, Family s m x)
    (hE : ∀ x ∈ l, ∃ ro rv, Icmp2.Exact s m x.chan ro rv) (hP : Permuted l) (a : Args) (dc : Dc) (hdc : a.projectDc = dc.name)
    (hv : (a.vers = 1 ∨ a.vers = 2) ∨ dc = .both ∨ dc = .none) (hd : a.diagonal = .yes) (hsel : ∀ i, a.sel i = true) (hl : l ≠ []) :
    energyRhf s m.fock a l = .ok (((l.flatMap Root.members).map fun X =>
      ((l.flatMap Root.members).map fun Y => pairEnergy s m a.direct a.exchange dc X.2 Y.2).sum).sum / s.ncells) := by
  have hkeep : ∀ i j, a.diagonal.keeps i j = true := by intro i j; rw [hd]; rfl
  rw [icmp2_pairs hs hdf l hF hE a dc hdc hv]
  · rw [filter_all l _ fun x _ => hsel _]
    simp only [filter_all _ _ fun (Y : Nat × Region ι K) _ => hkeep _ Y.1]
    rw [unfold_sum l (fun X => ((l.flatMap Root.members).map fun Y => pairEnergy s m a.direct a.exchange dc X Y.2).sum) fun x hx y hy => ?_]
    have hu := ((hF x hx).child y hy).2.2.2.2
    have h1 := ((hP x hx y hy).map fun D => pairEnergy s m a.direct a.exchange dc (x.chan.region.image y.op.ao) ⟨D, D, D⟩).sum_eq
    rw [List.map_map, List.map_map] at h1
    refine Eq.trans h1.symm (congrArg List.sum (List.map_congr_left fun Y _ => ?_))
    exact pairEnergy_image hs hu a.direct a.exchange dc x.chan.region Y.2
  · obtain ⟨x, t, rfl⟩ := List.exists_cons_of_ne_nil hl
    exact ⟨x, List.mem_cons_self .., hsel _, (x.tag.id, x.chan.region), List.mem_flatMap.2 ⟨x, List.mem_cons_self .., List.mem_cons_self ..⟩, hkeep _ _⟩

private theorem inOcc_all {s : Icmp2.Sys ι L N K} {m : Mf ι o v K} (hs : Icmp2.Canonical s m) : m.inOcc s (mm m.moOcc (tp m.moOcc)) = delta := by
  have e : m.inOcc s (mm m.moOcc (tp m.moOcc)) = mm (tp (mm (tp m.moOcc) (mm s.ovlp m.moOcc))) (mm (tp m.moOcc) (mm s.ovlp m.moOcc)) := by
    have e0 : mm (tp m.moOcc) (mm s.ovlp m.moOcc) = mm (tp (mm s.ovlp m.moOcc)) m.moOcc := by
      rw [tp_mm, hs.symm, mm_assoc]
    unfold Mf.inOcc
    rw [tp_mm (tp m.moOcc), tp_tp]
    simp only [mm_assoc]
  rw [e, hs.occ]
  funext i j
  show ∑ k, delta k i * delta k j = _
  simp only [delta, ite_mul, one_mul, zero_mul]
  simp

private theorem pair_none_sum {s : Icmp2.Sys ι L N K} {m : Mf ι o v K} (d x : Bool) (X : Region ι K) {l : List (Root ι L K)} (hP : Partition s m l) :
    ((l.flatMap Root.members).map fun Y => pairEnergy s m d x .none X Y.2).sum = (m.whole s).part d x (m.inOcc s X.frag) delta delta := by
  show ((l.flatMap Root.members).map fun Y => (m.whole s).part d x (m.inOcc s X.frag) (m.inOcc s Y.2.frag) delta).sum = _
  rw [part_sum]
  congr 1
  funext i j
  exact hP i j

private theorem none_image {s : Icmp2.Sys ι L N K} {m : Mf ι o v K} (hs : Icmp2.Canonical s m) {u : Op ι L K} (hu : Leaves s m u) (d x : Bool) (X : Region ι K) :
    (m.whole s).part d x (m.inOcc s (X.image u.ao).frag) delta delta = (m.whole s).part d x (m.inOcc s X.frag) delta delta := by
  obtain ⟨D, hD⟩ : ∃ D : ι → ι → K, D = mm m.moOcc (tp m.moOcc) := ⟨_, rfl⟩
  have h := pairEnergy_image hs hu d x .none X ⟨D, D, D⟩
  obtain ⟨uo, ho⟩ := hu.occ
  obtain ⟨_, o2, _⟩ := op_orth hu.ovlp hu.fock hs.occ hs.fockOcc ho
  have h1 : m.inOcc s D = delta := by rw [hD]; exact inOcc_all hs
  have h2 : m.inOcc s (mm u.ao (mm D (tp u.ao))) = delta := by
    rw [inOcc_moved hu ho o2, h1, delta_mm, o2]
  have h3 : (m.whole s).part d x (m.inOcc s (X.image u.ao).frag) (m.inOcc s (mm u.ao (mm D (tp u.ao)))) delta =
      (m.whole s).part d x (m.inOcc s X.frag) (m.inOcc s D) delta := h
  rwa [h1, h2] at h3

private theorem sum_parts {s : Icmp2.Sys ι L N K} {m : Mf ι o v K} (d x : Bool) {l : List (Root ι L K)} (hP : Partition s m l) :
    ((l.flatMap Root.members).map fun X => (m.whole s).part d x (m.inOcc s X.2.frag) delta delta).sum = (m.whole s).mp2 d x := by
  rw [part_sum', ← part_delta]
  congr 1
  funext i j
  exact hP i j

/-- C92 (nothing left out). With `project_dc=None` and fragments that make up the occupied space, the result is the MP2 energy per cell of the whole system. -/
theorem icmp2_mp2 {s : Icmp2.Sys ι L N K} {m : Mf ι o v K} (hs : Icmp2.Canonical s m) (hdf : s.hasDf = true) (l : List (Root ι L K)) (hF : ∀ x ∈ l, Family s m x)
    (hE : ∀ x ∈ l, ∃ ro rv, Icmp2.Exact s m x.chan ro rv) (hP : Partition s m l) (a : Args) (hdc : a.projectDc = none)
    (hd : a.diagonal = .yes) (hsel : ∀ i, a.sel i = true) (hl : l ≠ []) :
    energyRhf s m.fock a l = .ok ((m.whole s).mp2 a.direct a.exchange / s.ncells) := by
  have hkeep : ∀ i j, a.diagonal.keeps i j = true := by intro i j; rw [hd]; rfl
  rw [icmp2_pairs hs hdf l hF hE a .none hdc (.inr (.inr rfl))]
  · rw [filter_all l _ fun x _ => hsel _]
    simp only [filter_all _ _ fun (Y : Nat × Region ι K) _ => hkeep _ Y.1]
    simp only [pair_none_sum _ _ _ hP]
    rw [unfold_sum l (fun X => (m.whole s).part a.direct a.exchange (m.inOcc s X.frag) delta delta) fun x hx y hy =>
      none_image hs ((hF x hx).child y hy).2.2.2.2 a.direct a.exchange x.chan.region, sum_parts _ _ hP]
  · obtain ⟨x, t, rfl⟩ := List.exists_cons_of_ne_nil hl
    exact ⟨x, List.mem_cons_self .., hsel _, (x.tag.id, x.chan.region), List.mem_flatMap.2 ⟨x, List.mem_cons_self .., List.mem_cons_self ..⟩, hkeep _ _⟩

/-- The orbitals of the fragment `Y` are in the cluster of `X`: `D S A S D = D`. -/
def InCluster (s : Icmp2.Sys ι L N K) (X Y : Region ι K) : Prop := mm Y.frag (mm s.ovlp (mm X.clus (mm s.ovlp Y.frag))) = Y.frag

/-- The orbitals of the fragment `Y` are orthogonal to the cluster of `X`. -/
def ApartFrom (s : Icmp2.Sys ι L N K) (X Y : Region ι K) : Prop := mm X.clus (mm s.ovlp Y.frag) = fun _ _ => 0

private theorem mm_zero' {a b c : Type} [Fintype b] (A : a → b → K) : mm A (fun (_ : b) (_ : c) => (0 : K)) = fun _ _ => 0 := by
  funext i j
  simp [mm]

private theorem within_zero {s : Icmp2.Sys ι L N K} {m : Mf ι o v K} (d x : Bool) {X Y : Region ι K} (h : InCluster s X Y) : pairEnergy s m d x .occ X Y = 0 := by
  have e : Dc.occ.onOcc s.ovlp X Y.frag = fun _ _ => 0 := by
    funext i j
    show Y.frag i j - mm Y.frag (mm s.ovlp (mm X.clus (mm s.ovlp Y.frag))) i j = 0
    rw [show mm Y.frag (mm s.ovlp (mm X.clus (mm s.ovlp Y.frag))) = Y.frag from h, sub_self]
  have e1 : m.inOcc s (fun _ _ => (0 : K)) = fun _ _ => 0 := by
    funext i j
    simp [Mf.inOcc, mm]
  unfold pairEnergy
  rw [e, e1]
  simp [Whole.part]

private theorem apart_all {s : Icmp2.Sys ι L N K} {m : Mf ι o v K} (d x : Bool) {X Y : Region ι K} (h : ApartFrom s X Y) :
    pairEnergy s m d x .occ X Y = pairEnergy s m d x .none X Y := by
  have e : Dc.occ.onOcc s.ovlp X Y.frag = Y.frag := by
    funext i j
    show Y.frag i j - mm Y.frag (mm s.ovlp (mm X.clus (mm s.ovlp Y.frag))) i j = _
    rw [show mm X.clus (mm s.ovlp Y.frag) = _ from h, mm_zero', mm_zero', sub_zero]
  unfold pairEnergy
  rw [e]
  rfl

private theorem sum_filter_split {A : Type} (l : List A) (p : A → Bool) (F : A → K) :
    (l.map F).sum = ((l.filter p).map F).sum + ((l.filter fun x => !p x).map F).sum := by
  induction l with
  | nil => simp
  | cons x t ih =>
    rw [List.map_cons, List.sum_cons, ih]
    cases h : p x with
    | true =>
      rw [List.filter_cons_of_pos h, List.filter_cons_of_neg (by simp [h]), List.map_cons, List.sum_cons]
      ring
    | false =>
      rw [List.filter_cons_of_neg (by simp [h]), List.filter_cons_of_pos (by simp [h]), List.map_cons, List.sum_cons]
      ring

private theorem sum_filter_split' {A : Type _} (l : List A) (p : A → Bool) (F : A → K) :
    (l.map F).sum = ((l.filter p).map F).sum + ((l.filter fun x => !p x).map F).sum := by
  induction l with
  | nil => simp
  | cons x t ih =>
    rw [List.map_cons, List.sum_cons, ih]
    cases h : p x with
    | true =>
      rw [List.filter_cons_of_pos h, List.filter_cons_of_neg (by simp [h]), List.map_cons, List.sum_cons]
      ring
    | false =>
      rw [List.filter_cons_of_neg (by simp [h]), List.filter_cons_of_pos (by simp [h]), List.map_cons, List.sum_cons]
      ring

private theorem sum_apart {A : Type} (M : List A) (w : A → A → Bool) (F G : A → A → K) (h : ∀ X ∈ M, ∀ Y ∈ M, if w X Y = true then F X Y = 0 else F X Y = G X Y) :
    (M.map fun X => (M.map fun Y => F X Y).sum).sum = (M.map fun X => ((M.filter fun Y => !w X Y).map fun Y => G X Y).sum).sum := by
  refine congrArg List.sum (List.map_congr_left fun X hX => ?_)
  rw [sum_filter_split _ fun Y => w X Y]
  have z : ((M.filter fun Y => w X Y).map fun Y => F X Y).sum = 0 := by
    refine List.sum_eq_zero fun q hq => ?_
    obtain ⟨Y, hY, rfl⟩ := List.mem_map.1 hq
    obtain ⟨hY, hY'⟩ := List.mem_filter.1 hY
    have := h X hX Y hY
    rwa [if_pos hY'] at this
  rw [z, zero_add]
  refine congrArg List.sum (List.map_congr_left fun Y hY => ?_)
  obtain ⟨hY, hY'⟩ := List.mem_filter.1 hY
  have := h X hX Y hY
  rwa [if_neg (by simpa using hY')] at this

private theorem sum_both {A : Type} (M : List A) (w : A → A → Bool) (G : A → A → K) :
    (M.map fun X => ((M.filter fun Y => !w X Y).map fun Y => G X Y).sum).sum + (M.map fun X => ((M.filter fun Y => w X Y).map fun Y => G X Y).sum).sum =
      (M.map fun X => (M.map fun Y => G X Y).sum).sum := by
  rw [← List.sum_map_add]
  refine congrArg List.sum (List.map_congr_left fun X _ => ?_)
  rw [sum_filter_split M (fun Y => w X Y) fun Y => G X Y, add_comm]

/-- C92 (each pair once). If each fragment is either within the cluster of another one or apart from it, then with `project_dc="occ"` the pairs within a cluster do
not count, and the others count in full; so together with the energies of the pairs within the clusters, the result is the MP2 energy. -/
theorem icmp2_no_double_counting {s : Icmp2.Sys ι L N K} {m : Mf ι o v K} (hs : Icmp2.Canonical s m) (hdf : s.hasDf = true) (l : List (Root ι L K))
    (hF : ∀ x ∈ l, Family s m x) (hE : ∀ x ∈ l, ∃ ro rv, Icmp2.Exact s m x.chan ro rv) (hP : Permuted l) (a : Args) (hdc : a.projectDc = some "occ")
    (hv : a.vers = 1 ∨ a.vers = 2) (hd : a.diagonal = .yes) (hsel : ∀ i, a.sel i = true) (hl : l ≠ []) (within : Nat → Nat → Bool)
    (hw : ∀ X ∈ l.flatMap Root.members, ∀ Y ∈ l.flatMap Root.members, if within X.1 Y.1 then InCluster s X.2 Y.2 else ApartFrom s X.2 Y.2) :
    energyRhf s m.fock a l = .ok (((l.flatMap Root.members).map fun X =>
      (((l.flatMap Root.members).filter fun Y => !within X.1 Y.1).map fun Y => pairEnergy s m a.direct a.exchange .none X.2 Y.2).sum).sum / s.ncells) ∧
    (Partition s m l → ∀ e, energyRhf s m.fock a l = .ok e →
      e + ((l.flatMap Root.members).map fun X =>
        (((l.flatMap Root.members).filter fun Y => within X.1 Y.1).map fun Y => pairEnergy s m a.direct a.exchange .none X.2 Y.2).sum).sum / s.ncells =
        (m.whole s).mp2 a.direct a.exchange / s.ncells) := by
  have h1 : energyRhf s m.fock a l = .ok (((l.flatMap Root.members).map fun X =>
      (((l.flatMap Root.members).filter fun Y => !within X.1 Y.1).map fun Y => pairEnergy s m a.direct a.exchange .none X.2 Y.2).sum).sum / s.ncells) := by
    rw [icmp2_symmetry hs hdf l hF hE hP a .occ hdc (.inl hv) hd hsel hl]
    rw [sum_apart (l.flatMap Root.members) (fun X Y => within X.1 Y.1) (fun X Y => pairEnergy s m a.direct a.exchange .occ X.2 Y.2)
      (fun X Y => pairEnergy s m a.direct a.exchange .none X.2 Y.2) fun X hX Y hY => ?_]
    have := hw X hX Y hY
    by_cases h : within X.1 Y.1 = true
    · rw [if_pos h] at this
      rw [if_pos h]
      exact within_zero _ _ this
    · rw [if_neg h] at this
      rw [if_neg h]
      exact apart_all _ _ this
  refine ⟨h1, fun hpart e he => ?_⟩
  rw [h1] at he
  rw [← Except.ok.inj he, ← add_div, sum_both (l.flatMap Root.members) (fun X Y => within X.1 Y.1) (fun X Y => pairEnergy s m a.direct a.exchange .none X.2 Y.2),
    ← sum_parts _ _ hpart]
  simp only [pair_none_sum _ _ _ hpart]

end Exact

/-! ## Without any condition on the spaces -/

/-- The orbitals `c` are orthonormal and in the space of the orbitals `A`: their overlap `p` is an isometry. -/
def Contains {n k : Type} [Fintype n] [DecidableEq k] (s : Icmp2.Sys ι L N K) (A : ι → n → K) (c : ι → k → K) : Prop :=
  mm (tp (mm (mm (tp A) s.ovlp) c)) (mm (mm (tp A) s.ovlp) c) = delta

private theorem outside_zero {n k : Type} [Fintype n] [DecidableEq k] {s : Icmp2.Sys ι L N K} {A : ι → n → K} {c : ι → k → K} (h : Contains s A c) :
    outside (mm (mm (tp A) s.ovlp) c) = fun _ _ => 0 := by
  funext i j
  have := congrFun (congrFun h i) j
  show delta i j - mm (tp (mm (mm (tp A) s.ovlp) c)) (mm (mm (tp A) s.ovlp) c) i j = 0
  rw [this, sub_self]

private theorem pair_zero {s : Icmp2.Sys ι L N K} {fock : ι → ι → K} {dc : Dc} (vers : Int) {x : Chan ι K} {y : Partner ι L N K}
    (h : ((dc = .occ ∨ dc = .both) ∧ Contains s x.cActive y.cProj) ∨ ((dc = .vir ∨ dc = .both) ∧ Contains s x.cActiveVir y.cl.cVir)) :
    pair s fock dc vers x y = (0, 0) := by
  unfold pair
  rcases h with ⟨h1 | h1, h2⟩ | ⟨h1 | h1, h2⟩ <;> subst h1 <;> simp [outside_zero h2, direct, exchange]

/-- C92 (nothing counted twice). If the cluster of every fragment contains the orbitals which are projected out, those of all fragments for `"occ"`, all virtual
orbitals of the other clusters for `"vir"`, one of them for `"both"`, the result is zero if there is one: no matter which spaces are used for the amplitudes. -/
theorem icmp2_zero {s : Icmp2.Sys ι L N K} {fock : ι → ι → K} {a : Args} {l : List (Root ι L K)} {dc : Dc} (hdc : a.projectDc = dc.name)
    (h : ((dc = .occ ∨ dc = .both) ∧ ∀ x ∈ l, ∀ z ∈ l, Contains s x.chan.cActive z.chan.cProj ∧ ∀ y ∈ z.children, Contains s x.chan.cActive y.cProj) ∨
      ((dc = .vir ∨ dc = .both) ∧ ∀ x ∈ l, ∀ z ∈ l, Contains s x.chan.cActiveVir z.chan.cVir ∧ ∀ y ∈ z.children, Contains s x.chan.cActiveVir (mm y.op.ao z.chan.cVir)))
    {e : K} (he : energyRhf s fock a l = .ok e) : e = 0 := by
  obtain ⟨dc', ps, h1, _, _, h4, _, rfl⟩ := energy_ok he
  rw [hdc, parse_name] at h1
  cases h1
  have hz : total s fock a dc ps (l.filter fun x => x.tag.passes && a.sel x.tag.id) = 0 := by
    refine List.sum_eq_zero fun q hq => ?_
    obtain ⟨x, hx, rfl⟩ := List.mem_map.1 hq
    have hxl := (List.mem_filter.1 hx).1
    refine List.sum_eq_zero fun q hq => ?_
    obtain ⟨y, hy, rfl⟩ := List.mem_map.1 hq
    have hy' : Except.ok y ∈ l.flatMap (Root.partners s fock) := by
      rw [h4]
      exact List.mem_map.2 ⟨y, (List.mem_filter.1 hy).1, rfl⟩
    obtain ⟨z, hz, hyz⟩ := List.mem_flatMap.1 hy'
    have hpair : pair s fock dc a.vers x.chan y = (0, 0) := by
      unfold Root.partners at hyz
      rcases List.mem_append.1 hyz with hyz | hyz
      · by_cases hp : z.tag.passes = true
        · rw [if_pos hp, List.mem_singleton] at hyz
          cases hyz
          exact pair_zero a.vers (h.imp (fun h => ⟨h.1, (h.2 x hxl z hz).1⟩) fun h => ⟨h.1, (h.2 x hxl z hz).1⟩)
        · rw [if_neg hp] at hyz
          cases hyz
      · obtain ⟨c, hc, hyc⟩ := List.mem_map.1 hyz
        have hc' := (List.mem_filter.1 hc).1
        by_cases hp : (z.tag.passes && c.direct) = true
        · rw [if_pos hp] at hyc
          cases hyc
          exact pair_zero a.vers (h.imp (fun h => ⟨h.1, (h.2 x hxl z hz).2 c hc'⟩) fun h => ⟨h.1, (h.2 x hxl z hz).2 c hc'⟩)
        · rw [if_neg hp] at hyc
          cases hyc
    rw [hpair]
    simp [weigh]
  rw [hz, zero_div]

/-! ## Arguments -/

/-- Two calls that return have the same fragments, and the same way to project if the same was asked for. -/
private theorem same_ps {s : Icmp2.Sys ι L N K} {fock : ι → ι → K} {l : List (Root ι L K)} {ps qs : List (Partner ι L N K)}
    (h : l.flatMap (Root.partners s fock) = List.map .ok ps) (h' : l.flatMap (Root.partners s fock) = List.map .ok qs) : ps = qs := by
  rw [h] at h'
  exact List.map_injective_iff.2 (fun _ _ h => Except.ok.inj h) h'

/-- C92 (diagonal). The energy of all pairs is that of the pairs of different fragments and that of the pairs of a fragment with itself. -/
theorem icmp2_diagonal {s : Icmp2.Sys ι L N K} {fock : ι → ι → K} {a : Args} {l : List (Root ι L K)} {e1 e2 : K}
    (h1 : energyRhf s fock { a with diagonal := .no } l = .ok e1) (h2 : energyRhf s fock { a with diagonal := .only } l = .ok e2) :
    energyRhf s fock { a with diagonal := .yes } l = .ok (e1 + e2) := by
  obtain ⟨dc, ps, p1, p2, p3, p4, ⟨x, hx, hx1, hx2, y, hy, _⟩, p6⟩ := energy_ok h1
  obtain ⟨dc', qs, q1, _, _, q4, _, q6⟩ := energy_ok h2
  have ed : dc' = dc := Except.ok.inj (q1.symm.trans p1)
  have ep : qs = ps := same_ps q4 p4
  subst ed ep
  rw [energy_total (a := { a with diagonal := .yes }) p1 p2 p3 p4 ⟨x, hx, hx1, hx2, y, hy, rfl⟩, p6, q6, ← add_div]
  congr 2
  unfold total
  rw [← List.sum_map_add]
  refine congrArg List.sum (List.map_congr_left fun z _ => ?_)
  dsimp only
  rw [filter_all qs (fun y => Diagonal.keeps .yes z.tag.id y.tag.id) fun _ _ => rfl]
  have := sum_filter_split' qs (fun y => z.tag.id == y.tag.id) fun y =>
    (weigh a z y (pair s fock dc' a.vers z.chan y)).1 + (weigh a z y (pair s fock dc' a.vers z.chan y)).2
  exact this.trans (add_comm _ _)

/-- C92 (terms). The energy is the sum of the direct and the exchange energy. -/
theorem icmp2_terms {s : Icmp2.Sys ι L N K} {fock : ι → ι → K} {a : Args} {l : List (Root ι L K)} {e1 e2 : K}
    (h1 : energyRhf s fock { a with direct := true, exchange := false } l = .ok e1) (h2 : energyRhf s fock { a with direct := false, exchange := true } l = .ok e2) :
    energyRhf s fock { a with direct := true, exchange := true } l = .ok (e1 + e2) := by
  obtain ⟨dc, ps, p1, p2, p3, p4, p5, p6⟩ := energy_ok h1
  obtain ⟨dc', qs, q1, _, _, q4, _, q6⟩ := energy_ok h2
  have ed : dc' = dc := Except.ok.inj (q1.symm.trans p1)
  have ep : qs = ps := same_ps q4 p4
  subst ed ep
  rw [energy_total (a := { a with direct := true, exchange := true }) p1 p2 p3 p4 p5, p6, q6, ← add_div]
  congr 2
  unfold total
  rw [← List.sum_map_add]
  refine congrArg List.sum (List.map_congr_left fun z _ => ?_)
  rw [← List.sum_map_add]
  refine congrArg List.sum (List.map_congr_left fun y _ => ?_)
  simp [weigh]

private theorem sum_filter_or {A : Type _} (l : List A) (p q r : A → Bool) (hr : ∀ x, r x = (p x || q x)) (hd : ∀ x, ¬(p x = true ∧ q x = true)) (F : A → K) :
    ((l.filter r).map F).sum = ((l.filter p).map F).sum + ((l.filter q).map F).sum := by
  induction l with
  | nil => simp
  | cons x t ih =>
    have h := hr x
    have h' := hd x
    cases hp : p x with
    | true =>
      have hq : ¬q x = true := fun h => h' ⟨hp, h⟩
      rw [List.filter_cons_of_pos (by rw [h, hp]; rfl), List.filter_cons_of_pos hp, List.filter_cons_of_neg hq, List.map_cons, List.sum_cons, List.map_cons, List.sum_cons, ih]
      ring
    | false =>
      cases hq : q x with
      | true =>
        rw [List.filter_cons_of_pos (by rw [h, hp, hq]; rfl), List.filter_cons_of_neg (by rw [hp]; simp), List.filter_cons_of_pos hq, List.map_cons, List.sum_cons,
          List.map_cons, List.sum_cons, ih]
        ring
      | false =>
        rw [List.filter_cons_of_neg (by rw [h, hp, hq]; simp), List.filter_cons_of_neg (by rw [hp]; simp), List.filter_cons_of_neg (by rw [hq]; simp), ih]

/-- C92 (fragments). The energies for disjoint sets of fragments add up. -/
theorem icmp2_fragments {s : Icmp2.Sys ι L N K} {fock : ι → ι → K} {a : Args} {l : List (Root ι L K)} {e1 e2 : K} (p q : Nat → Bool) (hpq : ∀ i, ¬(p i = true ∧ q i = true))
    (h1 : energyRhf s fock { a with sel := p } l = .ok e1) (h2 : energyRhf s fock { a with sel := q } l = .ok e2) :
    energyRhf s fock { a with sel := fun i => p i || q i } l = .ok (e1 + e2) := by
  obtain ⟨dc, ps, p1, p2, p3, p4, ⟨x, hx, hx1, hx2, y, hy, hk⟩, p6⟩ := energy_ok h1
  obtain ⟨dc', qs, q1, _, _, q4, _, q6⟩ := energy_ok h2
  have ed : dc' = dc := Except.ok.inj (q1.symm.trans p1)
  have ep : qs = ps := same_ps q4 p4
  subst ed ep
  have hx2' : p x.tag.id = true := hx2
  rw [energy_total (a := { a with sel := fun i => p i || q i }) p1 p2 p3 p4 ⟨x, hx, hx1, by dsimp only; rw [hx2', Bool.true_or], y, hy, hk⟩, p6, q6, ← add_div]
  congr 2
  exact sum_filter_or l (fun x => x.tag.passes && p x.tag.id) (fun x => x.tag.passes && q x.tag.id) _ (fun x => Bool.and_or_distrib_left ..)
    (fun x h => hpq x.tag.id (by simp only [Bool.and_eq_true] at h; exact ⟨h.1.2, h.2.2⟩)) _

/-- C92 (version). For `"both"` and `None`, the argument `vers` has no effect; for `"occ"` and `"vir"`, other values than 1 and 2 are not refused, and give no direct
energy at all. -/
theorem icmp2_version (s : Icmp2.Sys ι L N K) (fock : ι → ι → K) (a : Args) (l : List (Root ι L K)) :
    (a.projectDc = some "both" ∨ a.projectDc = none → ∀ w, energyRhf s fock { a with vers := w } l = energyRhf s fock a l) ∧
    (a.projectDc = some "occ" ∨ a.projectDc = some "vir" → a.vers ≠ 1 → a.vers ≠ 2 → a.exchange = false → ∀ e, energyRhf s fock a l = .ok e → e = 0) := by
  constructor
  · intro h w
    have hrow : ∀ dc, (dc = Dc.both ∨ dc = Dc.none) → row s fock { a with vers := w } dc l = row s fock a dc l := by
      intro dc hdc
      funext x
      have ht : turn s fock { a with vers := w } dc x = turn s fock a dc x := by
        funext y
        cases y with
        | error e => rfl
        | ok y =>
          have : pair s fock dc w x.chan y = pair s fock dc a.vers x.chan y := by
            rcases hdc with rfl | rfl <;> rfl
          unfold turn
          dsimp only
          rw [this]
          rfl
      unfold row
      rw [ht]
    have hp : ∃ dc, Dc.parse a.projectDc = .ok dc ∧ (dc = Dc.both ∨ dc = Dc.none) := by
      rcases h with h | h
      · exact ⟨.both, by rw [h]; rfl, .inl rfl⟩
      · exact ⟨.none, by rw [h]; rfl, .inr rfl⟩
    obtain ⟨dc, h1, h2⟩ := hp
    unfold energyRhf
    dsimp only
    rw [h1]
    show (do
      if !s.hasDf then Except.error PyErr.runtimeError
      setup l
      let rows ← (l.filter fun x => x.tag.passes && a.sel x.tag.id).mapM (row s fock { a with vers := w } dc l)
      if rows.flatten.isEmpty then Except.error PyErr.nameError
      pure ((rows.flatten.map Prod.fst).sum / (s.ncells : K) + (rows.flatten.map Prod.snd).sum / (s.ncells : K)) : Except PyErr K) = _
    rw [hrow dc h2]
    rfl
  · intro h v1 v2 hx e he
    obtain ⟨dc, ps, p1, _, _, _, _, rfl⟩ := energy_ok he
    have hdc : dc = .occ ∨ dc = .vir := by
      rcases h with h | h <;> rw [h] at p1
      · exact .inl (Except.ok.inj p1).symm
      · exact .inr (Except.ok.inj p1).symm
    have : total s fock a dc ps (l.filter fun x => x.tag.passes && a.sel x.tag.id) = 0 := by
      refine List.sum_eq_zero fun q hq => ?_
      obtain ⟨x, _, rfl⟩ := List.mem_map.1 hq
      refine List.sum_eq_zero fun q hq => ?_
      obtain ⟨y, _, rfl⟩ := List.mem_map.1 hq
      have hd : (pair s fock dc a.vers x.chan y).1 = 0 := by
        rcases hdc with rfl | rfl <;> simp [pair, direct, v1, v2]
      simp [weigh, hx, hd]
    rw [this, zero_div]

/-! ## Errors -/

private theorem mapM_fail {A B : Type _} (f : A → Except PyErr B) (err : PyErr) (l : List A) (h : ∀ x ∈ l, ∀ e, f x = .error e → e = err) (hx : ∃ x ∈ l, ∃ e, f x = .error e) :
    l.mapM f = .error err := by
  induction l with
  | nil => obtain ⟨x, hx, _⟩ := hx; cases hx
  | cons y t ih =>
    rw [List.mapM_cons]
    cases hy : f y with
    | error e => rw [h y (List.mem_cons_self ..) e hy]; rfl
    | ok b =>
      rw [ih fun x hx => h x (List.mem_cons_of_mem _ hx)]
      · rfl
      · obtain ⟨x, hx, e, he⟩ := hx
        rcases List.mem_cons.1 hx with rfl | hx
        · rw [hy] at he; cases he
        · exact ⟨x, hx, e, he⟩

private theorem partners_left_out (s : Icmp2.Sys ι L N K) (fock : ι → ι → K) (l : List (Root ι L K))
    (hc : ∀ x ∈ l, (x.tag.contributes && x.tag.envelop) = false → ∀ y ∈ x.children, (y.tag.contributes && y.tag.envelop) = false) :
    (l.filter fun x => x.tag.contributes && x.tag.envelop).flatMap (Root.partners s fock) = l.flatMap (Root.partners s fock) := by
  induction l with
  | nil => rfl
  | cons x l ih =>
    have ih := ih fun z hz => hc z (List.mem_cons_of_mem _ hz)
    cases hx : (x.tag.contributes && x.tag.envelop) with
    | true => rw [List.filter_cons_of_pos (by simpa using hx), List.flatMap_cons, List.flatMap_cons, ih]
    | false =>
      rw [List.filter_cons_of_neg (by simp [hx]), List.flatMap_cons, ih]
      have : Root.partners s fock x = [] := by
        unfold Root.partners
        rw [if_neg (by show ¬ (x.tag.contributes && x.tag.envelop) = true; simp [hx]), List.filter_eq_nil_iff.2 fun y hy => by
          show ¬ (y.tag.contributes && y.tag.envelop) = true
          simp [hc x (List.mem_cons_self ..) hx y hy]]
        rfl
      rw [this]; rfl

/-- C92 (fragments that do not take part). Families of fragments which do not contribute, or which are not the envelope of others, make no difference, neither as one
nor as the other fragment of a pair. -/
theorem icmp2_left_out (s : Icmp2.Sys ι L N K) (fock : ι → ι → K) (a : Args) (l : List (Root ι L K))
    (hc : ∀ x ∈ l, (x.tag.contributes && x.tag.envelop) = false → ∀ y ∈ x.children, (y.tag.contributes && y.tag.envelop) = false) :
    energyRhf s fock a l = energyRhf s fock a (l.filter fun x => x.tag.contributes && x.tag.envelop) := by
  have h1 : setup (l.filter fun x => x.tag.contributes && x.tag.envelop) = setup l := by
    unfold setup
    rw [List.any_filter]
    congr 2
    refine congrArg (List.any l) (funext fun x => ?_)
    show ((x.tag.contributes && x.tag.envelop) && ((x.tag.contributes && x.tag.envelop) && _)) = ((x.tag.contributes && x.tag.envelop) && _)
    cases (x.tag.contributes && x.tag.envelop) <;> rfl
  have h2 : (l.filter fun x => x.tag.contributes && x.tag.envelop).filter (fun x => x.tag.passes && a.sel x.tag.id) = l.filter fun x => x.tag.passes && a.sel x.tag.id := by
    rw [List.filter_filter]
    refine congrArg (fun f => List.filter f l) (funext fun x => ?_)
    show (((x.tag.contributes && x.tag.envelop) && a.sel x.tag.id) && (x.tag.contributes && x.tag.envelop)) = ((x.tag.contributes && x.tag.envelop) && a.sel x.tag.id)
    cases (x.tag.contributes && x.tag.envelop) <;> simp
  have h3 : ∀ dc, row s fock a dc (l.filter fun x => x.tag.contributes && x.tag.envelop) = row s fock a dc l := fun dc => funext fun x => by
    unfold row
    rw [partners_left_out s fock l hc]
  unfold energyRhf
  rw [h1, h2]
  simp only [h3]

/-- C92 (errors). What is not possible is refused: unknown values of `project_dc`; an embedding without density fitting; fragments related by other operations than
translations; fragments related to a fragment which is itself related to another one; and, not on purpose, calls with no pair of fragments. -/
theorem icmp2_errors (s : Icmp2.Sys ι L N K) (fock : ι → ι → K) (a : Args) (l : List (Root ι L K)) :
    (∀ n, a.projectDc = some n → n ∉ ["occ", "vir", "both"] → energyRhf s fock a l = .error .valueError) ∧
    (∀ dc : Dc, a.projectDc = dc.name →
      (s.hasDf = false → energyRhf s fock a l = .error .runtimeError) ∧
      (s.hasDf = true →
        ((∃ x ∈ l, x.tag.passes = true ∧ ∃ y ∈ x.children, y.tag.passes = true ∧ y.direct = true ∧ y.op.translation = false) →
          energyRhf s fock a l = .error .attributeError) ∧
        ((∀ x ∈ l, ∀ y ∈ x.children, y.direct = true → y.op.translation = true) →
          ((∃ x ∈ l, x.tag.passes = true ∧ a.sel x.tag.id = true) → (∃ x ∈ l, ∃ y ∈ x.children, y.tag.passes = true ∧ y.direct = false) →
            energyRhf s fock a l = .error .keyError) ∧
          ((∀ x ∈ l, x.tag.passes = true → a.sel x.tag.id = false) → energyRhf s fock a l = .error .nameError) ∧
          (∀ x, l = [x] → x.children = [] → a.diagonal = .no → energyRhf s fock a l = .error .nameError)))) := by
  refine ⟨fun n hn hm => ?_, fun dc hdc => ⟨fun hdf => ?_, fun hdf => ⟨fun hx => ?_, fun ht => ?_⟩⟩⟩
  · have : Dc.parse a.projectDc = .error .valueError := by
      rw [hn]
      simp only [List.mem_cons, List.not_mem_nil, or_false, not_or] at hm
      simp [Dc.parse, hm.1, hm.2.1, hm.2.2]
    unfold energyRhf
    rw [this]
    rfl
  · unfold energyRhf
    rw [hdc, parse_name, hdf]
    rfl
  · obtain ⟨x, hx, h1, y, hy, h2, h3, h4⟩ := hx
    have : setup l = .error .attributeError := by
      unfold setup
      rw [if_pos]
      refine List.any_eq_true.2 ⟨x, hx, ?_⟩
      rw [h1, Bool.true_and]
      exact List.any_eq_true.2 ⟨y, hy, by simp [h2, h3, h4]⟩
    unfold energyRhf
    rw [hdc, parse_name, hdf, this]
    rfl
  · have hset : setup l = .ok () := by
      unfold setup
      rw [if_neg]
      intro hh
      obtain ⟨x, hx, h1⟩ := List.any_eq_true.1 hh
      simp only [Bool.and_eq_true, List.any_eq_true] at h1
      obtain ⟨_, y, hy, ⟨_, h2⟩, h3⟩ := h1
      simp [ht x hx y hy h2] at h3
    refine ⟨fun hx hy => ?_, fun hn => ?_, fun x hl hc hd => ?_⟩
    · obtain ⟨z, hz, y, hy, h1, h2⟩ := hy
      have hrow : ∀ x, row s fock a dc l x = .error .keyError := by
        intro x
        unfold row
        rw [mapM_fail (turn s fock a dc x) .keyError]
        · rfl
        · intro p hp e he
          cases p with
          | ok p => cases he
          | error e' =>
            have he' : e' = e := Except.error.inj he
            subst he'
            obtain ⟨w, _, hw⟩ := List.mem_flatMap.1 hp
            unfold Root.partners at hw
            rcases List.mem_append.1 hw with hw | hw
            · by_cases hq : w.tag.passes = true
              · rw [if_pos hq, List.mem_singleton] at hw; cases hw
              · rw [if_neg hq] at hw; cases hw
            · obtain ⟨c, _, hc⟩ := List.mem_map.1 hw
              by_cases hq : (w.tag.passes && c.direct) = true
              · rw [if_pos hq] at hc; cases hc
              · rw [if_neg hq] at hc
                exact (Except.error.inj hc).symm
        · refine ⟨.error .keyError, List.mem_flatMap.2 ⟨z, hz, ?_⟩, .keyError, rfl⟩
          unfold Root.partners
          refine List.mem_append.2 (.inr (List.mem_map.2 ⟨y, List.mem_filter.2 ⟨hy, h1⟩, ?_⟩))
          rw [if_neg (by simp [h2])]
      have hm : (l.filter fun x => x.tag.passes && a.sel x.tag.id).mapM (row s fock a dc l) = .error .keyError := by
        refine mapM_fail _ _ _ (fun x _ e he => ?_) ?_
        · rw [hrow x] at he
          exact (Except.error.inj he).symm
        · obtain ⟨x, hx, p1, p2⟩ := hx
          exact ⟨x, List.mem_filter.2 ⟨hx, by simp [p1, p2]⟩, .keyError, hrow x⟩
      unfold energyRhf
      rw [hdc, parse_name, hdf, hset]
      show (do
        let rows ← (l.filter fun x => x.tag.passes && a.sel x.tag.id).mapM (row s fock a dc l)
        if rows.flatten.isEmpty then Except.error PyErr.nameError
        pure ((rows.flatten.map Prod.fst).sum / (s.ncells : K) + (rows.flatten.map Prod.snd).sum / (s.ncells : K)) : Except PyErr K) = _
      rw [hm]
      rfl
    · have hf : (l.filter fun x => x.tag.passes && a.sel x.tag.id) = [] := by
        refine List.filter_eq_nil_iff.2 fun x hx h => ?_
        simp only [Bool.and_eq_true] at h
        rw [hn x hx h.1] at h
        cases h.2
      unfold energyRhf
      rw [hdc, parse_name, hdf, hset, hf]
      rfl
    · subst hl
      unfold energyRhf
      rw [hdc, parse_name, hdf, hset]
      by_cases hp : x.tag.passes = true
      · by_cases hq : a.sel x.tag.id = true
        · have hpart : [x].flatMap (Root.partners s fock) = List.map .ok [⟨x.tag, x.chan.cProj, x.chan.own s fock⟩] := by
            rw [List.flatMap_singleton]
            unfold Root.partners
            rw [if_pos hp, hc]
            rfl
          have := energy_eq (a := a) (dc := dc) (by rw [hdc, parse_name]) hdf hset hpart
          unfold energyRhf at this
          rw [hdc, parse_name, hdf, hset] at this
          refine this.trans (if_pos ?_)
          rw [List.isEmpty_iff]
          unfold entries
          rw [hd]
          simp [Diagonal.keeps]
        · have hq' : a.sel x.tag.id = false := by simpa using hq
          have hf : ([x].filter fun x => x.tag.passes && a.sel x.tag.id) = [] := by simp [hq']
          rw [hf]
          rfl
      · have hf : ([x].filter fun x => x.tag.passes && a.sel x.tag.id) = [] := by simp [hp]
        rw [hf]
        rfl

/-! ## Unrestricted -/

/-- The fragments of a restricted calculation as those of an unrestricted one. -/
def bothSpins (x : Root ι L K) : URoot ι L K := ⟨x.tag, x.chan, x.chan, x.children.map fun y => ⟨y.tag, y.direct, y.op, y.cProj, y.cProj⟩⟩

private def twice (y : Partner ι L N K) : UPartner ι L N K := ⟨y, y⟩

private theorem map_filter_map {A B : Type} {C : Type _} (l : List A) (g : A → B) (p : B → Bool) (F : B → C) (q : A → Bool) (G : A → C) (hp : ∀ x, p (g x) = q x)
    (hF : ∀ x, F (g x) = G x) : ((l.map g).filter p).map F = (l.filter q).map G := by
  rw [List.filter_map, List.map_map]
  rw [show p ∘ g = q from funext hp, show F ∘ g = G from funext hF]

private theorem any_of_map {A B : Type} (l : List A) (g : A → B) (p : B → Bool) (q : A → Bool) (hp : ∀ x, p (g x) = q x) : (l.map g).any p = l.any q := by
  rw [List.any_map, show p ∘ g = q from funext hp]

private theorem twice_partners (s : Icmp2.Sys ι L N K) (fock : ι → ι → K) (l : List (Root ι L K)) :
    (l.map bothSpins).flatMap (URoot.partners s fock fock) = (l.flatMap (Root.partners s fock)).map (Except.map twice) := by
  induction l with
  | nil => rfl
  | cons x t ih =>
    rw [List.map_cons, List.flatMap_cons, ih, List.flatMap_cons, List.map_append]
    congr 1
    unfold URoot.partners Root.partners
    rw [List.map_append]
    congr 1
    · show (if x.tag.passes = true then _ else _) = _
      by_cases h : x.tag.passes = true
      · rw [if_pos h, if_pos h]; rfl
      · rw [if_neg h, if_neg h]; rfl
    · rw [List.map_map]
      refine map_filter_map x.children _ _ _ _ _ (fun _ => rfl) fun y => ?_
      show (if (x.tag.passes && y.direct) = true then _ else _) = Except.map twice (if (x.tag.passes && y.direct) = true then _ else _)
      by_cases h : (x.tag.passes && y.direct) = true
      · rw [if_pos h, if_pos h]; rfl
      · rw [if_neg h, if_neg h]; rfl

private theorem eris_none {f o v f' o' v' : Type} [Fintype f] [Fintype o] [Fintype v] [Fintype f'] [Fintype o'] [Fintype v']
    (x : Cl ι L N f o v K) (y : Cl ι L N f' o' v' K) (hx : x.neg = none) : eris x y = contract x.cderi y.cderi := by
  funext i j a b
  simp [eris, contractNeg, hx]

private theorem pair_twice {s : Icmp2.Sys ι L N K} (hs : s.neg = none) (h2 : (2 : K) ≠ 0) (fock : ι → ι → K) (x : Root ι L K) (y : Partner ι L N K) :
    pairU s fock fock (bothSpins x) (twice y) = pair s fock .vir 1 x.chan y := by
  have e : eris (x.chan.own s fock) y.cl = contract (x.chan.own s fock).cderi y.cl.cderi :=
    eris_none _ _ (by show Option.map _ s.neg = none; rw [hs]; rfl)
  unfold pairU pair
  dsimp only
  rw [e]
  refine Prod.ext ?_ ?_
  · show directU s fock x.chan x.chan y + directU s fock x.chan x.chan y + directU s fock x.chan x.chan y + directU s fock x.chan x.chan y = _
    unfold directU direct
    dsimp only
    rw [if_pos rfl]
    field_simp
    ring
  · show exchangeU s fock x.chan y + exchangeU s fock x.chan y = _
    unfold exchangeU exchange
    dsimp only
    field_simp
    ring

/-- C92 (unrestricted). For the same orbitals and Fock matrices of both spins, the unrestricted function gives what the restricted one does with
`project_dc="vir"`. Any other projection is refused. -/
theorem icmp2_unrestricted (s : Icmp2.Sys ι L N K) (hs : s.neg = none) (hdf : s.hasDf = true) (h2 : (2 : K) ≠ 0) (fock : ι → ι → K) (d e : Bool) (l : List (Root ι L K)) :
    energyUhf s fock fock (some "vir") d e (l.map bothSpins) = energyRhf s fock ⟨some "vir", d, e, 1, .yes, fun _ => true⟩ l ∧
    ∀ p, p ≠ some "vir" → ∀ (fockA fockB : ι → ι → K) (ul : List (URoot ι L K)), energyUhf s fockA fockB p d e ul = .error .notImplementedError := by
  constructor
  · have hset : setupU (l.map bothSpins) = setup l := by
      unfold setupU setup
      rw [List.any_map]
      have : ((fun x : URoot ι L K => x.tag.passes && x.children.any fun y => y.tag.passes && y.direct && !y.op.translation) ∘ bothSpins) =
          fun x : Root ι L K => x.tag.passes && x.children.any fun y => y.tag.passes && y.direct && !y.op.translation := by
        funext x
        exact congrArg (fun b => x.tag.passes && b) (any_of_map x.children _ _ _ fun _ => rfl)
      rw [this]
    have hturn : ∀ x : Root ι L K, ∀ q : List (Except PyErr (Partner ι L N K)),
        (q.map (Except.map twice)).mapM (turnU s fock fock d e (bothSpins x)) =
          Except.map List.flatten (q.mapM (turn s fock ⟨some "vir", d, e, 1, .yes, fun _ => true⟩ .vir x)) := by
      intro x q
      induction q with
      | nil => rfl
      | cons y t ih =>
        rw [List.map_cons, List.mapM_cons, List.mapM_cons, ih]
        cases y with
        | error err => rfl
        | ok y =>
          have hw : turnU s fock fock d e (bothSpins x) (Except.map twice (.ok y)) = .ok (weigh ⟨some "vir", d, e, 1, .yes, fun _ => true⟩ x y (pair s fock .vir 1 x.chan y)) := by
            show Except.ok (weighU d e (bothSpins x) (twice y) (pairU s fock fock (bothSpins x) (twice y))) = _
            rw [pair_twice hs h2]
            have hl : (bothSpins x).children.length = x.children.length := List.length_map ..
            unfold weighU weigh Root.symmetryFactor
            rw [hl]
            rfl
          rw [hw]
          show _ = Except.map List.flatten (do
            let b ← Except.ok [weigh ⟨some "vir", d, e, 1, .yes, fun _ => true⟩ x y (pair s fock .vir 1 x.chan y)]
            let bs ← t.mapM (turn s fock ⟨some "vir", d, e, 1, .yes, fun _ => true⟩ .vir x)
            pure (b :: bs))
          cases t.mapM (turn s fock ⟨some "vir", d, e, 1, .yes, fun _ => true⟩ .vir x) with
          | error err => rfl
          | ok r => rfl
    have hrow : ∀ x : Root ι L K, ((l.map bothSpins).flatMap (URoot.partners s fock fock)).mapM (turnU s fock fock d e (bothSpins x)) =
        row s fock ⟨some "vir", d, e, 1, .yes, fun _ => true⟩ .vir l x := by
      intro x
      rw [twice_partners, hturn]
      unfold row
      cases (l.flatMap (Root.partners s fock)).mapM (turn s fock ⟨some "vir", d, e, 1, .yes, fun _ => true⟩ .vir x) with
      | error err => rfl
      | ok r => rfl
    have hrows : (((l.map bothSpins).filter fun x => x.tag.passes).mapM fun x => ((l.map bothSpins).flatMap (URoot.partners s fock fock)).mapM (turnU s fock fock d e x)) =
        (l.filter fun x => x.tag.passes && true).mapM (row s fock ⟨some "vir", d, e, 1, .yes, fun _ => true⟩ .vir l) := by
      rw [List.filter_map, List.mapM_map]
      have hc : (l.filter ((fun x : URoot ι L K => x.tag.passes) ∘ bothSpins)) = l.filter fun x => x.tag.passes && true :=
        List.filter_congr fun x _ => by rw [Bool.and_true]; rfl
      rw [hc]
      congr 1
      funext x
      exact hrow x
    unfold energyUhf energyRhf
    rw [hset]
    dsimp only
    rw [hrows, hdf]
    rfl
  · intro p hp fockA fockB ul
    unfold energyUhf
    rw [if_pos (by simpa using hp)]
    rfl

/-! ## Example

Two cells with one occupied and one virtual orbital each, and one fragment per cell; the second fragment is the first one translated. The cluster of a fragment are the
orbitals of its cell. -/

private def exS : Icmp2.Sys (Fin 4) (Fin 2) (Fin 1) ℚ where
  ovlp := delta
  cderi := fun l p q => if p = 0 ∧ q = 1 then (if l = 0 then 2 else 1) else if p = 2 ∧ q = 3 then (if l = 1 then 2 else 1) else if p = 0 ∧ q = 3 then 3 else if p = 2 ∧ q = 1 then 3 else 0
  neg := none
  ncells := 2
  hasDf := true

private def exM : Mf (Fin 4) (Fin 2) (Fin 2) ℚ where
  fock := fun i j => if i = j then (if i = 0 ∨ i = 2 then -1 else 1) else 0
  moOcc := fun i j => if (i = 0 ∧ j = 0) ∨ (i = 2 ∧ j = 1) then 1 else 0
  moVir := fun i j => if (i = 1 ∧ j = 0) ∨ (i = 3 ∧ j = 1) then 1 else 0

private def exC : Chan (Fin 4) ℚ where
  f := Fin 2
  o := Fin 1
  v := Fin 2
  a := Fin 2
  av := Fin 1
  cProj := fun i j => if i.val = j.val then 1 else 0
  cOcc := fun i _ => if i = 0 then 1 else 0
  cVir := exM.moVir
  cActive := fun i j => if i.val = j.val then 1 else 0
  cActiveVir := fun i _ => if i = 1 then 1 else 0

private def exU : Op (Fin 4) (Fin 2) ℚ := ⟨true, fun i j => if j = i + 2 then 1 else 0, fun i j => if i = j then 0 else 1⟩

private def exR : Root (Fin 4) (Fin 2) ℚ := ⟨⟨0, true, true, 1⟩, exC, [⟨⟨1, true, true, 1⟩, true, exU, mm exU.ao exC.cProj⟩]⟩

private theorem ex_canonical : Icmp2.Canonical exS exM where
  symm := by funext i j; revert i j; decide +kernel
  occ := by funext i j; revert i j; decide +kernel
  vir := by funext i j; revert i j; decide +kernel
  fockOcc := by decide +kernel
  fockVir := by decide +kernel

private theorem ex_leaves : Leaves exS exM exU where
  trans := rfl
  aux := by funext i j; revert i j; decide +kernel
  ovlp := by funext i j; revert i j; decide +kernel
  fock := by funext i j; revert i j; decide +kernel
  cderi := by intro l; funext i j; revert l i j; decide +kernel
  neg := by intro g hg; cases hg
  occ := ⟨fun i j => if i = j then 0 else 1, by funext i j; revert i j; decide +kernel⟩
  vir := ⟨fun i j => if i = j then 0 else 1, by funext i j; revert i j; decide +kernel⟩

private theorem ex_family : ∀ x ∈ [exR], Family exS exM x := by
  intro x hx
  rw [List.mem_singleton] at hx
  subst hx
  refine ⟨rfl, rfl, fun y hy => ?_⟩
  have : y = ⟨⟨1, true, true, 1⟩, true, exU, mm exU.ao exC.cProj⟩ := List.mem_singleton.1 hy
  subst this
  exact ⟨rfl, rfl, rfl, rfl, ex_leaves⟩

private theorem ex_exact : ∀ x ∈ [exR], ∃ ro rv, Icmp2.Exact exS exM x.chan ro rv := by
  intro x hx
  rw [List.mem_singleton] at hx
  subst hx
  refine ⟨fun (i : Fin 2) (_ : Fin 1) => if i = 0 then 1 else 0, fun (i j : Fin 2) => if i = j then 1 else 0, ?_⟩
  show Icmp2.Exact exS exM exC _ _
  exact {
    occ := by
      have : ∀ (i : Fin 4) (j : Fin 1), (if i = 0 then (1 : ℚ) else 0) = mm exM.moOcc (fun (i : Fin 2) (_ : Fin 1) => if i = 0 then 1 else 0) i j := by decide +kernel
      exact funext fun i => funext fun j => this i j
    vir := by
      have : ∀ (i : Fin 4) (j : Fin 2), exM.moVir i j = mm exM.moVir (fun (i j : Fin 2) => if i = j then 1 else 0) i j := by decide +kernel
      exact funext fun i => funext fun j => this i j
    eigOcc := ⟨by
      have : ∀ i : Fin 1, ∑ I : Fin 2, (fun (i : Fin 2) (_ : Fin 1) => if i = 0 then (1 : ℚ) else 0) I i * (fun (i : Fin 2) (_ : Fin 1) => if i = 0 then (1 : ℚ) else 0) I i = 1 := by
        decide +kernel
      exact this, fun _ => -1, by
      have : ∀ (I : Fin 2) (i : Fin 1), (exM.whole exS).eo I * (if I = 0 then 1 else 0) = (if I = 0 then 1 else 0) * -1 := by decide +kernel
      exact this⟩
    eigVir := ⟨by
      have : ∀ i : Fin 2, ∑ I : Fin 2, (if I = i then (1 : ℚ) else 0) * (if I = i then (1 : ℚ) else 0) = 1 := by decide +kernel
      exact this, fun _ => 1, by
      have : ∀ (I i : Fin 2), (exM.whole exS).ev I * (if I = i then 1 else 0) = (if I = i then 1 else 0) * 1 := by decide +kernel
      exact this⟩
    covers := by
      have : ∀ (i j : Fin 2), mm (mm (tp (fun (i : Fin 4) (j : Fin 2) => if i.val = j.val then (1 : ℚ) else 0)) (mm exS.ovlp exM.moOcc))
          (mm (fun (i : Fin 2) (_ : Fin 1) => if i = 0 then 1 else 0) (tp (fun (i : Fin 2) (_ : Fin 1) => if i = 0 then 1 else 0))) i j =
          mm (tp (fun (i : Fin 4) (j : Fin 2) => if i.val = j.val then (1 : ℚ) else 0)) (mm exS.ovlp exM.moOcc) i j := by decide +kernel
      exact funext fun i => funext fun j => this i j
    spans := by
      have : ∀ (i j : Fin 2), mm (fun (i j : Fin 2) => if i = j then (1 : ℚ) else 0) (tp fun (i j : Fin 2) => if i = j then (1 : ℚ) else 0) i j = delta i j := by decide +kernel
      exact funext fun i => funext fun j => this i j }

private theorem ex_partition : Partition exS exM [exR] := by
  show ∀ i j : Fin 2, (([exR].flatMap Root.members).map fun Y => exM.inOcc exS Y.2.frag i j).sum = if i = j then 1 else 0
  decide +kernel

private theorem image_twice : ((exC.region.image exU.ao).image exU.ao).frag = exC.region.frag := by
  have : ∀ i j : Fin 4, ((exC.region.image exU.ao).image exU.ao).frag i j = exC.region.frag i j := by decide +kernel
  exact funext fun i => funext fun j => this i j

private theorem ex_permuted : Permuted [exR] := by
  intro x hx y hy
  rw [List.mem_singleton] at hx
  subst hx
  have : y = ⟨⟨1, true, true, 1⟩, true, exU, mm exU.ao exC.cProj⟩ := List.mem_singleton.1 hy
  subst this
  show [(exC.region.image exU.ao).frag, ((exC.region.image exU.ao).image exU.ao).frag].Perm [exC.region.frag, (exC.region.image exU.ao).frag]
  rw [image_twice]
  exact List.Perm.swap ..

private theorem ex_within : ∀ X ∈ [exR].flatMap Root.members, ∀ Y ∈ [exR].flatMap Root.members, if (X.1 == Y.1) = true then InCluster exS X.2 Y.2 else ApartFrom exS X.2 Y.2 := by
  have hm : ∀ X ∈ [exR].flatMap Root.members, X = (0, exC.region) ∨ X = (1, exC.region.image exU.ao) := by
    intro X hX
    have : X ∈ [(0, exC.region), (1, exC.region.image exU.ao)] := hX
    simpa using this
  intro X hX Y hY
  rcases hm X hX with rfl | rfl <;> rcases hm Y hY with rfl | rfl
  · rw [if_pos (beq_self_eq_true _)]
    have : ∀ i j : Fin 4, mm exC.region.frag (mm exS.ovlp (mm exC.region.clus (mm exS.ovlp exC.region.frag))) i j = exC.region.frag i j := by decide +kernel
    exact funext fun i => funext fun j => this i j
  · rw [if_neg (by simp)]
    have : ∀ i j : Fin 4, mm exC.region.clus (mm exS.ovlp (exC.region.image exU.ao).frag) i j = 0 := by decide +kernel
    exact funext fun i => funext fun j => this i j
  · rw [if_neg (by simp)]
    have : ∀ i j : Fin 4, mm (exC.region.image exU.ao).clus (mm exS.ovlp exC.region.frag) i j = 0 := by decide +kernel
    exact funext fun i => funext fun j => this i j
  · rw [if_pos (beq_self_eq_true _)]
    have : ∀ i j : Fin 4, mm (exC.region.image exU.ao).frag (mm exS.ovlp (mm (exC.region.image exU.ao).clus (mm exS.ovlp (exC.region.image exU.ao).frag))) i j =
        (exC.region.image exU.ao).frag i j := by decide +kernel
    exact funext fun i => funext fun j => this i j

private def exA (p : Option String) : Args := ⟨p, true, true, 1, .yes, fun _ => true⟩

example : ∃ e, energyRhf exS exM.fock (exA none) [exR] = .ok e ∧ e = (exM.whole exS).mp2 true true / (2 : Nat) ∧ e ≠ 0 :=
  ⟨_, icmp2_mp2 ex_canonical rfl [exR] ex_family ex_exact ex_partition (exA none) rfl rfl (fun _ => rfl) (by simp), rfl, by
    show (exM.whole exS).mp2 true true / ((2 : Nat) : ℚ) ≠ 0
    decide +kernel⟩

/-- The pair within the cluster and the pair between the cells both have an energy. -/
example : ∃ e, energyRhf exS exM.fock (exA (some "occ")) [exR] = .ok e ∧ e ≠ 0 ∧ e ≠ (exM.whole exS).mp2 true true / (2 : Nat) :=
  ⟨_, (icmp2_no_double_counting ex_canonical rfl [exR] ex_family ex_exact ex_permuted (exA (some "occ")) rfl (.inl rfl) rfl (fun _ => rfl) (by simp) (fun i j => i == j)
    ex_within).1, by
    show (([exR].flatMap Root.members).map fun X => ((([exR].flatMap Root.members).filter fun Y => !(X.1 == Y.1)).map fun Y =>
      pairEnergy exS exM true true .none X.2 Y.2).sum).sum / ((2 : Nat) : ℚ) ≠ 0
    decide +kernel, by
    show (([exR].flatMap Root.members).map fun X => ((([exR].flatMap Root.members).filter fun Y => !(X.1 == Y.1)).map fun Y =>
      pairEnergy exS exM true true .none X.2 Y.2).sum).sum / ((2 : Nat) : ℚ) ≠ (exM.whole exS).mp2 true true / ((2 : Nat) : ℚ)
    decide +kernel⟩

/-- Both parts of `icmp2_diagonal` exist, also those of `icmp2_terms`. -/
example (a : Args) (h : a.projectDc = none) (hsel : a.sel 0 = true) (hd : a.diagonal = .no ∨ a.diagonal = .only) : ∃ e, energyRhf exS exM.fock a [exR] = .ok e :=
  ⟨_, icmp2_pairs ex_canonical rfl [exR] ex_family ex_exact a .none h (.inr (.inr rfl)) ⟨exR, List.mem_singleton.2 rfl, hsel, by
    have h0 : (0, exC.region) ∈ [exR].flatMap Root.members := List.mem_cons_self ..
    have h1 : (1, exC.region.image exU.ao) ∈ [exR].flatMap Root.members := List.mem_cons_of_mem _ (List.mem_cons_self ..)
    rcases hd with hd | hd
    · exact ⟨_, h1, by rw [hd]; rfl⟩
    · exact ⟨_, h0, by rw [hd]; rfl⟩⟩⟩

/-- A fragment that is not an envelope makes no difference. -/
example : ∃ e, energyRhf exS exM.fock (exA none) [exR, ⟨⟨7, true, false, 1⟩, exC, []⟩] = .ok e ∧ e = (exM.whole exS).mp2 true true / (2 : Nat) :=
  ⟨_, (icmp2_left_out exS exM.fock (exA none) [exR, ⟨⟨7, true, false, 1⟩, exC, []⟩] (by simp [exR])).trans
    (icmp2_mp2 ex_canonical rfl [exR] ex_family ex_exact ex_partition (exA none) rfl rfl (fun _ => rfl) (by simp)), rfl⟩

/-- The same fragments with the whole system as cluster. -/
private def exBig : Root (Fin 4) (Fin 2) ℚ := ⟨⟨0, true, true, 1⟩, { exC with a := Fin 4, fa := inferInstance, cActive := delta },
  [⟨⟨1, true, true, 1⟩, true, exU, mm exU.ao exC.cProj⟩]⟩

example (e : ℚ) (he : energyRhf exS exM.fock (exA (some "occ")) [exBig] = .ok e) : e = 0 := by
  refine icmp2_zero (dc := .occ) rfl (.inl ⟨.inl rfl, fun x hx z hz => ?_⟩) he
  rw [List.mem_singleton] at hx hz
  subst hx hz
  constructor
  · have : ∀ i j : Fin 2, mm (tp (mm (mm (tp (delta : Fin 4 → Fin 4 → ℚ)) exS.ovlp) fun (i : Fin 4) (j : Fin 2) => if i.val = j.val then (1 : ℚ) else 0))
        (mm (mm (tp (delta : Fin 4 → Fin 4 → ℚ)) exS.ovlp) fun (i : Fin 4) (j : Fin 2) => if i.val = j.val then (1 : ℚ) else 0) i j = delta i j := by decide +kernel
    exact funext fun i => funext fun j => this i j
  · intro y hy
    have : y = ⟨⟨1, true, true, 1⟩, true, exU, mm exU.ao exC.cProj⟩ := List.mem_singleton.1 hy
    subst this
    have : ∀ i j : Fin 2, mm (tp (mm (mm (tp (delta : Fin 4 → Fin 4 → ℚ)) exS.ovlp) (mm exU.ao fun (i : Fin 4) (j : Fin 2) => if i.val = j.val then (1 : ℚ) else 0)))
        (mm (mm (tp (delta : Fin 4 → Fin 4 → ℚ)) exS.ovlp) (mm exU.ao fun (i : Fin 4) (j : Fin 2) => if i.val = j.val then (1 : ℚ) else 0)) i j = delta i j := by decide +kernel
    exact funext fun i => funext fun j => this i j

end Vayesta.Props
