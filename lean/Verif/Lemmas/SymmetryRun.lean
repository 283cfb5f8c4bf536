import Verif.Lemmas.Symmetry

namespace Vayesta.Sym
open Vayesta.Spec

variable {O : Type}

/-! ### Invariant of a fragmentation script -/

theorem _root_.Vayesta.Spec.Depth.mono {fs fs' : List (Frag O)} (h : ∀ f ∈ fs, f ∈ fs') {f : Frag O} {n : Nat} (hd : Depth fs f n) :
    Depth fs' f n := by
  induction hd with
  | root hr hp => exact .root (h _ hr) hp
  | child _ hf hp ih => exact .child ih (h _ hf) hp

/-- Lists of the open contexts: their members have depth small enough to stay within `D` when the remaining contexts close. -/
def RegOk (D : Nat) (fs : List (Frag O)) : List (List O × List (Frag O)) → Prop
  | [] => True
  | x :: rest => (rest.length + 1 ≤ D ∧ ∀ f ∈ x.2, ∃ n, Depth fs f n ∧ n + 1 + rest.length ≤ D) ∧ RegOk D fs rest

structure Inv (D : Nat) (s : State O) : Prop where
  nodup : (s.fragments.map (·.id)).Nodup
  lt : ∀ f ∈ s.fragments, f.id < s.next
  depth : ∀ f ∈ s.fragments, ∃ n ≤ D, Depth s.fragments f n
  ops : ∀ f ∈ s.fragments, f.parent ≠ none → f.op ≠ none
  reg : RegOk D s.fragments s.register

/-- Appending a batch of fragments to the list of fragments and to every register list. -/
theorem RegOk.append {D : Nat} {fs new : List (Frag O)} (reg : List (List O × List (Frag O))) (h : RegOk D fs reg)
    (hnew : ∀ f ∈ new, ∃ n, Depth (fs ++ new) f n ∧ n + reg.length ≤ D) :
    RegOk D (fs ++ new) (reg.map fun x => (x.1, x.2 ++ new)) := by
  induction reg with
  | nil => trivial
  | cons x rest ih =>
    simp only [List.map_cons, RegOk, List.length_map] at h ⊢
    refine ⟨⟨h.1.1, ?_⟩, ih h.2 ?_⟩
    · intro f hf
      rcases List.mem_append.1 hf with hf | hf
      · obtain ⟨n, hn, hle⟩ := h.1.2 f hf
        exact ⟨n, hn.mono (fun g hg => List.mem_append_left _ hg), hle⟩
      · obtain ⟨n, hn, hle⟩ := hnew f hf
        refine ⟨n, hn, ?_⟩
        simp only [List.length_cons] at hle
        omega
    · intro f hf
      obtain ⟨n, hn, hle⟩ := hnew f hf
      refine ⟨n, hn, ?_⟩
      simp only [List.length_cons] at hle
      omega

theorem RegOk.length_le {D : Nat} {fs : List (Frag O)} {reg : List (List O × List (Frag O))} (h : RegOk D fs reg) : reg.length ≤ D := by
  cases reg with
  | nil => simp
  | cons x rest => exact h.1.1

theorem Inv.extend {D : Nat} {s : State O} (hs : Inv D s) (new : List (Frag O)) (next : Nat) (reg : List (List O × List (Frag O)))
    (hreg : RegOk D s.fragments reg) (hnext : s.next ≤ next) (hn : (new.map (·.id)).Nodup) (hlo : ∀ f ∈ new, s.next ≤ f.id)
    (hhi : ∀ f ∈ new, f.id < next) (hd : ∀ f ∈ new, ∃ n, Depth (s.fragments ++ new) f n ∧ n + reg.length ≤ D)
    (hops : ∀ f ∈ new, f.parent ≠ none → f.op ≠ none) :
    Inv D { fragments := s.fragments ++ new, next := next, register := reg.map fun x => (x.1, x.2 ++ new) } where
  nodup := by
    rw [List.map_append, List.nodup_append]
    refine ⟨hs.nodup, hn, ?_⟩
    intro a ha b hb
    obtain ⟨f, hf, rfl⟩ := List.mem_map.1 ha
    obtain ⟨g, hg, rfl⟩ := List.mem_map.1 hb
    have := hs.lt f hf
    have := hlo g hg
    omega
  lt := by
    intro f hf
    rcases List.mem_append.1 hf with hf | hf
    · exact lt_of_lt_of_le (hs.lt f hf) hnext
    · exact hhi f hf
  depth := by
    intro f hf
    rcases List.mem_append.1 hf with hf | hf
    · obtain ⟨n, h1, h2⟩ := hs.depth f hf
      exact ⟨n, h1, h2.mono fun g hg => List.mem_append_left _ hg⟩
    · obtain ⟨n, h1, h2⟩ := hd f hf
      exact ⟨n, by omega, h1⟩
  ops := by
    intro f hf
    rcases List.mem_append.1 hf with hf | hf
    · exact hs.ops f hf
    · exact hops f hf
  reg := RegOk.append reg hreg hd

/-- Facts about the fragments created when a context closes. -/
theorem mem_createSymmetric {next : Nat} {ops : List O} {frs : List (Frag O)} {f : Frag O} (hf : f ∈ (createSymmetric next ops frs).1) :
    next ≤ f.id ∧ f.id < (createSymmetric next ops frs).2 ∧ ∃ p ∈ frs, f.parent = some p.id ∧ ∃ o ∈ ops, f.op = some o := by
  obtain ⟨h1, h2, h3⟩ := createSymmetric_spec ops frs next
  have hid := h2.mem_iff.1 (List.mem_map.2 ⟨f, hf, rfl⟩)
  rw [List.mem_range'_1] at hid
  have hp := h3.mem_iff.1 (List.mem_map.2 ⟨f, hf, rfl⟩)
  simp only [List.mem_flatMap, List.mem_map, Prod.mk.injEq] at hp
  obtain ⟨p, hp, o, ho, e1, e2⟩ := hp
  exact ⟨hid.1, by rw [h1]; exact hid.2, p, hp, e1.symm, o, ho, e2.symm⟩

theorem step_inv {D : Nat} {s : State O} (c : Cmd O) (hs : Inv D s) (hD : (step s c).register.length ≤ D) : Inv D (step s c) := by
  cases c with
  | add =>
    simp only [step]
    refine hs.extend [⟨s.next, none, none⟩] (s.next + 1) s.register hs.reg (by omega) (by simp) (by simp) (by simp) ?_ (by simp)
    intro f hf
    refine ⟨0, .root (List.mem_append_right _ hf) (by simp at hf; simp [hf]), ?_⟩
    have := hs.reg.length_le
    omega
  | enter ops =>
    simp only [step] at hD ⊢
    exact { nodup := hs.nodup, lt := hs.lt, depth := hs.depth, ops := hs.ops, reg := ⟨⟨by simpa using hD, by simp⟩, hs.reg⟩ }
  | exit =>
    rcases s with ⟨fs, next, reg⟩
    cases reg with
    | nil => exact hs
    | cons x rest =>
      obtain ⟨ops, frs⟩ := x
      simp only [step]
      have hreg := hs.reg
      simp only [RegOk] at hreg
      obtain ⟨h1, h2, _⟩ := createSymmetric_spec ops frs next
      refine Inv.extend hs _ _ rest hreg.2 (by simp [h1]) ?_ ?_ ?_ ?_ ?_
      · exact h2.nodup_iff.2 List.nodup_range'
      · exact fun f hf => (mem_createSymmetric hf).1
      · exact fun f hf => (mem_createSymmetric hf).2.1
      · intro f hf
        obtain ⟨_, _, p, hp, hfp, _⟩ := mem_createSymmetric hf
        obtain ⟨n, hn, hle⟩ := hreg.1.2 p hp
        exact ⟨n + 1, .child (hn.mono fun g hg => List.mem_append_left _ hg) (List.mem_append_right _ hf) hfp, by omega⟩
      · intro f hf _
        obtain ⟨_, _, p, hp, hfp, o, _, ho⟩ := mem_createSymmetric hf
        simp [ho]

theorem step_register_length (s : State O) (c : Cmd O) : (step s c).register.length =
    match c with
    | .add => s.register.length
    | .enter _ => s.register.length + 1
    | .exit => s.register.length - 1 := by
  cases c with
  | add => simp [step]
  | enter ops => simp [step]
  | exit =>
    rcases s with ⟨fs, next, reg⟩
    cases reg with
    | nil => rfl
    | cons x rest => simp [step]

theorem le_maxNesting (n : Nat) (cmds : List (Cmd O)) : n ≤ maxNesting n cmds := by
  induction cmds generalizing n with
  | nil => simp [maxNesting]
  | cons c cs ih => cases c <;> simp only [maxNesting] <;> first | exact ih n | exact Nat.le_max_left _ _

theorem foldl_inv {D : Nat} (cmds : List (Cmd O)) (s : State O) (hs : Inv D s) (hD : maxNesting s.register.length cmds ≤ D) :
    Inv D (cmds.foldl step s) := by
  induction cmds generalizing s with
  | nil => exact hs
  | cons c cs ih =>
    rw [List.foldl_cons]
    have hlen := step_register_length s c
    have hn : maxNesting (step s c).register.length cs ≤ D := by
      rw [hlen]
      cases c <;> simp only [maxNesting] at hD ⊢
      · exact hD
      · exact le_trans (Nat.le_max_right _ _) hD
      · exact le_trans (Nat.le_max_right _ _) hD
    exact ih _ (step_inv c hs (le_trans (le_maxNesting _ _) hn)) hn

theorem run_inv (cmds : List (Cmd O)) : Inv (maxNesting 0 cmds) (run cmds) :=
  foldl_inv cmds {} ⟨by simp, by simp, by simp, by simp, trivial⟩ (Nat.le_refl _)

theorem Inv.forest {D : Nat} {s : State O} (h : Inv D s) : Forest D s.fragments := ⟨h.nodup, h.depth, h.ops⟩

/-! ### Labels -/

/-- Labels of the images of labelled fragments under a list of operations. -/
def cross (M : Multiset (Nat × List O)) (ops : List O) : Multiset (Nat × List O) :=
  M.bind fun x => (ops : Multiset O).map fun o => (x.1, x.2 ++ [o])

theorem cross_add (M N : Multiset (Nat × List O)) (ops : List O) : cross (M + N) ops = cross M ops + cross N ops := Multiset.add_bind _ _ _

theorem cross_zero (ops : List O) : cross (0 : Multiset (Nat × List O)) ops = 0 := Multiset.zero_bind _

/-- Labels after closing all open contexts. -/
def ev : Multiset (Nat × List O) → List (List O × Multiset (Nat × List O)) → Multiset (Nat × List O)
  | G, [] => G
  | G, (ops, L) :: rest => ev (G + cross L ops) (rest.map fun x => (x.1, x.2 + cross L ops))
termination_by _ reg => reg.length

/-- Labels generated by `M` through the contexts. -/
def closure : Multiset (Nat × List O) → List (List O) → Multiset (Nat × List O)
  | M, [] => M
  | M, ops :: rest => closure (M + cross M ops) rest

theorem ev_add (reg : List (List O × Multiset (Nat × List O))) (G M : Multiset (Nat × List O)) :
    ev (G + M) (reg.map fun x => (x.1, x.2 + M)) = ev G reg + closure M (reg.map Prod.fst) := by
  generalize hk : reg.length = k
  induction k generalizing reg G M with
  | zero =>
    cases reg with
    | nil => simp [ev, closure]
    | cons => simp at hk
  | succ k ih =>
    cases reg with
    | nil => simp at hk
    | cons x rest =>
      obtain ⟨ops, L⟩ := x
      simp only [List.map_cons, ev, closure, List.map_map, Function.comp_def]
      have := ih (rest.map fun x => (x.1, x.2 + cross L ops)) (G + cross L ops) (M + cross M ops) (by simpa using hk)
      simp only [List.map_map, Function.comp_def] at this
      rw [← this]
      congr 1
      · rw [cross_add]; abel
      · apply List.map_congr_left
        intro x _
        rw [cross_add]
        congr 1
        abel

theorem closure_add (M N : Multiset (Nat × List O)) (l : List (List O)) : closure (M + N) l = closure M l + closure N l := by
  induction l generalizing M N with
  | nil => rfl
  | cons ops l ih =>
    simp only [closure]
    rw [cross_add, ← ih]
    congr 1
    abel

theorem closure_zero (l : List (List O)) : closure (0 : Multiset (Nat × List O)) l = 0 := by
  induction l with
  | nil => rfl
  | cons ops l ih => simp only [closure, cross_zero, add_zero, ih]

theorem closure_single (r : Nat) (pre : List O) (l : List (List O)) :
    closure {(r, pre)} l = (((choices l).map fun seq => (r, pre ++ seq) : List (Nat × List O)) : Multiset (Nat × List O)) := by
  induction l generalizing pre with
  | nil => simp [closure, choices]
  | cons ops l ih =>
    simp only [closure, choices, closure_add]
    have hc : cross {(r, pre)} ops = ((ops.map fun o => (r, pre ++ [o]) : List (Nat × List O)) : Multiset _) := by
      simp [cross]
    rw [hc, ih]
    have h2 : ∀ os : List O, closure ((os.map fun o => (r, pre ++ [o]) : List (Nat × List O)) : Multiset (Nat × List O)) l =
        (((os.flatMap fun o => (choices l).map fun b => (r, pre ++ (o :: b))) : List (Nat × List O)) : Multiset (Nat × List O)) := by
      intro os
      induction os with
      | nil => simp [closure_zero]
      | cons o os ih2 =>
        rw [List.map_cons, ← Multiset.cons_coe, ← Multiset.singleton_add, closure_add, ih2, ih, List.flatMap_cons, ← Multiset.coe_add]
        simp
    rw [h2, Multiset.coe_add]
    simp only [List.flatMap_cons, List.map_append, List.map_map, List.nil_append]
    congr 1
    rw [List.flatMap_map, List.map_flatMap]
    simp [Function.comp_def]

/-- Labels of a list of fragments. -/
def labels (lab : Nat → Nat × List O) (fs : List (Frag O)) : Multiset (Nat × List O) := (fs.map fun f => lab f.id : List _)

theorem labels_append (lab : Nat → Nat × List O) (fs gs : List (Frag O)) : labels lab (fs ++ gs) = labels lab fs + labels lab gs := by
  simp [labels]

theorem labels_congr {lab lab' : Nat → Nat × List O} {fs : List (Frag O)} (h : ∀ f ∈ fs, lab f.id = lab' f.id) :
    labels lab fs = labels lab' fs := by
  unfold labels
  rw [List.map_congr_left h]

/-- Register with labels. -/
def regLabels (lab : Nat → Nat × List O) (reg : List (List O × List (Frag O))) : List (List O × Multiset (Nat × List O)) :=
  reg.map fun x => (x.1, labels lab x.2)

/-- Expected labels from the remaining commands: `roots` are the ids the next `add`s will receive. -/
def future (roots : List Nat) (opss : List (List (List O))) : Multiset (Nat × List O) :=
  (((roots.zip opss).flatMap fun x => (choices x.2).map fun seq => (x.1, seq)) : List (Nat × List O))

structure LInv (s : State O) (lab : Nat → Nat × List O) : Prop where
  lt : ∀ f ∈ s.fragments, f.id < s.next
  sub : ∀ x ∈ s.register, ∀ f ∈ x.2, f ∈ s.fragments
  lab : IsLabelling s.fragments lab

/-- Label of a newly created fragment. -/
def labelNew (lab : Nat → Nat × List O) (f : Frag O) : Nat × List O :=
  match f.parent, f.op with
  | some p, some o => ((lab p).1, (lab p).2 ++ [o])
  | _, _ => (f.id, [])

/-- Extension of a labelling to newly created fragments. -/
def extendLab (lab : Nat → Nat × List O) (new : List (Frag O)) (i : Nat) : Nat × List O :=
  match new.find? (fun f => f.id = i) with
  | some f => labelNew lab f
  | none => lab i

theorem extendLab_old {lab : Nat → Nat × List O} {new : List (Frag O)} {i : Nat} (h : ∀ f ∈ new, f.id ≠ i) : extendLab lab new i = lab i := by
  unfold extendLab
  rw [List.find?_eq_none.2 (by simpa using h)]

theorem extendLab_new {lab : Nat → Nat × List O} {new : List (Frag O)} {f : Frag O} (hn : (new.map (·.id)).Nodup) (hf : f ∈ new) :
    extendLab lab new f.id = labelNew lab f := by
  unfold extendLab
  cases h : new.find? (fun g => g.id = f.id) with
  | none =>
    have := List.find?_eq_none.1 h f hf
    simp at this
  | some g =>
    have h1 := List.mem_of_find?_eq_some h
    have h2 := List.find?_some h
    simp only [decide_eq_true_eq] at h2
    rw [eq_of_id hn h1 hf h2]

theorem labels_createSymmetric (lab : Nat → Nat × List O) (next : Nat) (ops : List O) (frs : List (Frag O)) :
    labels (extendLab lab (createSymmetric next ops frs).1) (createSymmetric next ops frs).1 = cross (labels lab frs) ops := by
  obtain ⟨_, h2, h3⟩ := createSymmetric_spec ops frs next
  have hn : ((createSymmetric next ops frs).1.map (·.id)).Nodup := h2.nodup_iff.2 List.nodup_range'
  have e1 : labels (extendLab lab (createSymmetric next ops frs).1) (createSymmetric next ops frs).1 =
      (((createSymmetric next ops frs).1.map (fun f => (f.parent, f.op))).map fun (x : Option Nat × Option O) => match x.1, x.2 with
        | some p, some o => ((lab p).1, (lab p).2 ++ [o])
        | _, _ => ((0, []) : Nat × List O) : List _) := by
    unfold labels
    congr 1
    rw [List.map_map]
    apply List.map_congr_left
    intro f hf
    rw [extendLab_new hn hf]
    obtain ⟨_, _, p, _, hfp, o, _, ho⟩ := mem_createSymmetric hf
    simp [labelNew, hfp, ho]
  rw [e1, Multiset.coe_eq_coe.2 (h3.map _)]
  simp only [List.map_flatMap, List.map_map, Function.comp_def, cross, labels]
  rw [← Multiset.coe_bind]
  rw [← Multiset.map_coe, Multiset.bind_map]
  rfl

theorem filter_roots_append (fs new : List (Frag O)) :
    ((fs ++ new).filter fun f => f.parent.isNone) = (fs.filter fun f => f.parent.isNone) ++ new.filter fun f => f.parent.isNone :=
  List.filter_append ..

/-- Ids of the roots of the fragments listed. -/
def rootIds (fs : List (Frag O)) : List Nat := (fs.filter fun f => f.parent.isNone).map (·.id)

theorem labels_run (cmds : List (Cmd O)) (s : State O) (lab : Nat → Nat × List O) (hs : LInv s lab) (hc : Closed s.register.length cmds) :
    ∃ lab' : Nat → Nat × List O, ∃ more : List Nat, IsLabelling (cmds.foldl step s).fragments lab' ∧
      rootIds (cmds.foldl step s).fragments = rootIds s.fragments ++ more ∧
      more.length = (openAtAdds (s.register.map Prod.fst) cmds).length ∧
      labels lab' (cmds.foldl step s).fragments =
        ev (labels lab s.fragments) (regLabels lab s.register) + future more (openAtAdds (s.register.map Prod.fst) cmds) := by
  induction cmds generalizing s lab with
  | nil =>
    have : s.register = [] := by simpa [Closed] using hc
    exact ⟨lab, [], hs.lab, by simp, by simp [openAtAdds], by simp [this, regLabels, ev, future]⟩
  | cons c cs ih =>
    cases c with
    | add =>
      have hnew : ∀ f ∈ s.fragments, f.id ≠ s.next := fun f hf => by have := hs.lt f hf; omega
      let lab₁ : Nat → Nat × List O := fun i => if i = s.next then (s.next, []) else lab i
      have hl : ∀ f ∈ s.fragments, lab₁ f.id = lab f.id := fun f hf => by simp [lab₁, hnew f hf]
      have hL : LInv (step s .add) lab₁ := by
        refine ⟨?_, ?_, ?_, ?_⟩
        · intro f hf
          simp only [step] at hf ⊢
          rcases List.mem_append.1 hf with hf | hf
          · have := hs.lt f hf; omega
          · simp at hf; simp [hf]
        · intro x hx f hf
          simp only [step] at hx ⊢
          obtain ⟨y, hy, rfl⟩ := List.mem_map.1 hx
          rcases List.mem_append.1 hf with hf | hf
          · exact List.mem_append_left _ (hs.sub y hy f hf)
          · exact List.mem_append_right _ hf
        · intro f hf hp
          simp only [step] at hf
          rcases List.mem_append.1 hf with hf | hf
          · rw [hl f hf]; exact hs.lab.root f hf hp
          · simp at hf; simp [hf, lab₁]
        · intro f hf p hp
          simp only [step] at hf ⊢
          rcases List.mem_append.1 hf with hf | hf
          · obtain ⟨g, hg, e, o, ho, hlab⟩ := hs.lab.child f hf p hp
            refine ⟨g, List.mem_append_left _ hg, e, o, ho, ?_⟩
            rw [hl f hf, ← e, hl g hg, e, hlab]
          · simp at hf; simp [hf] at hp
      obtain ⟨lab', more, h1, h2, h2b, h3⟩ := ih (step s .add) lab₁ hL (by simpa [step, Closed] using hc)
      refine ⟨lab', s.next :: more, h1, ?_, ?_, ?_⟩
      · rw [List.foldl_cons, h2]
        simp [step, rootIds]
      · simp only [openAtAdds, List.length_cons]
        rw [h2b]
        simp [step, Function.comp_def]
      · rw [List.foldl_cons, h3]
        have hfs : labels lab₁ (step s .add).fragments = labels lab s.fragments + {(s.next, [])} := by
          simp only [step]
          rw [labels_append, labels_congr hl]
          simp [labels, lab₁]
        have hreg : regLabels lab₁ (step s .add).register = (regLabels lab s.register).map fun x => (x.1, x.2 + {(s.next, [])}) := by
          simp only [step, regLabels, List.map_map]
          apply List.map_congr_left
          intro x hx
          simp only [Function.comp_def]
          rw [labels_append, labels_congr fun f hf => hl f (hs.sub x hx f hf)]
          simp [labels, lab₁]
        rw [hfs, hreg, ev_add]
        have hfst : (regLabels lab s.register).map Prod.fst = s.register.map Prod.fst := by simp [regLabels, Function.comp_def]
        have hfst2 : (step s (.add : Cmd O)).register.map Prod.fst = s.register.map Prod.fst := by simp [step, Function.comp_def]
        rw [hfst, hfst2, closure_single, add_assoc]
        simp [openAtAdds, future]
    | enter ops =>
      obtain ⟨lab', more, h1, h2, h2b, h3⟩ := ih (step s (.enter ops)) lab
        ⟨hs.lt, by
          intro x hx f hf
          simp only [step] at hx ⊢
          rcases List.mem_cons.1 hx with rfl | hx
          · simp at hf
          · exact hs.sub x hx f hf, hs.lab⟩ (by simpa [step, Closed] using hc)
      refine ⟨lab', more, h1, by rw [List.foldl_cons, h2]; simp [step], by simpa [openAtAdds, step] using h2b, ?_⟩
      rw [List.foldl_cons, h3]
      simp [step, regLabels, ev, openAtAdds, labels, cross_zero, Function.comp_def]
    | exit =>
      rcases s with ⟨fs, next, reg⟩
      cases reg with
      | nil => simp [Closed] at hc
      | cons x rest =>
        obtain ⟨ops, frs⟩ := x
        obtain ⟨c1, c2, _⟩ := createSymmetric_spec ops frs next
        have hnd : ((createSymmetric next ops frs).1.map (·.id)).Nodup := c2.nodup_iff.2 List.nodup_range'
        set new := (createSymmetric next ops frs).1 with hnewdef
        have hlt := hs.lt
        have hsub := hs.sub
        have hlab := hs.lab
        simp only at hlt hsub hlab
        have hl : ∀ f ∈ fs, extendLab lab new f.id = lab f.id := by
          intro f hf
          apply extendLab_old
          intro g hg
          have := (mem_createSymmetric hg).1
          have := hlt f hf
          omega
        have hstep : step (⟨fs, next, (ops, frs) :: rest⟩ : State O) .exit =
            ⟨fs ++ new, (createSymmetric next ops frs).2, rest.map fun x => (x.1, x.2 ++ new)⟩ := rfl
        have hL : LInv (step (⟨fs, next, (ops, frs) :: rest⟩ : State O) .exit) (extendLab lab new) := by
          rw [hstep]
          refine ⟨?_, ?_, ?_, ?_⟩
          · intro f hf
            rcases List.mem_append.1 hf with hf | hf
            · have := hlt f hf; simp only [c1]; omega
            · exact (mem_createSymmetric hf).2.1
          · intro x hx f hf
            obtain ⟨y, hy, rfl⟩ := List.mem_map.1 hx
            rcases List.mem_append.1 hf with hf | hf
            · exact List.mem_append_left _ (hsub y (List.mem_cons_of_mem _ hy) f hf)
            · exact List.mem_append_right _ hf
          · intro f hf hp
            rcases List.mem_append.1 hf with hf | hf
            · rw [hl f hf]; exact hlab.root f hf hp
            · obtain ⟨_, _, p, _, hfp, _⟩ := mem_createSymmetric hf
              rw [hfp] at hp; cases hp
          · intro f hf p hp
            rcases List.mem_append.1 hf with hf | hf
            · obtain ⟨g, hg, e, o, ho, hlf⟩ := hlab.child f hf p hp
              refine ⟨g, List.mem_append_left _ hg, e, o, ho, ?_⟩
              rw [hl f hf, ← e, hl g hg, e, hlf]
            · obtain ⟨_, _, g, hg, hfp, o, _, ho⟩ := mem_createSymmetric hf
              have hgf : g ∈ fs := hsub (ops, frs) (by simp) g hg
              have e : g.id = p := by rw [hfp] at hp; simpa using hp
              refine ⟨g, List.mem_append_left _ hgf, e, o, ho, ?_⟩
              rw [extendLab_new hnd hf, ← e, hl g hgf]
              simp [labelNew, hfp, ho]
        obtain ⟨lab', more, h1, h2, h2b, h3⟩ := ih _ (extendLab lab new) hL (by
          rw [hstep]; simp only [Closed, List.length_cons, Nat.add_sub_cancel] at hc; simpa using hc.2)
        have hroots : new.filter (fun f => f.parent.isNone) = [] := by
          rw [List.filter_eq_nil_iff]
          intro f hf
          obtain ⟨_, _, p, _, hfp, _⟩ := mem_createSymmetric hf
          simp [hfp]
        refine ⟨lab', more, h1, ?_, ?_, ?_⟩
        · rw [List.foldl_cons, h2, hstep]
          simp [rootIds, hroots]
        · rw [hstep] at h2b
          simpa [openAtAdds, Function.comp_def] using h2b
        · rw [List.foldl_cons, h3, hstep]
          simp only [regLabels, List.map_cons, ev, openAtAdds, List.tail_cons, List.map_map, Function.comp_def]
          have hcr : labels (extendLab lab new) new = cross (labels lab frs) ops := labels_createSymmetric lab next ops frs
          congr 2
          · rw [labels_append, labels_congr hl, hcr]
          · apply List.map_congr_left
            intro x hx
            rw [labels_append, hcr, labels_congr fun f hf => hl f (hsub x (List.mem_cons_of_mem _ hx) f hf)]

theorem choices_length (l : List (List O)) : (choices l).length = (l.map fun ops => ops.length + 1).foldr (· * ·) 1 := by
  induction l with
  | nil => rfl
  | cons ops l ih =>
    simp only [choices, List.map_cons, List.foldr_cons, List.length_flatMap, List.length_map, ih]
    simp [Function.comp_def, Nat.add_mul, Nat.add_comm]

theorem expectedCount_eq (cmds : List (Cmd O)) (open_ : List (List O)) :
    expectedCount (open_.map fun ops => ops.length + 1) cmds = ((openAtAdds open_ cmds).map fun l => (choices l).length).sum := by
  induction cmds generalizing open_ with
  | nil => rfl
  | cons c cs ih =>
    cases c with
    | add => simp only [expectedCount, openAtAdds, List.map_cons, List.sum_cons, ih, choices_length]
    | enter ops => simp only [expectedCount, openAtAdds]; exact ih (ops :: open_)
    | exit => simp only [expectedCount, openAtAdds, ← List.map_tail, ih]

end Vayesta.Sym
