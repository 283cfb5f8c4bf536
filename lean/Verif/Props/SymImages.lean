import Verif.Model.SymImages
import Mathlib.Algebra.Field.Rat
import Mathlib.Algebra.Order.Ring.Rat
import Mathlib.Data.Fin.VecNotation
import Mathlib.Logic.Function.Iterate
import Mathlib.Data.List.Nodup

/-! Overlaps between symmetry-related fragments. -/

namespace Vayesta.Props

open Vayesta.SymImages

variable {K C : Type} [LinearOrder K]

/-- An image passes the checks. -/
def PassesChecks (ck : Checks K C) (act : Nat × Nat × Nat → C → C) (sym : Nat × Nat × Nat) (f : C) : Prop :=
  ck.overlap f (act sym f) ≤ ck.tol ∧ (ck.checkMf = true → sym.1 + sym.2.1 + sym.2.2 = 1 → ck.mfError f (act sym f) ≤ ck.mfTol)

private theorem image_spec (ck : Checks K C) (act : Nat × Nat × Nat → C → C) (s : Nat × Nat × Nat) (f : C) :
    (PassesChecks ck act s f → image ck act s f = .ok (act s f)) ∧ (¬ PassesChecks ck act s f → image ck act s f = .error .runtimeError) := by
  unfold image PassesChecks
  constructor
  · rintro ⟨h1, h2⟩
    rw [if_neg (not_lt.mpr h1), if_neg]
    rintro ⟨a, b, c⟩
    exact absurd c (not_lt.mpr (h2 a b))
  · intro h
    by_cases h1 : ck.tol < ck.overlap f (act s f)
    · rw [if_pos h1]
    · rw [if_neg h1, if_pos]
      by_contra h2
      refine h ⟨not_lt.mp h1, fun a b => ?_⟩
      by_contra h3
      exact h2 ⟨a, b, not_le.mp h3⟩

private theorem round_spec (ck : Checks K C) (act : Nat × Nat × Nat → C → C) (s : Nat × Nat × Nat) (t : List (C × List C)) :
    ((∀ x ∈ t, PassesChecks ck act s x.1) → round ck act s t = .ok (t.map fun x => (x.1, x.2 ++ [act s x.1]))) ∧
    ((∃ x ∈ t, ¬ PassesChecks ck act s x.1) → round ck act s t = .error .runtimeError) := by
  induction t with
  | nil => exact ⟨fun _ => rfl, fun ⟨_, h, _⟩ => by cases h⟩
  | cons x t ih =>
    obtain ⟨p, l⟩ := x
    constructor
    · intro h
      rw [round, (image_spec ck act s p).1 (h (p, l) List.mem_cons_self)]
      simp only
      rw [ih.1 fun y hy => h y (List.mem_cons_of_mem _ hy)]
      rfl
    · rintro ⟨y, hy, hn⟩
      rw [round]
      by_cases hp : PassesChecks ck act s p
      · rw [(image_spec ck act s p).1 hp]
        simp only
        rcases List.mem_cons.mp hy with rfl | hy'
        · exact absurd hp hn
        · rw [ih.2 ⟨y, hy', hn⟩]
      · rw [(image_spec ck act s p).2 hp]

private theorem rounds_spec (ck : Checks K C) (act : Nat × Nat × Nat → C → C) (ss : List (Nat × Nat × Nat)) (t : List (C × List C)) :
    ((∀ s ∈ ss, ∀ x ∈ t, PassesChecks ck act s x.1) → rounds ck act ss t = .ok (t.map fun x => (x.1, x.2 ++ ss.map fun s => act s x.1))) ∧
    ((∃ s ∈ ss, ∃ x ∈ t, ¬ PassesChecks ck act s x.1) → rounds ck act ss t = .error .runtimeError) := by
  induction ss generalizing t with
  | nil =>
    refine ⟨fun _ => ?_, fun ⟨_, h, _⟩ => by cases h⟩
    rw [rounds]
    simp
  | cons s ss ih =>
    constructor
    · intro h
      rw [rounds, (round_spec ck act s t).1 (h s List.mem_cons_self)]
      simp only
      rw [(ih _).1]
      · simp [Function.comp_def]
      · intro s' hs' x hx
        obtain ⟨y, hy, rfl⟩ := List.mem_map.mp hx
        exact h s' (List.mem_cons_of_mem _ hs') y hy
    · rintro ⟨s', hs', x, hx, hn⟩
      rw [rounds]
      by_cases hall : ∀ x ∈ t, PassesChecks ck act s x.1
      · rw [(round_spec ck act s t).1 hall]
        simp only
        refine (ih _).2 ⟨s', ?_, (x.1, x.2 ++ [act s x.1]), List.mem_map.mpr ⟨x, hx, rfl⟩, hn⟩
        rcases List.mem_cons.mp hs' with rfl | h
        · exact absurd (hall x hx) hn
        · exact h
      · obtain ⟨y, hy⟩ := not_forall.mp hall
        obtain ⟨hy1, hy2⟩ := Classical.not_imp.mp hy
        rw [(round_spec ck act s t).2 ⟨y, hy1, hy2⟩]

/-- The images listed for a symmetry: all but the identity, each once. -/
theorem symlist_exact (k : Kind) : (symlist k).Nodup ∧ ∀ s, s ∈ symlist k ↔ s ≠ (0, 0, 0) ∧ (match k with
    | .inversion => s = (1, 0, 0)
    | .reflection => s = (1, 0, 0)
    | .rotation n => s.1 < n ∧ s.2 = (0, 0)
    | .translation n0 n1 n2 => s.1 < n0 ∧ s.2.1 < n1 ∧ s.2.2 < n2) := by
  match k with
  | .inversion => exact ⟨by decide, fun s => by simp only [symlist, List.mem_singleton]; constructor
                                                · rintro rfl; exact ⟨by decide, rfl⟩
                                                · exact fun h => h.2⟩
  | .reflection => exact ⟨by decide, fun s => by simp only [symlist, List.mem_singleton]; constructor
                                                 · rintro rfl; exact ⟨by decide, rfl⟩
                                                 · exact fun h => h.2⟩
  | .rotation n =>
    refine ⟨List.Nodup.map (fun a b h => by simpa using h) List.nodup_range', fun s => ?_⟩
    obtain ⟨x, y, z⟩ := s
    simp only [symlist, List.mem_map, List.mem_range'_1, Prod.mk.injEq, ne_eq]
    constructor
    · rintro ⟨i, hi, rfl, rfl, rfl⟩
      exact ⟨by omega, by omega, rfl, rfl⟩
    · rintro ⟨h0, hx, rfl, rfl⟩
      exact ⟨x, by omega, rfl, rfl, rfl⟩
  | .translation n0 n1 n2 =>
    have hnd : ((List.range n0).flatMap fun x => (List.range n1).flatMap fun y => (List.range n2).map fun z => (x, y, z)).Nodup := by
      rw [List.nodup_flatMap]
      refine ⟨fun x _ => ?_, ?_⟩
      · rw [List.nodup_flatMap]
        refine ⟨fun y _ => List.nodup_range.map fun z z' h => by simpa using h, ?_⟩
        refine List.nodup_range.imp fun {y y'} hne => ?_
        intro i hi hi'
        obtain ⟨z, _, rfl⟩ := List.mem_map.mp hi
        obtain ⟨z', _, h⟩ := List.mem_map.mp hi'
        simp only [Prod.mk.injEq] at h
        exact hne h.2.1.symm
      · refine List.nodup_range.imp fun {x x'} hne => ?_
        intro i hi hi'
        simp only [List.mem_flatMap, List.mem_map] at hi hi'
        obtain ⟨y, _, z, _, rfl⟩ := hi
        obtain ⟨y', _, z', _, h⟩ := hi'
        simp only [Prod.mk.injEq] at h
        exact hne h.1.symm
    have hmem : ∀ s : Nat × Nat × Nat, s ∈ ((List.range n0).flatMap fun x => (List.range n1).flatMap fun y => (List.range n2).map fun z => (x, y, z)) ↔
        s.1 < n0 ∧ s.2.1 < n1 ∧ s.2.2 < n2 := by
      rintro ⟨x, y, z⟩
      simp only [List.mem_flatMap, List.mem_map, List.mem_range, Prod.mk.injEq]
      constructor
      · rintro ⟨x', hx, y', hy, z', hz, rfl, rfl, rfl⟩; exact ⟨hx, hy, hz⟩
      · rintro ⟨hx, hy, hz⟩; exact ⟨x, hx, y, hy, z, hz, rfl, rfl, rfl⟩
    have hhead : n0 ≠ 0 → n1 ≠ 0 → n2 ≠ 0 →
        ((List.range n0).flatMap fun x => (List.range n1).flatMap fun y => (List.range n2).map fun z => (x, y, z)).head? = some (0, 0, 0) := by
      intro h0 h1 h2
      obtain ⟨a, rfl⟩ := Nat.exists_eq_succ_of_ne_zero h0
      obtain ⟨b, rfl⟩ := Nat.exists_eq_succ_of_ne_zero h1
      obtain ⟨c, rfl⟩ := Nat.exists_eq_succ_of_ne_zero h2
      simp [List.range_succ_eq_map]
    simp only [symlist]
    generalize hl : ((List.range n0).flatMap fun x => (List.range n1).flatMap fun y => (List.range n2).map fun z => (x, y, z)) = l at hnd hmem hhead
    cases l with
    | nil =>
      refine ⟨List.nodup_nil, fun s => ?_⟩
      constructor
      · intro h; cases h
      · rintro ⟨_, h⟩; exact absurd ((hmem s).mpr h) List.not_mem_nil
    | cons a l =>
      have ha : a = (0, 0, 0) := by
        have h := (hmem a).mp List.mem_cons_self
        exact Option.some.inj (hhead (by omega) (by omega) (by omega))
      subst ha
      rw [List.nodup_cons] at hnd
      refine ⟨hnd.2, fun s => ?_⟩
      rw [List.tail_cons, ← hmem s, List.mem_cons]
      constructor
      · intro h
        exact ⟨fun h0 => hnd.1 (h0 ▸ h), Or.inr h⟩
      · rintro ⟨h0, h | h⟩
        · exact absurd h h0
        · exact h

/-- Images are created exactly if every image passes the checks against its own parent; otherwise RuntimeError. -/
theorem symmetric_images_decision (ck : Checks K C) (act : Nat × Nat × Nat → C → C) (k : Kind) (fragments : List C) :
    ((∀ f ∈ fragments, ∀ s ∈ symlist k, PassesChecks ck act s f) → create ck act k fragments = .ok (fragments.map fun f => (f, (symlist k).map fun s => act s f))) ∧
    ((∃ f ∈ fragments, ∃ s ∈ symlist k, ¬ PassesChecks ck act s f) → create ck act k fragments = .error .runtimeError) := by
  unfold create
  constructor
  · intro h
    rw [(rounds_spec ck act _ _).1]
    · simp [Function.comp_def]
    · intro s hs x hx
      obtain ⟨f, hf, rfl⟩ := List.mem_map.mp hx
      exact h f hf s hs
  · rintro ⟨f, hf, s, hs, hn⟩
    exact (rounds_spec ck act _ _).2 ⟨s, hs, (f, []), List.mem_map.mpr ⟨f, hf, rfl⟩, hn⟩

/-- Full claim: no two of all the fragments, parents and images, overlap. -/
def NoOverlaps (ck : Checks K C) (all : List C) : Prop := all.Pairwise fun a b => ck.overlap a b ≤ ck.tol ∧ ck.overlap b a ≤ ck.tol

/-- A fragment and all its images do not overlap with each other, for symmetries whose operations form a group of transformations that
keep overlaps (missing: overlaps between images of different fragments, which are not checked, `symmetric_images_overlap`). -/
theorem symmetric_images_partial (ck : Checks K C) (hsym : ∀ a b, ck.overlap a b = ck.overlap b a) (act : Nat × Nat × Nat → C → C) (k : Kind)
    (hgroup : ∀ s ∈ (0, 0, 0) :: symlist k, ∀ t ∈ (0, 0, 0) :: symlist k, s ≠ t → ∃ u ∈ symlist k, ∀ f, ck.overlap (act s f) (act t f) = ck.overlap f (act u f))
    (hid : ∀ f, act (0, 0, 0) f = f) (fragments : List C) (r : List (C × List C)) (h : create ck act k fragments = .ok r) :
    r.map Prod.fst = fragments ∧ ∀ x ∈ r, NoOverlaps ck (x.1 :: x.2) := by
  have hall : ∀ f ∈ fragments, ∀ s ∈ symlist k, PassesChecks ck act s f := by
    by_contra hn
    obtain ⟨f, hn⟩ := not_forall.mp hn
    obtain ⟨hf, hn⟩ := Classical.not_imp.mp hn
    obtain ⟨s, hn⟩ := not_forall.mp hn
    obtain ⟨hs, hn⟩ := Classical.not_imp.mp hn
    rw [(symmetric_images_decision ck act k fragments).2 ⟨f, hf, s, hs, hn⟩] at h
    cases h
  rw [(symmetric_images_decision ck act k fragments).1 hall] at h
  cases h
  refine ⟨by simp [Function.comp_def], fun x hx => ?_⟩
  obtain ⟨f, hf, rfl⟩ := List.mem_map.mp hx
  have hpair : ∀ s ∈ (0, 0, 0) :: symlist k, ∀ t ∈ (0, 0, 0) :: symlist k, s ≠ t → ck.overlap (act s f) (act t f) ≤ ck.tol := by
    intro s hs t ht hne
    obtain ⟨u, hu, hou⟩ := hgroup s hs t ht hne
    rw [hou f]
    exact (hall f hf u hu).1
  have hmap : f :: (symlist k).map (fun s => act s f) = ((0, 0, 0) :: symlist k).map fun s => act s f := by rw [List.map_cons, hid]
  simp only
  unfold NoOverlaps
  rw [hmap, List.pairwise_map]
  have hnd : ((0, 0, 0) :: symlist k).Nodup := by
    rw [List.nodup_cons]
    exact ⟨fun h => ((symlist_exact k).2 _).mp h |>.1 rfl, (symlist_exact k).1⟩
  refine hnd.imp_of_mem fun {s t} hs ht hne => ?_
  exact ⟨hpair s hs t ht hne, by rw [hsym]; exact hpair s hs t ht hne⟩

/-- The group condition holds for rotations: images by the powers of one rotation that keeps overlaps. -/
theorem rotation_images_group (ck : Checks K C) (hsym : ∀ a b, ck.overlap a b = ck.overlap b a) (g : C → C) (hg : ∀ a b, ck.overlap (g a) (g b) = ck.overlap a b)
    (n : Nat) (s t : Nat × Nat × Nat) (hs : s ∈ (0, 0, 0) :: symlist (.rotation n)) (ht : t ∈ (0, 0, 0) :: symlist (.rotation n)) (hne : s ≠ t) :
    ∃ u ∈ symlist (.rotation n), ∀ f, ck.overlap (g^[s.1] f) (g^[t.1] f) = ck.overlap f (g^[u.1] f) := by
  have hiso : ∀ (m : Nat) (a b : C), ck.overlap (g^[m] a) (g^[m] b) = ck.overlap a b := by
    intro m
    induction m with
    | zero => intro a b; rfl
    | succ m ih => intro a b; rw [Function.iterate_succ_apply', Function.iterate_succ_apply', hg, ih]
  have hform : ∀ x ∈ (0, 0, 0) :: symlist (.rotation n), x = (x.1, 0, 0) ∧ (x.1 < n ∨ x.1 = 0) := by
    intro x hx
    rcases List.mem_cons.mp hx with rfl | h
    · exact ⟨rfl, Or.inr rfl⟩
    · have := ((symlist_exact (.rotation n)).2 x).mp h
      refine ⟨?_, Or.inl this.2.1⟩
      obtain ⟨a, b⟩ := x
      have hb : b = (0, 0) := this.2.2
      rw [hb]
  obtain ⟨hs1, hs2⟩ := hform s hs
  obtain ⟨ht1, ht2⟩ := hform t ht
  have hne' : s.1 ≠ t.1 := fun h => hne (by rw [hs1, ht1, h])
  have hmem : ∀ d, 0 < d → d < n → (d, 0, 0) ∈ symlist (.rotation n) := by
    intro d h0 hd
    rw [(symlist_exact _).2]
    exact ⟨by simp only [ne_eq, Prod.mk.injEq]; omega, hd, rfl⟩
  rcases Nat.lt_or_gt_of_ne hne' with h | h
  · refine ⟨(t.1 - s.1, 0, 0), hmem _ (by omega) (by omega), fun f => ?_⟩
    have e : g^[t.1] f = g^[s.1] (g^[t.1 - s.1] f) := by rw [← Function.iterate_add_apply]; congr 2; omega
    rw [e, hiso]
  · refine ⟨(s.1 - t.1, 0, 0), hmem _ (by omega) (by omega), fun f => ?_⟩
    have e : g^[s.1] f = g^[t.1] (g^[s.1 - t.1] f) := by rw [← Function.iterate_add_apply]; congr 2; omega
    rw [e, hsym, hiso]

/-- Single orbitals of a lattice of sites, by number; different orbitals are orthogonal. -/
private def siteChecks : Checks ℚ Nat := { tol := 1 / 10 ^ 6, overlap := fun a b => if a = b then 1 else 0, mfTol := 1 / 10 ^ 5, mfError := fun _ _ => 0, checkMf := true }

/-- Two fragments which the inversion exchanges: no error, though the image of each is the other. -/
theorem symmetric_images_overlap :
    create siteChecks (fun _ f => 1 - f) .inversion [0, 1] = .ok [(0, [1]), (1, [0])] ∧ ¬ NoOverlaps siteChecks [0, 1, 1, 0] := by
  constructor
  · have h := (symmetric_images_decision siteChecks (fun _ f => 1 - f) .inversion [0, 1]).1 (by
      intro f hf s hs
      simp only [List.mem_cons, List.not_mem_nil, or_false] at hf
      rcases hf with rfl | rfl <;> exact ⟨by show (0 : ℚ) ≤ 1 / 10 ^ 6; decide +kernel, fun _ _ => by show (0 : ℚ) ≤ 1 / 10 ^ 5; decide +kernel⟩)
    exact h
  · intro h
    have h1 := (List.pairwise_cons.mp (List.pairwise_cons.mp h).2).1 1 List.mem_cons_self
    have h2 : ¬ ((1 : ℚ) ≤ 1 / 10 ^ 6) := by decide +kernel
    exact h2 h1.1

/-- A ring of six sites, with fragments 0 and 1, and its rotations of order three. -/
example : ∃ r, create siteChecks (fun s f => (f + 2 * s.1) % 6) (.rotation 3) [0, 1] = .ok r ∧ r = [(0, [2, 4]), (1, [3, 5])] := by
  refine ⟨_, (symmetric_images_decision siteChecks (fun s f => (f + 2 * s.1) % 6) (.rotation 3) [0, 1]).1 ?_, by decide⟩
  intro f hf s hs
  have hs' : s = (1, 0, 0) ∨ s = (2, 0, 0) := by
    have : s ∈ [(1, 0, 0), (2, 0, 0)] := hs
    simpa using this
  simp only [List.mem_cons, List.not_mem_nil, or_false] at hf
  rcases hf with rfl | rfl <;> rcases hs' with rfl | rfl <;>
    exact ⟨by show (0 : ℚ) ≤ 1 / 10 ^ 6; decide +kernel, fun _ _ => by show (0 : ℚ) ≤ 1 / 10 ^ 5; decide +kernel⟩
/-- A fragment which is its own image: RuntimeError. -/
example : create siteChecks (fun _ f => 2 - f) .inversion [1] = .error .runtimeError :=
  (symmetric_images_decision siteChecks (fun _ f => 2 - f) .inversion [1]).2 ⟨1, List.mem_cons_self, (1, 0, 0), List.mem_cons_self, fun h => by
    have h2 : ¬ ((1 : ℚ) ≤ 1 / 10 ^ 6) := by decide +kernel
    exact h2 h.1⟩

end Vayesta.Props
