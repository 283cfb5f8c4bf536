import Verif.Lemmas.HubbardModes
import Mathlib.Tactic.NormNum
import Mathlib.Algebra.Order.Field.Rat
import Mathlib.Algebra.Order.Ring.Unbundled.Rat

/-! # C36: Hubbard lattices -/

namespace Vayesta.Props
open Vayesta.Hubbard HubbardSpec

section OneD
variable {K : Type} [CommRing K]

/-- The words accepted by the one-dimensional model and the factor of the closing bond they stand for. -/
def Boundary1D (n : Nat) (boundary : String) (b : Int) : Prop :=
  (upper boundary = "PBC" ∧ b = 1) ∨ (upper boundary = "APBC" ∧ b = -1) ∨
    (boundary = "auto" ∧ ((n % 4 = 2 ∧ b = 1) ∨ (n % 4 = 0 ∧ b = -1)))

/-- A reordering is valid if it mentions existing sites only. -/
def ValidOrder (n : Nat) (order : Option (List Nat)) : Prop := ∀ l, order = some l → ∀ x ∈ l, x < n

theorem boundary1D_ok (n : Nat) (boundary : String) (b : Int) (h : Boundary1D n boundary b) :
    ∃ w, boundary1D n boundary = .ok (w, b) := by
  have hauto : upper "auto" = "AUTO" := by rfl
  have p1 : upper "PBC" = "PBC" := by rfl
  have p2 : upper "APBC" = "APBC" := by rfl
  rcases h with ⟨h, rfl⟩ | ⟨h, rfl⟩ | ⟨rfl, ⟨h, rfl⟩ | ⟨h, rfl⟩⟩
  · have : boundary ≠ "auto" := by rintro rfl; rw [hauto] at h; exact absurd h (by decide)
    exact ⟨boundary, by simp [boundary1D, this, h]⟩
  · have : boundary ≠ "auto" := by rintro rfl; rw [hauto] at h; exact absurd h (by decide)
    exact ⟨boundary, by simp [boundary1D, this, h]⟩
  · exact ⟨"PBC", by simp [boundary1D, h, p1]⟩
  · exact ⟨"APBC", by simp [boundary1D, h, p2]⟩

theorem boundary1D_inv (n : Nat) (boundary : String) (w : String) (b : Int) (h : boundary1D n boundary = .ok (w, b)) :
    Boundary1D n boundary b := by
  have p1 : upper "PBC" = "PBC" := by rfl
  have p2 : upper "APBC" = "APBC" := by rfl
  unfold boundary1D at h
  unfold Boundary1D
  by_cases ha : boundary = "auto"
  · by_cases h2 : n % 4 = 2
    · simp [ha, h2, p1] at h; simp [ha, h2, h.2]
    · by_cases h0 : n % 4 = 0
      · simp [ha, h0, p2] at h; simp [ha, h0, ← h.2]
      · simp [ha, h2, h0] at h
  · by_cases hp : upper boundary = "PBC"
    · simp [ha, hp] at h; simp [hp, h.2]
    · by_cases hq : upper boundary = "APBC"
      · simp [ha, hq] at h; simp [hq, ← h.2]
      · simp [ha, hp, hq] at h

theorem applyOrder_ok (n : Nat) (order : Option (List Nat)) (h : Mat K) (ho : ValidOrder n order) :
    applyOrder n order h = .ok ((order.map List.length).getD n, fun a c => h (origSite order a) (origSite order c)) := by
  cases order with
  | none => rfl
  | some l =>
    have : ∀ x ∈ l, x < n := ho l rfl
    simp only [applyOrder, if_pos this, Option.map_some, Option.getD_some]
    rfl

theorem applyOrder_inv (n : Nat) (order : Option (List Nat)) (h : Mat K) (r : Nat × Mat K)
    (hr : applyOrder n order h = .ok r) : ValidOrder n order := by
  intro l hl
  subst hl
  by_contra hc
  simp only [applyOrder, if_neg hc] at hr
  cases hr

theorem hubbard1D_eq (n : Nat) (t u vnn : K) (boundary : String) (order : Option (List Nat)) (lat : HubbardLattice K)
    (h : hubbard1D n t u vnn boundary order = .ok lat) :
    n ≠ 0 ∧ ValidOrder n order ∧ ∃ b, Boundary1D n boundary b ∧ lat.bfac = [b] ∧ lat.nsite = n ∧ lat.order = order ∧
      lat.u = u ∧ lat.vnn = vnn ∧ lat.size = (order.map List.length).getD n ∧
      lat.h1e = fun a c => hop1D n b t (origSite order a) (origSite order c) := by
  unfold hubbard1D at h
  cases hb : boundary1D n boundary with
  | error e => simp [hb] at h
  | ok wb =>
    obtain ⟨w, b⟩ := wb
    simp only [hb] at h
    split at h
    · cases h
    · rename_i hn
      cases ho : applyOrder n order (hop1D n b t) with
      | error e => simp [ho] at h
      | ok r =>
        have hv := applyOrder_inv n order _ r ho
        rw [applyOrder_ok n order _ hv] at h
        simp only [Except.ok.injEq] at h
        subst h
        exact ⟨hn, hv, b, boundary1D_inv n boundary w b hb, rfl, rfl, rfl, rfl, rfl, rfl, rfl⟩

/-- **C36.** Construction of a chain succeeds exactly for a recognised boundary word (the automatic choice needs an even number of
sites), at least one site and an ordering of existing sites. -/
theorem hubbard1D_succeeds_iff (n : Nat) (t u vnn : K) (boundary : String) (order : Option (List Nat)) :
    (∃ lat, hubbard1D n t u vnn boundary order = .ok lat) ↔
      n ≠ 0 ∧ ValidOrder n order ∧
        (upper boundary = "PBC" ∨ upper boundary = "APBC" ∨ (boundary = "auto" ∧ n % 2 = 0)) := by
  constructor
  · rintro ⟨lat, h⟩
    obtain ⟨hn, hv, b, hb, -⟩ := hubbard1D_eq n t u vnn boundary order lat h
    refine ⟨hn, hv, ?_⟩
    rcases hb with ⟨h, _⟩ | ⟨h, _⟩ | ⟨h, h2⟩
    · exact .inl h
    · exact .inr (.inl h)
    · exact .inr (.inr ⟨h, by omega⟩)
  · rintro ⟨hn, hv, h⟩
    have : ∃ b, Boundary1D n boundary b := by
      rcases h with h | h | ⟨h, h2⟩
      · exact ⟨1, .inl ⟨h, rfl⟩⟩
      · exact ⟨-1, .inr (.inl ⟨h, rfl⟩)⟩
      · rcases (show n % 4 = 2 ∨ n % 4 = 0 by omega) with h4 | h4
        · exact ⟨1, .inr (.inr ⟨h, .inl ⟨h4, rfl⟩⟩)⟩
        · exact ⟨-1, .inr (.inr ⟨h, .inr ⟨h4, rfl⟩⟩)⟩
    obtain ⟨b, hb⟩ := this
    obtain ⟨w, hw⟩ := boundary1D_ok n boundary b hb
    simp only [hubbard1D, hw, hn, if_false, applyOrder_ok n order _ hv]
    exact ⟨_, rfl⟩

/-- **C36.** Odd chains have no automatic boundary (ValueError); an unknown word, also "open", raises NameError. -/
theorem hubbard1D_errors (n : Nat) (t u vnn : K) (boundary : String) (order : Option (List Nat)) :
    (boundary = "auto" → n % 2 = 1 → hubbard1D n t u vnn boundary order = .error .valueError) ∧
      (boundary ≠ "auto" → upper boundary ≠ "PBC" → upper boundary ≠ "APBC" →
        hubbard1D n t u vnn boundary order = .error .nameError) := by
  constructor
  · rintro rfl h
    have h2 : ¬ n % 4 = 2 := by omega
    have h0 : ¬ n % 4 = 0 := by omega
    simp [hubbard1D, boundary1D, h2, h0]
  · intro h1 h2 h3
    simp [hubbard1D, boundary1D, h1, h2, h3]

example : hubbard1D 5 (1 : Int) 0 0 = .error .valueError := (hubbard1D_errors 5 1 0 0 "auto" none).1 rfl rfl
example : hubbard1D 5 (1 : Int) 0 0 "open" = .error .nameError :=
  (hubbard1D_errors 5 1 0 0 "open" none).2 (by decide) (by decide) (by decide)

/-- **C36.** The hopping matrix of a chain is symmetric, for every number of sites, boundary and ordering. -/
theorem hubbard1D_symmetric (n : Nat) (t u vnn : K) (boundary : String) (order : Option (List Nat)) (lat : HubbardLattice K)
    (h : hubbard1D n t u vnn boundary order = .ok lat) (a c : Nat) (ha : a < lat.size) (hc : c < lat.size) :
    lat.h1e a c = lat.h1e c a := by
  obtain ⟨hn, hv, b, hb, -, -, -, -, -, hs, hh⟩ := hubbard1D_eq n t u vnn boundary order lat h
  have hlt : ∀ a, a < lat.size → origSite order a < n := by
    intro a ha
    cases order with
    | none => simpa [hs, origSite] using ha
    | some l =>
      simp only [hs, Option.map_some, Option.getD_some] at ha
      refine hv l rfl _ ?_
      show l.getD a 0 ∈ l
      rw [List.getD_eq_getElem _ _ ha]; exact List.getElem_mem _
  rw [hh]
  simp only
  rw [hop1D_entry n b t _ _ (hlt a ha) (hlt c hc), hop1D_entry n b t _ _ (hlt c hc) (hlt a ha)]
  (repeat' split) <;> first | rfl | omega

/-- **C36.** A chain of at least three sites has hopping `-t` times the bonds of the ring, where the closing bond carries the
boundary factor. The claim for one or two sites is false (`hubbard1D_two_sites`, `hubbard1D_one_site`). -/
theorem hubbard1D_hopping_partial (n : Nat) (hn : 3 ≤ n) (t u vnn : K) (boundary : String) (b : Int)
    (hb : Boundary1D n boundary b) (order : Option (List Nat)) (lat : HubbardLattice K)
    (h : hubbard1D n t u vnn boundary order = .ok lat) (a c : Nat) (ha : a < lat.size) (hc : c < lat.size) :
    lat.h1e a c = -t * (ringBonds n b (origSite order a) (origSite order c) : Int) := by
  obtain ⟨hn, hv, b', hb', -, -, -, -, -, hs, hh⟩ := hubbard1D_eq n t u vnn boundary order lat h
  have hbb : b' = b := by
    have hauto : upper "auto" = "AUTO" := by rfl
    have d1 : ¬ "AUTO" = "PBC" := by decide
    have d2 : ¬ "AUTO" = "APBC" := by decide
    have d3 : ¬ "PBC" = "APBC" := by decide
    have d4 : ¬ "APBC" = "PBC" := by decide
    rcases hb with ⟨h1, rfl⟩ | ⟨h1, rfl⟩ | ⟨rfl, h2⟩ <;> rcases hb' with ⟨h3, rfl⟩ | ⟨h3, rfl⟩ | ⟨h4, h5⟩
    · rfl
    · exact absurd (h1.symm.trans h3) d3
    · subst h4; exact absurd (hauto.symm.trans h1) d1
    · exact absurd (h1.symm.trans h3) d4
    · rfl
    · subst h4; exact absurd (hauto.symm.trans h1) d2
    · exact absurd (hauto.symm.trans h3) d1
    · exact absurd (hauto.symm.trans h3) d2
    · omega
  subst hbb
  have hlt : ∀ a, a < lat.size → origSite order a < n := by
    intro a ha
    cases order with
    | none => simpa [hs, origSite] using ha
    | some l =>
      simp only [hs, Option.map_some, Option.getD_some] at ha
      refine hv l rfl _ ?_
      show l.getD a 0 ∈ l
      rw [List.getD_eq_getElem _ _ ha]; exact List.getElem_mem _
  rw [hh]
  simp only
  have h1 := hlt a ha
  have h2 := hlt c hc
  generalize origSite order a = x at h1
  generalize origSite order c = y at h2
  rw [hop1D_entry n b' t _ _ h1 h2]
  unfold ringBonds
  (repeat' split) <;> first | omega | (push_cast; ring)

example : ∃ lat, hubbard1D 6 (1 : Int) 4 0 "auto" (some [1, 0, 3, 2, 5, 4]) = .ok lat ∧
    lat.h1e 1 4 = -1 * (ringBonds 6 1 0 5 : Int) := by
  obtain ⟨lat, h⟩ := (hubbard1D_succeeds_iff 6 (1 : Int) 4 0 "auto" (some [1, 0, 3, 2, 5, 4])).2
    ⟨by omega, (by intro l hl; cases hl; decide), .inr (.inr ⟨rfl, rfl⟩)⟩
  refine ⟨lat, h, ?_⟩
  have hs : lat.size = 6 := by
    obtain ⟨-, -, b, -, -, -, -, -, -, hs, -⟩ := hubbard1D_eq 6 (1 : Int) 4 0 "auto" _ lat h
    simpa using hs
  have := hubbard1D_hopping_partial 6 (by omega) (1 : Int) 4 0 "auto" 1 (.inr (.inr ⟨rfl, .inl ⟨rfl, rfl⟩⟩)) _ lat h 1 4
    (by omega) (by omega)
  simpa [origSite] using this

/-- The full claim fails for two sites: the closing bond replaces the inner bond instead of adding to it, so a periodic pair hops
with `-t` (two bonds would give `-2 t`) and an antiperiodic pair with `+t` (the two bonds would cancel). -/
theorem hubbard1D_two_sites (t u vnn : K) (boundary : String) (b : Int) (lat : HubbardLattice K)
    (h : hubbard1D 2 t u vnn boundary none = .ok lat) (hb : lat.bfac = [b]) :
    lat.h1e 0 1 = -t * (b : K) ∧ ringBonds 2 b 0 1 = 1 + b := by
  obtain ⟨hn, hv, b', hb', hbf, -, -, -, -, hs, hh⟩ := hubbard1D_eq 2 t u vnn boundary none lat h
  rw [hbf] at hb
  simp only [List.cons.injEq, and_true] at hb
  subst hb
  constructor
  · rw [hh]; simp only [origSite]
    rw [hop1D_entry 2 b' t 0 1 (by omega) (by omega)]
    simp; ring
  · simp [ringBonds]

example : ∃ lat, hubbard1D 2 (1 : Int) 0 0 "PBC" = .ok lat ∧ lat.h1e 0 1 = -1 ∧ -1 * (ringBonds 2 1 0 1) = -2 :=
  ⟨_, rfl, by rfl, by decide⟩

/-- With one site the closing bond is stored once on the diagonal, while a bond from a site to itself counts in both directions. -/
theorem hubbard1D_one_site (t u vnn : K) (boundary : String) (b : Int) (lat : HubbardLattice K)
    (h : hubbard1D 1 t u vnn boundary none = .ok lat) (hb : lat.bfac = [b]) :
    lat.h1e 0 0 = -t * (b : K) ∧ ringBonds 1 b 0 0 = 2 * b := by
  obtain ⟨hn, hv, b', hb', hbf, -, -, -, -, hs, hh⟩ := hubbard1D_eq 1 t u vnn boundary none lat h
  rw [hbf] at hb
  simp only [List.cons.injEq, and_true] at hb
  subst hb
  constructor
  · rw [hh]; simp only [origSite]
    rw [hop1D_entry 1 b' t 0 0 (by omega) (by omega)]
    simp; ring
  · simp [ringBonds]; ring

example : ∃ lat, hubbard1D 1 (1 : Int) 0 0 "PBC" = .ok lat ∧ lat.bfac = [1] := ⟨_, rfl, rfl⟩

end OneD

section Shells
variable {K : Type} [Field K]

/-- Sublattice sign of site `a` of a chain. -/
theorem chain_sign (n : Nat) (hn : n % 2 = 0) (b : Int) (t : K) (a c : Nat) (ha : a < n) (hc : c < n) :
    hop1D n b t a c * (-1) ^ c = -((-1) ^ a * hop1D n b t a c) := by
  rw [hop1D_entry n b t a c ha hc]
  have key : a % 2 ≠ c % 2 → ((-1 : K)) ^ c = -(-1) ^ a := by
    intro h
    rcases Nat.even_or_odd a with e1 | e1 <;> rcases Nat.even_or_odd c with e2 | e2
    · rw [Nat.even_iff] at e1 e2; omega
    · rw [e1.neg_one_pow, e2.neg_one_pow]
    · rw [e1.neg_one_pow, e2.neg_one_pow]; ring
    · rw [Nat.odd_iff] at e1 e2; omega
  split
  · rw [key (by omega)]; ring
  · split
    · rw [key (by omega)]; ring
    · simp

/-- **C36.** The automatic boundary of a chain always gives a closed shell at half filling: the spectrum is symmetric and has no
zero mode. -/
theorem hubbard1D_auto_closed_shell (h2 : (2 : K) ≠ 0) (n : Nat) (t u vnn : K) (ht : t ≠ 0) (order : Option (List Nat))
    (ho : ∀ l, order = some l → l.Perm (List.range n)) (lat : HubbardLattice K)
    (h : hubbard1D n t u vnn "auto" order = .ok lat) : ClosedShellHalfFilled lat.size lat.h1e := by
  obtain ⟨hn, hv, b, hb, -, -, -, -, -, hs, hh⟩ := hubbard1D_eq n t u vnn "auto" order lat h
  have hauto : upper "auto" = "AUTO" := by rfl
  have hb : (n % 4 = 2 ∧ b = 1) ∨ (n % 4 = 0 ∧ b = -1) := by
    rcases hb with ⟨h, _⟩ | ⟨h, _⟩ | ⟨_, h⟩
    · rw [hauto] at h; exact absurd h (by decide)
    · rw [hauto] at h; exact absurd h (by decide)
    · exact h
  have hsz : lat.size = n := by
    rw [hs]
    cases order with
    | none => rfl
    | some l => simpa using (ho l rfl).length_eq
  have base : ClosedShellHalfFilled n (hop1D n b t) := by
    refine ⟨⟨fun a => (-1) ^ a, fun a => neg_one_pow_eq_or K a, fun e v => chiral n _ _ (fun a => neg_one_pow_eq_or K a)
      (fun a c ha hc => chain_sign n (by omega) b t a c ha hc) e v⟩, ?_⟩
    rintro v ⟨⟨a, ha, hne⟩, he⟩
    apply hne
    have he : ∀ a, a < n → ∑ c ∈ Finset.range n, hop1D n b t a c * v c = 0 := by
      intro a ha; rw [he a ha, zero_mul]
    by_cases hn2 : n = 2
    · subst hn2
      have hb1 : b = 1 := by omega
      subst hb1
      have e0 := he 0 (by omega)
      have e1 := he 1 (by omega)
      simp only [Finset.sum_range_succ, Finset.sum_range_zero, hop1D_entry 2 1 t 0 0 (by omega) (by omega),
        hop1D_entry 2 1 t 0 1 (by omega) (by omega), hop1D_entry 2 1 t 1 0 (by omega) (by omega),
        hop1D_entry 2 1 t 1 1 (by omega) (by omega)] at e0 e1
      simp [ht] at e0 e1
      rcases (show a = 0 ∨ a = 1 by omega) with rfl | rfl
      · exact e1
      · exact e0
    · refine hop1D_no_zero_mode h2 n (n / 2) (by omega) (by omega) b t ht ?_ v he a ha
      rcases hb with ⟨h4, rfl⟩ | ⟨h4, rfl⟩
      · have : Odd (n / 2) := by rw [Nat.odd_iff]; omega
        rw [this.neg_one_pow]; simp
      · have : Even (n / 2) := by rw [Nat.even_iff]; omega
        rw [this.neg_one_pow]; simp
  rw [hsz, hh]
  cases order with
  | none => exact base
  | some l => exact closedShell_reorder n _ l (ho l rfl) base

example : ∃ lat, hubbard1D 6 (1 : ℚ) 4 0 "auto" = .ok lat ∧ ClosedShellHalfFilled lat.size lat.h1e := by
  obtain ⟨lat, h⟩ := (hubbard1D_succeeds_iff 6 (1 : ℚ) 4 0 "auto" none).2
    ⟨by omega, (by intro l hl; cases hl), .inr (.inr ⟨rfl, rfl⟩)⟩
  exact ⟨lat, h, hubbard1D_auto_closed_shell (by norm_num) 6 1 4 0 (by norm_num) none (by intro l hl; cases hl) lat h⟩

/-- **C36.** The automatic choice is the only right one: with the opposite boundary a chain of four or more sites, even in number,
has a zero mode. -/
theorem hubbard1D_other_boundary_open (n : Nat) (hn : 4 ≤ n) (t u vnn : K) (boundary : String)
    (hb : (n % 4 = 0 ∧ upper boundary = "PBC") ∨ (n % 4 = 2 ∧ upper boundary = "APBC")) (lat : HubbardLattice K)
    (h : hubbard1D n t u vnn boundary none = .ok lat) : ∃ v, IsEigenvector lat.size lat.h1e 0 v := by
  obtain ⟨-, hv, b, hb', -, -, -, -, -, hs, hh⟩ := hubbard1D_eq n t u vnn boundary none lat h
  have hauto : upper "auto" = "AUTO" := by rfl
  have d1 : ¬ "AUTO" = "PBC" := by decide
  have d2 : ¬ "AUTO" = "APBC" := by decide
  have d3 : ¬ "PBC" = "APBC" := by decide
  have hb : (n % 4 = 0 ∧ b = 1) ∨ (n % 4 = 2 ∧ b = -1) := by
    rcases hb with ⟨h1, h2⟩ | ⟨h1, h2⟩ <;> rcases hb' with ⟨h3, rfl⟩ | ⟨h3, rfl⟩ | ⟨rfl, h5⟩
    · exact .inl ⟨h1, rfl⟩
    · exact absurd (h2.symm.trans h3) d3
    · exact absurd (hauto.symm.trans h2) d1
    · exact absurd (h3.symm.trans h2) d3
    · exact .inr ⟨h1, rfl⟩
    · exact absurd (hauto.symm.trans h2) d2
  have hsz : lat.size = n := by rw [hs]; rfl
  refine ⟨fun a : Nat => if a % 2 = 0 then (-1 : K) ^ (a / 2) else 0, ⟨0, by omega, by simp⟩, ?_⟩
  intro a ha
  rw [hsz] at ha ⊢
  rw [hh]
  simp only [origSite]
  rw [hop1D_mulVec n (by omega) b t _ a ha, zero_mul]
  by_cases hpar : a % 2 = 0
  · have : ∀ x y : K, -t * (x * (if (if a = 0 then n - 1 else a - 1) % 2 = 0 then (-1) ^ ((if a = 0 then n - 1 else a - 1) / 2) else 0)
        + y * (if (if a + 1 = n then 0 else a + 1) % 2 = 0 then (-1) ^ ((if a + 1 = n then 0 else a + 1) / 2) else 0)) = 0 := by
      intro x y
      have z1 : ¬ (if a = 0 then n - 1 else a - 1) % 2 = 0 := by split <;> omega
      have z2 : ¬ (if a + 1 = n then 0 else a + 1) % 2 = 0 := by split <;> omega
      simp [z1, z2]
    exact this _ _
  · have a0 : ¬ a = 0 := by omega
    simp only [a0, if_false]
    have p1 : (a - 1) % 2 = 0 := by omega
    simp only [p1, if_true]
    by_cases hl : a + 1 = n
    · simp only [hl, if_true]
      have q : (a - 1) / 2 = n / 2 - 1 := by omega
      rw [q]
      rcases hb with ⟨h4, rfl⟩ | ⟨h4, rfl⟩
      · have : Odd (n / 2 - 1) := by rw [Nat.odd_iff]; omega
        rw [this.neg_one_pow]; simp
      · have : Even (n / 2 - 1) := by rw [Nat.even_iff]; omega
        rw [this.neg_one_pow]; simp
    · have p2 : (a + 1) % 2 = 0 := by omega
      simp only [hl, if_false, p2, if_true]
      have q : (a + 1) / 2 = (a - 1) / 2 + 1 := by omega
      rw [q, pow_succ]; ring

example : ∃ lat, hubbard1D 8 (1 : ℚ) 4 0 "pbc" = .ok lat ∧ ∃ v, IsEigenvector lat.size lat.h1e 0 v := by
  obtain ⟨lat, h⟩ := (hubbard1D_succeeds_iff 8 (1 : ℚ) 4 0 "pbc" none).2
    ⟨by omega, (by intro l hl; cases hl), .inl rfl⟩
  exact ⟨lat, h, hubbard1D_other_boundary_open 8 (by omega) 1 4 0 "pbc" (.inl ⟨rfl, rfl⟩) lat h⟩

end Shells

section TwoD

/-- The words accepted for one direction of the two-dimensional model. -/
def Boundary2D (w : String) (b : Int) : Prop :=
  (lower w = "open" ∧ b = 0) ∨ ((lower w = "periodic" ∨ lower w = "pbc") ∧ b = 1) ∨
    ((lower w = "anti-periodic" ∨ lower w = "apbc") ∧ b = -1)

theorem bfac2D_iff (w : String) (b : Int) : bfac2D w = .ok b ↔ Boundary2D w b := by
  unfold bfac2D Boundary2D
  by_cases h1 : lower w = "open"
  · simp [h1, eq_comm]
  · by_cases h2 : lower w = "periodic" ∨ lower w = "pbc"
    · have h3 : ¬ (lower w = "anti-periodic" ∨ lower w = "apbc") := by
        rcases h2 with h | h <;> rw [h] <;> decide
      simp only [h1, if_false, false_and, false_or, h2, true_and, h3, or_false, if_true, Except.ok.injEq]
      exact eq_comm
    · by_cases h3 : lower w = "anti-periodic" ∨ lower w = "apbc"
      · simp only [h1, if_false, h2, h3, false_and, false_or, true_and, if_true, Except.ok.injEq]
        exact eq_comm
      · simp only [h1, if_false, h2, h3, false_and, or_self, iff_false]
        intro h; cases h

/-- The pair of boundary words a two-dimensional lattice ends up with: a pair is taken as it is, a single word is used twice, and
"auto" selects by the sizes modulo four, at half filling only. -/
def BoundaryWords (n0 n1 : Nat) (nelectron : Option Nat) (arg : BoundaryArg) (w0 w1 : String) : Prop :=
  arg = .two w0 w1 ∨ (∃ w, arg = .one w ∧ lower w ≠ "auto" ∧ w0 = w ∧ w1 = w) ∨
    (∃ w, arg = .one w ∧ lower w = "auto" ∧ nelectron = some (n0 * n1) ∧ n0 % 2 = 0 ∧ n1 % 2 = 0 ∧ w1 = "APBC" ∧
      w0 = if n0 % 4 = n1 % 4 then "PBC" else "APBC")

theorem boundary2D_iff (n0 n1 : Nat) (nelectron : Option Nat) (arg : BoundaryArg) (w0 w1 : String) :
    boundary2D n0 n1 nelectron arg = .ok (w0, w1) ↔ BoundaryWords n0 n1 nelectron arg w0 w1 := by
  unfold boundary2D BoundaryWords
  cases arg with
  | two b0 b1 => simp
  | one b =>
    by_cases ha : lower b = "auto"
    · by_cases he : nelectron = some (n0 * n1)
      · simp only [ha, he, if_true]
        rcases (show n0 % 4 = 0 ∨ n0 % 4 = 2 ∨ n0 % 2 = 1 by omega) with e0 | e0 | e0 <;>
          rcases (show n1 % 4 = 0 ∨ n1 % 4 = 2 ∨ n1 % 2 = 1 by omega) with e1 | e1 | e1
        · have a0 : n0 % 2 = 0 := by omega
          have a1 : n1 % 2 = 0 := by omega
          simp [e0, e1, a0, a1, ha, eq_comm, and_comm]
          rintro rfl _ h; exact absurd ha.symm h
        · have a0 : n0 % 2 = 0 := by omega
          have a1 : n1 % 2 = 0 := by omega
          simp [e0, e1, a0, a1, ha, eq_comm, and_comm]
          rintro rfl _ h; exact absurd ha.symm h
        · have q0 : ¬ n1 % 4 = 0 := by omega
          have q2 : ¬ n1 % 4 = 2 := by omega
          simp [q0, q2, e1]
          rintro rfl h; exact absurd ha h
        · have a0 : n0 % 2 = 0 := by omega
          have a1 : n1 % 2 = 0 := by omega
          simp [e0, e1, a0, a1, ha, eq_comm, and_comm]
          rintro rfl _ h; exact absurd ha.symm h
        · have a0 : n0 % 2 = 0 := by omega
          have a1 : n1 % 2 = 0 := by omega
          simp [e0, e1, a0, a1, ha, eq_comm, and_comm]
          rintro rfl _ h; exact absurd ha.symm h
        · have q0 : ¬ n1 % 4 = 0 := by omega
          have q2 : ¬ n1 % 4 = 2 := by omega
          simp [q0, q2, e1]
          rintro rfl h; exact absurd ha h
        · have q0 : ¬ n0 % 4 = 0 := by omega
          have q2 : ¬ n0 % 4 = 2 := by omega
          simp [q0, q2, e0]
          rintro rfl h; exact absurd ha h
        · have q0 : ¬ n0 % 4 = 0 := by omega
          have q2 : ¬ n0 % 4 = 2 := by omega
          simp [q0, q2, e0]
          rintro rfl h; exact absurd ha h
        · have q0 : ¬ n0 % 4 = 0 := by omega
          have q2 : ¬ n0 % 4 = 2 := by omega
          simp [q0, q2, e0]
          rintro rfl h; exact absurd ha h
      · simp [ha, he]
        rintro rfl h; exact absurd ha h
    · simp only [ha, if_false, Except.ok.injEq, Prod.mk.injEq, reduceCtorEq, BoundaryArg.one.injEq, false_or]
      constructor
      · rintro ⟨rfl, rfl⟩
        exact .inl ⟨_, rfl, ha, rfl, rfl⟩
      · rintro (⟨w, rfl, _, rfl, rfl⟩ | ⟨w, rfl, h, _⟩)
        · exact ⟨rfl, rfl⟩
        · exact absurd h ha

variable {K : Type} [CommRing K]

/-- The ordering used: the given one, or that of the tiles. -/
def UsedOrder (n0 n1 : Nat) (tiles : Nat × Nat) (order used : Option (List Nat)) : Prop :=
  if order = none ∧ tiles ≠ (1, 1) then ∃ l, tilesOrder n0 n1 tiles.1 tiles.2 = .ok l ∧ used = some l else used = order

/-- Construction in one statement. -/
theorem hubbard2D_ok_iff (n0 n1 : Nat) (t u vnn : K) (ne : Option Nat) (arg : BoundaryArg) (tiles : Nat × Nat)
    (order : Option (List Nat)) (lat : HubbardLattice K) :
    hubbard2D n0 n1 t u vnn ne arg tiles order = .ok lat ↔
      ∃ w0 w1 b0 b1 used, UsedOrder n0 n1 tiles order used ∧ BoundaryWords n0 n1 ne arg w0 w1 ∧ Boundary2D w0 b0 ∧
        Boundary2D w1 b1 ∧ ValidOrder (n0 * n1) used ∧
        lat = ⟨n0 * n1, [n0, n1], [w0, w1], [b0, b1], used, (used.map List.length).getD (n0 * n1),
          fun a c => hop2D n0 n1 b0 b1 t (origSite used a) (origSite used c), u, vnn⟩ := by
  have hord : ∀ used, (if order = none ∧ tiles ≠ (1, 1) then (tilesOrder n0 n1 tiles.1 tiles.2).map some else .ok order)
      = Except.ok (ε := PyErr) used ↔ UsedOrder n0 n1 tiles order used := by
    intro used
    unfold UsedOrder
    split
    · cases htl : tilesOrder n0 n1 tiles.1 tiles.2 with
      | error e => simp [Except.map]
      | ok l => simp [Except.map, eq_comm]
    · simp [eq_comm]
  constructor
  · intro h
    unfold hubbard2D at h
    simp only at h
    cases h1 : (if order = none ∧ tiles ≠ (1, 1) then (tilesOrder n0 n1 tiles.1 tiles.2).map some else .ok order) with
    | error e => rw [h1] at h; cases h
    | ok used =>
      rw [h1] at h
      simp only at h
      cases h2 : boundary2D n0 n1 ne arg with
      | error e => rw [h2] at h; cases h
      | ok w =>
        obtain ⟨w0, w1⟩ := w
        rw [h2] at h
        simp only at h
        cases h3 : bfac2D w0 with
        | error e => rw [h3] at h; cases h
        | ok b0 =>
          rw [h3] at h
          simp only at h
          cases h4 : bfac2D w1 with
          | error e => rw [h4] at h; cases h
          | ok b1 =>
            rw [h4] at h
            simp only at h
            cases h5 : applyOrder (n0 * n1) used (hop2D n0 n1 b0 b1 t) with
            | error e => rw [h5] at h; cases h
            | ok r =>
              have hv := applyOrder_inv _ _ _ r h5
              rw [applyOrder_ok _ _ _ hv] at h
              simp only [Except.ok.injEq] at h
              exact ⟨w0, w1, b0, b1, used, (hord used).1 h1, (boundary2D_iff ..).1 h2, (bfac2D_iff ..).1 h3,
                (bfac2D_iff ..).1 h4, hv, h.symm⟩
  · rintro ⟨w0, w1, b0, b1, used, h1, h2, h3, h4, h5, rfl⟩
    unfold hubbard2D
    simp only [(hord used).2 h1, (boundary2D_iff ..).2 h2, (bfac2D_iff ..).2 h3, (bfac2D_iff ..).2 h4,
      applyOrder_ok _ _ _ h5]

/-- Positions of an ordering are sites. -/
theorem origSite_lt (n : Nat) (order : Option (List Nat)) (hv : ValidOrder n order) (a : Nat)
    (ha : a < (order.map List.length).getD n) : origSite order a < n := by
  cases order with
  | none => simpa [origSite] using ha
  | some l =>
    simp only [Option.map_some, Option.getD_some] at ha
    refine hv l rfl _ ?_
    show l.getD a 0 ∈ l
    rw [List.getD_eq_getElem _ _ ha]; exact List.getElem_mem _

theorem hop2D_site (n0 n1 : Nat) (b0 b1 : Int) (t : K) (x y : Nat) (hx : x < n0 * n1) (hy : y < n0 * n1) :
    hop2D n0 n1 b0 b1 t x y = -t * (latticeBonds n0 n1 b0 b1 (x / n1) (x % n1) (y / n1) (y % n1) : Int) := by
  have h1 : 0 < n1 := Nat.pos_of_ne_zero (by rintro rfl; simp at hx)
  have := hop2D_entry n0 n1 b0 b1 t (x / n1) (x % n1) (y / n1) (y % n1)
    (Nat.div_lt_of_lt_mul (by rw [Nat.mul_comm]; exact hx)) (Nat.mod_lt _ h1)
    (Nat.div_lt_of_lt_mul (by rw [Nat.mul_comm]; exact hy)) (Nat.mod_lt _ h1)
  rw [Nat.mul_comm (x / n1), Nat.mul_comm (y / n1), Nat.div_add_mod, Nat.div_add_mod] at this
  exact this

/-- **C36.** Every entry of the two-dimensional hopping matrix is `-t` times the bonds between the two sites, where site number
`i n1 + j` sits at `(i, j)`; wrapped bonds carry the boundary factor of their direction. No size is excluded. -/
theorem hubbard2D_hopping (n0 n1 : Nat) (t u vnn : K) (ne : Option Nat) (arg : BoundaryArg) (tiles : Nat × Nat)
    (order : Option (List Nat)) (lat : HubbardLattice K) (h : hubbard2D n0 n1 t u vnn ne arg tiles order = .ok lat) :
    ∃ w0 w1 b0 b1, BoundaryWords n0 n1 ne arg w0 w1 ∧ Boundary2D w0 b0 ∧ Boundary2D w1 b1 ∧
      ∀ a c, a < lat.size → c < lat.size →
        lat.h1e a c = -t * (latticeBonds n0 n1 b0 b1 (origSite lat.order a / n1) (origSite lat.order a % n1)
          (origSite lat.order c / n1) (origSite lat.order c % n1) : Int) := by
  obtain ⟨w0, w1, b0, b1, used, h1, h2, h3, h4, h5, rfl⟩ := (hubbard2D_ok_iff ..).1 h
  refine ⟨w0, w1, b0, b1, h2, h3, h4, ?_⟩
  intro a c ha hc
  exact hop2D_site n0 n1 b0 b1 t _ _ (origSite_lt _ _ h5 a ha) (origSite_lt _ _ h5 c hc)

example : ∃ lat, hubbard2D 3 2 (1 : Int) 4 0 none (.two "PBC" "open") = .ok lat ∧ lat.h1e 0 1 = -1 ∧ lat.h1e 0 4 = -1 ∧
    latticeBonds 3 2 1 0 0 0 2 0 = 1 := ⟨_, rfl, by rfl, by rfl, by rfl⟩

/-- **C36.** The two-dimensional hopping matrix is symmetric. -/
theorem hubbard2D_symmetric (n0 n1 : Nat) (t u vnn : K) (ne : Option Nat) (arg : BoundaryArg) (tiles : Nat × Nat)
    (order : Option (List Nat)) (lat : HubbardLattice K) (h : hubbard2D n0 n1 t u vnn ne arg tiles order = .ok lat) (a c : Nat)
    (ha : a < lat.size) (hc : c < lat.size) : lat.h1e a c = lat.h1e c a := by
  obtain ⟨w0, w1, b0, b1, -, -, -, hh⟩ := hubbard2D_hopping n0 n1 t u vnn ne arg tiles order lat h
  rw [hh a c ha hc, hh c a hc ha, latticeBonds_symm]

/-- **C36.** The automatic boundary needs the electron number to be given explicitly and equal to the number of sites, and even
sizes; otherwise it raises NotImplementedError. Unknown words raise ValueError. -/
theorem hubbard2D_errors (n0 n1 : Nat) (t u vnn : K) (ne : Option Nat) (w : String) :
    (lower w = "auto" → (ne ≠ some (n0 * n1) ∨ n0 % 2 = 1 ∨ n1 % 2 = 1) →
        hubbard2D n0 n1 t u vnn ne (.one w) = .error .notImplementedError) ∧
      (lower w ≠ "auto" → (∀ b, ¬ Boundary2D w b) → hubbard2D n0 n1 t u vnn ne (.one w) = .error .valueError) := by
  constructor
  · intro hw hc
    have : boundary2D n0 n1 ne (.one w) = .error .notImplementedError := by
      unfold boundary2D
      simp only [hw, if_true]
      split
      · rename_i he
        have : n0 % 2 = 1 ∨ n1 % 2 = 1 := by rcases hc with h | h; exact absurd he h; exact h
        rw [if_neg (by omega), if_neg (by omega), if_neg (by omega), if_neg (by omega)]
      · rfl
    simp [hubbard2D, this]
  · intro hw hb
    have h1 : boundary2D n0 n1 ne (.one w) = .ok (w, w) := by simp [boundary2D, hw]
    have h2 : bfac2D w = .error .valueError := by
      unfold bfac2D
      rw [if_neg, if_neg, if_neg]
      · intro h; exact hb (-1) (.inr (.inr ⟨h, rfl⟩))
      · intro h; exact hb 1 (.inr (.inl ⟨h, rfl⟩))
      · intro h; exact hb 0 (.inl ⟨h, rfl⟩)
    simp [hubbard2D, h1, h2]

example : hubbard2D 4 4 (1 : Int) 4 0 = .error .notImplementedError :=
  (hubbard2D_errors 4 4 (1 : Int) 4 0 none "auto").1 rfl (.inl (by intro h; cases h))

end TwoD

section Shells2D
variable {K : Type} [Field K]

theorem lattice_sign (n0 n1 : Nat) (h0 : n0 % 2 = 0) (h1 : n1 % 2 = 0) (b0 b1 : Int) (t : K) (a c : Nat) (ha : a < n0 * n1)
    (hc : c < n0 * n1) :
    hop2D n0 n1 b0 b1 t a c * (-1) ^ (c / n1 + c % n1) = -((-1) ^ (a / n1 + a % n1) * hop2D n0 n1 b0 b1 t a c) := by
  have hp : 0 < n1 := Nat.pos_of_ne_zero (by rintro rfl; simp at ha)
  have la : a / n1 < n0 := Nat.div_lt_of_lt_mul (by rw [Nat.mul_comm]; exact ha)
  have lc : c / n1 < n0 := Nat.div_lt_of_lt_mul (by rw [Nat.mul_comm]; exact hc)
  have ma := Nat.mod_lt a hp
  have mc := Nat.mod_lt c hp
  rw [hop2D_site n0 n1 b0 b1 t a c ha hc]
  have key : ∀ x y : Nat, x % 2 ≠ y % 2 → ((-1 : K)) ^ y = -(-1) ^ x := by
    intro x y h
    rcases Nat.even_or_odd x with e1 | e1 <;> rcases Nat.even_or_odd y with e2 | e2
    · rw [Nat.even_iff] at e1 e2; omega
    · rw [e1.neg_one_pow, e2.neg_one_pow]
    · rw [e1.neg_one_pow, e2.neg_one_pow]; ring
    · rw [Nat.odd_iff] at e1 e2; omega
  have rb : ∀ (n : Nat) (b : Int) (x y : Nat), n % 2 = 0 → x < n → y < n → x % 2 = y % 2 → ringBonds n b x y = 0 := by
    intro n b x y hn hx hy hxy
    unfold ringBonds
    rw [if_neg (by omega), if_neg (by omega), if_neg (by omega), if_neg (by omega)]
    rfl
  by_cases hpar : (a / n1 + a % n1) % 2 = (c / n1 + c % n1) % 2
  · have : latticeBonds n0 n1 b0 b1 (a / n1) (a % n1) (c / n1) (c % n1) = 0 := by
      unfold latticeBonds
      have z1 : (if a / n1 = c / n1 then ringBonds n1 b1 (a % n1) (c % n1) else 0) = 0 := by
        split
        · exact rb n1 b1 _ _ h1 ma mc (by omega)
        · rfl
      have z2 : (if a % n1 = c % n1 then ringBonds n0 b0 (a / n1) (c / n1) else 0) = 0 := by
        split
        · exact rb n0 b0 _ _ h0 la lc (by omega)
        · rfl
      rw [z1, z2]; rfl
    rw [this]; simp
  · rw [key _ _ hpar]; ring

/-- The boundary factors chosen automatically. -/
theorem auto_factors (n0 n1 : Nat) (ne : Option Nat) (w0 w1 : String) (b0 b1 : Int)
    (hw : BoundaryWords n0 n1 ne (.one "auto") w0 w1) (h0 : Boundary2D w0 b0) (h1 : Boundary2D w1 b1) :
    n0 % 2 = 0 ∧ n1 % 2 = 0 ∧ b1 = -1 ∧ b0 = if n0 % 4 = n1 % 4 then 1 else -1 := by
  have l1 : lower "auto" = "auto" := by rfl
  have l2 : lower "APBC" = "apbc" := by rfl
  have l3 : lower "PBC" = "pbc" := by rfl
  rcases hw with hw | ⟨w, hw, hn, -⟩ | ⟨w, hw, -, -, p0, p1, rfl, rfl⟩
  · cases hw
  · cases hw; exact absurd l1 hn
  · have f1 : ∀ b, Boundary2D "APBC" b → b = -1 := by
      rintro b (⟨h, _⟩ | ⟨h, _⟩ | ⟨_, h⟩)
      · rw [l2] at h; exact absurd h (by decide)
      · rw [l2] at h; exact absurd h (by decide)
      · exact h
    have f2 : ∀ b, Boundary2D "PBC" b → b = 1 := by
      rintro b (⟨h, _⟩ | ⟨_, h⟩ | ⟨h, _⟩)
      · rw [l3] at h; exact absurd h (by decide)
      · exact h
      · rw [l3] at h; exact absurd h (by decide)
    refine ⟨p0, p1, f1 _ h1, ?_⟩
    split at h0
    · rename_i h; rw [if_pos h]; exact f2 _ h0
    · rename_i h; rw [if_neg h]; exact f1 _ h0

theorem hop2D_auto_closed (h2 : (2 : K) ≠ 0) (n0 n1 : Nat) (t : K) (ht : t ≠ 0) (p0 : n0 % 2 = 0) (p1 : n1 % 2 = 0) (b0 : Int)
    (hb0 : b0 = if n0 % 4 = n1 % 4 then 1 else -1)
    (hcond : n0 % 4 = 0 → n1 % 4 = 0 → Odd (n0 / Nat.gcd n0 n1)) :
    ClosedShellHalfFilled (n0 * n1) (hop2D n0 n1 b0 (-1) t) := by
  refine ⟨⟨fun a => (-1) ^ (a / n1 + a % n1), fun a => neg_one_pow_eq_or K _, fun e v =>
    chiral (n0 * n1) _ _ (fun a => neg_one_pow_eq_or K _)
      (fun a c ha hc => lattice_sign n0 n1 p0 p1 b0 (-1) t a c ha hc) e v⟩, ?_⟩
  rintro v ⟨⟨a, ha, hne⟩, he⟩
  apply hne
  have he : ∀ a, a < n0 * n1 → ∑ c ∈ Finset.range (n0 * n1), hop2D n0 n1 b0 (-1) t a c * v c = 0 := by
    intro a ha; rw [he a ha, zero_mul]
  have q1 : 0 < n1 := Nat.pos_of_ne_zero (by rintro rfl; simp at ha)
  have q0 : 0 < n0 := Nat.pos_of_ne_zero (by rintro rfl; simp at ha)
  have hg : 0 < Nat.gcd n0 n1 := Nat.gcd_pos_of_pos_left _ q0
  obtain ⟨m0, hm0⟩ := Nat.gcd_dvd_left n0 n1
  obtain ⟨m1, hm1⟩ := Nat.gcd_dvd_right n0 n1
  have d0 : n0 / Nat.gcd n0 n1 = m0 := Nat.div_eq_of_eq_mul_right hg hm0
  have d1 : n1 / Nat.gcd n0 n1 = m1 := Nat.div_eq_of_eq_mul_right hg hm1
  have hcop : Nat.gcd m0 m1 = 1 := by
    have := Nat.coprime_div_gcd_div_gcd hg
    rw [d0, d1] at this
    exact this
  have hnot : ¬ (m0 % 2 = 0 ∧ m1 % 2 = 0) := by
    rintro ⟨x, y⟩
    have : 2 ∣ Nat.gcd m0 m1 := Nat.dvd_gcd (Nat.dvd_of_mod_eq_zero x) (Nat.dvd_of_mod_eq_zero y)
    rw [hcop] at this
    omega
  have hgev : Nat.gcd n0 n1 % 2 = 0 :=
    Nat.mod_eq_zero_of_dvd (Nat.dvd_gcd (Nat.dvd_of_mod_eq_zero p0) (Nat.dvd_of_mod_eq_zero p1))
  generalize Nat.gcd n0 n1 = g at *
  have hL : n0 * m1 = n1 * m0 := by rw [hm0, hm1]; ring
  refine hop2D_no_zero_mode h2 n0 n1 m1 m0 b0 (-1) t ht ?_ (by norm_num) hL ?_ ?_ v he a ha
  · rw [hb0]; split <;> norm_num
  · rw [Nat.even_iff, Nat.mul_mod, p0]; simp
  · obtain ⟨g', rfl⟩ : ∃ g', g = 2 * g' := ⟨g / 2, by omega⟩
    by_cases h4 : n0 % 4 = n1 % 4
    · -- both 0 or both 2 modulo 4: b0 = 1
      have hodd : Odd m0 := by
        rcases (show n0 % 4 = 0 ∨ n0 % 4 = 2 by omega) with e | e
        · rw [d0] at hcond; exact hcond e (by omega)
        · rw [Nat.odd_iff]
          by_contra hc
          obtain ⟨x, rfl⟩ : ∃ x, m0 = 2 * x := ⟨m0 / 2, by omega⟩
          have : n0 = 4 * (g' * x) := by rw [hm0]; ring
          omega
      rw [hb0, if_pos h4]
      simp [hodd.neg_one_pow]
    · rw [hb0, if_neg h4]
      have hpar : m0 % 2 ≠ m1 % 2 := by
        intro hc
        have hm0' : m0 % 2 = 1 := by omega
        have hm1' : m1 % 2 = 1 := by omega
        apply h4
        obtain ⟨x, rfl⟩ : ∃ x, m0 = 2 * x + 1 := ⟨m0 / 2, by omega⟩
        obtain ⟨y, rfl⟩ : ∃ y, m1 = 2 * y + 1 := ⟨m1 / 2, by omega⟩
        have e0 : n0 = 4 * (g' * x) + 2 * g' := by rw [hm0]; ring
        have e1 : n1 = 4 * (g' * y) + 2 * g' := by rw [hm1]; ring
        omega
      push_cast
      rw [← pow_add]
      have : Odd (m1 + m0) := by rw [Nat.odd_iff]; omega
      rw [this.neg_one_pow]

/-- **C36.** The automatic boundary of a two-dimensional lattice gives a closed shell at half filling, unless both sizes are
multiples of four and the first contains a higher power of two than the second; then it does not (`hubbard2D_auto_open_shell`). -/
theorem hubbard2D_auto_closed_shell_partial (h2 : (2 : K) ≠ 0) (n0 n1 : Nat) (t u vnn : K) (ht : t ≠ 0) (ne : Option Nat)
    (tiles : Nat × Nat) (order : Option (List Nat)) (lat : HubbardLattice K)
    (h : hubbard2D n0 n1 t u vnn ne (.one "auto") tiles order = .ok lat)
    (ho : ∀ l, lat.order = some l → l.Perm (List.range (n0 * n1)))
    (hcond : n0 % 4 = 0 → n1 % 4 = 0 → Odd (n0 / Nat.gcd n0 n1)) : ClosedShellHalfFilled lat.size lat.h1e := by
  obtain ⟨w0, w1, b0, b1, used, hu, hw, hb0, hb1, hv, rfl⟩ := (hubbard2D_ok_iff ..).1 h
  obtain ⟨p0, p1, rfl, hb⟩ := auto_factors n0 n1 ne w0 w1 b0 b1 hw hb0 hb1
  have base := hop2D_auto_closed h2 n0 n1 t ht p0 p1 b0 hb hcond
  simp only at ho ⊢
  cases used with
  | none => exact base
  | some l =>
    have hp := ho l rfl
    have : ((some l).map List.length).getD (n0 * n1) = n0 * n1 := by simpa using hp.length_eq
    rw [this]
    exact closedShell_reorder (n0 * n1) _ l hp base

example : ∃ lat, hubbard2D 4 8 (1 : ℚ) 4 0 (some 32) (.one "auto") = .ok lat ∧ ClosedShellHalfFilled lat.size lat.h1e := by
  refine ⟨_, (hubbard2D_ok_iff 4 8 (1 : ℚ) 4 0 (some 32) (.one "auto") (1, 1) none _).2
    ⟨"PBC", "APBC", 1, -1, none, by simp [UsedOrder], .inr (.inr ⟨"auto", rfl, rfl, rfl, rfl, rfl, rfl, rfl⟩),
      .inr (.inl ⟨.inr rfl, rfl⟩), .inr (.inr ⟨.inr rfl, rfl⟩), (by intro l hl; cases hl), rfl⟩, ?_⟩
  exact hop2D_auto_closed (by norm_num) 4 8 1 (by norm_num) rfl rfl 1 rfl (fun _ _ => by decide)

theorem sign_shift (d m s : Nat) (hd : 0 < d) : ((-1 : K)) ^ ((s + d * m) / d) = (-1) ^ (s / d) * (-1) ^ m := by
  rw [Nat.add_mul_div_left _ _ hd, pow_add]

/-- **C36 (negation).** If both sizes are multiples of four and the first contains a higher power of two than the second (as for
8 x 4 sites) the automatic choice, periodic in the first and antiperiodic in the second direction, has a zero mode: the half-filled
lattice is an open shell. -/
theorem hubbard2D_auto_open_shell (n0 n1 : Nat) (t u vnn : K) (lat : HubbardLattice K)
    (h : hubbard2D n0 n1 t u vnn (some (n0 * n1)) (.one "auto") = .ok lat) (q0 : 0 < n0) (q1 : 0 < n1)
    (h0 : n0 % 4 = 0) (h1 : n1 % 4 = 0) (hev : Even (n0 / Nat.gcd n0 n1)) :
    ∃ v, IsEigenvector lat.size lat.h1e 0 v := by
  obtain ⟨w0, w1, b0, b1, used, hu, hw, hb0, hb1, hv, rfl⟩ := (hubbard2D_ok_iff ..).1 h
  obtain ⟨p0, p1, rfl, hb⟩ := auto_factors n0 n1 _ w0 w1 b0 b1 hw hb0 hb1
  rw [if_pos (by omega)] at hb
  subst hb
  have hused : used = none := by simpa [UsedOrder] using hu
  subst hused
  simp only [Option.map_none, Option.getD_none, origSite]
  have hg : 0 < Nat.gcd n0 n1 := Nat.gcd_pos_of_pos_left _ q0
  obtain ⟨m0, hm0⟩ := Nat.gcd_dvd_left n0 n1
  obtain ⟨m1, hm1⟩ := Nat.gcd_dvd_right n0 n1
  have d0 : n0 / Nat.gcd n0 n1 = m0 := Nat.div_eq_of_eq_mul_right hg hm0
  have d1 : n1 / Nat.gcd n0 n1 = m1 := Nat.div_eq_of_eq_mul_right hg hm1
  have hcop : Nat.gcd m0 m1 = 1 := by
    have := Nat.coprime_div_gcd_div_gcd hg
    rw [d0, d1] at this
    exact this
  rw [d0] at hev
  have hodd : Odd m1 := by
    rw [Nat.odd_iff]
    by_contra hc
    have : 2 ∣ Nat.gcd m0 m1 := Nat.dvd_gcd hev.two_dvd (Nat.dvd_of_mod_eq_zero (by omega))
    rw [hcop] at this
    omega
  generalize Nat.gcd n0 n1 = d at *
  -- the zero mode
  have g0 : ∀ s : Nat, ((-1 : K)) ^ ((s + n0) / d) = (-1) ^ (s / d) := by
    intro s; rw [hm0, sign_shift d m0 s hg, hev.neg_one_pow, mul_one]
  have g1 : ∀ s : Nat, ((-1 : K)) ^ ((s + n1) / d) = -(-1) ^ (s / d) := by
    intro s; rw [hm1, sign_shift d m1 s hg, hodd.neg_one_pow]; ring
  have e0 : ((-1 : K)) ^ n0 = 1 := (Nat.even_iff.2 p0).neg_one_pow
  let f : Nat → Nat → K := fun i j => (-1) ^ i * (-1) ^ ((i + j) / d)
  let v : Nat → K := fun a => f (a / n1) (a % n1)
  have hvf : ∀ i j, j < n1 → v (i * n1 + j) = f i j := by
    intro i j hj
    show f ((i * n1 + j) / n1) ((i * n1 + j) % n1) = f i j
    rw [Nat.mul_comm i, Nat.mul_add_div q1, Nat.div_eq_of_lt hj, Nat.mul_add_mod, Nat.mod_eq_of_lt hj, Nat.add_zero]
  refine ⟨v, ⟨0, Nat.mul_pos q0 q1, ?_⟩, ?_⟩
  · show f (0 / n1) (0 % n1) ≠ 0
    simp [f]
  · intro a ha
    have li : a / n1 < n0 := Nat.div_lt_of_lt_mul (by rw [Nat.mul_comm]; exact ha)
    have lj := Nat.mod_lt a q1
    have hrow := hop2D_mulVec n0 n1 1 (-1) t v (a / n1) (a % n1) li lj
    rw [Nat.mul_comm (a / n1), Nat.div_add_mod] at hrow
    refine hrow.trans ?_
    rw [zero_mul, getIndex_l n0 n1 1 (-1) _ _ li lj, getIndex_r n0 n1 1 (-1) _ _ li lj, getIndex_u n0 n1 1 (-1) _ _ li lj,
      getIndex_d n0 n1 1 (-1) _ _ li lj]
    generalize a / n1 = i at li
    generalize a % n1 = j at lj
    have hl : (((if j = 0 then (-1) else 1 : Int)) : K) * v (i * n1 + (if j = 0 then n1 - 1 else j - 1))
        = (-1) ^ i * (-1) ^ ((i + j + n1 - 1) / d) * (-1) := by
      rw [hvf _ _ (by split <;> omega)]
      by_cases hj : j = 0
      · simp only [hj, if_true, f]
        rw [show i + (n1 - 1) = i + 0 + n1 - 1 by omega]; push_cast; ring
      · simp only [hj, if_false, f]
        have := g1 (i + (j - 1))
        rw [show i + j + n1 - 1 = i + (j - 1) + n1 by omega, this]; push_cast; ring
    have hr : (((if j + 1 = n1 then (-1) else 1 : Int)) : K) * v (i * n1 + (if j + 1 = n1 then 0 else j + 1))
        = (-1) ^ i * (-1) ^ ((i + j + 1) / d) := by
      rw [hvf _ _ (by split <;> omega)]
      by_cases hj : j + 1 = n1
      · simp only [hj, if_true, f]
        have := g1 (i + 0)
        rw [show i + j + 1 = i + 0 + n1 by omega, this]; push_cast; ring
      · simp only [hj, if_false, f]
        rw [show i + j + 1 = i + (j + 1) by omega]; push_cast; ring
    have hu' : (((if i = 0 then 1 else 1 : Int)) : K) * v ((if i = 0 then n0 - 1 else i - 1) * n1 + j)
        = (-1) ^ i * (-1) ^ ((i + j + n1 - 1) / d) := by
      rw [hvf _ _ lj]
      have hs : ((-1 : K)) ^ (if i = 0 then n0 - 1 else i - 1) = -(-1) ^ i := by
        by_cases hi : i = 0
        · have : Odd (n0 - 1) := by rw [Nat.odd_iff]; omega
          simp only [hi, if_true, this.neg_one_pow, pow_zero]
        · simp only [hi, if_false]
          obtain ⟨k, rfl⟩ : ∃ k, i = k + 1 := ⟨i - 1, by omega⟩
          rw [Nat.add_sub_cancel, pow_succ]; ring
      have ht' : ((-1 : K)) ^ (((if i = 0 then n0 - 1 else i - 1) + j) / d) = -(-1) ^ ((i + j + n1 - 1) / d) := by
        by_cases hi : i = 0
        · simp only [hi, if_true]
          by_cases hj : j = 0
          · subst hj
            rw [show 0 + 0 + n1 - 1 = n1 - 1 by omega]
            have a1 := g0 (n1 - 1)
            have a2 := g1 (n0 - 1)
            rw [show n0 - 1 + n1 = n1 - 1 + n0 by omega] at a2
            rw [a1] at a2
            rw [show n0 - 1 + 0 = n0 - 1 by omega, a2]; ring
          · have a1 := g0 (j - 1)
            have a2 := g1 (j - 1)
            rw [show n0 - 1 + j = j - 1 + n0 by omega, show 0 + j + n1 - 1 = j - 1 + n1 by omega, a1, a2]; ring
        · simp only [hi, if_false]
          have a2 := g1 (i - 1 + j)
          rw [show i + j + n1 - 1 = i - 1 + j + n1 by omega, a2]; ring
      simp only [f, hs, ht']
      by_cases hi : i = 0 <;> simp [hi]
    have hd : (((if i + 1 = n0 then 1 else 1 : Int)) : K) * v ((if i + 1 = n0 then 0 else i + 1) * n1 + j)
        = -((-1) ^ i * (-1) ^ ((i + j + 1) / d)) := by
      rw [hvf _ _ lj]
      by_cases hi : i + 1 = n0
      · simp only [hi, if_true, f]
        have : Odd i := by rw [Nat.odd_iff]; omega
        have a1 := g0 (0 + j)
        rw [show i + j + 1 = 0 + j + n0 by omega, a1, this.neg_one_pow]; push_cast; ring
      · simp only [hi, if_false, f]
        rw [show i + j + 1 = i + 1 + j by omega, pow_succ]; push_cast; ring
    simp only at hl hr hu' hd ⊢
    rw [hl, hr, hu', hd]
    ring

example : ∃ lat, hubbard2D 8 4 (1 : ℚ) 4 0 (some 32) (.one "auto") = .ok lat ∧ ∃ v, IsEigenvector lat.size lat.h1e 0 v := by
  have hk := (hubbard2D_ok_iff 8 4 (1 : ℚ) 4 0 (some 32) (.one "auto") (1, 1) none _).2
    ⟨"PBC", "APBC", 1, -1, none, by simp [UsedOrder], .inr (.inr ⟨"auto", rfl, rfl, rfl, rfl, rfl, rfl, rfl⟩),
      .inr (.inl ⟨.inr rfl, rfl⟩), .inr (.inr ⟨.inr rfl, rfl⟩), (by intro l hl; cases hl), rfl⟩
  exact ⟨_, hk, hubbard2D_auto_open_shell 8 4 1 4 0 _ hk (by omega) (by omega) rfl rfl (by decide)⟩

end Shells2D

end Vayesta.Props
