import Verif.Model.Cas
import Mathlib.Data.List.Basic
import Mathlib.Data.List.TakeDrop
import Mathlib.Algebra.BigOperators.Group.List.Basic
import Mathlib.Algebra.Order.Ring.Int
import Mathlib.Tactic.Ring

/-! # C17: CAS fragments -/

namespace Vayesta.Props
open Vayesta.Cas

/-- Number of electrons in a set of orbitals. -/
def electronsIn (occ : List Nat) (orbs : List Nat) : Nat := (orbs.map fun i => occ.getD i 0).sum

theorem sum_range_getD (occ : List Nat) (k n : Nat) (h : k + n ≤ occ.length) :
    electronsIn occ (List.range' k n) = ((occ.drop k).take n).sum := by
  induction n generalizing k with
  | zero => simp [electronsIn]
  | succ n ih =>
    have hk : k < occ.length := by omega
    have := ih (k + 1) (by omega)
    unfold electronsIn at this ⊢
    rw [List.range'_succ, List.map_cons, List.sum_cons, this, List.drop_eq_getElem_cons hk, List.take_succ_cons, List.sum_cons]
    simp [List.getD_eq_getElem?_getD, hk]

/-- What the loop computes: the shortest prefix that holds at least `nelec` electrons. -/
theorem casLoop_spec (nelec : Nat) (rem : List Nat) (offset : Int) (curr : Nat) (r : Int × Nat) (h : casLoop nelec rem offset curr = some r) :
    ∃ k ≤ rem.length, r.1 = offset + k ∧ r.2 = curr + (rem.take k).sum ∧ nelec ≤ r.2 ∧ ∀ j < k, curr + (rem.take j).sum < nelec := by
  induction rem generalizing offset curr with
  | nil =>
    unfold casLoop at h
    split at h
    · cases h
    · obtain rfl := Option.some.inj h
      exact ⟨0, by simp, by simp, by simp, by simp; omega, by simp⟩
  | cons o rem ih =>
    unfold casLoop at h
    split at h
    · next hlt =>
      obtain ⟨k, h1, h2, h3, h4, h5⟩ := ih _ _ h
      refine ⟨k + 1, by simpa using h1, by rw [h2]; push_cast; ring, by rw [h3]; simp; omega, h4, ?_⟩
      intro j hj
      cases j with
      | zero => simpa using hlt
      | succ j =>
        have := h5 j (by omega)
        simp only [List.take_succ_cons, List.sum_cons]
        omega
    · obtain rfl := Option.some.inj h
      exact ⟨0, by simp, by simp, by simp, by simp; omega, by simp⟩

/-- The loop never runs past orbital 0. -/
theorem casLoop_isSome (nelec : Nat) (rem : List Nat) (offset : Int) (curr : Nat) (h : nelec ≤ curr + rem.sum) :
    (casLoop nelec rem offset curr).isSome := by
  induction rem generalizing offset curr with
  | nil =>
    unfold casLoop
    rw [if_neg (by simp at h; omega)]
    rfl
  | cons o rem ih =>
    unfold casLoop
    split
    · exact ih _ _ (by simp at h; omega)
    · rfl

theorem lastOcc_spec (occ : List Nat) (last : Nat) (h : lastOcc occ = some last) :
    last < occ.length ∧ 0 < occ.getD last 0 ∧ ∀ i, last < i → occ.getD i 0 = 0 := by
  unfold lastOcc at h
  have hmem := List.mem_of_getLast? h
  have hm := List.mem_filter.1 hmem
  refine ⟨List.mem_range.1 hm.1, by simpa using hm.2, ?_⟩
  intro i hi
  by_contra hne
  have hi2 : i < occ.length := by
    by_contra hge
    exact hne (by rw [List.getD_eq_getElem?_getD, List.getElem?_eq_none (by omega)]; rfl)
  have himem : i ∈ (List.range occ.length).filter fun i => 0 < occ.getD i 0 :=
    List.mem_filter.2 ⟨List.mem_range.2 hi2, by simpa using Nat.pos_of_ne_zero hne⟩
  have hsorted : ((List.range occ.length).filter fun i => 0 < occ.getD i 0).Pairwise (· < ·) :=
    List.Pairwise.filter _ List.pairwise_lt_range
  obtain ⟨init, hinit⟩ : ∃ init, (List.range occ.length).filter (fun i => 0 < occ.getD i 0) = init ++ [last] := by
    refine ⟨_, (List.dropLast_append_getLast? last h).symm⟩
  rw [hinit] at himem hsorted
  rcases List.mem_append.1 himem with hm | hm
  · have := (List.pairwise_append.1 hsorted).2.2 i hm last (by simp)
    omega
  · simp at hm; omega

theorem drop_last_sum (occ : List Nat) (last : Nat) (h : ∀ i, last < i → occ.getD i 0 = 0) (n : Nat) : (((occ.drop (last + 1))).take n).sum = 0 := by
  apply List.sum_eq_zero
  intro x hx
  have hx := List.mem_of_mem_take hx
  obtain ⟨i, hi, rfl⟩ := List.mem_iff_getElem.1 hx
  rw [List.getElem_drop]
  have := h (last + 1 + i) (by omega)
  have hlen : last + 1 + i < occ.length := by simp at hi; omega
  simpa [List.getD_eq_getElem?_getD, hlen] using this

variable {K : Type} [Ring K] [LinearOrder K]

/-- Electrons in the `j` orbitals ending at the last occupied one. -/
theorem take_reverse_sum (occ : List Nat) (last j : Nat) (hl : last < occ.length) (hj : j ≤ last + 1) :
    (((occ.take (last + 1)).reverse).take j).sum = electronsIn occ (List.range' (last + 1 - j) j) := by
  rw [sum_range_getD occ _ _ (by omega), List.take_reverse, List.sum_reverse, List.length_take,
    Nat.min_eq_left (by omega), List.drop_take]
  congr 2
  omega

theorem sum_reverse_take_last (occ : List Nat) (last : Nat) (h : ∀ i, last < i → occ.getD i 0 = 0) :
    ((occ.take (last + 1)).reverse).sum = occ.sum := by
  rw [List.sum_reverse]
  conv_rhs => rw [← List.take_append_drop (last + 1) occ, List.sum_append]
  have := drop_last_sum occ last h (occ.drop (last + 1)).length
  rw [List.take_length] at this
  omega

/-- Outcome of a call whose request does not exceed the system: `k` is the smallest number of orbitals, ending at the last
occupied one, that holds at least `nelec` electrons. -/
theorem addCas_eq {occ : List Nat} {energies : List (List K)} {tol : K} {ncas nelec last : Nat}
    (hsum : nelec ≤ occ.sum) (hlen : ncas ≤ occ.length) (hlast : lastOcc occ = some last) :
    ∃ k, k ≤ last + 1 ∧ nelec ≤ electronsIn occ (List.range' (last + 1 - k) k) ∧
      (∀ j < k, electronsIn occ (List.range' (last + 1 - j) j) < nelec) ∧
      addCas occ energies tol ncas nelec =
        if nelec < electronsIn occ (List.range' (last + 1 - k) k) ∨ ncas + 1 < k then .error .valueError
        else (checkAll tol (last + 1 - k) (last + 1 - k + ncas) energies).bind fun _ =>
          if ncas = 0 then .error .indexError else .ok (List.range' (last + 1 - k) ncas) := by
  obtain ⟨hl1, hl2, hl3⟩ := lastOcc_spec occ last hlast
  have hlen' : ((occ.take (last + 1)).reverse).length = last + 1 := by simp; omega
  obtain ⟨r, hr⟩ := Option.isSome_iff_exists.1 (casLoop_isSome nelec (occ.take (last + 1)).reverse (-1) 0
    (by rw [sum_reverse_take_last occ last hl3]; omega))
  obtain ⟨k, h1, h2, h3, h4, h5⟩ := casLoop_spec _ _ _ _ _ hr
  rw [hlen'] at h1
  rw [take_reverse_sum occ last k hl1 h1, Nat.zero_add] at h3
  refine ⟨k, h1, by omega, ?_, ?_⟩
  · intro j hj
    have := h5 j hj
    rw [take_reverse_sum occ last j hl1 (by omega)] at this
    omega
  · unfold addCas
    rw [if_neg (by omega), if_neg (by omega), hlast]
    obtain ⟨off, cur⟩ := r
    simp only at h2 h3
    simp only [hr]
    have hstart : ((last : Int) - off).toNat = last + 1 - k := by omega
    rw [hstart, h3]
    by_cases hc : nelec < electronsIn occ (List.range' (last + 1 - k) k) ∨ ncas + 1 < k
    · rw [if_pos hc, if_pos (by rcases hc with hc | hc; exact Or.inl hc; right; omega)]
    · rw [if_neg hc, if_neg (by rintro (h | h); exact hc (Or.inl h); apply hc; right; omega)]

/-- Everything a successful call tells. -/
theorem addCas_ok {occ : List Nat} {energies : List (List K)} {tol : K} {ncas nelec : Nat} {orbs : List Nat}
    (h : addCas occ energies tol ncas nelec = .ok orbs) :
    ∃ last k, lastOcc occ = some last ∧ k ≤ last + 1 ∧ k ≤ ncas + 1 ∧ orbs = List.range' (last + 1 - k) ncas ∧ 0 < ncas ∧
      electronsIn occ (List.range' (last + 1 - k) k) = nelec ∧
      (∀ j < k, electronsIn occ (List.range' (last + 1 - j) j) < nelec) ∧ checkAll tol (last + 1 - k) (last + 1 - k + ncas) energies = .ok () := by
  have hg : ¬ occ.sum < nelec ∧ ¬ occ.length < ncas ∧ ∃ last, lastOcc occ = some last := by
    unfold addCas at h
    split at h
    · cases h
    · next h1 =>
      split at h
      · cases h
      · next h2 =>
        cases hl : lastOcc occ with
        | none => rw [hl] at h; cases h
        | some last => exact ⟨h1, h2, last, rfl⟩
  obtain ⟨g1, g2, last, hlast⟩ := hg
  obtain ⟨k, h1, h2, h3, h4⟩ := addCas_eq (energies := energies) (tol := tol) (show nelec ≤ occ.sum by omega) (show ncas ≤ occ.length by omega) hlast
  rw [h4] at h
  split at h
  · cases h
  · next hc =>
    cases hk : checkAll tol (last + 1 - k) (last + 1 - k + ncas) energies with
    | error e => rw [hk] at h; cases h
    | ok u =>
      rw [hk] at h
      simp only [Except.bind] at h
      split at h
      · cases h
      · next hn =>
        simp only [Except.ok.injEq] at h
        exact ⟨last, k, hlast, h1, by omega, h.symm, by omega, by omega, h3, hk⟩

/-- No two neighbouring orbitals are degenerate within the tolerance. -/
def NonDegenerate (tol : K) (e : List K) : Prop := ∀ i, i + 1 < e.length → tol ≤ |e.getD (i + 1) 0 - e.getD i 0|

/-- C17: the call succeeds with the window starting `k` orbitals below the last occupied one whenever exactly the requested electrons
are held by these `k ≤ ncas` orbitals and not by fewer, the window fits into the system, and there are no degeneracies. -/
theorem cas_fragment_succeeds (occ : List Nat) (energies : List (List K)) (tol : K) (ncas nelec last k : Nat) (hn : 0 < ncas)
    (hlast : lastOcc occ = some last) (hk : k ≤ ncas) (hk' : k ≤ last + 1) (hsum : electronsIn occ (List.range' (last + 1 - k) k) = nelec)
    (hmin : ∀ j < k, electronsIn occ (List.range' (last + 1 - j) j) < nelec) (hfit : last + 1 - k + ncas ≤ occ.length)
    (hE : ∀ e ∈ energies, e.length = occ.length ∧ NonDegenerate tol e) :
    addCas occ energies tol ncas nelec = .ok (List.range' (last + 1 - k) ncas) := by
  obtain ⟨hl1, hl2, hl3⟩ := lastOcc_spec occ last hlast
  have hle : nelec ≤ occ.sum := by
    rw [← sum_reverse_take_last occ last hl3, ← hsum, ← take_reverse_sum occ last k hl1 hk']
    conv_rhs => rw [← List.take_append_drop k (occ.take (last + 1)).reverse, List.sum_append]
    omega
  obtain ⟨j, h1, h2, h3, h4⟩ := addCas_eq (energies := energies) (tol := tol) hle (show ncas ≤ occ.length by omega) hlast
  have hjk : j ≤ k := by
    by_contra hlt
    have := h3 k (by omega)
    omega
  have hkj : k ≤ j := by
    by_contra hlt
    have := hmin j (by omega)
    omega
  obtain rfl : j = k := by omega
  have hcheck : ∀ es : List (List K), (∀ e ∈ es, e.length = occ.length ∧ NonDegenerate tol e) →
      checkAll tol (last + 1 - j) (last + 1 - j + ncas) es = .ok () := by
    intro es hes
    induction es with
    | nil => rfl
    | cons e es ih =>
      obtain ⟨hel, hend⟩ := hes e (by simp)
      have : checkDegen tol e (last + 1 - j) (last + 1 - j + ncas) = .ok () := by
        unfold checkDegen
        rw [if_neg]
        · split
          · next hpv =>
            rw [if_neg]
            have := hend (last + 1 - j + ncas - 1) (by omega)
            rw [show last + 1 - j + ncas - 1 + 1 = last + 1 - j + ncas by omega] at this
            rw [not_lt]
            simpa [List.getD_eq_getElem?_getD, hpv] using this
          · next hpv => rw [if_pos (by omega)]
        · rintro ⟨hpo, hlt⟩
          have := hend (last + 1 - j - 1) (by omega)
          rw [show last + 1 - j - 1 + 1 = last + 1 - j by omega] at this
          exact absurd hlt (not_lt.2 this)
      simp only [checkAll, this, Except.bind, ih (fun e he => hes e (by simp [he]))]
  rw [h4, if_neg (by omega), hcheck energies hE]
  simp only [Except.bind]
  rw [if_neg (by omega)]

/-- C17 (part): if the orbitals ending at the highest occupied one can supply `nelec` electrons with at most `ncas` of them, a
successful call selects `ncas` consecutive orbitals of the system that hold exactly `nelec` electrons, whatever the occupation
pattern and the orbital energies. What is missing: when one more orbital than `ncas` is needed, the call should raise but does
not, see `cas_fragment_too_small_window`. -/
theorem cas_fragment_partial (occ : List Nat) (energies : List (List K)) (tol : K) (ncas nelec : Nat) (orbs : List Nat) (last k : Nat)
    (h : addCas occ energies tol ncas nelec = .ok orbs) (hE : ∃ e ∈ energies, e.length = occ.length)
    (hlast : lastOcc occ = some last) (hk : k ≤ ncas) (hsum : electronsIn occ (List.range' (last + 1 - k) k) = nelec) :
    electronsIn occ orbs = nelec ∧ orbs.length = ncas ∧ (∃ start, orbs = List.range' start ncas) ∧ ∀ i ∈ orbs, i < occ.length := by
  obtain ⟨last', j, h1, h2, h3, h4, h5, h6, h7, h8⟩ := addCas_ok h
  rw [hlast] at h1
  obtain rfl : last = last' := by simpa using h1
  have hjk : j ≤ k := by
    by_contra hlt
    have := h7 k (by omega)
    omega
  obtain ⟨hl1, hl2, hl3⟩ := lastOcc_spec occ last hlast
  have hfit : last + 1 - j + ncas ≤ occ.length := by
    obtain ⟨e, he, hlen⟩ := hE
    clear h h3 h4 h6 h7 hsum
    induction energies with
    | nil => simp at he
    | cons e' es ih =>
      simp only [checkAll] at h8
      cases hc : checkDegen tol e' (last + 1 - j) (last + 1 - j + ncas) with
      | error er => rw [hc] at h8; cases h8
      | ok u =>
        rw [hc] at h8
        rcases List.mem_cons.1 he with rfl | he
        · unfold checkDegen at hc
          split at hc
          · cases hc
          · split at hc
            · omega
            · split at hc
              · omega
              · cases hc
        · exact ih h8 he
  refine ⟨?_, by simp [h4], ⟨_, h4⟩, ?_⟩
  · rw [h4, sum_range_getD _ _ _ hfit]
    rw [sum_range_getD _ _ _ (by omega)] at h6
    rw [show ncas = j + (ncas - j) by omega, List.take_add, List.sum_append, h6, List.drop_drop]
    rw [show last + 1 - j + j = last + 1 by omega, drop_last_sum occ last hl3, Nat.add_zero]
  · intro i hi
    rw [h4, List.mem_range'_1] at hi
    omega

theorem checkAll_ok {tol : K} {po pv : Nat} {es : List (List K)} (h : checkAll tol po pv es = .ok ()) :
    ∀ e ∈ es, checkDegen tol e po pv = .ok () := by
  induction es with
  | nil => simp
  | cons e es ih =>
    simp only [checkAll] at h
    cases hc : checkDegen tol e po pv with
    | error er => rw [hc] at h; cases h
    | ok u =>
      rw [hc] at h
      intro e' he'
      rcases List.mem_cons.1 he' with rfl | he'
      · exact hc
      · exact ih h e' he'

/-- C17: a window that is accepted lies inside every spin channel and is separated from the orbitals below and above it by at
least the degeneracy tolerance, in every spin channel; in other words, cutting through a degenerate set raises. -/
theorem cas_fragment_gaps (occ : List Nat) (energies : List (List K)) (tol : K) (ncas nelec : Nat) (orbs : List Nat)
    (h : addCas occ energies tol ncas nelec = .ok orbs) :
    ∃ start, orbs = List.range' start ncas ∧ 0 < ncas ∧ ∀ e ∈ energies, start + ncas ≤ e.length ∧
      (∀ i, i + 1 = start → tol ≤ |e.getD start 0 - e.getD i 0|) ∧
      (∀ i, i + 1 = start + ncas → start + ncas < e.length → tol ≤ |e.getD (start + ncas) 0 - e.getD i 0|) := by
  obtain ⟨last, j, h1, h2, h3, h4, h5, h6, h7, h8⟩ := addCas_ok h
  refine ⟨_, h4, h5, ?_⟩
  intro e he
  have hc := checkAll_ok h8 e he
  generalize last + 1 - j = start at hc
  unfold checkDegen at hc
  split at hc
  · cases hc
  · rename_i hlo
    have hlow : ∀ i, i + 1 = start → tol ≤ |e.getD start 0 - e.getD i 0| := by
      rintro i rfl
      have := fun hh => hlo ⟨Nat.succ_pos i, hh⟩
      simpa using this
    split at hc
    · rename_i hpv
      split at hc
      · cases hc
      · rename_i hup
        refine ⟨by omega, hlow, ?_⟩
        intro i hi _
        have hi' : start + ncas - 1 = i := by omega
        rw [hi'] at hup
        rw [not_lt] at hup
        simpa [List.getD_eq_getElem?_getD, hpv] using hup
    · split at hc
      · exact ⟨by omega, hlow, fun i _ hlt => by omega⟩
      · cases hc

/-- Example: a window cutting through a degenerate pair is rejected, at either edge. -/
example : addCas [2, 2, 0, 0] [[(-3 : Int), -3, 5, 9]] 1 2 2 = .error .valueError ∧
    addCas [2, 2, 0, 0] [[(-3 : Int), -2, 5, 5]] 1 2 2 = .error .valueError := by decide

/-- C17: requests that need more electrons or orbitals than there are raise. -/
theorem cas_fragment_rejects (occ : List Nat) (energies : List (List K)) (tol : K) (ncas nelec : Nat)
    (h : occ.sum < nelec ∨ occ.length < ncas) : addCas occ energies tol ncas nelec = .error .valueError := by
  unfold addCas
  by_cases h1 : occ.sum < nelec
  · rw [if_pos h1]
  · rw [if_neg h1, if_pos (h.resolve_left h1)]

/-- C17: the full claim is false. With two doubly occupied orbitals, asking for 4 electrons in one orbital does not raise but
selects one orbital with two electrons. -/
theorem cas_fragment_too_small_window :
    addCas [2, 2, 0, 0] [[(-3 : Int), -1, 5, 9]] 1 1 4 = .ok [0] ∧ electronsIn [2, 2, 0, 0] [0] = 2 := by
  decide

/-- Non-vacuity: an open-shell occupation, three orbitals with three electrons. -/
example : addCas [2, 2, 1, 0, 0] [[(-30 : Int), -20, -10, 5, 9]] 1 3 3 = .ok [1, 2, 3] ∧ lastOcc [2, 2, 1, 0, 0] = some 2 ∧
    electronsIn [2, 2, 1, 0, 0] (List.range' (2 + 1 - 2) 2) = 3 := by decide

end Vayesta.Props
