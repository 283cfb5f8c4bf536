import Verif.Model.WithSend
import Mathlib.Data.List.Basic

/-! C55: fragment results sent to one process. -/

namespace Vayesta.Props
open Vayesta Vayesta.WithSend

variable {V : Type}

/-- Messages of one source and tag in a list of calls. -/
private def msgs (l : List (Call V)) (src tag : Nat) : List V := (l.filter fun c => c.src = src ∧ c.tag = tag).map (·.val)

private theorem msgs_append (l m : List (Call V)) (s t : Nat) : msgs (l ++ m) s t = msgs l s t ++ msgs m s t := by
  unfold msgs; rw [List.filter_append, List.map_append]

private theorem take_succ_of {l : List (Call V)} {i : Nat} {c : Call V} (h : l[i]? = some c) : l.take (i + 1) = l.take i ++ [c] := by
  rw [List.take_add_one, h]; rfl

/-- Invariant when all processes run the same program. -/
private structure SInv (calls : List (Call V)) (dest : Nat) (s : State V) : Prop where
  queue : ∀ i t, i ≠ dest → msgs (calls.take (s.pc i)) i t = msgs (calls.take (s.pc dest)) i t ++ s.queue i t
  own : ∀ t, s.queue dest t = []
  out : ∀ r, s.out r = (calls.take (s.pc r)).map fun c => if r = c.src ∨ r = dest then some c.val else none

private theorem msgs_split (calls : List (Call V)) (i j : Nat) (c : Call V) (hc : calls[j]? = some c) (v : V) (q : List V)
    (h : msgs (calls.take i) c.src c.tag = msgs (calls.take j) c.src c.tag ++ v :: q) : j < i ∧ v = c.val := by
  have hj : j < i := by
    by_contra hle
    have hle : i ≤ j := by omega
    have hl : (msgs (calls.take i) c.src c.tag).length ≤ (msgs (calls.take j) c.src c.tag).length := by
      have hsp : calls.take j = calls.take i ++ (calls.take j).drop i := by
        conv_lhs => rw [← List.take_append_drop i (calls.take j)]
        rw [List.take_take, Nat.min_eq_left hle]
      rw [hsp, msgs_append, List.length_append]
      omega
    rw [h] at hl
    simp at hl
    omega
  refine ⟨hj, ?_⟩
  have hsp : calls.take i = calls.take (j + 1) ++ (calls.take i).drop (j + 1) := by
    conv_lhs => rw [← List.take_append_drop (j + 1) (calls.take i)]
    rw [List.take_take, Nat.min_eq_left hj]
  rw [hsp, take_succ_of hc, msgs_append, msgs_append, List.append_assoc] at h
  have h' := List.append_cancel_left h
  have hm : msgs [c] c.src c.tag = [c.val] := by simp [msgs]
  rw [hm] at h'
  simp only [List.singleton_append, List.cons.injEq] at h'
  exact h'.1.symm

private theorem sinv_step (calls : List (Call V)) (dest : Nat) (s t : State V) (r : Nat) (h : SInv calls dest s)
    (hs : step (fun _ => calls) dest s r = some t) : SInv calls dest t := by
  unfold step at hs
  cases hc : calls[s.pc r]? with
  | none => simp only [hc] at hs; cases hs
  | some c =>
    simp only [hc] at hs
    have htake := take_succ_of hc
    by_cases hr : r = c.src
    · rw [if_pos hr] at hs
      injection hs with hs
      subst hs
      refine ⟨?_, ?_, ?_⟩
      · intro i tt hi
        simp only
        by_cases hrd : r = dest
        · have hir : i ≠ r := by rw [hrd]; exact hi
          simp only [if_pos hrd, upd, if_neg hir, if_pos hrd.symm]
          rw [htake, msgs_append]
          have : msgs [c] i tt = [] := by
            unfold msgs
            rw [List.filter_cons_of_neg]
            · rfl
            · simp only [decide_eq_true_eq, not_and]
              intro h1
              exact absurd (h1.symm.trans hr.symm) hir
          rw [this, List.append_nil, hrd, ← h.queue i tt hi]
        · have hdr : dest ≠ r := fun h => hrd h.symm
          simp only [if_neg hrd, upd, if_neg hdr]
          by_cases hir : i = r
          · subst hir
            simp only [if_true, true_and]
            rw [htake, msgs_append, h.queue i tt hi]
            by_cases htt : tt = c.tag
            · have : msgs [c] i tt = [c.val] := by simp [msgs, hr, htt]
              rw [this, if_pos htt, List.append_assoc]
            · have : msgs [c] i tt = [] := by simp [msgs, hr, Ne.symm htt]
              rw [this, if_neg htt, List.append_nil]
          · simp only [hir, false_and, if_false]
            exact h.queue i tt hi
      · intro tt
        simp only
        by_cases hrd : r = dest
        · rw [if_pos hrd]; exact h.own tt
        · rw [if_neg hrd]
          refine (if_neg (fun h' => hrd h'.1.symm)).trans ?_
          exact h.own tt
      · intro i
        simp only [upd]
        by_cases hir : i = r
        · subst hir
          simp only [if_true]
          rw [h.out i, htake, List.map_append]
          simp [hr]
        · simp only [if_neg hir]; exact h.out i
    · rw [if_neg hr] at hs
      by_cases hrd : r = dest
      · rw [if_pos hrd] at hs
        have hsd : c.src ≠ dest := fun h => hr (hrd.trans h.symm)
        cases hq : s.queue c.src c.tag with
        | nil => simp only [hq] at hs; cases hs
        | cons v q =>
          simp only [hq] at hs
          injection hs with hs
          subst hs
          have hqi := h.queue c.src c.tag hsd
          rw [hq, ← hrd] at hqi
          obtain ⟨hlt, hv⟩ := msgs_split calls _ _ c hc v q hqi
          refine ⟨?_, ?_, ?_⟩
          · intro i tt hi
            have hir : i ≠ r := by rw [hrd]; exact hi
            simp only [upd, if_neg hir, if_pos hrd.symm]
            rw [htake, msgs_append, h.queue i tt hi, ← hrd]
            by_cases hm : i = c.src ∧ tt = c.tag
            · rw [if_pos hm]
              obtain ⟨rfl, rfl⟩ := hm
              have : msgs [c] c.src c.tag = [c.val] := by simp [msgs]
              rw [this, hq, hv, List.append_assoc]
              rfl
            · rw [if_neg hm]
              have : msgs [c] i tt = [] := by
                unfold msgs
                rw [List.filter_cons_of_neg]
                · rfl
                · simp only [decide_eq_true_eq]
                  rintro ⟨h1, h2⟩
                  exact hm ⟨h1.symm, h2.symm⟩
              rw [this, List.append_nil]
          · intro tt
            simp only
            rw [if_neg (fun h' => hsd h'.1.symm)]
            exact h.own tt
          · intro i
            simp only [upd]
            by_cases hir : i = r
            · subst hir
              simp only [if_true]
              rw [h.out i, htake, List.map_append]
              simp [hrd, hv]
            · simp only [if_neg hir]; exact h.out i
      · rw [if_neg hrd] at hs
        injection hs with hs
        subst hs
        refine ⟨?_, h.own, ?_⟩
        · intro i tt hi
          have hdr : dest ≠ r := fun h => hrd h.symm
          simp only [upd, if_neg hdr]
          by_cases hir : i = r
          · subst hir
            simp only [if_true]
            rw [htake, msgs_append]
            have : msgs [c] i tt = [] := by
              unfold msgs
              rw [List.filter_cons_of_neg]
              · rfl
              · simp only [decide_eq_true_eq, not_and]
                intro h1
                exact absurd h1.symm hr
            rw [this, List.append_nil]
            exact h.queue i tt hi
          · simp only [if_neg hir]
            exact h.queue i tt hi
        · intro i
          simp only [upd]
          by_cases hir : i = r
          · subst hir
            simp only [if_true]
            rw [h.out i, htake, List.map_append]
            simp [hr, hrd]
          · simp only [if_neg hir]; exact h.out i

private theorem sinv_exec (calls : List (Call V)) (dest : Nat) : ∀ (schedule : List Nat) (s : State V), SInv calls dest s →
    SInv calls dest (exec (fun _ => calls) dest s schedule)
  | [], _, h => h
  | r :: rest, s, h => by
    apply sinv_exec calls dest rest
    show SInv calls dest ((step (fun _ => calls) dest s r).getD s)
    cases hs : step (fun _ => calls) dest s r with
    | none => exact h
    | some t => exact sinv_step calls dest s t r h hs

private theorem sinv_init (calls : List (Call V)) (dest : Nat) : SInv calls dest State.init :=
  ⟨fun _ _ _ => rfl, fun _ => rfl, fun _ => rfl⟩

/-- **C55**: if all processes make the same calls, then under every schedule each call returns, on the fragment's own process and on the
destination, the value computed on the fragment's process, and `None` elsewhere. -/
theorem with_send_values_partial (calls : List (Call V)) (dest : Nat) (schedule : List Nat) (r : Nat) :
    let s := exec (fun _ => calls) dest State.init schedule
    s.out r = (calls.take (s.pc r)).map fun c => if r = c.src ∨ r = dest then some c.val else none :=
  (sinv_exec calls dest schedule _ (sinv_init calls dest)).out r

/-- **C55**: no deadlock: as long as some process has calls left, some process can make progress. -/
theorem with_send_progress (n : Nat) (calls : List (Call V)) (dest : Nat) (hc : ∀ c ∈ calls, c.src < n) (schedule : List Nat)
    (r : Nat) (hr : r < n) (hleft : (exec (fun _ => calls) dest State.init schedule).pc r < calls.length) :
    ∃ r' < n, (step (fun _ => calls) dest (exec (fun _ => calls) dest State.init schedule) r').isSome := by
  have h := sinv_exec calls dest schedule _ (sinv_init calls dest)
  generalize exec (fun _ => calls) dest State.init schedule = s at *
  -- a process other than the destination is never blocked
  have free : ∀ i, i ≠ dest → s.pc i < calls.length → (step (fun _ => calls) dest s i).isSome := by
    intro i hi hl
    unfold step
    simp only [List.getElem?_eq_getElem hl]
    split
    · rfl
    · simp [hi]
  by_cases hrd : r = dest
  · subst hrd
    cases hstep : step (fun _ => calls) r s r with
    | some t => exact ⟨r, hr, by rw [hstep]; rfl⟩
    | none =>
      have hcs := List.getElem?_eq_getElem hleft
      generalize hcdef : calls[s.pc r] = c at hcs
      unfold step at hstep
      simp only [hcs] at hstep
      by_cases h1 : r = c.src
      · rw [if_pos h1] at hstep; cases hstep
      · rw [if_neg h1, if_pos trivial] at hstep
        cases hq : s.queue c.src c.tag with
        | cons v q => simp only [hq] at hstep; cases hstep
        | nil =>
          have hsd : c.src ≠ r := fun h => h1 h.symm
          have hqi := h.queue c.src c.tag hsd
          rw [hq, List.append_nil] at hqi
          have hpc : s.pc c.src < calls.length := by
            by_contra hge
            rw [List.take_of_length_le (Nat.not_lt.1 hge)] at hqi
            have hsp : calls = calls.take (s.pc r) ++ c :: calls.drop (s.pc r + 1) := by
              conv_lhs => rw [← List.take_append_drop (s.pc r) calls]
              rw [List.drop_eq_getElem_cons hleft, hcdef]
            have hlen := congrArg List.length hqi
            conv_lhs at hlen => rw [hsp]
            rw [msgs_append, List.length_append] at hlen
            have hpos : 0 < (msgs (c :: calls.drop (s.pc r + 1)) c.src c.tag).length := by simp [msgs]
            omega
          exact ⟨c.src, hc c (List.mem_of_getElem? hcs), free c.src hsd hpc⟩
  · exact ⟨r, hr, free r hrd hleft⟩

/-- **C55**: when all processes are done, no message is left over. -/
theorem with_send_drained (n : Nat) (calls : List (Call V)) (dest : Nat) (hd : dest < n) (schedule : List Nat)
    (hdone : ∀ r < n, (exec (fun _ => calls) dest State.init schedule).pc r = calls.length) :
    ∀ r < n, ∀ t, (exec (fun _ => calls) dest State.init schedule).queue r t = [] := by
  have h := sinv_exec calls dest schedule _ (sinv_init calls dest)
  generalize exec (fun _ => calls) dest State.init schedule = s at *
  intro r hr t
  by_cases hrd : r = dest
  · rw [hrd]; exact h.own t
  · have hq := h.queue r t hrd
    rw [hdone r hr, hdone dest hd] at hq
    exact List.self_eq_append_right.1 hq

/-- Invariant of the loops over own fragments. -/
private structure OInv (calls : List (Call V)) (dest : Nat) (s : State V) : Prop where
  queue : ∀ i t, i ≠ dest → s.queue i t = msgs ((ownCalls calls i).take (s.pc i)) i t
  pc : ∀ i, s.pc i ≤ (ownCalls calls i).length

private theorem own_src {calls : List (Call V)} {r i : Nat} {c : Call V} (h : (ownCalls calls r)[i]? = some c) : c.src = r := by
  have := List.mem_of_getElem? h
  unfold ownCalls at this
  rw [List.mem_filter] at this
  simpa using this.2

private theorem oinv_step (calls : List (Call V)) (dest : Nat) (s t : State V) (r : Nat) (h : OInv calls dest s)
    (hs : step (ownCalls calls) dest s r = some t) : OInv calls dest t := by
  unfold step at hs
  cases hc : (ownCalls calls r)[s.pc r]? with
  | none => simp only [hc] at hs; cases hs
  | some c =>
    simp only [hc] at hs
    have htake := take_succ_of hc
    have hr : r = c.src := (own_src hc).symm
    rw [if_pos hr] at hs
    injection hs with hs
    subst hs
    refine ⟨?_, ?_⟩
    · intro i tt hi
      simp only
      by_cases hrd : r = dest
      · have hir : i ≠ r := by rw [hrd]; exact hi
        simp only [if_pos hrd, upd, if_neg hir]
        exact h.queue i tt hi
      · simp only [if_neg hrd, upd]
        by_cases hir : i = r
        · subst hir
          simp only [if_true, true_and]
          rw [htake, msgs_append, ← h.queue i tt hi]
          by_cases htt : tt = c.tag
          · have : msgs [c] i tt = [c.val] := by simp [msgs, hr, htt]
            rw [this, if_pos htt]
          · have : msgs [c] i tt = [] := by simp [msgs, hr, Ne.symm htt]
            rw [this, if_neg htt, List.append_nil]
        · simp only [hir, false_and, if_false]
          exact h.queue i tt hi
    · intro i
      simp only [upd]
      split
      · rename_i hir
        subst hir
        have := (List.getElem?_eq_some_iff.1 hc).1
        omega
      · exact h.pc i

/-- **C55** (limit): in the loop of the DMET energy, where each process only calls the function for its own fragments, the results of
all fragments on other processes are sent but never received: they stay under way when the loop is done. -/
theorem own_loop_leaves_messages (calls : List (Call V)) (dest : Nat) (schedule : List Nat) (r t : Nat) (hr : r ≠ dest)
    (hdone : (exec (ownCalls calls) dest State.init schedule).pc r = (ownCalls calls r).length) :
    (exec (ownCalls calls) dest State.init schedule).queue r t =
      (calls.filter fun c => c.src = r ∧ c.tag = t).map (·.val) := by
  have key : ∀ (schedule : List Nat) (s : State V), OInv calls dest s → OInv calls dest (exec (ownCalls calls) dest s schedule) := by
    intro schedule
    induction schedule with
    | nil => intro s h; exact h
    | cons r rest ih =>
      intro s h
      apply ih
      show OInv calls dest ((step (ownCalls calls) dest s r).getD s)
      cases hs : step (ownCalls calls) dest s r with
      | none => exact h
      | some t => exact oinv_step calls dest s t r h hs
  have h := key schedule State.init ⟨fun _ _ _ => rfl, fun _ => Nat.zero_le _⟩
  rw [h.queue r t hr, hdone, List.take_length]
  unfold msgs ownCalls
  rw [List.filter_filter]
  congr 2
  funext c
  by_cases h1 : c.src = r <;> simp [h1]

/-- **C55** is false after such a loop: a later call of the same function by all processes returns, on the destination, the value of
the earlier call. -/
theorem with_send_stale (a b : V) :
    let prog : Nat → List (Call V) := fun r => if r = 1 then [⟨0, 1, a⟩, ⟨0, 1, b⟩] else [⟨0, 1, b⟩]
    (exec prog 0 State.init [1, 1, 0]).out 0 = [some a] ∧ (exec prog 0 State.init [1, 1, 0]).out 1 = [some a, some b] :=
  ⟨rfl, rfl⟩

/-- Three calls on three processes with a schedule in which the destination first has to wait. -/
example : let calls : List (Call Nat) := [⟨0, 1, 10⟩, ⟨0, 0, 20⟩, ⟨1, 2, 30⟩]
    let s := exec (fun _ => calls) 0 State.init [0, 1, 2, 0, 0, 0, 1, 2, 2, 0, 1]
    s.out 0 = [some 10, some 20, some 30] ∧ s.out 1 = [some 10, none, none] ∧ s.out 2 = [none, none, some 30] ∧
      (∀ r < 3, s.pc r = 3) := ⟨rfl, rfl, rfl, by decide⟩

example : (exec (ownCalls [⟨0, 1, 10⟩, ⟨0, 0, 20⟩, ⟨0, 1, 30⟩]) 0 State.init [0, 1, 1, 0]).queue 1 0 = [10, 30] := rfl

end Vayesta.Props
