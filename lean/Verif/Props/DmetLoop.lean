import Verif.Model.DmetLoop
import Mathlib.Algebra.Order.Ring.Int

/-! C53: what the self-consistency loop of DMET reports. -/

namespace Vayesta.Props
open Vayesta Vayesta.DmetLoop

section
variable {M F V R U E K : Type} [LinearOrder K]

/-- One embedding calculation on the mean field `mf` gives the energy `e`, and the potential fitted to it differs from `v` by less
than the tolerance. -/
def SelfConsistent (P : Parts M F V R U E K) (o : Opts K) (mf : M) (v : V) (e : E) : Prop :=
  ∃ f u cpt rdms cpt', P.solve mf cpt = some (e, rdms, cpt') ∧ P.dist (P.fit f (P.upd u rdms).1) v < o.convTol

private theorem dl_cases (P : Parts M F V R U E K) (o : Opts K) (todo n : Nat) (s : Vars M F V R U E K) :
    ∃ mf fock, (n = 0 ∨ mf = P.diag s.fock s.vcorr) ∧
    ((P.solve mf s.cpt = none ∧ ∃ e, loop P o (todo + 1) n s = ⟨mf, fock, s.vcorr, s.cpt, s.upd, e, false, n + 1⟩) ∨
     ∃ e r c, P.solve mf s.cpt = some (e, r, c) ∧
      ((o.oneshot = true ∧ loop P o (todo + 1) n s = ⟨mf, fock, s.vcorr, c, s.upd, some e, false, n + 1⟩) ∨
       (o.oneshot = false ∧ P.dist (P.fit fock (P.upd s.upd r).1) s.vcorr < o.convTol ∧
        loop P o (todo + 1) n s = ⟨mf, fock, s.vcorr, c, (P.upd s.upd r).2, some e, true, n + 1⟩) ∨
       (o.oneshot = false ∧ ∃ v, loop P o (todo + 1) n s =
        loop P o todo (n + 1) ⟨mf, fock, v, c, (P.upd s.upd r).2, some e, false, n + 1⟩))) := by
  rw [loop]
  simp only
  generalize hmf : (if n + 1 > 1 then P.diag s.fock s.vcorr else s.mf) = mf
  generalize hfo : (if n + 1 > 1 ∧ o.chargeConsistent = true then P.fockOf mf else s.fock) = fock
  refine ⟨mf, fock, ?_, ?_⟩
  · cases n with
    | zero => exact .inl rfl
    | succ n => right; rw [← hmf, if_pos (by omega)]
  · cases hsol : P.solve mf s.cpt with
    | none => exact .inl ⟨rfl, _, rfl⟩
    | some y =>
      obtain ⟨e, r, c⟩ := y
      refine .inr ⟨e, r, c, rfl, ?_⟩
      simp only
      cases ho : o.oneshot with
      | true => exact .inl ⟨rfl, rfl⟩
      | false =>
        right
        by_cases hd : P.dist (P.fit fock (P.upd s.upd r).1) s.vcorr < o.convTol
        · left
          refine ⟨rfl, hd, ?_⟩
          rw [if_neg (by simp), if_pos hd]
        · right
          refine ⟨rfl, P.fit fock (P.upd s.upd r).1, ?_⟩
          rw [if_neg (by simp), if_neg hd]

private theorem dl_bound (P : Parts M F V R U E K) (o : Opts K) : ∀ (todo n : Nat) (s : Vars M F V R U E K), 0 < todo →
    n + 1 ≤ (loop P o todo n s).iteration ∧ (loop P o todo n s).iteration ≤ n + todo
  | 0, _, _, h => by omega
  | todo + 1, n, s, _ => by
    obtain ⟨mf, fock, -, ⟨-, e, h⟩ | ⟨e, r, c, -, ⟨-, h⟩ | ⟨-, -, h⟩ | ⟨-, v, h⟩⟩⟩ := dl_cases P o todo n s
    · rw [h]; simp only; omega
    · rw [h]; simp only; omega
    · rw [h]; simp only; omega
    · rw [h]
      cases todo with
      | zero => rw [loop]; simp only; omega
      | succ t =>
        have := dl_bound P o (t + 1) (n + 1) ⟨mf, fock, v, c, (P.upd s.upd r).2, some e, false, n + 1⟩ (by omega)
        omega

private theorem dl_converged (P : Parts M F V R U E K) (o : Opts K) : ∀ (todo n : Nat) (s : Vars M F V R U E K),
    s.converged = false → (loop P o todo n s).converged = true →
    ∃ e, (loop P o todo n s).eCorr = some e ∧ SelfConsistent P o (loop P o todo n s).mf (loop P o todo n s).vcorr e ∧
      o.oneshot = false ∧
      ((loop P o todo n s).iteration = 1 ∨ ∃ f, (loop P o todo n s).mf = P.diag f (loop P o todo n s).vcorr)
  | 0, n, s, hs, hc => by rw [loop] at hc; rw [hs] at hc; cases hc
  | todo + 1, n, s, hs, hc => by
    obtain ⟨mf, fock, hmf, ⟨-, e, h⟩ | ⟨e, r, c, hsol, ⟨-, h⟩ | ⟨ho, hd, h⟩ | ⟨-, v, h⟩⟩⟩ := dl_cases P o todo n s
    · rw [h] at hc; cases hc
    · rw [h] at hc; cases hc
    · rw [h]
      refine ⟨e, rfl, ⟨fock, s.upd, s.cpt, r, c, hsol, hd⟩, ho, ?_⟩
      rcases hmf with hmf | hmf
      · left; rw [hmf]
      · right; exact ⟨s.fock, hmf⟩
    · rw [h] at hc ⊢
      exact dl_converged P o todo (n + 1) _ rfl hc

private theorem dl_early (P : Parts M F V R U E K) (o : Opts K) : ∀ (todo n : Nat) (s : Vars M F V R U E K),
    (loop P o todo n s).converged = false → o.oneshot = false → 0 < todo → (loop P o todo n s).iteration < n + todo →
    ∃ cpt, P.solve (loop P o todo n s).mf cpt = none
  | 0, _, _, _, _, h, _ => by omega
  | todo + 1, n, s, hc, ho, _, hi => by
    obtain ⟨mf, fock, -, ⟨hsol, e, h⟩ | ⟨e, r, c, -, ⟨ho', h⟩ | ⟨-, -, h⟩ | ⟨-, v, h⟩⟩⟩ := dl_cases P o todo n s
    · rw [h]; exact ⟨_, hsol⟩
    · rw [ho] at ho'; cases ho'
    · rw [h] at hc; cases hc
    · rw [h] at hc hi ⊢
      cases todo with
      | zero => rw [loop] at hi; simp only at hi; omega
      | succ t => exact dl_early P o (t + 1) (n + 1) _ hc ho (by omega) (by omega)

private theorem dl_kernel (P : Parts M F V R U E K) (o : Opts K) (x : Obj M V E) (hf : x.nfrag ≠ 0)
    (hb : ¬(o.bathtype = "mp2" ∧ o.maxiter > 1)) (hm : o.mixingVariable = "hl rdm") :
    ∃ v, v = x.vcorr.getD P.zero ∧
      ∃ s, s = loop P o o.maxiter 0 ⟨x.mf, P.fockOf x.mf, v, P.cpt0, P.upd0, x.eCorr, false, x.iteration⟩ ∧
        kernel P o x = (
          { x with mf := s.mf, vcorr := some s.vcorr, eCorr := s.eCorr, converged := s.converged, iteration := s.iteration },
          if s.eCorr.isNone then some .typeError else none) := by
  refine ⟨_, rfl, _, rfl, ?_⟩
  unfold kernel
  rw [if_neg hf, if_neg hb]
  obtain ⟨nf, mf, vc, ec, cv, it⟩ := x
  cases vc <;> simp only [hm, ne_eq, not_true_eq_false, if_false] <;> rfl

/-- **C53**: a DMET calculation without fragments, with the MP2 bath and more than one iteration, or with an unknown mixing variable
raises and leaves energy, mean field and convergence flag as they were. -/
theorem dmet_kernel_rejects (P : Parts M F V R U E K) (o : Opts K) (x : Obj M V E)
    (h : x.nfrag = 0 ∨ (o.bathtype = "mp2" ∧ o.maxiter > 1) ∨ o.mixingVariable ≠ "hl rdm") :
    ∃ e, (kernel P o x).2 = some e ∧ e ≠ .typeError ∧ (kernel P o x).1.mf = x.mf ∧ (kernel P o x).1.eCorr = x.eCorr ∧
      (kernel P o x).1.converged = x.converged := by
  unfold kernel
  by_cases h1 : x.nfrag = 0
  · rw [if_pos h1]; exact ⟨_, rfl, by simp, rfl, rfl, rfl⟩
  · rw [if_neg h1]
    by_cases h2 : o.bathtype = "mp2" ∧ o.maxiter > 1
    · rw [if_pos h2]; exact ⟨_, rfl, by simp, rfl, rfl, rfl⟩
    · rw [if_neg h2]
      have h3 : o.mixingVariable ≠ "hl rdm" := by
        rcases h with h | h | h
        · exact absurd h h1
        · exact absurd h h2
        · exact h
      simp only
      rw [if_pos h3]
      exact ⟨_, rfl, by simp, rfl, rfl, rfl⟩

/-- **C53** (partial): a calculation that ends converged reports the energy of an embedding calculation on the mean field it keeps; the
potential fitted to it agrees with the potential it keeps within the tolerance; and, unless it converged in its first iteration, the
mean field it keeps is the one of that potential. Missing: the last part in the first iteration, where it fails
(`dmet_restart_reports_convergence`). -/
theorem dmet_converged_partial (P : Parts M F V R U E K) (o : Opts K) (x : Obj M V E) (hf : x.nfrag ≠ 0)
    (hb : ¬(o.bathtype = "mp2" ∧ o.maxiter > 1)) (hm : o.mixingVariable = "hl rdm")
    (hc : (kernel P o x).1.converged = true) :
    (kernel P o x).2 = none ∧ o.oneshot = false ∧
    ∃ e v, (kernel P o x).1.eCorr = some e ∧ (kernel P o x).1.vcorr = some v ∧
      SelfConsistent P o (kernel P o x).1.mf v e ∧
      ((kernel P o x).1.iteration = 1 ∨ ∃ f, (kernel P o x).1.mf = P.diag f v) := by
  obtain ⟨v, -, s, hs, hk⟩ := dl_kernel P o x hf hb hm
  rw [hk] at hc ⊢
  simp only at hc ⊢
  rw [hs] at hc ⊢
  obtain ⟨e, h1, h2, h3, h4⟩ := dl_converged P o _ _ _ rfl hc
  refine ⟨?_, h3, e, _, h1, rfl, h2, h4⟩
  rw [h1]; rfl

/-- **C53**: at least one and at most `maxiter` iterations are made. -/
theorem dmet_iterations (P : Parts M F V R U E K) (o : Opts K) (x : Obj M V E) (hf : x.nfrag ≠ 0)
    (hb : ¬(o.bathtype = "mp2" ∧ o.maxiter > 1)) (hm : o.mixingVariable = "hl rdm") (h0 : 0 < o.maxiter) :
    1 ≤ (kernel P o x).1.iteration ∧ (kernel P o x).1.iteration ≤ o.maxiter := by
  obtain ⟨v, -, s, hs, hk⟩ := dl_kernel P o x hf hb hm
  rw [hk]
  simp only
  rw [hs]
  have := dl_bound P o o.maxiter 0 ⟨x.mf, P.fockOf x.mf, v, P.cpt0, P.upd0, x.eCorr, false, x.iteration⟩ h0
  omega

/-- **C53**: a self-consistent calculation gives up before `maxiter` iterations only if no chemical potential was found. -/
theorem dmet_gives_up (P : Parts M F V R U E K) (o : Opts K) (x : Obj M V E) (hf : x.nfrag ≠ 0)
    (hb : ¬(o.bathtype = "mp2" ∧ o.maxiter > 1)) (hm : o.mixingVariable = "hl rdm") (ho : o.oneshot = false)
    (hc : (kernel P o x).1.converged = false) (hi : (kernel P o x).1.iteration < o.maxiter) :
    ∃ cpt, P.solve (kernel P o x).1.mf cpt = none := by
  obtain ⟨v, -, s, hs, hk⟩ := dl_kernel P o x hf hb hm
  rw [hk] at hc hi ⊢
  simp only at hc hi ⊢
  rw [hs] at hc hi ⊢
  exact dl_early P o o.maxiter 0 _ hc ho (by omega) (by omega)

/-- **C53**: a one-shot calculation keeps mean field and potential, makes one iteration and never reports convergence. -/
theorem dmet_oneshot (P : Parts M F V R U E K) (o : Opts K) (x : Obj M V E) (hf : x.nfrag ≠ 0)
    (hb : ¬(o.bathtype = "mp2" ∧ o.maxiter > 1)) (hm : o.mixingVariable = "hl rdm") (ho : o.oneshot = true) (h0 : 0 < o.maxiter)
    (e : E) (r : R) (c : K) (hs : P.solve x.mf P.cpt0 = some (e, r, c)) :
    ∃ v, kernel P o x = ({ x with vcorr := some v, eCorr := some e, converged := false, iteration := 1 }, none) ∧
      (x.vcorr = some v ∨ x.vcorr = none ∧ v = P.zero) := by
  obtain ⟨v, hv, s, hs', hk⟩ := dl_kernel P o x hf hb hm
  obtain ⟨m, hm'⟩ : ∃ m, o.maxiter = m + 1 := ⟨o.maxiter - 1, by omega⟩
  rw [hm', loop] at hs'
  simp only [Nat.zero_add, Nat.lt_irrefl, if_false, hs, ho, if_true] at hs'
  refine ⟨v, ?_, ?_⟩
  · rw [hk, hs']
    rfl
  · rw [hv]
    cases x.vcorr with
    | none => exact .inr ⟨rfl, rfl⟩
    | some w => exact .inl rfl

/-- **C53** (violated on restart): whatever the system, running a calculation limited to one iteration twice ends "converged": the
second run repeats the first on the unchanged mean field, and compares its potential with itself. -/
theorem dmet_restart_reports_convergence (P : Parts M F V R U E K) (o : Opts K) (x : Obj M V E) (hf : x.nfrag ≠ 0)
    (hm : o.mixingVariable = "hl rdm") (ho : o.oneshot = false) (h1 : o.maxiter = 1)
    (e : E) (r : R) (c : K) (hs : P.solve x.mf P.cpt0 = some (e, r, c)) (hself : ∀ v, P.dist v v < o.convTol) :
    (kernel P o (kernel P o x).1).1.converged = true ∧ (kernel P o (kernel P o x).1).1.mf = x.mf := by
  have hb : ¬(o.bathtype = "mp2" ∧ o.maxiter > 1) := by omega
  obtain ⟨v, hv, s, hs', hk⟩ := dl_kernel P o x hf hb hm
  rw [h1, loop] at hs'
  simp only [Nat.zero_add, Nat.lt_irrefl, false_and, if_false, hs, ho, Bool.false_eq_true] at hs'
  by_cases hd : P.dist (P.fit (P.fockOf x.mf) (P.upd P.upd0 r).1) v < o.convTol
  · rw [if_pos hd] at hs'
    have hx : (kernel P o x).1 = { x with vcorr := some v, eCorr := some e, converged := true, iteration := 1 } := by
      rw [hk, hs']
    rw [hx]
    obtain ⟨v2, hv2, s2, hs2, hk2⟩ := dl_kernel P o { x with vcorr := some v, eCorr := some e, converged := true, iteration := 1 } hf hb hm
    simp only [Option.getD_some] at hv2
    rw [h1, loop] at hs2
    simp only [Nat.zero_add, Nat.lt_irrefl, false_and, if_false, hs, ho, Bool.false_eq_true] at hs2
    rw [hv2, if_pos hd] at hs2
    rw [hk2, hs2]
    exact ⟨rfl, rfl⟩
  · rw [if_neg hd, loop] at hs'
    have hx : (kernel P o x).1 =
        { x with vcorr := some (P.fit (P.fockOf x.mf) (P.upd P.upd0 r).1), eCorr := some e, converged := false, iteration := 1 } := by
      rw [hk, hs']
    rw [hx]
    obtain ⟨v2, hv2, s2, hs2, hk2⟩ := dl_kernel P o
      { x with vcorr := some (P.fit (P.fockOf x.mf) (P.upd P.upd0 r).1), eCorr := some e, converged := false, iteration := 1 } hf hb hm
    simp only [Option.getD_some] at hv2
    rw [h1, loop] at hs2
    simp only [Nat.zero_add, Nat.lt_irrefl, false_and, if_false, hs, ho, Bool.false_eq_true] at hs2
    rw [hv2, if_pos (hself _)] at hs2
    rw [hk2, hs2]
    exact ⟨rfl, rfl⟩

/-- **C53**: if no chemical potential is found in the first iteration, the calculation is not converged, and ends with TypeError or,
after an earlier run, silently with the energy of that run. -/
theorem dmet_no_bracket (P : Parts M F V R U E K) (o : Opts K) (x : Obj M V E) (hf : x.nfrag ≠ 0)
    (hb : ¬(o.bathtype = "mp2" ∧ o.maxiter > 1)) (hm : o.mixingVariable = "hl rdm") (h0 : 0 < o.maxiter)
    (hs : P.solve x.mf P.cpt0 = none) :
    (kernel P o x).1.converged = false ∧ (kernel P o x).1.eCorr = x.eCorr ∧
      ((kernel P o x).2 = some .typeError ↔ x.eCorr = none) ∧ ((kernel P o x).2 = none ↔ x.eCorr ≠ none) := by
  obtain ⟨v, hv, s, hs', hk⟩ := dl_kernel P o x hf hb hm
  obtain ⟨m, hm'⟩ : ∃ m, o.maxiter = m + 1 := ⟨o.maxiter - 1, by omega⟩
  rw [hm', loop] at hs'
  simp only [Nat.zero_add, Nat.lt_irrefl, false_and, if_false, hs] at hs'
  rw [hk, hs']
  refine ⟨rfl, rfl, ?_, ?_⟩ <;> cases x.eCorr <;> simp

end

/-- Parts for which no potential is self-consistent: the fit always asks for one more than it got. -/
def runaway : Parts ℤ ℤ ℤ ℤ Unit ℤ ℤ where
  fockOf _ := 0
  diag _ v := v
  solve m _ := some (m, m, 0)
  upd0 := ()
  upd _ r := (r, ())
  fit _ r := r + 1
  zero := 0
  cpt0 := 0
  dist a b := if a ≤ b then b - a else a - b

/-- **C53** (violated): although no potential is self-consistent, the second run with one iteration reports convergence, whereas with
more iterations the calculation never does. -/
theorem dmet_false_convergence :
    (∀ v : ℤ, runaway.fit 0 (runaway.diag 0 v) ≠ v) ∧
    (kernel runaway ⟨1, true, 1, false, "hl rdm", "dmet"⟩ ⟨1, 0, none, none, false, 0⟩).1.converged = false ∧
    (kernel runaway ⟨1, true, 1, false, "hl rdm", "dmet"⟩
      (kernel runaway ⟨1, true, 1, false, "hl rdm", "dmet"⟩ ⟨1, 0, none, none, false, 0⟩).1).1.converged = true := by
  refine ⟨fun v h => ?_, by decide, by decide⟩
  have h : v + 1 = v := h
  omega

/-- A calculation that converges in its second iteration. -/
example : (kernel { runaway with fit := fun _ _ => 3 } ⟨5, true, 1, false, "hl rdm", "dmet"⟩ ⟨1, 0, none, none, false, 0⟩).1.converged = true ∧
    (kernel { runaway with fit := fun _ _ => 3 } ⟨5, true, 1, false, "hl rdm", "dmet"⟩ ⟨1, 0, none, none, false, 0⟩).1.iteration = 2 ∧
    (kernel { runaway with fit := fun _ _ => 3 } ⟨5, true, 1, false, "hl rdm", "dmet"⟩ ⟨1, 0, none, none, false, 0⟩).1.mf = 3 := by
  decide

/-- The premises of the one-shot, restart and failed-bracket theorems are met. -/
example : runaway.solve 0 runaway.cpt0 = some (0, 0, 0) ∧ (∀ v : ℤ, runaway.dist v v < 1) ∧
    ({ runaway with solve := fun _ _ => none } : Parts ℤ ℤ ℤ ℤ Unit ℤ ℤ).solve 0 0 = none := by
  refine ⟨rfl, fun v => ?_, rfl⟩
  simp [runaway]

/-- A calculation that gives up before `maxiter` iterations. -/
example : (kernel { runaway with solve := fun m _ => if m = 0 then some (0, 0, 0) else none } ⟨5, true, 1, false, "hl rdm", "dmet"⟩
      ⟨1, 0, none, none, false, 0⟩).1.converged = false ∧
    (kernel { runaway with solve := fun m _ => if m = 0 then some (0, 0, 0) else none } ⟨5, true, 1, false, "hl rdm", "dmet"⟩
      ⟨1, 0, none, none, false, 0⟩).1.iteration < 5 := by
  decide

end Vayesta.Props
