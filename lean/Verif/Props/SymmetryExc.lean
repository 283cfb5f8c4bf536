import Verif.Model.SymmetryExc
import Verif.Props.Symmetry

/-! # C46: symmetry contexts and exceptions -/

namespace Vayesta.Props
open Vayesta.Sym Vayesta.SymExc

variable {O : Type}

/-- Number of blocks that raise. -/
def raisedBlocks : Script O → Nat
  | .done => 0
  | .add rest => raisedBlocks rest
  | .block _ body raises rest => raisedBlocks body + (if raises then 1 else 0) + raisedBlocks rest

/-- The same script as a flat command list. -/
def flatten : Script O → List (Cmd O)
  | .done => []
  | .add rest => .add :: flatten rest
  | .block ops body _ rest => .enter ops :: flatten body ++ .exit :: flatten rest

/-- C46: every block that raises leaves exactly one stale list behind; without raising blocks all lists are removed. -/
theorem symmetry_register_leak (sc : Script O) (s : SymExc.State O) :
    (exec sc s).register.length = s.register.length + raisedBlocks sc := by
  induction sc generalizing s with
  | done => rfl
  | add rest ih => simp [exec, raisedBlocks, ih, addFrag]
  | block ops body raises rest ih1 ih2 =>
    simp only [exec, raisedBlocks, ih2]
    have hb := ih1 { s with register := [] :: s.register }
    simp only [List.length_cons] at hb
    cases raises with
    | true => simp [hb]; omega
    | false =>
      simp only [Bool.false_eq_true, if_false]
      generalize exec body _ = s' at hb
      rcases s' with ⟨fs, n, reg⟩
      cases reg with
      | nil => simp only [List.length_nil] at hb; omega
      | cons x reg => simp [leave] at hb ⊢; omega

/-- The two models agree on scripts without exceptions, for every state. -/
theorem exec_refines (sc : Script O) (h : raisedBlocks sc = 0) (s : SymExc.State O) (t : Sym.State O) (hf : s.fragments = t.fragments)
    (hn : s.next = t.next) (hr : s.register = t.register.map Prod.snd) :
    let s' := exec sc s
    let t' := (flatten sc).foldl step t
    s'.fragments = t'.fragments ∧ s'.next = t'.next ∧ s'.register = t'.register.map Prod.snd ∧
      t'.register.map Prod.fst = t.register.map Prod.fst := by
  induction sc generalizing s t with
  | done => exact ⟨hf, hn, hr, rfl⟩
  | add rest ih =>
    simp only [exec, Props.flatten, List.foldl_cons]
    have := ih h (addFrag s) (step t .add) (by simp [addFrag, step, hf, hn]) (by simp [addFrag, step, hn])
      (by simp [addFrag, step, hr, hn, Function.comp_def])
    refine ⟨this.1, this.2.1, this.2.2.1, this.2.2.2.trans ?_⟩
    simp [step, Function.comp_def]
  | block ops body raises rest ih1 ih2 =>
    simp only [raisedBlocks] at h
    have hraise : raises = false := by
      cases raises with
      | false => rfl
      | true => simp only [if_true] at h; omega
    subst hraise
    obtain ⟨b1, b2, b3, b4⟩ := ih1 (by omega) { s with register := [] :: s.register } (step t (.enter ops)) (by simp [step, hf])
      (by simp [step, hn]) (by simp [step, hr])
    simp only [exec, Props.flatten, List.foldl_cons, List.foldl_append, List.cons_append]
    generalize exec body _ = s' at b1 b2 b3
    generalize hB : (Props.flatten body).foldl step (step t (.enter ops)) = t' at b1 b2 b3 b4
    rcases t' with ⟨tf, tn, treg⟩
    rcases s' with ⟨sf, sn, sreg⟩
    cases treg with
    | nil => simp [step] at b4
    | cons x treg =>
      obtain ⟨ops', frs⟩ := x
      simp only [step, List.map_cons, List.cons.injEq] at b4
      obtain ⟨rfl, b4⟩ := b4
      simp only [List.map_cons] at b1 b2 b3
      subst b1 b2 b3
      have := ih2 (by omega) (leave ops' ⟨sf, sn, frs :: treg.map Prod.snd⟩) (step ⟨sf, sn, (ops', frs) :: treg⟩ .exit) rfl rfl
        (by simp [leave, step, Function.comp_def])
      simp only [Bool.false_eq_true, if_false]
      refine ⟨this.1, this.2.1, this.2.2.1, this.2.2.2.trans ?_⟩
      simp [step, Function.comp_def, b4]

/-- C46 (part): when no body raises, the outermost script produces the full product of C14 and leaves no list behind. What is
missing: after an exception in a body this fails, see `symmetry_exception_breaks_outer`. -/
theorem symmetry_exception_free_partial (sc : Script O) (h : raisedBlocks sc = 0) :
    (exec sc {}).fragments = (run (flatten sc)).fragments ∧ (exec sc {}).register = [] := by
  obtain ⟨h1, _, h3, h4⟩ := exec_refines sc h {} {} rfl rfl rfl
  refine ⟨h1, ?_⟩
  rw [h3]
  simpa using h4

/-- C46: the full claim is false. In `with inversion: add; (with rotation: add; raise, caught)`, closing the inversion context
uses the stale list of the rotation context: the first fragment gets no image, and a list stays registered, so that later
contexts keep growing it. -/
theorem symmetry_exception_breaks_outer :
    let sc : Script Nat := .block [9] (.add (.block [1, 2] (.add .done) true .done)) false .done
    (exec sc {}).fragments = [⟨0, none, none⟩, ⟨1, none, none⟩, ⟨2, some 1, some 9⟩] ∧
    (exec sc {}).register ≠ [] := by
  decide

example : raisedBlocks (Script.block [9] (.add (.block [1, 2] (.add .done) false .done)) false .done) = 0 := by decide

end Vayesta.Props
