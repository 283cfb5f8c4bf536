import Verif.Model.FragDm2
import Verif.Props.CcRdm2
import Mathlib.Tactic.LinearCombination
import Mathlib.Algebra.BigOperators.Ring.List

/-! Two-body density matrices assembled from fragments. -/

namespace Vayesta.Props
open Vayesta.CcRdm2 Vayesta.Diagram Vayesta.FragDm2

set_option linter.unusedSectionVars false

variable {o v K : Type} [Fintype o] [DecidableEq o] [Fintype v] [DecidableEq v] [Field K] [CharZero K]

/-! ## Specification -/

/-- A fragment whose cluster is the whole system: the amplitudes of the cluster are `w`, the cluster orbitals the molecular orbitals. -/
def wholeCluster (mp2 : Bool) (w : Amps o v K) (p : Bool → Amps o v K) : Frag (o ⊕ v) K :=
  { co := o, cv := v, mp2 := mp2, wf := w, pwf := p, rx := fun p q => if p = q then 1 else 0 }

/-- The projected amplitudes and multipliers of the fragments add up to those of the wave function: the projectors of the fragments add up to the identity. -/
structure Partition (ps : List (Amps o v K)) (w : Amps o v K) : Prop where
  t1 : ∀ i a, (ps.map fun p => p.t1 i a).sum = w.t1 i a
  t2 : ∀ i j a b, (ps.map fun p => p.t2 i j a b).sum = w.t2 i j a b
  l1 : ∀ i a, (ps.map fun p => p.l1 i a).sum = w.l1 i a
  l2 : ∀ i j a b, (ps.map fun p => p.l2 i j a b).sum = w.l2 i j a b

/-! ## Additivity in the projected amplitudes -/

private def total (ps : List (Amps o v K)) : Amps o v K :=
  ⟨fun i a => (ps.map fun p => p.t1 i a).sum, fun i j a b => (ps.map fun p => p.t2 i j a b).sum, fun i a => (ps.map fun p => p.l1 i a).sum,
    fun i j a b => (ps.map fun p => p.l2 i j a b).sum⟩

private def plus (p q : Amps o v K) : Amps o v K :=
  ⟨fun i a => p.t1 i a + q.t1 i a, fun i j a b => p.t2 i j a b + q.t2 i j a b, fun i a => p.l1 i a + q.l1 i a, fun i j a b => p.l2 i j a b + q.l2 i j a b⟩

private def none' : Amps o v K := ⟨fun _ _ => 0, fun _ _ _ _ => 0, fun _ _ => 0, fun _ _ _ _ => 0⟩

private theorem additive (t1 : o → v → K) (t2 : o → o → v → v → K) (l1 m1 : o → v → K) (l2 m2 : o → o → v → v → K) :
    (∀ p q, makeRdm1 ⟨t1, t2, fun i a => l1 i a + m1 i a, fun i j a b => l2 i j a b + m2 i j a b⟩ false p q
        = makeRdm1 ⟨t1, t2, l1, l2⟩ false p q + makeRdm1 ⟨t1, t2, m1, m2⟩ false p q - makeRdm1 ⟨t1, t2, fun _ _ => 0, fun _ _ _ _ => 0⟩ false p q)
      ∧ ∀ p q r s, makeRdm2 ⟨t1, t2, fun i a => l1 i a + m1 i a, fun i j a b => l2 i j a b + m2 i j a b⟩ false p q r s
        = makeRdm2 ⟨t1, t2, l1, l2⟩ false p q r s + makeRdm2 ⟨t1, t2, m1, m2⟩ false p q r s - makeRdm2 ⟨t1, t2, fun _ _ => 0, fun _ _ _ _ => 0⟩ false p q r s := by
  have a := cc_rdm_affine t1 t2 (between 2 l1 fun _ _ => 0) (between 2 m1 fun _ _ => 0) (between2 2 l2 fun _ _ _ _ => 0) (between2 2 m2 fun _ _ _ _ => 0) (1 / 2)
  have b := cc_rdm_affine t1 t2 l1 (fun _ _ => 0) l2 (fun _ _ _ _ => 0) 2
  have c := cc_rdm_affine t1 t2 m1 (fun _ _ => 0) m2 (fun _ _ _ _ => 0) 2
  have e1 : (between (1 / 2) (between 2 l1 fun _ _ => 0) (between 2 m1 fun _ _ => 0)) = fun i a => l1 i a + m1 i a := by
    funext i a; simp only [between]; ring
  have e2 : (between2 (1 / 2) (between2 2 l2 fun _ _ _ _ => 0) (between2 2 m2 fun _ _ _ _ => 0)) = fun i j a b => l2 i j a b + m2 i j a b := by
    funext i j a b; simp only [between2]; ring
  rw [e1, e2] at a
  refine ⟨fun p q => ?_, fun p q r s => ?_⟩
  · rw [a.1 false p q, b.1 false p q, c.1 false p q]; ring
  · rw [a.2 false p q r s, b.2 false p q r s, c.2 false p q r s]; ring

/-- What `dovov += ...` does to the density matrix. -/
private def corr2 (u : o → o → v → v → K) : o ⊕ v → o ⊕ v → o ⊕ v → o ⊕ v → K
  | .inl i, .inr a, .inl j, .inr b => u i j a b - u i j b a / 2 + (u j i b a - u j i a b / 2)
  | .inr a, .inl i, .inr b, .inl j => u i j a b - u i j b a / 2 + (u j i b a - u j i a b / 2)
  | _, _, _, _ => 0

private def corr1 (u : o → v → K) : o ⊕ v → o ⊕ v → K
  | .inl i, .inr a => u i a
  | .inr a, .inl i => u i a
  | _, _ => 0

private theorem dm2cc_eq (tl : Bool) (w p : Amps o v K) (p' q r s : o ⊕ v) :
    dm2cc tl w p p' q r s = makeRdm2 (mixed tl w p) false p' q r s + corr2 (dtau w p) p' q r s := by
  rcases p' with i | a <;> rcases q with j | b <;> rcases r with k | c <;> rcases s with l | d <;>
    simp only [dm2cc, gamma2x, rdm2Of, makeRdm2, cond_false, blocks2, corr2, add_zero] <;> ring

private theorem dm1x_eq (tl : Bool) (w p : Amps o v K) (p' q : o ⊕ v) :
    dm1x tl w p p' q = makeRdm1 (mixed tl w p) false p' q + corr1 (fun i a => p.t1 i a - w.t1 i a) p' q := by
  rcases p' with i | a <;> rcases q with j | b <;>
    simp only [dm1x, gamma1x, rdm1Of, makeRdm1, corr1, add_zero] <;> ring

private theorem zero1 (t1 : o → v → K) (t2 : o → o → v → v → K) (p q : o ⊕ v) :
    makeRdm1 ⟨t1, t2, fun _ _ => 0, fun _ _ _ _ => 0⟩ false p q = corr1 t1 p q := by
  rcases p with i | a <;> rcases q with j | b <;> simp [makeRdm1, rdm1Of, gamma1, doo, dvv, dov, dvo, xtv, xt1, xt2, corr1]

private theorem zero2 (t1 : o → v → K) (t2 : o → o → v → v → K) (p q r s : o ⊕ v) :
    makeRdm2 ⟨t1, t2, fun _ _ => 0, fun _ _ _ _ => 0⟩ false p q r s = corr2 (fun i j a b => t2 i j a b + t1 i a * t1 j b) p q r s := by
  obtain ⟨z1, hz1⟩ : ∃ z : o → v → K, z = fun _ _ => 0 := ⟨_, rfl⟩
  obtain ⟨z2, hz2⟩ : ∃ z : o → o → v → v → K, z = fun _ _ _ _ => 0 := ⟨_, rfl⟩
  have q1 : ∀ i a, z1 i a = 0 := fun i a => by rw [hz1]
  have q2 : ∀ i j a b, z2 i j a b = 0 := fun i j a b => by rw [hz2]
  have p1 : ∀ a i j b, pvOOv ⟨t1, t2, z1, z2⟩ a i j b = 0 := by intros; simp [pvOOv, q2]
  have p2 : ∀ a i j b, pvoOV ⟨t1, t2, z1, z2⟩ a i j b = 0 := by intros; simp [pvoOV, q2]
  have p3 : ∀ i j k l, goooo ⟨t1, t2, z1, z2⟩ i j k l = 0 := by intros; simp [goooo, q2]
  have p4 : ∀ a b c d, gvvvv ⟨t1, t2, z1, z2⟩ a b c d = 0 := by intros; simp [gvvvv, q2]
  have p5 : ∀ j k i a, gooov ⟨t1, t2, z1, z2⟩ j k i a = 0 := by intros; simp [gooov, moo, p1, p2, p3, q1, q2]
  have p6 : ∀ a i b c, gvovv ⟨t1, t2, z1, z2⟩ a i b c = 0 := by intros; simp [gvovv, mvv, p1, p2, p4, q1, q2]
  have p7 : ∀ i a b j, gOvvO ⟨t1, t2, z1, z2⟩ i a b j = 0 := by intros; simp [gOvvO, p1, q2]
  have p8 : ∀ i a b j, govVO ⟨t1, t2, z1, z2⟩ i a b j = 0 := by intros; simp [govVO, p2, q1, q2]
  have p9 : ∀ i j a b, goovv ⟨t1, t2, z1, z2⟩ i j a b = (t1 i a * t1 j b + t2 i j a b) / 2 := by
    intros; simp [goovv, tmpoovv, mia, mij, mab, moo, mvv, tau, p1, p2, p3, q1, q2]
  rw [← hz1, ← hz2]
  rcases p with i | a <;> rcases q with j | b <;> rcases r with k | c <;> rcases s with l | d <;>
    simp only [makeRdm2, cond_false, blocks2, rdm2Of, gamma2, doooo, dooov, doovv, dovvo, dovov, dovvv, dvvvv, p3, p4, p5, p6, p7, p8, p9, corr2] <;> ring

private theorem corr2_add (u u' : o → o → v → v → K) (p q r s : o ⊕ v) : corr2 (fun i j a b => u i j a b + u' i j a b) p q r s = corr2 u p q r s + corr2 u' p q r s := by
  rcases p with i | a <;> rcases q with j | b <;> rcases r with k | c <;> rcases s with l | d <;> simp only [corr2, add_zero] <;> ring

private theorem corr2_sub (u u' : o → o → v → v → K) (p q r s : o ⊕ v) : corr2 (fun i j a b => u i j a b - u' i j a b) p q r s = corr2 u p q r s - corr2 u' p q r s := by
  rcases p with i | a <;> rcases q with j | b <;> rcases r with k | c <;> rcases s with l | d <;> simp only [corr2, sub_zero] <;> ring

private theorem corr1_add (u u' : o → v → K) (p q : o ⊕ v) : corr1 (fun i a => u i a + u' i a) p q = corr1 u p q + corr1 u' p q := by
  rcases p with i | a <;> rcases q with j | b <;> simp only [corr1, add_zero]

private theorem corr1_sub (u u' : o → v → K) (p q : o ⊕ v) : corr1 (fun i a => u i a - u' i a) p q = corr1 u p q - corr1 u' p q := by
  rcases p with i | a <;> rcases q with j | b <;> simp only [corr1, sub_zero]

private def lin2 (w p : Amps o v K) : o → o → v → v → K := fun i j a b => p.t2 i j a b + p.t1 i a * w.t1 j b

private theorem dtau_eq (w p : Amps o v K) : dtau w p = fun i j a b => lin2 w p i j a b - (w.t2 i j a b + w.t1 i a * w.t1 j b) := by
  funext i j a b; simp only [dtau, lin2]; ring

private theorem dm2cc_eq' (tl : Bool) (w p : Amps o v K) (p' q r s : o ⊕ v) :
    dm2cc tl w p p' q r s = makeRdm2 (mixed tl w p) false p' q r s - makeRdm2 ⟨w.t1, w.t2, fun _ _ => 0, fun _ _ _ _ => 0⟩ false p' q r s + corr2 (lin2 w p) p' q r s := by
  rw [dm2cc_eq, dtau_eq, corr2_sub, zero2]; ring

private theorem dm1x_eq' (tl : Bool) (w p : Amps o v K) (p' q : o ⊕ v) :
    dm1x tl w p p' q = makeRdm1 (mixed tl w p) false p' q - makeRdm1 ⟨w.t1, w.t2, fun _ _ => 0, fun _ _ _ _ => 0⟩ false p' q + corr1 p.t1 p' q := by
  rw [dm1x_eq, corr1_sub, zero1]; ring

private theorem mixed_plus (tl : Bool) (w p p' : Amps o v K) : mixed tl w (plus p p')
    = ⟨w.t1, w.t2, fun i a => (mixed tl w p).l1 i a + (mixed tl w p').l1 i a, fun i j a b => (mixed tl w p).l2 i j a b + (mixed tl w p').l2 i j a b⟩ := by
  cases tl <;> rfl

private theorem dm2cc_plus (tl : Bool) (w p p' : Amps o v K) (a b c d : o ⊕ v) :
    dm2cc tl w (plus p p') a b c d = dm2cc tl w p a b c d + dm2cc tl w p' a b c d := by
  have h := (additive w.t1 w.t2 (mixed tl w p).l1 (mixed tl w p').l1 (mixed tl w p).l2 (mixed tl w p').l2).2 a b c d
  have e : lin2 w (plus p p') = fun i j a b => lin2 w p i j a b + lin2 w p' i j a b := by
    funext i j a b; simp only [lin2, plus]; ring
  rw [dm2cc_eq', dm2cc_eq', dm2cc_eq', e, corr2_add, mixed_plus, h]
  have m : ∀ p : Amps o v K, mixed tl w p = ⟨w.t1, w.t2, (mixed tl w p).l1, (mixed tl w p).l2⟩ := fun _ => rfl
  rw [← m p, ← m p']
  ring

private theorem dm1x_plus (tl : Bool) (w p p' : Amps o v K) (a b : o ⊕ v) :
    dm1x tl w (plus p p') a b = dm1x tl w p a b + dm1x tl w p' a b := by
  have h := (additive w.t1 w.t2 (mixed tl w p).l1 (mixed tl w p').l1 (mixed tl w p).l2 (mixed tl w p').l2).1 a b
  have e : (plus p p').t1 = fun i a => p.t1 i a + p'.t1 i a := rfl
  rw [dm1x_eq', dm1x_eq', dm1x_eq', e, corr1_add, mixed_plus, h]
  have m : ∀ p : Amps o v K, mixed tl w p = ⟨w.t1, w.t2, (mixed tl w p).l1, (mixed tl w p).l2⟩ := fun _ => rfl
  rw [← m p, ← m p']
  ring

private theorem dm2cc_zero (tl : Bool) (w : Amps o v K) (a b c d : o ⊕ v) : dm2cc tl w none' a b c d = 0 := by
  have e : lin2 w none' = fun _ _ _ _ => 0 := by funext i j a b; simp [lin2, none']
  have m : mixed tl w none' = ⟨w.t1, w.t2, fun _ _ => 0, fun _ _ _ _ => 0⟩ := by cases tl <;> rfl
  have z : corr2 (fun _ _ _ _ => (0 : K)) a b c d = 0 := by
    rcases a with i | a <;> rcases b with j | b <;> rcases c with k | c <;> rcases d with l | d <;> simp [corr2]
  rw [dm2cc_eq', e, m, z]; ring

private theorem dm1x_zero (tl : Bool) (w : Amps o v K) (a b : o ⊕ v) : dm1x tl w none' a b = 0 := by
  have m : mixed tl w none' = ⟨w.t1, w.t2, fun _ _ => 0, fun _ _ _ _ => 0⟩ := by cases tl <;> rfl
  have z : corr1 (none' : Amps o v K).t1 a b = 0 := by
    rcases a with i | a <;> rcases b with j | b <;> simp [corr1, none']
  rw [dm1x_eq', m, z]; ring

private theorem total_cons (p : Amps o v K) (ps : List (Amps o v K)) : total (p :: ps) = plus p (total ps) := by
  simp [total, plus]

private theorem dm2cc_sum (tl : Bool) (w : Amps o v K) (a b c d : o ⊕ v) (ps : List (Amps o v K)) :
    (ps.map fun p => dm2cc tl w p a b c d).sum = dm2cc tl w (total ps) a b c d := by
  induction ps with
  | nil =>
    have : total ([] : List (Amps o v K)) = none' := rfl
    rw [this, dm2cc_zero]; rfl
  | cons p ps ih => rw [total_cons, dm2cc_plus, ← ih, List.map_cons, List.sum_cons]

private theorem dm1x_sum (tl : Bool) (w : Amps o v K) (a b : o ⊕ v) (ps : List (Amps o v K)) :
    (ps.map fun p => dm1x tl w p a b).sum = dm1x tl w (total ps) a b := by
  induction ps with
  | nil =>
    have : total ([] : List (Amps o v K)) = none' := rfl
    rw [this, dm1x_zero]; rfl
  | cons p ps ih => rw [total_cons, dm1x_plus, ← ih, List.map_cons, List.sum_cons]

private theorem total_eq {ps : List (Amps o v K)} {w : Amps o v K} (h : Partition ps w) : total ps = w := by
  obtain ⟨t1, t2, l1, l2⟩ := w
  have h1 : (fun i a => (ps.map fun p => p.t1 i a).sum) = t1 := funext fun i => funext fun a => h.t1 i a
  have h2 : (fun i j a b => (ps.map fun p => p.t2 i j a b).sum) = t2 := funext fun i => funext fun j => funext fun a => funext fun b => h.t2 i j a b
  have h3 : (fun i a => (ps.map fun p => p.l1 i a).sum) = l1 := funext fun i => funext fun a => h.l1 i a
  have h4 : (fun i j a b => (ps.map fun p => p.l2 i j a b).sum) = l2 := funext fun i => funext fun j => funext fun a => funext fun b => h.l2 i j a b
  simp only [total, h1, h2, h3, h4]

private theorem mixed_self (tl : Bool) (w : Amps o v K) : mixed tl w w = asLambda tl w := by cases tl <;> rfl

private theorem dm2cc_self (tl : Bool) (w : Amps o v K) (a b c d : o ⊕ v) : dm2cc tl w w a b c d = makeRdm2 (asLambda tl w) false a b c d := by
  have e : dtau w w = fun i j a b => (fun _ _ _ _ => (0 : K)) i j a b - (fun _ _ _ _ => (0 : K)) i j a b := by funext i j a b; simp [dtau]
  rw [dm2cc_eq, mixed_self, e, corr2_sub, sub_self, add_zero]

private theorem dm1x_self (tl : Bool) (w : Amps o v K) (a b : o ⊕ v) : dm1x tl w w a b = makeRdm1 (asLambda tl w) false a b := by
  rw [dm1x_eq, mixed_self, corr1_sub, sub_self, add_zero]

/-! ## One-body contributions of fragments -/

/-- The one-body density matrices of the fragments add up to the correlation part of the whole one. -/
theorem frag_dm1_complete (tl : Bool) (w : Amps o v K) (ps : List (Amps o v K)) (h : Partition ps w) (p q : o ⊕ v) :
    (ps.map fun x => dm1x tl w x p q).sum = makeRdm1 (asLambda tl w) false p q := by
  rw [dm1x_sum, total_eq h, dm1x_self]

/-! ## The loop over fragments -/

private theorem rotate_id (d : o ⊕ v → o ⊕ v → o ⊕ v → o ⊕ v → K) : rotate (fun p q => if p = q then 1 else 0) d = d := by
  funext p q r s
  simp only [rotate, mul_ite, mul_one, mul_zero, Finset.sum_ite_eq, Finset.mem_univ, if_true]

private theorem loop_whole (tl sym : Bool) (ap : Approx) (mp2 : Bool) (w : Amps o v K) (ps : List (Bool → Amps o v K)) (F : Amps o v K → o ⊕ v → o ⊕ v → o ⊕ v → o ⊕ v → K)
    (hF : ∀ p, cumulant mp2 tl sym ap w p = .ok (F p)) :
    loop tl sym ap (ps.map (wholeCluster mp2 w)) = .ok fun a b c d => ((ps.map (· sym)).map fun p => F p a b c d).sum := by
  induction ps with
  | nil => rfl
  | cons p ps ih =>
    have h1 : cumulant (wholeCluster mp2 w p).mp2 tl sym ap (wholeCluster mp2 w p).wf ((wholeCluster mp2 w p).pwf sym) = .ok (F (p sym)) := hF (p sym)
    rw [List.map_cons, loop, h1, ih]
    show Except.ok _ = Except.ok _
    congr 1
    funext a b c d
    have h2 : rotate (wholeCluster mp2 w p).rx (F (p sym)) = F (p sym) := rotate_id (F (p sym))
    rw [h2, List.map_cons, List.map_cons, List.sum_cons]

private theorem average4_sum {ι : Type} (F : ι → o ⊕ v → o ⊕ v → o ⊕ v → o ⊕ v → K) (ps : List ι) (a b c d : o ⊕ v) :
    (ps.map fun p => average4 (F p) a b c d).sum = average4 (fun a b c d => (ps.map fun p => F p a b c d).sum) a b c d := by
  induction ps with
  | nil => simp [average4]
  | cons p ps ih =>
    simp only [average4, List.map_cons, List.sum_cons] at ih ⊢
    linear_combination ih

private theorem average4_symmetric (x : Amps o v K) (h : PairSymmetric x) (dm1 : Bool) (a b c d : o ⊕ v) : average4 (makeRdm2 x dm1) a b c d = makeRdm2 x dm1 a b c d := by
  have h1 := cc_rdm2_symmetric x h dm1 a b c d
  have h2 := cc_rdm2_symmetric x h dm1 c d a b
  rw [average4, h1.1, h1.2, h2.1, h1.2]; ring

private theorem addDm1_approx (x : Amps o v K) : addDm1 .approx (makeRdm1 x true) (makeRdm2 x false) = .ok (makeRdm2 x true) := by
  have s : ∀ p q, makeRdm1 x false p q = makeRdm1 x false q p := by
    intro p q
    rcases p with i | a <;> rcases q with j | b <;> simp only [makeRdm1, rdm1Of, gamma1, Bool.false_eq_true, false_and, if_false] <;> ring
  have m : ∀ p q, makeRdm1 x true p q = makeRdm1 x false p q + 2 * occEq p q := by
    intro p q
    rcases p with i | a <;> rcases q with j | b
    · by_cases h : i = j <;> simp [makeRdm1, rdm1Of, gamma1, occEq, h]
    all_goals simp [makeRdm1, rdm1Of, gamma1, occEq]
  have oc : ∀ p q : o ⊕ v, (occEq p q : K) = occEq q p := by
    intro p q; rcases p with i | a <;> rcases q with j | b <;> simp [occEq, eq_comm]
  simp only [addDm1]
  congr 1
  funext p q r s'
  simp only [makeRdm2, cond_false, cond_true, m]
  rw [s q p, s s' r, s q r, s s' p, s r q, oc q p, oc s' r, oc r q]
  ring

private theorem addDm1_exact (x : Amps o v K) (dm2 : o ⊕ v → o ⊕ v → o ⊕ v → o ⊕ v → K)
    (h : ∀ p q r s, dm2 p q r s = makeRdm2 x false p q r s - (makeRdm1 x false p q * makeRdm1 x false r s - makeRdm1 x false p s * makeRdm1 x false q r / 2)) :
    addDm1 .exact (makeRdm1 x true) dm2 = .ok (makeRdm2 x true) := by
  have s : ∀ p q, makeRdm1 x false p q = makeRdm1 x false q p := by
    intro p q
    rcases p with i | a <;> rcases q with j | b <;> simp only [makeRdm1, rdm1Of, gamma1, Bool.false_eq_true, false_and, if_false] <;> ring
  have m : ∀ p q, makeRdm1 x true p q = makeRdm1 x false p q + 2 * occEq p q := by
    intro p q
    rcases p with i | a <;> rcases q with j | b
    · by_cases h : i = j <;> simp [makeRdm1, rdm1Of, gamma1, occEq, h]
    all_goals simp [makeRdm1, rdm1Of, gamma1, occEq]
  have oc : ∀ p q : o ⊕ v, (occEq p q : K) = occEq q p := by
    intro p q; rcases p with i | a <;> rcases q with j | b <;> simp [occEq, eq_comm]
  simp only [addDm1]
  congr 1
  funext p q r s'
  simp only [h, makeRdm2, cond_false, cond_true, m]
  rw [s q p, s s' r, s q r, s s' p, s r q, oc q p, oc s' r]
  ring

/-- **Complete clusters.** If every cluster is the whole system and the projectors of the fragments add up to the identity, the assembled two-body density matrix is the one of the wave function,
without and with the one-body part, whichever of the two symmetrisations is chosen. -/
theorem frag_rdm2_complete (tl sym : Bool) (w : Amps o v K) (hw : PairSymmetric (asLambda tl w)) (ps : List (Bool → Amps o v K)) (h : Partition (ps.map (· sym)) w) :
    makeRdm2Emb "ccsd" none tl sym .approx (ps.map (wholeCluster false w)) = .ok (makeRdm2 (asLambda tl w) false)
      ∧ makeRdm2Emb "ccsd" (some (makeRdm1 (asLambda tl w) true)) tl sym .approx (ps.map (wholeCluster false w)) = .ok (makeRdm2 (asLambda tl w) true) := by
  have hl : loop tl sym .approx (ps.map (wholeCluster false w)) = .ok (makeRdm2 (asLambda tl w) false) := by
    rw [loop_whole tl sym .approx false w ps (fun p => bif sym then dm2cc tl w p else average4 (dm2cc tl w p)) (fun p => by cases sym <;> rfl)]
    congr 1
    funext a b c d
    cases sym with
    | true => simp only [cond_true]; rw [dm2cc_sum, total_eq h, dm2cc_self]
    | false =>
      simp only [cond_false]
      rw [average4_sum]
      simp only [dm2cc_sum, total_eq h, dm2cc_self]
      exact average4_symmetric _ hw false a b c d
  refine ⟨?_, ?_⟩
  · simp only [makeRdm2Emb, if_true, projLambda, hl]; rfl
  · simp only [makeRdm2Emb, if_true, projLambda, hl]
    exact addDm1_approx _

private theorem exact_sum (w : Amps o v K) (a b c d : o ⊕ v) (ps : List (Amps o v K)) (h : Partition ps w) :
    (ps.map fun p => dm2exact false w p a b c d).sum
      = makeRdm2 w false a b c d - (makeRdm1 w false a b * makeRdm1 w false c d - makeRdm1 w false a d * makeRdm1 w false b c / 2) := by
  have h0 : asLambda false w = w := rfl
  have h2 := dm2cc_sum false w a b c d ps
  have s1 := frag_dm1_complete false w ps h c d
  have s2 := frag_dm1_complete false w ps h a b
  have s3 := frag_dm1_complete false w ps h b c
  have s4 := frag_dm1_complete false w ps h a d
  rw [total_eq h, dm2cc_self] at h2
  rw [h0] at h2 s1 s2 s3 s4
  rw [← h2]
  have key : ∀ ps : List (Amps o v K), (ps.map fun p => dm2exact false w p a b c d).sum = (ps.map fun p => dm2cc false w p a b c d).sum
      - (makeRdm1 w false a b * (ps.map fun p => dm1x false w p c d).sum / 2 + (ps.map fun p => dm1x false w p a b).sum * makeRdm1 w false c d / 2
        - makeRdm1 w false a d * (ps.map fun p => dm1x false w p b c).sum / 4 - (ps.map fun p => dm1x false w p a d).sum * makeRdm1 w false b c / 4) := by
    intro ps
    induction ps with
    | nil => simp
    | cons p ps ih =>
      simp only [List.map_cons, List.sum_cons]
      rw [ih, dm2exact]
      ring
  rw [key, s1, s2, s3, s4]
  ring

/-- **Complete clusters, exact cumulant.** With `approx_cumulant=False` and the multipliers of the wave function the fragments add up to the density matrix minus the antisymmetrised product of the
one-body density matrices, and adding the one-body part gives the density matrix back. -/
theorem frag_rdm2_complete_exact (sym : Bool) (w : Amps o v K) (hw : PairSymmetric w) (ps : List (Bool → Amps o v K)) (h : Partition (ps.map (· sym)) w) :
    makeRdm2Emb "ccsd" (some (makeRdm1 w true)) false sym .exact (ps.map (wholeCluster false w)) = .ok (makeRdm2 w true)
      ∧ makeRdm2Emb "ccsd" none false sym .exact (ps.map (wholeCluster false w))
        = .ok fun p q r s => makeRdm2 w true p q r s - (makeRdm1 w true p q * makeRdm1 w true r s - makeRdm1 w true p s * makeRdm1 w true q r / 2) := by
  obtain ⟨C, hC⟩ : ∃ C : o ⊕ v → o ⊕ v → o ⊕ v → o ⊕ v → K, C = fun a b c d =>
      makeRdm2 w false a b c d - (makeRdm1 w false a b * makeRdm1 w false c d - makeRdm1 w false a d * makeRdm1 w false b c / 2) := ⟨_, rfl⟩
  have sd := (cc_rdm1_electrons w hw).1 false
  have hl : loop false sym .exact (ps.map (wholeCluster false w)) = .ok C := by
    rw [loop_whole false sym .exact false w ps (fun p => bif sym then dm2exact false w p else average4 (dm2exact false w p)) (fun p => by cases sym <;> rfl)]
    congr 1
    funext a b c d
    cases sym with
    | true => simp only [cond_true]; rw [exact_sum w a b c d _ h, hC]
    | false =>
      simp only [cond_false]
      rw [average4_sum]
      simp only [exact_sum w _ _ _ _ _ h]
      have h1 := average4_symmetric w hw false a b c d
      simp only [average4] at h1 ⊢
      rw [hC]
      dsimp only
      rw [sd b a, sd d c, sd b c, sd d a, sd c b]
      linear_combination h1
  have ha := addDm1_exact w C (fun p q r s => by rw [hC])
  refine ⟨?_, ?_⟩
  · simp only [makeRdm2Emb, if_true, projLambda, hl]
    exact ha
  · simp only [makeRdm2Emb, if_true, projLambda, hl]
    show Except.ok C = _
    simp only [addDm1] at ha
    injection ha with ha
    congr 1
    funext p q r s
    rw [← congrFun (congrFun (congrFun (congrFun ha p) q) r) s]
    ring

/-! ## MP2 -/

/-- **MP2.** If every cluster is the whole system the fragments add up to first-order amplitudes in the two blocks of pair excitations and nothing else. -/
theorem frag_rdm2_mp2 (sym : Bool) (tl : Bool) (w : Amps o v K) (ps : List (Bool → Amps o v K)) (h : Partition (ps.map (· sym)) w) :
    ∃ d, makeRdm2Emb "mp2" none tl sym .approx (ps.map (wholeCluster true w)) = .ok d
      ∧ (∀ i a j b, d (.inl i) (.inr a) (.inl j) (.inr b) = 4 * w.t2 i j a b - 2 * w.t2 i j b a)
      ∧ (∀ i a j b, d (.inr a) (.inl i) (.inr b) (.inl j) = 4 * w.t2 i j a b - 2 * w.t2 i j b a)
      ∧ ∀ p q r s, (p.isLeft = q.isLeft ∨ p.isLeft ≠ r.isLeft ∨ q.isLeft ≠ s.isLeft) → d p q r s = 0 := by
  have hs : ∀ (ps : List (Amps o v K)) (p q r s : o ⊕ v), (ps.map fun x => dm2mp2 x.t2 p q r s).sum = dm2mp2 (total ps).t2 p q r s := by
    intro ps p q r s
    induction ps with
    | nil => rcases p with i | a <;> rcases q with j | b <;> rcases r with k | c <;> rcases s with l | d <;> simp [dm2mp2, total]
    | cons x ps ih =>
      rw [List.map_cons, List.sum_cons, ih, total_cons]
      rcases p with i | a <;> rcases q with j | b <;> rcases r with k | c <;> rcases s with l | d <;> simp only [dm2mp2, plus, add_zero] <;> ring
  have hl : loop true sym .approx (ps.map (wholeCluster true w)) = .ok (dm2mp2 w.t2) := by
    rw [loop_whole true sym .approx true w ps (fun p => dm2mp2 p.t2) (fun p => rfl)]
    congr 1
    funext p q r s
    rw [hs, total_eq h]
  refine ⟨dm2mp2 w.t2, ?_, ?_, ?_, ?_⟩
  · have : ("mp2" : String) ≠ "ccsd" := by decide
    simp only [makeRdm2Emb, this, if_false, if_true, projLambda, hl]; rfl
  · intro i a j b; simp only [dm2mp2]; ring
  · intro i a j b; simp only [dm2mp2]; ring
  · intro p q r s hc
    rcases p with i | a <;> rcases q with j | b <;> rcases r with k | c <;> rcases s with l | d <;> first
      | rfl
      | (exfalso; simp at hc)

/-! ## The two routes -/

/-- **Routes.** The density matrix of the global wave function and the one assembled from the fragments are the same for complete clusters. -/
theorem frag_rdm2_routes (tl sym symmetrize dm1 : Bool) (w : Amps o v K) (hw : PairSymmetric (asLambda tl w)) (ps : List (Bool → Amps o v K))
    (h : Partition (ps.map (· sym)) w) :
    globalWf true symmetrize dm1 tl (ps.map (wholeCluster false w)) w
      = makeRdm2Emb "ccsd" (if dm1 then some (makeRdm1 (asLambda tl w) true) else none) tl sym .approx (ps.map (wholeCluster false w)) := by
  have hm : (ps.map (wholeCluster false w)).any (·.mp2) = false := by
    rw [List.any_map]
    exact List.any_eq_false.2 fun x _ => by simp [wholeCluster]
  have hg : globalWf true symmetrize dm1 tl (ps.map (wholeCluster false w)) w = .ok (makeRdm2 (asLambda tl w) dm1) := by
    simp only [globalWf, cond_true, hm, Bool.false_eq_true, and_false, if_false]
    congr 1
    cases symmetrize with
    | false => rfl
    | true =>
      funext p q r s
      simp only [cond_true]
      rw [(cc_rdm2_symmetric _ hw dm1 p q r s).1]; ring
  rw [hg]
  have hc := frag_rdm2_complete tl sym w hw ps h
  cases dm1 with
  | false => exact hc.1.symm
  | true => exact hc.2.symm

/-! ## Options that are refused -/

private theorem cumulant_cases {c e : Type} [Fintype c] [DecidableEq c] [Fintype e] (mp2 tl sym : Bool) (ap : Approx) (w p : Amps c e K) :
    ((ap = .two ∨ (mp2 = true ∧ ap ≠ .approx)) ∧ cumulant mp2 tl sym ap w p = .error .notImplementedError)
      ∨ (¬(ap = .two ∨ (mp2 = true ∧ ap ≠ .approx)) ∧ ∃ d, cumulant mp2 tl sym ap w p = .ok d) := by
  cases mp2 <;> cases ap <;> simp [cumulant]

private theorem loop_cases {n : Type} (tl sym : Bool) (ap : Approx) (fs : List (Frag n K)) :
    ((∃ f ∈ fs, ap = .two ∨ (f.mp2 = true ∧ ap ≠ .approx)) ∧ loop tl sym ap fs = .error .notImplementedError)
      ∨ ((∀ f ∈ fs, ¬(ap = .two ∨ (f.mp2 = true ∧ ap ≠ .approx))) ∧ ∃ d, loop tl sym ap fs = .ok d) := by
  induction fs with
  | nil => exact .inr ⟨fun f hf => absurd hf List.not_mem_nil, _, rfl⟩
  | cons f fs ih =>
    rcases cumulant_cases f.mp2 tl sym ap f.wf (f.pwf sym) with ⟨h, e⟩ | ⟨h, d, e⟩
    · exact .inl ⟨⟨f, List.mem_cons_self, h⟩, by rw [loop, e]; rfl⟩
    · rcases ih with ⟨⟨g, hg, h'⟩, e'⟩ | ⟨h', d', e'⟩
      · exact .inl ⟨⟨g, List.mem_cons_of_mem _ hg, h'⟩, by rw [loop, e, e']; rfl⟩
      · refine .inr ⟨fun g hg => ?_, ?_⟩
        · rcases List.mem_cons.1 hg with rfl | hg
          · exact h
          · exact h' g hg
        · rw [loop, e, e']; exact ⟨_, rfl⟩

/-- **Refused options.** `approx_cumulant=2` is not implemented, nor is anything but the approximate cumulant as soon as one fragment used MP2; with the one-body part, values other than those
documented are rejected as such. All other calls return a density matrix. -/
theorem frag_rdm2_errors (dm1 : Option (o ⊕ v → o ⊕ v → K)) (tl sym : Bool) (ap : Approx) (fs : List (Frag (o ⊕ v) K)) :
    ((∃ f ∈ fs, ap = .two ∨ (f.mp2 = true ∧ ap ≠ .approx)) → projLambda dm1 tl sym ap fs = .error .notImplementedError)
      ∧ ((∀ f ∈ fs, ap ≠ .two ∧ (f.mp2 = true → ap = .approx)) →
          (dm1.isSome = true → ap = .two → projLambda dm1 tl sym ap fs = .error .notImplementedError)
          ∧ (dm1.isSome = true → ap = .other → projLambda dm1 tl sym ap fs = .error .valueError)
          ∧ ((dm1.isSome = true → ap = .approx ∨ ap = .exact) → ∃ d, projLambda dm1 tl sym ap fs = .ok d)) := by
  rcases loop_cases tl sym ap fs with ⟨h, e⟩ | ⟨h, d, e⟩
  · refine ⟨fun _ => by rw [projLambda, e]; rfl, fun h' => ?_⟩
    obtain ⟨f, hf, h⟩ := h
    exact absurd h (by have := h' f hf; tauto)
  · refine ⟨fun ⟨f, hf, h'⟩ => absurd h' (h f hf), fun _ => ?_⟩
    rw [projLambda, e]
    cases dm1 with
    | none => exact ⟨fun h => absurd h (by simp), fun h => absurd h (by simp), fun _ => ⟨d, rfl⟩⟩
    | some dm1 =>
      refine ⟨fun _ h => (by subst h; rfl), fun _ h => (by subst h; rfl), fun h => ?_⟩
      rcases h rfl with h | h <;> subst h <;> exact ⟨_, rfl⟩

/-- Other solvers have no two-body density matrix; the route over the global wave function has no fast variant and no one-body part for MP2. Without the
one-body part it is the density matrix of the wave function whatever the solvers. -/
theorem frag_rdm2_unsupported (solver : String) (hs : solver ≠ "ccsd" ∧ solver ≠ "mp2") (dm1 : Option (o ⊕ v → o ⊕ v → K)) (tl sym : Bool) (ap : Approx) (fs : List (Frag (o ⊕ v) K))
    (s b : Bool) (g : Amps o v K) :
    makeRdm2Emb solver dm1 tl sym ap fs = .error .notImplementedError ∧ globalWf false s b tl fs g = .error .notImplementedError
      ∧ ((∃ f ∈ fs, f.mp2 = true) → globalWf true s true tl fs g = .error .notImplementedError)
      ∧ (PairSymmetric (asLambda tl g) → globalWf true s false tl fs g = .ok (makeRdm2 (asLambda tl g) false)) := by
  refine ⟨by simp [makeRdm2Emb, hs.1, hs.2], rfl, fun ⟨f, hf, h⟩ => ?_, fun h => ?_⟩
  · have : fs.any (·.mp2) = true := List.any_eq_true.2 ⟨f, hf, h⟩
    simp [globalWf, this]
  · simp only [globalWf, cond_true, Bool.false_eq_true, false_and, if_false]
    congr 1
    cases s with
    | false => rfl
    | true =>
      funext p q r t
      simp only [cond_true]
      rw [(cc_rdm2_symmetric _ h false p q r t).1]; ring

/-- **Order.** The order of the fragments does not matter, neither for the result nor for the error. -/
theorem frag_rdm2_order (dm1 : Option (o ⊕ v → o ⊕ v → K)) (tl sym : Bool) (ap : Approx) {fs fs' : List (Frag (o ⊕ v) K)} (h : fs.Perm fs') :
    projLambda dm1 tl sym ap fs = projLambda dm1 tl sym ap fs' := by
  have : loop tl sym ap fs = loop tl sym ap fs' := by
    induction h with
    | nil => rfl
    | cons f _ ih => rw [loop, loop, ih]
    | swap f g fs =>
      rw [loop, loop, loop, loop]
      rcases cumulant_cases f.mp2 tl sym ap f.wf (f.pwf sym) with ⟨_, e⟩ | ⟨_, d, e⟩ <;>
        rcases cumulant_cases g.mp2 tl sym ap g.wf (g.pwf sym) with ⟨_, e'⟩ | ⟨_, d', e'⟩ <;>
        rcases loop_cases tl sym ap fs with ⟨_, e''⟩ | ⟨_, d'', e''⟩ <;> rw [e, e', e''] <;> try rfl
      show Except.ok _ = Except.ok _
      congr 1
      funext p q r s
      ring
    | trans _ _ ih ih' => exact ih.trans ih'
  rw [projLambda, projLambda, this]

/-! ## Sum rule for arbitrary clusters -/

/-- A cluster as the embedding builds them: orthonormal orbitals that do not mix occupied and virtual space, solved with coupled cluster, with symmetric doubles. -/
structure ProperCluster (tl : Bool) (f : Frag (o ⊕ v) K) : Prop where
  cc : f.mp2 = false
  sym : PairSymmetric (mixed tl f.wf (f.pwf true))
  norm : ∀ k, ∑ r, f.rx r k * f.rx r k = 1
  orth : ∀ k l, k ≠ l → ∑ r, f.rx r k * f.rx r l = 0
  occ : ∀ i a, f.rx (.inl i) (.inr a) = 0
  vir : ∀ a i, f.rx (.inr a) (.inl i) = 0

private def occ : o ⊕ v → K
  | .inl _ => 1
  | .inr _ => 0

private theorem occ_sum (p : o ⊕ v) (f : o ⊕ v → K) : ∑ r, occEq p r * f r = occ p * f p := by
  rw [Fintype.sum_sum_type]
  cases p <;> simp [occEq, occ]

private theorem occ_card : ∑ r : o ⊕ v, (occEq r r : K) = Fintype.card o := by
  rw [Fintype.sum_sum_type]
  simp [occEq]

private theorem false_trace {c e : Type} [Fintype c] [DecidableEq c] [Fintype e] (x : Amps c e K) (h : PairSymmetric x) (p q : c ⊕ e) :
    ∑ r, makeRdm2 x false p q r r = (occ p + occ q - 1) * makeRdm1 x false p q := by
  obtain ⟨t1, t2, l1, l2⟩ := x
  rw [Fintype.sum_sum_type]
  cases p <;> cases q
  · rename_i i j
    have := trace_oo t1 t2 l1 l2 h.t2 h.l2 j i
    simp only [makeRdm2, cond_false, blocks2, rdm2Of, gamma2, makeRdm1, rdm1Of, gamma1, occ, this]
    simp; ring
  · rename_i i a
    have := trace_ov t1 t2 l1 l2 h.t2 h.l2 i a
    simp only [makeRdm2, cond_false, blocks2, rdm2Of, gamma2, makeRdm1, rdm1Of, gamma1, occ, this]
    simp
  · rename_i a i
    have := trace_ov t1 t2 l1 l2 h.t2 h.l2 i a
    simp only [makeRdm2, cond_false, blocks2, rdm2Of, gamma2, makeRdm1, rdm1Of, gamma1, occ, this]
    simp
  · rename_i a b
    have := trace_vv t1 t2 l1 l2 h.t2 h.l2 b a
    simp only [makeRdm2, cond_false, blocks2, rdm2Of, gamma2, makeRdm1, rdm1Of, gamma1, occ, this]
    simp; ring

private theorem cluster_trace {c e : Type} [Fintype c] [DecidableEq c] [Fintype e] (tl : Bool) (w p : Amps c e K) (h : PairSymmetric (mixed tl w p)) (a b : c ⊕ e) :
    ∑ r, dm2cc tl w p a b r r = (occ a + occ b - 1) * dm1x tl w p a b := by
  classical
  have e1 : ∀ r, dm2cc tl w p a b r r = makeRdm2 (mixed tl w p) false a b r r := by
    intro r
    rw [dm2cc_eq]
    rcases a with i | a <;> rcases b with j | b <;> rcases r with k | c <;> simp [corr2]
  simp only [e1, false_trace _ h, dm1x_eq]
  rcases a with i | a <;> rcases b with j | b <;> simp [corr1, occ]

private theorem cluster_electrons {c e : Type} [Fintype c] [DecidableEq c] [Fintype e] (tl : Bool) (w p : Amps c e K) (h : PairSymmetric (mixed tl w p)) :
    ∑ r, dm1x tl w p r r = 0 := by
  classical
  have e1 : ∀ r, dm1x tl w p r r = makeRdm1 (mixed tl w p) false r r := by
    intro r
    rw [dm1x_eq]
    rcases r with k | c <;> simp [corr1]
  simp only [e1]
  exact (cc_rdm1_electrons _ h).2.2

private theorem contract {n m : Type} [Fintype n] [Fintype m] (rx : n → m → K) (h1 : ∀ k, ∑ r, rx r k * rx r k = 1) (h2 : ∀ k l, k ≠ l → ∑ r, rx r k * rx r l = 0) (d : m → m → K) :
    ∑ r, ∑ k, ∑ l, rx r k * rx r l * d k l = ∑ k, d k k := by
  classical
  rw [Finset.sum_comm]
  refine Finset.sum_congr rfl fun k _ => ?_
  rw [Finset.sum_comm]
  have : ∀ l, ∑ r, rx r k * rx r l * d k l = if k = l then d k k else 0 := by
    intro l
    rw [← Finset.sum_mul]
    by_cases hkl : k = l
    · subst hkl; rw [h1, if_pos rfl, one_mul]
    · rw [h2 k l hkl, if_neg hkl, zero_mul]
  simp only [this, Finset.sum_ite_eq, Finset.mem_univ, if_true]

private theorem frag_trace (tl : Bool) (f : Frag (o ⊕ v) K) (h : ProperCluster tl f) (p q : o ⊕ v) :
    ∑ r, rotate f.rx (dm2cc tl f.wf (f.pwf true)) p q r r = (occ p + occ q - 1) * ∑ i, ∑ j, f.rx p i * f.rx q j * dm1x tl f.wf (f.pwf true) i j := by
  have e1 : ∀ r, rotate f.rx (dm2cc tl f.wf (f.pwf true)) p q r r
      = ∑ k, ∑ l, f.rx r k * f.rx r l * ∑ i, ∑ j, f.rx p i * f.rx q j * dm2cc tl f.wf (f.pwf true) i j k l := by
    intro r
    simp only [rotate, Finset.mul_sum]
    rw [show (∑ i, ∑ j, ∑ k, ∑ l, dm2cc tl f.wf (f.pwf true) i j k l * f.rx p i * f.rx q j * f.rx r k * f.rx r l)
      = ∑ i, ∑ k, ∑ l, ∑ j, dm2cc tl f.wf (f.pwf true) i j k l * f.rx p i * f.rx q j * f.rx r k * f.rx r l from
        Finset.sum_congr rfl fun i _ => by
          rw [Finset.sum_comm]
          exact Finset.sum_congr rfl fun k _ => Finset.sum_comm]
    rw [Finset.sum_comm]
    refine Finset.sum_congr rfl fun k _ => ?_
    rw [Finset.sum_comm]
    refine Finset.sum_congr rfl fun l _ => Finset.sum_congr rfl fun i _ => Finset.sum_congr rfl fun j _ => ?_
    ring
  simp only [e1]
  rw [contract f.rx h.norm h.orth, Finset.sum_comm, Finset.mul_sum]
  refine Finset.sum_congr rfl fun i _ => ?_
  rw [Finset.sum_comm, Finset.mul_sum]
  refine Finset.sum_congr rfl fun j _ => ?_
  rw [← Finset.mul_sum, cluster_trace tl _ _ h.sym]
  rcases p with p | p <;> rcases q with q | q <;> rcases i with i | i <;> rcases j with j | j <;> simp only [occ, h.occ, h.vir] <;> ring

/-- **Sum rule of the embedding.** For any fragments with proper clusters, small or large, the assembled two-body density matrix with the one-body part assembled from the same fragments contracts
to that one-body density matrix times the number of other electrons, and the latter holds two electrons per occupied orbital. -/
theorem frag_rdm2_sum_rule (tl : Bool) (fs : List (Frag (o ⊕ v) K)) (h : ∀ f ∈ fs, ProperCluster tl f) :
    ∃ d, makeRdm2Emb "ccsd" (some (assembledDm1 tl fs)) tl true .approx fs = .ok d
      ∧ (∀ p q, ∑ r, d p q r r = (2 * Fintype.card o - 1) * assembledDm1 tl fs p q)
      ∧ ∑ p, assembledDm1 tl fs p p = 2 * Fintype.card o := by
  have hl : ∀ fs : List (Frag (o ⊕ v) K), (∀ f ∈ fs, ProperCluster tl f) → ∃ d, loop tl true .approx fs = .ok d
      ∧ (∀ p q, ∑ r, d p q r r = (occ p + occ q - 1) * (assembledDm1 tl fs p q - 2 * occEq p q)) ∧ ∑ p, (assembledDm1 tl fs p p - 2 * occEq p p) = 0 := by
    intro fs h
    induction fs with
    | nil => exact ⟨_, rfl, by simp [assembledDm1], by simp [assembledDm1]⟩
    | cons f fs ih =>
      obtain ⟨d, e, hd, ht⟩ := ih fun g hg => h g (List.mem_cons_of_mem _ hg)
      have hf := h f List.mem_cons_self
      have hc : cumulant f.mp2 tl true .approx f.wf (f.pwf true) = .ok (dm2cc tl f.wf (f.pwf true)) := by rw [hf.cc]; rfl
      have ha : ∀ p q, assembledDm1 tl (f :: fs) p q - 2 * occEq p q
          = (∑ i, ∑ j, f.rx p i * f.rx q j * dm1x tl f.wf (f.pwf true) i j) + (assembledDm1 tl fs p q - 2 * occEq p q) := by
        intro p q
        simp only [assembledDm1, List.map_cons, List.sum_cons]; ring
      refine ⟨fun p q r s => rotate f.rx (dm2cc tl f.wf (f.pwf true)) p q r s + d p q r s, by rw [loop, hc, e]; rfl, fun p q => ?_, ?_⟩
      · rw [Finset.sum_add_distrib, hd, frag_trace tl f hf, ha]; ring
      · simp only [ha, Finset.sum_add_distrib]
        rw [contract f.rx hf.norm hf.orth, cluster_electrons tl _ _ hf.sym, zero_add]
        exact ht
  obtain ⟨d, e, hd, ht⟩ := hl fs h
  obtain ⟨A, hA⟩ : ∃ A : o ⊕ v → o ⊕ v → K, A = fun p q => assembledDm1 tl fs p q - 2 * occEq p q := ⟨_, rfl⟩
  have hA' : ∀ p q, assembledDm1 tl fs p q = A p q + 2 * occEq p q := fun p q => by rw [hA]; ring
  have hd' : ∀ p q, ∑ r, d p q r r = (occ p + occ q - 1) * A p q := fun p q => by rw [hd, hA]
  have ht' : ∑ p, A p p = 0 := by rw [hA]; exact ht
  refine ⟨_, by simp only [makeRdm2Emb, if_true, projLambda, e]; rfl, fun p q => ?_, ?_⟩
  · have e1 : ∀ r, d p q r r + occEq p q * ((assembledDm1 tl fs r r - occEq r r) * 2) + occEq r r * ((assembledDm1 tl fs p q - occEq p q) * 2)
        - occEq q r * (assembledDm1 tl fs p r - occEq p r) - occEq p r * (assembledDm1 tl fs r q - occEq r q)
        = d p q r r + occEq p q * 2 * A r r + (occEq p q * 2 + (A p q + occEq p q) * 2) * occEq r r - occEq q r * (A p r + occEq p r) - occEq p r * (A r q + occEq r q) := by
      intro r; simp only [hA']; ring
    refine (Finset.sum_congr rfl fun r _ => e1 r).trans ?_
    simp only [Finset.sum_add_distrib, Finset.sum_sub_distrib, ← Finset.mul_sum, occ_card, occ_sum, hd', ht', hA']
    rcases p with i | a <;> rcases q with j | b
    · by_cases hij : i = j
      · subst hij; simp [occ, occEq]; ring
      · simp [occ, occEq, hij]; ring
    all_goals simp [occ, occEq]
    all_goals ring
  · simp only [hA', Finset.sum_add_distrib, ← Finset.mul_sum, occ_card, ht', zero_add]

/-! ## Cases -/

private def exW : Amps Unit Unit ℚ := ⟨fun _ _ => 1, fun _ _ _ _ => 1, fun _ _ => 0, fun _ _ _ _ => 0⟩

/-- **`t_as_lambda` with the exact cumulant.** The product removed from a fragment's density matrix is built with the multipliers even if the amplitudes take their place elsewhere: the result is then
not the density matrix, even for one fragment with a complete cluster. -/
theorem frag_rdm2_exact_needs_multipliers : ∃ (w : Amps Unit Unit ℚ) (d : _), PairSymmetric (asLambda true w) ∧ Partition [w] w
    ∧ makeRdm2Emb "ccsd" (some (makeRdm1 (asLambda true w) true)) true true .exact [wholeCluster false w fun _ => w] = .ok d
    ∧ d (.inr ()) (.inr ()) (.inr ()) (.inr ()) ≠ makeRdm2 (asLambda true w) true (.inr ()) (.inr ()) (.inr ()) (.inr ()) := by
  refine ⟨exW, _, ⟨fun _ _ _ _ => rfl, fun _ _ _ _ => rfl⟩, ⟨?_, ?_, ?_, ?_⟩, rfl, by decide +kernel⟩ <;> simp

private def exHalf (x : Bool) : Amps (Fin 1) (Fin 2) ℚ := ⟨fun _ a => a.val, fun _ _ a b => bif x then 1 + a.val else b.val, fun _ _ => 1, fun _ _ a b => a.val + b.val⟩

private def exAll : Amps (Fin 1) (Fin 2) ℚ := ⟨fun _ a => 2 * a.val, fun _ _ a b => 1 + a.val + b.val, fun _ _ => 2, fun _ _ a b => 2 * (a.val + b.val)⟩

private theorem exAll_sym : PairSymmetric exAll := ⟨by decide +kernel, by decide +kernel⟩

private theorem exAll_partition : Partition ([exHalf true, exHalf false]) exAll := ⟨by decide +kernel, by decide +kernel, by decide +kernel, by decide +kernel⟩

example : makeRdm2Emb "ccsd" (some (makeRdm1 exAll true)) false false .exact ([fun _ => exHalf true, fun _ => exHalf false].map (wholeCluster false exAll)) = .ok (makeRdm2 exAll true)
    ∧ makeRdm2 exAll true (.inr 0) (.inl 0) (.inr 1) (.inl 0) ≠ 0 :=
  ⟨(frag_rdm2_complete_exact false exAll exAll_sym [fun _ => exHalf true, fun _ => exHalf false] exAll_partition).1, by decide +kernel⟩

example : makeRdm2Emb "ccsd" none true false .approx ([fun _ => exHalf true, fun _ => exHalf false].map (wholeCluster false exAll)) = .ok (makeRdm2 (asLambda true exAll) false) :=
  (frag_rdm2_complete true false exAll ⟨exAll_sym.t2, exAll_sym.t2⟩ [fun _ => exHalf true, fun _ => exHalf false] exAll_partition).1

/-- A cluster with one of the two virtual orbitals. -/
private def exCluster : Frag (Fin 1 ⊕ Fin 2) ℚ where
  co := Fin 1
  cv := Fin 1
  mp2 := false
  wf := ⟨fun _ _ => 1, fun _ _ _ _ => 2, fun _ _ => 3, fun _ _ _ _ => 5⟩
  pwf := fun _ => ⟨fun _ _ => 1 / 2, fun _ _ _ _ => 1, fun _ _ => 1, fun _ _ _ _ => 1⟩
  rx p c := match p, c with
    | .inl _, .inl _ => 1
    | .inr a, .inr _ => if a = 0 then 1 else 0
    | _, _ => 0

private theorem exCluster_proper : ProperCluster false exCluster where
  cc := rfl
  sym := ⟨fun _ _ _ _ => rfl, fun _ _ _ _ => rfl⟩
  norm := by show ∀ k : Fin 1 ⊕ Fin 1, ∑ r : Fin 1 ⊕ Fin 2, exCluster.rx r k * exCluster.rx r k = 1; decide +kernel
  orth := by show ∀ k l : Fin 1 ⊕ Fin 1, k ≠ l → ∑ r : Fin 1 ⊕ Fin 2, exCluster.rx r k * exCluster.rx r l = 0; decide +kernel
  occ := fun _ _ => rfl
  vir := fun _ _ => rfl

example : ∑ p, assembledDm1 false [exCluster] p p = 2 ∧ assembledDm1 false [exCluster] (.inr 0) (.inr 0) ≠ 0 := by
  obtain ⟨d, _, _, h⟩ := frag_rdm2_sum_rule false [exCluster] fun f hf => by rw [List.mem_singleton.1 hf]; exact exCluster_proper
  exact ⟨by rw [h]; norm_num, by decide +kernel⟩

end Vayesta.Props
