import Verif.Model.ClusterHam
import Verif.Spec.ClusterHam
import Mathlib.Tactic.Ring
import Mathlib.Tactic.Abel
import Mathlib.Tactic.FieldSimp
import Mathlib.Tactic.LinearCombination
import Mathlib.Algebra.BigOperators.Fin
import Mathlib.Algebra.BigOperators.Group.Finset.Sigma
import Mathlib.Algebra.BigOperators.Field
import Mathlib.Algebra.Field.Rat
import Mathlib.LinearAlgebra.Matrix.Notation
import Mathlib.Algebra.CharZero.Defs

/-! C33: the cluster Hamiltonian reproduces the Fock matrix. -/

namespace Vayesta.Props
open Vayesta.ClusterHam Vayesta.ClusterHamSpec

variable {K : Type} [Field K] {n a b : Nat}

private theorem dm_sum (nocc : Nat) (x : K) (f : Fin n → Fin n → K) :
    (∑ r, ∑ s, dm n nocc x r s * f r s) = x * occSum nocc (fun i => f i i) := by
  unfold occSum
  rw [Finset.mul_sum]
  refine Finset.sum_congr rfl fun r _ => ?_
  rw [Finset.sum_eq_single r]
  · simp only [dm, true_and]; split <;> simp
  · intro s _ hs; simp [dm, Ne.symm hs]
  · simp

private theorem occSum_sub (nocc : Nat) (f g : Fin n → K) : occSum nocc (fun i => f i - g i) = occSum nocc f - occSum nocc g := by
  unfold occSum
  rw [← Finset.sum_sub_distrib]
  exact Finset.sum_congr rfl fun i _ => by split <;> simp

private theorem occSum_half (nocc : Nat) (f : Fin n → K) : occSum nocc (fun i => f i / 2) = occSum nocc f / 2 := by
  unfold occSum
  rw [Finset.sum_div]
  exact Finset.sum_congr rfl fun i _ => by split <;> simp

private theorem vAct_eq [CharZero K] (nocc : Nat) (g : Eri n n K) (hg : PairSymmetric g) : vAct nocc g = potential g (dm n nocc 2) := by
  funext p q
  unfold vAct potential
  rw [dm_sum nocc 2 (fun r s => g p q r s - g p s r q / 2), occSum_sub, occSum_half]
  have h1 : (fun i => g i i p q) = fun i => g p q i i := funext fun i => hg i i p q
  have h2 : (fun i => g i q p i) = fun i => g p i i q := funext fun i => hg i q p i
  rw [h1, h2]
  have : (2 : K) ≠ 0 := two_ne_zero
  field_simp

private theorem pyscf_eq [CharZero K] (nocc : Nat) (h : Matrix (Fin n) (Fin n) K) (g : Eri n n K) :
    pyscfFock nocc h g = h + potential g (dm n nocc 2) := by
  funext p q
  show _ = h p q + potential g (dm n nocc 2) p q
  unfold pyscfFock potential
  congr 1
  have e1 : (∑ r, ∑ s, g p q r s * (if r = s ∧ r.val < nocc then (2 : K) else 0)) = ∑ r, ∑ s, dm n nocc 2 r s * g p q r s :=
    Finset.sum_congr rfl fun r _ => Finset.sum_congr rfl fun s _ => mul_comm _ _
  have e2 : (∑ r, ∑ s, g p r s q * (if r = s ∧ r.val < nocc then (2 : K) else 0)) = ∑ r, ∑ s, dm n nocc 2 r s * g p r s q :=
    Finset.sum_congr rfl fun r _ => Finset.sum_congr rfl fun s _ => mul_comm _ _
  rw [e1, e2, dm_sum nocc 2 (fun r s => g p q r s), dm_sum nocc 2 (fun r s => g p r s q),
    dm_sum nocc 2 (fun r s => g p q r s - g p s r q / 2), occSum_sub, occSum_half]
  have : (2 : K) ≠ 0 := two_ne_zero
  field_simp

private theorem addVext_true (v : Option (Matrix (Fin n) (Fin n) K)) (m : Matrix (Fin n) (Fin n) K) : addVext true v m = plus m v := by
  cases v <;> rfl

private theorem plus_sub (v : Option (Matrix (Fin n) (Fin n) K)) (m w : Matrix (Fin n) (Fin n) K) : plus (m - w) v = plus m v - w := by
  cases v
  · rfl
  · simp only [plus]; abel

private theorem plus_add (v : Option (Matrix (Fin n) (Fin n) K)) (m w : Matrix (Fin n) (Fin n) K) : plus (m + w) v = plus m v + w := by
  cases v
  · rfl
  · simp only [plus]; abel

/-- Effective Hamiltonian from given integrals. -/
private theorem heff_of (h : RHam n K) (g : Eri n n K) : h.getHeff (some g) true = .ok (plus (h.getFock false) h.vext - vAct h.nocc g) := by
  simp only [RHam.getHeff, Except.map, addVext_true, plus_sub]

private theorem heff_default (h : RHam n K) (w : Eri n n K) (hw : h.getErisScreened = .ok w) :
    h.getHeff = .ok (plus (h.getFock false) h.vext - vAct h.nocc w) := by
  simp only [RHam.getHeff, hw, Except.map, addVext_true, plus_sub]

private theorem fock_false (h : RHam n K) : plus (h.getFock false) h.vext = h.getFock := by
  unfold RHam.getFock
  cases h.seris with
  | none => cases h.vext <;> rfl
  | some w =>
    simp only [Option.getD_none]
    split <;> simp only [addVext_true, plus_add] <;> simp [addVext]

/-- Restricted: the effective one-body Hamiltonian plus the potential of the active electrons in the interaction handed to the solver is
the cluster's Fock matrix, for every combination of options. -/
theorem cluster_fock_consistent [CharZero K] (h : RHam n K) (w : Eri n n K) (hs : PairSymmetric w) (hw : h.getErisScreened = .ok w) :
    ∃ heff, h.getIntegrals = .ok (heff, w) ∧ h.getHeff = .ok heff ∧ heff + potential w (dm n h.nocc 2) = h.getFock := by
  refine ⟨plus (h.getFock false) h.vext - vAct h.nocc w, ?_, heff_default h w hw, ?_⟩
  · simp only [RHam.getIntegrals, heff_default h w hw, hw, Except.map]
  · rw [fock_false, vAct_eq _ _ hs]; abel

/-- With `match_fock`, that Fock matrix is the one of the full system in the cluster's orbitals, plus the external potential, whatever the
screening. -/
theorem cluster_fock_matched (h : RHam n K) (hm : h.matchFock = true) : h.getFock = plus h.fock h.vext := by
  unfold RHam.getFock
  cases h.seris <;> simp [addVext_true, hm]

/-- Without `match_fock`, the one-body part is that of the bare interaction, whatever the screening. -/
theorem cluster_heff_unmatched [CharZero K] (h : RHam n K) (hm : h.matchFock = false) (w : Eri n n K) (hw : h.getErisScreened = .ok w)
    (hsc : h.seris.isSome → h.screening = true) (hb : PairSymmetric h.bare) :
    h.getHeff = .ok (plus h.fock h.vext - potential h.bare (dm n h.nocc 2)) := by
  rw [heff_default h w hw, fock_false, ← vAct_eq _ _ hb]
  unfold RHam.getFock
  unfold RHam.getErisScreened at hw
  cases hse : h.seris with
  | none =>
    rw [hse] at hw
    split at hw
    · cases hw; simp only [addVext_true]
    · cases hw
  | some x =>
    have := hsc (by rw [hse]; rfl)
    rw [this, hse] at hw
    simp only [reduceCtorEq, ↓reduceIte, Except.ok.injEq] at hw
    subst hw
    simp only [addVext_true, hm, Option.getD_none, Bool.not_false, ↓reduceIte]
    congr 1; abel

/-- Screened integrals are required before anything can be built. -/
theorem cluster_screening_missing (h : RHam n K) (hs : h.screening = true) (hn : h.seris = none) :
    h.getErisScreened = .error .runtimeError ∧ h.getHeff = .error .runtimeError ∧ h.getIntegrals = .error .runtimeError ∧
    (∀ bare overwrite, h.toPyscf bare overwrite = .error .runtimeError) := by
  have e : h.getErisScreened = .error .runtimeError := by simp [RHam.getErisScreened, hs, hn]
  have e2 : h.getHeff = .error .runtimeError := by simp [RHam.getHeff, e, Except.map]
  refine ⟨e, e2, by simp [RHam.getIntegrals, e2], fun bare ov => ?_⟩
  cases bare <;> simp [RHam.toPyscf, RHam.selectEris, e, e2, Except.map]

/-- The mean-field object for solvers: its own Fock matrix is the cluster's one, if neither bare integrals nor another Fock matrix are
forced. -/
theorem cluster_mf_consistent [CharZero K] (h : RHam n K) (w : Eri n n K) (hs : PairSymmetric w) (hw : h.getErisScreened = .ok w) :
    ∃ mf, h.toPyscf false false = .ok mf ∧ mf.eri = w ∧ mf.fock = mf.hcore + potential mf.eri (dm n h.nocc 2) ∧ mf.fock = h.getFock := by
  refine ⟨⟨plus (h.getFock false) h.vext - vAct h.nocc w, w, pyscfFock h.nocc (plus (h.getFock false) h.vext - vAct h.nocc w) w⟩, ?_, rfl, ?_, ?_⟩
  · simp [RHam.toPyscf, RHam.selectEris, hw, heff_default h w hw, Except.map]
  · exact pyscf_eq _ _ _
  · show pyscfFock _ _ _ = _
    rw [pyscf_eq, fock_false, vAct_eq _ _ hs]; abel

/-- With bare integrals forced, the object's Fock matrix differs by the change of the potential upon screening: the one-body part still
belongs to the screened interaction. -/
theorem cluster_mf_force_bare [CharZero K] (h : RHam n K) (w : Eri n n K) (hw : h.getErisScreened = .ok w) (hs : PairSymmetric w) :
    ∃ mf, h.toPyscf true false = .ok mf ∧ mf.eri = h.bare ∧
    mf.fock = h.getFock + (potential h.bare (dm n h.nocc 2) - potential w (dm n h.nocc 2)) := by
  refine ⟨⟨plus (h.getFock false) h.vext - vAct h.nocc w, h.bare, pyscfFock h.nocc (plus (h.getFock false) h.vext - vAct h.nocc w) h.bare⟩, ?_, rfl, ?_⟩
  · simp [RHam.toPyscf, RHam.selectEris, heff_default h w hw, Except.map]
  · show pyscfFock _ _ _ = _
    rw [pyscf_eq, fock_false, vAct_eq _ _ hs]; abel

/-- With the Fock matrix overwritten, the stored matrix is the one of the screened interaction, even with `match_fock`; it agrees with the
object's own core Hamiltonian and integrals only if screening does not change the potential. -/
theorem cluster_mf_overwrite [CharZero K] (h : RHam n K) (w : Eri n n K) (hm : h.matchFock = true) (hsc : h.screening = true) (hw : h.seris = some w)
    (hs : PairSymmetric w) (hb : PairSymmetric h.bare) :
    ∃ mf, h.toPyscf false true = .ok mf ∧
    mf.fock = plus h.fock h.vext + (potential w (dm n h.nocc 2) - potential h.bare (dm n h.nocc 2)) ∧
    (mf.fock = mf.hcore + potential mf.eri (dm n h.nocc 2) ↔ potential w (dm n h.nocc 2) = potential h.bare (dm n h.nocc 2)) := by
  have e : h.getErisScreened = .ok w := by simp [RHam.getErisScreened, hsc, hw]
  have ef : h.getFock true (some (!false)) = plus h.fock h.vext + (potential w (dm n h.nocc 2) - potential h.bare (dm n h.nocc 2)) := by
    unfold RHam.getFock
    rw [hw]
    simp only [Option.getD_some, Bool.not_false, ↓reduceIte, addVext_true, vAct_eq _ _ hs, vAct_eq _ _ hb]
  refine ⟨⟨plus (h.getFock false) h.vext - vAct h.nocc w, w, h.getFock true (some (!false))⟩, ?_, ef, ?_⟩
  · simp [RHam.toPyscf, RHam.selectEris, e, heff_default h w e, Except.map]
  · show h.getFock true (some (!false)) = plus (h.getFock false) h.vext - vAct h.nocc w + potential w (dm n h.nocc 2) ↔ _
    rw [ef, fock_false, cluster_fock_matched h hm, vAct_eq _ _ hs, sub_add_cancel, add_eq_left, sub_eq_zero]

/-- The integral object for energy functions: whichever integrals are selected, its Fock matrix minus the potential of these integrals is the
same one-body part, that of the bare interaction, with the external potential if requested. -/
theorem dummy_eris_one_body [CharZero K] (h : RHam n K) (forceBare withVext : Bool) (hb : PairSymmetric h.bare)
    (hc : h.screening = false ∧ h.seris = none ∨ ∃ w, h.screening = true ∧ h.seris = some w ∧ PairSymmetric w) :
    ∃ g f, h.dummyEris forceBare withVext = .ok (g, f) ∧ (forceBare = true → g = h.bare) ∧ (forceBare = false → h.getErisScreened = .ok g) ∧
      f - potential g (dm n h.nocc 2) = (if withVext then plus h.fock h.vext else h.fock) - potential h.bare (dm n h.nocc 2) := by
  have hv : addVext withVext h.vext h.fock = if withVext then plus h.fock h.vext else h.fock := by
    cases withVext
    · rfl
    · exact addVext_true _ _
  rcases hc with ⟨h1, h2⟩ | ⟨w, h1, h2, hs⟩
  · refine ⟨h.bare, h.getFock withVext (some (!forceBare)), ?_, fun _ => rfl, fun _ => by simp [RHam.getErisScreened, h1], ?_⟩
    · cases forceBare <;> simp [RHam.dummyEris, RHam.selectEris, RHam.getErisScreened, h1, Except.map]
    · unfold RHam.getFock
      rw [h2]
      simp only [hv]
  · have e : h.getErisScreened = .ok w := by simp [RHam.getErisScreened, h1, h2]
    cases forceBare
    · refine ⟨w, h.getFock withVext (some (!false)), by simp [RHam.dummyEris, RHam.selectEris, e, Except.map], by simp, fun _ => e, ?_⟩
      unfold RHam.getFock
      rw [h2]
      simp only [Option.getD_some, Bool.not_false, ↓reduceIte, hv, vAct_eq _ _ hs, vAct_eq _ _ hb]
      abel
    · refine ⟨h.bare, h.getFock withVext (some (!true)), by simp [RHam.dummyEris, RHam.selectEris, Except.map], fun _ => rfl, by simp, ?_⟩
      unfold RHam.getFock
      rw [h2]
      simp only [Option.getD_some, Bool.not_true, Bool.false_eq_true, ↓reduceIte, hv]

/-- Bare integrals passed to `get_integrals`: one-body part and returned interaction do not belong together unless
screening does not change the potential. -/
theorem cluster_integrals_bare [CharZero K] (h : RHam n K) (w : Eri n n K) (hsc : h.screening = true) (hw : h.seris = some w)
    (hb : PairSymmetric h.bare) :
    ∃ heff, h.getIntegrals (some h.bare) = .ok (heff, w) ∧
    (heff + potential w (dm n h.nocc 2) = h.getFock ↔ potential w (dm n h.nocc 2) = potential h.bare (dm n h.nocc 2)) := by
  have e : h.getErisScreened = .ok w := by simp [RHam.getErisScreened, hsc, hw]
  refine ⟨plus (h.getFock false) h.vext - vAct h.nocc h.bare, ?_, ?_⟩
  · simp only [RHam.getIntegrals, heff_of, e, Except.map]
  · rw [fock_false, vAct_eq _ _ hb, sub_add_eq_add_sub, sub_eq_iff_eq_add, add_right_inj]

/-! ### Unrestricted -/

private theorem vActA_eq (na nb : Nat) (g : UEri a b K) (hg : PairSymmetric g.aa) (hh : ∀ p q r s, g.aa p q r s = g.aa q p s r) :
    vActA na nb g = potentialA g.aa g.ab (dm a na 1) (dm b nb 1) := by
  funext p q
  unfold vActA potentialA
  rw [dm_sum na 1 (fun r s => g.aa p q r s - g.aa p s r q), occSum_sub, dm_sum nb 1 (fun r s => g.ab p q r s)]
  have h1 : (fun i => g.aa i i p q) = fun i => g.aa p q i i := funext fun i => hg i i p q
  have h2 : (fun i => g.aa i p q i) = fun i => g.aa p i i q := funext fun i => hh i p q i
  rw [h1, h2]; ring

private theorem vActB_eq (na nb : Nat) (g : UEri a b K) (hg : PairSymmetric g.bb) (hh : ∀ p q r s, g.bb p q r s = g.bb q p s r) :
    vActB na nb g = potentialB g.bb g.ab (dm a na 1) (dm b nb 1) := by
  funext p q
  unfold vActB potentialB
  rw [dm_sum nb 1 (fun r s => g.bb p q r s - g.bb p s r q), occSum_sub, dm_sum na 1 (fun r s => g.ab r s p q)]
  have h1 : (fun i => g.bb i i p q) = fun i => g.bb p q i i := funext fun i => hg i i p q
  have h2 : (fun i => g.bb i p q i) = fun i => g.bb p i i q := funext fun i => hh i p q i
  rw [h1, h2]; ring

/-- Symmetries of real unrestricted integrals within one spin. -/
def GoodEris (g : UEri a b K) : Prop :=
  PairSymmetric g.aa ∧ PairSymmetric g.bb ∧ (∀ p q r s, g.aa p q r s = g.aa q p s r) ∧ ∀ p q r s, g.bb p q r s = g.bb q p s r

/-- Unrestricted: one-body part plus the potential in the interaction handed to the solver is the cluster's Fock matrix. -/
theorem uhf_cluster_fock_consistent (h : UHam a b K) (w : UEri a b K) (hw : h.getErisScreened = .ok w) (hsc : h.seris.isSome → h.screening = true)
    (hgw : GoodEris w) :
    h.getHeff.1 + potentialA w.aa w.ab (dm a h.nocca 1) (dm b h.noccb 1) = h.getFock.1 ∧
    h.getHeff.2 + potentialB w.bb w.ab (dm a h.nocca 1) (dm b h.noccb 1) = h.getFock.2 := by
  rw [← vActA_eq _ _ _ hgw.1 hgw.2.2.1, ← vActB_eq _ _ _ hgw.2.1 hgw.2.2.2]
  unfold UHam.getErisScreened at hw
  unfold UHam.getHeff UHam.getFock
  cases hse : h.seris with
  | none =>
    rw [hse] at hw
    split at hw
    · cases hw
      simp only [addVext_true, plus_sub, Option.getD_none]
      simp [addVext]
    · cases hw
  | some x =>
    have := hsc (by rw [hse]; rfl)
    rw [this, hse] at hw
    simp only [reduceCtorEq, ↓reduceIte, Except.ok.injEq] at hw
    subst hw
    simp only [addVext_true, plus_sub, Option.getD_none, ↓reduceIte, Bool.false_eq_true]
    refine ⟨?_, ?_⟩ <;> (simp only [addVext, Bool.false_eq_true, ↓reduceIte]; abel)

/-- Without screening it is the one of the full system, plus the external potential. -/
theorem uhf_cluster_fock_partial (h : UHam a b K) (hn : h.seris = none) :
    h.getFock = (plus h.focka (h.vext.map Prod.fst), plus h.fockb (h.vext.map Prod.snd)) := by
  unfold UHam.getFock
  rw [hn]; simp only [addVext_true]

/-- With screening it is shifted by the change of the potential, whatever `match_fock` says. -/
theorem uhf_cluster_fock_screened (h : UHam a b K) (w : UEri a b K) (hw : h.seris = some w) (hgw : GoodEris w) (hgb : GoodEris h.bare) :
    h.getFock =
      (plus h.focka (h.vext.map Prod.fst) + (potentialA w.aa w.ab (dm a h.nocca 1) (dm b h.noccb 1) - potentialA h.bare.aa h.bare.ab (dm a h.nocca 1) (dm b h.noccb 1)),
       plus h.fockb (h.vext.map Prod.snd) + (potentialB w.bb w.ab (dm a h.nocca 1) (dm b h.noccb 1) - potentialB h.bare.bb h.bare.ab (dm a h.nocca 1) (dm b h.noccb 1))) := by
  unfold UHam.getFock
  rw [hw]
  simp only [addVext_true, ↓reduceIte, vActA_eq _ _ _ hgw.1 hgw.2.2.1, vActB_eq _ _ _ hgw.2.1 hgw.2.2.2, vActA_eq _ _ _ hgb.1 hgb.2.2.1,
    vActB_eq _ _ _ hgb.2.1 hgb.2.2.2]

/-! ### Padding -/

private theorem sum_pad {m : Nat} (h : n ≤ m) (f : Fin m → K) (hf : ∀ i, n ≤ i.val → f i = 0) : ∑ i, f i = ∑ j : Fin n, f (Fin.castLE h j) := by
  obtain ⟨k, rfl⟩ := Nat.exists_eq_add_of_le h
  rw [Fin.sum_univ_add]
  have : ∑ i : Fin k, f (Fin.natAdd n i) = 0 := Finset.sum_eq_zero fun i _ => hf _ (by simp)
  rw [this, add_zero]
  rfl

private theorem occSum_pad {m : Nat} (h : n ≤ m) (nocc : Nat) (f : Fin m → K) (hf : ∀ i, n ≤ i.val → f i = 0) :
    occSum nocc f = occSum nocc fun j : Fin n => f (Fin.castLE h j) := by
  unfold occSum
  rw [sum_pad h _ fun i hi => by rw [hf i hi]; simp]
  rfl

private theorem occSum_zero (nocc : Nat) (f : Fin n → K) (hf : ∀ i, f i = 0) : occSum nocc f = 0 :=
  Finset.sum_eq_zero fun i _ => by rw [hf i]; simp

/-- Padding with dummy orbitals: the Fock matrix built from padded one-body part and padded integrals is the padded Fock matrix. -/
theorem padding_fock {m : Nat} (ha : a ≤ m) (hb : b ≤ m) (na nb : Nat) (d : K) (heff : Matrix (Fin a) (Fin a) K × Matrix (Fin b) (Fin b) K) (g : UEri a b K) :
    pad2 m d heff.1 + potentialA (padEris m g).aa (padEris m g).ab (dm m na 1) (dm m nb 1) =
      pad2 m d (heff.1 + potentialA g.aa g.ab (dm a na 1) (dm b nb 1)) ∧
    pad2 m d heff.2 + potentialB (padEris m g).bb (padEris m g).ab (dm m na 1) (dm m nb 1) =
      pad2 m d (heff.2 + potentialB g.bb g.ab (dm a na 1) (dm b nb 1)) := by
  refine ⟨?_, ?_⟩ <;> funext p q
  · show pad2 m d heff.1 p q + potentialA _ _ _ _ p q = _
    unfold potentialA
    rw [dm_sum na 1 (fun r s => (padEris m g).aa p q r s - (padEris m g).aa p s r q), dm_sum nb 1 (fun r s => (padEris m g).ab p q r s)]
    by_cases h : p.val < a ∧ q.val < a
    · simp only [pad2, h, and_self, ↓reduceDIte]
      show _ = heff.1 _ _ + ((∑ r, ∑ s, dm a na 1 r s * (g.aa ⟨p, h.1⟩ ⟨q, h.2⟩ r s - g.aa ⟨p, h.1⟩ s r ⟨q, h.2⟩)) + ∑ r, ∑ s, dm b nb 1 r s * g.ab ⟨p, h.1⟩ ⟨q, h.2⟩ r s)
      rw [dm_sum na 1 (fun r s => g.aa ⟨p, h.1⟩ ⟨q, h.2⟩ r s - g.aa ⟨p, h.1⟩ s r ⟨q, h.2⟩), dm_sum nb 1 (fun r s => g.ab ⟨p, h.1⟩ ⟨q, h.2⟩ r s)]
      unfold padEris
      rw [occSum_pad ha na _ fun i hi => by simp [pad4, Nat.not_lt.mpr hi], occSum_pad hb nb _ fun i hi => by simp [pad4, Nat.not_lt.mpr hi]]
      simp [pad4, h]
    · unfold padEris
      rw [occSum_zero na _ fun i => by
          simp only [pad4]; rw [dif_neg fun c => h c.1, dif_neg fun c => h ⟨c.1.1, c.2.2⟩, sub_zero],
        occSum_zero nb _ fun i => by simp only [pad4]; exact dif_neg fun c => h c.1]
      simp only [pad2, h, ↓reduceDIte, mul_zero, add_zero]
  · show pad2 m d heff.2 p q + potentialB _ _ _ _ p q = _
    unfold potentialB
    rw [dm_sum nb 1 (fun r s => (padEris m g).bb p q r s - (padEris m g).bb p s r q), dm_sum na 1 (fun r s => (padEris m g).ab r s p q)]
    by_cases h : p.val < b ∧ q.val < b
    · simp only [pad2, h, and_self, ↓reduceDIte]
      show _ = heff.2 _ _ + ((∑ r, ∑ s, dm b nb 1 r s * (g.bb ⟨p, h.1⟩ ⟨q, h.2⟩ r s - g.bb ⟨p, h.1⟩ s r ⟨q, h.2⟩)) + ∑ r, ∑ s, dm a na 1 r s * g.ab r s ⟨p, h.1⟩ ⟨q, h.2⟩)
      rw [dm_sum nb 1 (fun r s => g.bb ⟨p, h.1⟩ ⟨q, h.2⟩ r s - g.bb ⟨p, h.1⟩ s r ⟨q, h.2⟩), dm_sum na 1 (fun r s => g.ab r s ⟨p, h.1⟩ ⟨q, h.2⟩)]
      unfold padEris
      rw [occSum_pad hb nb _ fun i hi => by simp [pad4, Nat.not_lt.mpr hi], occSum_pad ha na _ fun i hi => by simp [pad4, Nat.not_lt.mpr hi]]
      simp [pad4, h]
    · unfold padEris
      rw [occSum_zero nb _ fun i => by
          simp only [pad4]; rw [dif_neg fun c => h c.1, dif_neg fun c => h ⟨c.1.1, c.2.2⟩, sub_zero],
        occSum_zero na _ fun i => by simp only [pad4]; exact dif_neg fun c => h c.2]
      simp only [pad2, h, ↓reduceDIte, mul_zero, add_zero]

/-- A padded matrix: the given entries, the dummy energy on the diagonal of the dummy orbitals, no coupling to them. -/
theorem padding_entries {m : Nat} (d : K) (x : Matrix (Fin n) (Fin n) K) (p q : Fin m) :
    (∀ (hp : p.val < n) (hq : q.val < n), pad2 m d x p q = x ⟨p, hp⟩ ⟨q, hq⟩) ∧
    (n ≤ p.val → p ≠ q → pad2 m d x p q = 0 ∧ pad2 m d x q p = 0) ∧ (n ≤ p.val → pad2 m d x p p = d) := by
  refine ⟨fun hp hq => by simp [pad2, hp, hq], fun hp hpq => ?_, fun hp => by simp [pad2, Nat.not_lt.mpr hp]⟩
  simp [pad2, Nat.not_lt.mpr hp, hpq, Ne.symm hpq]

/-! ### Blocks and their cache -/

/-- Number of orbitals for a letter. -/
def letterSize {N : Nat} (s : Space N K) (c : Char) : Nat := if c.toLower = 'o' then s.nocc else s.nvir

private theorem active_col {N : Nat} (s : Space N K) (c : Char) (m : Fin N) (j : Nat) (hj : j < letterSize s c) :
    s.active m (s.offset c + j) = s.cols c m j := by
  unfold Space.active Space.offset Space.cols letterSize at *
  split
  · rename_i h
    simp only [h, ↓reduceIte] at hj
    rw [Nat.zero_add, if_pos hj]
  · rw [if_neg (by omega), Nat.add_sub_cancel_left]

/-- The integrals of a block, defined without any cache: `(pq|rs)` over the orbitals named by the letters. -/
def BlockIs {N : Nat} (ao : Fin N → Fin N → Fin N → Fin N → K) (s : Space N K) : Option (List Char) → Except PyErr (Arr K) → Prop
  | none, r => r = .ok (eriArray ao s.active s.active s.active s.active)
  | some [a, b, c, d], r =>
    if validBlock [a, b, c, d] then ∃ x, r = .ok x ∧ ∀ p q t u, p < letterSize s a → q < letterSize s b → t < letterSize s c → u < letterSize s d →
      x p q t u = eriArray ao (s.cols a) (s.cols b) (s.cols c) (s.cols d) p q t u
    else r = .error .assertionError
  | some _, r => r = .error .assertionError

private theorem eriArray_congr {N : Nat} (ao : Fin N → Fin N → Fin N → Fin N → K) (c1 c2 c3 c4 d1 d2 d3 d4 : Cols N K) (p q r t p' q' r' t' : Nat)
    (h1 : ∀ m, c1 m p = d1 m p') (h2 : ∀ m, c2 m q = d2 m q') (h3 : ∀ m, c3 m r = d3 m r') (h4 : ∀ m, c4 m t = d4 m t') :
    eriArray ao c1 c2 c3 c4 p q r t = eriArray ao d1 d2 d3 d4 p' q' r' t' := by
  unfold eriArray
  simp only [h1, h2, h3, h4]

private theorem slice_is {N : Nat} (ao : Fin N → Fin N → Fin N → Fin N → K) (s : Space N K) (bl : List Char) :
    BlockIs ao s (some bl) (rSlice s (eriArray ao s.active s.active s.active s.active) bl) := by
  unfold BlockIs rSlice
  split
  · rename_i h; cases h
  · rename_i a b c d h
    cases h
    cases hv : validBlock [a, b, c, d]
    · simp
    · simp only [↓reduceIte, reduceCtorEq, Except.ok.injEq, exists_eq_left']
      intro p q t u hp hq ht hu
      exact eriArray_congr _ _ _ _ _ _ _ _ _ _ _ _ _ _ _ _ _ (fun m => active_col s a m p hp) (fun m => active_col s b m q hq)
        (fun m => active_col s c m t ht) (fun m => active_col s d m u hu)
  · rename_i h1 h2
    cases h2
    split
    · rfl
    · split
      · rename_i a b c d _; exact absurd rfl (h1 a b c d)
      · rfl

private theorem rEris_spec {N : Nat} (ao : Fin N → Fin N → Fin N → Fin N → K) (s : Space N K) (cacheOn : Bool) (cache : Option (Arr K))
    (hc : ∀ g, cache = some g → g = eriArray ao s.active s.active s.active s.active) (bl : Option (List Char)) :
    BlockIs ao s bl (rEris ao s cacheOn cache bl).1 ∧
    ∀ g, (rEris ao s cacheOn cache bl).2 = some g → g = eriArray ao s.active s.active s.active s.active := by
  cases bl with
  | none =>
    cases cache with
    | none =>
      refine ⟨rfl, fun g hg => ?_⟩
      simp only [rEris] at hg
      split at hg
      · exact (Option.some.inj hg).symm
      · cases hg
    | some g => exact ⟨by rw [hc g rfl]; rfl, hc⟩
  | some bl =>
    cases cache with
    | some g => rw [hc g rfl]; exact ⟨slice_is ao s bl, by intro g hg; exact (Option.some.inj hg).symm⟩
    | none =>
      refine ⟨?_, ?_⟩
      · unfold BlockIs rEris
        split
        · rename_i h; cases h
        · rename_i a b c d h
          cases h
          cases hv : validBlock [a, b, c, d]
          · simp [hv]
          · simp [hv]
        · rename_i h1 h2
          cases h2
          simp only
          split
          · rfl
          · rfl
      · intro g hg
        simp only [rEris] at hg
        split at hg
        · cases hg
        · split at hg <;> cases hg

/-- Restricted integrals: in every history of requests for the full array or for blocks, with or without the cache, each answer is the
array over the orbitals named by the request, and bad block names are refused. -/
theorem eris_cache_transparent {N : Nat} (ao : Fin N → Fin N → Fin N → Fin N → K) (s : Space N K) (cacheOn : Bool) (calls : List (Option (List Char))) :
    List.Forall₂ (BlockIs ao s) calls (rCalls ao s cacheOn none calls) := by
  have key : ∀ (calls : List (Option (List Char))) (cache : Option (Arr K)), (∀ g, cache = some g → g = eriArray ao s.active s.active s.active s.active) →
      List.Forall₂ (BlockIs ao s) calls (rCalls ao s cacheOn cache calls) := by
    intro calls
    induction calls with
    | nil => intro _ _; exact List.Forall₂.nil
    | cons b bs ih =>
      intro cache hc
      have h := rEris_spec ao s cacheOn cache hc b
      exact List.Forall₂.cons h.1 (ih _ h.2)
  exact key calls none (fun g hg => by cases hg)

/-- Orbitals for a letter of an unrestricted block: lower case alpha, upper case beta. -/
def spinSpace {N : Nat} (sa sb : Space N K) (c : Char) : Space N K := if c = 'o' ∨ c = 'v' then sa else sb

private theorem swap4 {N : Nat} (ao : Fin N → Fin N → Fin N → Fin N → K) (hao : ∀ p q r s, ao p q r s = ao s r q p) (c1 c2 c3 c4 : Cols N K) (p q r t : Nat) :
    eriArray ao c1 c2 c3 c4 p q r t = eriArray ao c4 c3 c2 c1 t r q p := by
  unfold eriArray
  have e : ∀ (f : Fin N → Fin N → Fin N → Fin N → K), (∑ w, ∑ x, ∑ y, ∑ z, f w x y z) = ∑ w, ∑ x, ∑ y, ∑ z, f z y x w := by
    intro f
    calc (∑ w, ∑ x, ∑ y, ∑ z, f w x y z) = ∑ w, ∑ x, ∑ z, ∑ y, f w x y z :=
          Finset.sum_congr rfl fun w _ => Finset.sum_congr rfl fun x _ => Finset.sum_comm
      _ = ∑ w, ∑ z, ∑ x, ∑ y, f w x y z := Finset.sum_congr rfl fun w _ => Finset.sum_comm
      _ = ∑ z, ∑ w, ∑ x, ∑ y, f w x y z := Finset.sum_comm
      _ = ∑ z, ∑ w, ∑ y, ∑ x, f w x y z := Finset.sum_congr rfl fun w _ => Finset.sum_congr rfl fun x _ => Finset.sum_comm
      _ = ∑ z, ∑ y, ∑ w, ∑ x, f w x y z := Finset.sum_congr rfl fun w _ => Finset.sum_comm
      _ = ∑ z, ∑ y, ∑ x, ∑ w, f w x y z := Finset.sum_congr rfl fun w _ => Finset.sum_congr rfl fun x _ => Finset.sum_comm
  rw [e]
  refine Finset.sum_congr rfl fun w _ => Finset.sum_congr rfl fun x _ => Finset.sum_congr rfl fun y _ => Finset.sum_congr rfl fun z _ => ?_
  rw [hao z y x w]; ring

/-- The letters of unrestricted blocks. -/
def ULetter (c : Char) : Prop := c = 'o' ∨ c = 'v' ∨ c = 'O' ∨ c = 'V'
/-- Both letters name the same spin. -/
def SameSpin (c d : Char) : Prop := (c = 'o' ∨ c = 'v') ↔ (d = 'o' ∨ d = 'v')

private theorem beta_of (c : Char) (h : ULetter c) : (isBeta c = false ∧ (c = 'o' ∨ c = 'v')) ∨ (isBeta c = true ∧ ¬ (c = 'o' ∨ c = 'v')) := by
  rcases h with rfl | rfl | rfl | rfl <;> decide

private theorem valid_of (c : Char) (h : ULetter c) : (c.toLower == 'o' || c.toLower == 'v') = true := by
  rcases h with rfl | rfl | rfl | rfl <;> decide

/-- Unrestricted integrals: for the spin-conserving blocks, the slice of the stored `(aa, ab, bb)` arrays (including the flipped
`beta-alpha` blocks) is the array over the orbitals named by the letters. -/
theorem ueris_block {N : Nat} (ao : Fin N → Fin N → Fin N → Fin N → K) (hao : ∀ p q r s, ao p q r s = ao s r q p) (sa sb : Space N K)
    (a b c d : Char) (ha : ULetter a) (hb : ULetter b) (hc : ULetter c) (hd : ULetter d) (hab : SameSpin a b) (hcd : SameSpin c d) :
    ∃ x y, uSlice sa sb (uFull ao sa sb) [a, b, c, d] = .ok x ∧ uDirect ao sa sb [a, b, c, d] = .ok y ∧
    y = eriArray ao ((spinSpace sa sb a).cols a) ((spinSpace sa sb b).cols b) ((spinSpace sa sb c).cols c) ((spinSpace sa sb d).cols d) ∧
    ∀ p q t u, p < letterSize (spinSpace sa sb a) a → q < letterSize (spinSpace sa sb b) b → t < letterSize (spinSpace sa sb c) c →
      u < letterSize (spinSpace sa sb d) d → x p q t u = y p q t u := by
  have hv : validBlock [a, b, c, d] = true := by simp [validBlock, valid_of a ha, valid_of b hb, valid_of c hc, valid_of d hd]
  have hcol : ∀ x, ULetter x → (if isBeta x then sb.cols x else sa.cols x) = (spinSpace sa sb x).cols x := by
    intro x hx
    rcases beta_of x hx with ⟨h1, h2⟩ | ⟨h1, h2⟩ <;> simp [h1, h2, spinSpace]
  have hoff : ∀ x, ULetter x → (if isBeta x then sb.offset x else sa.offset x) = (spinSpace sa sb x).offset x := by
    intro x hx
    rcases beta_of x hx with ⟨h1, h2⟩ | ⟨h1, h2⟩ <;> simp [h1, h2, spinSpace]
  have hact : ∀ x, ULetter x → ∀ (m : Fin N) j, j < letterSize (spinSpace sa sb x) x →
      (spinSpace sa sb x).active m ((spinSpace sa sb x).offset x + j) = (spinSpace sa sb x).cols x m j :=
    fun x _ m j hj => active_col _ x m j hj
  have hy : uDirect ao sa sb [a, b, c, d] =
      .ok (eriArray ao ((spinSpace sa sb a).cols a) ((spinSpace sa sb b).cols b) ((spinSpace sa sb c).cols c) ((spinSpace sa sb d).cols d)) := by
    simp only [uDirect, hcol a ha, hcol b hb, hcol c hc, hcol d hd]
  have fin : ∀ p q t u, p < letterSize (spinSpace sa sb a) a → q < letterSize (spinSpace sa sb b) b → t < letterSize (spinSpace sa sb c) c →
      u < letterSize (spinSpace sa sb d) d →
      eriArray ao (spinSpace sa sb a).active (spinSpace sa sb b).active (spinSpace sa sb c).active (spinSpace sa sb d).active
        ((spinSpace sa sb a).offset a + p) ((spinSpace sa sb b).offset b + q) ((spinSpace sa sb c).offset c + t) ((spinSpace sa sb d).offset d + u) =
      eriArray ao ((spinSpace sa sb a).cols a) ((spinSpace sa sb b).cols b) ((spinSpace sa sb c).cols c) ((spinSpace sa sb d).cols d) p q t u :=
    fun p q t u hp hq ht hu => eriArray_congr _ _ _ _ _ _ _ _ _ _ _ _ _ _ _ _ _ (fun m => hact a ha m p hp) (fun m => hact b hb m q hq)
      (fun m => hact c hc m t ht) (fun m => hact d hd m u hu)
  have hoff' := hoff
  unfold SameSpin at hab hcd
  rcases beta_of a ha with ⟨a1, a2⟩ | ⟨a1, a2⟩ <;> rcases beta_of b hb with ⟨b1, b2⟩ | ⟨b1, b2⟩ <;>
    first
    | exact absurd (hab.mp a2) b2
    | exact absurd (hab.mpr b2) a2
    | (rcases beta_of c hc with ⟨c1, c2⟩ | ⟨c1, c2⟩ <;> rcases beta_of d hd with ⟨d1, d2⟩ | ⟨d1, d2⟩ <;>
        first
        | exact absurd (hcd.mp c2) d2
        | exact absurd (hcd.mpr d2) c2
        | (have sa1 : spinSpace sa sb a = if isBeta a then sb else sa := by simp [spinSpace, a1, a2]
           have sb1 : spinSpace sa sb b = if isBeta b then sb else sa := by simp [spinSpace, b1, b2]
           have sc1 : spinSpace sa sb c = if isBeta c then sb else sa := by simp [spinSpace, c1, c2]
           have sd1 : spinSpace sa sb d = if isBeta d then sb else sa := by simp [spinSpace, d1, d2]
           refine ⟨_, _, ?_, hy, rfl, fin⟩
           simp only [uSlice, hv, reduceCtorEq, ↓reduceIte, List.filter_cons, a1, b1, c1, d1, Bool.false_eq_true, List.filter_nil, List.length_cons,
             List.length_nil, List.head?_cons, Option.map_some, Option.getD_some, uFull, sa1, sb1, sc1, sd1, List.reverse_cons, List.reverse_nil,
             List.nil_append, List.cons_append, Nat.zero_add, Nat.reduceAdd, Nat.reduceDiv, Nat.reduceBEq, Bool.and_true, Bool.and_false,
             Bool.false_and, Bool.true_and, BEq.rfl, OfNat.ofNat_ne_zero, one_ne_zero, OfNat.ofNat_ne_one]
           try (congr 1; funext p q t u; exact swap4 ao hao _ _ _ _ _ _ _ _)))

/-- Witness for the hypotheses: the block `OVvo`. -/
example : ULetter 'O' ∧ ULetter 'V' ∧ ULetter 'v' ∧ ULetter 'o' ∧ SameSpin 'O' 'V' ∧ SameSpin 'v' 'o' := by
  unfold ULetter SameSpin; decide

/-! ### Compression -/

/-- Compression of unrestricted density-fitting integrals: even if the compression of one array preserves its integrals, the beta integrals
become the alpha ones. -/
theorem ucompress_beta (compress : Cderi n K → Cderi n K) (hc : ∀ x, (compress x).eri (compress x) rfl = x.eri x rfl) (x : Cderi n K × Cderi n K) :
    (compressU compress x).1.eri (compressU compress x).1 rfl = x.1.eri x.1 rfl ∧
    (compressU compress x).2.eri (compressU compress x).2 rfl = x.1.eri x.1 rfl := ⟨hc x.1, hc x.1⟩

/-! ### Concrete cases -/

/-- One orbital, doubly occupied; bare integral 1, screened integral 1/2, Fock matrix 3, external potential 1. -/
private def exR (matchFock : Bool) : RHam 1 ℚ := ⟨1, fun _ _ => 3, fun _ _ _ _ => 1, some fun _ _ _ _ => 1 / 2, some fun _ _ => 1, true, matchFock⟩

/-- Witness for the hypotheses of the restricted theorems. -/
example (m : Bool) : (exR m).getErisScreened = .ok (fun _ _ _ _ => 1 / 2) ∧ PairSymmetric (K := ℚ) (n := 1) (fun _ _ _ _ => 1 / 2) ∧ PairSymmetric (exR m).bare ∧
    ((exR m).seris.isSome → (exR m).screening = true) := ⟨rfl, fun _ _ _ _ => rfl, fun _ _ _ _ => rfl, fun _ => rfl⟩

/-- The Fock matrix of the mean-field object is not the cluster's one if bare integrals are forced, nor if the Fock matrix is overwritten. -/
theorem cluster_mf_mismatch :
    (∃ mf, (exR true).toPyscf true false = .ok mf ∧ mf.fock ≠ (exR true).getFock) ∧
    (∃ mf, (exR true).toPyscf false true = .ok mf ∧ mf.fock ≠ mf.hcore + potential mf.eri (dm 1 1 2)) ∧
    ∃ heff w, (exR true).getIntegrals (some (exR true).bare) = .ok (heff, w) ∧ heff + potential w (dm 1 1 2) ≠ (exR true).getFock := by
  refine ⟨⟨_, rfl, fun h => ?_⟩, ⟨_, rfl, fun h => ?_⟩, ⟨_, _, rfl, fun h => ?_⟩⟩ <;> exact absurd (congrFun (congrFun h 0) 0) (by decide +kernel)

/-- One orbital per spin, one alpha and one beta electron; bare integrals 1, screened ones 1/2. -/
private def exU : UHam 1 1 ℚ :=
  ⟨1, 1, fun _ _ => 3, fun _ _ => 3, ⟨fun _ _ _ _ => 1, fun _ _ _ _ => 1, fun _ _ _ _ => 1⟩,
   some ⟨fun _ _ _ _ => 1 / 2, fun _ _ _ _ => 1 / 2, fun _ _ _ _ => 1 / 2⟩, none, true, true⟩

/-- Witness for the hypotheses of the unrestricted theorems. -/
example : exU.getErisScreened = .ok ⟨fun _ _ _ _ => 1 / 2, fun _ _ _ _ => 1 / 2, fun _ _ _ _ => 1 / 2⟩ ∧ GoodEris exU.bare ∧
    GoodEris (K := ℚ) (a := 1) (b := 1) ⟨fun _ _ _ _ => 1 / 2, fun _ _ _ _ => 1 / 2, fun _ _ _ _ => 1 / 2⟩ :=
  ⟨rfl, ⟨fun _ _ _ _ => rfl, fun _ _ _ _ => rfl, fun _ _ _ _ => rfl, fun _ _ _ _ => rfl⟩,
   ⟨fun _ _ _ _ => rfl, fun _ _ _ _ => rfl, fun _ _ _ _ => rfl, fun _ _ _ _ => rfl⟩⟩

/-- Unrestricted Hamiltonians with screening do not reproduce the Fock matrix of the full system, although `match_fock` is on. -/
theorem uhf_match_fock_ignored : exU.matchFock = true ∧ exU.getFock.1 ≠ plus exU.focka (exU.vext.map Prod.fst) :=
  ⟨rfl, fun h => absurd (congrFun (congrFun h 0) 0) (by decide +kernel)⟩

/-- Different integrals for the two spins: the compressed arrays do not reproduce the beta integrals. -/
theorem ucompress_wrong : ∃ x : Cderi 1 ℚ × Cderi 1 ℚ,
    (compressU id x).2.eri (compressU id x).2 rfl ≠ (uncompressedU x).2.eri (uncompressedU x).2 rfl :=
  ⟨(⟨1, fun _ _ _ => 1⟩, ⟨1, fun _ _ _ => 2⟩), fun h => absurd (congrFun (congrFun (congrFun (congrFun h 0) 0) 0) 0) (by decide +kernel)⟩

end Vayesta.Props
