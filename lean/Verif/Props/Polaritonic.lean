import Verif.Model.Polaritonic
import Mathlib.Algebra.Algebra.Basic
import Mathlib.Algebra.Module.BigOperators
import Mathlib.Algebra.BigOperators.Ring.Finset
import Mathlib.Algebra.BigOperators.Field
import Mathlib.Algebra.Order.BigOperators.Group.Finset
import Mathlib.Algebra.BigOperators.Fin
import Mathlib.Algebra.CharZero.Defs
import Mathlib.Algebra.Order.Ring.Rat
import Mathlib.Algebra.Order.Field.Basic
import Mathlib.Data.Matrix.Mul
import Mathlib.Data.Matrix.Basic
import Mathlib.LinearAlgebra.Matrix.Notation
import Mathlib.Tactic.Ring
import Mathlib.Tactic.FieldSimp
import Mathlib.Tactic.LinearCombination
import Mathlib.Tactic.Linarith
import Mathlib.Tactic.NormNum
import Mathlib.Tactic.Abel
import Mathlib.Tactic.FinCases

/-! C60: the polaritonic shift is a change of variables that leaves the Hamiltonian unchanged; C69: restricted electron-boson
Hamiltonians and spin-dependent couplings; C70: order of access. -/

namespace Vayesta.Props
open Polaritonic

/-! ## Specification -/

section Spec
variable {K : Type} [Field K] {A : Type} [Ring A] [Algebra K A] {m na nb : Nat}

/-- The electron-boson Hamiltonian as an operator: one-body part, an arbitrary purely electronic rest `V`, free bosons, and
couplings `g[x,p,q] (p⁺q b⁺ₓ + q⁺p bₓ)`. `Ea p q` stands for `p⁺q` of alpha electrons, `b x`, `bd x` for boson annihilation and
creation. -/
def ebHamiltonian (ω : Fin m → K) (h : (Fin na → Fin na → K) × (Fin nb → Fin nb → K)) (g : Coup m na K × Coup m nb K)
    (V : A) (Ea : Fin na → Fin na → A) (Eb : Fin nb → Fin nb → A) (b bd : Fin m → A) : A :=
  (∑ p, ∑ q, h.1 p q • Ea p q) + (∑ p, ∑ q, h.2 p q • Eb p q) + V + (∑ x, ω x • (bd x * b x))
    + (∑ x, ∑ p, ∑ q, g.1 x p q • (Ea p q * bd x + Ea q p * b x))
    + (∑ x, ∑ p, ∑ q, g.2 x p q • (Eb p q * bd x + Eb q p * b x))

/-- The state has `N` electrons. -/
def HasElectrons (Ea : Fin na → Fin na → A) (Eb : Fin nb → Fin nb → A) (N : K) : Prop :=
  (∑ p, Ea p p) + (∑ p, Eb p p) = algebraMap K A N

/-- Bosons displaced by `z`. -/
def displaced (b : Fin m → A) (z : Fin m → K) : Fin m → A := fun x => b x - algebraMap K A (z x)

end Spec

section
variable {K : Type} [Field K] [LinearOrder K] {m n na nb : Nat}

/-- The bosons of an object: those its fragment carries, otherwise those the projector generates. -/
def bosonsOf (d : EbData m na nb K) (frag : Option ((Fin m → K) × Coup m na K × Coup m nb K)) :
    (Fin m → K) × Coup m na K × Coup m nb K := frag.getD (d.genFreqs, d.genA, d.genB)

/-- An access that makes an object generate its bosons. -/
def Generates (d : EbData m na nb K) : Access na nb K → Prop
  | .freqs => True
  | .unshifted => True
  | .couplings => d.opt = false
  | .heff _ => d.opt = true
  | .shift => False

/-! ## Lemmas -/

/-- States which can occur. -/
private def Good (d : EbData m na nb K) (frag : Option ((Fin m → K) × Coup m na K × Coup m nb K)) (s : EbState m na nb K) : Prop :=
  s = initBosons d (bosonsOf d frag).1 (bosonsOf d frag).2.1 (bosonsOf d frag).2.2 ∨ (frag = none ∧ s = ⟨none, none, none⟩)

private theorem good_init (d : EbData m na nb K) (frag) : Good d frag (initObj d frag) := by
  cases frag with
  | none => right; exact ⟨rfl, rfl⟩
  | some f => left; rfl

private theorem freqs_full (d : EbData m na nb K) (f ga gb) :
    getFreqs d (initBosons d f ga gb) = (.ok f, initBosons d f ga gb) := rfl

private theorem unshifted_full (d : EbData m na nb K) (f ga gb) :
    getUnshifted d (initBosons d f ga gb) = (.ok (ga, gb), initBosons d f ga gb) := rfl

private theorem shift_full (d : EbData m na nb K) (f ga gb) :
    getShift (initBosons d f ga gb) = .ok (if d.opt then some (polShift f ga gb d.noa d.nob) else none) := rfl

private theorem readShifted_full (d : EbData m na nb K) (f ga gb) (h : d.opt = true) :
    readShifted d (initBosons d f ga gb) = (.ok (polShift f ga gb d.noa d.nob, f, ga, gb), initBosons d f ga gb) := by
  simp [readShifted, shift_full, h, freqs_full, unshifted_full]

private theorem readFock_full (d : EbData m na nb K) (f ga gb) (h : d.opt = true) :
    readFock d (initBosons d f ga gb) = (.ok (polShift f ga gb d.noa d.nob, ga, gb), initBosons d f ga gb) := by
  simp [readFock, shift_full, h, unshifted_full]

private theorem couplingsU_snd (d : EbData m na nb K) (f ga gb) :
    (couplingsU d (initBosons d f ga gb)).2 = initBosons d f ga gb := by
  cases h : d.opt <;> simp [couplingsU, h, readShifted_full, unshifted_full]

private theorem heffU_snd (d : EbData m na nb K) (f ga gb h0) :
    (heffU d h0 (initBosons d f ga gb)).2 = initBosons d f ga gb := by
  cases h : d.opt <;> simp [heffU, h, readFock_full]

private theorem access_full (d : EbData m na nb K) (f ga gb a) :
    (accessU d (initBosons d f ga gb) a).2 = initBosons d f ga gb := by
  cases a <;> simp [accessU, freqs_full, unshifted_full, couplingsU_snd, heffU_snd]

private theorem run_full (d : EbData m na nb K) (f ga gb) (l) : runU d (initBosons d f ga gb) l = initBosons d f ga gb := by
  induction l with
  | nil => rfl
  | cons a l ih => rw [runU, access_full, ih]

private theorem access_empty (d : EbData m na nb K) (a) :
    (accessU d ⟨none, none, none⟩ a).2 = initBosons d d.genFreqs d.genA d.genB ∧ Generates d a ∨
    (accessU d ⟨none, none, none⟩ a).2 = ⟨none, none, none⟩ ∧ ¬ Generates d a := by
  cases a <;> cases h : d.opt <;>
    simp [accessU, getFreqs, getUnshifted, couplingsU, heffU, readShifted, readFock, getShift, Generates, h, shift_full,
      unshifted_full] <;> simp [initBosons, h]

private theorem run_empty (d : EbData m na nb K) (l) :
    runU d ⟨none, none, none⟩ l = initBosons d d.genFreqs d.genA d.genB ∧ (∃ a ∈ l, Generates d a) ∨
    runU d ⟨none, none, none⟩ l = ⟨none, none, none⟩ ∧ ¬ ∃ a ∈ l, Generates d a := by
  induction l with
  | nil => right; simp [runU]
  | cons a l ih =>
    rw [runU]
    rcases access_empty d a with ⟨h, g⟩ | ⟨h, g⟩
    · left; rw [h, run_full]; exact ⟨rfl, a, by simp, g⟩
    · rw [h]
      rcases ih with ⟨h', a', ha', g'⟩ | ⟨h', g'⟩
      · left; exact ⟨h', a', by simp [ha'], g'⟩
      · right; refine ⟨h', ?_⟩
        rintro ⟨a', ha', g''⟩
        rcases List.mem_cons.1 ha' with rfl | ha'
        · exact g g''
        · exact g' ⟨a', ha', g''⟩

private theorem good_run (d : EbData m na nb K) (frag) (l) : Good d frag (runU d (initObj d frag) l) := by
  cases frag with
  | some f => left; exact run_full d _ _ _ l
  | none =>
    rcases run_empty d l with ⟨h, _⟩ | ⟨h, _⟩
    · left; exact h
    · right; exact ⟨rfl, h⟩

private theorem couplingsU_ok (d : EbData m na nb K) (frag) (s) (hs : Good d frag s) (ho : d.opt = true) {g}
    (hg : (couplingsU d s).1 = .ok g) :
    g = (shiftCoup (polShift (bosonsOf d frag).1 (bosonsOf d frag).2.1 (bosonsOf d frag).2.2 d.noa d.nob) (bosonsOf d frag).1
          ((d.noa + d.nob : Nat) : K) (bosonsOf d frag).2.1,
        shiftCoup (polShift (bosonsOf d frag).1 (bosonsOf d frag).2.1 (bosonsOf d frag).2.2 d.noa d.nob) (bosonsOf d frag).1
          ((d.noa + d.nob : Nat) : K) (bosonsOf d frag).2.2) := by
  rcases hs with rfl | ⟨rfl, rfl⟩
  · simp only [couplingsU, ho, if_true, readShifted_full, Except.map, Except.ok.injEq] at hg
    exact hg.symm
  · simp [couplingsU, ho, readShifted, getShift, Except.map] at hg

private theorem heffU_ok (d : EbData m na nb K) (frag) (s) (hs : Good d frag s) (ho : d.opt = true) {h0 h}
    (hg : (heffU d h0 s).1 = .ok h) :
    h = (fun p q => h0.1 p q + fockShift (polShift (bosonsOf d frag).1 (bosonsOf d frag).2.1 (bosonsOf d frag).2.2 d.noa d.nob)
          (bosonsOf d frag).2.1 p q,
        fun p q => h0.2 p q + fockShift (polShift (bosonsOf d frag).1 (bosonsOf d frag).2.1 (bosonsOf d frag).2.2 d.noa d.nob)
          (bosonsOf d frag).2.2 p q) := by
  rcases hs with rfl | ⟨rfl, rfl⟩
  · simp only [heffU, ho, if_true, readFock_full, Except.map, Except.ok.injEq] at hg
    exact hg.symm
  · simp only [heffU, ho, if_true, readFock, getUnshifted, shift_full, Except.map, Except.ok.injEq] at hg
    exact hg.symm

end

section Algebra
variable {K : Type} [Field K] {A : Type} [Ring A] [Algebra K A] {m n na nb : Nat}

private theorem mul_alg (a : A) (z : K) : a * algebraMap K A z = z • a := by
  rw [Algebra.smul_def, Algebra.commutes]

/-- One spin channel of the coupling under displacement. -/
private theorem coupling_displaced (g : Coup m n K) (E : Fin n → Fin n → A) (b bd : Fin m → A) (z : Fin m → K) :
    (∑ x, ∑ p, ∑ q, g x p q • (E p q * displaced bd z x + E q p * displaced b z x))
      = (∑ x, ∑ p, ∑ q, g x p q • (E p q * bd x + E q p * b x)) + ∑ p, ∑ q, fockShift z g p q • E p q := by
  have key : ∑ p, ∑ q, fockShift z g p q • E p q
      = -∑ x, ∑ p, ∑ q, (g x p q * z x) • (E p q + E q p) := by
    have h1 : ∀ p q, fockShift z g p q • E p q = -∑ x, ((g x p q * z x) • E p q + (g x q p * z x) • E p q) := by
      intro p q
      simp only [fockShift, neg_smul, Finset.sum_smul, ← add_smul]
      congr 1; refine Finset.sum_congr rfl fun x _ => ?_
      congr 1; ring
    simp only [h1, Finset.sum_neg_distrib, Finset.sum_add_distrib, smul_add]
    congr 1
    have hA : ∑ p, ∑ q, ∑ x, (g x p q * z x) • E p q = ∑ x, ∑ p, ∑ q, (g x p q * z x) • E p q := by
      conv_rhs => rw [Finset.sum_comm]
      refine Finset.sum_congr rfl fun p _ => ?_
      rw [Finset.sum_comm]
    have hB : ∑ p, ∑ q, ∑ x, (g x q p * z x) • E p q = ∑ x, ∑ p, ∑ q, (g x p q * z x) • E q p := by
      have : ∑ p, ∑ q, ∑ x, (g x q p * z x) • E p q = ∑ q, ∑ p, ∑ x, (g x q p * z x) • E p q := Finset.sum_comm
      rw [this]
      conv_rhs => rw [Finset.sum_comm]
      refine Finset.sum_congr rfl fun p _ => ?_
      rw [Finset.sum_comm]
    rw [hA, hB]
  rw [key, ← sub_eq_add_neg, ← Finset.sum_sub_distrib]
  refine Finset.sum_congr rfl fun x _ => ?_
  rw [← Finset.sum_sub_distrib]
  refine Finset.sum_congr rfl fun p _ => ?_
  rw [← Finset.sum_sub_distrib]
  refine Finset.sum_congr rfl fun q _ => ?_
  simp only [displaced, mul_sub, mul_alg, smul_add, smul_sub, mul_smul]
  abel

private theorem bosons_displaced (ω z : Fin m → K) (b bd : Fin m → A) :
    (∑ x, ω x • (displaced bd z x * displaced b z x))
      = (∑ x, ω x • (bd x * b x)) - (∑ x, (z x * ω x) • (bd x + b x)) + algebraMap K A (∑ x, z x ^ 2 * ω x) := by
  rw [map_sum, ← Finset.sum_sub_distrib, ← Finset.sum_add_distrib]
  refine Finset.sum_congr rfl fun x _ => ?_
  simp only [displaced, mul_sub, sub_mul, mul_alg, smul_sub, smul_add, mul_smul, Algebra.algebraMap_eq_smul_one,
    smul_mul_assoc, one_mul, mul_one, mul_smul_comm]
  have : (ω x • z x • b x : A) = z x • ω x • b x := smul_comm _ _ _
  rw [this]
  have : (ω x • z x • bd x : A) = z x • ω x • bd x := smul_comm _ _ _
  rw [this]
  have : (z x ^ 2 • ω x • (1 : A)) = ω x • z x • z x • (1 : A) := by
    simp only [smul_smul]; congr 1; ring
  rw [this]
  abel

private theorem coupling_shifted (g : Coup m n K) (E : Fin n → Fin n → A) (b bd : Fin m → A) (z ω : Fin m → K) (N : K) :
    (∑ x, ∑ p, ∑ q, shiftCoup z ω N g x p q • (E p q * bd x + E q p * b x))
      = (∑ x, ∑ p, ∑ q, g x p q • (E p q * bd x + E q p * b x)) - ∑ x, (z x * ω x / N) • ((∑ p, E p p) * (bd x + b x)) := by
  rw [← Finset.sum_sub_distrib]
  refine Finset.sum_congr rfl fun x _ => ?_
  rw [Finset.sum_mul, Finset.smul_sum, ← Finset.sum_sub_distrib]
  refine Finset.sum_congr rfl fun p _ => ?_
  simp only [shiftCoup, sub_smul, Finset.sum_sub_distrib]
  congr 1
  rw [Finset.sum_eq_single p]
  · simp [mul_add]
  · intro q _ hq; simp [Ne.symm hq]
  · simp

/-- The change of variables. -/
private theorem change_variables (ω z : Fin m → K) (h g) (V : A) (Ea : Fin na → Fin na → A) (Eb : Fin nb → Fin nb → A)
    (b bd : Fin m → A) (N : K) (hN : N ≠ 0) (hE : HasElectrons Ea Eb N) :
    ebHamiltonian ω (fun p q => h.1 p q + fockShift z g.1 p q, fun p q => h.2 p q + fockShift z g.2 p q)
        (shiftCoup z ω N g.1, shiftCoup z ω N g.2) V Ea Eb b bd + algebraMap K A (∑ x, z x ^ 2 * ω x)
      = ebHamiltonian ω h g V Ea Eb (displaced b z) (displaced bd z) := by
  simp only [ebHamiltonian, coupling_displaced, bosons_displaced, coupling_shifted, add_smul, Finset.sum_add_distrib]
  have hs : (∑ x, (z x * ω x) • (bd x + b x)) = (∑ x, (z x * ω x / N) • ((∑ p, Ea p p) * (bd x + b x)))
      + ∑ x, (z x * ω x / N) • ((∑ p, Eb p p) * (bd x + b x)) := by
    rw [← Finset.sum_add_distrib]
    refine Finset.sum_congr rfl fun x _ => ?_
    rw [← smul_add, ← add_mul, hE, ← Algebra.smul_def, smul_smul]
    congr 1; field_simp
  rw [hs]
  abel

end Algebra

/-! ## C60 -/

section C60
variable {K : Type} [Field K] [LinearOrder K] [CharZero K] {A : Type} [Ring A] [Algebra K A] {m n na nb : Nat}

/-- C60, unrestricted: whenever the effective one-body part `h'` and the couplings `g'` with the polaritonic shift have been read
(after any histories of accesses), the Hamiltonian they define is the original one (one-body part `h`, couplings and frequencies
of the object) with all bosons displaced by the shift `z`, up to the constant `Σ z²ω`, in every algebra of operators with the
number of electrons of the cluster. -/
theorem polaritonic_unrestricted (d : EbData m na nb K) (frag) (ho : d.opt = true) (hist hist' hist'' : List (Access na nb K))
    {h h' g' z} (hN : d.noa + d.nob ≠ 0)
    (hh : (heffU d h (runU d (initObj d frag) hist)).1 = .ok h')
    (hg : (couplingsU d (runU d (initObj d frag) hist')).1 = .ok g')
    (hz : getShift (runU d (initObj d frag) hist'') = .ok (some z))
    (V : A) (Ea : Fin na → Fin na → A) (Eb : Fin nb → Fin nb → A) (b bd : Fin m → A)
    (hE : HasElectrons Ea Eb ((d.noa + d.nob : Nat) : K)) :
    ebHamiltonian (bosonsOf d frag).1 h' g' V Ea Eb b bd + algebraMap K A (∑ x, z x ^ 2 * (bosonsOf d frag).1 x)
      = ebHamiltonian (bosonsOf d frag).1 h (bosonsOf d frag).2 V Ea Eb (displaced b z) (displaced bd z) := by
  have e1 := couplingsU_ok d frag _ (good_run d frag hist') ho hg
  have e2 := heffU_ok d frag _ (good_run d frag hist) ho hh
  have e3 : z = polShift (bosonsOf d frag).1 (bosonsOf d frag).2.1 (bosonsOf d frag).2.2 d.noa d.nob := by
    rcases good_run d frag hist'' with hs | ⟨rfl, hs⟩
    · rw [hs, shift_full, ho] at hz
      simp at hz; exact hz.symm
    · rw [hs] at hz; simp [getShift] at hz
  subst e1 e2 e3
  exact change_variables _ _ _ _ _ _ _ _ _ _ (by exact_mod_cast hN) hE

/-- Without the option nothing is shifted. -/
theorem polaritonic_off (d : EbData m na nb K) (frag) (ho : d.opt = false) (hist : List (Access na nb K)) (h) :
    (heffU d h (runU d (initObj d frag) hist)).1 = .ok h ∧
    (couplingsU d (runU d (initObj d frag) hist)).1 = .ok (bosonsOf d frag).2 := by
  constructor
  · simp [heffU, ho]
  · rcases good_run d frag hist with hs | ⟨rfl, hs⟩ <;> rw [hs]
    · simp [couplingsU, ho, unshifted_full]
    · simp [couplingsU, ho, getUnshifted, bosonsOf]

omit [LinearOrder K] in
private theorem occTrace_shiftCoup (z ω : Fin m → K) (N : K) (g : Coup m n K) (no : Nat) (hno : no ≤ n) (x) :
    occTrace (shiftCoup z ω N g) no x = occTrace g no x - no * (z x * ω x / N) := by
  have hc : ∑ p : Fin n, (if p.val < no then z x * ω x / N else 0) = no * (z x * ω x / N) := by
    rw [← Finset.sum_filter, Finset.sum_const, nsmul_eq_mul]
    congr 2
    have : (Finset.univ.filter fun p : Fin n => p.val < no) = Finset.univ.image (Fin.castLE hno) := by
      ext p; simp only [Finset.mem_filter, Finset.mem_univ, true_and, Finset.mem_image]
      constructor
      · intro h; exact ⟨⟨p.val, h⟩, rfl⟩
      · rintro ⟨q, rfl⟩; exact q.2
    rw [this, Finset.card_image_of_injective _ (Fin.castLE_injective hno)]
    simp
  rw [← hc]
  simp only [occTrace, ← Finset.sum_sub_distrib]
  refine Finset.sum_congr rfl fun p _ => ?_
  by_cases h : p.val < no <;> simp [h, shiftCoup]

/-- The shifted couplings have no overall trace over the occupied orbitals: no boson is coupled to the mean-field density. -/
theorem polaritonic_traceless (d : EbData m na nb K) (frag) (ho : d.opt = true) (hist : List (Access na nb K)) {g'}
    (hN : d.noa + d.nob ≠ 0) (hna : d.noa ≤ na) (hnb : d.nob ≤ nb) (hω : ∀ x, (bosonsOf d frag).1 x ≠ 0)
    (hg : (couplingsU d (runU d (initObj d frag) hist)).1 = .ok g') (x : Fin m) :
    (∑ p : Fin na, if p.val < d.noa then g'.1 x p p else 0) + (∑ p : Fin nb, if p.val < d.nob then g'.2 x p p else 0) = 0 := by
  have e1 := couplingsU_ok d frag _ (good_run d frag hist) ho hg
  subst e1
  show occTrace (shiftCoup _ _ _ _) d.noa x + occTrace (shiftCoup _ _ _ _) d.nob x = 0
  rw [occTrace_shiftCoup _ _ _ _ _ hna, occTrace_shiftCoup _ _ _ _ _ hnb]
  have hN' : ((d.noa + d.nob : Nat) : K) ≠ 0 := by exact_mod_cast hN
  have := hω x
  simp only [polShift]
  push_cast at hN' ⊢
  field_simp
  ring

omit [LinearOrder K] [CharZero K] in
private theorem occ_fockShift (z : Fin m → K) (g : Coup m n K) (no : Nat) :
    (∑ p : Fin n, if p.val < no then fockShift z g p p else 0) = -∑ x, 2 * occTrace g no x * z x := by
  have : ∀ p : Fin n, (if p.val < no then fockShift z g p p else 0)
      = -∑ x, (if p.val < no then 2 * g x p p * z x else 0) := by
    intro p
    by_cases h : p.val < no
    · simp [h, fockShift, two_mul]
    · simp [h]
  simp only [this, Finset.sum_neg_distrib]
  congr 1
  rw [Finset.sum_comm]
  refine Finset.sum_congr rfl fun x _ => ?_
  rw [occTrace, Finset.mul_sum, Finset.sum_mul]
  refine Finset.sum_congr rfl fun p _ => ?_
  by_cases h : p.val < no <;> simp [h]

end C60

section Energy
variable {K : Type} [Field K] [LinearOrder K] [IsStrictOrderedRing K] {m na nb : Nat}

/-- The energy of the mean-field density with bosons displaced classically to `w`, relative to the one without bosons. -/
def displacementEnergy (ω : Fin m → K) (ga : Coup m na K) (gb : Coup m nb K) (noa nob : Nat) (w : Fin m → K) : K :=
  ∑ x, (ω x * w x ^ 2 + 2 * w x * ((∑ p : Fin na, if p.val < noa then ga x p p else 0)
    + ∑ p : Fin nb, if p.val < nob then gb x p p else 0))

/-- For positive frequencies the shift is the displacement of lowest mean-field energy, the lowest energy is the energy change
reported, and the change of the one-body energy of the occupied orbitals plus the constant `Σ z²ω` gives the same number. -/
theorem polaritonic_optimal (d : EbData m na nb K) (frag) (ho : d.opt = true) (hist hist' : List (Access na nb K)) {h h' z}
    (hω : ∀ x, 0 < (bosonsOf d frag).1 x)
    (hh : (heffU d h (runU d (initObj d frag) hist)).1 = .ok h')
    (hz : getShift (runU d (initObj d frag) hist') = .ok (some z)) :
    (∀ w, displacementEnergy (bosonsOf d frag).1 (bosonsOf d frag).2.1 (bosonsOf d frag).2.2 d.noa d.nob (fun x => -z x)
      ≤ displacementEnergy (bosonsOf d frag).1 (bosonsOf d frag).2.1 (bosonsOf d frag).2.2 d.noa d.nob w) ∧
    displacementEnergy (bosonsOf d frag).1 (bosonsOf d frag).2.1 (bosonsOf d frag).2.2 d.noa d.nob (fun x => -z x)
      = reportedChange (bosonsOf d frag).1 z ∧
    (∑ p : Fin na, if p.val < d.noa then h'.1 p p - h.1 p p else 0)
      + (∑ p : Fin nb, if p.val < d.nob then h'.2 p p - h.2 p p else 0) + ∑ x, z x ^ 2 * (bosonsOf d frag).1 x
      = reportedChange (bosonsOf d frag).1 z := by
  have e2 := heffU_ok d frag _ (good_run d frag hist) ho hh
  have e3 : z = polShift (bosonsOf d frag).1 (bosonsOf d frag).2.1 (bosonsOf d frag).2.2 d.noa d.nob := by
    rcases good_run d frag hist' with hs | ⟨rfl, hs⟩
    · rw [hs, shift_full, ho] at hz
      simp at hz; exact hz.symm
    · rw [hs] at hz; simp [getShift] at hz
  subst e2
  generalize bosonsOf d frag = B at *
  obtain ⟨ω, ga, gb⟩ := B
  have hzt : ∀ x, occTrace ga d.noa x + occTrace gb d.nob x = z x * ω x := by
    intro x; rw [e3]; have := (hω x).ne'; simp only [polShift]; simp only at this; field_simp
  have hE : ∀ w, displacementEnergy ω ga gb d.noa d.nob w = ∑ x, (ω x * w x ^ 2 + 2 * w x * (z x * ω x)) := by
    intro w
    refine Finset.sum_congr rfl fun x _ => ?_
    rw [← hzt x]; rfl
  refine ⟨?_, ?_, ?_⟩
  · intro w
    simp only [hE]
    refine Finset.sum_le_sum fun x _ => ?_
    have h1 := (hω x).le
    have h2 := mul_nonneg h1 (sq_nonneg (w x + z x))
    simp only at h2
    nlinarith
  · simp only [hE, reportedChange, ← Finset.sum_neg_distrib]
    refine Finset.sum_congr rfl fun x _ => ?_
    ring
  · simp only [add_sub_cancel_left]
    rw [← e3, occ_fockShift, occ_fockShift, reportedChange]
    simp only [← Finset.sum_neg_distrib, ← Finset.sum_add_distrib]
    refine Finset.sum_congr rfl fun x _ => ?_
    have := hzt x
    linear_combination (-2 * z x) * this

end Energy

section EbDm
variable {K : Type} [Field K] {A : Type} [Ring A] [Algebra K A] {m n : Nat}

/-- The electron-boson density matrix returned by the EB-FCI solver is the one of the original bosons: for every linear functional
`φ` (expectation value), if `raw` are the expectation values of `p⁺q b̃⁺` for the bosons `b̃` of the solver and `dm` those of `p⁺q`,
the result are the expectation values of `p⁺q b⁺` with `b = b̃ - z`. -/
theorem eb_density_matrix (φ : A →ₗ[K] K) (E : Fin n → Fin n → A) (bd : Fin m → A) (z : Fin m → K) (p q x) :
    solverEbDm z (fun p q => φ (E p q)) (fun p q x => φ (E p q * bd x)) p q x = φ (E p q * displaced bd z x) := by
  simp [solverEbDm, ebDmShift, displaced, mul_sub, mul_alg]
  ring

/-- The restricted solver passes half of the total density matrix for both spins; its result is right for a spin channel if and
only if every displaced boson sees the density matrix of this spin being half of the total one. -/
theorem eb_density_matrix_restricted [CharZero K] (φ : A →ₗ[K] K) (Ea Eb : Fin n → Fin n → A) (bd : Fin m → A) (z : Fin m → K)
    (p q x) :
    solverEbDm z (fun p q => (φ (Ea p q) + φ (Eb p q)) / 2) (fun p q x => φ (Ea p q * bd x)) p q x = φ (Ea p q * displaced bd z x)
      ↔ z x = 0 ∨ φ (Ea p q) = φ (Eb p q) := by
  have h2 : (2 : K) ≠ 0 := two_ne_zero
  simp only [solverEbDm, ebDmShift, displaced, mul_sub, mul_alg, map_sub, map_smul, smul_eq_mul]
  constructor
  · intro h
    have h' : z x * (φ (Ea p q) - φ (Eb p q)) = 0 := by
      field_simp at h
      linear_combination h
    rcases mul_eq_zero.1 h' with h' | h'
    · exact Or.inl h'
    · exact Or.inr (sub_eq_zero.1 h')
  · rintro (h | h)
    · simp [h]
    · rw [h]; field_simp; ring

end EbDm

/-! ## C69 -/

section C69
variable {K : Type} [Field K] [LinearOrder K] {A : Type} [Ring A] [Algebra K A] {m n : Nat}

/-- States of a restricted Hamiltonian: made from the fragment, then any accesses that generate the bosons or not. -/
def RestrictedState (d : EbData m n n K) (frag : Option ((Fin m → K) × Coup m n K × Coup m n K)) (s : EbState m n n K) : Prop :=
  s = initObj d frag ∨ s = (getFreqs d (initObj d frag)).2

private theorem good_restricted (d : EbData m n n K) (frag) (s) (hs : RestrictedState d frag s) : Good d frag s := by
  rcases hs with rfl | rfl
  · exact good_init d frag
  · cases frag <;> left <;> rfl

private theorem allclose_refl [IsStrictOrderedRing K] (a : Coup m n K) : allcloseCoup a a = true := by
  simp only [allcloseCoup, decide_eq_true_eq]
  intro x p q
  have : (0 : K) ≤ 1 / 10 ^ 5 * |a x p q| := mul_nonneg (by positivity) (abs_nonneg _)
  have h2 : (0 : K) ≤ 1 / 10 ^ 8 := by positivity
  simp only [sub_self, abs_zero]
  exact add_nonneg h2 this

/-- With the shift, the couplings of a restricted Hamiltonian are refused with RuntimeError exactly if the (shifted) couplings of
the two spins differ by more than the tolerances of `np.allclose`. -/
theorem restricted_couplings_refused (d : EbData m n n K) (frag) (ho : d.opt = true) (s) (hs : RestrictedState d frag s)
    (hgen : s.shift.isSome) :
    let a := shiftCoup (polShift (bosonsOf d frag).1 (bosonsOf d frag).2.1 (bosonsOf d frag).2.2 d.noa d.nob) (bosonsOf d frag).1
      (2 * (d.noa : K)) (bosonsOf d frag).2.1
    let b := shiftCoup (polShift (bosonsOf d frag).1 (bosonsOf d frag).2.1 (bosonsOf d frag).2.2 d.noa d.nob) (bosonsOf d frag).1
      (2 * (d.noa : K)) (bosonsOf d frag).2.2
    ((couplingsR d s).1 = .error .runtimeError ↔ ∃ x p q, 1 / 10 ^ 8 + 1 / 10 ^ 5 * |b x p q| < |a x p q - b x p q|) ∧
    ((couplingsR d s).1 = .ok a ↔ ∀ x p q, |a x p q - b x p q| ≤ 1 / 10 ^ 8 + 1 / 10 ^ 5 * |b x p q|) := by
  rcases good_restricted d frag s hs with rfl | ⟨rfl, rfl⟩
  · intro a b
    have e : (couplingsR d (initBosons d (bosonsOf d frag).1 (bosonsOf d frag).2.1 (bosonsOf d frag).2.2)).1
        = if allcloseCoup a b then .ok a else .error .runtimeError := by
      simp only [couplingsR, ho, if_true, readShifted_full, Except.bind]; rfl
    rw [e]
    by_cases h : allcloseCoup a b = true
    · have h' := h
      simp only [allcloseCoup, decide_eq_true_eq] at h'
      simp only [h, if_true, reduceCtorEq, false_iff, true_iff, not_exists, not_lt]
      exact ⟨h', h'⟩
    · have h' := h
      simp only [allcloseCoup, decide_eq_true_eq] at h'
      simp only [h, if_false, true_iff, reduceCtorEq, false_iff, Bool.false_eq_true]
      refine ⟨?_, h'⟩
      simpa using h'
  · simp at hgen

/-- C69 for spin-independent couplings: a restricted Hamiltonian with the shift is the original one in displaced bosons. -/
theorem polaritonic_restricted_partial [IsStrictOrderedRing K] (d : EbData m n n K) (frag) (ho : d.opt = true)
    (hN : d.noa ≠ 0) (hspin : (bosonsOf d frag).2.1 = (bosonsOf d frag).2.2)
    (h : Fin n → Fin n → K) (s) (hs : RestrictedState d frag s) (hgen : s.shift.isSome) :
    ∃ h' g' z, (heffR d h s).1 = .ok h' ∧ (couplingsR d s).1 = .ok g' ∧ getShift s = .ok (some z) ∧
      ∀ (V : A) (Ea Eb : Fin n → Fin n → A) (b bd : Fin m → A), HasElectrons Ea Eb (2 * (d.noa : K)) →
        ebHamiltonian (bosonsOf d frag).1 (h', h') (g', g') V Ea Eb b bd + algebraMap K A (∑ x, z x ^ 2 * (bosonsOf d frag).1 x)
          = ebHamiltonian (bosonsOf d frag).1 (h, h) (bosonsOf d frag).2 V Ea Eb (displaced b z) (displaced bd z) := by
  rcases good_restricted d frag s hs with rfl | ⟨rfl, rfl⟩
  · refine ⟨fun p q => h p q + fockShift (polShift (bosonsOf d frag).1 (bosonsOf d frag).2.1 (bosonsOf d frag).2.2 d.noa d.nob)
        (bosonsOf d frag).2.1 p q,
      shiftCoup (polShift (bosonsOf d frag).1 (bosonsOf d frag).2.1 (bosonsOf d frag).2.2 d.noa d.nob) (bosonsOf d frag).1
        (2 * (d.noa : K)) (bosonsOf d frag).2.1, polShift (bosonsOf d frag).1 (bosonsOf d frag).2.1 (bosonsOf d frag).2.2 d.noa d.nob,
      ?_, ?_, ?_, ?_⟩
    · simp only [heffR, ho, if_true, readFock_full, Except.map]
    · simp only [couplingsR, ho, if_true, readShifted_full, Except.bind]
      rw [if_pos]
      rw [← hspin]
      exact allclose_refl _
    · rw [shift_full, ho]; rfl
    · intro V Ea Eb b bd hE
      have := change_variables (A := A) (bosonsOf d frag).1
        (polShift (bosonsOf d frag).1 (bosonsOf d frag).2.1 (bosonsOf d frag).2.2 d.noa d.nob) (h, h)
        (bosonsOf d frag).2 V Ea Eb b bd (2 * (d.noa : K)) (by
          have : (d.noa : K) ≠ 0 := by exact_mod_cast hN
          exact mul_ne_zero two_ne_zero this) hE
      rw [← this]
      simp only [hspin]
  · simp at hgen

/-- The claim that a restricted Hamiltonian never ignores a difference between the couplings of the two spins is false: without
the shift, any two spin-dependent couplings with the same alpha part give the same result and no error. -/
theorem restricted_couplings_ignored (f : Fin m → K) (ga gb gb' : Coup m n K) (no : Nat) :
    let d : EbData m n n K := ⟨false, no, no, f, ga, gb⟩
    let d' : EbData m n n K := ⟨false, no, no, f, ga, gb'⟩
    (couplingsR d (initObj d none)).1 = .ok ga ∧ (couplingsR d' (initObj d' none)).1 = .ok ga := by
  exact ⟨rfl, rfl⟩

/-- With the shift, the effective one-body part of a restricted Hamiltonian does not raise either, and only contains the couplings
of alpha electrons (other than through the shift itself). -/
theorem restricted_heff_alpha (d : EbData m n n K) (frag) (ho : d.opt = true) (h : Fin n → Fin n → K) (s)
    (hs : RestrictedState d frag s) :
    (heffR d h s).1 = .ok fun p q => h p q + fockShift
      (polShift (bosonsOf d frag).1 (bosonsOf d frag).2.1 (bosonsOf d frag).2.2 d.noa d.nob) (bosonsOf d frag).2.1 p q := by
  rcases good_restricted d frag s hs with rfl | ⟨rfl, rfl⟩
  · simp only [heffR, ho, if_true, readFock_full, Except.map]
  · simp only [heffR, ho, if_true, readFock, getUnshifted, shift_full, Except.map]; rfl

end C69

/-! ## C70 -/

section C70
variable {K : Type} [Field K] [LinearOrder K] {m na nb : Nat}

/-- C70: with the shift, reading the couplings raises AttributeError exactly if the fragment carries no bosons and no earlier
access (to frequencies, unshifted couplings or the effective one-body part) has generated them. -/
theorem couplings_access_order (d : EbData m na nb K) (frag) (ho : d.opt = true) (hist : List (Access na nb K)) :
    (couplingsU d (runU d (initObj d frag) hist)).1 = .error .attributeError ↔ frag = none ∧ ¬ ∃ a ∈ hist, Generates d a := by
  cases frag with
  | some f =>
    have : runU d (initObj d (some f)) hist = initBosons d f.1 f.2.1 f.2.2 := run_full d _ _ _ hist
    rw [this]
    simp [couplingsU, ho, readShifted_full, Except.map]
  | none =>
    have e0 : initObj d none = ⟨none, none, none⟩ := rfl
    rw [e0]
    rcases run_empty d hist with ⟨h, g⟩ | ⟨h, g⟩
    · rw [h]
      simp only [couplingsU, ho, if_true, readShifted_full, Except.map, reduceCtorEq, true_and, false_iff, not_not]
      exact g
    · rw [h]
      simp only [true_and, g, not_false_eq_true, iff_true]
      simp [couplingsU, ho, readShifted, getShift, Except.map]

/-- All other accesses succeed at any time and all values read are those of the object's bosons, whatever was accessed before. -/
theorem bosons_any_order_partial (d : EbData m na nb K) (frag) (hist : List (Access na nb K)) (h) :
    (getFreqs d (runU d (initObj d frag) hist)).1 = .ok (bosonsOf d frag).1 ∧
    (getUnshifted d (runU d (initObj d frag) hist)).1 = .ok (bosonsOf d frag).2 ∧
    (∃ h', (heffU d h (runU d (initObj d frag) hist)).1 = .ok h' ∧ ∀ hist', (heffU d h (runU d (initObj d frag) hist')).1 = .ok h') ∧
    ((∃ a ∈ hist, Generates d a) → ∃ g', (couplingsU d (runU d (initObj d frag) hist)).1 = .ok g' ∧
      ∀ hist', (couplingsU d (runU d (initObj d frag) (hist ++ hist'))).1 = .ok g') := by
  have key : ∀ s, Good d frag s → (heffU d h s).1 =
      (heffU d h (initBosons d (bosonsOf d frag).1 (bosonsOf d frag).2.1 (bosonsOf d frag).2.2)).1 := by
    rintro s (rfl | ⟨rfl, rfl⟩)
    · rfl
    · cases ho : d.opt
      · simp [heffU, ho]
      · have e1 := readFock_full d d.genFreqs d.genA d.genB ho
        have e2 : readFock d ⟨none, none, none⟩ = (.ok (polShift d.genFreqs d.genA d.genB d.noa d.nob, d.genA, d.genB),
            initBosons d d.genFreqs d.genA d.genB) := by simp [readFock, getUnshifted, shift_full, ho]
        simp only [heffU, ho, if_true, e2, bosonsOf, Option.getD, e1]
  have hok : ∃ h', (heffU d h (initBosons d (bosonsOf d frag).1 (bosonsOf d frag).2.1 (bosonsOf d frag).2.2)).1 = .ok h' := by
    cases ho : d.opt
    · exact ⟨h, by simp [heffU, ho]⟩
    · simp only [heffU, ho, if_true, readFock_full, Except.map]; exact ⟨_, rfl⟩
  have hfull : (∃ a ∈ hist, Generates d a) → runU d (initObj d frag) hist
      = initBosons d (bosonsOf d frag).1 (bosonsOf d frag).2.1 (bosonsOf d frag).2.2 := by
    intro hg
    cases frag with
    | some f => exact run_full d _ _ _ hist
    | none =>
      rcases run_empty d hist with ⟨h, _⟩ | ⟨_, g⟩
      · exact h
      · exact absurd hg g
  refine ⟨?_, ?_, ?_, ?_⟩
  · rcases good_run d frag hist with hs | ⟨rfl, hs⟩ <;> rw [hs] <;> rfl
  · rcases good_run d frag hist with hs | ⟨rfl, hs⟩ <;> rw [hs] <;> rfl
  · obtain ⟨h', hh⟩ := hok
    exact ⟨h', by rw [key _ (good_run d frag hist), hh], fun hist' => by rw [key _ (good_run d frag hist'), hh]⟩
  · intro hg
    have happ : ∀ (l l' : List (Access na nb K)) (s), runU d s (l ++ l') = runU d (runU d s l) l' := by
      intro l l'
      induction l with
      | nil => intro s; rfl
      | cons a l ih => intro s; simp only [List.cons_append, runU]; exact ih _
    suffices hc : ∃ g', (couplingsU d (initBosons d (bosonsOf d frag).1 (bosonsOf d frag).2.1 (bosonsOf d frag).2.2)).1 = .ok g' by
      obtain ⟨g', hc⟩ := hc
      refine ⟨g', by rw [hfull hg, hc], fun hist' => ?_⟩
      rw [happ, hfull hg, run_full, hc]
    cases ho : d.opt
    · simp only [couplingsU, ho, unshifted_full]; exact ⟨_, rfl⟩
    · simp only [couplingsU, ho, if_true, readShifted_full, Except.map]; exact ⟨_, rfl⟩

end C70

/-! ## The hypotheses can be met -/

section Examples

/-- One boson coupled to two alpha orbitals, one electron. -/
private def exData : EbData 1 2 0 ℚ :=
  ⟨true, 1, 0, fun _ => 2, fun _ p q => if p = q then (p.val : ℚ) + 1 else 3, fun _ p _ => p.elim0⟩

/-- One electron in two orbitals times two boson states. -/
private def exE : Fin 2 → Fin 2 → Matrix (Fin 2 × Fin 2) (Fin 2 × Fin 2) ℚ :=
  fun p q => Matrix.of fun i j => if i.1 = p ∧ j.1 = q ∧ i.2 = j.2 then 1 else 0

example : HasElectrons exE (fun p => p.elim0) (((exData.noa + exData.nob : Nat) : ℚ)) := by
  simp only [HasElectrons, exData, Fin.sum_univ_two, Finset.univ_eq_empty, Finset.sum_empty, add_zero]
  ext ⟨i, i'⟩ ⟨j, j'⟩
  fin_cases i <;> fin_cases j <;> fin_cases i' <;> fin_cases j' <;> simp [exE, Matrix.algebraMap_eq_diagonal, Matrix.diagonal]

example : ∃ h' g' z, (heffU exData (fun _ _ => 0, fun p => p.elim0) (runU exData (initObj exData none) [])).1 = .ok h' ∧
    (couplingsU exData (runU exData (initObj exData none) [.freqs])).1 = .ok g' ∧
    getShift (runU exData (initObj exData none) [.freqs]) = .ok (some z) ∧ exData.noa + exData.nob ≠ 0 ∧
    exData.noa ≤ 2 ∧ exData.nob ≤ 0 ∧ (∀ x, 0 < (bosonsOf exData none).1 x) ∧ g'.1 0 1 1 = 1 ∧ z 0 = 1 / 2 := by
  refine ⟨_, _, _, rfl, rfl, rfl, by decide, by decide, by decide, fun _ => by simp [bosonsOf, exData], ?_, ?_⟩
  · simp [shiftCoup, polShift, occTrace, exData]
  · simp [polShift, occTrace, exData]

/-- The couplings cannot be read first. -/
example : (couplingsU exData (initObj exData none)).1 = .error .attributeError :=
  (couplings_access_order exData none rfl []).2 ⟨rfl, by simp⟩

/-- Restricted, spin-independent couplings. -/
private def exDataR : EbData 1 1 1 ℚ := ⟨true, 1, 1, fun _ => 2, fun _ _ _ => 3, fun _ _ _ => 3⟩

example : RestrictedState exDataR none (getFreqs exDataR (initObj exDataR none)).2 ∧
    (getFreqs exDataR (initObj exDataR none)).2.shift.isSome ∧ exDataR.noa ≠ 0 ∧
    (bosonsOf exDataR none).2.1 = (bosonsOf exDataR none).2.2 := ⟨.inr rfl, rfl, by decide, rfl⟩

/-- A boson coupled to the spin is refused with the shift. -/
private def exSpin : EbData 1 1 1 ℚ := ⟨true, 1, 1, fun _ => 2, fun _ _ _ => 3, fun _ _ _ => -3⟩

example : (couplingsR exSpin (getFreqs exSpin (initObj exSpin none)).2).1 = .error .runtimeError := by
  refine (restricted_couplings_refused exSpin none rfl _ (.inr rfl) rfl).1.2 ⟨0, 0, 0, ?_⟩
  simp [shiftCoup, polShift, occTrace, bosonsOf, exSpin]
  norm_num

end Examples

end Vayesta.Props
