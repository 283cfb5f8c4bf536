import Verif.Lemmas.Rdm
import Mathlib.Algebra.Field.Rat
import Mathlib.Algebra.CharZero.Defs
import Mathlib.Tactic.NormNum
import Mathlib.Tactic.FieldSimp
import Mathlib.LinearAlgebra.Matrix.Notation

/-! C41: splitting two-body density matrices into one-body parts and cumulants. -/

namespace Vayesta.Props
open Vayesta Vayesta.Rdm

variable {K : Type} [Field K] {nao n : Nat}

/-- **C41**: the density matrix without mean field plus the mean field is the density matrix. -/
theorem rdm1_mean_field (w : RWf nao n K) : w.makeRdm1 false + meanField n w.nocc 2 = w.makeRdm1 true := by
  funext p q
  simp only [RWf.makeRdm1, Bool.false_eq_true, if_false, if_true, addDiag_eq, Matrix.add_apply, meanField]
  split <;> ring

/-- **C41**, exact cumulant: it is the two-body density matrix minus the one-body part; adding the one-body part back gives the
original. -/
theorem rdm2_exact_cumulant (w : RWf nao n K) (a : Int) : ∃ dm2 cum, w.makeRdm2 true a = .ok dm2 ∧ w.makeRdm2 false 0 = .ok cum ∧
    dm2 = w.dm2 ∧ (∀ p q r s, cum p q r s = dm2 p q r s - onePart (1 / 2) (w.makeRdm1 true) p q r s) ∧
    ∀ p q r s, cum p q r s + w.nonCumulant p q r s = dm2 p q r s := by
  refine ⟨_, _, rfl, rfl, rfl, fun p q r s => ?_, fun p q r s => ?_⟩
  · simp only [RWf.nonCumulant, onePart, wedge, outer, outerX, RWf.makeRdm1, if_true]; ring
  · ring

variable [CharZero K]

private theorem approxLoop_eq (w : RWf nao n K) (p q r s : Fin n) :
    w.approxLoop p q r s = w.dm2 p q r s - onePartLinear (1 / 2) w.dm1 (meanField n w.nocc 2) p q r s := by
  have hm : ∀ i j : Fin n, meanField n w.nocc (2 : K) i j = 2 * meanField n w.nocc 1 i j := by
    intro i j; simp only [meanField]; split <;> ring
  have hm1 : ∀ i j : Fin n, meanField n w.nocc (-1 : K) i j = - meanField n w.nocc 1 i j := by
    intro i j; simp only [meanField]; split <;> ring
  unfold RWf.approxLoop
  simp only [foldl_four, addDiag_eq, onePartLinear, wedge, hm]
  simp only [Matrix.neg_apply, Matrix.smul_apply, Matrix.add_apply, hm1, smul_eq_mul]
  field_simp
  ring

/-- **C41**, approximate cumulant: the one-body part removed is the one to first order in the difference to the mean field. -/
theorem rdm2_approximate_cumulant (w : RWf nao n K) : ∃ cum, w.makeRdm2 false 1 = .ok cum ∧ ∀ p q r s,
    cum p q r s = w.dm2 p q r s - onePartLinear (1 / 2) (w.makeRdm1 true) (meanField n w.nocc 2) p q r s := by
  exact ⟨_, rfl, approxLoop_eq w⟩

/-- **C41**: the two cumulants differ by the product of the correlation parts of the one-body density matrix. -/
theorem rdm2_cumulants_differ (w : RWf nao n K) : ∃ exact approx, w.makeRdm2 false 0 = .ok exact ∧ w.makeRdm2 false 1 = .ok approx ∧
    ∀ p q r s, approx p q r s - exact p q r s = wedge (1 / 2) (w.makeRdm1 false) (w.makeRdm1 false) p q r s := by
  obtain ⟨-, e, -, he, rfl, h1, -⟩ := rdm2_exact_cumulant w 0
  obtain ⟨a, ha, h2⟩ := rdm2_approximate_cumulant w
  refine ⟨e, a, he, ha, fun p q r s => ?_⟩
  rw [h1, h2, ← rdm1_mean_field w]
  simp only [onePart, onePartLinear, wedge, Matrix.add_apply]
  ring

omit [CharZero K] in
/-- **C41**: other values of `approx_cumulant` are rejected, unless the one-body part is kept. -/
theorem rdm2_other_cumulants (w : RWf nao n K) (a : Int) :
    ((∃ c, w.makeRdm2 false a = .ok c) ↔ a = 0 ∨ a = 1) ∧ (w.makeRdm2 false a = .error .notImplementedError ↔ a = 2) ∧
    w.makeRdm2 true a = .ok w.dm2 := by
  refine ⟨?_, ?_, rfl⟩
  · unfold RWf.makeRdm2
    by_cases h0 : a = 0
    · simp [h0]
    · by_cases h1 : a = 1
      · simp [h1]
      · by_cases h2 : a = 2 <;> simp [h0, h1, h2]
  · unfold RWf.makeRdm2
    by_cases h0 : a = 0
    · simp [h0]
    · by_cases h1 : a = 1
      · simp [h1]
      · by_cases h2 : a = 2 <;> simp [h0, h1, h2]

omit [CharZero K] in
private theorem transform_onePart {m k : Nat} (c : Matrix (Fin m) (Fin k) K) (f : K) (d : Matrix (Fin k) (Fin k) K) :
    transform c c (onePart f d) = onePart f (c * d * c.transpose) := transform_wedge c f d d

omit [CharZero K] in
private theorem transform_onePartLinear {m k : Nat} (c : Matrix (Fin m) (Fin k) K) (f : K) (d e : Matrix (Fin k) (Fin k) K) :
    transform c c (onePartLinear f d e) = onePartLinear f (c * d * c.transpose) (c * e * c.transpose) := by
  have : onePartLinear f d e = fun p q r s => (fun p q r s => wedge f e d p q r s + wedge f d e p q r s) p q r s - wedge f e e p q r s := rfl
  rw [this, transform_sub, transform_add, transform_wedge, transform_wedge, transform_wedge]
  rfl

/-- **C41**: the split holds in the AO basis as well, with the one-body density matrices in the AO basis. -/
theorem rdm2_cumulant_ao (w : RWf nao n K) : ∃ dm2 exact approx, w.makeRdm2Ao true 1 = .ok dm2 ∧ w.makeRdm2Ao false 0 = .ok exact ∧
    w.makeRdm2Ao false 1 = .ok approx ∧
    (∀ p q r s, dm2 p q r s = exact p q r s + onePart (1 / 2) (w.makeRdm1Ao true) p q r s) ∧
    (∀ p q r s, dm2 p q r s = exact p q r s + w.nonCumulantAo p q r s) ∧
    (∀ p q r s, dm2 p q r s = approx p q r s +
      onePartLinear (1 / 2) (w.makeRdm1Ao true) (w.coeff * meanField n w.nocc (2 : K) * w.coeff.transpose) p q r s) := by
  obtain ⟨-, e, -, he, rfl, h1, h1'⟩ := rdm2_exact_cumulant w 0
  obtain ⟨a, ha, h2⟩ := rdm2_approximate_cumulant w
  refine ⟨_, _, _, rfl, by unfold RWf.makeRdm2Ao; rw [he]; rfl, by unfold RWf.makeRdm2Ao; rw [ha]; rfl, fun p q r s => ?_, fun p q r s => ?_,
    fun p q r s => ?_⟩
  · have : w.dm2 = fun p q r s => e p q r s + onePart (1 / 2) (w.makeRdm1 true) p q r s := by
      funext p q r s; rw [h1]; ring
    rw [this, transform_add, transform_onePart]; rfl
  · have : w.dm2 = fun p q r s => e p q r s + w.nonCumulant p q r s := by
      funext p q r s; rw [h1']
    rw [this, transform_add]; rfl
  · have : w.dm2 = fun p q r s => a p q r s + onePartLinear (1 / 2) (w.makeRdm1 true) (meanField n w.nocc 2) p q r s := by
      funext p q r s; rw [h2]; ring
    rw [this, transform_add, transform_onePartLinear]; rfl

/-! Unrestricted. -/

variable {a b : Nat}

omit [CharZero K] in
/-- **C41**: unrestricted density matrices without mean field plus mean field. -/
theorem urdm1_mean_field (w : UWf nao a b K) :
    (w.makeRdm1 false).1 + meanField a w.nocca 1 = (w.makeRdm1 true).1 ∧ (w.makeRdm1 false).2 + meanField b w.noccb 1 = (w.makeRdm1 true).2 := by
  constructor <;> funext p q <;>
    simp only [UWf.makeRdm1, Bool.false_eq_true, if_false, if_true, addDiag_eq, Matrix.add_apply, meanField] <;> split <;> ring

omit [CharZero K] in
/-- **C41**: exact cumulants of the callback and FCI wave functions; adding `make_rdm2_non_cumulant` gives the original. -/
theorem urdm2_exact_cumulant (w : UWf nao a b K) : ∃ cum, w.makeRdm2Rdm false 0 = .ok cum ∧ (a = b → w.makeRdm2Fci false 0 = .ok cum) ∧
    (∀ p q r s, cum.aa p q r s = w.aa p q r s - onePart 1 w.dm1a p q r s ∧ cum.aa p q r s + w.nonCumulant.aa p q r s = w.aa p q r s) ∧
    (∀ p q r s, cum.ab p q r s = w.ab p q r s - w.dm1a p q * w.dm1b r s ∧ cum.ab p q r s + w.nonCumulant.ab p q r s = w.ab p q r s) ∧
    (∀ p q r s, cum.bb p q r s = w.bb p q r s - onePart 1 w.dm1b p q r s ∧ cum.bb p q r s + w.nonCumulant.bb p q r s = w.bb p q r s) := by
  refine ⟨_, rfl, fun h => ?_, fun p q r s => ⟨?_, ?_⟩, fun p q r s => ⟨?_, ?_⟩, fun p q r s => ⟨?_, ?_⟩⟩
  · unfold UWf.makeRdm2Fci; rw [if_neg (fun hn => hn h)]; rfl
  all_goals simp only [Blocks3.sub, UWf.nonCumulant, onePart, wedge, outer, outerX] <;> ring

omit [CharZero K] in
private theorem mf_neg (m k : Nat) (x : K) (i j : Fin m) : meanField m k (-x) i j = -(x * meanField m k 1 i j) := by
  simp only [meanField]; split <;> ring

omit [CharZero K] in
private theorem mf_symm (m k : Nat) (x : K) (i j : Fin m) : meanField m k x i j = meanField m k x j i := by
  simp only [meanField]
  by_cases h : i = j
  · subst h; rfl
  · simp [h, Ne.symm h]

omit [CharZero K] in
/-- The exact value of the same-spin block: the last exchange term uses the transposed density matrix. -/
private theorem sameSpinRdm_eq (nocc : Nat) (d : Matrix (Fin a) (Fin a) K) (t : Ten a a K) (p q r s : Fin a) :
    sameSpinRdm nocc d t p q r s = t p q r s - onePartLinear 1 d (meanField a nocc 1) p q r s + meanField a nocc 1 p s * (d r q - d q r) := by
  unfold sameSpinRdm
  simp only [foldl_four, addDiag_eq, addIIjj_eq, addIjjI_eq, onePartLinear, wedge, Matrix.neg_apply, Matrix.add_apply, mf_neg,
    Matrix.transpose_apply]
  rw [mf_symm a nocc 1 r q]
  ring

omit [CharZero K] in
private theorem oppositeSpinRdm_eq (na nb : Nat) (da : Matrix (Fin a) (Fin a) K) (db : Matrix (Fin b) (Fin b) K) (t : Ten a b K) (p q : Fin a)
    (r s : Fin b) : oppositeSpinRdm na nb da db t p q r s = t p q r s - onePartLinearOpposite da (meanField a na 1) db (meanField b nb 1) p q r s := by
  unfold oppositeSpinRdm
  simp only [foldl_IIxx, foldl_XXii, addDiag_eq, addIIjj_eq, onePartLinearOpposite, Matrix.neg_apply, Matrix.add_apply, mf_neg]
  ring

private theorem sameSpinFci_eq (nocc : Nat) (d : Matrix (Fin a) (Fin a) K) (t : Ten a a K) (p q r s : Fin a) :
    sameSpinFci nocc d t p q r s = t p q r s - onePartLinear 1 d (meanField a nocc 1) p q r s := by
  have h : (-1 / 2 : K) = -(1 / 2) := by ring
  unfold sameSpinFci
  simp only [foldl_four, addDiag_eq, onePartLinear, wedge, Matrix.neg_apply, Matrix.add_apply, h, mf_neg]
  field_simp
  ring

private theorem oppositeSpinFci_eq (na nb : Nat) (da : Matrix (Fin a) (Fin a) K) (db : Matrix (Fin b) (Fin b) K) (t : Ten a b K) (p q : Fin a)
    (r s : Fin b) : oppositeSpinFci na nb da db t p q r s = t p q r s - onePartLinearOpposite da (meanField a na 1) db (meanField b nb 1) p q r s := by
  have h : (-1 / 2 : K) = -(1 / 2) := by ring
  unfold oppositeSpinFci
  simp only [foldl_IIxx, foldl_XXii, addDiag_eq, onePartLinearOpposite, Matrix.neg_apply, Matrix.add_apply, h, mf_neg]
  field_simp
  ring

/-- **C41**: approximate cumulant of the unrestricted FCI wave function. -/
theorem ufci_approximate_cumulant (w : UWf nao a b K) (hab : a = b) : ∃ cum, w.makeRdm2Fci false 1 = .ok cum ∧
    (∀ p q r s, cum.aa p q r s = w.aa p q r s - onePartLinear 1 w.dm1a (meanField a w.nocca 1) p q r s) ∧
    (∀ p q r s, cum.ab p q r s = w.ab p q r s - onePartLinearOpposite w.dm1a (meanField a w.nocca 1) w.dm1b (meanField b w.noccb 1) p q r s) ∧
    (∀ p q r s, cum.bb p q r s = w.bb p q r s - onePartLinear 1 w.dm1b (meanField b w.noccb 1) p q r s) := by
  refine ⟨_, by unfold UWf.makeRdm2Fci; rw [if_neg (by simpa using hab)]; rfl, sameSpinFci_eq _ _ _, oppositeSpinFci_eq _ _ _ _ _, sameSpinFci_eq _ _ _⟩

omit [CharZero K] in
/-- **C41**, part: approximate cumulant of the unrestricted callback wave function, for symmetric one-body density matrices. Missing:
density matrices that are not symmetric, see `urdm_approximate_cumulant_transposed`. -/
theorem urdm_approximate_cumulant_partial (w : UWf nao a b K) (ha : w.dm1a.transpose = w.dm1a) (hb : w.dm1b.transpose = w.dm1b) :
    ∃ cum, w.makeRdm2Rdm false 1 = .ok cum ∧
    (∀ p q r s, cum.aa p q r s = w.aa p q r s - onePartLinear 1 w.dm1a (meanField a w.nocca 1) p q r s) ∧
    (∀ p q r s, cum.ab p q r s = w.ab p q r s - onePartLinearOpposite w.dm1a (meanField a w.nocca 1) w.dm1b (meanField b w.noccb 1) p q r s) ∧
    (∀ p q r s, cum.bb p q r s = w.bb p q r s - onePartLinear 1 w.dm1b (meanField b w.noccb 1) p q r s) := by
  have ha' : ∀ q r, w.dm1a r q = w.dm1a q r := fun q r => congrFun (congrFun ha q) r
  have hb' : ∀ q r, w.dm1b r q = w.dm1b q r := fun q r => congrFun (congrFun hb q) r
  refine ⟨_, rfl, fun p q r s => ?_, oppositeSpinRdm_eq _ _ _ _ _, fun p q r s => ?_⟩
  · show sameSpinRdm w.nocca w.dm1a w.aa p q r s = _
    rw [sameSpinRdm_eq, ha' q r]; ring
  · show sameSpinRdm w.noccb w.dm1b w.bb p q r s = _
    rw [sameSpinRdm_eq, hb' q r]; ring

/-- **C41**: without symmetry the callback wave function's same-spin cumulants are off by the antisymmetric part of the density matrix
(rdm.py:167), and so differ from those of the FCI wave function with the same density matrices. -/
theorem urdm_approximate_cumulant_transposed (w : UWf nao n n K) : ∃ cum cum', w.makeRdm2Rdm false 1 = .ok cum ∧ w.makeRdm2Fci false 1 = .ok cum' ∧
    ∀ p q r s, cum.aa p q r s - cum'.aa p q r s = if p = s ∧ p.val < w.nocca then w.dm1a r q - w.dm1a q r else 0 := by
  obtain ⟨c', hc', h, -⟩ := ufci_approximate_cumulant w rfl
  refine ⟨_, c', rfl, hc', fun p q r s => ?_⟩
  rw [h]
  show sameSpinRdm w.nocca w.dm1a w.aa p q r s - _ = _
  rw [sameSpinRdm_eq]
  simp only [meanField]
  split <;> ring

/-- A density matrix where the two differ. -/
theorem urdm_approximate_cumulant_false : ∃ (w : UWf 2 2 2 ℚ) (cum cum' : Blocks3 2 2 ℚ), w.makeRdm2Rdm false 1 = .ok cum ∧
    w.makeRdm2Fci false 1 = .ok cum' ∧ cum.aa 0 0 1 0 ≠ cum'.aa 0 0 1 0 := by
  let w : UWf 2 2 2 ℚ := ⟨1, 1, 0, 0, fun i j => if i = 1 ∧ j = 0 then 1 else 0, 0, 0, 0, 0, none⟩
  obtain ⟨c, c', h, h', hd⟩ := urdm_approximate_cumulant_transposed w
  refine ⟨w, c, c', h, h', fun he => ?_⟩
  have := hd 0 0 1 0
  rw [he] at this
  simp [w] at this

omit [CharZero K] in
/-- **C41**: the unrestricted cumulants differ by products of the correlation parts. -/
theorem urdm2_cumulants_differ (w : UWf nao a b K) (ha : w.dm1a.transpose = w.dm1a) (hb : w.dm1b.transpose = w.dm1b) :
    ∃ exact approx, w.makeRdm2Rdm false 0 = .ok exact ∧ w.makeRdm2Rdm false 1 = .ok approx ∧
    (∀ p q r s, approx.aa p q r s - exact.aa p q r s = wedge 1 (w.makeRdm1 false).1 (w.makeRdm1 false).1 p q r s) ∧
    (∀ p q r s, approx.ab p q r s - exact.ab p q r s = (w.makeRdm1 false).1 p q * (w.makeRdm1 false).2 r s) ∧
    (∀ p q r s, approx.bb p q r s - exact.bb p q r s = wedge 1 (w.makeRdm1 false).2 (w.makeRdm1 false).2 p q r s) := by
  obtain ⟨e, he, -, e1, e2, e3⟩ := urdm2_exact_cumulant w
  obtain ⟨c, hc, c1, c2, c3⟩ := urdm_approximate_cumulant_partial w ha hb
  have m1 : (w.makeRdm1 false).1 = w.dm1a - meanField a w.nocca 1 := eq_sub_of_add_eq (urdm1_mean_field w).1
  have m2 : (w.makeRdm1 false).2 = w.dm1b - meanField b w.noccb 1 := eq_sub_of_add_eq (urdm1_mean_field w).2
  refine ⟨e, c, he, hc, fun p q r s => ?_, fun p q r s => ?_, fun p q r s => ?_⟩
  · rw [(e1 p q r s).1, c1, m1]; simp only [onePart, onePartLinear, wedge, Matrix.sub_apply]; ring
  · rw [(e2 p q r s).1, c2, m1, m2]; simp only [onePartLinearOpposite, Matrix.sub_apply]; ring
  · rw [(e3 p q r s).1, c3, m2]; simp only [onePart, onePartLinear, wedge, Matrix.sub_apply]; ring

omit [CharZero K] in
/-- **C41**: other values of `approx_cumulant`, unrestricted. -/
theorem urdm2_other_cumulants (w : UWf nao a b K) (x : Int) :
    ((∃ c, w.makeRdm2Rdm false x = .ok c) ↔ x = 0 ∨ x = 1) ∧ (w.makeRdm2Rdm false x = .error .notImplementedError ↔ x = 2) ∧
    w.makeRdm2Rdm true x = .ok ⟨w.aa, w.ab, w.bb⟩ ∧ (a ≠ b → w.makeRdm2Fci true x = .error .assertionError) := by
  refine ⟨?_, ?_, rfl, fun h => by unfold UWf.makeRdm2Fci; rw [if_pos h]⟩ <;>
  · unfold UWf.makeRdm2Rdm
    by_cases h0 : x = 0
    · simp [h0]
    · by_cases h1 : x = 1
      · simp [h1]
      · by_cases h2 : x = 2 <;> simp [h0, h1, h2]

omit [CharZero K] in
/-- **C41**: in the AO basis the blocks of the exact cumulant are those of the transformed density matrices. -/
theorem urdm2_exact_cumulant_ao (w : UWf nao a b K) : ∃ cum, w.makeRdm2Rdm false 0 = .ok cum ∧
    (∀ p q r s, (w.toAo cum).aa p q r s = (w.toAo ⟨w.aa, w.ab, w.bb⟩).aa p q r s - onePart 1 (w.coeffa * w.dm1a * w.coeffa.transpose) p q r s) ∧
    (∀ p q r s, (w.toAo cum).ab p q r s = (w.toAo ⟨w.aa, w.ab, w.bb⟩).ab p q r s -
      (w.coeffa * w.dm1a * w.coeffa.transpose) p q * (w.coeffb * w.dm1b * w.coeffb.transpose) r s) ∧
    (∀ p q r s, (w.toAo cum).bb p q r s = (w.toAo ⟨w.aa, w.ab, w.bb⟩).bb p q r s - onePart 1 (w.coeffb * w.dm1b * w.coeffb.transpose) p q r s) := by
  obtain ⟨e, he, -, e1, e2, e3⟩ := urdm2_exact_cumulant w
  refine ⟨e, he, fun p q r s => ?_, fun p q r s => ?_, fun p q r s => ?_⟩
  · have : e.aa = fun p q r s => w.aa p q r s - onePart 1 w.dm1a p q r s := by funext p q r s; exact (e1 p q r s).1
    simp only [UWf.toAo]
    rw [this, transform_sub, transform_onePart]
  · have : e.ab = fun p q r s => w.ab p q r s - outer w.dm1a w.dm1b p q r s := by funext p q r s; exact (e2 p q r s).1
    simp only [UWf.toAo]
    rw [this, transform_sub]
    beta_reduce
    rw [transform_outer]
  · have : e.bb = fun p q r s => w.bb p q r s - onePart 1 w.dm1b p q r s := by funext p q r s; exact (e3 p q r s).1
    simp only [UWf.toAo]
    rw [this, transform_sub, transform_onePart]

omit [CharZero K] in
/-- **C41**: with three stored blocks `dm2ba` is a transposed `bb` block instead of the `ab` block with electrons exchanged (rdm.py:135). -/
theorem urdm_dm2ba_three_blocks (w : UWf nao n n K) (h : w.ba = none) : w.dm2ba = .inr (fun p q r s => w.bb q p s r) ∧
    ∀ t, w.ba = some t → w.dm2ba = .inl t := by
  unfold UWf.dm2ba
  rw [h]
  exact ⟨rfl, by intro t ht; cases ht⟩

/-- One occupied orbital out of two, a correlated density matrix. -/
example : ∃ cum, (⟨1, 0, fun i j => if i = j then (if i = 0 then 3/2 else 1/2) else 1/10, fun _ _ _ _ => 1⟩ : RWf 2 2 ℚ).makeRdm2 false 1 = .ok cum ∧
    cum 0 0 1 1 = 1 - (2 * (1/2) - (1/10) * 0) := by
  obtain ⟨c, hc, h⟩ := rdm2_approximate_cumulant (⟨1, 0, fun i j => if i = j then (if i = 0 then 3/2 else 1/2) else 1/10, fun _ _ _ _ => 1⟩ : RWf 2 2 ℚ)
  refine ⟨c, hc, ?_⟩
  rw [h]
  simp [onePartLinear, wedge, meanField, RWf.makeRdm1]

end Vayesta.Props
