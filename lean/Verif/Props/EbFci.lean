import Verif.Lemmas.EbFciMom
import Mathlib.Data.Rat.Defs
import Mathlib.Analysis.Real.Sqrt
import Mathlib.Algebra.Order.Ring.Rat
import Mathlib.Tactic.IntervalCases

/-! C87: exact diagonalisation of coupled electrons and bosons. C88: moments of the density response. -/

set_option linter.unusedSectionVars false

namespace Vayesta.Props

open Matrix Vayesta.EbFci Vayesta.Spec.EbFci

section
variable {n K : Type} [Fintype n] [DecidableEq n] [Field K] {na nb nbos m : Nat}
variable {ta : Table n na K} {tb : Table n nb K} {Ea : n → n → Matrix (Fin na) (Fin na) K} {Eb : n → n → Matrix (Fin nb) (Fin nb) K}

/-- What is assumed of the excitation tables: they tabulate the operators `p† q` for `Na` alpha and `Nb` beta electrons, at least one in
total; and two is invertible in the number field. -/
structure Strings (ta : Table n na K) (tb : Table n nb K) (Ea : n → n → Matrix (Fin na) (Fin na) K) (Eb : n → n → Matrix (Fin nb) (Fin nb) K) (Na Nb : Nat) : Prop where
  tabA : Tabulates ta Ea
  tabB : Tabulates tb Eb
  genA : Generators Ea Na
  genB : Generators Eb Nb
  some : ((Na + Nb : Nat) : K) ≠ 0
  two : (2 : K) ≠ 0

/-- **The restricted code applies the electron-boson Hamiltonian**
`Σ h p†q + ½ Σ (pq|rs) p†r†sq + Σ V_npq (b†_n p†q + b_n q†p) + Σ ω_nm b†_n b_m` on the space with at most `m` bosons per mode. -/
theorem ebfci_hamiltonian {Na Nb : Nat} (st : Strings ta tb Ea Eb Na Nb) (sq : Nat → K) (h : n → n → K) (g : n → n → n → n → K) (heb : Heb n K nbos)
    (w : Fin nbos → Fin nbos → K) (c : Idx na nb nbos m → K) :
    hop sq ta tb h g heb w Na Nb false c = total sq Ea Eb heb.alpha heb.beta w (electrons Ea Eb h g) *ᵥ c :=
  contractAll_eq sq st.tabA st.tabB heb w Na Nb _ _ (fun c => electrons_eq st.tabA st.tabB st.genA st.genB st.some st.two h g c) c

/-- **So does the unrestricted code**, with integrals for both spins. -/
theorem uebfci_hamiltonian {Na Nb : Nat} (st : Strings ta tb Ea Eb Na Nb) (sq : Nat → K) (ha hb : n → n → K) (aa ab bb : n → n → n → n → K) (heb : Heb n K nbos)
    (w : Fin nbos → Fin nbos → K) (c : Idx na nb nbos m → K) :
    uhop sq ta tb ha hb aa ab bb heb w Na Nb false c = total sq Ea Eb heb.alpha heb.beta w (uelectrons Ea Eb ha hb aa ab bb) *ᵥ c :=
  contractAll_eq sq st.tabA st.tabB heb w Na Nb _ _ (fun c => uelectrons_eq st.tabA st.tabB st.genA st.genB st.some st.two ha hb aa ab bb c) c

/-- **Couplings**: a pair of arrays couples each spin with its own array, a single one couples both spins with it. -/
theorem ebfci_couplings {Na Nb : Nat} (st : Strings ta tb Ea Eb Na Nb) (sq : Nat → K) (va vb : Fin nbos → n → n → K) (w : Fin nbos → Fin nbos → K) (c : Idx na nb nbos m → K) :
    (∀ (h : n → n → K) (g : n → n → n → n → K), hop sq ta tb h g (.two va vb) w Na Nb false c = total sq Ea Eb va vb w (electrons Ea Eb h g) *ᵥ c
      ∧ hop sq ta tb h g (.one va) w Na Nb false c = total sq Ea Eb va va w (electrons Ea Eb h g) *ᵥ c) ∧
    ∀ (ha hb : n → n → K) (aa ab bb : n → n → n → n → K),
      uhop sq ta tb ha hb aa ab bb (.two va vb) w Na Nb false c = total sq Ea Eb va vb w (uelectrons Ea Eb ha hb aa ab bb) *ᵥ c
      ∧ uhop sq ta tb ha hb aa ab bb (.one va) w Na Nb false c = total sq Ea Eb va va w (uelectrons Ea Eb ha hb aa ab bb) *ᵥ c :=
  ⟨fun h g => ⟨ebfci_hamiltonian st sq h g (.two va vb) w c, ebfci_hamiltonian st sq h g (.one va) w c⟩,
    fun ha hb aa ab bb => ⟨uebfci_hamiltonian st sq ha hb aa ab bb (.two va vb) w c, uebfci_hamiltonian st sq ha hb aa ab bb (.one va) w c⟩⟩

/-- **Without bosons** — no modes, or none allowed in any mode — only the electronic Hamiltonian acts, whatever the couplings and the option. -/
theorem ebfci_no_bosons {Na Nb : Nat} (st : Strings ta tb Ea Eb Na Nb) (sq : Nat → K) (h : n → n → K) (g : n → n → n → n → K) (heb : Heb n K nbos)
    (w : Fin nbos → Fin nbos → K) (adj : Bool) (hb : nbos = 0 ∨ m = 0) (c : Idx na nb nbos m → K) :
    hop sq ta tb h g heb w Na Nb adj c = electrons Ea Eb h g *ᵥ c := by
  have hn : ¬ (0 < nbos ∧ 0 < m) := by omega
  unfold hop contractAll
  rw [if_neg hn]
  exact electrons_eq st.tabA st.tabB st.genA st.genB st.some st.two h g c

private theorem electrons_same (g : n → n → n → n → K) (hg : ∀ p q r s : n, g p q r s = g r s p q) (h : n → n → K) (h2 : (2 : K) ≠ 0) :
    (electrons Ea Eb h g : Matrix (Idx na nb nbos m) (Idx na nb nbos m) K) = uelectrons Ea Eb h h g g g := by
  unfold electrons uelectrons
  rw [normal_sum, normal_sum, normal_sum]
  simp only [spinSum, smul_add, Finset.sum_add_distrib, add_mul, mul_add]
  have e : (∑ p, ∑ q, ∑ r, ∑ s, g p q r s • (onB (Eb p q) * onA (Ea r s) : Matrix (Idx na nb nbos m) (Idx na nb nbos m) K))
      = ∑ p, ∑ q, ∑ r, ∑ s, g p q r s • (onA (Ea p q) * onB (Eb r s)) := by
    rw [sum4_swap]
    refine Finset.sum_congr rfl fun p _ => Finset.sum_congr rfl fun q _ => Finset.sum_congr rfl fun r _ => Finset.sum_congr rfl fun s _ => ?_
    rw [onA_onB, hg]
  rw [e]
  generalize (∑ p, ∑ q, ∑ r, ∑ s, g p q r s • (onA (Ea p q) * onB (Eb r s) : Matrix (Idx na nb nbos m) (Idx na nb nbos m) K)) = T
  have e8 : (2 : K)⁻¹ + 2⁻¹ = 1 := by field_simp; norm_num
  have hT : T = ((2 : K)⁻¹ + 2⁻¹) • T := by rw [e8, one_smul]
  linear_combination (norm := module) -hT

/-- **Restricted and unrestricted codes agree** if all spin blocks of the integrals are the same. -/
theorem ebfci_closed_shell {Na Nb : Nat} (st : Strings ta tb Ea Eb Na Nb) (sq : Nat → K) (h : n → n → K) (g : n → n → n → n → K)
    (hg : ∀ p q r s : n, g p q r s = g r s p q) (heb : Heb n K nbos) (w : Fin nbos → Fin nbos → K) (c : Idx na nb nbos m → K) :
    uhop sq ta tb h h g g g heb w Na Nb false c = hop sq ta tb h g heb w Na Nb false c := by
  rw [uebfci_hamiltonian st, ebfci_hamiltonian st, electrons_same g hg h st.two]

/-- **The Hamiltonian is symmetric** (restricted): `⟨d, H c⟩ = ⟨H d, c⟩` for symmetric integrals; the couplings may be arbitrary. -/
theorem ebfci_symmetric {Na Nb : Nat} (st : Strings ta tb Ea Eb Na Nb) (sq : Nat → K) (h : n → n → K) (hh : ∀ p q : n, h p q = h q p)
    (g : n → n → n → n → K) (hg : Symmetric4 g) (heb : Heb n K nbos) (w : Fin nbos → Fin nbos → K) (hw : ∀ b b' : Fin nbos, w b b' = w b' b) (c d : Idx na nb nbos m → K) :
    d ⬝ᵥ hop sq ta tb h g heb w Na Nb false c = hop sq ta tb h g heb w Na Nb false d ⬝ᵥ c := by
  have hs := total_transpose sq st.genA.adjoint st.genB.adjoint heb.alpha heb.beta w hw (electrons Ea Eb h g : Matrix (Idx na nb nbos m) (Idx na nb nbos m) K)
    (electrons_transpose st.genA.adjoint st.genB.adjoint h hh g hg)
  rw [ebfci_hamiltonian st, ebfci_hamiltonian st, dotProduct_mulVec, ← Matrix.mulVec_transpose, hs]

/-- **The Hamiltonian is symmetric** (unrestricted). -/
theorem uebfci_symmetric {Na Nb : Nat} (st : Strings ta tb Ea Eb Na Nb) (sq : Nat → K) (ha hb : n → n → K) (hha : ∀ p q : n, ha p q = ha q p)
    (hhb : ∀ p q : n, hb p q = hb q p) (aa ab bb : n → n → n → n → K) (haa : Symmetric4 aa) (hab : ∀ p q r s : n, ab p q r s = ab q p s r) (hbb : Symmetric4 bb)
    (heb : Heb n K nbos) (w : Fin nbos → Fin nbos → K) (hw : ∀ b b' : Fin nbos, w b b' = w b' b) (c d : Idx na nb nbos m → K) :
    d ⬝ᵥ uhop sq ta tb ha hb aa ab bb heb w Na Nb false c = uhop sq ta tb ha hb aa ab bb heb w Na Nb false d ⬝ᵥ c := by
  have hs := total_transpose sq st.genA.adjoint st.genB.adjoint heb.alpha heb.beta w hw (uelectrons Ea Eb ha hb aa ab bb : Matrix (Idx na nb nbos m) (Idx na nb nbos m) K)
    (uelectrons_transpose st.genA.adjoint st.genB.adjoint ha hb hha hhb aa ab bb haa hab hbb)
  rw [uebfci_hamiltonian st, uebfci_hamiltonian st, dotProduct_mulVec, ← Matrix.mulVec_transpose, hs]

/-- **Density matrices of the restricted code** are the expectation values of `p†q` and `p†r†sq`, both spins summed. -/
theorem ebfci_density_matrices {Na Nb : Nat} (st : Strings ta tb Ea Eb Na Nb) (c : Idx na nb nbos m → K) (p q r s : n) :
    EbFci.rdm1 ta tb c p q = expect c (spinSum Ea Eb p q) ∧ (rdm12 ta tb c).1 p q = expect c (spinSum Ea Eb p q)
      ∧ (rdm12 ta tb c).2 p q r s = expect c (normal (spinSum Ea Eb) p q r s) := by
  have ht : ∀ p q : n, (fun (i a : n) (x : Idx na nb nbos m) => t1A ta c i a x + t1B tb c i a x) p q = spinSum Ea Eb p q *ᵥ c := by
    intro p q
    funext x
    beta_reduce
    rw [t1A_eq st.tabA st.genA.adjoint, t1B_eq st.tabB st.genB.adjoint, spinSum, Matrix.add_mulVec, Pi.add_apply]
  refine ⟨?_, dm1Of_eq _ c _ ht p q, reorder_eq _ st.two (spinSum_adjoint st.genA.adjoint st.genB.adjoint) (spinSum_commutator st.genA st.genB) c _ ht p q r s⟩
  unfold EbFci.rdm1
  rw [rdm1B_eq st.tabB, rdm1A_eq st.tabA, spinSum, expect_add]

/-- **Density matrices of the unrestricted code**, for each spin and pair of spins. -/
theorem uebfci_density_matrices {Na Nb : Nat} (st : Strings ta tb Ea Eb Na Nb) (c : Idx na nb nbos m → K) (p q r s : n) :
    rdm1A ta c p q = expect c (onA (Ea p q)) ∧ rdm1B tb c p q = expect c (onB (Eb p q))
      ∧ (urdm12 ta tb c).1.1 p q = expect c (onA (Ea p q)) ∧ (urdm12 ta tb c).1.2 p q = expect c (onB (Eb p q))
      ∧ (urdm12 ta tb c).2.1 p q r s = expect c (normal (fun p q => onA (Ea p q)) p q r s)
      ∧ (urdm12 ta tb c).2.2.1 p q r s = expect c (onA (Ea p q) * onB (Eb r s))
      ∧ (urdm12 ta tb c).2.2.2 p q r s = expect c (normal (fun p q => onB (Eb p q)) p q r s) := by
  have ha : ∀ p q : n, t1A ta c p q = onA (Ea p q) *ᵥ c := t1A_eq st.tabA st.genA.adjoint c
  have hb : ∀ p q : n, t1B tb c p q = onB (Eb p q) *ᵥ c := t1B_eq st.tabB st.genB.adjoint c
  refine ⟨rdm1A_eq st.tabA c p q, ?_, dm1Of_eq _ c _ ha p q, dm1Of_eq _ c _ hb p q,
    reorder_eq _ st.two (onA_adjoint st.genA.adjoint) (onA_commutator st.genA) c _ ha p q r s,
    dm2Of_eq _ _ (onA_adjoint st.genA.adjoint) c _ _ ha hb p q r s, reorder_eq _ st.two (onB_adjoint st.genB.adjoint) (onB_commutator st.genB) c _ hb p q r s⟩
  unfold rdm1B
  rw [rdm1B_eq st.tabB, zero_add]

/-- **Electron-boson density matrices** are the expectation values of `b†_n p†q`. -/
theorem ebfci_coupling_density_matrices {Na Nb : Nat} (st : Strings ta tb Ea Eb Na Nb) (sq : Nat → K) (c : Idx na nb nbos m → K) (p q : n) (b : Fin nbos) :
    ebRdm sq (excA ta c) c p q b = expect c (create sq b * onA (Ea p q)) ∧ ebRdm sq (excB tb c) c p q b = expect c (create sq b * onB (Eb p q)) :=
  ⟨ebRdm_eq sq _ c _ (excA_eq st.tabA c) p q b, ebRdm_eq sq _ c _ (excB_eq st.tabB c) p q b⟩

/-- **Electron numbers**: the density matrices of a normalised vector contain `N` electrons and `N - 1` partners of each. -/
theorem ebfci_electron_number {Na Nb : Nat} (st : Strings ta tb Ea Eb Na Nb) (c : Idx na nb nbos m → K) (hc : c ⬝ᵥ c = 1) (p q : n) :
    ∑ r, EbFci.rdm1 ta tb c r r = (Na : K) + Nb ∧ ∑ r, (rdm12 ta tb c).2 p q r r = ((Na : K) + Nb - 1) * (rdm12 ta tb c).1 p q
      ∧ ∑ r, rdm1A ta c r r = (Na : K) ∧ ∑ r, rdm1B tb c r r = (Nb : K) := by
  have h1 : expect c (1 : Matrix (Idx na nb nbos m) (Idx na nb nbos m) K) = 1 := by rw [expect, Matrix.one_mulVec, hc]
  have hS : ∑ r, (spinSum Ea Eb r r : Matrix (Idx na nb nbos m) (Idx na nb nbos m) K) = ((Na : K) + Nb) • 1 := by
    rw [spinSum_number st.genA st.genB, Nat.cast_add]
  refine ⟨?_, ?_, ?_, ?_⟩
  · simp only [fun r => (ebfci_density_matrices st c r r r r).1]
    rw [← expect_sum, hS, expect_smul, h1, mul_one]
  · simp only [fun r => (ebfci_density_matrices st c p q r r).2.2]
    rw [(ebfci_density_matrices st c p q p q).2.1, ← expect_sum]
    simp only [normal, Finset.sum_sub_distrib, ← Finset.mul_sum]
    rw [hS, Finset.sum_ite_eq, if_pos (Finset.mem_univ _), Matrix.mul_smul, Matrix.mul_one, expect_sub, expect_smul]
    ring
  · simp only [rdm1A_eq st.tabA]
    rw [← expect_sum, onA_number st.genA, expect_smul, h1, mul_one]
  · simp only [rdm1B, rdm1B_eq st.tabB, zero_add]
    rw [← expect_sum, onB_number st.genB, expect_smul, h1, mul_one]

private theorem expect_coupling (sq : Nat → K) (E : n → n → Matrix (Idx na nb nbos m) (Idx na nb nbos m) K) (hE : ∀ p q, (E p q)ᵀ = E q p)
    (hc : ∀ b p q, create sq b * E p q = E p q * create sq b) (v : Fin nbos → n → n → K) (c : Idx na nb nbos m → K) :
    expect c (coupling sq E v) = 2 * ∑ b, ∑ p, ∑ q, v b p q * expect c (create sq b * E p q) := by
  unfold coupling
  simp only [expect_sum, expect_smul, expect_add, Finset.mul_sum]
  refine Finset.sum_congr rfl fun b _ => Finset.sum_congr rfl fun p _ => Finset.sum_congr rfl fun q _ => ?_
  have : expect c (annihilate sq b * E q p) = expect c (create sq b * E p q) := by
    rw [← expect_transpose, Matrix.transpose_mul, annihilate, Matrix.transpose_transpose, hE, hc]
  rw [this]
  ring

private theorem expect_bosons (sq : Nat → K) (w : Fin nbos → Fin nbos → K) (c : Idx na nb nbos m → K) :
    expect c (bosons sq w) = ∑ b, ∑ b', w b b' * (c ⬝ᵥ bosCreation sq (bosAnnihilation sq c b') b) := by
  have h0 : (fun _ : Idx na nb nbos m => (0 : K)) = 0 := rfl
  unfold bosons
  simp only [expect_sum, expect_smul]
  simp only [expect, ← mulVec_mulVec, bosCreation, bosAnnihilation, cre_eq, des_eq, h0, zero_add]

/-- **Energy from density matrices** (restricted): the energy returned for an eigenvector is the contraction of the integrals with the
density matrices of that vector. -/
theorem ebfci_energy {Na Nb : Nat} (st : Strings ta tb Ea Eb Na Nb) (sq : Nat → K) (h : n → n → K) (g : n → n → n → n → K) (heb : Heb n K nbos)
    (w : Fin nbos → Fin nbos → K) (ecore : K) (davidson : ((Idx na nb nbos m → K) → Idx na nb nbos m → K) → K × (Idx na nb nbos m → K)) (e : K) (c : Idx na nb nbos m → K)
    (hdav : davidson (hop sq ta tb h g heb w Na Nb false) = (e, c)) (heig : hop sq ta tb h g heb w Na Nb false c = e • c) (hc : c ⬝ᵥ c = 1) :
    (kernel davidson (hop sq ta tb h g heb w Na Nb false) ecore).1
      = ecore + (∑ p, ∑ q, h p q * (rdm12 ta tb c).1 p q) + (1 / 2) * (∑ p, ∑ q, ∑ r, ∑ s, g p q r s * (rdm12 ta tb c).2 p q r s)
        + 2 * (∑ b, ∑ p, ∑ q, (heb.alpha b p q * ebRdm sq (excA ta c) c p q b + heb.beta b p q * ebRdm sq (excB tb c) c p q b))
        + ∑ b, ∑ b', w b b' * (c ⬝ᵥ bosCreation sq (bosAnnihilation sq c b') b) := by
  have he : e = expect c (total sq Ea Eb heb.alpha heb.beta w (electrons Ea Eb h g)) := by
    rw [expect, ← ebfci_hamiltonian st sq h g heb w c, heig, dotProduct_smul, hc, smul_eq_mul, mul_one]
  have h1 : (kernel davidson (hop sq ta tb h g heb w Na Nb false) ecore).1 = e + ecore := by rw [kernel, hdav]
  rw [h1, he, total, expect_add, expect_add, expect_add, expect_bosons, expect_coupling sq _ (onA_adjoint st.genA.adjoint) (fun b p q => create_onA sq b _),
    expect_coupling sq _ (onB_adjoint st.genB.adjoint) (fun b p q => create_onB sq b _), electrons, expect_add, expect_smul]
  simp only [expect_sum, expect_smul, Finset.sum_add_distrib, fun p q => (ebfci_density_matrices st c p q p q).2.1, fun p q r s => (ebfci_density_matrices st c p q r s).2.2,
    fun p q b => (ebfci_coupling_density_matrices st sq c p q b).1, fun p q b => (ebfci_coupling_density_matrices st sq c p q b).2]
  ring

/-- **Energy from density matrices** (unrestricted). -/
theorem uebfci_energy {Na Nb : Nat} (st : Strings ta tb Ea Eb Na Nb) (sq : Nat → K) (ha hb : n → n → K) (aa ab bb : n → n → n → n → K) (heb : Heb n K nbos)
    (w : Fin nbos → Fin nbos → K) (ecore : K) (davidson : ((Idx na nb nbos m → K) → Idx na nb nbos m → K) → K × (Idx na nb nbos m → K)) (e : K) (c : Idx na nb nbos m → K)
    (hdav : davidson (uhop sq ta tb ha hb aa ab bb heb w Na Nb false) = (e, c)) (heig : uhop sq ta tb ha hb aa ab bb heb w Na Nb false c = e • c) (hc : c ⬝ᵥ c = 1) :
    (kernel davidson (uhop sq ta tb ha hb aa ab bb heb w Na Nb false) ecore).1
      = ecore + (∑ p, ∑ q, (ha p q * (urdm12 ta tb c).1.1 p q + hb p q * (urdm12 ta tb c).1.2 p q))
        + (1 / 2) * (∑ p, ∑ q, ∑ r, ∑ s, aa p q r s * (urdm12 ta tb c).2.1 p q r s) + (∑ p, ∑ q, ∑ r, ∑ s, ab p q r s * (urdm12 ta tb c).2.2.1 p q r s)
        + (1 / 2) * (∑ p, ∑ q, ∑ r, ∑ s, bb p q r s * (urdm12 ta tb c).2.2.2 p q r s)
        + 2 * (∑ b, ∑ p, ∑ q, (heb.alpha b p q * ebRdm sq (excA ta c) c p q b + heb.beta b p q * ebRdm sq (excB tb c) c p q b))
        + ∑ b, ∑ b', w b b' * (c ⬝ᵥ bosCreation sq (bosAnnihilation sq c b') b) := by
  have he : e = expect c (total sq Ea Eb heb.alpha heb.beta w (uelectrons Ea Eb ha hb aa ab bb)) := by
    rw [expect, ← uebfci_hamiltonian st sq ha hb aa ab bb heb w c, heig, dotProduct_smul, hc, smul_eq_mul, mul_one]
  have h1 : (kernel davidson (uhop sq ta tb ha hb aa ab bb heb w Na Nb false) ecore).1 = e + ecore := by rw [kernel, hdav]
  rw [h1, he, total, expect_add, expect_add, expect_add, expect_bosons, expect_coupling sq _ (onA_adjoint st.genA.adjoint) (fun b p q => create_onA sq b _),
    expect_coupling sq _ (onB_adjoint st.genB.adjoint) (fun b p q => create_onB sq b _), uelectrons, expect_add, expect_add, expect_add, expect_smul, expect_smul]
  simp only [expect_sum, expect_add, expect_smul, Finset.sum_add_distrib, fun p q => (uebfci_density_matrices st c p q p q).2.2.1,
    fun p q => (uebfci_density_matrices st c p q p q).2.2.2.1, fun p q r s => (uebfci_density_matrices st c p q r s).2.2.2.2.1,
    fun p q r s => (uebfci_density_matrices st c p q r s).2.2.2.2.2.1, fun p q r s => (uebfci_density_matrices st c p q r s).2.2.2.2.2.2,
    fun p q b => (ebfci_coupling_density_matrices st sq c p q b).1, fun p q b => (ebfci_coupling_density_matrices st sq c p q b).2]
  ring

/-- **Boson numbers**: annihilating and creating a boson multiplies by its occupation, and a diagonal boson Hamiltonian counts bosons. -/
theorem ebfci_boson_number (sq : Nat → K) (hsq : Roots sq m) (c : Idx na nb nbos m → K) (b : Fin nbos) (f : Fin nbos → K) :
    (bosCreation sq (bosAnnihilation sq c b) b = fun x => ((x.2.2 b).val : K) * c x)
      ∧ (contractPp sq (fun b b' => if b = b' then f b else 0) c = fun x => (∑ b, f b * ((x.2.2 b).val : K)) * c x)
      ∧ contractPpDiag f c = fun x => (∑ b, f b * ((x.2.2 b).val : K)) * c x := by
  have h0 : (fun _ : Idx na nb nbos m => (0 : K)) = 0 := rfl
  have key : ∀ b : Fin nbos, (create sq b * annihilate sq b : Matrix (Idx na nb nbos m) (Idx na nb nbos m) K) *ᵥ c = fun x => ((x.2.2 b).val : K) * c x := by
    intro b
    funext x
    rw [← mulVec_mulVec, create_mulVec]
    simp only [annihilate_mulVec]
    by_cases hx : (x.2.2 b).val = 0
    · rw [hx, Nat.cast_zero, zero_mul]
      refine Finset.sum_eq_zero fun j _ => ?_
      rw [if_neg]
      intro h
      rw [h] at hx
      simp at hx
    · have hlt := (x.2.2 b).isLt
      rw [Finset.sum_eq_single ⟨(x.2.2 b).val - 1, by omega⟩]
      · have e : x.2.2 b = Fin.succ (⟨(x.2.2 b).val - 1, by omega⟩ : Fin m) := Fin.ext (by simp; omega)
        rw [if_pos e, Finset.sum_eq_single ⟨(x.2.2 b).val - 1, by omega⟩]
        · rw [Function.update_self, if_pos rfl, Function.update_idem, ← e, Function.update_eq_self]
          have := hsq (x.2.2 b).val (by omega)
          have e1 : (x.2.2 b).val - 1 + 1 = (x.2.2 b).val := by omega
          dsimp only
          rw [e1, ← this]
          ring
        · intro j _ hj
          rw [Function.update_self, if_neg]
          intro h
          exact hj (Fin.castSucc_injective _ h.symm)
        · intro h; exact absurd (Finset.mem_univ _) h
      · intro j _ hj
        rw [if_neg]
        intro h
        apply hj
        apply Fin.ext
        have := congrArg Fin.val h
        simp only [Fin.val_succ] at this
        show j.val = (x.2.2 b).val - 1
        omega
      · intro h; exact absurd (Finset.mem_univ _) h
  refine ⟨?_, ?_, ?_⟩
  · rw [← key b, ← mulVec_mulVec, bosCreation, bosAnnihilation, cre_eq, des_eq, h0, zero_add, zero_add]
  · rw [contractPp_eq, bosons]
    have : ∀ b, (∑ b', (if b = b' then f b else 0) • (create sq b * annihilate sq b') : Matrix (Idx na nb nbos m) (Idx na nb nbos m) K) = f b • (create sq b * annihilate sq b) := by
      intro b
      simp only [ite_smul, zero_smul, Finset.sum_ite_eq, Finset.mem_univ, if_true]
    simp only [this]
    funext x
    rw [Matrix.sum_mulVec, Finset.sum_apply, Finset.sum_mul]
    refine Finset.sum_congr rfl fun b _ => ?_
    rw [Matrix.smul_mulVec, key, Pi.smul_apply, smul_eq_mul, mul_assoc]
  · funext x
    unfold contractPpDiag
    rw [foldl_add_fun _ _ (fun b x => f b * ((x.2.2 b).val : K) * c x), list_sum_finRange, zero_add, Finset.sum_mul]
    intro t b y
    rw [foldl_add_fun _ _ (fun (j : Fin (m + 1)) y => if y.2.2 b = j then c y * (j.val : K) * f b else 0), list_sum_finRange]
    · rw [Finset.sum_ite_eq, if_pos (Finset.mem_univ _)]
      ring
    · intro t j y
      split_ifs <;> simp

/-- **The option `adj_zero_pho` does not remove the coupling to the number of electrons**: for couplings proportional to the number operator it reverses their sign, for
every vector, because the mean number of electrons per orbital is subtracted once for each spin. -/
theorem ebfci_zero_phonon_reversed {Na Nb : Nat} (st : Strings ta tb Ea Eb Na Nb) (hn : (Fintype.card n : K) ≠ 0) (sq : Nat → K) (v : Fin nbos → K) (c : Idx na nb nbos m → K) :
    contractEp sq ta tb (.one fun b p q => if p = q then v b else 0) Na Nb true c = -contractEp sq ta tb (.one fun b p q => if p = q then v b else 0) Na Nb false c := by
  have key : ∀ (E : n → n → Matrix (Idx na nb nbos m) (Idx na nb nbos m) K) (M z : K), ∑ p, E p p = M • (1 : Matrix (Idx na nb nbos m) (Idx na nb nbos m) K) →
      coupling sq (fun p q => E p q - if p = q then z • 1 else 0) (fun b p q => if p = q then v b else 0)
        = (M - z * (Fintype.card n : K)) • ∑ b, v b • (create sq b + annihilate sq b) := by
    intro E M z hE
    unfold coupling
    rw [Finset.smul_sum]
    refine Finset.sum_congr rfl fun b _ => ?_
    have h1 : ∀ p : n, (∑ q, (if p = q then v b else 0) • (create sq b * (E p q - if p = q then z • 1 else 0) + annihilate sq b * (E q p - if q = p then z • 1 else 0)))
        = v b • ((create sq b + annihilate sq b) * (E p p - z • 1)) := by
      intro p
      simp only [ite_smul, zero_smul, Finset.sum_ite_eq, Finset.mem_univ, if_true]
      rw [add_mul]
    simp only [h1]
    rw [← Finset.smul_sum, ← Finset.mul_sum, Finset.sum_sub_distrib, hE, Finset.sum_const, Finset.card_univ]
    have h2 : M • (1 : Matrix (Idx na nb nbos m) (Idx na nb nbos m) K) - Fintype.card n • z • 1 = (M - z * (Fintype.card n : K)) • 1 := by
      rw [sub_smul, ← Nat.cast_smul_eq_nsmul K, smul_smul, mul_comm z]
    rw [h2, Matrix.mul_smul, Matrix.mul_one, smul_comm]
  rw [contractEp_eq sq st.tabA st.tabB _ Na Nb true c _ rfl, contractEp_eq sq st.tabA st.tabB _ Na Nb false c _ rfl, ← Matrix.neg_mulVec]
  congr 1
  show coupling sq _ (fun b p q => if p = q then v b else 0) + coupling sq _ (fun b p q => if p = q then v b else 0)
    = -(coupling sq _ (fun b p q => if p = q then v b else 0) + coupling sq _ (fun b p q => if p = q then v b else 0))
  rw [key _ _ _ (onA_number st.genA), key _ _ _ (onB_number st.genB), key _ _ _ (onA_number st.genA), key _ _ _ (onB_number st.genB)]
  simp only [if_true, Bool.false_eq_true, if_false]
  rw [← add_smul, ← add_smul, ← neg_smul]
  congr 1
  rw [div_mul_cancel₀ _ hn, Nat.cast_add]
  ring

/-! ### Moments (C88) -/

/-- The `k`-th moment of the fluctuations of two families of observables. -/
def fluctuationMoment {X ι κ : Type} [Fintype X] [DecidableEq X] (H : Matrix X X K) (e0 : K) (c : X → K) (O : ι → Matrix X X K) (P : κ → Matrix X X K) (k : Nat) (i : ι) (j : κ) : K :=
  expect c ((O i - expect c (O i) • 1)ᵀ * (H - e0 • 1) ^ k * (P j - expect c (P j) • 1))

/-- An eigenvector with its energy, normalised. -/
def Eigenpair {X : Type} [Fintype X] (H : Matrix X X K) (e0 : K) (c : X → K) : Prop := H *ᵥ c = e0 • c ∧ c ⬝ᵥ c = 1

/-- Density matrices of both spins, in either form the argument may take: a pair, or their sum if both are the same. -/
def DmOf (ta : Table n na K) (tb : Table n nb K) (c : Idx na nb nbos m → K) (dm : DmArg n K) : Prop :=
  dm = .two (rdm1A ta c) (rdm1B tb c) ∨ (dm = .one (EbFci.rdm1 ta tb c) ∧ rdm1A ta c = rdm1B tb c)

private theorem dmOf_alpha {Na Nb : Nat} (st : Strings ta tb Ea Eb Na Nb) (c : Idx na nb nbos m → K) (dm : DmArg n K) (h : DmOf ta tb c dm) (p q : n) :
    dm.alpha p q = expect c (onA (Ea p q)) ∧ dm.beta p q = expect c (onB (Eb p q)) := by
  have ha := (uebfci_density_matrices st c p q p q).1
  have hb := (uebfci_density_matrices st c p q p q).2.1
  rcases h with rfl | ⟨rfl, hs⟩
  · exact ⟨ha, hb⟩
  · have h1 : EbFci.rdm1 ta tb c p q = rdm1A ta c p q + rdm1B tb c p q := by
      rw [(ebfci_density_matrices st c p q p q).1, spinSum, expect_add, ha, hb]
    have h2 := st.two
    have h3 : rdm1A ta c p q = rdm1B tb c p q := by rw [hs]
    show EbFci.rdm1 ta tb c p q / 2 = _ ∧ EbFci.rdm1 ta tb c p q / 2 = _
    rw [h1, ← ha, ← hb, h3]
    constructor <;> (field_simp; ring)

private theorem H_sym {Na Nb : Nat} (st : Strings ta tb Ea Eb Na Nb) (sq : Nat → K) (h : n → n → K) (hh : ∀ p q : n, h p q = h q p)
    (g : n → n → n → n → K) (hg : Symmetric4 g) (heb : Heb n K nbos) (w : Fin nbos → Fin nbos → K) (hw : ∀ b b' : Fin nbos, w b b' = w b' b) :
    (total sq Ea Eb heb.alpha heb.beta w (electrons Ea Eb h g) : Matrix (Idx na nb nbos m) (Idx na nb nbos m) K)ᵀ = total sq Ea Eb heb.alpha heb.beta w (electrons Ea Eb h g) :=
  total_transpose sq st.genA.adjoint st.genB.adjoint heb.alpha heb.beta w hw _ (electrons_transpose st.genA.adjoint st.genB.adjoint h hh g hg)

private theorem uH_sym {Na Nb : Nat} (st : Strings ta tb Ea Eb Na Nb) (sq : Nat → K) (ha hb : n → n → K) (hha : ∀ p q : n, ha p q = ha q p)
    (hhb : ∀ p q : n, hb p q = hb q p) (aa ab bb : n → n → n → n → K) (haa : Symmetric4 aa) (hab : ∀ p q r s : n, ab p q r s = ab q p s r) (hbb : Symmetric4 bb)
    (heb : Heb n K nbos) (w : Fin nbos → Fin nbos → K) (hw : ∀ b b' : Fin nbos, w b b' = w b' b) :
    (total sq Ea Eb heb.alpha heb.beta w (uelectrons Ea Eb ha hb aa ab bb) : Matrix (Idx na nb nbos m) (Idx na nb nbos m) K)ᵀ
      = total sq Ea Eb heb.alpha heb.beta w (uelectrons Ea Eb ha hb aa ab bb) :=
  total_transpose sq st.genA.adjoint st.genB.adjoint heb.alpha heb.beta w hw _ (uelectrons_transpose st.genA.adjoint st.genB.adjoint ha hb hha hhb aa ab bb haa hab hbb)

/-- The moments expected for two families of observables. -/
def expectedMoments {X ι κ : Type} [Fintype X] [DecidableEq X] (H : Matrix X X K) (e0 : K) (c : X → K) (O : ι → Matrix X X K) (P : κ → Matrix X X K) (maxMom : Nat) : List (Mom ι κ K) :=
  (List.range (maxMom + 1)).map fun k => ⟨fluctuationMoment H e0 c O O k, fluctuationMoment H e0 c O P k, fluctuationMoment H e0 c P P k⟩

private theorem moments_expected {X ι κ : Type} [Fintype X] [DecidableEq X] (H : Matrix X X K) (hs : Hᵀ = H) (hopf : (X → K) → X → K) (hH : ∀ c, hopf c = H *ᵥ c) (e0 : K) (c : X → K)
    (hc : Eigenpair H e0 c) (O : ι → Matrix X X K) (P : κ → Matrix X X K) (ta : ι → X → K) (tb : κ → X → K)
    (hO : ∀ i, ta i = O i *ᵥ c) (hP : ∀ i, tb i = P i *ᵥ c) (ra : ι → K) (rb : κ → K) (hra : ∀ i, ra i = expect c (O i)) (hrb : ∀ i, rb i = expect c (P i)) (maxMom : Nat) :
    moments hopf e0 maxMom ta tb ra rb = .ok (expectedMoments H e0 c O P maxMom) :=
  moments_eq H hs hopf hH e0 c hc.1 hc.2 O P ta tb hO hP ra rb hra hrb maxMom

/-- **Moments of the density response** (restricted): all requested moments are returned, and the `k`-th is the expectation value of
`(p†q - ⟨p†q⟩)† (H - E)^k (r†s - ⟨r†s⟩)` for each pair of spins. -/
theorem ebfci_moments {Na Nb : Nat} (st : Strings ta tb Ea Eb Na Nb) (sq : Nat → K) (h : n → n → K) (hh : ∀ p q : n, h p q = h q p)
    (g : n → n → n → n → K) (hg : Symmetric4 g) (heb : Heb n K nbos) (w : Fin nbos → Fin nbos → K) (hw : ∀ b b' : Fin nbos, w b b' = w b' b) (e0 : K)
    (c : Idx na nb nbos m → K) (hc : Eigenpair (total sq Ea Eb heb.alpha heb.beta w (electrons Ea Eb h g)) e0 c) (dm : DmArg n K) (hdm : DmOf ta tb c dm) (maxMom : Nat) :
    ddMoms (hop sq ta tb h g heb w Na Nb false) ta tb c e0 maxMom dm
      = .ok (expectedMoments (total sq Ea Eb heb.alpha heb.beta w (electrons Ea Eb h g)) e0 c (fun pq : n × n => onA (Ea pq.1 pq.2)) (fun pq : n × n => onB (Eb pq.1 pq.2)) maxMom) := by
  unfold ddMoms
  exact moments_expected _ (H_sym st sq h hh g hg heb w hw) _ (ebfci_hamiltonian st sq h g heb w) e0 c hc (fun pq : n × n => onA (Ea pq.1 pq.2)) (fun pq : n × n => onB (Eb pq.1 pq.2)) _ _ (fun pq => excA_eq st.tabA c pq.1 pq.2)
    (fun pq => excB_eq st.tabB c pq.1 pq.2) _ _ (fun pq => (dmOf_alpha st c dm hdm pq.1 pq.2).1) (fun pq => (dmOf_alpha st c dm hdm pq.1 pq.2).2) maxMom

/-- **Moments of the density response** (unrestricted). -/
theorem uebfci_moments {Na Nb : Nat} (st : Strings ta tb Ea Eb Na Nb) (sq : Nat → K) (ha hb : n → n → K) (hha : ∀ p q : n, ha p q = ha q p)
    (hhb : ∀ p q : n, hb p q = hb q p) (aa ab bb : n → n → n → n → K) (haa : Symmetric4 aa) (hab : ∀ p q r s : n, ab p q r s = ab q p s r) (hbb : Symmetric4 bb)
    (heb : Heb n K nbos) (w : Fin nbos → Fin nbos → K) (hw : ∀ b b' : Fin nbos, w b b' = w b' b) (e0 : K)
    (c : Idx na nb nbos m → K) (hc : Eigenpair (total sq Ea Eb heb.alpha heb.beta w (uelectrons Ea Eb ha hb aa ab bb)) e0 c) (dm : DmArg n K) (hdm : DmOf ta tb c dm) (maxMom : Nat) :
    ddMoms (uhop sq ta tb ha hb aa ab bb heb w Na Nb false) ta tb c e0 maxMom dm
      = .ok (expectedMoments (total sq Ea Eb heb.alpha heb.beta w (uelectrons Ea Eb ha hb aa ab bb)) e0 c (fun pq : n × n => onA (Ea pq.1 pq.2)) (fun pq : n × n => onB (Eb pq.1 pq.2)) maxMom) := by
  unfold ddMoms
  exact moments_expected _ (uH_sym st sq ha hb hha hhb aa ab bb haa hab hbb heb w hw) _ (uebfci_hamiltonian st sq ha hb aa ab bb heb w) e0 c hc (fun pq : n × n => onA (Ea pq.1 pq.2)) (fun pq : n × n => onB (Eb pq.1 pq.2)) _ _
    (fun pq => excA_eq st.tabA c pq.1 pq.2) (fun pq => excB_eq st.tabB c pq.1 pq.2) _ _ (fun pq => (dmOf_alpha st c dm hdm pq.1 pq.2).1)
    (fun pq => (dmOf_alpha st c dm hdm pq.1 pq.2).2) maxMom

/-- `p†q` in another set of orbitals. -/
def rotated {o X : Type} (C : n → o → K) (E : n → n → Matrix X X K) (pq : o × o) : Matrix X X K := ∑ i, ∑ a, (C i pq.1 * C a pq.2) • E i a

private theorem rotExc_eq {o X : Type} [Fintype X] (C : n → o → K) (E : n → n → Matrix X X K) (c : X → K) (t : n → n → X → K) (ht : ∀ p q, t p q = E p q *ᵥ c) (pq : o × o) :
    rotExc C t pq = rotated C E pq *ᵥ c := by
  funext x
  simp only [rotExc, rotated, Matrix.sum_mulVec, Finset.sum_apply, Matrix.smul_mulVec, Pi.smul_apply, smul_eq_mul, ht]
  exact Finset.sum_congr rfl fun _ _ => Finset.sum_congr rfl fun _ _ => by ring

private theorem rotDm_eq {o X : Type} [Fintype X] (C : n → o → K) (E : n → n → Matrix X X K) (c : X → K) (d : n → n → K) (hd : ∀ p q, d p q = expect c (E p q)) (pq : o × o) :
    rotDm C d pq = expect c (rotated C E pq) := by
  simp only [rotDm, rotated, expect_sum, expect_smul, hd, Finset.sum_mul]
  rw [Finset.sum_comm]
  exact Finset.sum_congr rfl fun _ _ => Finset.sum_congr rfl fun _ _ => by ring

/-- **With coefficients** the moments are those of the operators in the new orbitals, and with `trace=True` those of the occupation numbers of the new orbitals. -/
theorem ebfci_moments_rotated {o₁ o₂ : Type} {Na Nb : Nat} (st : Strings ta tb Ea Eb Na Nb) (sq : Nat → K) (h : n → n → K) (hh : ∀ p q : n, h p q = h q p)
    (g : n → n → n → n → K) (hg : Symmetric4 g) (heb : Heb n K nbos) (w : Fin nbos → Fin nbos → K) (hw : ∀ b b' : Fin nbos, w b b' = w b' b) (e0 : K)
    (c : Idx na nb nbos m → K) (hc : Eigenpair (total sq Ea Eb heb.alpha heb.beta w (electrons Ea Eb h g)) e0 c) (dm : DmArg n K) (hdm : DmOf ta tb c dm) (maxMom : Nat)
    (Ca : n → o₁ → K) (Cb : n → o₂ → K) :
    ddMomsRot (hop sq ta tb h g heb w Na Nb false) ta tb c e0 maxMom dm Ca Cb
        = .ok (expectedMoments (total sq Ea Eb heb.alpha heb.beta w (electrons Ea Eb h g)) e0 c (rotated Ca fun p q => onA (Ea p q)) (rotated Cb fun p q => onB (Eb p q)) maxMom)
      ∧ ddMomsTrace (hop sq ta tb h g heb w Na Nb false) ta tb c e0 maxMom dm Ca Cb
        = .ok (expectedMoments (total sq Ea Eb heb.alpha heb.beta w (electrons Ea Eb h g)) e0 c (fun i => rotated Ca (fun p q => onA (Ea p q)) (i, i))
            (fun i => rotated Cb (fun p q => onB (Eb p q)) (i, i)) maxMom) := by
  constructor
  · exact moments_expected _ (H_sym st sq h hh g hg heb w hw) _ (ebfci_hamiltonian st sq h g heb w) e0 c hc _ _ _ _ (fun pq => rotExc_eq Ca _ c _ (excA_eq st.tabA c) pq)
      (fun pq => rotExc_eq Cb _ c _ (excB_eq st.tabB c) pq) _ _ (fun pq => rotDm_eq Ca _ c _ (fun p q => (dmOf_alpha st c dm hdm p q).1) pq)
      (fun pq => rotDm_eq Cb _ c _ (fun p q => (dmOf_alpha st c dm hdm p q).2) pq) maxMom
  · exact moments_expected _ (H_sym st sq h hh g hg heb w hw) _ (ebfci_hamiltonian st sq h g heb w) e0 c hc _ _ _ _ (fun i => rotExc_eq Ca _ c _ (excA_eq st.tabA c) (i, i))
      (fun i => rotExc_eq Cb _ c _ (excB_eq st.tabB c) (i, i)) _ _ (fun i => rotDm_eq Ca _ c _ (fun p q => (dmOf_alpha st c dm hdm p q).1) (i, i))
      (fun i => rotDm_eq Cb _ c _ (fun p q => (dmOf_alpha st c dm hdm p q).2) (i, i)) maxMom

end

/-! ### Examples -/

/-- One electron in two orbitals. -/
def oneTable : Table (Fin 2) 2 ℚ := ![[⟨0, 0, 0, 1⟩, ⟨1, 0, 1, 1⟩], [⟨1, 1, 1, 1⟩, ⟨0, 1, 0, 1⟩]]

/-- `p†q` for one electron in two orbitals. -/
def oneGen (p q : Fin 2) : Matrix (Fin 2) (Fin 2) ℚ :=
  fun s t => (((oneTable t).filter fun e => e.a = p ∧ e.i = q ∧ e.str1 = s).map fun e => e.sign).sum

/-- Two electrons in three orbitals, as listed by PySCF up to the order of the rows. -/
def twoTable : Table (Fin 3) 3 ℚ := ![[⟨0, 0, 0, 1⟩, ⟨2, 0, 2, -1⟩, ⟨1, 1, 0, 1⟩, ⟨2, 1, 1, 1⟩],
  [⟨0, 0, 1, 1⟩, ⟨1, 0, 2, 1⟩, ⟨1, 2, 0, 1⟩, ⟨2, 2, 1, 1⟩],
  [⟨0, 1, 1, 1⟩, ⟨1, 1, 2, 1⟩, ⟨0, 2, 0, -1⟩, ⟨2, 2, 2, 1⟩]]

/-- `p†q` for two electrons in three orbitals. -/
def twoGen (p q : Fin 3) : Matrix (Fin 3) (Fin 3) ℚ :=
  fun s t => (((twoTable t).filter fun e => e.a = p ∧ e.i = q ∧ e.str1 = s).map fun e => e.sign).sum

/-- No electron. -/
def noTable : Table (Fin 1) 1 ℚ := ![[]]

/-- One electron in one orbital. -/
def fullTable : Table (Fin 1) 1 ℚ := ![[⟨0, 0, 0, 1⟩]]

/-- Roots of zero and one. -/
def root01 (j : Nat) : ℚ := j

private theorem one_strings : Strings oneTable oneTable oneGen oneGen 1 1 where
  tabA := fun _ _ _ _ => rfl
  tabB := fun _ _ _ _ => rfl
  genA := ⟨by decide +kernel, by decide +kernel, by decide +kernel⟩
  genB := ⟨by decide +kernel, by decide +kernel, by decide +kernel⟩
  some := by decide +kernel
  two := by decide +kernel

private theorem two_strings : Strings twoTable twoTable twoGen twoGen 2 2 where
  tabA := fun _ _ _ _ => rfl
  tabB := fun _ _ _ _ => rfl
  genA := ⟨by decide +kernel, by decide +kernel, by decide +kernel⟩
  genB := ⟨by decide +kernel, by decide +kernel, by decide +kernel⟩
  some := by decide +kernel
  two := by decide +kernel

/-- Tables as assumed exist: two electrons, and four electrons with signs. -/
example : Strings oneTable oneTable oneGen oneGen 1 1 ∧ Strings twoTable twoTable twoGen twoGen 2 2 := ⟨one_strings, two_strings⟩

/-- Two electrons in two orbitals, coupled to one mode with at most one boson through their number. -/
def exH (p q : Fin 2) : ℚ := if p = q then (if p = 0 then 1 else 5) else 0
def exG (p q r s : Fin 2) : ℚ := if p = q ∧ r = s then (if p = r then 2 else 1) else 0
def exV : Heb (Fin 2) ℚ 1 := .one fun _ p q => if p = q then 6 else 0
def exW (_ _ : Fin 1) : ℚ := 7
def exC : Idx 2 2 1 1 → ℚ := fun x => if x.1 = 0 ∧ x.2.1 = 0 then (if x.2.2 0 = 0 then 4 / 5 else -3 / 5) else 0

private theorem ex_eig : hop root01 oneTable oneTable exH exG exV exW 1 1 false exC = (-5 : ℚ) • exC ∧ exC ⬝ᵥ exC = 1 := by
  constructor <;> decide +kernel

private theorem ex_sym : (∀ p q : Fin 2, exH p q = exH q p) ∧ Symmetric4 exG ∧ ∀ b b' : Fin 1, exW b b' = exW b' b :=
  ⟨by decide +kernel, by unfold Symmetric4; decide +kernel, by decide +kernel⟩

/-- Hypotheses of the theorems about energies and moments are met: this vector is an eigenvector with bosons, and the coupling contributes to its energy. -/
example : hop root01 oneTable oneTable exH exG exV exW 1 1 false exC = (-5 : ℚ) • exC ∧ exC ⬝ᵥ exC = 1
    ∧ ((∀ p q : Fin 2, exH p q = exH q p) ∧ Symmetric4 exG ∧ ∀ b b' : Fin 1, exW b b' = exW b' b)
    ∧ ebRdm root01 (excA oneTable exC) exC 0 0 0 = -12 / 25 := ⟨ex_eig.1, ex_eig.2, ex_sym, by decide +kernel⟩

private theorem ex_eigenpair :
    Eigenpair (total root01 oneGen oneGen exV.alpha exV.beta exW (electrons oneGen oneGen exH exG) : Matrix (Idx 2 2 1 1) (Idx 2 2 1 1) ℚ) (-5) exC :=
  ⟨by rw [← ebfci_hamiltonian one_strings]; exact ex_eig.1, ex_eig.2⟩

/-- Both spins have the same density matrix in this example, so either form of the argument is allowed. -/
example : Eigenpair (total root01 oneGen oneGen exV.alpha exV.beta exW (electrons oneGen oneGen exH exG) : Matrix (Idx 2 2 1 1) (Idx 2 2 1 1) ℚ) (-5) exC
    ∧ DmOf oneTable oneTable exC (.one (EbFci.rdm1 oneTable oneTable exC)) ∧ DmOf oneTable oneTable exC (.two (rdm1A oneTable exC) (rdm1B oneTable exC)) :=
  ⟨ex_eigenpair, Or.inr ⟨rfl, by decide +kernel⟩, Or.inl rfl⟩

/-- The number of bosons: roots exist for the truncation used here, and over the reals for every truncation. -/
example : Roots root01 1 := by
  intro j hj
  interval_cases j <;> decide +kernel

example (m : Nat) : Roots (fun j => Real.sqrt (j : ℝ)) m := fun j _ => Real.mul_self_sqrt (Nat.cast_nonneg j)

/-- The reversed coupling of the option `adj_zero_pho` is not zero. -/
example : contractEp root01 oneTable oneTable (.one fun _ p q => if p = q then 6 else 0) 1 1 true exC (0, 0, fun _ => 0) = 36 / 5
    ∧ (Fintype.card (Fin 2) : ℚ) ≠ 0 := by
  constructor <;> decide +kernel

/-- `p†q` for one electron in one orbital, and for none. -/
def fullGen (p q : Fin 1) : Matrix (Fin 1) (Fin 1) ℚ :=
  fun s t => (((fullTable t).filter fun e => e.a = p ∧ e.i = q ∧ e.str1 = s).map fun e => e.sign).sum
def noGen (p q : Fin 1) : Matrix (Fin 1) (Fin 1) ℚ :=
  fun s t => (((noTable t).filter fun e => e.a = p ∧ e.i = q ∧ e.str1 = s).map fun e => e.sign).sum

private theorem open_strings : Strings fullTable noTable fullGen noGen 1 0 where
  tabA := fun _ _ _ _ => rfl
  tabB := fun _ _ _ _ => rfl
  genA := ⟨by decide +kernel, by decide +kernel, by decide +kernel⟩
  genB := ⟨by decide +kernel, by decide +kernel, by decide +kernel⟩
  some := by decide +kernel
  two := by decide +kernel

def openC : Idx 1 1 0 0 → ℚ := fun _ => 1

private theorem open_moment :
    ((ddMoms (hop root01 fullTable noTable (fun _ _ => 1) (fun _ _ _ _ => 0) (.one fun _ _ _ => 0) (fun _ _ => 0) 1 0 false) fullTable noTable openC 1 0
      (.one (EbFci.rdm1 fullTable noTable openC))).toOption.map fun l => l.map fun x => x.aa (0, 0) (0, 0)) = some [3 / 4] := by decide +kernel

private theorem open_expected :
    (expectedMoments (total root01 fullGen noGen (fun _ _ _ => 0) (fun _ _ _ => 0) (fun _ _ => 0) (electrons fullGen noGen (fun _ _ => 1) (fun _ _ _ _ => 0)) : Matrix (Idx 1 1 0 0) (Idx 1 1 0 0) ℚ)
      1 openC (fun pq : Fin 1 × Fin 1 => onA (fullGen pq.1 pq.2)) (fun pq : Fin 1 × Fin 1 => onB (noGen pq.1 pq.2)) 0).map (fun x => x.aa (0, 0) (0, 0)) = [0] := by decide +kernel

private theorem open_eig : hop root01 fullTable noTable (fun _ _ => 1) (fun _ _ _ _ => 0) (.one fun _ _ _ => 0) (fun _ _ => 0) 1 0 false openC = (1 : ℚ) • openC ∧ openC ⬝ᵥ openC = 1 := by
  constructor <;> decide +kernel

/-- **A single density matrix is not enough if the spins differ**: for one electron, the zeroth moment computed from the sum of both density
matrices — as the restricted solver passes it by default — is not the fluctuation of the density. -/
theorem ebfci_moments_single_density_wrong :
    ∃ (c : Idx 1 1 0 0 → ℚ) (e0 : ℚ) (h : Fin 1 → Fin 1 → ℚ) (g : Fin 1 → Fin 1 → Fin 1 → Fin 1 → ℚ) (heb : Heb (Fin 1) ℚ 0) (w : Fin 0 → Fin 0 → ℚ),
      Strings fullTable noTable fullGen noGen 1 0
      ∧ Eigenpair (total root01 fullGen noGen heb.alpha heb.beta w (electrons fullGen noGen h g)) e0 c
      ∧ ddMoms (hop root01 fullTable noTable h g heb w 1 0 false) fullTable noTable c e0 0 (.one (EbFci.rdm1 fullTable noTable c))
        ≠ .ok (expectedMoments (total root01 fullGen noGen heb.alpha heb.beta w (electrons fullGen noGen h g)) e0 c
            (fun pq : Fin 1 × Fin 1 => onA (fullGen pq.1 pq.2)) (fun pq : Fin 1 × Fin 1 => onB (noGen pq.1 pq.2)) 0) := by
  refine ⟨openC, 1, fun _ _ => 1, fun _ _ _ _ => 0, .one fun _ _ _ => 0, fun _ _ => 0, open_strings, ⟨?_, open_eig.2⟩, fun h => ?_⟩
  · rw [← ebfci_hamiltonian open_strings]; exact open_eig.1
  · have h1 := congrArg (fun r => r.toOption.map fun l => l.map fun x => x.aa (0, 0) (0, 0)) h
    beta_reduce at h1
    rw [open_moment] at h1
    have h2 := Option.some.inj h1
    have h3 : ([3 / 4] : List ℚ) = [0] := h2.trans open_expected
    exact absurd h3 (by decide +kernel)

end Vayesta.Props
