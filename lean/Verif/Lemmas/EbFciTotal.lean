import Verif.Lemmas.EbFciHam

/-! Coupling and boson terms, symmetry of the Hamiltonian, and expectation values. -/

set_option linter.unusedSectionVars false

namespace Vayesta.EbFci

open Matrix Vayesta.Spec.EbFci

section
variable {n K : Type} [Fintype n] [DecidableEq n] [Field K] {k na nb nbos m : Nat}
variable {ta : Table n na K} {tb : Table n nb K} {Ea : n → n → Matrix (Fin na) (Fin na) K} {Eb : n → n → Matrix (Fin nb) (Fin nb) K}

theorem contractPp_eq (sq : Nat → K) (w : Fin nbos → Fin nbos → K) (c : Idx na nb nbos m → K) : contractPp sq w c = bosons sq w *ᵥ c := by
  have h0 : (fun _ : Idx na nb nbos m => (0 : K)) = 0 := rfl
  have h1 : ∀ b : Fin nbos, (fun x => ∑ j, w b j * bosAnnihilation sq c j x) = (∑ j, w b j • annihilate sq j) *ᵥ c := by
    intro b
    funext x
    simp only [bosAnnihilation, des_eq, h0, zero_add, Matrix.sum_mulVec, Finset.sum_apply, Matrix.smul_mulVec, Pi.smul_apply, smul_eq_mul]
  unfold contractPp
  dsimp only
  simp only [h1]
  rw [foldl_add_vec _ _ (fun b => create sq b *ᵥ ((∑ j, w b j • annihilate sq j) *ᵥ c)) (fun t b => cre_eq sq b _ t), list_sum_finRange_vec, h0, zero_add]
  unfold bosons
  rw [Matrix.sum_mulVec]
  refine Finset.sum_congr rfl fun b _ => ?_
  rw [mulVec_mulVec]
  simp only [Finset.mul_sum, Matrix.mul_smul]

/-- `Σ V_npq (b†_n (E_pq - zδ_pq) + b_n (E_qp - zδ_pq))`. -/
theorem contractEp_eq (sq : Nat → K) (hA : Tabulates ta Ea) (hB : Tabulates tb Eb) (heb : Heb n K nbos) (nela nelb : Nat) (adj : Bool)
    (c : Idx na nb nbos m → K) (z : K) (hz : z = if adj then ((nela + nelb : Nat) : K) / (Fintype.card n : K) else 0) :
    contractEp sq ta tb heb nela nelb adj c
      = (coupling sq (fun p q => onA (Ea p q) - if p = q then z • 1 else 0) heb.alpha
          + coupling sq (fun p q => onB (Eb p q) - if p = q then z • 1 else 0) heb.beta) *ᵥ c := by
  have h0 : (fun _ : Idx na nb nbos m => (0 : K)) = 0 := rfl
  have hadj : ∀ (E F : n → n → Matrix (Idx na nb nbos m) (Idx na nb nbos m) K) (t : n → n → Idx na nb nbos m → K), (∀ a i, t a i = E a i *ᵥ c) →
      (F = fun a i => E a i - if a = i then z • 1 else 0) →
      adjZero adj (((nela + nelb : Nat) : K) / (Fintype.card n : K)) c t = fun a i => F a i *ᵥ c := by
    intro E F t ht hF
    subst hF
    funext a i x
    unfold adjZero
    beta_reduce
    rw [Matrix.sub_mulVec, ht]
    subst hz
    cases adj
    · by_cases hai : a = i <;> simp [hai]
    · by_cases hai : a = i <;> simp [hai, Matrix.smul_mulVec]
  unfold contractEp
  dsimp only
  obtain ⟨F, hF⟩ : ∃ F : n → n → Matrix (Idx na nb nbos m) (Idx na nb nbos m) K, F = fun p q => onA (Ea p q) - if p = q then z • 1 else 0 := ⟨_, rfl⟩
  obtain ⟨G, hG⟩ : ∃ G : n → n → Matrix (Idx na nb nbos m) (Idx na nb nbos m) K, G = fun p q => onB (Eb p q) - if p = q then z • 1 else 0 := ⟨_, rfl⟩
  rw [hadj _ F _ (excA_eq hA c) hF, hadj _ G _ (excB_eq hB c) hG, ← hF, ← hG]
  have hex : ∀ b, tex heb.alpha heb.beta (fun a i => F a i *ᵥ c) (fun a i => G a i *ᵥ c) b
      = ((∑ p, ∑ q, heb.alpha b p q • F p q) + ∑ p, ∑ q, heb.beta b p q • G p q) *ᵥ c := by
    intro b
    funext x
    simp only [tex, Matrix.add_mulVec, Matrix.sum_mulVec, Pi.add_apply, Finset.sum_apply, Matrix.smul_mulVec, Pi.smul_apply, smul_eq_mul]
  have hdex : ∀ b, tdex heb.alpha heb.beta (fun a i => F a i *ᵥ c) (fun a i => G a i *ᵥ c) b
      = ((∑ p, ∑ q, heb.alpha b p q • F q p) + ∑ p, ∑ q, heb.beta b p q • G q p) *ᵥ c := by
    intro b
    funext x
    simp only [tdex, Matrix.add_mulVec, Matrix.sum_mulVec, Pi.add_apply, Finset.sum_apply, Matrix.smul_mulVec, Pi.smul_apply, smul_eq_mul]
  simp only [hex, hdex]
  rw [foldl_add_vec _ _ (fun b => create sq b *ᵥ (((∑ p, ∑ q, heb.alpha b p q • F p q) + ∑ p, ∑ q, heb.beta b p q • G p q) *ᵥ c)
    + annihilate sq b *ᵥ (((∑ p, ∑ q, heb.alpha b p q • F q p) + ∑ p, ∑ q, heb.beta b p q • G q p) *ᵥ c))
    (fun t b => by rw [des_eq, cre_eq, add_assoc]), list_sum_finRange_vec, h0, zero_add]
  unfold coupling
  rw [← Finset.sum_add_distrib, Matrix.sum_mulVec]
  refine Finset.sum_congr rfl fun b _ => ?_
  rw [mulVec_mulVec, mulVec_mulVec, ← Matrix.add_mulVec]
  congr 1
  simp only [mul_add, Finset.mul_sum, Matrix.mul_smul, smul_add, Finset.sum_add_distrib]
  abel

theorem create_zero (sq : Nat → K) (b : Fin nbos) (hm : m = 0) : (create sq b : Matrix (Idx na nb nbos m) (Idx na nb nbos m) K) = 0 := by
  subst hm
  funext x y
  unfold create
  rw [if_neg]
  · rfl
  · rintro ⟨_, _, h, _⟩
    have := (x.2.2 b).isLt
    omega

theorem coupling_zero (sq : Nat → K) (E : n → n → Matrix (Idx na nb nbos m) (Idx na nb nbos m) K) (v : Fin nbos → n → n → K) (h : ¬ (0 < nbos ∧ 0 < m)) :
    coupling sq E v = 0 := by
  unfold coupling
  refine Finset.sum_eq_zero fun b _ => ?_
  have hm : m = 0 := by have := b.isLt; omega
  simp [annihilate, create_zero (na := na) (nb := nb) sq b hm]

theorem bosons_zero (sq : Nat → K) (w : Fin nbos → Fin nbos → K) (h : ¬ (0 < nbos ∧ 0 < m)) :
    (bosons sq w : Matrix (Idx na nb nbos m) (Idx na nb nbos m) K) = 0 := by
  unfold bosons
  refine Finset.sum_eq_zero fun b _ => ?_
  have hm : m = 0 := by have := b.isLt; omega
  simp [create_zero (na := na) (nb := nb) sq b hm]

theorem sub_zero_if {X : Type} [DecidableEq X] (E : n → n → Matrix X X K) : (fun p q => E p q - if p = q then (0 : K) • (1 : Matrix X X K) else 0) = E := by
  funext p q
  simp

theorem contractAll_eq (sq : Nat → K) (hA : Tabulates ta Ea) (hB : Tabulates tb Eb) (heb : Heb n K nbos) (w : Fin nbos → Fin nbos → K) (nela nelb : Nat)
    (el : (Idx na nb nbos m → K) → Idx na nb nbos m → K) (L : Matrix (Idx na nb nbos m) (Idx na nb nbos m) K) (hel : ∀ c, el c = L *ᵥ c) (c : Idx na nb nbos m → K) :
    contractAll sq ta tb heb w nela nelb false el c = total sq Ea Eb heb.alpha heb.beta w L *ᵥ c := by
  unfold contractAll total
  split_ifs with h
  · funext x
    have e := contractEp_eq sq hA hB heb nela nelb false c 0 (by simp)
    rw [sub_zero_if, sub_zero_if] at e
    rw [e, contractPp_eq, hel]
    simp only [Matrix.add_mulVec, Pi.add_apply]
    ring
  · rw [coupling_zero _ _ _ h, coupling_zero _ _ _ h, bosons_zero _ _ h, hel]
    simp

/-! ### Symmetry -/

theorem coupling_transpose (sq : Nat → K) (E : n → n → Matrix (Idx na nb nbos m) (Idx na nb nbos m) K) (hE : ∀ p q, (E p q)ᵀ = E q p)
    (hc : ∀ b p q, create sq b * E p q = E p q * create sq b) (v : Fin nbos → n → n → K) : (coupling sq E v)ᵀ = coupling sq E v := by
  unfold coupling
  simp only [Matrix.transpose_sum, Matrix.transpose_smul, Matrix.transpose_add, Matrix.transpose_mul, annihilate, Matrix.transpose_transpose, hE]
  refine Finset.sum_congr rfl fun b _ => Finset.sum_congr rfl fun p _ => Finset.sum_congr rfl fun q _ => ?_
  rw [← hc b p q]
  have : (create sq b)ᵀ * E q p = E q p * (create sq b)ᵀ := by
    have := congrArg Matrix.transpose (hc b p q)
    rw [Matrix.transpose_mul, Matrix.transpose_mul, hE] at this
    exact this.symm
  rw [this, add_comm]

theorem bosons_transpose (sq : Nat → K) (w : Fin nbos → Fin nbos → K) (hw : ∀ b b', w b b' = w b' b) :
    (bosons sq w : Matrix (Idx na nb nbos m) (Idx na nb nbos m) K)ᵀ = bosons sq w := by
  unfold bosons
  simp only [Matrix.transpose_sum, Matrix.transpose_smul, Matrix.transpose_mul, annihilate, Matrix.transpose_transpose]
  rw [Finset.sum_comm]
  exact Finset.sum_congr rfl fun b _ => Finset.sum_congr rfl fun b' _ => by rw [hw]

theorem onA_adjoint (h : ∀ p q : n, (Ea p q)ᵀ = Ea q p) (p q : n) : (onA (Ea p q) : Matrix (Idx na nb nbos m) (Idx na nb nbos m) K)ᵀ = onA (Ea q p) := by
  rw [onA_transpose, h]
theorem onB_adjoint (h : ∀ p q : n, (Eb p q)ᵀ = Eb q p) (p q : n) : (onB (Eb p q) : Matrix (Idx na nb nbos m) (Idx na nb nbos m) K)ᵀ = onB (Eb q p) := by
  rw [onB_transpose, h]
theorem spinSum_adjoint (hA : ∀ p q : n, (Ea p q)ᵀ = Ea q p) (hB : ∀ p q : n, (Eb p q)ᵀ = Eb q p) (p q : n) :
    (spinSum Ea Eb p q : Matrix (Idx na nb nbos m) (Idx na nb nbos m) K)ᵀ = spinSum Ea Eb q p := by
  rw [spinSum, Matrix.transpose_add, onA_adjoint hA, onB_adjoint hB]; rfl

theorem one_transpose {X : Type} [Fintype X] (E : n → n → Matrix X X K) (hE : ∀ p q, (E p q)ᵀ = E q p) (h : n → n → K) (hh : ∀ p q, h p q = h q p) :
    (∑ p, ∑ q, h p q • E p q)ᵀ = ∑ p, ∑ q, h p q • E p q := by
  simp only [Matrix.transpose_sum, Matrix.transpose_smul, hE]
  rw [Finset.sum_comm]
  exact Finset.sum_congr rfl fun p _ => Finset.sum_congr rfl fun q _ => by rw [hh]

theorem two_transpose {X : Type} [Fintype X] (E : n → n → Matrix X X K) (hE : ∀ p q, (E p q)ᵀ = E q p) (g : n → n → n → n → K) (hg : Symmetric4 g) :
    (∑ p, ∑ q, ∑ r, ∑ s, g p q r s • normal E p q r s)ᵀ = ∑ p, ∑ q, ∑ r, ∑ s, g p q r s • normal E p q r s := by
  have hn : ∀ p q r s, (normal E p q r s)ᵀ = normal E s r q p := by
    intro p q r s
    unfold normal
    rw [Matrix.transpose_sub, Matrix.transpose_mul, hE, hE]
    congr 1
    by_cases h : q = r
    · subst h; simp [hE]
    · simp [h, Ne.symm h]
  simp only [Matrix.transpose_sum, Matrix.transpose_smul, hn]
  have key : ∀ p q r s, g p q r s = g s r q p := fun p q r s => by rw [(hg p q r s).2, (hg q p s r).1]
  have e : (∑ p, ∑ q, ∑ r, ∑ s, g p q r s • normal E s r q p) = ∑ p, ∑ q, ∑ r, ∑ s, g s r q p • normal E s r q p :=
    Finset.sum_congr rfl fun p _ => Finset.sum_congr rfl fun q _ => Finset.sum_congr rfl fun r _ => Finset.sum_congr rfl fun s _ => by rw [← key]
  rw [e]
  have := Fintype.sum_equiv (⟨fun x => (x.2.2.2, x.2.2.1, x.2.1, x.1), fun x => (x.2.2.2, x.2.2.1, x.2.1, x.1), fun _ => rfl, fun _ => rfl⟩ : (n × n × n × n) ≃ (n × n × n × n))
    (fun x => g x.2.2.2 x.2.2.1 x.2.1 x.1 • normal E x.2.2.2 x.2.2.1 x.2.1 x.1) (fun x => g x.1 x.2.1 x.2.2.1 x.2.2.2 • normal E x.1 x.2.1 x.2.2.1 x.2.2.2) (fun _ => rfl)
  simpa only [Fintype.sum_prod_type] using this

theorem electrons_transpose (hA : ∀ p q : n, (Ea p q)ᵀ = Ea q p) (hB : ∀ p q : n, (Eb p q)ᵀ = Eb q p) (h : n → n → K) (hh : ∀ p q, h p q = h q p)
    (g : n → n → n → n → K) (hg : Symmetric4 g) : (electrons Ea Eb h g : Matrix (Idx na nb nbos m) (Idx na nb nbos m) K)ᵀ = electrons Ea Eb h g := by
  unfold electrons
  rw [Matrix.transpose_add, Matrix.transpose_smul, one_transpose _ (spinSum_adjoint hA hB) h hh, two_transpose _ (spinSum_adjoint hA hB) g hg]

theorem uelectrons_transpose (hA : ∀ p q : n, (Ea p q)ᵀ = Ea q p) (hB : ∀ p q : n, (Eb p q)ᵀ = Eb q p) (ha hb : n → n → K)
    (hha : ∀ p q, ha p q = ha q p) (hhb : ∀ p q, hb p q = hb q p)
    (aa ab bb : n → n → n → n → K) (haa : Symmetric4 aa) (hab : ∀ p q r s, ab p q r s = ab q p s r) (hbb : Symmetric4 bb) :
    (uelectrons Ea Eb ha hb aa ab bb : Matrix (Idx na nb nbos m) (Idx na nb nbos m) K)ᵀ = uelectrons Ea Eb ha hb aa ab bb := by
  unfold uelectrons
  simp only [Finset.sum_add_distrib]
  rw [Matrix.transpose_add, Matrix.transpose_add, Matrix.transpose_add, Matrix.transpose_add, Matrix.transpose_smul, Matrix.transpose_smul,
    one_transpose _ (onA_adjoint hA) ha hha, one_transpose _ (onB_adjoint hB) hb hhb, two_transpose _ (onA_adjoint hA) aa haa,
    two_transpose _ (onB_adjoint hB) bb hbb]
  congr 2
  simp only [Matrix.transpose_sum, Matrix.transpose_smul, Matrix.transpose_mul, onA_adjoint hA, onB_adjoint hB, ← onA_onB]
  have e : (∑ p, ∑ q, ∑ r, ∑ s, ab p q r s • (onA (Ea q p) * onB (Eb s r) : Matrix (Idx na nb nbos m) (Idx na nb nbos m) K))
      = ∑ p, ∑ q, ∑ r, ∑ s, ab q p s r • (onA (Ea q p) * onB (Eb s r)) :=
    Finset.sum_congr rfl fun p _ => Finset.sum_congr rfl fun q _ => Finset.sum_congr rfl fun r _ => Finset.sum_congr rfl fun s _ => by rw [← hab]
  rw [e, Finset.sum_comm]
  refine Finset.sum_congr rfl fun p _ => Finset.sum_congr rfl fun q _ => ?_
  rw [Finset.sum_comm]

theorem total_transpose (sq : Nat → K) (hA : ∀ p q : n, (Ea p q)ᵀ = Ea q p) (hB : ∀ p q : n, (Eb p q)ᵀ = Eb q p) (va vb : Fin nbos → n → n → K)
    (w : Fin nbos → Fin nbos → K) (hw : ∀ b b', w b b' = w b' b) (L : Matrix (Idx na nb nbos m) (Idx na nb nbos m) K) (hL : Lᵀ = L) :
    (total sq Ea Eb va vb w L)ᵀ = total sq Ea Eb va vb w L := by
  unfold total
  rw [Matrix.transpose_add, Matrix.transpose_add, Matrix.transpose_add, hL, bosons_transpose sq w hw,
    coupling_transpose sq _ (onA_adjoint hA) (fun b p q => create_onA sq b _), coupling_transpose sq _ (onB_adjoint hB) (fun b p q => create_onB sq b _)]

/-! ### Expectation values -/

theorem expect_transpose {X : Type} [Fintype X] (c : X → K) (M : Matrix X X K) : expect c Mᵀ = expect c M := by
  unfold expect
  rw [Matrix.mulVec_transpose, dotProduct_comm, ← dotProduct_mulVec]

theorem expect_add {X : Type} [Fintype X] (c : X → K) (M N : Matrix X X K) : expect c (M + N) = expect c M + expect c N := by
  simp only [expect, Matrix.add_mulVec, dotProduct_add]
theorem expect_sub {X : Type} [Fintype X] (c : X → K) (M N : Matrix X X K) : expect c (M - N) = expect c M - expect c N := by
  simp only [expect, Matrix.sub_mulVec, dotProduct_sub]
theorem expect_smul {X : Type} [Fintype X] (c : X → K) (z : K) (M : Matrix X X K) : expect c (z • M) = z * expect c M := by
  simp only [expect, Matrix.smul_mulVec, dotProduct_smul, smul_eq_mul]
theorem expect_zero {X : Type} [Fintype X] (c : X → K) : expect c (0 : Matrix X X K) = 0 := by
  simp [expect]
theorem expect_sum {X ι : Type} [Fintype X] [Fintype ι] (c : X → K) (M : ι → Matrix X X K) : expect c (∑ p, M p) = ∑ p, expect c (M p) := by
  simp only [expect, Matrix.sum_mulVec, dotProduct_sum]

theorem ebRdm_eq (sq : Nat → K) (E : n → n → Matrix (Idx na nb nbos m) (Idx na nb nbos m) K) (c : Idx na nb nbos m → K) (exc : n → n → Idx na nb nbos m → K)
    (h : ∀ p q, exc p q = E p q *ᵥ c) (p q : n) (b : Fin nbos) : ebRdm sq exc c p q b = expect c (create sq b * E p q) := by
  have h0 : (fun _ : Idx na nb nbos m => (0 : K)) = 0 := rfl
  unfold ebRdm expect
  rw [cre_eq, h0, zero_add, h, mulVec_mulVec, dotProduct_comm]
  rfl

theorem dm1Of_eq (E : n → n → Matrix (Idx na nb nbos m) (Idx na nb nbos m) K) (c : Idx na nb nbos m → K) (t : n → n → Idx na nb nbos m → K)
    (h : ∀ p q, t p q = E p q *ᵥ c) (p q : n) : dm1Of c t p q = expect c (E p q) := by
  unfold dm1Of expect dotProduct
  rw [Fintype.sum_prod_type, h]

theorem dm2Of_eq (E F : n → n → Matrix (Idx na nb nbos m) (Idx na nb nbos m) K) (hE : ∀ p q, (E p q)ᵀ = E q p) (c : Idx na nb nbos m → K) (t u : n → n → Idx na nb nbos m → K)
    (ht : ∀ p q, t p q = E p q *ᵥ c) (hu : ∀ p q, u p q = F p q *ᵥ c) (p q r s : n) : dm2Of t u p q r s = expect c (E p q * F r s) := by
  have e : dm2Of t u p q r s = t q p ⬝ᵥ u r s := by
    unfold dm2Of dotProduct
    rw [Fintype.sum_prod_type]
  rw [e, ht, hu, expect, ← mulVec_mulVec, ← hE p q, Matrix.mulVec_transpose, ← dotProduct_mulVec]

theorem rdm1A_eq (hA : Tabulates ta Ea) (c : Idx na nb nbos m → K) (p q : n) : rdm1A ta c p q = expect c (onA (Ea p q)) := by
  unfold rdm1A expect dotProduct
  rw [rdm1Spin_eq, zero_add, Fintype.sum_prod_type]
  simp only [onA_mulVec, coeff_eq hA, Finset.mul_sum]
  rw [Finset.sum_comm]
  refine Finset.sum_congr rfl fun s1 _ => ?_
  rw [Finset.sum_comm]
  exact Finset.sum_congr rfl fun _ _ => Finset.sum_congr rfl fun _ _ => by ring

theorem rdm1B_eq (hB : Tabulates tb Eb) (c : Idx na nb nbos m → K) (d : n → n → K) (p q : n) :
    rdm1Spin tb (fun s t => ∑ a, ∑ y, c (a, s, y) * c (a, t, y)) d p q = d p q + expect c (onB (Eb p q)) := by
  unfold expect dotProduct
  rw [rdm1Spin_eq]
  congr 1
  simp only [Fintype.sum_prod_type, onB_mulVec, coeff_eq hB, Finset.mul_sum]
  rw [Finset.sum_comm]
  have e : (∑ s1, ∑ s0, ∑ a, ∑ y, Eb p q s1 s0 * (c (a, s1, y) * c (a, s0, y))) = ∑ a, ∑ s1, ∑ s0, ∑ y, Eb p q s1 s0 * (c (a, s1, y) * c (a, s0, y)) := by
    rw [Finset.sum_comm' (t' := Finset.univ) (s' := fun _ => Finset.univ) (by simp)]
    rw [Finset.sum_comm]
    have : ∀ s1, (∑ s0, ∑ a, ∑ y, Eb p q s1 s0 * (c (a, s1, y) * c (a, s0, y))) = ∑ a, ∑ s0, ∑ y, Eb p q s1 s0 * (c (a, s1, y) * c (a, s0, y)) :=
      fun s1 => Finset.sum_comm
    simp only [this]
    rw [Finset.sum_comm]
  rw [e]
  refine Finset.sum_congr rfl fun a _ => Finset.sum_congr rfl fun s1 _ => ?_
  rw [Finset.sum_comm]
  exact Finset.sum_congr rfl fun _ _ => Finset.sum_congr rfl fun _ _ => by ring

theorem normal_swap {X : Type} [Fintype X] (E : n → n → Matrix X X K)
    (hE : ∀ p q r s : n, E p q * E r s - E r s * E p q = (if q = r then E p s else 0) - if p = s then E r q else 0) (p q r s : n) :
    normal E r s p q = normal E p q r s := by
  unfold normal
  have h := hE p q r s
  have e : (if s = p then E r q else 0) = if p = s then E r q else 0 := by simp only [eq_comm]
  rw [e]
  linear_combination (norm := abel) -h

theorem spinSum_commutator {Na Nb : Nat} (hA : Generators Ea Na) (hB : Generators Eb Nb) (p q r s : n) :
    (spinSum Ea Eb p q * spinSum Ea Eb r s - spinSum Ea Eb r s * spinSum Ea Eb p q : Matrix (Idx na nb nbos m) (Idx na nb nbos m) K)
      = (if q = r then spinSum Ea Eb p s else 0) - if p = s then spinSum Ea Eb r q else 0 := by
  have ha := congrArg (fun M => (onA M : Matrix (Idx na nb nbos m) (Idx na nb nbos m) K)) (hA.commutator p q r s)
  have hb := congrArg (fun M => (onB M : Matrix (Idx na nb nbos m) (Idx na nb nbos m) K)) (hB.commutator p q r s)
  simp only [onA_sub, onB_sub, apply_ite (fun M => (onA M : Matrix (Idx na nb nbos m) (Idx na nb nbos m) K)),
    apply_ite (fun M => (onB M : Matrix (Idx na nb nbos m) (Idx na nb nbos m) K)), onA_zero, onB_zero, ← onA_mul, ← onB_mul] at ha hb
  simp only [spinSum, add_mul, mul_add]
  rw [← onA_onB (Ea r s) (Eb p q), ← onA_onB (Ea p q) (Eb r s)]
  have e : ∀ (P : Prop) [Decidable P] (A B : Matrix (Idx na nb nbos m) (Idx na nb nbos m) K), (if P then A + B else 0) = (if P then A else 0) + if P then B else 0 := by
    intro P _ A B; split_ifs <;> simp
  rw [e, e]
  linear_combination (norm := abel) ha + hb

theorem onA_commutator {Na : Nat} (hA : Generators Ea Na) (p q r s : n) :
    (onA (Ea p q) * onA (Ea r s) - onA (Ea r s) * onA (Ea p q) : Matrix (Idx na nb nbos m) (Idx na nb nbos m) K)
      = (if q = r then onA (Ea p s) else 0) - if p = s then onA (Ea r q) else 0 := by
  have ha := congrArg (fun M => (onA M : Matrix (Idx na nb nbos m) (Idx na nb nbos m) K)) (hA.commutator p q r s)
  simpa only [onA_sub, apply_ite (fun M => (onA M : Matrix (Idx na nb nbos m) (Idx na nb nbos m) K)), onA_zero, ← onA_mul] using ha

theorem onB_commutator {Nb : Nat} (hB : Generators Eb Nb) (p q r s : n) :
    (onB (Eb p q) * onB (Eb r s) - onB (Eb r s) * onB (Eb p q) : Matrix (Idx na nb nbos m) (Idx na nb nbos m) K)
      = (if q = r then onB (Eb p s) else 0) - if p = s then onB (Eb r q) else 0 := by
  have hb := congrArg (fun M => (onB M : Matrix (Idx na nb nbos m) (Idx na nb nbos m) K)) (hB.commutator p q r s)
  simpa only [onB_sub, apply_ite (fun M => (onB M : Matrix (Idx na nb nbos m) (Idx na nb nbos m) K)), onB_zero, ← onB_mul] using hb

theorem reorder_eq (E : n → n → Matrix (Idx na nb nbos m) (Idx na nb nbos m) K) (h2 : (2 : K) ≠ 0) (hE : ∀ p q, (E p q)ᵀ = E q p)
    (hc : ∀ p q r s : n, E p q * E r s - E r s * E p q = (if q = r then E p s else 0) - if p = s then E r q else 0)
    (c : Idx na nb nbos m → K) (t : n → n → Idx na nb nbos m → K) (ht : ∀ p q, t p q = E p q *ᵥ c) (p q r s : n) :
    reorder (dm1Of c t) (dm2Of t t) p q r s = expect c (normal E p q r s) := by
  have key : ∀ p q r s, reorderDelta (dm1Of c t) (dm2Of t t) p q r s = expect c (normal E p q r s) := by
    intro p q r s
    unfold reorderDelta normal
    rw [expect_sub, dm2Of_eq E E hE c t t ht ht, dm1Of_eq E c t ht]
    by_cases h : q = r
    · rw [if_pos h, if_pos h, ← expect_transpose c (E p s), hE]
    · rw [if_neg h, if_neg h, expect_zero, sub_zero]
  unfold reorder
  rw [key, key, normal_swap E hc]
  field_simp
  ring

end

end Vayesta.EbFci
