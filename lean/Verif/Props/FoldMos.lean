import Verif.Props.Fold
import Verif.Props.Svd
import Mathlib.LinearAlgebra.Matrix.Charpoly.Basic
import Mathlib.Data.List.Sort

/-! C72: orbitals of folded mean-fields. -/

namespace Vayesta.Props
set_option linter.unusedSectionVars false
open Fold Complex Matrix

variable {κ ρ ι α : Type} [Fintype κ] [Fintype ρ] [Fintype ι] [Fintype α] [DecidableEq α]

/-! ## Specification -/

/-- A real matrix, as a complex one. -/
def asComplex {m n : Type} (a : Matrix m n ℝ) : Matrix m n ℂ := a.map Complex.ofReal

/-- `scipy.linalg.eigh(f, s)`: for symmetric `f` and positive definite `s`, all eigenvalues in ascending order, with orthonormal
eigenvectors. -/
def SolvesGenEigh (eigh : Matrix α α ℝ → Matrix α α ℝ → GenEig α) (s : Matrix α α ℝ) : Prop :=
  ∀ f : Matrix α α ℝ, fᵀ = f → (eigh f s).vecᵀ * s * (eigh f s).vec = 1
    ∧ f * (eigh f s).vec = s * (eigh f s).vec * diagonal (eigh f s).val ∧ Monotone (eigh f s).val

/-- Orbitals are either real or clearly complex. -/
def CleanImag {m : Nat} (tol : ℝ) (c : Matrix α (Fin m) ℂ) : Prop :=
  ∀ i, Real.sqrt (∑ x, (c x i).im ^ 2) ≤ tol → ∀ x, (c x i).im = 0

/-- Canonical orbitals: orthonormal eigenvectors of the Fock matrix. -/
structure Canonical {m : Type} [Fintype m] [DecidableEq m] (s f : Matrix α α ℂ) (e : m → ℝ) (c : Matrix α m ℂ) : Prop where
  orthonormal : c.conjTranspose * s * c = 1
  eigen : f * c = s * c * diagonal fun i => (e i : ℂ)

/-- The density matrix of orbitals with occupations. -/
def occDensity {m : Type} [Fintype m] [DecidableEq m] (occ : m → ℝ) (c : Matrix α m ℂ) : Matrix α α ℂ :=
  c * (diagonal fun i => (occ i : ℂ)) * c.conjTranspose

/-! ## Eigenvalues -/

private theorem sum_filter_map {β M : Type} [AddCommMonoid M] (p : β → Bool) (f : β → M) :
    ∀ l : List β, ((l.filter p).map f).sum = (l.map fun i => if p i then f i else 0).sum
  | [] => rfl
  | x :: l => by
    rw [List.filter_cons]
    cases h : p x <;> simp [h, sum_filter_map p f l]

/-- Equal spectra apart from zeros. -/
private theorem spectra {N m : Nat} (w : Fin N → ℝ) (ε : Fin m → ℝ) (U : Matrix (Fin N) (Fin m) ℂ) (hU : U.conjTranspose * U = 1)
    (hW : (diagonal fun j => (w j : ℂ)) = U * (diagonal fun i => (ε i : ℂ)) * U.conjTranspose) :
    Multiset.replicate m (0 : ℝ) + (Finset.univ.val.map w) = Multiset.replicate N 0 + (Finset.univ.val.map ε) := by
  have h := charpoly_mul_comm' (U * diagonal fun i => (ε i : ℂ)) U.conjTranspose
  rw [← hW, ← Matrix.mul_assoc, hU, Matrix.one_mul, charpoly_diagonal, charpoly_diagonal, Fintype.card_fin, Fintype.card_fin] at h
  have key : ∀ {k n : Nat} (v : Fin n → ℝ), (Polynomial.X ^ k * ∏ i, (Polynomial.X - Polynomial.C (v i : ℂ))).roots
      = Multiset.replicate k (0 : ℂ) + Finset.univ.val.map fun i => (v i : ℂ) := by
    intro k n v
    have h1 : (∏ i, (Polynomial.X - Polynomial.C (v i : ℂ))) = ((Finset.univ.val.map fun i => (v i : ℂ)).map fun a => Polynomial.X - Polynomial.C a).prod := by
      rw [Multiset.map_map]; rfl
    have h2 : (∏ i, (Polynomial.X - Polynomial.C (v i : ℂ))) ≠ 0 := Finset.prod_ne_zero_iff.2 fun i _ => Polynomial.X_sub_C_ne_zero _
    rw [Polynomial.roots_mul (mul_ne_zero (pow_ne_zero _ Polynomial.X_ne_zero) h2), Polynomial.roots_pow, Polynomial.roots_X, h1,
      Polynomial.roots_multiset_prod_X_sub_C, Multiset.nsmul_singleton]
  have h3 := congrArg (Multiset.map Complex.re) (congrArg Polynomial.roots h)
  rw [key, key, Multiset.map_add, Multiset.map_add, Multiset.map_replicate, Multiset.map_replicate, Multiset.map_map, Multiset.map_map] at h3
  exact h3

/-- The eigenvalues above one half are the shifted energies of the complex orbitals, in the same order. -/
private theorem masked {N m : Nat} (w : Fin N → ℝ) (hw : Monotone w) (e : Fin m → ℝ) (he : Monotone e) (p : Fin m → Bool) (shift : ℝ)
    (h1 : ∀ i, p i = true → 1 ≤ e i + shift) (U : Matrix (Fin N) (Fin m) ℂ) (hU : U.conjTranspose * U = 1)
    (hW : (diagonal fun j => (w j : ℂ)) = U * (diagonal fun i => ((if p i then e i + shift else 0 : ℝ) : ℂ)) * U.conjTranspose)
    (q : Fin N → Bool) (hq : ∀ j, q j = decide (1 / 2 < w j)) :
    ((List.finRange N).filter q).map w = ((List.finRange m).filter p).map fun i => e i + shift := by
  have h := congrArg (Multiset.filter (fun x : ℝ => 1 / 2 < x)) (spectra w _ U hU hW)
  have hz : ∀ k, Multiset.filter (fun x : ℝ => 1 / 2 < x) (Multiset.replicate k 0) = 0 := by
    intro k
    rw [Multiset.filter_eq_nil]
    intro a ha
    rw [Multiset.eq_of_mem_replicate ha]; norm_num
  rw [Multiset.filter_add, Multiset.filter_add, hz, hz, zero_add, zero_add] at h
  have hv : ∀ {k : Nat} (v : Fin k → ℝ), (Finset.univ.val.map v) = (((List.finRange k).map v : List ℝ) : Multiset ℝ) := by
    intro k v; rw [← Multiset.map_coe]; rfl
  rw [hv, hv, Multiset.filter_coe, Multiset.filter_coe, Multiset.coe_eq_coe] at h
  have e1 : List.filter (fun x => decide (1 / 2 < x)) ((List.finRange N).map w) = ((List.finRange N).filter q).map w := by
    rw [List.filter_map]
    congr 2
    funext j
    rw [hq]; rfl
  have e2 : List.filter (fun x => decide (1 / 2 < x)) ((List.finRange m).map fun i => if p i then e i + shift else 0)
      = ((List.finRange m).filter p).map fun i => e i + shift := by
    rw [List.filter_map]
    have : List.filter ((fun x => decide (1 / 2 < x)) ∘ fun i => if p i then e i + shift else 0) (List.finRange m) = (List.finRange m).filter p := by
      refine List.filter_congr fun i _ => ?_
      cases hp : p i
      · simp [hp]
      · have := h1 i hp
        simp only [Function.comp_apply, hp, if_true, decide_eq_true_eq]
        linarith
    rw [this]
    refine List.map_congr_left fun i hi => ?_
    rw [if_pos (List.mem_filter.1 hi).2]
  rw [e1, e2] at h
  refine List.Perm.eq_of_pairwise (le := (· ≤ ·)) (fun a b _ _ => le_antisymm) ?_ ?_ h
  · exact List.pairwise_map.2 ((List.pairwise_le_finRange N).filter q |>.imp fun h => hw h)
  · exact List.pairwise_map.2 ((List.pairwise_le_finRange m).filter p |>.imp fun h => by have := he h; linarith)

/-! ## Making orbitals real -/

section Real
variable {m : Nat} {s : Matrix α α ℝ} {e : Fin m → ℝ} {c : Matrix α (Fin m) ℂ}

private noncomputable def isC (tol : ℝ) (c : Matrix α (Fin m) ℂ) (i : Fin m) : Bool := by
  classical exact decide (tol < Real.sqrt (∑ x, (c x i).im ^ 2))

private theorem complexCols_eq (tol : ℝ) (c : Matrix α (Fin m) ℂ) : complexCols tol c = (List.finRange m).filter (isC tol c) := by
  rw [complexCols]; rfl

/-- Energies of the complex orbitals, shifted. -/
private noncomputable def eps (tol : ℝ) (e : Fin m → ℝ) (c : Matrix α (Fin m) ℂ) (shift : ℝ) (i : Fin m) : ℝ :=
  if isC tol c i then e i + shift else 0

private theorem asComplex_mul {l m n : Type} [Fintype m] (a : Matrix l m ℝ) (b : Matrix m n ℝ) : asComplex (a * b) = asComplex a * asComplex b :=
  Matrix.map_mul (f := Complex.ofRealHom)

private theorem asComplex_conj {l m : Type} (a : Matrix l m ℝ) : (asComplex a).conjTranspose = asComplex aᵀ := by
  ext i j; simp [asComplex, conjTranspose_apply]

private theorem asComplex_one {l : Type} [DecidableEq l] : asComplex (1 : Matrix l l ℝ) = 1 := by
  ext i j; simp only [asComplex, map_apply, one_apply]; split <;> simp

private theorem asComplex_inj {l m : Type} {a b : Matrix l m ℝ} (h : asComplex a = asComplex b) : a = b := by
  ext i j
  have := congrFun (congrFun h i) j
  exact Complex.ofReal_injective this

private theorem complexFock_eq (tol : ℝ) (hs : sᵀ = s) (shift : ℝ) : complexFock s e c (complexCols tol c) shift
    = asComplex s * c * (diagonal fun i => (eps tol e c shift i : ℂ)) * c.conjTranspose * asComplex s := by
  ext x y
  rw [complexFock, of_apply, complexCols_eq, sum_filter_map, ← Fin.sum_univ_def, Matrix.mul_assoc, Matrix.mul_apply]
  refine Finset.sum_congr rfl fun i _ => ?_
  have h1 : (asComplex s * c * diagonal fun i => (eps tol e c shift i : ℂ)) x i = (∑ z, (s x z : ℂ) * c z i) * (eps tol e c shift i : ℂ) := by
    rw [Matrix.mul_diagonal, Matrix.mul_apply]; rfl
  have h2 : (c.conjTranspose * asComplex s) i y = star (∑ z, (s y z : ℂ) * c z i) := by
    rw [Matrix.mul_apply, star_sum]
    refine Finset.sum_congr rfl fun z _ => ?_
    have h3 : star ((s y z : ℝ) : ℂ) = ((s y z : ℝ) : ℂ) := Complex.conj_ofReal _
    have h4 := congrFun (congrFun hs y) z
    rw [transpose_apply] at h4
    rw [star_mul', conjTranspose_apply, asComplex, map_apply, h3, mul_comm, h4]
  rw [h1, h2, eps]
  cases isC tol c i <;> simp

/-- The subspace Fock matrix is real. -/
private theorem complexFock_real (tol : ℝ) (hs : sᵀ = s) (hc : CleanImag tol c) (shift : ℝ) (F P : Matrix α α ℝ)
    (hF : asComplex F = asComplex s * c * (diagonal fun i => (e i : ℂ)) * c.conjTranspose * asComplex s)
    (hP : asComplex P = asComplex s * c * c.conjTranspose * asComplex s) :
    asComplex (of fun x y => (complexFock s e c (complexCols tol c) shift x y).re) = complexFock s e c (complexCols tol c) shift := by
  rw [complexFock_eq tol hs]
  set G := asComplex s * c * (diagonal fun i => (eps tol e c shift i : ℂ)) * c.conjTranspose * asComplex s with hG
  set rest : Fin m → ℝ := fun i => if isC tol c i then 0 else e i + shift with hrest
  have hd : (diagonal fun i => (eps tol e c shift i : ℂ)) = (diagonal fun i => (e i : ℂ)) + (shift : ℂ) • (1 : Matrix (Fin m) (Fin m) ℂ)
      - diagonal fun i => (rest i : ℂ) := by
    ext i j
    by_cases hij : i = j
    · subst hij
      simp only [Matrix.sub_apply, Matrix.add_apply, Matrix.smul_apply, diagonal_apply_eq, one_apply_eq, smul_eq_mul, mul_one, eps, hrest]
      cases isC tol c i <;> simp
    · simp [diagonal_apply_ne _ hij, one_apply_ne hij, Matrix.sub_apply]
  set cr : Matrix α (Fin m) ℝ := of fun x i => if isC tol c i then 0 else (c x i).re with hcr
  have hrr : c * (diagonal fun i => (rest i : ℂ)) * c.conjTranspose = asComplex (cr * diagonal rest * crᵀ) := by
    rw [asComplex_mul, asComplex_mul, ← asComplex_conj]
    have e1 : asComplex (diagonal rest) = diagonal fun i => (rest i : ℂ) := by
      ext i j; by_cases hij : i = j
      · subst hij; simp [asComplex]
      · simp [asComplex, hij]
    rw [e1]
    ext x y
    rw [Matrix.mul_apply, Matrix.mul_apply]
    refine Finset.sum_congr rfl fun i _ => ?_
    rw [mul_diagonal, mul_diagonal, conjTranspose_apply, conjTranspose_apply]
    by_cases hi : isC tol c i = true
    · have : rest i = 0 := by rw [hrest]; simp [hi]
      rw [this]; simp
    · have him : ∀ x, (c x i).im = 0 := hc i (by
        have h2 : ¬ (tol < Real.sqrt (∑ x, (c x i).im ^ 2)) := fun h => hi (by rw [isC]; exact decide_eq_true h)
        exact not_lt.1 h2)
      have hx : ∀ x, asComplex cr x i = c x i := by
        intro x
        simp only [asComplex, map_apply, hcr, of_apply, hi]
        exact Complex.ext rfl (him x).symm
      rw [hx, hx]
  have hG2 : G = asComplex (F + shift • P - s * (cr * diagonal rest * crᵀ) * s) := by
    have e1 : asComplex (F + shift • P - s * (cr * diagonal rest * crᵀ) * s)
        = asComplex F + (shift : ℂ) • asComplex P - asComplex (s * (cr * diagonal rest * crᵀ) * s) := by
      ext x y; simp [asComplex, Matrix.sub_apply]
    rw [e1, asComplex_mul, asComplex_mul s, ← hrr, hF, hP, hG, hd]
    simp only [Matrix.mul_add, Matrix.mul_sub, Matrix.add_mul, Matrix.sub_mul, Matrix.mul_smul, Matrix.smul_mul, Matrix.mul_one, Matrix.mul_assoc]
  rw [hG2]
  ext x y
  simp [asComplex]

/-- The result: columns without imaginary part are kept, the others are eigenvectors with the shifted energies as eigenvalues. -/
private theorem makeMoReal_columns (eigh : Matrix α α ℝ → Matrix α α ℝ → GenEig α) (tol : ℝ) (hs : sᵀ = s) (hg : SolvesGenEigh eigh s)
    (hc : CleanImag tol c) (he : Monotone e) (ho : c.conjTranspose * asComplex s * c = 1) (F P : Matrix α α ℝ)
    (hF : asComplex F = asComplex s * c * (diagonal fun i => (e i : ℂ)) * c.conjTranspose * asComplex s)
    (hP : asComplex P = asComplex s * c * c.conjTranspose * asComplex s) :
    ∃ (d : Matrix α (Fin m) ℝ) (J : Fin m → Option (Fin (Fintype.card α))) (v : Matrix α (Fin (Fintype.card α)) ℝ)
      (w : Fin (Fintype.card α) → ℝ) (shift : ℝ),
      makeMoReal eigh tol s e c = .ok d ∧ vᵀ * s * v = 1 ∧
      asComplex s * c * (diagonal fun i => (eps tol e c shift i : ℂ)) * c.conjTranspose * asComplex s * asComplex v
        = asComplex s * asComplex v * (diagonal fun j => (w j : ℂ)) ∧
      (∀ i, isC tol c i = false → J i = none) ∧
      (∀ i, isC tol c i = true → ∃ j, J i = some j ∧ w j = e i + shift ∧ 1 ≤ w j) ∧
      (∀ i i' j, J i = some j → J i' = some j → i = i') ∧
      (∀ x i, d x i = (J i).elim (c x i).re fun j => v x j) := by
  classical
  rw [makeMoReal]
  cases hmin : ((complexCols tol c).map e).min? with
  | none =>
    have hnil : complexCols tol c = [] := by
      rw [List.min?_eq_none_iff, List.map_eq_nil_iff] at hmin; exact hmin
    have hfalse : ∀ i, isC tol c i = false := by
      intro i
      rw [complexCols_eq, List.filter_eq_nil_iff] at hnil
      exact Bool.eq_false_iff.2 (hnil i (List.mem_finRange i))
    have h0 := hg 0 (by simp)
    refine ⟨_, fun _ => none, (eigh 0 s).vec, (eigh 0 s).val, 0, rfl, h0.1, ?_, fun _ _ => rfl, ?_, ?_, ?_⟩
    · have hz : (diagonal fun i => (eps tol e c 0 i : ℂ)) = 0 := by
        ext i j; by_cases hij : i = j
        · subst hij; simp [eps, hfalse]
        · simp [hij]
      have h1 := congrArg asComplex h0.2.1
      have hd : asComplex (diagonal (eigh 0 s).val) = diagonal fun j => ((eigh 0 s).val j : ℂ) := by
        ext i j; by_cases hij : i = j
        · subst hij; simp [asComplex]
        · simp [asComplex, hij]
      rw [asComplex_mul, asComplex_mul, asComplex_mul, hd] at h1
      rw [hz, ← h1]
      have : asComplex (0 : Matrix α α ℝ) = 0 := by ext i j; simp [asComplex]
      rw [this]; simp
    · intro i hi; rw [hfalse i] at hi; cases hi
    · intro i i' j h; cases h
    · intro x i; rfl
  | some emin =>
    dsimp only
    set f := complexFock s e c (complexCols tol c) (1 - emin) with hf
    have hreal := complexFock_real tol hs hc (1 - emin) F P hF hP
    rw [← hf] at hreal
    set fr : Matrix α α ℝ := of fun x y => (f x y).re with hfr
    have hfe : f = asComplex s * c * (diagonal fun i => (eps tol e c (1 - emin) i : ℂ)) * c.conjTranspose * asComplex s :=
      complexFock_eq tol hs (1 - emin)
    have hsc : (asComplex s).conjTranspose = asComplex s := by rw [asComplex_conj, hs]
    have hherm : f.conjTranspose = f := by
      have hdd : (diagonal fun i => (eps tol e c (1 - emin) i : ℂ)).conjTranspose = diagonal fun i => (eps tol e c (1 - emin) i : ℂ) := by
        rw [diagonal_conjTranspose]; congr 1; funext i; exact Complex.conj_ofReal _
      rw [hfe]
      simp only [conjTranspose_mul, conjTranspose_conjTranspose, hdd, hsc, Matrix.mul_assoc]
    have hsym : frᵀ = fr := by
      apply asComplex_inj
      rw [← asComplex_conj, hreal, hherm]
    obtain ⟨h1, h2, h3⟩ := hg fr hsym
    set g := eigh fr s with hgdef
    have hd : asComplex (diagonal g.val) = diagonal fun j => (g.val j : ℂ) := by
      ext i j; by_cases hij : i = j
      · subst hij; simp [asComplex]
      · simp [asComplex, hij]
    have h1c : (asComplex g.vec).conjTranspose * asComplex s * asComplex g.vec = 1 := by
      rw [asComplex_conj, ← asComplex_mul, ← asComplex_mul, h1, asComplex_one]
    have h2c : f * asComplex g.vec = asComplex s * asComplex g.vec * diagonal fun j => (g.val j : ℂ) := by
      rw [← hreal, ← asComplex_mul, h2, asComplex_mul, asComplex_mul, hd]
    have hinv : asComplex g.vec * ((asComplex g.vec).conjTranspose * asComplex s) = 1 :=
      (mul_eq_one_comm_of_equiv (Fintype.equivFin α)).2 h1c
    have hU : ((asComplex g.vec).conjTranspose * asComplex s * c).conjTranspose * ((asComplex g.vec).conjTranspose * asComplex s * c) = 1 := by
      rw [conjTranspose_mul, conjTranspose_mul, conjTranspose_conjTranspose, hsc]
      calc _ = c.conjTranspose * asComplex s * (asComplex g.vec * ((asComplex g.vec).conjTranspose * asComplex s)) * c := by
            simp only [Matrix.mul_assoc]
        _ = _ := by rw [hinv, Matrix.mul_one, ho]
    have hW : (diagonal fun j => (g.val j : ℂ)) = ((asComplex g.vec).conjTranspose * asComplex s * c)
        * (diagonal fun i => ((if isC tol c i then e i + (1 - emin) else 0 : ℝ) : ℂ))
        * ((asComplex g.vec).conjTranspose * asComplex s * c).conjTranspose := by
      calc (diagonal fun j => (g.val j : ℂ)) = (asComplex g.vec).conjTranspose * (asComplex s * asComplex g.vec * diagonal fun j => (g.val j : ℂ)) := by
            rw [← Matrix.mul_assoc, ← Matrix.mul_assoc, h1c, Matrix.one_mul]
        _ = (asComplex g.vec).conjTranspose * (f * asComplex g.vec) := by rw [h2c]
        _ = _ := by
            rw [hfe, conjTranspose_mul, conjTranspose_mul, conjTranspose_conjTranspose, hsc]
            simp only [Matrix.mul_assoc]
            rfl
    have hone : ∀ i, isC tol c i = true → 1 ≤ e i + (1 - emin) := by
      intro i hi
      rw [List.min?_eq_some_iff] at hmin
      have := hmin.2 (e i) (List.mem_map.2 ⟨i, by rw [complexCols_eq]; exact List.mem_filter.2 ⟨List.mem_finRange i, hi⟩, rfl⟩)
      linarith
    have hmask := masked g.val h3 e he (isC tol c) (1 - emin) hone _ hU hW (fun j => decide (1 / 2 < g.val j)) (fun j => rfl)
    rw [← complexCols_eq] at hmask
    set mask := (List.finRange (Fintype.card α)).filter fun j => decide (1 / 2 < g.val j) with hm
    set im := complexCols tol c with him
    have hlen : mask.length = im.length := by
      have := congrArg List.length hmask
      rwa [List.length_map, List.length_map] at this
    rw [if_neg (by rw [hlen]; exact fun h => h rfl)]
    have hmem : ∀ i, i ∈ im ↔ isC tol c i = true := by
      intro i; rw [him, complexCols_eq]; simp
    refine ⟨_, fun i => mask[im.idxOf i]?, g.vec, g.val, 1 - emin, rfl, h1, by rw [← hfe]; exact h2c, ?_, ?_, ?_, fun x i => rfl⟩
    · intro i hi
      have : i ∉ im := fun h => by rw [(hmem i).1 h] at hi; cases hi
      dsimp only
      rw [List.idxOf_eq_length this, ← hlen, List.getElem?_eq_none le_rfl]
    · intro i hi
      have hlt : im.idxOf i < im.length := List.idxOf_lt_length_iff.2 ((hmem i).2 hi)
      have hlt' : im.idxOf i < mask.length := by rw [hlen]; exact hlt
      have h4 : (mask.map g.val)[im.idxOf i]? = (im.map fun i => e i + (1 - emin))[im.idxOf i]? := by rw [hmask]
      rw [List.getElem?_map, List.getElem?_map, List.getElem?_eq_getElem hlt', List.getElem?_eq_getElem hlt, List.getElem_idxOf hlt] at h4
      have h5 : g.val mask[im.idxOf i] = e i + (1 - emin) := Option.some.inj h4
      exact ⟨mask[im.idxOf i], List.getElem?_eq_getElem hlt', h5, by rw [h5]; exact hone i hi⟩
    · intro i i' j h h'
      have hnd : mask.Nodup := (List.nodup_finRange _).filter _
      have hi : im.idxOf i < mask.length := (List.getElem?_eq_some_iff.1 h).1
      have hi' : im.idxOf i' < mask.length := (List.getElem?_eq_some_iff.1 h').1
      have h6 := (List.getElem?_eq_some_iff.1 h).2
      have h7 := (List.getElem?_eq_some_iff.1 h').2
      have h8 : im.idxOf i = im.idxOf i' := (List.Nodup.getElem_inj_iff hnd).1 (h6.trans h7.symm)
      have h9 : i ∈ im := List.idxOf_lt_length_iff.1 (by rw [← hlen]; exact hi)
      exact (List.idxOf_inj h9).1 h8

private theorem diag_ofReal {n : Type} [DecidableEq n] (w : n → ℝ) : asComplex (diagonal w) = diagonal fun j => (w j : ℂ) := by
  ext i j; by_cases hij : i = j
  · subst hij; simp [asComplex]
  · simp [asComplex, hij]

/-- The real orbitals are a unitary rotation of the complex ones, within degenerate subspaces. -/
private theorem rotation (eigh : Matrix α α ℝ → Matrix α α ℝ → GenEig α) (tol : ℝ) (ht : 0 ≤ tol) (hs : sᵀ = s) (hg : SolvesGenEigh eigh s)
    (hc : CleanImag tol c) (he : Monotone e) (ho : c.conjTranspose * asComplex s * c = 1) (F P : Matrix α α ℝ)
    (hF : asComplex F = asComplex s * c * (diagonal fun i => (e i : ℂ)) * c.conjTranspose * asComplex s)
    (hP : asComplex P = asComplex s * c * c.conjTranspose * asComplex s) :
    ∃ (d : Matrix α (Fin m) ℝ) (Y : Matrix (Fin m) (Fin m) ℂ), makeMoReal eigh tol s e c = .ok d ∧ asComplex d = c * Y ∧
      Y.conjTranspose * Y = 1 ∧ (∀ k i, (e k : ℂ) * Y k i = Y k i * e i) ∧ (∀ i, (∀ x, (c x i).im = 0) → ∀ x, (d x i : ℂ) = c x i) := by
  obtain ⟨d, J, v, w, shift, hok, hv, hev, hJ0, hJ1, hJi, hd⟩ := makeMoReal_columns eigh tol hs hg hc he ho F P hF hP
  have hsc : (asComplex s).conjTranspose = asComplex s := by rw [asComplex_conj, hs]
  have hvc : (asComplex v).conjTranspose * asComplex s * asComplex v = 1 := by
    rw [asComplex_conj, ← asComplex_mul, ← asComplex_mul, hv, asComplex_one]
  have hinv : asComplex v * ((asComplex v).conjTranspose * asComplex s) = 1 :=
    (mul_eq_one_comm_of_equiv (Fintype.equivFin α)).2 hvc
  set Z := c.conjTranspose * asComplex s * asComplex v with hZ
  have hev' : asComplex s * c * (diagonal fun i => (eps tol e c shift i : ℂ)) * Z = asComplex s * asComplex v * diagonal fun j => (w j : ℂ) := by
    rw [← hev, hZ]; simp only [Matrix.mul_assoc]
  -- eigenvalue relation in the orbital basis
  have hz1 : (diagonal fun i => (eps tol e c shift i : ℂ)) * Z = Z * diagonal fun j => (w j : ℂ) := by
    have := congrArg (fun a => c.conjTranspose * a) hev'
    calc _ = (c.conjTranspose * asComplex s * c) * ((diagonal fun i => (eps tol e c shift i : ℂ)) * Z) := by rw [ho, Matrix.one_mul]
      _ = c.conjTranspose * (asComplex s * c * (diagonal fun i => (eps tol e c shift i : ℂ)) * Z) := by simp only [Matrix.mul_assoc]
      _ = _ := by rw [this, hZ]; simp only [Matrix.mul_assoc]
  have hz1' : ∀ k j, (eps tol e c shift k : ℂ) * Z k j = Z k j * w j := by
    intro k j
    have := congrFun (congrFun hz1 k) j
    rwa [diagonal_mul, mul_diagonal] at this
  have hz2 : c * Z * (diagonal fun j => (w j : ℂ)) = asComplex v * diagonal fun j => (w j : ℂ) := by
    have h1 := congrArg (fun a => asComplex v * ((asComplex v).conjTranspose) * a) hev'
    rw [Matrix.mul_assoc c, ← hz1]
    calc c * ((diagonal fun i => (eps tol e c shift i : ℂ)) * Z)
        = (asComplex v * ((asComplex v).conjTranspose * asComplex s)) * (c * ((diagonal fun i => (eps tol e c shift i : ℂ)) * Z)) := by
          rw [hinv, Matrix.one_mul]
      _ = asComplex v * ((asComplex v).conjTranspose) * (asComplex s * c * (diagonal fun i => (eps tol e c shift i : ℂ)) * Z) := by
          simp only [Matrix.mul_assoc]
      _ = (asComplex v * ((asComplex v).conjTranspose * asComplex s)) * (asComplex v * diagonal fun j => (w j : ℂ)) := by
          rw [h1]; simp only [Matrix.mul_assoc]
      _ = _ := by rw [hinv, Matrix.one_mul]
  have hz2' : ∀ x j, 1 ≤ w j → (c * Z) x j = asComplex v x j := by
    intro x j hj
    have h := congrFun (congrFun hz2 x) j
    rw [mul_diagonal, mul_diagonal] at h
    have hne : (w j : ℂ) ≠ 0 := by
      have : w j ≠ 0 := by linarith
      exact_mod_cast this
    exact mul_right_cancel₀ hne h
  -- the rotation
  set Y : Matrix (Fin m) (Fin m) ℂ := of fun k i => (J i).elim (if k = i then 1 else 0) fun j => Z k j with hY
  have hYr : ∀ k i, isC tol c i = false → Y k i = if k = i then 1 else 0 := by
    intro k i hi; rw [hY, of_apply, hJ0 i hi]; rfl
  have hYc : ∀ k i j, J i = some j → Y k i = Z k j := by
    intro k i j hj; rw [hY, of_apply, hj]; rfl
  have hreal : ∀ i, isC tol c i = false ↔ ∀ x, (c x i).im = 0 := by
    intro i
    have h0 : isC tol c i = false ↔ ¬ (tol < Real.sqrt (∑ x, (c x i).im ^ 2)) := by
      rw [isC]; simp
    rw [h0, not_lt]
    refine ⟨hc i, fun h => ?_⟩
    simp only [h]
    simpa using ht
  refine ⟨d, Y, hok, ?_, ?_, ?_, ?_⟩
  · ext x i
    rw [asComplex, map_apply, hd]
    cases hi : isC tol c i
    · rw [hJ0 i hi, Matrix.mul_apply]
      simp only [hYr _ i hi, mul_ite, mul_one, mul_zero, Finset.sum_ite_eq', Finset.mem_univ, if_true, Option.elim]
      exact Complex.ext rfl ((hreal i).1 hi x).symm
    · obtain ⟨j, hj, _, hj1⟩ := hJ1 i hi
      have := hz2' x j hj1
      rw [Matrix.mul_apply] at this
      rw [hj, Matrix.mul_apply]
      simp only [hYc _ i j hj, Option.elim]
      rw [this, asComplex, map_apply]
  · ext i i'
    rw [Matrix.mul_apply, one_apply]
    simp only [conjTranspose_apply]
    cases hi : isC tol c i
    · simp only [hYr _ i hi]
      have e1 : ∀ k, star (if k = i then (1 : ℂ) else 0) * Y k i' = if k = i then Y k i' else 0 := by
        intro k; split <;> simp
      simp only [e1, Finset.sum_ite_eq', Finset.mem_univ, if_true]
      cases hi' : isC tol c i'
      · exact hYr i i' hi'
      · obtain ⟨j, hj, _, hj1⟩ := hJ1 i' hi'
        rw [hYc i i' j hj, if_neg (by rintro rfl; rw [hi] at hi'; cases hi')]
        have h := hz1' i j
        rw [eps, hi] at h
        simp only [Bool.false_eq_true, if_false, Complex.ofReal_zero, zero_mul] at h
        have hne : (w j : ℂ) ≠ 0 := by
          have : w j ≠ 0 := by linarith
          exact_mod_cast this
        exact (mul_eq_zero.1 h.symm).resolve_right hne
    · obtain ⟨j, hj, _, hj1⟩ := hJ1 i hi
      cases hi' : isC tol c i'
      · rw [if_neg (by rintro rfl; rw [hi] at hi'; cases hi')]
        simp only [hYr _ i' hi', mul_ite, mul_one, mul_zero, Finset.sum_ite_eq', Finset.mem_univ, if_true]
        rw [hYc i' i j hj]
        have h := hz1' i' j
        rw [eps, hi'] at h
        simp only [Bool.false_eq_true, if_false, Complex.ofReal_zero, zero_mul] at h
        have hne : (w j : ℂ) ≠ 0 := by
          have : w j ≠ 0 := by linarith
          exact_mod_cast this
        rw [(mul_eq_zero.1 h.symm).resolve_right hne, star_zero]
      · obtain ⟨j', hj', _, hj1'⟩ := hJ1 i' hi'
        simp only [hYc _ i j hj, hYc _ i' j' hj']
        have h1 : ∑ k, star (Z k j) * Z k j' = ((asComplex v).conjTranspose * asComplex s * (c * Z)) j j' := by
          have : (asComplex v).conjTranspose * asComplex s * (c * Z) = Z.conjTranspose * Z := by
            rw [hZ, conjTranspose_mul, conjTranspose_mul, conjTranspose_conjTranspose, hsc]
            simp only [Matrix.mul_assoc]
          rw [this, Matrix.mul_apply]; rfl
        have h2 : ((asComplex v).conjTranspose * asComplex s * (c * Z)) j j' = ((asComplex v).conjTranspose * asComplex s * asComplex v) j j' := by
          rw [Matrix.mul_apply, Matrix.mul_apply]
          exact Finset.sum_congr rfl fun x _ => by rw [hz2' x j' hj1']
        rw [h1, h2, hvc, one_apply]
        by_cases hii : i = i'
        · subst hii
          rw [hj] at hj'
          rw [if_pos rfl, if_pos (Option.some.inj hj')]
        · rw [if_neg hii, if_neg]
          rintro rfl
          exact hii (hJi i i' j hj hj')
  · intro k i
    cases hi : isC tol c i
    · rw [hYr k i hi]
      split
      · rename_i h; subst h; ring
      · ring
    · obtain ⟨j, hj, hwj, hj1⟩ := hJ1 i hi
      rw [hYc k i j hj]
      have h := hz1' k j
      rw [eps] at h
      cases hk : isC tol c k
      · rw [hk] at h
        simp only [Bool.false_eq_true, if_false, Complex.ofReal_zero, zero_mul] at h
        have hne : (w j : ℂ) ≠ 0 := by
          have : w j ≠ 0 := by linarith
          exact_mod_cast this
        rw [(mul_eq_zero.1 h.symm).resolve_right hne]; ring
      · rw [hk, hwj] at h
        simp only [if_true] at h
        push_cast at h
        linear_combination h
  · intro i hi x
    rw [hd, hJ0 i ((hreal i).2 hi)]
    exact Complex.ext rfl (hi x).symm

/-- Orbitals are made real without changing what they describe: the result is orthonormal, consists of eigenvectors of the Fock matrix for
the same energies in the same order, keeps real orbitals as they are, and gives the same density matrix for all occupations which only
depend on the energy. -/
theorem make_mo_real (eigh : Matrix α α ℝ → Matrix α α ℝ → GenEig α) (tol : ℝ) (ht : 0 ≤ tol) (hs : sᵀ = s) (hg : SolvesGenEigh eigh s)
    (hc : CleanImag tol c) (he : Monotone e) (ho : c.conjTranspose * asComplex s * c = 1) (F P : Matrix α α ℝ)
    (hF : asComplex F = asComplex s * c * (diagonal fun i => (e i : ℂ)) * c.conjTranspose * asComplex s)
    (hP : asComplex P = asComplex s * c * c.conjTranspose * asComplex s) :
    ∃ d : Matrix α (Fin m) ℝ, makeMoReal eigh tol s e c = .ok d ∧ dᵀ * s * d = 1 ∧ F * d = s * d * diagonal e ∧
      (∀ i, (∀ x, (c x i).im = 0) → ∀ x, (d x i : ℂ) = c x i) ∧
      ∀ occ : Fin m → ℝ, (∀ i j, e i = e j → occ i = occ j) → occDensity occ (asComplex d) = occDensity occ c := by
  obtain ⟨d, Y, hok, hd, hY, hcomm, hreal⟩ := rotation eigh tol ht hs hg hc he ho F P hF hP
  have hY' : Y * Y.conjTranspose = 1 := mul_eq_one_comm.1 hY
  refine ⟨d, hok, ?_, ?_, hreal, fun occ hocc => ?_⟩
  · apply asComplex_inj
    rw [asComplex_mul, asComplex_mul, ← asComplex_conj, asComplex_one, hd, conjTranspose_mul]
    calc _ = Y.conjTranspose * (c.conjTranspose * asComplex s * c) * Y := by simp only [Matrix.mul_assoc]
      _ = 1 := by rw [ho, Matrix.mul_one, hY]
  · apply asComplex_inj
    have h : (diagonal fun i => (e i : ℂ)) * Y = Y * diagonal fun i => (e i : ℂ) := by
      ext k i; rw [diagonal_mul, mul_diagonal]; exact hcomm k i
    rw [asComplex_mul, asComplex_mul, asComplex_mul, diag_ofReal, hd, hF]
    calc _ = asComplex s * c * (diagonal fun i => (e i : ℂ)) * (c.conjTranspose * asComplex s * c) * Y := by simp only [Matrix.mul_assoc]
      _ = asComplex s * c * ((diagonal fun i => (e i : ℂ)) * Y) := by rw [ho, Matrix.mul_one, Matrix.mul_assoc]
      _ = _ := by rw [h]; simp only [Matrix.mul_assoc]
  · have h : (diagonal fun i => (occ i : ℂ)) * Y = Y * diagonal fun i => (occ i : ℂ) := by
      ext k i; rw [diagonal_mul, mul_diagonal]
      by_cases hki : e k = e i
      · rw [hocc k i hki]; ring
      · have h1 := hcomm k i
        have h2 : ((e k : ℂ) - e i) * Y k i = 0 := by linear_combination h1
        have h3 : ((e k : ℂ) - e i) ≠ 0 := by
          rw [sub_ne_zero]; exact fun hh => hki (Complex.ofReal_injective hh)
        rw [(mul_eq_zero.1 h2).resolve_left h3]; ring
    rw [occDensity, occDensity, hd, conjTranspose_mul]
    calc _ = c * (Y * diagonal fun i => (occ i : ℂ)) * Y.conjTranspose * c.conjTranspose := by simp only [Matrix.mul_assoc]
      _ = c * (diagonal fun i => (occ i : ℂ)) * (Y * Y.conjTranspose) * c.conjTranspose := by rw [← h]; simp only [Matrix.mul_assoc]
      _ = _ := by rw [hY', Matrix.mul_one]

end Real

/-! ## Folding -/

section Folding
variable [DecidableEq κ] [DecidableEq ρ] [DecidableEq ι] {m : κ → Nat}

private theorem fold_apply {p : Matrix κ ρ ℂ} (hp : Unitary p) (ak : κ → Matrix ι ι ℂ) (c : (k : κ) → Matrix ι (Fin (m k)) ℂ) :
    k2bvk p ak * foldCoeff p c = foldCoeff p fun k => ak k * c k := by
  ext ⟨R, i⟩ ⟨k, q⟩
  rw [Matrix.mul_apply, Fintype.sum_prod_type]
  simp only [k2bvk, foldCoeff, of_apply, Finset.sum_mul]
  have hu : ∀ k', ∑ S, star (p k' S) * p k S = if k = k' then 1 else 0 := by
    intro k'
    have := congrFun (congrFun hp.1 k) k'
    rw [Matrix.mul_apply, Matrix.one_apply] at this
    rw [← this]
    exact Finset.sum_congr rfl fun S _ => mul_comm _ _
  calc _ = ∑ S, ∑ k', ∑ j, p k' R * ak k' i j * star (p k' S) * (p k S * c k j q) := Finset.sum_congr rfl fun S _ => Finset.sum_comm
    _ = ∑ k', ∑ S, ∑ j, p k' R * ak k' i j * star (p k' S) * (p k S * c k j q) := Finset.sum_comm
    _ = ∑ k', (∑ S, star (p k' S) * p k S) * (p k' R * ∑ j, ak k' i j * c k j q) := by
        refine Finset.sum_congr rfl fun k' _ => ?_
        rw [Finset.sum_mul]
        refine Finset.sum_congr rfl fun S _ => ?_
        rw [Finset.mul_sum, Finset.mul_sum]
        exact Finset.sum_congr rfl fun j _ => by ring
    _ = _ := by
        simp only [hu, ite_mul, one_mul, zero_mul, Finset.sum_ite_eq, Finset.mem_univ, if_true]
        rw [Matrix.mul_apply]

private theorem fold_gram {p : Matrix κ ρ ℂ} (hp : Unitary p) (b c : (k : κ) → Matrix ι (Fin (m k)) ℂ) (x y : (k : κ) × Fin (m k)) :
    ((foldCoeff p b).conjTranspose * foldCoeff p c) x y = if h : y.1 = x.1 then ((b x.1).conjTranspose * c x.1) x.2 (h ▸ y.2) else 0 := by
  obtain ⟨k, q⟩ := x
  obtain ⟨k', q'⟩ := y
  rw [Matrix.mul_apply, Fintype.sum_prod_type]
  simp only [conjTranspose_apply, foldCoeff, of_apply, star_mul']
  have hu : ∑ R, star (p k R) * p k' R = if k' = k then 1 else 0 := by
    have := congrFun (congrFun hp.1 k') k
    rw [Matrix.mul_apply, Matrix.one_apply] at this
    rw [← this]
    exact Finset.sum_congr rfl fun S _ => mul_comm _ _
  have e : ∑ R, ∑ i, star (p k R) * star (b k i q) * (p k' R * c k' i q') = (∑ R, star (p k R) * p k' R) * ∑ i, star (b k i q) * c k' i q' := by
    rw [Finset.sum_mul]
    refine Finset.sum_congr rfl fun R _ => ?_
    rw [Finset.mul_sum]
    exact Finset.sum_congr rfl fun i _ => by ring
  rw [e, hu]
  by_cases h : k' = k
  · subst h
    rw [if_pos rfl, dif_pos rfl, one_mul, Matrix.mul_apply]
    rfl
  · rw [if_neg h, dif_neg h, zero_mul]

/-- The folded orbitals are canonical orbitals of the supercell. -/
theorem fold_mos_canonical {p : Matrix κ ρ ℂ} (hp : Unitary p) (sk fk : κ → Matrix ι ι ℂ) (e : (k : κ) → Fin (m k) → ℝ)
    (c : (k : κ) → Matrix ι (Fin (m k)) ℂ) (h : ∀ k, Canonical (sk k) (fk k) (e k) (c k)) :
    Canonical (k2bvk p sk) (k2bvk p fk) (fun i : (k : κ) × Fin (m k) => e i.1 i.2) (foldCoeff p c) := by
  constructor
  · rw [Matrix.mul_assoc, fold_apply hp]
    ext ⟨k, q⟩ ⟨k', q'⟩
    rw [fold_gram hp, Matrix.one_apply]
    by_cases hk : k' = k
    · subst hk
      dsimp only
      rw [dif_pos rfl, ← Matrix.mul_assoc, (h k').orthonormal, Matrix.one_apply]
      by_cases hq : q = q'
      · rw [if_pos hq, if_pos (by rw [hq])]
      · rw [if_neg hq, if_neg]
        rintro ⟨⟩
        exact hq rfl
    · rw [dif_neg hk, if_neg]
      rintro ⟨⟩
      exact hk rfl
  · rw [fold_apply hp, fold_apply hp]
    ext ⟨R, i⟩ ⟨k, q⟩
    rw [mul_diagonal]
    simp only [foldCoeff, of_apply]
    rw [(h k).eigen, mul_diagonal]
    ring

/-- The density matrix of the folded orbitals is the folded density matrix. -/
theorem fold_mos_density (p : Matrix κ ρ ℂ) (occ : (k : κ) → Fin (m k) → ℝ) (c : (k : κ) → Matrix ι (Fin (m k)) ℂ) :
    occDensity (fun i : (k : κ) × Fin (m k) => occ i.1 i.2) (foldCoeff p c) = k2bvk p fun k => occDensity (occ k) (c k) := by
  ext ⟨R, i⟩ ⟨S, j⟩
  rw [occDensity, Matrix.mul_apply, Fintype.sum_sigma]
  simp only [k2bvk, of_apply]
  refine Finset.sum_congr rfl fun k _ => ?_
  rw [occDensity, Matrix.mul_apply, Finset.mul_sum, Finset.sum_mul]
  refine Finset.sum_congr rfl fun q _ => ?_
  rw [mul_diagonal, mul_diagonal, conjTranspose_apply, conjTranspose_apply]
  simp only [foldCoeff, of_apply, star_mul']
  ring

private theorem diag_reorder {n : Nat} {M : Type} [DecidableEq M] (v : M → ℝ) (r : Fin n ≃ M) :
    (diagonal fun i => (v (r i) : ℂ)) = (diagonal fun i => (v i : ℂ)).submatrix r r := by
  ext i j
  rw [submatrix_apply, diagonal_apply, diagonal_apply]
  simp only [r.injective.eq_iff]

private theorem canonical_reorder {n : Nat} {M : Type} [Fintype M] [DecidableEq M] {s f : Matrix α α ℂ} {e : M → ℝ} {c : Matrix α M ℂ}
    (h : Canonical s f e c) (r : Fin n ≃ M) : Canonical s f (fun i => e (r i)) (c.submatrix id r) := by
  constructor
  · have h1 := congrArg (fun a => a.submatrix r r) h.orthonormal
    rw [← Matrix.submatrix_mul_equiv _ _ _ (Equiv.refl α), ← Matrix.submatrix_mul_equiv _ _ _ (Equiv.refl α), Matrix.submatrix_one_equiv] at h1
    exact h1
  · have h1 := congrArg (fun a => a.submatrix id r) h.eigen
    rw [← Matrix.submatrix_mul_equiv _ _ _ (Equiv.refl α), ← Matrix.submatrix_mul_equiv _ _ _ r, ← Matrix.submatrix_mul_equiv _ _ _ (Equiv.refl α)] at h1
    rw [diag_reorder]
    exact h1

private theorem density_reorder {n : Nat} {M : Type} [Fintype M] [DecidableEq M] (occ : M → ℝ) (c : Matrix α M ℂ) (r : Fin n ≃ M) :
    occDensity (fun i => occ (r i)) (c.submatrix id r) = occDensity occ c := by
  rw [occDensity, occDensity, diag_reorder, Matrix.submatrix_mul_equiv, Matrix.conjTranspose_submatrix, Matrix.submatrix_mul_equiv, Matrix.submatrix_id_id]

/-- The orbitals of the folded mean-field: real canonical orbitals of the supercell Fock matrix, with the energies of all k-points in
ascending order, and the density matrix of the k-point calculation. No error is raised. -/
theorem fold_mos_correct {nmo : Nat} (eigh : Matrix (ρ × ι) (ρ × ι) ℝ → Matrix (ρ × ι) (ρ × ι) ℝ → GenEig (ρ × ι)) (tol : ℝ) (ht : 0 ≤ tol)
    {p : Matrix κ ρ ℂ} (hp : Unitary p) (sk fk : κ → Matrix ι ι ℂ) (e occ : (k : κ) → Fin (m k) → ℝ)
    (c : (k : κ) → Matrix ι (Fin (m k)) ℂ) (h : ∀ k, Canonical (sk k) (fk k) (e k) (c k)) (hk : ∀ k, m k = Fintype.card ι)
    (hh : ∀ k, (sk k).conjTranspose = sk k) (s f : Matrix (ρ × ι) (ρ × ι) ℝ) (hs : asComplex s = k2bvk p sk) (hf : asComplex f = k2bvk p fk)
    (hg : SolvesGenEigh eigh s) (reorder : Fin nmo ≃ (k : κ) × Fin (m k))
    (he : Monotone fun i => e (reorder i).1 (reorder i).2) (hc : CleanImag tol ((foldCoeff p c).submatrix id reorder)) :
    ∃ d : Matrix (ρ × ι) (Fin nmo) ℝ,
      foldMos eigh tol p s e occ c reorder = .ok (fun i => e (reorder i).1 (reorder i).2, d, fun i => occ (reorder i).1 (reorder i).2) ∧
      dᵀ * s * d = 1 ∧ f * d = s * d * (diagonal fun i => e (reorder i).1 (reorder i).2) ∧
      ((∀ k i l j, e k i = e l j → occ k i = occ l j) →
        occDensity (fun i => occ (reorder i).1 (reorder i).2) (asComplex d) = k2bvk p fun k => occDensity (occ k) (c k)) := by
  have hcan := canonical_reorder (fold_mos_canonical hp sk fk e c h) reorder
  set C := (foldCoeff p c).submatrix id reorder with hC
  have hsym : sᵀ = s := by
    apply asComplex_inj
    rw [← asComplex_conj, hs, fold_conj]
    congr 1; funext k; exact hh k
  rw [← hs, ← hf] at hcan
  -- completeness
  have hcard : Fintype.card (ρ × ι) = nmo := by
    have h1 : Fintype.card ((k : κ) × Fin (m k)) = nmo := by rw [← Fintype.card_congr reorder, Fintype.card_fin]
    have h2 : Fintype.card κ = Fintype.card ρ := by
      have := (p : Matrix κ ρ ℂ)
      apply le_antisymm
      · by_contra hlt
        have h3 := Matrix.rank_mul_le_left p p.conjTranspose
        rw [hp.1, Matrix.rank_one] at h3
        exact hlt (h3.trans (Matrix.rank_le_card_width p))
      · by_contra hlt
        have h3 := Matrix.rank_mul_le_left p.conjTranspose p
        rw [hp.2, Matrix.rank_one] at h3
        exact hlt (h3.trans (Matrix.rank_le_card_width p.conjTranspose))
    rw [← h1, Fintype.card_sigma, Fintype.card_prod]
    simp only [Fintype.card_fin, hk]
    rw [Finset.sum_const, Finset.card_univ, smul_eq_mul, h2]
  have hcomp : C * (C.conjTranspose * asComplex s) = 1 :=
    (mul_eq_one_comm_of_equiv (Fintype.equivFinOfCardEq hcard)).2 hcan.orthonormal
  have hP : asComplex s = asComplex s * C * C.conjTranspose * asComplex s := by
    conv_lhs => rw [← Matrix.mul_one (asComplex s), ← hcomp]
    simp only [Matrix.mul_assoc]
  have hF : asComplex f = asComplex s * C * (diagonal fun i => ((e (reorder i).1 (reorder i).2 : ℝ) : ℂ)) * C.conjTranspose * asComplex s := by
    conv_lhs => rw [← Matrix.mul_one (asComplex f), ← hcomp]
    rw [← Matrix.mul_assoc, hcan.eigen]
    simp only [Matrix.mul_assoc]
  obtain ⟨d, hok, ho, hfd, _, hocc⟩ := make_mo_real eigh tol ht hsym hg hc he hcan.orthonormal f s hF hP
  refine ⟨d, ?_, ho, hfd, fun ho' => ?_⟩
  · rw [foldMos, ← hC, hok]
    show (if _ then _ else _) = _
    rw [if_neg]
    rintro ⟨i, j, hij⟩
    rw [ho, sub_self, Matrix.zero_apply, abs_zero] at hij
    norm_num at hij
  · rw [hocc _ fun i j hij => ho' _ _ _ _ hij, ← fold_mos_density, hC]
    exact density_reorder (fun i : (k : κ) × Fin (m k) => occ i.1 i.2) (foldCoeff p c) reorder

end Folding

/-! ## Examples -/

/-- The generalised eigenvalue problem has a solution for the overlap matrix of linearly independent orbitals: `s = bᵀ b` with `b`
invertible. -/
theorem genEigh_exists (s b b' : Matrix α α ℝ) (hs : s = bᵀ * b) (hb : b * b' = 1) :
    ∃ eigh : Matrix α α ℝ → Matrix α α ℝ → GenEig α, SolvesGenEigh eigh s := by
  let q := Fintype.equivFin α
  let std : Matrix α α ℝ → Matrix (Fin (Fintype.card α)) (Fin (Fintype.card α)) ℝ := fun f => (b'ᵀ * f * b').submatrix q.symm q.symm
  refine ⟨fun f _ => ⟨(sortedEigh _ (std f)).val, b' * (sortedEigh _ (std f)).vec.submatrix q id⟩, fun f hf => ?_⟩
  have hsym : (std f)ᵀ = std f := by
    simp only [std, transpose_submatrix, transpose_mul, transpose_transpose, hf, Matrix.mul_assoc]
  obtain ⟨h1, h2⟩ := sortedEigh_solves _ (std f) hsym
  have hb' : b' * b = 1 := mul_eq_one_comm.1 hb
  have hbt : bᵀ * b'ᵀ = 1 := by rw [← transpose_mul, hb', transpose_one]
  have hbt' : b'ᵀ * bᵀ = 1 := by rw [← transpose_mul, hb, transpose_one]
  set g := sortedEigh (Fintype.card α) (std f) with hg
  refine ⟨?_, ?_, fun i j hij => sortedEigh_ascending _ _ i j hij⟩
  · change (b' * g.vec.submatrix q id)ᵀ * s * (b' * g.vec.submatrix q id) = 1
    rw [hs, transpose_mul]
    calc _ = (g.vec.submatrix q id)ᵀ * ((b'ᵀ * bᵀ) * (b * b')) * g.vec.submatrix q id := by simp only [Matrix.mul_assoc]
      _ = (g.vec.submatrix q id)ᵀ * g.vec.submatrix q id := by rw [hb, hbt', Matrix.mul_one, Matrix.mul_one]
      _ = g.vecᵀ * g.vec := by
          rw [transpose_submatrix, submatrix_mul_equiv, submatrix_id_id]
      _ = 1 := h1
  · change f * (b' * g.vec.submatrix q id) = s * (b' * g.vec.submatrix q id) * diagonal g.val
    have h3 : b'ᵀ * f * b' * g.vec.submatrix q id = g.vec.submatrix q id * diagonal g.val := by
      have e1 : (b'ᵀ * f * b') = (std f).submatrix q q := by
        simp only [std, submatrix_submatrix]
        rw [show q.symm ∘ q = id from funext q.symm_apply_apply, submatrix_id_id]
      have e2 : diagonal g.val = (diagonal g.val).submatrix id id := (submatrix_id_id _).symm
      rw [e1, submatrix_mul_equiv, h2]
      conv_rhs => rw [e2]
      ext x j
      rw [submatrix_apply, mul_diagonal, submatrix_id_id, mul_diagonal, submatrix_apply]
      rfl
    rw [hs]
    calc f * (b' * g.vec.submatrix q id) = (bᵀ * b'ᵀ) * (f * (b' * g.vec.submatrix q id)) := by rw [hbt, Matrix.one_mul]
      _ = bᵀ * (b'ᵀ * f * b' * g.vec.submatrix q id) := by simp only [Matrix.mul_assoc]
      _ = bᵀ * (g.vec.submatrix q id * diagonal g.val) := by rw [h3]
      _ = bᵀ * ((b * b') * g.vec.submatrix q id * diagonal g.val) := by rw [hb, Matrix.one_mul]
      _ = _ := by simp only [Matrix.mul_assoc]

/-- Two degenerate complex orbitals. -/
noncomputable def demoC : Matrix (Fin 2) (Fin 2) ℂ := !![3 / 5, 4 / 5; 4 / 5 * I, -(3 / 5 * I)]

private theorem demoC_orth : demoC.conjTranspose * asComplex (1 : Matrix (Fin 2) (Fin 2) ℝ) * demoC = 1 := by
  have h3 : (starRingEnd ℂ) 3 = 3 := Complex.conj_ofReal 3
  have h4 : (starRingEnd ℂ) 4 = 4 := Complex.conj_ofReal 4
  have h5 : (starRingEnd ℂ) 5 = 5 := Complex.conj_ofReal 5
  rw [asComplex_one, Matrix.mul_one]
  ext i j
  fin_cases i <;> fin_cases j <;>
    simp [demoC, Matrix.mul_apply, Fin.sum_univ_two, conjTranspose_apply, h3, h4, h5] <;> ring_nf <;> simp [Complex.I_sq] <;> norm_num

private theorem demoC_comp : demoC * demoC.conjTranspose = 1 := by
  have := demoC_orth
  rw [asComplex_one, Matrix.mul_one] at this
  exact mul_eq_one_comm.1 this

/-- The hypotheses of `make_mo_real` are met by complex orbitals. -/
private theorem demoC_real (eigh : Matrix (Fin 2) (Fin 2) ℝ → Matrix (Fin 2) (Fin 2) ℝ → GenEig (Fin 2)) (hg : SolvesGenEigh eigh 1) :
    ∃ d : Matrix (Fin 2) (Fin 2) ℝ, makeMoReal eigh 0 1 (fun _ => 0) demoC = .ok d ∧ dᵀ * 1 * d = 1 ∧
      ∀ occ : Fin 2 → ℝ, (∀ i j, occ i = occ j) → occDensity occ (asComplex d) = occDensity occ demoC := by
  have hz : (diagonal fun _ : Fin 2 => ((0 : ℝ) : ℂ)) = 0 := by ext i j; simp [diagonal_apply]
  have h0 : asComplex (0 : Matrix (Fin 2) (Fin 2) ℝ) = 0 := by ext i j; simp [asComplex]
  obtain ⟨d, h1, h2, _, _, h3⟩ := make_mo_real (c := demoC) (e := fun _ => 0) eigh 0 le_rfl (by simp) hg (fun i hi x => by
      have h1 : ∑ x, (demoC x i).im ^ 2 ≤ 0 := by
        by_contra hne
        exact absurd hi (not_le.2 (Real.sqrt_pos.2 (not_le.1 hne)))
      have h2 := (Finset.sum_eq_zero_iff_of_nonneg (fun x _ => sq_nonneg (demoC x i).im)).1
        (le_antisymm h1 (Finset.sum_nonneg fun x _ => sq_nonneg _)) x (Finset.mem_univ x)
      exact pow_eq_zero_iff (by norm_num) |>.1 h2)
    (fun _ _ _ => le_rfl) demoC_orth 0 1 (by rw [hz, h0]; simp) (by
      rw [asComplex_one, Matrix.one_mul, Matrix.mul_one, demoC_comp])
  exact ⟨d, h1, h2, fun occ ho => h3 occ fun i j _ => ho i j⟩

/-- Occupations have to be determined by the energies: if only one of two degenerate complex orbitals is occupied, the density matrix is
not kept. -/
theorem make_mo_real_degenerate (eigh : Matrix (Fin 2) (Fin 2) ℝ → Matrix (Fin 2) (Fin 2) ℝ → GenEig (Fin 2)) (hg : SolvesGenEigh eigh 1) :
    ∃ d : Matrix (Fin 2) (Fin 2) ℝ, makeMoReal eigh 0 1 (fun _ => 0) demoC = .ok d ∧
      occDensity ![2, 0] (asComplex d) ≠ occDensity ![2, 0] demoC := by
  obtain ⟨d, hd, _⟩ := demoC_real eigh hg
  refine ⟨d, hd, fun h => ?_⟩
  have h1 := congrArg Complex.im (congrFun (congrFun h 0) 1)
  have h6 : ∀ c : Matrix (Fin 2) (Fin 2) ℂ, occDensity ![2, 0] c 0 1 = c 0 0 * 2 * star (c 1 0) := by
    intro c
    rw [occDensity, Matrix.mul_apply, Fin.sum_univ_two, mul_diagonal, mul_diagonal, conjTranspose_apply, conjTranspose_apply]
    simp
  rw [h6, h6] at h1
  simp [asComplex, demoC] at h1

example : ∃ eigh, SolvesGenEigh eigh (1 : Matrix (Fin 2) (Fin 2) ℝ) := genEigh_exists 1 1 1 (by simp) (by simp)

private theorem clean_zero {m : Nat} (c : Matrix α (Fin m) ℂ) : CleanImag 0 c := by
  intro i hi x
  have h1 : ∑ x, (c x i).im ^ 2 ≤ 0 := by
    by_contra hne
    exact absurd hi (not_le.2 (Real.sqrt_pos.2 (not_le.1 hne)))
  have h2 := (Finset.sum_eq_zero_iff_of_nonneg (fun x _ => sq_nonneg (c x i).im)).1
    (le_antisymm h1 (Finset.sum_nonneg fun x _ => sq_nonneg _)) x (Finset.mem_univ x)
  exact pow_eq_zero_iff (by norm_num) |>.1 h2

/-- The hypotheses of `fold_mos_correct` are met for every mesh by a flat band. -/
example [DecidableEq κ] {a : Fin 3 → Fin 3 → ℝ} {kpts : κ → Fin 3 → ℝ} {n : Fin 3 → Nat} {s : Fin 3 → ℝ} (hm : IsMesh a kpts n s) :
    ∃ (eigh : Matrix (Cells n × Fin 1) (Cells n × Fin 1) ℝ → Matrix (Cells n × Fin 1) (Cells n × Fin 1) ℝ → GenEig (Cells n × Fin 1))
      (nmo : Nat) (r : Fin nmo ≃ (_ : κ) × Fin 1) (d : Matrix (Cells n × Fin 1) (Fin nmo) ℝ),
      foldMos eigh 0 (phase a n kpts) 1 (fun _ _ => 1) (fun _ _ => 2) (fun _ => 1) r = .ok (fun _ => 1, d, fun _ => 2)
        ∧ dᵀ * (1 : Matrix (Cells n × Fin 1) (Cells n × Fin 1) ℝ) * d = 1 := by
  obtain ⟨eigh, hg⟩ := genEigh_exists (1 : Matrix (Cells n × Fin 1) (Cells n × Fin 1) ℝ) 1 1 (by simp) (by simp)
  have hp := fold_phase_unitary hm
  have hone : asComplex (1 : Matrix (Cells n × Fin 1) (Cells n × Fin 1) ℝ) = k2bvk (phase a n kpts) fun _ => 1 := by
    rw [asComplex_one, fold_one hp]
  obtain ⟨d, h1, h2, _⟩ := fold_mos_correct (m := fun _ => 1) eigh 0 le_rfl hp (fun _ => 1) (fun _ => 1) (fun _ _ => 1) (fun _ _ => 2)
    (fun _ => 1) (fun k => ⟨by simp, by simp⟩) (fun _ => rfl) (fun _ => by simp) 1 1 hone hone hg (Fintype.equivFin ((_ : κ) × Fin 1)).symm
    (fun _ _ _ => le_rfl) (clean_zero _)
  exact ⟨eigh, _, _, d, h1, h2⟩

end Vayesta.Props
