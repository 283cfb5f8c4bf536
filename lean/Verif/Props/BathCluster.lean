import Verif.Props.Svd
import Verif.Props.Bno
import Verif.Model.BathCluster
import Mathlib.LinearAlgebra.Span.Basic
import Mathlib.LinearAlgebra.Matrix.Notation
import Mathlib.Algebra.BigOperators.Fin
import Mathlib.Tactic.Linarith

/-! Construction of bath and cluster orbitals. -/

namespace Vayesta.Props

open Vayesta.Lowdin Vayesta.ActSpace Vayesta.BathCluster Matrix

variable {K : Type} [Field K] [LinearOrder K] {a : Nat}

/-- Orbitals `c` are orthonormal with respect to the overlap matrix `s`. -/
def OrthonormalOrbs (s : Matrix (Fin a) (Fin a) K) (c : List (Col a K)) : Prop :=
  ∀ i j : Fin c.length, c.get i ⬝ᵥ (s *ᵥ c.get j) = if i = j then 1 else 0

/-- The space of orbitals `c`. -/
def spaceOf (c : List (Col a K)) : Submodule K (Col a K) := Submodule.span K {v | v ∈ c}

omit [LinearOrder K] in
private theorem ortho_append_iff (s : Matrix (Fin a) (Fin a) K) (c d : List (Col a K)) : OrthonormalOrbs s (c ++ d) ↔
    OrthonormalOrbs s c ∧ OrthonormalOrbs s d ∧ ∀ u ∈ c, ∀ v ∈ d, u ⬝ᵥ (s *ᵥ v) = 0 ∧ v ⬝ᵥ (s *ᵥ u) = 0 := by
  have e : ∀ l : List (Col a K), OrthonormalOrbs s l ↔
      ∀ (i j : Nat) (hi : i < l.length) (hj : j < l.length), l[i] ⬝ᵥ (s *ᵥ l[j]) = if i = j then 1 else 0 := by
    intro l
    unfold OrthonormalOrbs
    constructor
    · intro h i j hi hj
      have := h ⟨i, hi⟩ ⟨j, hj⟩
      simpa [Fin.mk.injEq] using this
    · intro h i j
      have := h i.1 j.1 i.2 j.2
      rw [List.get_eq_getElem, List.get_eq_getElem, this]
      simp only [Fin.ext_iff]
  rw [e, e, e]
  constructor
  · intro h
    refine ⟨fun i j hi hj => ?_, fun i j hi hj => ?_, fun u hu v hv => ?_⟩
    · have := h i j (by simp; omega) (by simp; omega)
      rwa [List.getElem_append_left hi, List.getElem_append_left hj] at this
    · have := h (c.length + i) (c.length + j) (by simp; omega) (by simp; omega)
      rw [List.getElem_append_right (by omega), List.getElem_append_right (by omega)] at this
      simpa using this
    · obtain ⟨i, hi, rfl⟩ := List.getElem_of_mem hu
      obtain ⟨j, hj, rfl⟩ := List.getElem_of_mem hv
      have h1 := h i (c.length + j) (by simp; omega) (by simp; omega)
      have h2 := h (c.length + j) i (by simp; omega) (by simp; omega)
      rw [List.getElem_append_left hi, List.getElem_append_right (by omega), if_neg (by omega)] at h1
      rw [List.getElem_append_right (by omega), List.getElem_append_left hi, if_neg (by omega)] at h2
      simp only [Nat.add_sub_cancel_left] at h1 h2
      exact ⟨h1, h2⟩
  · rintro ⟨h1, h2, h3⟩ i j hi hj
    simp only [List.length_append] at hi hj
    by_cases hi' : i < c.length <;> by_cases hj' : j < c.length
    · rw [List.getElem_append_left hi', List.getElem_append_left hj', h1]
    · rw [List.getElem_append_left hi', List.getElem_append_right (by omega), if_neg (by omega)]
      exact (h3 _ (List.getElem_mem _) _ (List.getElem_mem _)).1
    · rw [List.getElem_append_right (by omega), List.getElem_append_left hj', if_neg (by omega)]
      exact (h3 _ (List.getElem_mem _) _ (List.getElem_mem _)).2
    · rw [List.getElem_append_right (by omega), List.getElem_append_right (by omega), h2 _ _ (by omega) (by omega)]
      simp only [show (i - c.length = j - c.length) ↔ i = j by omega]

omit [LinearOrder K] in
private theorem dot_rot {n p : Nat} (s : Matrix (Fin a) (Fin a) K) (c : Fin n → Col a K) (d : Fin p → Col a K) (x : Fin n → K) (y : Fin p → K) :
    (∑ i, x i • c i) ⬝ᵥ (s *ᵥ ∑ j, y j • d j) = ∑ i, ∑ j, x i * y j * (c i ⬝ᵥ (s *ᵥ d j)) := by
  have e : s *ᵥ (∑ j, y j • d j) = ∑ j, y j • (s *ᵥ d j) := by
    simp only [mulVec_sum, mulVec_smul]
  rw [e, sum_dotProduct]
  refine Finset.sum_congr rfl fun i _ => ?_
  rw [dotProduct_sum]
  refine Finset.sum_congr rfl fun j _ => ?_
  rw [smul_dotProduct, dotProduct_smul, smul_eq_mul, smul_eq_mul]; ring

/-- `d` can replace `c` in any set of orbitals. -/
private def Rel (c d : List (Col a K)) : Prop :=
  (∀ s pre post, OrthonormalOrbs s (pre ++ c ++ post) → OrthonormalOrbs s (pre ++ d ++ post)) ∧ spaceOf d = spaceOf c ∧ d.length = c.length

omit [LinearOrder K] in
private theorem Rel.refl (c : List (Col a K)) : Rel c c := ⟨fun _ _ _ h => h, rfl, rfl⟩

omit [LinearOrder K] in
private theorem Rel.trans {c d e : List (Col a K)} (h : Rel c d) (h' : Rel d e) : Rel c e :=
  ⟨fun s p q x => h'.1 s p q (h.1 s p q x), h'.2.1.trans h.2.1, h'.2.2.trans h.2.2⟩

omit [LinearOrder K] in
private theorem space_append (c d : List (Col a K)) : spaceOf (c ++ d) = spaceOf c ⊔ spaceOf d := by
  unfold spaceOf
  rw [← Submodule.span_union]
  congr 1
  ext v
  simp

omit [LinearOrder K] in
private theorem Rel.append {c d c' d' : List (Col a K)} (h : Rel c d) (h' : Rel c' d') : Rel (c ++ c') (d ++ d') := by
  refine ⟨fun s p q x => ?_, ?_, ?_⟩
  · have x1 := h.1 s p (c' ++ q) (by simpa using x)
    have x2 := h'.1 s (p ++ d) q (by simpa using x1)
    simpa using x2
  · rw [space_append, space_append, h.2.1, h'.2.1]
  · simp [h.2.2, h'.2.2]

omit [LinearOrder K] in
private theorem Rel.ortho {c d : List (Col a K)} (h : Rel c d) (s : Matrix (Fin a) (Fin a) K) (x : OrthonormalOrbs s c) : OrthonormalOrbs s d := by
  have := h.1 s [] [] (by simpa using x)
  simpa using this

omit [LinearOrder K] in
private theorem ortho_ofFn {n : Nat} (s : Matrix (Fin a) (Fin a) K) (c : Fin n → Col a K) :
    OrthonormalOrbs s (List.ofFn c) ↔ ∀ i j, c i ⬝ᵥ (s *ᵥ c j) = if i = j then 1 else 0 := by
  unfold OrthonormalOrbs
  constructor
  · intro h i j
    have := h (i.cast (by simp)) (j.cast (by simp))
    rw [List.get_ofFn, List.get_ofFn] at this
    simpa [Fin.ext_iff] using this
  · intro h i j
    rw [List.get_ofFn, List.get_ofFn, h]
    simp [Fin.ext_iff]

omit [LinearOrder K] in
private theorem rel_rot {n : Nat} (c : Fin n → Col a K) (r : Matrix (Fin n) (Fin n) K) (hr : rᵀ * r = 1) : Rel (List.ofFn c) (List.ofFn (rot c r)) := by
  have hr' : r * rᵀ = 1 := mul_eq_one_comm.mp hr
  have hk : ∀ k l, ∑ i, r i k * r i l = if k = l then 1 else 0 := by
    intro k l
    have := congrFun (congrFun hr k) l
    rwa [Matrix.mul_apply, one_apply] at this
  have hinv : ∀ i, c i = ∑ k, r i k • rot c r k := by
    intro i
    have h1 : ∀ j, ∑ k, r i k * r j k = if i = j then 1 else 0 := by
      intro j
      have := congrFun (congrFun hr' i) j
      rwa [Matrix.mul_apply, one_apply] at this
    unfold rot
    simp only [Finset.smul_sum, smul_smul]
    rw [Finset.sum_comm]
    simp only [← Finset.sum_smul, h1, ite_smul, one_smul, zero_smul]
    simp
  refine ⟨fun s p q h => ?_, ?_, by simp⟩
  · rw [List.append_assoc, ortho_append_iff, ortho_append_iff] at h ⊢
    obtain ⟨h1, ⟨h2, h3, h4⟩, h5⟩ := h
    have hz : ∀ k u, (∀ v ∈ List.ofFn c, u ⬝ᵥ (s *ᵥ v) = 0 ∧ v ⬝ᵥ (s *ᵥ u) = 0) → u ⬝ᵥ (s *ᵥ rot c r k) = 0 ∧ rot c r k ⬝ᵥ (s *ᵥ u) = 0 := by
      intro k u hu
      have hu' : ∀ i, u ⬝ᵥ (s *ᵥ c i) = 0 ∧ c i ⬝ᵥ (s *ᵥ u) = 0 := fun i => hu _ (List.mem_ofFn.mpr ⟨i, rfl⟩)
      constructor
      · have := dot_rot s (fun _ : Fin 1 => u) c (fun _ => 1) (fun i => r i k)
        simp only [Finset.univ_unique, Finset.sum_singleton, one_smul, one_mul] at this
        unfold rot
        rw [this]
        exact Finset.sum_eq_zero fun i _ => by rw [(hu' i).1, mul_zero]
      · have := dot_rot s c (fun _ : Fin 1 => u) (fun i => r i k) (fun _ => 1)
        simp only [Finset.univ_unique, Finset.sum_singleton, one_smul, mul_one] at this
        unfold rot
        rw [this]
        exact Finset.sum_eq_zero fun i _ => by rw [(hu' i).2, mul_zero]
    refine ⟨h1, ⟨?_, h3, ?_⟩, ?_⟩
    · rw [ortho_ofFn] at h2 ⊢
      intro k l
      unfold rot
      rw [dot_rot]
      simp only [h2, mul_ite, mul_one, mul_zero, Finset.sum_ite_eq, Finset.mem_univ, if_true]
      exact hk k l
    · intro u hu v hv
      obtain ⟨k, rfl⟩ := List.mem_ofFn.mp hu
      have := hz k v fun w hw => ⟨(h4 w hw v hv).2, (h4 w hw v hv).1⟩
      exact ⟨this.2, this.1⟩
    · intro u hu v hv
      rcases List.mem_append.mp hv with hv | hv
      · obtain ⟨k, rfl⟩ := List.mem_ofFn.mp hv
        exact hz k u fun w hw => h5 u hu w (List.mem_append_left _ hw)
      · exact h5 u hu v (List.mem_append_right _ hv)
  · unfold spaceOf
    apply le_antisymm
    · refine Submodule.span_le.mpr fun v hv => ?_
      obtain ⟨k, rfl⟩ := List.mem_ofFn.mp hv
      exact Submodule.sum_mem _ fun i _ => Submodule.smul_mem _ _ (Submodule.subset_span (List.mem_ofFn.mpr ⟨i, rfl⟩))
    · refine Submodule.span_le.mpr fun v hv => ?_
      obtain ⟨i, rfl⟩ := List.mem_ofFn.mp hv
      rw [hinv i]
      exact Submodule.sum_mem _ fun k _ => Submodule.smul_mem _ _ (Submodule.subset_span (List.mem_ofFn.mpr ⟨k, rfl⟩))

omit [LinearOrder K] in
private theorem rel_rotate (c : List (Col a K)) (r : Matrix (Fin c.length) (Fin c.length) K) (hr : rᵀ * r = 1) : Rel c (rotate c r) := by
  have := rel_rot c.get r hr
  rwa [List.ofFn_get] at this

private theorem fixCol_sign (v : Col a K) : ∃ e : K, e * e = 1 ∧ fixCol v = e • v := by
  refine ⟨_, ?_, rfl⟩
  unfold colSign; split <;> ring

private theorem rel_fixCol (c : List (Col a K)) : Rel c (c.map fixCol) := by
  choose f hf hf' using fun v : Col a K => fixCol_sign v
  have e : c.map fixCol = rotate c (diagonal fun k => f (c.get k)) := by
    unfold rotate rot
    rw [← List.ofFn_get (c.map fixCol)]
    apply List.ext_getElem (by simp)
    intro n h1 h2
    simp only [List.getElem_ofFn, List.get_eq_getElem, List.getElem_map]
    rw [hf']
    rw [Finset.sum_eq_single ⟨n, by simpa using h1⟩]
    · simp
    · intro j _ hj
      rw [diagonal_apply_ne _ (by simpa [Fin.ext_iff] using hj), zero_smul]
    · simp
  rw [e]
  apply rel_rotate
  rw [diagonal_transpose, diagonal_mul_diagonal]
  simp only [hf]
  exact diagonal_one

/-- Sum of the squared couplings of an orbital `v` with orbitals `us` in the matrix `m`. -/
def couplingSq (m : Matrix (Fin a) (Fin a) K) (us : List (Col a K)) (v : Col a K) : K := (us.map fun u => (u ⬝ᵥ (m *ᵥ v)) ^ 2).sum

/-- Orbitals of order `k`; those of order zero are the fragment orbitals. -/
def ofOrder (frag : List (Col a K)) (l : List (Coupled a K)) (k : Nat) : List (Col a K) :=
  if k = 0 then frag else (l.filter fun x => x.order == some k).map Coupled.col

private def UnitComb {n : Nat} (c : Fin n → Col a K) (y : Fin n → K) (v : Col a K) : Prop := ∑ i, y i * y i = 1 ∧ v = ∑ i, y i • c i

omit [LinearOrder K] in
private theorem unit_rot {n : Nat} (c : Fin n → Col a K) (r : Matrix (Fin n) (Fin n) K) (hr : rᵀ * r = 1) (y : Fin n → K) (v : Col a K)
    (h : UnitComb (rot c r) y v) : UnitComb c (r *ᵥ y) v := by
  obtain ⟨h1, h2⟩ := h
  constructor
  · have e : ∑ i, (r *ᵥ y) i * (r *ᵥ y) i = (r *ᵥ y) ⬝ᵥ (r *ᵥ y) := rfl
    rw [e, dotProduct_mulVec, vecMul_mulVec, hr, vecMul_one]
    exact h1
  · rw [h2]
    unfold rot
    simp only [Finset.smul_sum, smul_smul]
    rw [Finset.sum_comm]
    refine Finset.sum_congr rfl fun i _ => ?_
    rw [← Finset.sum_smul]
    congr 1
    exact Finset.sum_congr rfl fun k _ => mul_comm _ _

omit [LinearOrder K] in
private theorem unit_after {q n : Nat} (c : Fin q → Col a K) (y : Fin (q - n) → K) (v : Col a K) (h : UnitComb (after n c) y v) :
    ∃ z : Fin q → K, UnitComb c z v ∧ ∀ k, k.1 < n → z k = 0 := by
  refine ⟨fun k => if h : n ≤ k.1 then y ⟨k.1 - n, by omega⟩ else 0, ⟨?_, ?_⟩, fun k hk => by simp only; rw [dif_neg (by omega)]⟩
  · rw [← h.1]
    symm
    apply Fintype.sum_of_injective (fun i : Fin (q - n) => (⟨n + i.1, by omega⟩ : Fin q))
    · intro i j hij
      simpa [Fin.ext_iff] using hij
    · intro k hk
      beta_reduce
      rw [dif_neg, mul_zero]
      intro hn
      exact hk ⟨⟨k.1 - n, by omega⟩, by simp [Fin.ext_iff]; omega⟩
    · intro i
      simp
  · rw [h.2]
    apply Fintype.sum_of_injective (fun i : Fin (q - n) => (⟨n + i.1, by omega⟩ : Fin q))
    · intro i j hij
      simpa [Fin.ext_iff] using hij
    · intro k hk
      beta_reduce
      rw [dif_neg, zero_smul]
      intro hn
      exact hk ⟨⟨k.1 - n, by omega⟩, by simp [Fin.ext_iff]; omega⟩
    · intro i
      simp [after]

omit [LinearOrder K] in
private theorem unit_self {n : Nat} (c : Fin n → Col a K) (k : Fin n) : UnitComb c (fun i => if i = k then 1 else 0) (c k) := by
  constructor <;> simp

omit [LinearOrder K] in
private theorem ofFn_split {q : Nat} (n : Nat) (c : Fin q → Col a K) : List.ofFn c = List.ofFn (first n c) ++ List.ofFn (after n c) := by
  apply List.ext_getElem
  · simp; omega
  · intro i h1 h2
    simp only [List.length_ofFn] at h1
    by_cases h : i < n
    · rw [List.getElem_append_left (by simp; omega)]
      simp [first]
    · rw [List.getElem_append_right (by simp; omega)]
      simp only [List.getElem_ofFn, List.length_ofFn, after]
      congr 1
      ext
      simp only
      omega

private theorem blockSvd_rel (svd : (p q : Nat) → Matrix (Fin p) (Fin q) K → Svd p q K) (hs : SolvesSvd svd) (tol : K)
    (m : Matrix (Fin a) (Fin a) K) (fuel : Nat) : ∀ (order : Nat) (p q : Nat) (low : Fin p → Col a K) (env : Fin q → Col a K) (l : List (Coupled a K)),
    blockSvd svd tol m fuel order low env = .ok l → Rel (List.ofFn env) (l.map Coupled.col) := by
  have hun : ∀ {q : Nat} (env : Fin q → Col a K), (uncoupled env).map Coupled.col = List.ofFn env := by
    intro q env
    unfold uncoupled
    rw [List.map_ofFn]; rfl
  induction fuel with
  | zero =>
    intro order p q low env l h
    cases h
    rw [hun]
    exact Rel.refl _
  | succ fuel ih =>
    intro order p q low env l h
    rw [blockSvd] at h
    split at h
    · cases h
    · have hv := (hs p q (between m low env)).vh_orth
      revert h
      generalize svd p q (between m low env) = g at hv ⊢
      intro h
      dsimp only at h
      generalize (g.s.filter fun x => decide (tol ≤ x)).length = n at h
      have hr : Rel (List.ofFn env) (List.ofFn (rot env g.vhᵀ)) := rel_rot env _ (by rw [transpose_transpose]; exact hv)
      split at h
      · cases h
        rw [hun]
        exact Rel.refl _
      · split at h
        · rename_i hq
          cases h
          refine hr.trans ?_
          rw [ofFn_split n (rot env g.vhᵀ), List.map_ofFn]
          have e : List.ofFn (after n (rot env g.vhᵀ)) = [] := List.eq_nil_of_length_eq_zero (by simp; omega)
          rw [e, List.append_nil]
          exact Rel.refl _
        · split at h
          · cases h
          · rename_i l' hl'
            cases h
            refine hr.trans ?_
            rw [ofFn_split n (rot env g.vhᵀ), List.map_append, List.map_ofFn]
            exact (Rel.refl _).append (ih _ _ _ _ _ _ hl')

private theorem blockSvd_unit (svd : (p q : Nat) → Matrix (Fin p) (Fin q) K → Svd p q K) (hs : SolvesSvd svd) (tol : K)
    (m : Matrix (Fin a) (Fin a) K) (fuel : Nat) : ∀ (order : Nat) (p q : Nat) (low : Fin p → Col a K) (env : Fin q → Col a K) (l : List (Coupled a K)),
    blockSvd svd tol m fuel order low env = .ok l → ∀ x ∈ l, ∃ y, UnitComb env y x.col := by
  have hun : ∀ {q : Nat} (env : Fin q → Col a K), ∀ x ∈ uncoupled env, ∃ y, UnitComb env y x.col := by
    intro q env x hx
    obtain ⟨k, rfl⟩ := List.mem_ofFn.mp hx
    exact ⟨_, unit_self env k⟩
  induction fuel with
  | zero =>
    intro order p q low env l h
    cases h
    exact hun env
  | succ fuel ih =>
    intro order p q low env l h
    rw [blockSvd] at h
    split at h
    · cases h
    · have hv := (hs p q (between m low env)).vh_orth
      revert h
      generalize svd p q (between m low env) = g at hv ⊢
      intro h
      dsimp only at h
      generalize (g.s.filter fun x => decide (tol ≤ x)).length = n at h
      have hr : g.vhᵀᵀ * g.vhᵀ = 1 := by rw [transpose_transpose]; exact hv
      have hnew : ∀ x ∈ List.ofFn fun i => (⟨first n (rot env g.vhᵀ) i, some order, g.s.getD i.1 0⟩ : Coupled a K), ∃ y, UnitComb env y x.col := by
        intro x hx
        obtain ⟨i, rfl⟩ := List.mem_ofFn.mp hx
        exact ⟨_, unit_rot env _ hr _ _ (unit_self (rot env g.vhᵀ) ⟨i.1, by omega⟩)⟩
      split at h
      · cases h
        exact hun env
      · split at h
        · cases h
          exact hnew
        · split at h
          · cases h
          · rename_i l' hl'
            cases h
            intro x hx
            rcases List.mem_append.mp hx with hx | hx
            · exact hnew x hx
            · obtain ⟨y, hy⟩ := ih _ _ _ _ _ _ hl' x hx
              obtain ⟨z, hz, _⟩ := unit_after _ _ _ hy
              exact ⟨_, unit_rot env _ hr _ _ hz⟩

private theorem count_sorted (s : List K) (hs : s.Pairwise fun x y => y ≤ x) (tol : K) :
    ∀ (i : Nat), i < s.length → (i < (s.filter fun x => decide (tol ≤ x)).length ↔ tol ≤ s.getD i 0) := by
  induction s with
  | nil => intro i hi; simp at hi
  | cons x s ih =>
    rw [List.pairwise_cons] at hs
    intro i hi
    by_cases hx : tol ≤ x
    · rw [List.filter_cons_of_pos (by simpa using hx)]
      cases i with
      | zero => simpa using hx
      | succ i =>
        have := ih hs.2 i (by simpa using hi)
        simp only [List.length_cons, Nat.add_lt_add_iff_right, List.getD_cons_succ]
        exact this
    · rw [List.filter_cons_of_neg (by simpa using hx)]
      have e : s.filter (fun x => decide (tol ≤ x)) = [] := by
        rw [List.filter_eq_nil_iff]
        intro y hy
        have := hs.1 y hy
        simp only [decide_eq_true_eq, not_le] at hx ⊢
        exact lt_of_le_of_lt this hx
      rw [e]
      simp only [List.length_nil, not_lt_zero, false_iff]
      cases i with
      | zero => simpa using hx
      | succ i =>
        simp only [List.length_cons, Nat.add_lt_add_iff_right] at hi
        rw [List.getD_cons_succ, List.getD_eq_getElem?_getD, List.getElem?_eq_getElem hi, Option.getD_some]
        intro h
        exact hx (h.trans (hs.1 _ (List.getElem_mem hi)))

omit [LinearOrder K] in
private theorem coupling_ofFn {p : Nat} (m : Matrix (Fin a) (Fin a) K) (low : Fin p → Col a K) (v : Col a K) :
    couplingSq m (List.ofFn low) v = ∑ i, (low i ⬝ᵥ (m *ᵥ v)) ^ 2 := by
  unfold couplingSq
  rw [List.map_ofFn, List.sum_ofFn]; rfl

omit [LinearOrder K] in
/-- Coupling of a combination of the rotated orbitals. -/
private theorem coupling_comb {p q : Nat} (m : Matrix (Fin a) (Fin a) K) (low : Fin p → Col a K) (env : Fin q → Col a K) (r : Matrix (Fin q) (Fin q) K)
    (y : Fin q → K) (i : Fin p) : low i ⬝ᵥ (m *ᵥ ∑ k, y k • rot env r k) = ∑ k, y k * (between m low env * r) i k := by
  have h1 := dot_rot m (fun _ : Fin 1 => low i) (rot env r) (fun _ => 1) y
  simp only [Finset.univ_unique, Finset.sum_singleton, one_smul, one_mul] at h1
  rw [h1]
  refine Finset.sum_congr rfl fun k _ => ?_
  congr 1
  have h2 := dot_rot m (fun _ : Fin 1 => low i) env (fun _ => 1) (fun j => r j k)
  simp only [Finset.univ_unique, Finset.sum_singleton, one_smul, one_mul] at h2
  unfold rot
  rw [h2, Matrix.mul_apply]
  exact Finset.sum_congr rfl fun j _ => mul_comm _ _

private theorem coupling_svd {p q : Nat} (m : Matrix (Fin a) (Fin a) K) (low : Fin p → Col a K) (env : Fin q → Col a K) (g : Svd p q K)
    (hg : IsSvd (between m low env) g) (y : Fin q → K) :
    couplingSq m (List.ofFn low) (∑ k, y k • rot env g.vhᵀ k) = ∑ k : Fin q, (y k * if k.1 < p then g.s.getD k.1 0 else 0) ^ 2 := by
  rw [coupling_ofFn]
  simp only [coupling_comb, hg.eq]
  have e : ∀ i, (∑ k : Fin q, y k * if h : k.1 < p then g.u i ⟨k.1, h⟩ * g.s.getD k.1 0 else 0) ^ 2 =
      ∑ k : Fin q, ∑ l : Fin q, y k * y l * (if k.1 < p then g.s.getD k.1 0 else 0) * (if l.1 < p then g.s.getD l.1 0 else 0) *
        ((if h : k.1 < p then g.u i ⟨k.1, h⟩ else 0) * (if h : l.1 < p then g.u i ⟨l.1, h⟩ else 0)) := by
    intro i
    rw [pow_two, Finset.sum_mul_sum]
    refine Finset.sum_congr rfl fun k _ => Finset.sum_congr rfl fun l _ => ?_
    by_cases hk : k.1 < p <;> by_cases hl : l.1 < p <;> simp only [hk, hl, dif_pos, dif_neg, if_pos, if_neg, not_false_eq_true] <;> ring
  simp only [e]
  rw [Finset.sum_comm]
  refine Finset.sum_congr rfl fun k _ => ?_
  rw [Finset.sum_comm]
  simp only [← Finset.mul_sum]
  have hu : ∀ l : Fin q, ∑ i, ((if h : k.1 < p then g.u i ⟨k.1, h⟩ else 0) * (if h : l.1 < p then g.u i ⟨l.1, h⟩ else 0)) =
      if k.1 < p then (if l = k then 1 else 0) else 0 := by
    intro l
    by_cases hk : k.1 < p
    · by_cases hl : l.1 < p
      · simp only [hk, hl, dif_pos, if_true]
        have := congrFun (congrFun hg.u_orth ⟨k.1, hk⟩) ⟨l.1, hl⟩
        rw [Matrix.mul_apply, one_apply] at this
        simp only [transpose_apply, Fin.mk.injEq] at this
        rw [this]
        simp only [Fin.ext_iff, eq_comm]
      · have hne : l ≠ k := by rintro rfl; exact hl hk
        simp [hl, hne]
    · simp [hk]
  simp only [hu]
  rw [Finset.sum_eq_single k]
  · by_cases hk : k.1 < p
    · simp only [hk, if_true]; ring
    · simp [hk]
  · intro l _ hl
    simp [hl]
  · simp

variable [IsStrictOrderedRing K]

private theorem coupling_small {p q : Nat} (m : Matrix (Fin a) (Fin a) K) (low : Fin p → Col a K) (env : Fin q → Col a K) (g : Svd p q K)
    (hg : IsSvd (between m low env) g) (tol : K) (ht : 0 ≤ tol) (y : Fin q → K) (h1 : ∑ k, y k * y k = 1)
    (h0 : ∀ k : Fin q, k.1 < (g.s.filter fun x => decide (tol ≤ x)).length → y k = 0) :
    couplingSq m (List.ofFn low) (∑ k, y k • rot env g.vhᵀ k) ≤ tol ^ 2 := by
  rw [coupling_svd m low env g hg]
  calc _ ≤ ∑ k : Fin q, (y k * y k) * tol ^ 2 := by
        refine Finset.sum_le_sum fun k _ => ?_
        by_cases hk : k.1 < p
        · rw [if_pos hk]
          by_cases hn : k.1 < (g.s.filter fun x => decide (tol ≤ x)).length
          · rw [h0 k hn]; simp
          · have hlen : k.1 < g.s.length := by rw [hg.len]; omega
            have hs : g.s.getD k.1 0 < tol := by
              rw [count_sorted g.s hg.sorted tol k.1 hlen] at hn
              exact not_le.mp hn
            have hp : 0 ≤ g.s.getD k.1 0 := by
              rw [List.getD_eq_getElem?_getD, List.getElem?_eq_getElem hlen, Option.getD_some]
              exact hg.nonneg _ (List.getElem_mem hlen)
            have hsq : g.s.getD k.1 0 ^ 2 ≤ tol ^ 2 := pow_le_pow_left₀ hp hs.le 2
            calc (y k * g.s.getD k.1 0) ^ 2 = (y k * y k) * g.s.getD k.1 0 ^ 2 := by ring
              _ ≤ _ := mul_le_mul_of_nonneg_left hsq (mul_self_nonneg _)
        · rw [if_neg hk]
          have : 0 ≤ (y k * y k) * tol ^ 2 := mul_nonneg (mul_self_nonneg _) (sq_nonneg _)
          simpa using this
    _ = tol ^ 2 := by rw [← Finset.sum_mul, h1, one_mul]

private def level (o : Nat) (low : List (Col a K)) (l : List (Coupled a K)) (j : Nat) : List (Col a K) :=
  if j + 1 = o then low else (l.filter fun x => x.order == some j).map Coupled.col

private def Levels (m : Matrix (Fin a) (Fin a) K) (tol : K) (o fuel : Nat) (low : List (Col a K)) (l : List (Coupled a K)) : Prop :=
  (∀ x ∈ l, (∀ k, x.order = some k → o ≤ k ∧ k < o + fuel ∧ tol ≤ x.sv ∧ couplingSq m (level o low l (k - 1)) x.col = x.sv ^ 2) ∧
    ∀ j, o ≤ j + 1 → j + 1 < o + fuel → (x.order = none ∨ ∃ k, x.order = some k ∧ j + 1 < k) → couplingSq m (level o low l j) x.col ≤ tol ^ 2) ∧
  l.Pairwise fun x y => ∀ k, orderLe k y.order = true → orderLe k x.order = true

omit [Field K] [LinearOrder K] [IsStrictOrderedRing K] in
private theorem pairwise_const (l : List (Coupled a K)) (o : Option Nat) (h : ∀ x ∈ l, x.order = o) :
    l.Pairwise fun x y => ∀ k, orderLe k y.order = true → orderLe k x.order = true := by
  induction l with
  | nil => exact List.Pairwise.nil
  | cons x l ih =>
    rw [List.pairwise_cons]
    refine ⟨fun y hy k hk => ?_, ih fun y hy => h y (List.mem_cons_of_mem _ hy)⟩
    rw [h x List.mem_cons_self, ← h y (List.mem_cons_of_mem _ hy)]
    exact hk

private theorem levels_uncoupled (m : Matrix (Fin a) (Fin a) K) (tol : K) (o fuel : Nat) {q : Nat} (low : List (Col a K)) (env : Fin q → Col a K)
    (h : 0 < fuel → ∀ k, couplingSq m low (env k) ≤ tol ^ 2) : Levels m tol o fuel low (uncoupled env) := by
  have hn : ∀ x ∈ uncoupled env, x.order = none := by
    intro x hx
    obtain ⟨k, rfl⟩ := List.mem_ofFn.mp hx
    rfl
  refine ⟨fun x hx => ⟨fun k hk => ?_, fun j h1 h2 _ => ?_⟩, pairwise_const _ _ hn⟩
  · rw [hn x hx] at hk; cases hk
  · obtain ⟨k, rfl⟩ := List.mem_ofFn.mp hx
    unfold level
    split
    · exact h (by omega) k
    · have e : (uncoupled env).filter (fun x => x.order == some j) = [] := by
        rw [List.filter_eq_nil_iff]
        intro y hy
        rw [hn y hy]; simp
      rw [e]
      simp only [List.map_nil, couplingSq, List.sum_nil]
      exact sq_nonneg tol

private theorem blockSvd_levels (svd : (p q : Nat) → Matrix (Fin p) (Fin q) K → Svd p q K) (hs : SolvesSvd svd) (tol : K) (ht : 0 ≤ tol)
    (m : Matrix (Fin a) (Fin a) K) (fuel : Nat) : ∀ (o : Nat) (p q : Nat) (low : Fin p → Col a K) (env : Fin q → Col a K) (l : List (Coupled a K)),
    1 ≤ o → blockSvd svd tol m fuel o low env = .ok l → Levels m tol o fuel (List.ofFn low) l := by
  induction fuel with
  | zero =>
    intro o p q low env l ho h
    cases h
    exact levels_uncoupled m tol o 0 _ env (by omega)
  | succ fuel ih =>
    intro o p q low env l ho h
    rw [blockSvd] at h
    split at h
    · cases h
    · have hg := hs p q (between m low env)
      revert h
      generalize svd p q (between m low env) = g at hg ⊢
      intro h
      dsimp only at h
      have hv := hg.vh_orth
      have hv' : g.vhᵀ * g.vh = 1 := mul_eq_one_comm.mp hv
      have hcount := count_sorted g.s hg.sorted tol
      have hsmall := coupling_small m low env g hg tol ht
      have hcle : (g.s.filter fun x => decide (tol ≤ x)).length ≤ min p q := by rw [← hg.len]; exact List.length_filter_le _ _
      generalize (g.s.filter fun x => decide (tol ≤ x)).length = n at h hcount hsmall hcle
      have hnewc : ∀ i : Fin (min n q), tol ≤ g.s.getD i.1 0 ∧ couplingSq m (List.ofFn low) (first n (rot env g.vhᵀ) i) = (g.s.getD i.1 0) ^ 2 := by
        intro i
        refine ⟨(hcount i.1 (by rw [hg.len]; omega)).mp (by omega), ?_⟩
        have hi : i.1 < q := by omega
        have e : first n (rot env g.vhᵀ) i = ∑ k, (if k = ⟨i.1, hi⟩ then (1 : K) else 0) • rot env g.vhᵀ k := by
          simp [first]
        rw [e, coupling_svd m low env g hg, Finset.sum_eq_single ⟨i.1, hi⟩]
        · rw [if_pos rfl, if_pos (show i.1 < p by omega), one_mul]
        · intro k _ hk
          rw [if_neg hk]; simp
        · simp
      have hneword : ∀ x ∈ List.ofFn fun i => (⟨first n (rot env g.vhᵀ) i, some o, g.s.getD i.1 0⟩ : Coupled a K), x.order = some o := by
        intro x hx
        obtain ⟨i, rfl⟩ := List.mem_ofFn.mp hx
        rfl
      have hnewcpl : ∀ x ∈ List.ofFn fun i => (⟨first n (rot env g.vhᵀ) i, some o, g.s.getD i.1 0⟩ : Coupled a K),
          tol ≤ x.sv ∧ couplingSq m (List.ofFn low) x.col = x.sv ^ 2 := by
        intro x hx
        obtain ⟨i, rfl⟩ := List.mem_ofFn.mp hx
        exact hnewc i
      split at h
      · rename_i hn0
        cases h
        refine levels_uncoupled m tol o _ _ env fun _ k => ?_
        have e : env k = ∑ i, g.vh i k • rot env g.vhᵀ i := by
          unfold rot
          simp only [Finset.smul_sum, smul_smul]
          rw [Finset.sum_comm]
          have h1 : ∀ j, ∑ i, g.vh i k * g.vhᵀ j i = if j = k then 1 else 0 := by
            intro j
            have := congrFun (congrFun hv' j) k
            rw [Matrix.mul_apply, one_apply] at this
            rw [← this]
            exact Finset.sum_congr rfl fun i _ => mul_comm _ _
          simp only [← Finset.sum_smul, h1, ite_smul, one_smul, zero_smul]
          simp
        rw [e]
        apply hsmall
        · have := congrFun (congrFun hv' k) k
          rw [Matrix.mul_apply, one_apply, if_pos rfl] at this
          exact this
        · intro i hi; omega
      · split at h
        · cases h
          refine ⟨fun x hx => ⟨fun k hk => ?_, fun j h1 h2 h3 => ?_⟩, pairwise_const _ _ hneword⟩
          · rw [hneword x hx] at hk
            cases hk
            obtain ⟨h1, h2⟩ := hnewcpl x hx
            refine ⟨le_refl _, by omega, h1, ?_⟩
            unfold level
            rw [if_pos (by omega)]
            exact h2
          · rw [hneword x hx] at h3
            rcases h3 with h3 | ⟨k, hk, hk'⟩
            · cases h3
            · cases hk; omega
        · split at h
          · cases h
          · rename_i l' hl'
            cases h
            obtain ⟨ih1, ih2⟩ := ih _ _ _ _ _ _ (by omega) hl'
            have hunit := blockSvd_unit svd hs tol m _ _ _ _ _ _ _ hl'
            have hord' : ∀ x ∈ l', ∀ k, x.order = some k → o + 1 ≤ k := fun x hx k hk => ((ih1 x hx).1 k hk).1
            have hcol : (List.ofFn fun i => (⟨first n (rot env g.vhᵀ) i, some o, g.s.getD i.1 0⟩ : Coupled a K)).map Coupled.col =
                List.ofFn (first n (rot env g.vhᵀ)) := by rw [List.map_ofFn]; rfl
            generalize hnew : (List.ofFn fun i => (⟨first n (rot env g.vhᵀ) i, some o, g.s.getD i.1 0⟩ : Coupled a K)) = new at *
            have hlev : ∀ j, o ≤ j → level o (List.ofFn low) (new ++ l') j = level (o + 1) (List.ofFn (first n (rot env g.vhᵀ))) l' j := by
              intro j hj
              unfold level
              rw [if_neg (by omega), List.filter_append, List.map_append]
              split
              · have hjo : j = o := by omega
                subst hjo
                have e1 : new.filter (fun x => x.order == some j) = new := by
                  rw [List.filter_eq_self]
                  intro x hx
                  rw [hneword x hx]; simp
                have e2 : l'.filter (fun x => x.order == some j) = [] := by
                  rw [List.filter_eq_nil_iff]
                  intro x hx hc
                  have := hord' x hx j (by simpa using hc)
                  omega
                rw [e1, e2, hcol]; simp
              · have e1 : new.filter (fun x => x.order == some j) = [] := by
                  rw [List.filter_eq_nil_iff]
                  intro x hx hc
                  rw [hneword x hx] at hc
                  simp at hc; omega
                rw [e1]; simp
            refine ⟨fun x hx => ?_, ?_⟩
            · rcases List.mem_append.mp hx with hx | hx
              · refine ⟨fun k hk => ?_, fun j h1 h2 h3 => ?_⟩
                · rw [hneword x hx] at hk
                  cases hk
                  obtain ⟨h1, h2⟩ := hnewcpl x hx
                  refine ⟨le_refl _, by omega, h1, ?_⟩
                  have e : level o (List.ofFn low) (new ++ l') (o - 1) = List.ofFn low := by
                    unfold level
                    rw [if_pos (by omega)]
                  rw [e]
                  exact h2
                · rw [hneword x hx] at h3
                  rcases h3 with h3 | ⟨k, hk, hk'⟩
                  · cases h3
                  · cases hk; omega
              · obtain ⟨ih3, ih4⟩ := ih1 x hx
                refine ⟨fun k hk => ?_, fun j h1 h2 h3 => ?_⟩
                · obtain ⟨h1, h2, h3, h4⟩ := ih3 k hk
                  refine ⟨by omega, by omega, h3, ?_⟩
                  rw [hlev _ (by omega)]
                  exact h4
                · by_cases hj : o ≤ j
                  · rw [hlev j hj]
                    exact ih4 j (by omega) (by omega) h3
                  · have e : level o (List.ofFn low) (new ++ l') j = List.ofFn low := by
                      unfold level
                      rw [if_pos (by omega)]
                    rw [e]
                    obtain ⟨y, hy⟩ := hunit x hx
                    obtain ⟨z, hz, hz0⟩ := unit_after _ _ _ hy
                    rw [hz.2]
                    exact hsmall z hz.1 hz0
            · rw [List.pairwise_append]
              refine ⟨pairwise_const _ _ hneword, ih2, fun x hx y hy k hk => ?_⟩
              rw [hneword x hx]
              cases hy' : y.order with
              | none => rw [hy'] at hk; cases hk
              | some k' =>
                have := hord' y hy k' hy'
                rw [hy'] at hk
                simp only [orderLe, decide_eq_true_eq] at hk ⊢
                omega

omit [IsStrictOrderedRing K] in
/-- The decomposition works on matrix elements, so that it can be done in any basis. -/
private theorem blockSvd_natural (svd : (p q : Nat) → Matrix (Fin p) (Fin q) K → Svd p q K) (tol : K) (fock : Matrix (Fin a) (Fin a) K) {n : Nat}
    (mo : Fin n → Col a K) (fuel : Nat) : ∀ (o : Nat) (p q : Nat) (low : Fin p → Col n K) (env : Fin q → Col n K),
    (blockSvd svd tol (between fock mo mo) fuel o low env).map (fun l => l.map fun x => (⟨combine mo x.col, x.order, x.sv⟩ : Coupled a K)) =
      blockSvd svd tol fock fuel o (fun i => combine mo (low i)) (fun i => combine mo (env i)) := by
  have hun : ∀ {q : Nat} (env : Fin q → Col n K), (uncoupled env).map (fun x => (⟨combine mo x.col, x.order, x.sv⟩ : Coupled a K)) =
      uncoupled fun i => combine mo (env i) := by
    intro q env
    unfold uncoupled
    rw [List.map_ofFn]; rfl
  have hb : ∀ {p q : Nat} (low : Fin p → Col n K) (env : Fin q → Col n K),
      between (between fock mo mo) low env = between fock (fun i => combine mo (low i)) (fun i => combine mo (env i)) := by
    intro p q low env
    ext i j
    unfold between combine
    rw [of_apply, of_apply, dot_rot]
    change ∑ k, low i k * ∑ l, (mo k ⬝ᵥ (fock *ᵥ mo l)) * env j l = _
    refine Finset.sum_congr rfl fun k _ => ?_
    rw [Finset.mul_sum]
    exact Finset.sum_congr rfl fun l _ => by ring
  have hr : ∀ {q : Nat} (env : Fin q → Col n K) (r : Matrix (Fin q) (Fin q) K), (fun k => combine mo (rot env r k)) = rot (fun i => combine mo (env i)) r := by
    intro q env r
    funext k
    unfold combine rot
    simp only [Finset.sum_apply, Pi.smul_apply, smul_eq_mul, Finset.sum_smul, Finset.smul_sum, smul_smul]
    exact Finset.sum_comm
  induction fuel with
  | zero =>
    intro o p q low env
    simp only [blockSvd, Except.map, hun]
  | succ fuel ih =>
    intro o p q low env
    rw [blockSvd, blockSvd, hb]
    split
    · rfl
    · generalize svd p q (between fock (fun i => combine mo (low i)) fun i => combine mo (env i)) = g
      dsimp only
      generalize (g.s.filter fun x => decide (tol ≤ x)).length = c
      split
      · simp only [Except.map, hun]
      · have hf : (fun i => combine mo (first c (rot env g.vhᵀ) i)) = first c (rot (fun i => combine mo (env i)) g.vhᵀ) := by
          rw [← hr]; rfl
        have ha : (fun i => combine mo (after c (rot env g.vhᵀ) i)) = after c (rot (fun i => combine mo (env i)) g.vhᵀ) := by
          rw [← hr]; rfl
        have hn : (List.ofFn fun i => (⟨first c (rot env g.vhᵀ) i, some o, g.s.getD i.1 0⟩ : Coupled n K)).map
            (fun x => (⟨combine mo x.col, x.order, x.sv⟩ : Coupled a K)) =
            List.ofFn fun i => (⟨first c (rot (fun i => combine mo (env i)) g.vhᵀ) i, some o, g.s.getD i.1 0⟩ : Coupled a K) := by
          rw [List.map_ofFn, ← hf]; rfl
        split
        · simp only [Except.map, hn]
        · have := ih (o + 1) _ _ (first c (rot env g.vhᵀ)) (after c (rot env g.vhᵀ))
          rw [hf, ha] at this
          rw [← this]
          cases blockSvd svd tol (between fock mo mo) fuel (o + 1) (first c (rot env g.vhᵀ)) (after c (rot env g.vhᵀ)) with
          | error e => rfl
          | ok l => simp only [Except.map, List.map_append, hn]

omit [IsStrictOrderedRing K] in
private theorem ewdmet_eq {nf ne : Nat} (svd : (p q : Nat) → Matrix (Fin p) (Fin q) K → Svd p q K) (tol : K) (maxOrder : Nat)
    (fock : Matrix (Fin a) (Fin a) K) (cFrag : Fin nf → Col a K) (cEnv : Fin ne → Col a K) :
    ewdmetKernel svd tol maxOrder fock cFrag cEnv = blockSvd svd tol fock maxOrder 1 cFrag cEnv := by
  have hu : ∀ i, combine (Fin.append cFrag cEnv) (unit i) = Fin.append cFrag cEnv i := by
    intro i
    unfold combine unit
    simp
  have := blockSvd_natural svd tol fock (Fin.append cFrag cEnv) maxOrder 1 _ _ (fun i : Fin nf => unit (Fin.castAdd ne i))
    (fun i : Fin ne => unit (Fin.natAdd nf i))
  simp only [hu, Fin.append_left, Fin.append_right] at this
  rw [← this]
  unfold ewdmetKernel
  dsimp only
  cases blockSvd svd tol (between fock (Fin.append cFrag cEnv) (Fin.append cFrag cEnv)) maxOrder 1 (fun i : Fin nf => unit (Fin.castAdd ne i))
    (fun i : Fin ne => unit (Fin.natAdd nf i)) <;> rfl

omit [IsStrictOrderedRing K] in
private theorem between_symm (m : Matrix (Fin a) (Fin a) K) (hm : mᵀ = m) {n : Nat} (c : Fin n → Col a K) : (between m c c)ᵀ = between m c c := by
  ext i j
  unfold between
  rw [transpose_apply, of_apply, of_apply, dotProduct_mulVec, ← mulVec_transpose, hm, dotProduct_comm]

omit [IsStrictOrderedRing K] in
private theorem rel_canon (sol : Solvers K) (he : ∀ n, SolvesEigh (sol.eigh n)) (fock : Matrix (Fin a) (Fin a) K) (hf : fockᵀ = fock)
    (c : List (Col a K)) : Rel c (canonicalizeMo sol fock c) :=
  (rel_rotate c _ (he _ _ (between_symm fock hf c.get)).1).trans (rel_fixCol _)

/-- What the eigenvalue solver and the singular value decomposition promise, and that the matrices given to them are symmetric. -/
structure GoodBathInput (sol : Solvers K) (d : Data a K) : Prop where
  eigh : ∀ n, SolvesEigh (sol.eigh n)
  svd : SolvesSvd sol.svd
  fock : d.fockᵀ = d.fock
  r2 : d.r2ᵀ = d.r2
  corrDm : ∀ t o, (d.corrDm t o)ᵀ = d.corrDm t o

/-- A fixed number of bath orbitals was requested but not given. -/
def MissingNumber (opts : List (String × Val K)) (o : Occ) : Prop :=
  getOption opts "truncation" o = .ok (.str "number") ∧ getOption opts "threshold" o = .ok .none

omit [IsStrictOrderedRing K] in
private theorem rel_bno (sol : Solvers K) (d : Data a K) (h : GoodBathInput sol d) (t : String) (o : Occ) (coeff : List (Col a K)) (occup : List K)
    (hb : bnoKernel sol d t o = .bno coeff occup) : Rel (d.env o) coeff := by
  unfold bnoKernel at hb
  injection hb with h1 h2
  rw [← h1]
  refine Rel.trans (rel_rotate _ _ ?_) (rel_fixCol _)
  have hv := (h.eigh _ _ (h.corrDm t o)).1
  ext k l
  have := congrFun (congrFun hv k.rev) l.rev
  rw [Matrix.mul_apply, one_apply] at this ⊢
  simp only [transpose_apply, of_apply, Fin.rev_inj] at this ⊢
  exact this

private theorem bno_append (coeff : List (Col a K)) (occup : List K) (nelec : K) (truncation threshold : Val K)
    (hn : ¬ (truncation = .str "number" ∧ threshold = .none)) (b z : List (Col a K))
    (h : bnoGetBath coeff occup nelec truncation threshold = .ok (b, z)) : b ++ z = coeff := by
  have key : ∀ (t : Except PyErr (Bno.Threshold K)), (t.bind fun b => Bno.truncateBno coeff occup (.thr b) nelec) = .ok (b, z) → b ++ z = coeff := by
    intro t ht
    cases t with
    | error e => cases ht
    | ok t => exact truncateBno_append coeff occup (.thr t) nelec b z ht
  unfold bnoGetBath at h
  split at h
  · split at h
    · cases h
    · split at h
      · injection h with h
        have := hsplit_append coeff 0
        rw [h] at this
        exact this
      · split at h
        · split at h
          · rename_i ht
            subst ht
            exact absurd ⟨rfl, rfl⟩ hn
          · cases h
        · cases h
        · split at h
          · cases h
          · exact key _ h
        · exact key _ h
        · exact key _ h
  · cases h

private theorem split_append (c : List (Col a K)) (n : Int) (b z : List (Col a K)) (h : Bno.hsplit c n = (b, z)) : b ++ z = c := by
  have := hsplit_append c n
  rw [h] at this
  exact this

omit [IsStrictOrderedRing K] in
private theorem rel_ewdmet (svd : (p q : Nat) → Matrix (Fin p) (Fin q) K → Svd p q K) (hs : SolvesSvd svd) (tol : K) (n : Nat)
    (fock : Matrix (Fin a) (Fin a) K) (frag env : List (Col a K)) (l : List (Coupled a K))
    (h : ewdmetKernel svd tol n fock frag.get env.get = .ok l) : Rel env (l.map Coupled.col) := by
  rw [ewdmet_eq] at h
  have := blockSvd_rel svd hs tol fock n 1 _ _ _ _ _ h
  rwa [List.ofFn_get] at this

private theorem rel_bath (sol : Solvers K) (d : Data a K) (h : GoodBathInput sol d) (opts : List (String × Val K)) (o : Occ) (f : Factory a K)
    (hf : makeFactory sol d opts o = .ok f) (hm : ¬ MissingNumber opts o) (b z : List (Col a K)) (hg : getOrbitals sol d opts o f = .ok (b, z)) :
    Rel (d.env o) (b ++ z) := by
  have hbno : ∀ coeff occup truncation threshold, Rel (d.env o) coeff → getOption opts "truncation" o = .ok truncation →
      getOption opts "threshold" o = .ok threshold → bnoGetBath coeff occup d.nelecCluster truncation threshold = .ok (b, z) → Rel (d.env o) (b ++ z) := by
    intro coeff occup tr th hr h1 h2 hb
    rw [bno_append coeff occup _ tr th (by rintro ⟨rfl, rfl⟩; exact hm ⟨h1, h2⟩) b z hb]
    exact hr
  unfold makeFactory at hf
  unfold getOrbitals at hg
  simp only [bind, Except.bind] at hf hg
  cases hbt : getOption opts "bathtype" o with
  | error e => rw [hbt] at hf; cases hf
  | ok v =>
    rw [hbt] at hf hg
    dsimp only at hf hg
    split at hf
    · cases hf
      cases hg
      exact Rel.refl _
    · cases hf
      cases hg
      rw [List.append_nil]
      exact Rel.refl _
    · -- ewdmet
      have hfin : ∀ l order, Rel (d.env o) (l.map Coupled.col) → ewdmetGetBath l order = .ok (b, z) → Rel (d.env o) (b ++ z) := by
        intro l order hr he
        unfold ewdmetGetBath at he
        split at he
        · rename_i hl
          cases he
          have : l = [] := List.eq_nil_of_length_eq_zero hl
          subst this
          exact hr
        · split at he
          · injection he with he
            have := hsplit_append (l.map Coupled.col) (l.filter fun x => orderLe (by assumption) x.order).length
            rw [he] at this
            rw [this]
            exact hr
          · cases he
      have hfin' : ∀ l, Rel (d.env o) (l.map Coupled.col) → f = .ewdmet l → Rel (d.env o) (b ++ z) := by
        intro l hr hfl
        subst hfl
        cases ho : getOption opts "order" o with
        | error e => rw [ho] at hg; cases hg
        | ok order => rw [ho] at hg; exact hfin l order hr hg
      split at hf
      · cases hf
      · split at hf
        · cases hf
        · split at hf
          · rename_i henv
            cases hf
            refine hfin' [] ?_ rfl
            rw [List.eq_nil_of_length_eq_zero henv]
            exact Rel.refl _
          · have hk : ∀ tol n, (ewdmetKernel sol.svd tol n d.fockBath d.cFrag.get (d.env o).get).map Factory.ewdmet = .ok f →
                Rel (d.env o) (b ++ z) := by
              intro tol n hk
              cases hkl : ewdmetKernel sol.svd tol n d.fockBath d.cFrag.get (d.env o).get with
              | error e => rw [hkl] at hk; cases hk
              | ok l =>
                rw [hkl] at hk
                cases hk
                exact hfin' l (rel_ewdmet sol.svd h.svd tol n _ _ _ l hkl) rfl
            split at hf
            · split at hf
              · exact hk _ _ hf
              · split at hf
                · exact hk _ _ hf
                · cases hf
            · cases hf
    · -- r2
      unfold r2Kernel at hf
      split at hf
      · cases hf
      · dsimp only at hf
        split at hf
        · cases hf
        · cases hf
          cases hrc : getOption opts "rcut" o with
          | error e => rw [hrc] at hg; cases hg
          | ok rc =>
            cases hu : getOption opts "unit" o with
            | error e => rw [hrc, hu] at hg; cases hg
            | ok u =>
              rw [hrc, hu] at hg
              replace hg : r2GetBath sol.bohr (rotate (d.env o) (sol.eigh _ (between d.r2 (d.env o).get (d.env o).get)).vec) _ rc = .ok (b, z) := hg
              unfold r2GetBath at hg
              split at hg
              · cases hg
              · split at hg
                · cases hg
                · injection hg with hg
                  rw [split_append _ _ _ _ hg]
                  exact rel_rotate _ _ (h.eigh _ _ (between_symm d.r2 h.r2 _)).1
    · -- mp2
      have hb : f = bnoKernel sol d "mp2" o := by
        split at hf
        · cases hf
        · split at hf
          · cases hf
          · split at hf
            · cases hf
            · cases hf; rfl
      cases hth : getOption opts "threshold" o with
      | error e => rw [hth] at hg; cases hg
      | ok th =>
        cases htr : getOption opts "truncation" o with
        | error e => rw [hth, htr] at hg; cases hg
        | ok tr =>
          rw [hth, htr, hb] at hg
          exact hbno _ _ tr th (rel_bno sol d h "mp2" o _ _ rfl) htr hth hg
    · -- rpa
      have hb : f = bnoKernel sol d "rpa" o := by
        split at hf
        · cases hf
        · split at hf
          · cases hf
          · cases hf; rfl
      cases hth : getOption opts "threshold" o with
      | error e => rw [hth] at hg; cases hg
      | ok th =>
        cases htr : getOption opts "truncation" o with
        | error e => rw [hth, htr] at hg; cases hg
        | ok tr =>
          rw [hth, htr, hb] at hg
          exact hbno _ _ tr th (rel_bno sol d h "rpa" o _ _ rfl) htr hth hg
    · cases hf

/-- An option set for one orbital type takes precedence; without it the general one is used, and KeyError raised if that does not exist. -/
theorem bath_option_precedence (opts : List (String × Val K)) (key : String) (o : Occ) :
    (∀ v, v ≠ .none → opts.lookup (specific key o) = some v → getOption opts key o = .ok v) ∧
    (opts.lookup (specific key o) = none ∨ opts.lookup (specific key o) = some .none →
      getOption opts key o = match opts.lookup key with | some v => .ok v | none => .error .keyError) := by
  constructor
  · intro v hv h
    unfold getOption
    rw [h]
    cases v <;> first | exact absurd rfl hv | rfl
  · rintro (h | h) <;> unfold getOption <;> rw [h] <;> cases opts.lookup key <;> rfl

/-- Every option with a variant for occupied and virtual orbitals can be given to one of them, and is then used for it and for it only. -/
theorem bath_option_set (tol thr : K) (key : String) (hk : key ∈ ["bathtype", "rcut", "unit", "order", "max_order", "threshold", "truncation",
    "project_dmet_order", "project_dmet_mode", "canonicalize"]) (o : Occ) (v : Val K) (hv : v ≠ .none) :
    ∃ opts, setOptions tol thr [(specific key o, v)] = .ok opts ∧ getOption opts key o = .ok v ∧
      ∀ key' o', (key' ≠ key ∨ o' ≠ o) → key' ∈ ["bathtype", "rcut", "unit", "order", "max_order", "threshold", "truncation", "project_dmet_order",
        "project_dmet_mode", "canonicalize"] → getOption opts key' o' = getOption (defaults tol thr) key' o' := by
  simp only [List.mem_cons, List.not_mem_nil, or_false] at hk
  rcases hk with rfl | rfl | rfl | rfl | rfl | rfl | rfl | rfl | rfl | rfl <;> cases o <;>
    refine ⟨_, rfl, ?_, ?_⟩ <;>
    first
    | (cases v <;> first | exact absurd rfl hv | rfl)
    | (intro key' o' h1 h2
       simp only [List.mem_cons, List.not_mem_nil, or_false] at h2
       rcases h2 with rfl | rfl | rfl | rfl | rfl | rfl | rfl | rfl | rfl | rfl <;> cases o' <;>
         first | rfl | exact absurd rfl (h1.resolve_left (fun h => h rfl)))

/-- The buffer option of the virtual orbitals cannot be set: the key is not known, and the key which is known instead is not used. -/
theorem addbuffer_vir_broken (tol thr : K) (v : Val K) :
    setOptions tol thr [("addbuffer_vir", v)] = .error .typeError ∧
    ∃ opts, setOptions tol thr [("addbuffer_dmet_vir", v)] = .ok opts ∧ getOption opts "addbuffer" .vir = .ok (.bool false) :=
  ⟨rfl, _, rfl, rfl⟩

/-- Every bath type divides the environment into bath and frozen orbitals: together they are orthonormal, span the same space and are as many. -/
theorem bath_partition_partial (sol : Solvers K) (d : Data a K) (h : GoodBathInput sol d) (opts : List (String × Val K)) (o : Occ) (f : Factory a K)
    (hf : makeFactory sol d opts o = .ok f) (hm : ¬ MissingNumber opts o) (b z : List (Col a K)) (hg : getOrbitals sol d opts o f = .ok (b, z))
    (hs : OrthonormalOrbs d.ovlp (d.env o)) :
    OrthonormalOrbs d.ovlp (b ++ z) ∧ spaceOf (b ++ z) = spaceOf (d.env o) ∧ b.length + z.length = (d.env o).length := by
  have hr := rel_bath sol d h opts o f hf hm b z hg
  exact ⟨hr.ortho _ hs, hr.2.1, by rw [← hr.2.2, List.length_append]⟩

/-- The steps of a successful construction. -/
private theorem makeCluster_steps (sol : Solvers K) (d : Data a K) (opts : List (String × Val K)) (atol : K) (c : Orbitals.Cluster (Col a K))
    (hc : makeCluster sol d opts atol = .ok c) : ∃ fo fv bo zo bv zv co cv, makeFactory sol d opts .occ = .ok fo ∧ makeFactory sol d opts .vir = .ok fv ∧
      getOrbitals sol d opts .occ fo = .ok (bo, zo) ∧ getOrbitals sol d opts .vir fv = .ok (bv, zv) ∧ getOption opts "canonicalize" .occ = .ok co ∧
      getOption opts "canonicalize" .vir = .ok cv ∧
      c = Orbitals.Cluster.fromCoeffs (if co.truthy then canonicalizeMo sol d.fock (d.cluster .occ ++ bo) else d.cluster .occ ++ bo)
        (if cv.truthy then canonicalizeMo sol d.fock (d.cluster .vir ++ bv) else d.cluster .vir ++ bv) zo zv ∧
      checkOccup d atol c.cTotalOcc 1 = .ok () ∧ checkOccup d atol c.cTotalVir 0 = .ok () := by
  unfold makeCluster at hc
  simp only [bind, Except.bind] at hc
  cases h1 : makeFactory sol d opts .occ with
  | error e => rw [h1] at hc; cases hc
  | ok fo =>
  cases h2 : makeFactory sol d opts .vir with
  | error e => rw [h1, h2] at hc; cases hc
  | ok fv =>
  rw [h1, h2] at hc
  dsimp only at hc
  cases h3 : getOrbitals sol d opts .occ fo with
  | error e => rw [h3] at hc; cases hc
  | ok x =>
  obtain ⟨bo, zo⟩ := x
  rw [h3] at hc
  dsimp only at hc
  cases h4 : getOrbitals sol d opts .vir fv with
  | error e => rw [h4] at hc; cases hc
  | ok x =>
  obtain ⟨bv, zv⟩ := x
  rw [h4] at hc
  dsimp only at hc
  cases h5 : getOption opts "canonicalize" .occ with
  | error e => rw [h5] at hc; cases hc
  | ok co =>
  rw [h5] at hc
  dsimp only at hc
  cases h6 : getOption opts "canonicalize" .vir with
  | error e => rw [h6] at hc; cases hc
  | ok cv =>
  rw [h6] at hc
  dsimp only at hc
  split at hc
  · cases hc
  · rename_i h7
    split at hc
    · cases hc
    · rename_i h8
      cases hc
      exact ⟨fo, fv, bo, zo, bv, zv, co, cv, rfl, rfl, h3, h4, rfl, rfl, rfl, h7, h8⟩

omit [Field K] [LinearOrder K] [IsStrictOrderedRing K] in
private theorem make_coeff (o v : List (Col a K)) : (Orbitals.Orb.make (o ++ v) o.length).coeffOcc = o ∧ (Orbitals.Orb.make (o ++ v) o.length).coeffVir = v := by
  have hn : (Orbitals.Orb.make (o ++ v) o.length).nocc = o.length := by
    unfold Orbitals.Orb.make Orbitals.Orb.nocc
    simp only [List.filter_append, List.length_append]
    rw [List.filter_replicate_of_pos (by decide), List.filter_replicate_of_neg (by decide)]
    simp
  unfold Orbitals.Orb.coeffOcc Orbitals.Orb.coeffVir
  rw [hn]
  simp [Orbitals.Orb.make]

/-- The relation between the orbitals of the cluster and those of the DMET calculation. -/
private theorem cluster_rel (sol : Solvers K) (d : Data a K) (h : GoodBathInput sol d) (opts : List (String × Val K)) (atol : K)
    (c : Orbitals.Cluster (Col a K)) (hc : makeCluster sol d opts atol = .ok c) (hm : ∀ o, ¬ MissingNumber opts o) :
    Rel (d.cluster .occ ++ d.env .occ) (c.active.coeffOcc ++ c.frozen.coeffOcc) ∧
    Rel (d.cluster .vir ++ d.env .vir) (c.active.coeffVir ++ c.frozen.coeffVir) ∧
    spaceOf (d.cluster .occ) ≤ spaceOf c.active.coeffOcc ∧ spaceOf (d.cluster .vir) ≤ spaceOf c.active.coeffVir := by
  obtain ⟨fo, fv, bo, zo, bv, zv, co, cv, h1, h2, h3, h4, h5, h6, h7, -, -⟩ := makeCluster_steps sol d opts atol c hc
  have hact : ∀ (x : Val K) (l : List (Col a K)), Rel l (if x.truthy then canonicalizeMo sol d.fock l else l) := by
    intro x l
    split
    · exact rel_canon sol h.eigh d.fock h.fock l
    · exact Rel.refl _
  have key : ∀ o f b z (x : Val K), makeFactory sol d opts o = .ok f → getOrbitals sol d opts o f = .ok (b, z) →
      Rel (d.cluster o ++ d.env o) ((if x.truthy then canonicalizeMo sol d.fock (d.cluster o ++ b) else d.cluster o ++ b) ++ z) ∧
      spaceOf (d.cluster o) ≤ spaceOf (if x.truthy then canonicalizeMo sol d.fock (d.cluster o ++ b) else d.cluster o ++ b) := by
    intro o f b z x hf hg
    have hr := rel_bath sol d h opts o f hf (hm o) b z hg
    constructor
    · refine Rel.trans ((Rel.refl (d.cluster o)).append hr) ?_
      rw [← List.append_assoc]
      exact (hact x _).append (Rel.refl z)
    · rw [(hact x _).2.1, space_append]
      exact le_sup_left
  subst h7
  unfold Orbitals.Cluster.fromCoeffs
  simp only [(make_coeff _ _).1, (make_coeff _ _).2]
  exact ⟨(key .occ fo bo zo co h1 h3).1, (key .vir fv bv zv cv h2 h4).1, (key .occ fo bo zo co h1 h3).2, (key .vir fv bv zv cv h2 h4).2⟩

/-- The active and frozen orbitals of a cluster: occupied and virtual ones are all orthonormal, and span the occupied and virtual space of the DMET
calculation. -/
theorem cluster_orbitals_partial (sol : Solvers K) (d : Data a K) (h : GoodBathInput sol d) (opts : List (String × Val K)) (atol : K)
    (c : Orbitals.Cluster (Col a K)) (hc : makeCluster sol d opts atol = .ok c) (hm : ∀ o, ¬ MissingNumber opts o)
    (hs : OrthonormalOrbs d.ovlp ((d.cluster .occ ++ d.env .occ) ++ (d.cluster .vir ++ d.env .vir))) :
    OrthonormalOrbs d.ovlp ((c.active.coeffOcc ++ c.frozen.coeffOcc) ++ (c.active.coeffVir ++ c.frozen.coeffVir)) ∧
    spaceOf (c.active.coeffOcc ++ c.frozen.coeffOcc) = spaceOf (d.cluster .occ ++ d.env .occ) ∧
    spaceOf (c.active.coeffVir ++ c.frozen.coeffVir) = spaceOf (d.cluster .vir ++ d.env .vir) := by
  obtain ⟨h1, h2, -, -⟩ := cluster_rel sol d h opts atol c hc hm
  exact ⟨(h1.append h2).ortho _ hs, h1.2.1, h2.2.1⟩

/-- The active orbitals contain the DMET cluster. -/
theorem cluster_contains_dmet (sol : Solvers K) (d : Data a K) (h : GoodBathInput sol d) (opts : List (String × Val K)) (atol : K)
    (c : Orbitals.Cluster (Col a K)) (hc : makeCluster sol d opts atol = .ok c) (hm : ∀ o, ¬ MissingNumber opts o) :
    spaceOf (d.cluster .occ) ≤ spaceOf c.active.coeffOcc ∧ spaceOf (d.cluster .vir) ≤ spaceOf c.active.coeffVir := by
  obtain ⟨-, -, h3, h4⟩ := cluster_rel sol d h opts atol c hc hm
  exact ⟨h3, h4⟩

/-- Orbitals of a cluster have passed the check of their occupation. -/
theorem cluster_occupations (sol : Solvers K) (d : Data a K) (opts : List (String × Val K)) (atol : K)
    (c : Orbitals.Cluster (Col a K)) (hc : makeCluster sol d opts atol = .ok c) :
    (∀ v ∈ c.active.coeffOcc ++ c.frozen.coeffOcc, |occupation d v - 2| ≤ 2 * atol) ∧
    ∀ v ∈ c.active.coeffVir ++ c.frozen.coeffVir, |occupation d v| ≤ 2 * atol := by
  obtain ⟨fo, fv, bo, zo, bv, zv, co, cv, -, -, -, -, -, -, -, h8, h9⟩ := makeCluster_steps sol d opts atol c hc
  have key : ∀ l e, checkOccup d atol l e = .ok () → ∀ v ∈ l, |occupation d v - 2 * e| ≤ 2 * atol := by
    intro l e hl
    unfold checkOccup at hl
    split at hl
    · cases hl
    · split at hl
      · rename_i hall
        simpa using hall
      · cases hl
  constructor
  · intro v hv
    have := key _ _ h8 v (by unfold Orbitals.Cluster.cTotalOcc; simp only [List.mem_append] at hv ⊢; exact hv.symm)
    simpa using this
  · intro v hv
    have := key _ _ h9 v (by unfold Orbitals.Cluster.cTotalVir; exact hv)
    simpa using this

/-- If the occupied orbitals of the DMET calculation are doubly occupied and the virtual ones empty, the construction of a cluster never fails in the
check of the occupations. -/
theorem cluster_check_passes (sol : Solvers K) (d : Data a K) (h : GoodBathInput sol d) (opts : List (String × Val K)) (atol : K) (ha : 0 ≤ atol)
    (hm : ∀ o, ¬ MissingNumber opts o) (fo fv : Factory a K) (hfo : makeFactory sol d opts .occ = .ok fo) (hfv : makeFactory sol d opts .vir = .ok fv)
    (bo zo bv zv : List (Col a K)) (hgo : getOrbitals sol d opts .occ fo = .ok (bo, zo)) (hgv : getOrbitals sol d opts .vir fv = .ok (bv, zv))
    (co cv : Val K) (hco : getOption opts "canonicalize" .occ = .ok co) (hcv : getOption opts "canonicalize" .vir = .ok cv)
    (hno : 0 < (d.cluster .occ ++ d.env .occ).length) (hnv : 0 < (d.cluster .vir ++ d.env .vir).length)
    (hs : OrthonormalOrbs d.ovlp (d.cluster .occ ++ d.env .occ))
    (ho : ∀ v ∈ d.cluster .occ ++ d.env .occ, d.dm1 *ᵥ (d.ovlp *ᵥ v) = (2 : K) • v)
    (hv : ∀ v ∈ d.cluster .vir ++ d.env .vir, d.dm1 *ᵥ (d.ovlp *ᵥ v) = 0) : ∃ c, makeCluster sol d opts atol = .ok c := by
  have hact : ∀ (x : Val K) (l : List (Col a K)), Rel l (if x.truthy then canonicalizeMo sol d.fock l else l) := by
    intro x l
    split
    · exact rel_canon sol h.eigh d.fock h.fock l
    · exact Rel.refl _
  have key : ∀ o f b z (x : Val K), makeFactory sol d opts o = .ok f → getOrbitals sol d opts o f = .ok (b, z) →
      Rel (d.cluster o ++ d.env o) ((if x.truthy then canonicalizeMo sol d.fock (d.cluster o ++ b) else d.cluster o ++ b) ++ z) := by
    intro o f b z x hf hg
    refine Rel.trans ((Rel.refl (d.cluster o)).append (rel_bath sol d h opts o f hf (hm o) b z hg)) ?_
    rw [← List.append_assoc]
    exact (hact x _).append (Rel.refl z)
  have lin : ∀ (e : K) (l : List (Col a K)), (∀ v ∈ l, d.dm1 *ᵥ (d.ovlp *ᵥ v) = e • v) → ∀ v ∈ spaceOf l, d.dm1 *ᵥ (d.ovlp *ᵥ v) = e • v := by
    intro e l hl v hv
    refine Submodule.span_induction (p := fun v _ => d.dm1 *ᵥ (d.ovlp *ᵥ v) = e • v) (fun v hv => hl v hv) ?_ ?_ ?_ hv
    · simp
    · intro x y _ _ hx hy
      rw [mulVec_add, mulVec_add, hx, hy, smul_add]
    · intro k x _ hx
      rw [mulVec_smul, mulVec_smul, hx, smul_comm]
  have hko := key .occ fo bo zo co hfo hgo
  have hkv := key .vir fv bv zv cv hfv hgv
  have hocc : ∀ v ∈ (if co.truthy then canonicalizeMo sol d.fock (d.cluster .occ ++ bo) else d.cluster .occ ++ bo) ++ zo, occupation d v = 2 := by
    intro v hv
    have h1 := lin 2 _ ho v (by rw [← hko.2.1]; exact Submodule.subset_span hv)
    have h2 := hko.ortho _ hs
    obtain ⟨i, hi, rfl⟩ := List.getElem_of_mem hv
    have h3 := h2 ⟨i, hi⟩ ⟨i, hi⟩
    rw [if_pos rfl, List.get_eq_getElem] at h3
    unfold occupation
    rw [h1, dotProduct_smul, dotProduct_comm, h3]
    simp
  have hvir : ∀ v ∈ (if cv.truthy then canonicalizeMo sol d.fock (d.cluster .vir ++ bv) else d.cluster .vir ++ bv) ++ zv, occupation d v = 0 := by
    intro v hv'
    have h1 := lin 0 _ (fun v hv' => by rw [hv v hv', zero_smul]) v (by rw [← hkv.2.1]; exact Submodule.subset_span hv')
    unfold occupation
    rw [h1, zero_smul, dotProduct_zero]
  have hlo := hko.2.2
  have hlv := hkv.2.2
  unfold makeCluster
  simp only [bind, Except.bind, hfo, hfv, hgo, hgv, hco, hcv]
  generalize (if co.truthy then canonicalizeMo sol d.fock (d.cluster .occ ++ bo) else d.cluster .occ ++ bo) = ao at *
  generalize (if cv.truthy then canonicalizeMo sol d.fock (d.cluster .vir ++ bv) else d.cluster .vir ++ bv) = av at *
  have ec : (Orbitals.Cluster.fromCoeffs ao av zo zv).cTotalOcc = zo ++ ao ∧ (Orbitals.Cluster.fromCoeffs ao av zo zv).cTotalVir = av ++ zv := by
    unfold Orbitals.Cluster.fromCoeffs Orbitals.Cluster.cTotalOcc Orbitals.Cluster.cTotalVir
    simp only [(make_coeff _ _).1, (make_coeff _ _).2, and_self]
  have c1 : checkOccup d atol (zo ++ ao) 1 = .ok () := by
    unfold checkOccup
    rw [if_neg (by simp only [List.length_append] at hlo hno ⊢; omega), if_pos]
    rw [List.all_eq_true]
    intro v hv
    rw [hocc v (by simp only [List.mem_append] at hv ⊢; exact hv.symm)]
    simp [ha]
  have c2 : checkOccup d atol (av ++ zv) 0 = .ok () := by
    unfold checkOccup
    rw [if_neg (by simp only [List.length_append] at hlv hnv ⊢; omega), if_pos]
    rw [List.all_eq_true]
    intro v hv
    rw [hvir v hv]
    simp [ha]
  rw [ec.1, ec.2, c1, c2]
  exact ⟨_, rfl⟩

/-- Without virtual orbitals no cluster can be made. -/
theorem cluster_without_virtuals (sol : Solvers K) (d : Data a K) (h : GoodBathInput sol d) (opts : List (String × Val K)) (atol : K)
    (hm : ∀ o, ¬ MissingNumber opts o) (h1 : d.cluster .vir = []) (h2 : d.env .vir = []) (c : Orbitals.Cluster (Col a K)) :
    makeCluster sol d opts atol ≠ .ok c := by
  intro hc
  obtain ⟨-, hr, -, -⟩ := cluster_rel sol d h opts atol c hc hm
  obtain ⟨fo, fv, bo, zo, bv, zv, co, cv, -, -, -, -, -, -, -, h8, h9⟩ := makeCluster_steps sol d opts atol c hc
  have hl := hr.2.2
  rw [h1, h2] at hl
  unfold checkOccup at h9
  rw [if_pos (by unfold Orbitals.Cluster.cTotalVir; rw [hl]; rfl)] at h9
  cases h9

/-- Orders of the bath orbitals of an energy-weighted DMET bath. Every orbital of order `k` couples to those of order `k - 1` (the fragment for
the first order) with the strength of its singular value, at least the threshold; every orbital of higher order, or none, couples to orbitals of order
`j` only up to the threshold. -/
theorem ewdmet_orders (svd : (p q : Nat) → Matrix (Fin p) (Fin q) K → Svd p q K) (hs : SolvesSvd svd) (tol : K) (ht : 0 ≤ tol) (maxOrder : Nat)
    (fock : Matrix (Fin a) (Fin a) K) (frag env : List (Col a K)) (l : List (Coupled a K))
    (h : ewdmetKernel svd tol maxOrder fock frag.get env.get = .ok l) :
    (∀ x ∈ l, ∀ k, x.order = some k → 1 ≤ k ∧ k ≤ maxOrder ∧ tol ≤ x.sv ∧ couplingSq fock (ofOrder frag l (k - 1)) x.col = x.sv ^ 2) ∧
    ∀ x ∈ l, ∀ j < maxOrder, (x.order = none ∨ ∃ k, x.order = some k ∧ j + 1 < k) → couplingSq fock (ofOrder frag l j) x.col ≤ tol ^ 2 := by
  rw [ewdmet_eq] at h
  have hl := blockSvd_levels svd hs tol ht fock maxOrder 1 _ _ _ _ _ (le_refl _) h
  rw [List.ofFn_get] at hl
  have e : ∀ j, level 1 frag l j = ofOrder frag l j := by
    intro j
    unfold level ofOrder
    simp only [Nat.add_eq_right]
  constructor
  · intro x hx k hk
    obtain ⟨h1, h2, h3, h4⟩ := (hl.1 x hx).1 k hk
    rw [e] at h4
    exact ⟨h1, by omega, h3, h4⟩
  · intro x hx j hj h3
    have := (hl.1 x hx).2 j (by omega) (by omega) h3
    rwa [e] at this

omit [Field K] [LinearOrder K] [IsStrictOrderedRing K] in
private theorem filter_prefix (l : List (Coupled a K)) (k : Int)
    (hl : l.Pairwise fun x y => ∀ k, orderLe k y.order = true → orderLe k x.order = true) :
    l.take (l.filter fun x => orderLe k x.order).length = l.filter (fun x => orderLe k x.order) ∧
    l.drop (l.filter fun x => orderLe k x.order).length = l.filter fun x => !orderLe k x.order := by
  induction l with
  | nil => simp
  | cons x l ih =>
    rw [List.pairwise_cons] at hl
    obtain ⟨i1, i2⟩ := ih hl.2
    by_cases hx : orderLe k x.order = true
    · simp only [List.filter_cons, hx, if_true, Bool.not_true, Bool.false_eq_true, if_false]
      simp only [List.length_cons, List.take_succ_cons, List.drop_succ_cons, i1, i2, and_self]
    · have e : (l.filter fun x => orderLe k x.order) = [] := by
        rw [List.filter_eq_nil_iff]
        intro y hy hc
        exact hx (hl.1 y hy k hc)
      have e2 : (l.filter fun x => !orderLe k x.order) = l := by
        rw [List.filter_eq_self]
        intro y hy
        have : ¬ orderLe k y.order = true := fun hc => hx (hl.1 y hy k hc)
        simpa using this
      simp only [List.filter_cons, hx, if_false, e, e2]
      simp

/-- The order of an orbital is finite and at most `n`. -/
def withinOrder (n : Int) (x : Option Nat) : Bool := x.any fun k => decide ((k : Int) ≤ n)

private theorem orderLe_eq : orderLe = withinOrder := by
  funext n x
  cases x <;> rfl

/-- The bath up to an order consists of the orbitals of at most that order. -/
theorem ewdmet_bath (svd : (p q : Nat) → Matrix (Fin p) (Fin q) K → Svd p q K) (hs : SolvesSvd svd) (tol : K) (ht : 0 ≤ tol) (maxOrder : Nat)
    (fock : Matrix (Fin a) (Fin a) K) (frag env : List (Col a K)) (l : List (Coupled a K))
    (h : ewdmetKernel svd tol maxOrder fock frag.get env.get = .ok l) (order : Int) :
    ewdmetGetBath l (.int order : Val K) = .ok ((l.filter fun x => withinOrder order x.order).map Coupled.col,
      (l.filter fun x => !withinOrder order x.order).map Coupled.col) := by
  rw [← orderLe_eq]
  rw [ewdmet_eq] at h
  have hl := (blockSvd_levels svd hs tol ht fock maxOrder 1 _ _ _ _ _ (le_refl _) h).2
  obtain ⟨h1, h2⟩ := filter_prefix l order hl
  unfold ewdmetGetBath
  split
  · rename_i h0
    rw [List.eq_nil_of_length_eq_zero h0]; rfl
  · dsimp only
    unfold Bno.hsplit
    rw [if_pos (by omega)]
    simp only [Int.toNat_natCast, ← List.map_take, ← List.map_drop, h1, h2]

/-- The coefficients returned by the recursive decomposition have no component in the first rows, which are cut off, and are orthogonal. -/
theorem block_svd_orthogonal {nf ne : Nat} (svd : (p q : Nat) → Matrix (Fin p) (Fin q) K → Svd p q K) (hs : SolvesSvd svd) (tol : K) (maxOrder : Nat)
    (m : Matrix (Fin (nf + ne)) (Fin (nf + ne)) K) (l : List (Coupled (nf + ne) K))
    (h : blockSvd svd tol m maxOrder 1 (fun i : Fin nf => unit (Fin.castAdd ne i)) (fun i : Fin ne => unit (Fin.natAdd nf i)) = .ok l) :
    l.length = ne ∧ (∀ x ∈ l, ∀ i : Fin nf, x.col (Fin.castAdd ne i) = 0) ∧ OrthonormalOrbs 1 (l.map Coupled.col) := by
  have hr := blockSvd_rel svd hs tol m _ _ _ _ _ _ _ h
  refine ⟨by simpa using hr.2.2, fun x hx i => ?_, hr.ortho _ ?_⟩
  · have hm : x.col ∈ spaceOf (List.ofFn fun i : Fin ne => (unit (Fin.natAdd nf i) : Col (nf + ne) K)) := by
      rw [← hr.2.1]
      exact Submodule.subset_span (List.mem_map.mpr ⟨x, hx, rfl⟩)
    refine Submodule.span_induction (p := fun v _ => v (Fin.castAdd ne i) = 0) (fun v hv => ?_) rfl ?_ ?_ hm
    · obtain ⟨k, rfl⟩ := List.mem_ofFn.mp hv
      unfold unit
      rw [if_neg]
      simp only [Fin.ext_iff, Fin.val_castAdd, Fin.val_natAdd]
      omega
    · intro x y _ _ hx hy
      rw [Pi.add_apply, hx, hy, add_zero]
    · intro k x _ hx
      rw [Pi.smul_apply, hx, smul_zero]
  · rw [ortho_ofFn]
    intro i j
    rw [one_mulVec]
    unfold unit
    simp only [dotProduct, ite_mul, one_mul, zero_mul, Finset.sum_ite_eq', Finset.mem_univ, if_true]
    simp only [Fin.ext_iff, Fin.val_natAdd, Nat.add_left_cancel_iff, eq_comm]

omit [Field K] [IsStrictOrderedRing K] in
private theorem count_ascending (n : Nat) (e : Fin n → K) (he : ∀ i j, i ≤ j → e i ≤ e j) (r : K) (k : Fin n) :
    k.1 < ((List.ofFn e).filter fun x => decide (x ≤ r)).length ↔ e k ≤ r := by
  induction n with
  | zero => exact k.elim0
  | succ n ih =>
    have hs := ih (fun i => e i.succ) (fun i j hij => he _ _ (by simpa using hij))
    rw [List.ofFn_succ]
    by_cases h0 : e 0 ≤ r
    · rw [List.filter_cons_of_pos (by simpa using h0)]
      refine Fin.cases ?_ (fun k => ?_) k
      · simpa using h0
      · simp only [Fin.val_succ, List.length_cons, Nat.add_lt_add_iff_right]
        exact hs k
    · rw [List.filter_cons_of_neg (by simpa using h0)]
      have hn : ∀ k, ¬ e k ≤ r := fun k hk => h0 ((he 0 k (Fin.zero_le _)).trans hk)
      have e0 : (List.ofFn fun i => e i.succ).filter (fun x => decide (x ≤ r)) = [] := by
        rw [List.filter_eq_nil_iff]
        intro x hx
        obtain ⟨j, rfl⟩ := List.mem_ofFn.mp hx
        simpa using hn j.succ
      rw [e0]
      simp [hn k]

/-- Expectation value of the squared distance from the atom. -/
def meanSquareRadius (d : Data a K) (v : Col a K) : K := v ⬝ᵥ (d.r2 *ᵥ v)

/-- A distance bath with cutoff `r`, in Ångström: the bath orbitals are those within the cutoff, the frozen ones those outside. -/
theorem r2_bath_cutoff_partial (sol : Solvers K) (d : Data a K) (h : GoodBathInput sol d)
    (hasc : ∀ n (m : Matrix (Fin n) (Fin n) K), Ascending (sol.eigh n m))
    (hsq : ∀ x, 0 ≤ x → 0 ≤ sol.sqrt x ∧ sol.sqrt x * sol.sqrt x = x) (hb : 0 < sol.bohr) (opts : List (String × Val K)) (o : Occ)
    (ht : getOption opts "bathtype" o = .ok (.str "r2")) (v : Val K) (r : K) (hr : 0 ≤ r) (hrc : getOption opts "rcut" o = .ok v)
    (hv : v.asNum = some r) (f : Factory a K) (hf : makeFactory sol d opts o = .ok f) (b z : List (Col a K))
    (hg : getOrbitals sol d opts o f = .ok (b, z)) :
    (∀ x ∈ b, meanSquareRadius d x ≤ (r / sol.bohr) ^ 2) ∧ ∀ x ∈ z, (r / sol.bohr) ^ 2 < meanSquareRadius d x := by
  unfold makeFactory at hf
  unfold getOrbitals at hg
  simp only [bind, Except.bind, ht] at hf hg
  replace hf : r2Kernel sol d o = .ok f := hf
  unfold r2Kernel at hf
  split at hf
  · cases hf
  dsimp only at hf
  split at hf
  · cases hf
  cases hf
  rw [hrc] at hg
  cases hu : getOption opts "unit" o with
  | error e => rw [hu] at hg; cases hg
  | ok u =>
  rw [hu] at hg
  have hie := h.eigh _ _ (between_symm d.r2 h.r2 (d.env o).get)
  have hasc' := hasc _ (between d.r2 (d.env o).get (d.env o).get)
  generalize hgen : sol.eigh _ (between d.r2 (d.env o).get (d.env o).get) = g at *
  replace hg : r2GetBath sol.bohr (rotate (d.env o) g.vec) (List.ofFn fun k => sol.sqrt (max (g.val k) 0)) v = .ok (b, z) := hg
  unfold r2GetBath at hg
  rw [hv] at hg
  have hto : toBohr sol.bohr r "ang" = .ok (r / sol.bohr) := by
    unfold toBohr
    rw [if_pos (by decide +kernel)]
  simp only [hto] at hg
  have hrb : 0 ≤ r / sol.bohr := div_nonneg hr hb.le
  have hmono : ∀ x y : K, 0 ≤ x → 0 ≤ y → (x ≤ y ↔ x * x ≤ y * y) := fun x y hx hy => (mul_self_le_mul_self_iff hx hy)
  have hle : ∀ k, sol.sqrt (max (g.val k) 0) ≤ r / sol.bohr ↔ g.val k ≤ (r / sol.bohr) ^ 2 := by
    intro k
    obtain ⟨s1, s2⟩ := hsq (max (g.val k) 0) (le_max_right _ _)
    rw [hmono _ _ s1 hrb, s2, max_le_iff, pow_two]
    exact ⟨fun h => h.1, fun h => ⟨h, mul_self_nonneg _⟩⟩
  have hcount := count_ascending _ (fun k => sol.sqrt (max (g.val k) 0)) (fun i j hij => by
    obtain ⟨s1, s2⟩ := hsq (max (g.val i) 0) (le_max_right _ _)
    obtain ⟨s3, s4⟩ := hsq (max (g.val j) 0) (le_max_right _ _)
    rw [hmono _ _ s1 s3, s2, s4]
    exact max_le_max (hasc' i j hij) (le_refl _)) (r / sol.bohr)
  generalize ((List.ofFn fun k => sol.sqrt (max (g.val k) 0)).filter fun e => decide (e ≤ r / sol.bohr)).length = n at hg hcount
  have hval : ∀ k, meanSquareRadius d (rot (d.env o).get g.vec k) = g.val k := by
    intro k
    unfold meanSquareRadius rot
    rw [dot_rot]
    have h1 : g.vecᵀ * (between d.r2 (d.env o).get (d.env o).get * g.vec) = diagonal g.val := by
      rw [hie.2, ← Matrix.mul_assoc, hie.1, Matrix.one_mul]
    have h2 := congrFun (congrFun h1 k) k
    rw [diagonal_apply_eq] at h2
    rw [← h2, Matrix.mul_apply]
    refine Finset.sum_congr rfl fun i _ => ?_
    rw [Matrix.mul_apply, Finset.mul_sum]
    refine Finset.sum_congr rfl fun j _ => ?_
    rw [transpose_apply]
    unfold between
    rw [of_apply]; ring
  unfold Bno.hsplit at hg
  rw [if_pos (by omega), Int.toNat_natCast] at hg
  injection hg with hg
  injection hg with hb' hz'
  constructor
  · intro x hx
    rw [← hb'] at hx
    obtain ⟨i, hi, rfl⟩ := List.getElem_of_mem hx
    rw [List.length_take] at hi
    rw [List.getElem_take]
    unfold rotate
    rw [List.getElem_ofFn, hval, ← hle, ← hcount]
    simp only; omega
  · intro x hx
    rw [← hz'] at hx
    obtain ⟨i, hi, rfl⟩ := List.getElem_of_mem hx
    rw [List.length_drop] at hi
    rw [List.getElem_drop]
    unfold rotate
    rw [List.getElem_ofFn, hval, ← not_le, ← hle, ← hcount]
    simp only; omega

/-- The bath without additional orbitals, and the complete bath. -/
theorem bath_dmet_full (sol : Solvers K) (d : Data a K) (opts : List (String × Val K)) (o : Occ) (f : Factory a K) (b z : List (Col a K))
    (hg : getOrbitals sol d opts o f = .ok (b, z)) :
    (getOption opts "bathtype" o = .ok (.str "dmet") → b = [] ∧ z = d.env o) ∧ (getOption opts "bathtype" o = .ok (.str "full") → b = d.env o ∧ z = []) := by
  unfold getOrbitals at hg
  simp only [bind, Except.bind] at hg
  constructor <;> intro ht <;> rw [ht] at hg <;> injection hg with hg <;> injection hg with h1 h2
  · exact ⟨h1.symm, h2.symm⟩
  · exact ⟨h1.symm, h2.symm⟩

/-- Other bath types are refused when the bath is made. -/
theorem bath_type_refused (sol : Solvers K) (d : Data a K) (opts : List (String × Val K)) (o : Occ) (v : Val K)
    (hv : getOption opts "bathtype" o = .ok v) (h : ∀ t ∈ ["dmet", "full", "ewdmet", "r2", "mp2", "rpa"], v ≠ .str t) :
    makeFactory sol d opts o = .error .notImplementedError := by
  unfold makeFactory
  simp only [bind, Except.bind]
  rw [hv]
  dsimp only
  split
  · exact absurd rfl (h "dmet" (by simp))
  · exact absurd rfl (h "full" (by simp))
  · exact absurd rfl (h "ewdmet" (by simp))
  · exact absurd rfl (h "r2" (by simp))
  · exact absurd rfl (h "mp2" (by simp))
  · exact absurd rfl (h "rpa" (by simp))
  · rfl

omit [IsStrictOrderedRing K] in
private theorem factory_bno (sol : Solvers K) (d : Data a K) (opts : List (String × Val K)) (o : Occ) (t : String) (ht : t = "mp2" ∨ t = "rpa")
    (hb : getOption opts "bathtype" o = .ok (.str t)) (f : Factory a K) (hf : makeFactory sol d opts o = .ok f) : f = bnoKernel sol d t o := by
  unfold makeFactory at hf
  simp only [bind, Except.bind] at hf
  rw [hb] at hf
  rcases ht with rfl | rfl
  · cases h1 : getOption opts "project_dmet_order" o with
    | error e => rw [h1] at hf; cases hf
    | ok _ =>
      cases h2 : getOption opts "project_dmet_mode" o with
      | error e => rw [h1, h2] at hf; cases hf
      | ok _ =>
        cases h3 : getOption opts "addbuffer" o with
        | error e => rw [h1, h2, h3] at hf; cases hf
        | ok _ => rw [h1, h2, h3] at hf; cases hf; rfl
  · cases h1 : getOption opts "project_dmet_order" o with
    | error e => rw [h1] at hf; cases hf
    | ok _ =>
      cases h2 : getOption opts "project_dmet_mode" o with
      | error e => rw [h1, h2] at hf; cases hf
      | ok _ => rw [h1, h2] at hf; cases hf; rfl

/-- Distance baths are refused for fragments which do not consist of one atom. -/
theorem r2_bath_one_atom (sol : Solvers K) (d : Data a K) (opts : List (String × Val K)) (o : Occ)
    (ht : getOption opts "bathtype" o = .ok (.str "r2")) (hn : d.natom ≠ 1) : makeFactory sol d opts o = .error .notImplementedError := by
  unfold makeFactory
  simp only [bind, Except.bind, ht]
  show r2Kernel sol d o = _
  unfold r2Kernel
  rw [if_pos hn]

/-- The orbitals of MP2 and RPA baths are the natural orbitals of the correlated density matrix in the environment, each with its occupation, in
descending order. -/
theorem bno_natural_orbitals (sol : Solvers K) (d : Data a K) (h : GoodBathInput sol d)
    (hasc : ∀ n (m : Matrix (Fin n) (Fin n) K), Ascending (sol.eigh n m)) (opts : List (String × Val K)) (o : Occ) (t : String)
    (ht : t = "mp2" ∨ t = "rpa") (hb : getOption opts "bathtype" o = .ok (.str t)) (f : Factory a K) (hf : makeFactory sol d opts o = .ok f) :
    ∃ (r : Matrix (Fin (d.env o).length) (Fin (d.env o).length) K) (n : Fin (d.env o).length → K), rᵀ * r = 1 ∧
      d.corrDm t o * r = r * diagonal n ∧ (∀ k l, k ≤ l → n l ≤ n k) ∧
      f = .bno (List.ofFn fun k => ∑ i, r i k • (d.env o).get i) (List.ofFn n) := by
  have hfb : f = bnoKernel sol d t o := factory_bno sol d opts o t ht hb f hf
  have hg := h.eigh _ _ (h.corrDm t o)
  choose s hs hs' using fun v : Col a K => fixCol_sign v
  generalize hgg : sol.eigh _ (d.corrDm t o) = g at hg
  have asc : Ascending g := by rw [← hgg]; exact hasc _ _
  let c := rot (d.env o).get (Matrix.of fun i k => g.vec i k.rev)
  refine ⟨Matrix.of fun i k => s (c k) * g.vec i k.rev, fun k => g.val k.rev, ?_, ?_, fun k l hkl => asc _ _ (Fin.rev_le_rev.mpr hkl), ?_⟩
  · ext k l
    have := congrFun (congrFun hg.1 k.rev) l.rev
    rw [Matrix.mul_apply, one_apply] at this ⊢
    simp only [transpose_apply, of_apply, Fin.rev_inj] at this ⊢
    rw [show (∑ i, s (c k) * g.vec i k.rev * (s (c l) * g.vec i l.rev)) = s (c k) * s (c l) * ∑ i, g.vec i k.rev * g.vec i l.rev by
      rw [Finset.mul_sum]; exact Finset.sum_congr rfl fun _ _ => by ring, this]
    by_cases hkl : k = l
    · subst hkl
      rw [if_pos rfl, mul_one, hs]
    · rw [if_neg hkl, mul_zero]
  · ext i k
    have := congrFun (congrFun hg.2 i) k.rev
    rw [mul_diagonal] at this ⊢
    rw [Matrix.mul_apply] at this ⊢
    simp only [of_apply]
    rw [show (∑ j, d.corrDm t o i j * (s (c k) * g.vec j k.rev)) = s (c k) * ∑ j, d.corrDm t o i j * g.vec j k.rev by
      rw [Finset.mul_sum]; exact Finset.sum_congr rfl fun _ _ => by ring, this]
    ring
  · rw [hfb]
    unfold bnoKernel
    rw [hgg]
    dsimp only
    congr 1
    unfold rotate
    rw [List.map_ofFn]
    congr 1
    funext k
    show fixCol (c k) = _
    rw [hs']
    simp only [of_apply, mul_smul]
    rw [← Finset.smul_sum]
    rfl

/-- If a fixed number of natural orbitals is requested without giving the number, all of them are both bath and frozen orbitals. -/
theorem missing_number_duplicates (sol : Solvers K) (d : Data a K) (opts : List (String × Val K)) (o : Occ) (t : String) (ht : t = "mp2" ∨ t = "rpa")
    (hb : getOption opts "bathtype" o = .ok (.str t)) (hm : MissingNumber opts o) (hn : (d.env o).length ≠ 0) (f : Factory a K)
    (hf : makeFactory sol d opts o = .ok f) : ∃ c : List (Col a K), c.length = (d.env o).length ∧ getOrbitals sol d opts o f = .ok (c, c) := by
  have hfb : f = bnoKernel sol d t o := factory_bno sol d opts o t ht hb f hf
  refine ⟨(rotate (d.env o) (Matrix.of fun i k => (sol.eigh _ (d.corrDm t o)).vec i k.rev)).map fixCol, by simp [rotate], ?_⟩
  have hfin : ∀ (c : List (Col a K)) (e : List K), e ≠ [] → bnoGetBath c e d.nelecCluster (.str "number") .none = .ok (c, c) := by
    intro c e he
    unfold bnoGetBath Bno.Threshold.make
    simp only [if_true]
    rw [if_neg (by simpa using he)]
  unfold getOrbitals
  simp only [bind, Except.bind]
  rw [hb, hm.1, hm.2, hfb]
  rcases ht with rfl | rfl
  · exact hfin _ _ (by simpa [List.ofFn_eq_nil_iff] using hn)
  · exact hfin _ _ (by simpa [List.ofFn_eq_nil_iff] using hn)

omit [IsStrictOrderedRing K] in
/-- The energy-weighted bath can be made for every fragment with orbitals. -/
theorem ewdmet_succeeds (svd : (p q : Nat) → Matrix (Fin p) (Fin q) K → Svd p q K) (tol : K) (maxOrder : Nat) (fock : Matrix (Fin a) (Fin a) K)
    (frag env : List (Col a K)) (hf : 0 < frag.length) (he : 0 < env.length) : ∃ l, ewdmetKernel svd tol maxOrder fock frag.get env.get = .ok l := by
  rw [ewdmet_eq]
  have key : ∀ (fuel o p q : Nat) (low : Fin p → Col a K) (env : Fin q → Col a K), 0 < p → 0 < q → ∃ l, blockSvd svd tol fock fuel o low env = .ok l := by
    intro fuel
    induction fuel with
    | zero => exact fun o p q low env _ _ => ⟨_, rfl⟩
    | succ fuel ih =>
      intro o p q low env hp hq
      rw [blockSvd, if_neg (by omega)]
      dsimp only
      generalize ((svd p q (between fock low env)).s.filter fun x => decide (tol ≤ x)).length = n
      split
      · exact ⟨_, rfl⟩
      · split
        · exact ⟨_, rfl⟩
        · obtain ⟨l, hl⟩ := ih (o + 1) _ _ (first n (rot env (svd p q (between fock low env)).vhᵀ)) (after n (rot env (svd p q (between fock low env)).vhᵀ))
            (by omega) (by omega)
          rw [hl]
          exact ⟨_, rfl⟩
  exact key _ _ _ _ _ _ hf he

section Examples

/-- The solvers over the reals. -/
private noncomputable def realSolvers : Solvers ℝ := ⟨sortedEigh, realSvd, Real.sqrt, 1 / 10 ^ 13, 529177210903 / 10 ^ 12⟩

/-- One occupied environment orbital with a radius of 1.5 Bohr. -/
private noncomputable def oneOrbital : Data 1 ℝ :=
  { cFrag := [], cluster := fun _ => [], env := fun o => match o with | .occ => [fun _ => 1] | .vir => [], dmetThreshold := 0, ovlp := 1, dm1 := 2,
    fock := 1, fockBath := 1, r2 := diagonal fun _ => 9 / 4, natom := 1, nelecCluster := 0, corrDm := fun _ _ => 1 }

private theorem oneOrbital_good : GoodBathInput realSolvers oneOrbital :=
  ⟨sortedEigh_solves, realSvd_solves, transpose_one, diagonal_transpose _, fun _ _ => transpose_one⟩

private def bohrOptions : List (String × Val ℝ) := [("bathtype", .str "r2"), ("rcut", .int 1), ("unit", .str "Bohr")]

/-- The unit of the cutoff is ignored: with a cutoff of one Bohr, an orbital with a radius of 1.5 Bohr becomes a bath orbital. -/
theorem r2_unit_ignored : ∃ (sol : Solvers ℝ) (d : Data 1 ℝ) (opts : List (String × Val ℝ)) (f : Factory 1 ℝ) (b z : List (Col 1 ℝ)) (x : Col 1 ℝ),
    GoodBathInput sol d ∧ getOption opts "unit" .occ = .ok (.str "Bohr") ∧ getOption opts "rcut" .occ = .ok (.int 1) ∧
    makeFactory sol d opts .occ = .ok f ∧ getOrbitals sol d opts .occ f = .ok (b, z) ∧ x ∈ b ∧ (1 : ℝ) ^ 2 < meanSquareRadius d x := by
  have hval : ∀ k, 0 ≤ (sortedEigh _ (between oneOrbital.r2 (oneOrbital.env .occ).get (oneOrbital.env .occ).get)).val k := by
    intro k
    have hg := sortedEigh_solves _ _ (between_symm oneOrbital.r2 oneOrbital_good.r2 (oneOrbital.env .occ).get)
    generalize sortedEigh _ (between oneOrbital.r2 (oneOrbital.env .occ).get (oneOrbital.env .occ).get) = g at *
    have h1 : between oneOrbital.r2 (oneOrbital.env .occ).get (oneOrbital.env .occ).get = (9 / 4 : ℝ) • 1 := by
      ext i j
      have hi : i = j := Subsingleton.elim (α := Fin 1) i j
      subst hi
      rw [Matrix.smul_apply, one_apply_eq]
      simp [between, oneOrbital, diagonal, dotProduct, mulVec]
      rfl
    have h2 : (9 / 4 : ℝ) • (1 : Matrix (Fin (oneOrbital.env .occ).length) (Fin (oneOrbital.env .occ).length) ℝ) = diagonal g.val := by
      have := hg.2
      rw [h1, Matrix.smul_mul, Matrix.one_mul] at this
      calc _ = (9 / 4 : ℝ) • (g.vecᵀ * g.vec) := by rw [hg.1]
        _ = g.vecᵀ * ((9 / 4 : ℝ) • g.vec) := by rw [Matrix.mul_smul]
        _ = _ := by rw [this, ← Matrix.mul_assoc, hg.1, Matrix.one_mul]
    have h3 := congrFun (congrFun h2 k) k
    rw [diagonal_apply_eq, Matrix.smul_apply, one_apply_eq] at h3
    rw [← h3]; norm_num
  have hfac : ∃ f, makeFactory realSolvers oneOrbital bohrOptions .occ = .ok f := by
    have e : makeFactory realSolvers oneOrbital bohrOptions .occ = r2Kernel realSolvers oneOrbital .occ := rfl
    rw [e]
    unfold r2Kernel
    rw [if_neg (by simp [oneOrbital])]
    dsimp only
    rw [if_neg]
    · exact ⟨_, rfl⟩
    · rw [List.any_eq_true]
      rintro ⟨x, hx, hx'⟩
      obtain ⟨k, rfl⟩ := List.mem_ofFn.mp hx
      simp only [decide_eq_true_eq] at hx'
      have := hval k
      have hn : (-realSolvers.negTol : ℝ) < 0 := by norm_num [realSolvers]
      have hx'' : (sortedEigh _ (between oneOrbital.r2 (oneOrbital.env .occ).get (oneOrbital.env .occ).get)).val k < -realSolvers.negTol := hx'
      linarith
  obtain ⟨f, hf⟩ := hfac
  have hbz : ∃ b z, getOrbitals realSolvers oneOrbital bohrOptions .occ f = .ok (b, z) := by
    have e : makeFactory realSolvers oneOrbital bohrOptions .occ = r2Kernel realSolvers oneOrbital .occ := rfl
    rw [e] at hf
    unfold r2Kernel at hf
    split at hf
    · cases hf
    · dsimp only at hf
      split at hf
      · cases hf
      · cases hf
        suffices h : ∃ r : List (Col 1 ℝ) × List (Col 1 ℝ), r2GetBath realSolvers.bohr _ _ (.int 1) = .ok r by
          obtain ⟨⟨b, z⟩, h⟩ := h
          exact ⟨b, z, h⟩
        unfold r2GetBath toBohr
        simp only [Val.asNum, if_pos (show ("ang".startsWith "ang") = true by decide +kernel)]
        exact ⟨_, rfl⟩
  obtain ⟨b, z, hg⟩ := hbz
  have hcut := r2_bath_cutoff_partial realSolvers oneOrbital oneOrbital_good sortedEigh_ascending
    (fun x hx => ⟨Real.sqrt_nonneg x, Real.mul_self_sqrt hx⟩) (by norm_num [realSolvers]) bohrOptions .occ rfl (.int 1) 1 (by norm_num) rfl
    (by simp [Val.asNum]) f hf b z hg
  have hpart := bath_partition_partial realSolvers oneOrbital oneOrbital_good bohrOptions .occ f hf
    (by rintro ⟨h, -⟩; cases h) b z hg (by
      intro i j
      have hi : i = j := Subsingleton.elim (α := Fin 1) i j
      subst hi
      rw [if_pos rfl]
      simp only [oneOrbital, one_mulVec]
      have : ([fun _ => 1] : List (Col 1 ℝ)).get i = fun _ => 1 := by
        have := List.get_mem ([fun _ => 1] : List (Col 1 ℝ)) i
        simpa using this
      erw [this]
      simp [dotProduct])
  obtain ⟨hp1, -, hp3⟩ := hpart
  have hrad : ∀ x ∈ b ++ z, meanSquareRadius oneOrbital x = 9 / 4 := by
    intro x hx
    obtain ⟨i, hi, rfl⟩ := List.getElem_of_mem hx
    have := hp1 ⟨i, hi⟩ ⟨i, hi⟩
    rw [if_pos rfl, List.get_eq_getElem] at this
    generalize (b ++ z)[i] = v at this
    simp only [oneOrbital, one_mulVec, dotProduct, Finset.univ_unique, Finset.sum_singleton] at this
    simp only [meanSquareRadius, oneOrbital, mulVec_diagonal, dotProduct, Finset.univ_unique, Finset.sum_singleton]
    linear_combination (9 / 4) * this
  have hz : z = [] := by
    rcases z with _ | ⟨x, z⟩
    · rfl
    · exfalso
      have h1 := hcut.2 x List.mem_cons_self
      rw [hrad x (by simp)] at h1
      norm_num [realSolvers] at h1
  subst hz
  have hlen : b.length = 1 := by
    have : (oneOrbital.env .occ).length = 1 := rfl
    rw [this] at hp3
    simpa using hp3
  obtain ⟨x, rfl⟩ := List.length_eq_one_iff.mp hlen
  refine ⟨realSolvers, oneOrbital, bohrOptions, f, [x], [], x, oneOrbital_good, rfl, rfl, hf, hg, List.mem_singleton_self x, ?_⟩
  rw [hrad x (by simp)]
  norm_num

/-- A fragment with one occupied and one virtual orbital in the DMET cluster, and one of each in its environment. -/
private noncomputable def fourOrbitals : Data 4 ℝ :=
  { cFrag := [fun i => if i = 0 then 1 else 0]
    cluster := fun o => match o with | .occ => [fun i => if i = 0 then 1 else 0] | .vir => [fun i => if i = 1 then 1 else 0]
    env := fun o => match o with | .occ => [fun i => if i = 2 then 1 else 0] | .vir => [fun i => if i = 3 then 1 else 0]
    dmetThreshold := 0, ovlp := 1, dm1 := diagonal fun i => if i = 0 ∨ i = 2 then 2 else 0
    fock := 1, fockBath := 1, r2 := 1, natom := 1, nelecCluster := 2, corrDm := fun _ _ => 1 }

private theorem fourOrbitals_good : GoodBathInput realSolvers fourOrbitals :=
  ⟨sortedEigh_solves, realSvd_solves, transpose_one, transpose_one, fun _ _ => transpose_one⟩

/-- MP2 natural orbitals for the occupied, energy-weighted orbitals for the virtual space. -/
private noncomputable def mixedOptions : List (String × Val ℝ) :=
  [("bathtype", .str "dmet"), ("bathtype_occ", .str "mp2"), ("bathtype_vir", .str "ewdmet"), ("canonicalize", .bool true), ("canonicalize_vir", .bool false),
   ("order", .int 1), ("max_order", .int 20), ("threshold", .num (1 / 10 ^ 8)), ("truncation", .str "occupation"), ("project_dmet_order", .int 2),
   ("project_dmet_mode", .str "full"), ("addbuffer", .bool false)]

private theorem four_units {i j : Fin 4} : (fun k : Fin 4 => if k = i then (1 : ℝ) else 0) ⬝ᵥ (fun k => if k = j then 1 else 0) = if i = j then 1 else 0 := by
  simp only [dotProduct, ite_mul, one_mul, zero_mul, Finset.sum_ite_eq', Finset.mem_univ, if_true]

/-- The hypotheses hold for a fragment with different bath types. -/
example : ∃ c, makeCluster realSolvers fourOrbitals mixedOptions (1 / 10 ^ 6) = .ok c ∧
    OrthonormalOrbs 1 ((c.active.coeffOcc ++ c.frozen.coeffOcc) ++ (c.active.coeffVir ++ c.frozen.coeffVir)) := by
  have hm : ∀ o, ¬ MissingNumber mixedOptions o := by
    rintro (_ | _) ⟨h, -⟩ <;> (replace h : (Except.ok (Val.str "occupation") : Except PyErr (Val ℝ)) = .ok (.str "number") := h; simp at h)
  have hs : OrthonormalOrbs fourOrbitals.ovlp ((fourOrbitals.cluster .occ ++ fourOrbitals.env .occ) ++ (fourOrbitals.cluster .vir ++ fourOrbitals.env .vir)) := by
    intro i j
    have h4 : ((fourOrbitals.cluster .occ ++ fourOrbitals.env .occ) ++ (fourOrbitals.cluster .vir ++ fourOrbitals.env .vir)) =
        [fun i => if i = 0 then 1 else 0, fun i => if i = 2 then 1 else 0, fun i => if i = 1 then 1 else 0, fun i => if i = 3 then 1 else 0] := rfl
    have hov : fourOrbitals.ovlp = 1 := rfl
    rw [hov, one_mulVec]
    revert i j
    rw [h4]
    intro i j
    fin_cases i <;> fin_cases j <;> (simp only [List.get_eq_getElem]; erw [four_units]; rfl)
  have hl : ∃ l, ewdmetKernel realSolvers.svd (1 / 10 ^ 8) 20 fourOrbitals.fockBath fourOrbitals.cFrag.get (fourOrbitals.env .vir).get = .ok l :=
    ewdmet_succeeds _ _ _ _ _ _ (by simp [fourOrbitals]) (by simp [fourOrbitals])
  obtain ⟨l, hl⟩ := hl
  have hfv : makeFactory realSolvers fourOrbitals mixedOptions .vir = .ok (.ewdmet l) := by
    have e : makeFactory realSolvers fourOrbitals mixedOptions .vir =
      (ewdmetKernel realSolvers.svd (1 / 10 ^ 8) 20 fourOrbitals.fockBath fourOrbitals.cFrag.get (fourOrbitals.env .vir).get).map .ewdmet := rfl
    rw [e, hl]; rfl
  have hgv : ∃ b z, getOrbitals realSolvers fourOrbitals mixedOptions .vir (.ewdmet l) = .ok (b, z) := by
    suffices h : ∃ r, ewdmetGetBath l (.int 1) = .ok r by
      obtain ⟨⟨b, z⟩, h⟩ := h
      exact ⟨b, z, h⟩
    unfold ewdmetGetBath
    split <;> exact ⟨_, rfl⟩
  obtain ⟨bv, zv, hgv⟩ := hgv
  have hgo : ∃ b z, getOrbitals realSolvers fourOrbitals mixedOptions .occ (bnoKernel realSolvers fourOrbitals "mp2" .occ) = .ok (b, z) := by
    suffices h : ∃ r, getOrbitals realSolvers fourOrbitals mixedOptions .occ (bnoKernel realSolvers fourOrbitals "mp2" .occ) = .ok r by
      obtain ⟨⟨b, z⟩, h⟩ := h
      exact ⟨b, z, h⟩
    unfold bnoKernel
    generalize (realSolvers.eigh _ (fourOrbitals.corrDm "mp2" .occ)) = g
    have e : ∀ (coeff : List (Col 4 ℝ)) (occup : List ℝ), getOrbitals realSolvers fourOrbitals mixedOptions .occ (.bno coeff occup) =
      bnoGetBath coeff occup fourOrbitals.nelecCluster (.str "occupation") (.num (1 / 10 ^ 8)) := fun _ _ => rfl
    simp only [e, bnoGetBath, Bno.Threshold.make, show ("occupation" = "number") = False by decide, if_false, if_true, Except.bind, Bno.truncateBno,
      Bno.Threshold.getNumber]
    split <;> exact ⟨_, rfl⟩
  obtain ⟨bo, zo, hgo⟩ := hgo
  obtain ⟨c, hc⟩ := cluster_check_passes realSolvers fourOrbitals fourOrbitals_good mixedOptions (1 / 10 ^ 6) (by norm_num) hm _ _ rfl hfv bo zo bv zv hgo hgv
    (.bool true) (.bool false) rfl rfl (by simp [fourOrbitals]) (by simp [fourOrbitals])
    (((ortho_append_iff _ _ _).mp hs).1)
    (by
      intro v hv
      have : v = (fun i => if i = 0 then 1 else 0) ∨ v = fun i => if i = 2 then 1 else 0 := by simpa [fourOrbitals] using hv
      rcases this with rfl | rfl <;> (show diagonal _ *ᵥ ((1 : Matrix (Fin 4) (Fin 4) ℝ) *ᵥ _) = _; rw [one_mulVec]; ext i; fin_cases i <;> simp [mulVec_diagonal]))
    (by
      intro v hv
      have : v = (fun i => if i = 1 then 1 else 0) ∨ v = fun i => if i = 3 then 1 else 0 := by simpa [fourOrbitals] using hv
      rcases this with rfl | rfl <;> (show diagonal _ *ᵥ ((1 : Matrix (Fin 4) (Fin 4) ℝ) *ᵥ _) = _; rw [one_mulVec]; ext i; fin_cases i <;> simp [mulVec_diagonal]))
  exact ⟨c, hc, (cluster_orbitals_partial realSolvers fourOrbitals fourOrbitals_good mixedOptions _ c hc hm hs).1⟩

end Examples

end Vayesta.Props
