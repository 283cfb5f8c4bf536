import Verif.Model.Permutations
import Mathlib.GroupTheory.Perm.Fin
import Mathlib.GroupTheory.Perm.Option
import Mathlib.Data.Fintype.Perm
import Mathlib.Data.List.FinRange

namespace Vayesta.Perms

open Equiv

/-- Lift a permutation of `n` points to `n+1` points fixing the last. -/
def liftLast {n : Nat} (σ : Perm (Fin n)) : Perm (Fin (n + 1)) :=
  finSuccEquivLast.symm.permCongr (Equiv.optionCongr σ)

theorem liftLast_last {n : Nat} (σ : Perm (Fin n)) : liftLast σ (Fin.last n) = Fin.last n := by
  simp [liftLast, Equiv.permCongr_apply]

theorem liftLast_castSucc {n : Nat} (σ : Perm (Fin n)) (i : Fin n) :
    liftLast σ i.castSucc = (σ i).castSucc := by
  simp [liftLast, Equiv.permCongr_apply]

theorem sign_liftLast {n : Nat} (σ : Perm (Fin n)) : Perm.sign (liftLast σ) = Perm.sign σ := by
  rw [liftLast, Perm.sign_permCongr]
  exact Equiv.optionCongr_sign σ

/-- Moves position `p` to the end, keeping the other positions in order. -/
def toLast {n : Nat} (p : Fin (n + 1)) : Perm (Fin (n + 1)) := (finRotate (n + 1))⁻¹ * p.cycleRange

theorem toLast_self {n : Nat} (p : Fin (n + 1)) : toLast p p = Fin.last n := by
  rw [toLast, Perm.mul_apply, Fin.cycleRange_self, Perm.inv_eq_iff_eq, finRotate_last]

theorem toLast_succAbove {n : Nat} (p : Fin (n + 1)) (j : Fin n) :
    toLast p (p.succAbove j) = j.castSucc := by
  rw [toLast, Perm.mul_apply, Fin.cycleRange_succAbove, Perm.inv_eq_iff_eq, finRotate_apply]
  ext
  simp

theorem sign_toLast {n : Nat} (p : Fin (n + 1)) :
    Perm.sign (toLast p) = (-1) ^ (n + (p : Nat)) := by
  rw [toLast, Perm.sign_mul, Perm.sign_inv, sign_finRotate, Fin.sign_cycleRange]
  simp [pow_add]

/-- The permutation of `n+1` positions: new element (the last one) at position `p`, the others as in `σ`. -/
def ins {n : Nat} (p : Fin (n + 1)) (σ : Perm (Fin n)) : Perm (Fin (n + 1)) := liftLast σ * toLast p

theorem ins_self {n : Nat} (p : Fin (n + 1)) (σ : Perm (Fin n)) : ins p σ p = Fin.last n := by
  simp [ins, toLast_self, liftLast_last]

theorem ins_succAbove {n : Nat} (p : Fin (n + 1)) (σ : Perm (Fin n)) (j : Fin n) :
    ins p σ (p.succAbove j) = (σ j).castSucc := by
  simp [ins, toLast_succAbove, liftLast_castSucc]

theorem sign_ins {n : Nat} (p : Fin (n + 1)) (σ : Perm (Fin n)) :
    Perm.sign (ins p σ) = Perm.sign σ * (-1) ^ (n + (p : Nat)) := by
  rw [ins, Perm.sign_mul, sign_liftLast, sign_toLast]

theorem ins_inj {n : Nat} {p q : Fin (n + 1)} {σ τ : Perm (Fin n)} (h : ins p σ = ins q τ) :
    p = q ∧ σ = τ := by
  have hp : p = q := by
    have h1 : ins q τ p = Fin.last n := by rw [← h, ins_self]
    have h2 := ins_self q τ
    exact (ins q τ).injective (h1.trans h2.symm)
  subst hp
  refine ⟨rfl, ?_⟩
  ext j
  have h1 := ins_succAbove p σ j
  rw [h, ins_succAbove] at h1
  have := congrArg Fin.val h1
  simpa using this.symm

/-- Positions as elements of `Fin (n+1)`. -/
def finPositions (i n : Nat) : List (Fin (n + 1)) :=
  if i % 2 = 0 then (List.finRange (n + 1)).reverse else List.finRange (n + 1)

theorem finPositions_length (i n : Nat) : (finPositions i n).length = n + 1 := by
  unfold finPositions; split <;> simp

theorem finPositions_nodup (i n : Nat) : (finPositions i n).Nodup := by
  unfold finPositions; split <;> simp [List.nodup_finRange]

theorem map_val_finPositions (i n : Nat) :
    (finPositions i n).map Fin.val = insertPositions i n := by
  unfold finPositions insertPositions
  split <;> simp [List.map_reverse, List.map_coe_finRange_eq_range]

/-- The list of permutations of `Fin n` in the order in which the code generates them. -/
def permList : (n : Nat) → List (Perm (Fin n))
  | 0 => [1]
  | n + 1 => (permList n).zipIdx.flatMap fun (σ, i) => (finPositions i n).map fun p => ins p σ

theorem insertAt_ofFn {α : Type*} {n : Nat} (f : Fin (n + 1) → α) (σ : Perm (Fin n)) (p : Fin (n + 1)) :
    insertAt (List.ofFn fun i => f (σ i).castSucc) (f (Fin.last n)) p
      = List.ofFn fun i => f (ins p σ i) := by
  unfold insertAt
  rw [List.append_assoc]
  apply List.ext_getElem
  · have := p.2
    simp
    omega
  · intro k hk1 hk2
    have hk : k < n + 1 := by simpa using hk2
    have hp := p.2
    rw [List.getElem_ofFn]
    rcases lt_trichotomy k (p : Nat) with h | h | h
    · have hkn : k < n := by omega
      have e : (⟨k, hk⟩ : Fin (n + 1)) = p.succAbove ⟨k, hkn⟩ := by
        rw [Fin.succAbove_of_castSucc_lt]
        · rfl
        · simpa [Fin.lt_def] using h
      rw [e, ins_succAbove]
      rw [List.getElem_append_left (by simp; omega)]
      simp
    · have e : (⟨k, hk⟩ : Fin (n + 1)) = p := Fin.ext h
      rw [e, ins_self]
      subst h
      rw [List.getElem_append_right (by simp)]
      simp
      have : (p : Nat) - min (p : Nat) n = 0 := by omega
      simp [this]
    · have hkn : k - 1 < n := by omega
      have e : (⟨k, hk⟩ : Fin (n + 1)) = p.succAbove ⟨k - 1, hkn⟩ := by
        rw [Fin.succAbove_of_le_castSucc]
        · ext; simp; omega
        · simp [Fin.le_def]; omega
      rw [e, ins_succAbove]
      have e3 : min (p : Nat) n = p := by omega
      rw [List.getElem_append_right (by simp; omega), List.getElem_append_right (by simp; omega)]
      have e2 : (p : Nat) + (k - (p : Nat) - 1) = k - 1 := by omega
      simp [e2, e3]

theorem permsRev_eq {α : Type*} {n : Nat} (f : Fin n → α) :
    permsRev (List.ofFn f).reverse = (permList n).map fun σ => List.ofFn fun i => f (σ i) := by
  induction n with
  | zero => simp [permsRev, permList]
  | succ n ih =>
    have h1 : (List.ofFn f).reverse = f (Fin.last n) :: (List.ofFn fun i : Fin n => f i.castSucc).reverse := by
      rw [List.ofFn_succ_last]
      simp
    rw [h1, permsRev, ih (fun i => f i.castSucc), permList, List.zipIdx_map, List.flatMap_map, List.map_flatMap]
    congr 1
    funext x
    obtain ⟨σ, i⟩ := x
    simp only [Prod.map_apply, id_eq, List.length_ofFn, ← map_val_finPositions, List.map_map]
    congr 1
    funext p
    simp only [Function.comp]
    exact insertAt_ofFn f σ p

theorem permList_length (n : Nat) : (permList n).length = n.factorial := by
  induction n with
  | zero => rfl
  | succ n ih =>
    rw [permList, List.length_flatMap]
    simp only [List.length_map, finPositions_length, List.map_const', List.length_zipIdx, ih, List.sum_replicate]
    rw [Nat.factorial_succ, smul_eq_mul, mul_comm]

theorem permList_nodup (n : Nat) : (permList n).Nodup := by
  induction n with
  | zero => simp [permList]
  | succ n ih =>
    rw [permList, List.nodup_flatMap]
    constructor
    · rintro ⟨σ, i⟩ _
      exact (finPositions_nodup i n).map fun p q h => (ins_inj h).1
    · have hz : (permList n).zipIdx.Pairwise (fun a b => a.1 ≠ b.1) := by
        have : ((permList n).zipIdx.map Prod.fst).Nodup := by simpa using ih
        exact (List.pairwise_map.1 this)
      refine hz.imp ?_
      rintro ⟨σ, i⟩ ⟨τ, j⟩ h
      simp only [Function.onFun, List.Disjoint, List.mem_map]
      rintro ρ ⟨p, _, rfl⟩ ⟨q, _, h2⟩
      exact h (ins_inj h2).2.symm

theorem sign_permList (n : Nat) :
    ∀ x ∈ (permList n).zipIdx, Perm.sign x.1 = (-1) ^ x.2 := by
  induction n with
  | zero =>
    intro x hx
    simp [permList] at hx
    subst hx
    simp
  | succ n ih =>
    -- generalise over the starting index of the enumeration
    have key : ∀ (l : List (Perm (Fin n) × Nat)) (s : Nat),
        (∀ k (h : k < l.length), (l[k]).2 = s + k) →
        (∀ x ∈ l, Perm.sign x.1 = (-1) ^ x.2) →
        ∀ y ∈ (l.flatMap fun (x : Perm (Fin n) × Nat) => (finPositions x.2 n).map fun p => ins p x.1).zipIdx (s * (n + 1)),
          Perm.sign y.1 = (-1) ^ y.2 := by
      intro l
      induction l with
      | nil => intro s _ _ y hy; simp at hy
      | cons x l ihl =>
        intro s hidx hsg y hy
        rw [List.flatMap_cons, List.zipIdx_append, List.mem_append] at hy
        have hx2 : x.2 = s := hidx 0 (by simp)
        rcases hy with hy | hy
        · obtain ⟨τ, m⟩ := y
          rw [List.mk_mem_zipIdx_iff_le_and_getElem?_sub, List.getElem?_map, Option.map_eq_some_iff] at hy
          obtain ⟨hle, p, hp, rfl⟩ := hy
          obtain ⟨j, rfl⟩ := Nat.exists_eq_add_of_le hle
          rw [Nat.add_sub_cancel_left] at hp
          have hsx := hsg x (by simp)
          simp only
          rw [sign_ins, hsx, hx2]
          rw [hx2] at hp
          rw [← pow_add]
          have hj : j < n + 1 := by
            have := (List.getElem?_eq_some_iff.1 hp).1
            rwa [finPositions_length] at this
          have hval : (p : Nat) = if s % 2 = 0 then n - j else j := by
            unfold finPositions at hp
            by_cases hs : s % 2 = 0
            · rw [if_pos hs] at hp ⊢
              obtain ⟨h1, h2⟩ := List.getElem?_eq_some_iff.1 hp
              rw [← h2]
              simp
            · rw [if_neg hs] at hp ⊢
              obtain ⟨h1, h2⟩ := List.getElem?_eq_some_iff.1 hp
              rw [← h2]
              simp
          apply Units.ext
          push_cast
          apply neg_one_pow_congr
          rw [hval]
          rcases Nat.even_or_odd s with hs | hs
          · have : s % 2 = 0 := Nat.even_iff.1 hs
            rw [if_pos this]
            rw [Nat.even_add, Nat.even_add, Nat.even_add, Nat.even_mul]
            have : Even (n - j) ↔ (Even n ↔ Even j) := Nat.even_sub (by omega)
            rw [this]
            tauto
          · have h2 : ¬ s % 2 = 0 := by
              rw [Nat.odd_iff] at hs; omega
            rw [if_neg h2]
            have h3 : ¬ Even s := Nat.not_even_iff_odd.2 hs
            rw [Nat.even_add, Nat.even_add, Nat.even_add, Nat.even_mul, Nat.even_add_one]
            tauto
        · rw [List.length_map, finPositions_length] at hy
          have e : s * (n + 1) + (n + 1) = (s + 1) * (n + 1) := by ring
          rw [e] at hy
          refine ihl (s + 1) ?_ (fun z hz => hsg z (List.mem_cons_of_mem _ hz)) y hy
          intro k hk
          have := hidx (k + 1) (by simpa using hk)
          simp at this
          omega
    have := key (permList n).zipIdx 0 (by intro k h; simp) ih
    simpa [permList] using this

end Vayesta.Perms
