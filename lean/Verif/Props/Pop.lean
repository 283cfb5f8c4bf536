import Verif.Model.Pop
import Mathlib.LinearAlgebra.Matrix.Trace
import Mathlib.LinearAlgebra.Matrix.NonsingularInverse
import Mathlib.LinearAlgebra.Matrix.Notation
import Mathlib.Algebra.BigOperators.Fin
import Mathlib.Algebra.BigOperators.Ring.Finset
import Mathlib.Algebra.BigOperators.Group.Finset.Sigma
import Mathlib.Algebra.Field.Rat
import Mathlib.Algebra.Order.Ring.Rat
import Mathlib.Tactic.Ring

/-! C31: populations and atomic charges. -/

namespace Vayesta.Props
open Vayesta Vayesta.Pop Matrix

variable {K : Type} [Field K] {nao : Nat}

/-- Number of electrons of a density matrix in a basis with overlap `s`. -/
def electronCount (s dm : Matrix (Fin nao) (Fin nao) K) : K := (dm * s).trace

/-- A set of orbitals resolves the identity: `C Cᵀ S = 1`. -/
def ResolvesOne {n : Nat} (s : Matrix (Fin nao) (Fin nao) K) (c : Matrix (Fin nao) (Fin n) K) : Prop := c * c.transpose * s = 1

private theorem mulliken_sum (s dm : Matrix (Fin nao) (Fin nao) K) : (mulliken s dm).sum = electronCount s dm := by
  unfold mulliken electronCount
  rw [List.sum_ofFn]
  rfl

private theorem quad_diag {n : Nat} (m : Matrix (Fin n) (Fin nao) K) (dm : Matrix (Fin nao) (Fin nao) K) (i : Fin n) :
    ∑ a, ∑ b, m i a * dm a b * m i b = (m * dm * m.transpose) i i := by
  rw [Matrix.mul_apply, Finset.sum_comm]
  refine Finset.sum_congr rfl fun b _ => ?_
  rw [Matrix.mul_apply, Finset.sum_mul]
  rfl

private theorem localPop_sum {n : Nat} (s dm : Matrix (Fin nao) (Fin nao) K) (c : Matrix (Fin nao) (Fin n) K) (hs : s.transpose = s) :
    (localPop s dm c).sum = (dm * (s * (c * c.transpose * s))).trace := by
  unfold localPop
  rw [List.sum_ofFn]
  refine (Finset.sum_congr rfl fun i _ => quad_diag (c.transpose * s) dm i).trans ?_
  show (c.transpose * s * dm * (c.transpose * s).transpose).trace = _
  rw [transpose_mul, transpose_transpose, hs, trace_mul_comm]
  rw [← Matrix.mul_assoc, trace_mul_comm]
  simp only [Matrix.mul_assoc]

/-- **C31**: Mulliken populations add up to the number of electrons; populations of local orbitals do if the orbitals resolve the
identity, in particular Löwdin populations. -/
theorem pop_conserves_electrons (s lowdin iaopao dm : Matrix (Fin nao) (Fin nao) K) (hs : s.transpose = s) :
    (∃ pop, popAnalysis s lowdin iaopao dm (.name "mulliken") = .ok pop ∧ pop.length = nao ∧ pop.sum = electronCount s dm) ∧
    (∀ (n : Nat) (c : Matrix (Fin nao) (Fin n) K), ResolvesOne s c →
      ∃ pop, popAnalysis s lowdin iaopao dm (.orbitals n c) = .ok pop ∧ pop.length = n ∧ pop.sum = electronCount s dm) ∧
    (lowdin.transpose = lowdin → lowdin * s * lowdin = 1 →
      ∃ pop, popAnalysis s lowdin iaopao dm (.name "lowdin") = .ok pop ∧ pop.length = nao ∧ pop.sum = electronCount s dm) ∧
    (ResolvesOne s iaopao →
      ∃ pop, popAnalysis s lowdin iaopao dm (.name "iao+pao") = .ok pop ∧ pop.length = nao ∧ pop.sum = electronCount s dm) := by
  have key : ∀ (n : Nat) (c : Matrix (Fin nao) (Fin n) K), ResolvesOne s c → (localPop s dm c).sum = electronCount s dm := by
    intro n c hc
    rw [localPop_sum s dm c hs, hc, Matrix.mul_one]; rfl
  have m1 : popAnalysis s lowdin iaopao dm (.name "mulliken") = .ok (mulliken s dm) := by
    have : "mulliken".toLower = "mulliken" := by decide +kernel
    simp [popAnalysis, this]
  have m2 : popAnalysis s lowdin iaopao dm (.name "lowdin") = .ok (localPop s dm lowdin) := by
    have : "lowdin".toLower = "lowdin" := by decide +kernel
    simp [popAnalysis, loCoeff, this, Except.map]
  have m3 : popAnalysis s lowdin iaopao dm (.name "iao+pao") = .ok (localPop s dm iaopao) := by
    have : "iao+pao".toLower = "iao+pao" := by decide +kernel
    simp [popAnalysis, loCoeff, this, Except.map]
  refine ⟨⟨_, m1, by simp [mulliken], mulliken_sum s dm⟩, fun n c hc => ⟨_, rfl, by simp [localPop], key n c hc⟩,
    fun hl h1 => ⟨_, m2, by simp [localPop], key _ _ ?_⟩, fun hc => ⟨_, m3, by simp [localPop], key _ _ hc⟩⟩
  show lowdin * lowdin.transpose * s = 1
  rw [hl]
  have h2 : (s * lowdin) * lowdin = 1 := mul_eq_one_comm.mp (by rw [← Matrix.mul_assoc]; exact h1)
  have := congrArg Matrix.transpose h2
  rw [transpose_mul, transpose_mul, hl, hs, transpose_one, ← Matrix.mul_assoc] at this
  exact this

/-- **C31**: names are read without regard to case, unknown names raise ValueError. -/
theorem pop_names (s lowdin iaopao dm : Matrix (Fin nao) (Fin nao) K) (x : String) :
    (∃ pop, popAnalysis s lowdin iaopao dm (.name x) = .ok pop) ↔ x.toLower = "mulliken" ∨ x.toLower = "lowdin" ∨ x.toLower = "iao+pao" := by
  simp only [popAnalysis, loCoeff]
  by_cases h1 : x.toLower = "mulliken"
  · simp [h1]
  · by_cases h2 : x.toLower = "lowdin"
    · simp [h2, Except.map]
    · by_cases h3 : x.toLower = "iao+pao"
      · simp [h3, Except.map]
      · simp [h1, h2, h3, Except.map]

/-- **C31**: a density matrix given with orthonormal orbitals has as many electrons as its trace. -/
theorem pop_mo_basis {n : Nat} (s : Matrix (Fin nao) (Fin nao) K) (c : Matrix (Fin nao) (Fin n) K) (hc : c.transpose * s * c = 1)
    (dm : Matrix (Fin n) (Fin n) K) : electronCount s (toAo c dm) = dm.trace := by
  have : toAo c dm = c * dm * c.transpose := by
    funext a b
    show ∑ i, ∑ j, c a i * dm i j * c b j = _
    rw [Matrix.mul_apply, Finset.sum_comm]
    refine Finset.sum_congr rfl fun j _ => ?_
    rw [Matrix.mul_apply, Finset.sum_mul]
    rfl
  unfold electronCount
  rw [this, Matrix.mul_assoc, Matrix.mul_assoc, trace_mul_comm, Matrix.mul_assoc, hc, Matrix.mul_one]

/-- **C31**: orbitals which do not span everything lose electrons, without any error. -/
theorem pop_incomplete_orbitals :
    popAnalysis (1 : Matrix (Fin 2) (Fin 2) ℚ) 1 1 1 (.orbitals 1 fun i _ => if i = 0 then 1 else 0) = .ok [1] ∧
    electronCount (1 : Matrix (Fin 2) (Fin 2) ℚ) 1 = 2 := by
  constructor <;> decide +kernel

private theorem foldl_addAt {n : Nat} {ι : Type} (at_ : ι → Fin n) (x : ι → K) : ∀ (l : List ι) (q : Fin n → K) (j : Fin n),
    l.foldl (fun q i => addAt (at_ i) (x i) q) q j = q j + (l.map fun i => if j = at_ i then x i else 0).sum
  | [], q, j => by simp
  | i :: l, q, j => by
    rw [List.foldl_cons, foldl_addAt at_ x l]
    simp only [addAt, List.map_cons, List.sum_cons]
    ring

private theorem foldlM_addAt (m : Mol nao K) (pa pb : List K) (ha : nao ≤ pa.length) (hb : nao ≤ pb.length) :
    ∀ (l : List (Fin nao)) (qs : (Fin m.natm → K) × (Fin m.natm → K)), l.foldlM (chargeStep m pa pb) qs =
      .ok (l.foldl (fun q i => addAt (m.atomOf i) (-(pa.getD i 0 + pb.getD i 0)) q) qs.1, l.foldl (fun q i => addAt (m.atomOf i) (pa.getD i 0 - pb.getD i 0) q) qs.2)
  | [], qs => rfl
  | i :: l, qs => by
    rw [List.foldlM_cons]
    have h1 : pa[i.val]? = some (pa.getD i 0) := by
      rw [List.getD_eq_getElem?_getD, List.getElem?_eq_getElem (by omega)]; rfl
    have h2 : pb[i.val]? = some (pb.getD i 0) := by
      rw [List.getD_eq_getElem?_getD, List.getElem?_eq_getElem (by omega)]; rfl
    have h3 : chargeStep m pa pb qs i = .ok (addAt (m.atomOf i) (-(pa.getD i 0 + pb.getD i 0)) qs.1, addAt (m.atomOf i) (pa.getD i 0 - pb.getD i 0) qs.2) := by
      unfold chargeStep
      rw [h1, h2]
    rw [h3]
    exact foldlM_addAt m pa pb ha hb l _

private theorem sum_finRange {n : Nat} (f : Fin n → K) : ((List.finRange n).map f).sum = ∑ i, f i := by
  rw [← List.ofFn_eq_map, List.sum_ofFn]

private theorem sum_pop (pop : List K) (h : pop.length = nao) : ∑ i : Fin nao, pop.getD i 0 = pop.sum := by
  subst h
  rw [← List.sum_ofFn]
  congr 1
  apply List.ext_getElem <;> simp

private theorem sum_over_atoms {n : Nat} (f : Fin nao → Fin n) (x : Fin nao → K) : ∑ j, ∑ i, (if j = f i then x i else 0) = ∑ i, x i := by
  rw [Finset.sum_comm]
  refine Finset.sum_congr rfl fun i _ => ?_
  simp

/-- **C31**: the charge of an atom is its nuclear charge minus the populations of its orbitals; all charges together are the nuclear
charge minus the number of electrons. Any other number of populations is refused. -/
theorem atomic_charges_sum (m : Mol nao K) (pop : List K) :
    (pop.length = nao → ∃ q sp, atomicCharges m pop = .ok (q, sp) ∧
      (∀ j, q j = m.charge j - ∑ i, if m.atomOf i = j then pop.getD i 0 else 0) ∧ ∑ j, q j = (∑ j, m.charge j) - pop.sum ∧ ∀ j, sp j = 0) ∧
    (pop.length ≠ nao → atomicCharges m pop = .error .valueError) := by
  constructor
  · intro h
    have hq : ∀ j, (List.finRange nao).foldl (fun q i => addAt (m.atomOf i) (-(pop.getD i 0)) q) (fun _ => 0) j + m.charge j =
        m.charge j - ∑ i, if m.atomOf i = j then pop.getD i 0 else 0 := by
      intro j
      rw [foldl_addAt (m.atomOf) (fun i => -(pop.getD i 0)), sum_finRange, zero_add, add_comm, sub_eq_add_neg, ← Finset.sum_neg_distrib]
      congr 1
      refine Finset.sum_congr rfl fun i _ => ?_
      by_cases hj : j = m.atomOf i
      · simp [hj]
      · simp [hj, Ne.symm hj]
    refine ⟨_, _, by rw [atomicCharges, if_neg (not_not.mpr h)], hq, ?_, fun _ => rfl⟩
    simp only [hq, Finset.sum_sub_distrib]
    congr 1
    rw [← sum_pop pop h, ← sum_over_atoms m.atomOf fun i => pop.getD i 0]
    exact Finset.sum_congr rfl fun j _ => Finset.sum_congr rfl fun i _ => by simp only [eq_comm]
  · intro h; simp [atomicCharges, h]

/-- **C31**: unrestricted calculations: charges and spin populations, with populations of the right length. -/
theorem atomic_charges_spin (m : Mol nao K) (pa pb : List K) (ha : pa.length = nao) (hb : pb.length = nao) :
    ∃ q sp, atomicChargesU m pa pb = .ok (q, sp) ∧
      (∀ j, q j = m.charge j - ∑ i, if m.atomOf i = j then pa.getD i 0 + pb.getD i 0 else 0) ∧
      (∀ j, sp j = ∑ i, if m.atomOf i = j then pa.getD i 0 - pb.getD i 0 else 0) ∧
      ∑ j, q j = (∑ j, m.charge j) - (pa.sum + pb.sum) ∧ ∑ j, sp j = pa.sum - pb.sum := by
  have hq : ∀ j, (List.finRange nao).foldl (fun q i => addAt (m.atomOf i) (-(pa.getD i 0 + pb.getD i 0)) q) (fun _ => 0) j + m.charge j =
      m.charge j - ∑ i, if m.atomOf i = j then pa.getD i 0 + pb.getD i 0 else 0 := by
    intro j
    rw [foldl_addAt (m.atomOf) (fun i => -(pa.getD i 0 + pb.getD i 0)), sum_finRange, zero_add, add_comm, sub_eq_add_neg, ← Finset.sum_neg_distrib]
    congr 1
    refine Finset.sum_congr rfl fun i _ => ?_
    by_cases hj : j = m.atomOf i
    · simp [hj]
    · simp [hj, Ne.symm hj]
  have hsp : ∀ j, (List.finRange nao).foldl (fun q i => addAt (m.atomOf i) (pa.getD i 0 - pb.getD i 0) q) (fun _ => 0) j =
      ∑ i, if m.atomOf i = j then pa.getD i 0 - pb.getD i 0 else 0 := by
    intro j
    rw [foldl_addAt (m.atomOf) (fun i => pa.getD i 0 - pb.getD i 0), sum_finRange, zero_add]
    exact Finset.sum_congr rfl fun i _ => by simp only [eq_comm]
  refine ⟨_, _, by unfold atomicChargesU; rw [foldlM_addAt m pa pb (by omega) (by omega)]; rfl, hq, hsp, ?_, ?_⟩
  · simp only [hq, Finset.sum_sub_distrib]
    congr 1
    rw [← sum_pop pa ha, ← sum_pop pb hb, ← Finset.sum_add_distrib, ← sum_over_atoms m.atomOf fun i => pa.getD i 0 + pb.getD i 0]
    exact Finset.sum_congr rfl fun j _ => Finset.sum_congr rfl fun i _ => by simp only [eq_comm]
  · simp only [hsp]
    rw [← sum_pop pa ha, ← sum_pop pb hb, ← Finset.sum_sub_distrib, ← sum_over_atoms m.atomOf fun i => pa.getD i 0 - pb.getD i 0]
    exact Finset.sum_congr rfl fun j _ => Finset.sum_congr rfl fun i _ => by simp only [eq_comm]

/-- **C31**: the unrestricted function does not check the number of populations: additional ones are left out of the charges. -/
theorem atomic_charges_spin_unchecked :
    ∃ q sp, atomicChargesU (⟨1, fun _ => 2, fun _ => 0⟩ : Mol 1 ℚ) [1, 1] [0, 0] = .ok (q, sp) ∧ ∑ j, q j ≠ 2 - (([1, 1] : List ℚ).sum + ([0, 0] : List ℚ).sum) := by
  refine ⟨_, _, rfl, ?_⟩
  decide +kernel

/-- Two atoms, three orbitals; an overlap which is not the identity and its inverse root. -/
example : ∃ q sp, atomicCharges (⟨2, fun j => if j = 0 then 3 else 1, fun i => if i.val < 2 then 0 else 1⟩ : Mol 3 ℚ) [1, 3 / 2, 1 / 2] = .ok (q, sp) ∧
    q 0 = 1 / 2 ∧ q 1 = 1 / 2 := ⟨_, _, rfl, by decide +kernel, by decide +kernel⟩
example : (!![1, -1 / 3; -1 / 3, 1] : Matrix (Fin 2) (Fin 2) ℚ).transpose = !![1, -1 / 3; -1 / 3, 1] ∧
    (!![1, -1 / 3; -1 / 3, 1] : Matrix (Fin 2) (Fin 2) ℚ) * !![45 / 32, 27 / 32; 27 / 32, 45 / 32] * !![1, -1 / 3; -1 / 3, 1] = 1 := by
  constructor <;> decide +kernel

end Vayesta.Props
