import Verif.Lemmas.DemoRdm
import Mathlib.Algebra.CharZero.Defs
import Mathlib.Algebra.Order.Field.Basic

/-! One spin channel of the democratically partitioned one-body density matrix. -/

namespace Vayesta.DemoRdm
open Vayesta Vayesta.Rdm Matrix

variable {K : Type} [Field K] {nao nmo : Nat}

/-- The AO result. -/
def channelAo (y : K) (e : Emb nao nmo K) (withMf symm : Bool) : Matrix (Fin nao) (Fin nao) K := e.mo * rdm1Channel y e withMf symm * e.mo.transpose

/-- with symmetrisation the result is symmetric, whatever the clusters are, and the AO result is the transformed MO result. -/
theorem channel_symmetric (y : K) (e : Emb nao nmo K) (withMf : Bool) :
    (rdm1Channel y e withMf true).transpose = rdm1Channel y e withMf true ∧ (channelAo y e withMf true).transpose = channelAo y e withMf true := by
  have h : (rdm1Channel y e withMf true).transpose = rdm1Channel y e withMf true := by
    funext p q
    simp only [rdm1Channel, if_true, transpose_apply, symmetrize1]
    rw [add_comm]
  refine ⟨h, ?_⟩
  unfold channelAo
  rw [transpose_mul, transpose_mul, transpose_transpose, h, Matrix.mul_assoc]

theorem contribution1 (y : K) (e : Emb nao nmo K) (x : Frag nao K) (hb : OrthonormalBasis e) (hg : GoodCluster e x)
    {d : Matrix (Fin nmo) (Fin nmo) K} (hx : CorrectRdm1 y e d x) :
    project1 (e.clusterFragCluster x) (x.wf.rdm1 false) (e.moCluster x) =
      e.moFragMo x * d * (e.moCluster x * (e.moCluster x).transpose) - e.moFragMo x * meanField nmo e.nocc y := by
  have hx' : x.wf.rdm1 false = (e.moCluster x).transpose * d * e.moCluster x - meanField x.ncl x.nocc y := hx
  rw [project1_eq, cluster_projector e x hb hg, hx', ← meanField_back e x hb hg y]
  rw [Matrix.mul_sub, Matrix.sub_mul]
  congr 1
  · calc _ = e.moFragMo x * (e.moCluster x * (e.moCluster x).transpose) * d * (e.moCluster x * (e.moCluster x).transpose) := by simp only [Matrix.mul_assoc]
      _ = _ := by rw [frag_cluster e x hb hg]
  · simp only [Matrix.mul_assoc]

theorem sum_sub_list {ι M : Type} [AddCommGroup M] (f g : ι → M) (l : List ι) : (l.map fun x => f x - g x).sum = (l.map f).sum - (l.map g).sum := by
  induction l with
  | nil => simp
  | cons x l ih => simp only [List.map_cons, List.sum_cons, ih]; rw [add_sub_add_comm]

theorem sum_mul_list {ι : Type} {n m k : Nat} (f : ι → Matrix (Fin n) (Fin m) K) (g : Matrix (Fin m) (Fin k) K) (l : List ι) :
    (l.map fun x => f x * g).sum = (l.map f).sum * g := by
  induction l with
  | nil => simp
  | cons x l ih => simp only [List.map_cons, List.sum_cons, ih, Matrix.add_mul]

/-- The value of the sum over fragments. -/
theorem rdm1_value (y : K) (e : Emb nao nmo K) (hb : OrthonormalBasis e) (hc : CompleteFragmentation e) (d : Matrix (Fin nmo) (Fin nmo) K)  (hx : ∀ x ∈ e.frags, GoodCluster e x ∧ CorrectRdm1 y e d x) :
    rdm1Channel y e false false = (e.frags.map fun x => e.moFragMo x * d * (e.moCluster x * (e.moCluster x).transpose)).sum - meanField nmo e.nocc y ∧
    rdm1Channel y e true false = (e.frags.map fun x => e.moFragMo x * d * (e.moCluster x * (e.moCluster x).transpose)).sum := by
  have h1 : rdm1Channel y e false false = (e.frags.map fun x => e.moFragMo x * d * (e.moCluster x * (e.moCluster x).transpose)).sum - meanField nmo e.nocc y := by
    show e.frags.foldl _ 0 = _
    rw [foldl_add, zero_add, List.map_congr_left (fun x hx' => contribution1 y e x hb (hx x hx').1 (hx x hx').2), sum_sub_list, sum_mul_list,
      sum_moFragMo e hb hc, Matrix.one_mul]
  refine ⟨h1, ?_⟩
  have : rdm1Channel y e true false = rdm1Channel y e false false + meanField nmo e.nocc y := by
    simp only [rdm1Channel, if_true, Bool.false_eq_true, if_false, addDiag_eq]
  rw [this, h1, sub_add_cancel]

theorem symm_eq (y : K) (e : Emb nao nmo K) (withMf : Bool) : rdm1Channel y e withMf true = symmetrize1 (rdm1Channel y e withMf false) := by
  simp only [rdm1Channel, if_true, Bool.false_eq_true, if_false]

theorem trace_symm [CharZero K] {n : Nat} (d : Matrix (Fin n) (Fin n) K) : (symmetrize1 d).trace = d.trace := by
  unfold Matrix.trace
  refine Finset.sum_congr rfl fun i _ => ?_
  simp only [symmetrize1, diag_apply]
  exact add_self_div_two _

/-- if the fragments are complete, every cluster contains its fragment and has the right density matrix of its orbitals, then the
number of electrons is right, whatever the clusters are otherwise. -/
theorem channel_electrons [CharZero K] (y : K) (e : Emb nao nmo K) (hb : OrthonormalBasis e) (hc : CompleteFragmentation e)
    (d : Matrix (Fin nmo) (Fin nmo) K)  (hx : ∀ x ∈ e.frags, GoodCluster e x ∧ CorrectRdm1 y e d x) (symm : Bool) :
    (rdm1Channel y e true symm).trace = d.trace ∧ (rdm1Channel y e false symm).trace = d.trace - (meanField nmo e.nocc y).trace ∧
    (channelAo y e true symm * e.ovlp).trace = d.trace := by
  have hs : ((e.frags.map fun x => e.moFragMo x * d * (e.moCluster x * (e.moCluster x).transpose)).sum).trace = d.trace := by
    have h1 : ∀ l : List (Frag nao K), (∀ x ∈ l, GoodCluster e x) →
        ((l.map fun x => e.moFragMo x * d * (e.moCluster x * (e.moCluster x).transpose)).sum).trace = ((l.map e.moFragMo).sum * d).trace := by
      intro l hl
      induction l with
      | nil => simp
      | cons x l ih =>
        rw [List.map_cons, List.sum_cons, trace_add, ih (fun y hy => hl y (List.mem_cons_of_mem _ hy)), List.map_cons, List.sum_cons,
          Matrix.add_mul, trace_add, trace_mul_comm, ← Matrix.mul_assoc, cluster_frag e x hb (hl x List.mem_cons_self)]
    rw [h1 _ (fun x h => (hx x h).1), sum_moFragMo e hb hc, Matrix.one_mul]
  obtain ⟨v1, v2⟩ := rdm1_value y e hb hc d hx
  have hall : (rdm1Channel y e true symm).trace = d.trace ∧ (rdm1Channel y e false symm).trace = d.trace - (meanField nmo e.nocc y).trace := by
    cases symm
    · rw [v1, v2, trace_sub, hs]; exact ⟨rfl, rfl⟩
    · rw [symm_eq, symm_eq, trace_symm, trace_symm, v1, v2, trace_sub, hs]; exact ⟨rfl, rfl⟩
  refine ⟨hall.1, hall.2, ?_⟩
  unfold channelAo
  rw [Matrix.mul_assoc, Matrix.mul_assoc, trace_mul_comm, Matrix.mul_assoc, Matrix.mul_assoc, ← Matrix.mul_assoc e.mo.transpose, hb.orth, Matrix.mul_one]
  exact hall.1

/-- the elements between a fragment and the orbitals of its cluster are right (without symmetrisation); with symmetrisation those
between the orbitals of one fragment are. -/
theorem channel_fragment_block [CharZero K] (y : K) (e : Emb nao nmo K) (hb : OrthonormalBasis e) (hc : CompleteFragmentation e)
    (d : Matrix (Fin nmo) (Fin nmo) K)  (hx : ∀ x ∈ e.frags, GoodCluster e x ∧ CorrectRdm1 y e d x)
    (x : Frag nao K) (l₁ l₂ : List (Frag nao K)) (hl : e.frags = l₁ ++ x :: l₂) (hself : x.cFrag.transpose * e.ovlp * x.cFrag = 1)
    (hother : ∀ y ∈ l₁ ++ l₂, y.cFrag.transpose * e.ovlp * x.cFrag = 0) :
    x.cFrag.transpose * e.ovlp * channelAo y e true false * e.ovlp * x.cAct =
      x.cFrag.transpose * e.ovlp * (e.mo * d * e.mo.transpose) * e.ovlp * x.cAct ∧
    (d.transpose = d → x.cFrag.transpose * e.ovlp * channelAo y e true true * e.ovlp * x.cFrag =
      x.cFrag.transpose * e.ovlp * (e.mo * d * e.mo.transpose) * e.ovlp * x.cFrag) := by
  obtain ⟨-, v⟩ := rdm1_value y e hb hc d hx
  have hmem : x ∈ e.frags := by rw [hl]; simp
  have hg := (hx x hmem).1
  -- the fragment orbitals in the basis of molecular orbitals
  have hF : ∀ y : Frag nao K, (e.mo.transpose * e.ovlp * y.cFrag).transpose = y.cFrag.transpose * e.ovlp * e.mo := fun y => frag_transpose e hb _ _
  have hcom : ∀ y : Frag nao K, (y.cFrag.transpose * e.ovlp * e.mo) * (e.mo.transpose * e.ovlp * x.cFrag) = y.cFrag.transpose * e.ovlp * x.cFrag := by
    intro y
    calc _ = y.cFrag.transpose * e.ovlp * ((e.mo * e.mo.transpose * e.ovlp) * x.cFrag) := by simp only [Matrix.mul_assoc]
      _ = _ := by rw [hb.complete, Matrix.one_mul]
  have hP0 : ∀ y ∈ l₁ ++ l₂, (x.cFrag.transpose * e.ovlp * e.mo) * e.moFragMo y = 0 := by
    intro y hy
    have := congrArg Matrix.transpose (hcom y)
    rw [transpose_mul, ← hF y, transpose_transpose, frag_transpose e hb, hother y hy, transpose_zero] at this
    unfold Emb.moFragMo
    rw [← Matrix.mul_assoc, this, Matrix.zero_mul]
  have hP1 : (x.cFrag.transpose * e.ovlp * e.mo) * e.moFragMo x = x.cFrag.transpose * e.ovlp * e.mo := by
    unfold Emb.moFragMo
    rw [← Matrix.mul_assoc, hcom x, hself, Matrix.one_mul]
  have hrow : (x.cFrag.transpose * e.ovlp * e.mo) * rdm1Channel y e true false =
      (x.cFrag.transpose * e.ovlp * e.mo) * d * (e.moCluster x * (e.moCluster x).transpose) := by
    rw [v, hl]
    have hz : ∀ l : List (Frag nao K), (∀ y ∈ l, (x.cFrag.transpose * e.ovlp * e.mo) * e.moFragMo y = 0) →
        (x.cFrag.transpose * e.ovlp * e.mo) * (l.map fun y => e.moFragMo y * d * (e.moCluster y * (e.moCluster y).transpose)).sum = 0 := by
      intro l hl0
      induction l with
      | nil => simp
      | cons y l ih =>
        rw [List.map_cons, List.sum_cons, Matrix.mul_add, ih (fun z hz => hl0 z (List.mem_cons_of_mem _ hz)), Matrix.mul_assoc (e.moFragMo y), ← Matrix.mul_assoc,
          hl0 y List.mem_cons_self, Matrix.zero_mul, add_zero]
    rw [List.map_append, List.sum_append, List.map_cons, List.sum_cons, Matrix.mul_add, Matrix.mul_add,
      hz l₁ (fun y hy => hP0 y (List.mem_append_left _ hy)), hz l₂ (fun y hy => hP0 y (List.mem_append_right _ hy)), zero_add, add_zero,
      Matrix.mul_assoc (e.moFragMo x), ← Matrix.mul_assoc, hP1]
    simp only [Matrix.mul_assoc]
  have hQact : (e.moCluster x * (e.moCluster x).transpose) * (e.mo.transpose * e.ovlp * x.cAct) = e.mo.transpose * e.ovlp * x.cAct := by
    show (e.moCluster x * (e.moCluster x).transpose) * e.moCluster x = _
    rw [Matrix.mul_assoc, cluster_orth e x hb hg, Matrix.mul_one]; rfl
  have hQfrag : (e.moCluster x * (e.moCluster x).transpose) * (e.mo.transpose * e.ovlp * x.cFrag) = e.mo.transpose * e.ovlp * x.cFrag := by
    have h := cluster_frag e x hb hg
    have h' := congrArg (fun m => m * (e.mo.transpose * e.ovlp * x.cFrag)) h
    have hPF : e.moFragMo x * (e.mo.transpose * e.ovlp * x.cFrag) = e.mo.transpose * e.ovlp * x.cFrag := by
      unfold Emb.moFragMo
      rw [Matrix.mul_assoc, hcom x, hself, Matrix.mul_one]
    beta_reduce at h'
    rw [Matrix.mul_assoc, hPF] at h'
    exact h'
  have hao : ∀ (m : Matrix (Fin nmo) (Fin nmo) K) (k : Nat) (c : Matrix (Fin nao) (Fin k) K),
      x.cFrag.transpose * e.ovlp * (e.mo * m * e.mo.transpose) * e.ovlp * c = (x.cFrag.transpose * e.ovlp * e.mo) * m * (e.mo.transpose * e.ovlp * c) := by
    intro m k c; simp only [Matrix.mul_assoc]
  constructor
  · rw [channelAo, hao, hao, hrow, Matrix.mul_assoc _ (e.moCluster x * _), hQact]
  · intro hd
    have hFMF : (x.cFrag.transpose * e.ovlp * e.mo) * rdm1Channel y e true false * (e.mo.transpose * e.ovlp * x.cFrag) =
        (x.cFrag.transpose * e.ovlp * e.mo) * d * (e.mo.transpose * e.ovlp * x.cFrag) := by
      rw [hrow, Matrix.mul_assoc _ (e.moCluster x * _), hQfrag]
    have hFMF' := congrArg Matrix.transpose hFMF
    have hT : ∀ m : Matrix (Fin nmo) (Fin nmo) K, ((x.cFrag.transpose * e.ovlp * e.mo) * m * (e.mo.transpose * e.ovlp * x.cFrag)).transpose =
        (x.cFrag.transpose * e.ovlp * e.mo) * m.transpose * (e.mo.transpose * e.ovlp * x.cFrag) := by
      intro m
      rw [transpose_mul, hF, transpose_mul, frag_transpose e hb]
      simp only [Matrix.mul_assoc]
    rw [hT, hT, hd] at hFMF'
    have hsy : rdm1Channel y e true true = (2 : K)⁻¹ • (rdm1Channel y e true false + (rdm1Channel y e true false).transpose) := by
      rw [symm_eq]
      funext p q
      simp only [symmetrize1, Matrix.smul_apply, Matrix.add_apply, transpose_apply, smul_eq_mul]
      ring
    rw [channelAo, hao, hao, hsy, Matrix.mul_smul, Matrix.smul_mul, Matrix.mul_add, Matrix.add_mul, hFMF, hFMF', ← two_smul K, smul_smul,
      inv_mul_cancel₀ two_ne_zero, one_smul]

/-- the whole density matrix is right if it does not couple any fragment to the outside of its cluster, in particular if the
clusters span all orbitals. -/
theorem channel_exact [CharZero K] (y : K) (e : Emb nao nmo K) (hb : OrthonormalBasis e) (hc : CompleteFragmentation e)
    (d : Matrix (Fin nmo) (Fin nmo) K)  (hx : ∀ x ∈ e.frags, GoodCluster e x ∧ CorrectRdm1 y e d x)
    (hcov : ∀ x ∈ e.frags, (x.cFrag.transpose * e.ovlp * e.mo) * d * (e.mo.transpose * e.ovlp * x.cAct) * (x.cAct.transpose * e.ovlp * e.mo) =
      (x.cFrag.transpose * e.ovlp * e.mo) * d) :
    rdm1Channel y e true false = d ∧ channelAo y e true false = e.mo * d * e.mo.transpose ∧ rdm1Channel y e false false = d - meanField nmo e.nocc y ∧
    (d.transpose = d → rdm1Channel y e true true = d) := by
  obtain ⟨v1, v2⟩ := rdm1_value y e hb hc d hx
  have hsum : (e.frags.map fun x => e.moFragMo x * d * (e.moCluster x * (e.moCluster x).transpose)).sum = d := by
    have : ∀ x ∈ e.frags, e.moFragMo x * d * (e.moCluster x * (e.moCluster x).transpose) = e.moFragMo x * d := by
      intro x hx'
      have h := hcov x hx'
      rw [← frag_transpose e hb e.mo x.cAct] at h
      unfold Emb.moFragMo Emb.moCluster
      calc _ = (e.mo.transpose * e.ovlp * x.cFrag) * ((x.cFrag.transpose * e.ovlp * e.mo) * d * (e.mo.transpose * e.ovlp * x.cAct) * (e.mo.transpose * e.ovlp * x.cAct).transpose) := by
            simp only [Matrix.mul_assoc]
        _ = _ := by rw [h]; simp only [Matrix.mul_assoc]
    rw [List.map_congr_left this, sum_mul_list, sum_moFragMo e hb hc, Matrix.one_mul]
  rw [hsum] at v1 v2
  refine ⟨v2, by rw [channelAo, v2], v1, fun hd => ?_⟩
  rw [symm_eq, v2]
  funext p q
  have : d q p = d p q := congrFun (congrFun hd p) q
  simp only [symmetrize1, this]
  exact add_self_div_two _

end Vayesta.DemoRdm
