import Verif.Lemmas.Rdm
import Verif.Spec.DemoRdm
import Mathlib.LinearAlgebra.Matrix.Trace
import Mathlib.Algebra.BigOperators.GroupWithZero.Action

/-! Matrix algebra for `Verif.Props.DemoRdm`. -/

namespace Vayesta.DemoRdm

open Vayesta.Rdm Matrix

variable {K : Type} [Field K] {nao nmo : Nat}

/-- The einsum of one fragment as a product of matrices. -/
theorem project1_eq {n m : Nat} (p d : Matrix (Fin n) (Fin n) K) (r : Matrix (Fin m) (Fin n) K) : project1 p d r = r * p * d * r.transpose := by
  funext a b
  simp only [project1, Matrix.mul_apply, Matrix.transpose_apply, Finset.sum_mul]
  rw [Finset.sum_comm]
  calc _ = ∑ i, ∑ j, ∑ x, p x i * d i j * r a x * r b j := Finset.sum_congr rfl fun _ _ => Finset.sum_comm
    _ = ∑ j, ∑ i, ∑ x, p x i * d i j * r a x * r b j := Finset.sum_comm
    _ = _ := Finset.sum_congr rfl fun _ _ => Finset.sum_congr rfl fun _ _ => Finset.sum_congr rfl fun _ _ => by ring

theorem foldl_add {ι : Type} {M : Type} [AddCommMonoid M] (f : ι → M) : ∀ (l : List ι) (a : M), l.foldl (fun d x => d + f x) a = a + (l.map f).sum
  | [], a => by simp
  | x :: l, a => by rw [List.foldl_cons, foldl_add f l, List.map_cons, List.sum_cons, add_assoc]

section
variable (e : Emb nao nmo K) (x : Frag nao K) (hb : OrthonormalBasis e) (hg : GoodCluster e x)
include hb

theorem act_frag : x.cAct.transpose * e.ovlp * x.cFrag = (e.moCluster x).transpose * (e.mo.transpose * e.ovlp * x.cFrag) := by
  unfold Emb.moCluster
  rw [transpose_mul, transpose_mul, transpose_transpose, hb.symm]
  calc x.cAct.transpose * e.ovlp * x.cFrag = x.cAct.transpose * e.ovlp * ((e.mo * e.mo.transpose * e.ovlp) * x.cFrag) := by
        rw [hb.complete, Matrix.one_mul]
    _ = _ := by simp only [Matrix.mul_assoc]

theorem frag_transpose {n m : Nat} (a : Matrix (Fin nao) (Fin n) K) (b : Matrix (Fin nao) (Fin m) K) :
    (a.transpose * e.ovlp * b).transpose = b.transpose * e.ovlp * a := by
  rw [transpose_mul, transpose_mul, transpose_transpose, hb.symm, Matrix.mul_assoc]

/-- `moFragMo` is symmetric. -/
theorem moFragMo_symm : (e.moFragMo x).transpose = e.moFragMo x := by
  unfold Emb.moFragMo
  rw [transpose_mul, frag_transpose e hb, frag_transpose e hb]

theorem clusterFragCluster_eq : e.clusterFragCluster x = (e.moCluster x).transpose * e.moFragMo x * e.moCluster x := by
  unfold Emb.clusterFragCluster Emb.moFragMo
  rw [← frag_transpose e hb x.cAct x.cFrag, act_frag e x hb, transpose_mul, transpose_transpose, frag_transpose e hb e.mo x.cFrag]
  simp only [Matrix.mul_assoc]

include hg

theorem cluster_frag : e.moCluster x * (e.moCluster x).transpose * e.moFragMo x = e.moFragMo x := by
  have h : e.moCluster x * (e.moCluster x).transpose * (e.mo.transpose * e.ovlp * x.cFrag) = e.mo.transpose * e.ovlp * x.cFrag := by
    rw [Matrix.mul_assoc, ← act_frag e x hb]
    unfold Emb.moCluster
    calc _ = e.mo.transpose * e.ovlp * (x.cAct * x.cAct.transpose * e.ovlp * x.cFrag) := by simp only [Matrix.mul_assoc]
      _ = _ := by rw [hg.contains]
  unfold Emb.moFragMo
  rw [← Matrix.mul_assoc, h]

theorem frag_cluster : e.moFragMo x * (e.moCluster x * (e.moCluster x).transpose) = e.moFragMo x := by
  have := congrArg Matrix.transpose (cluster_frag e x hb hg)
  rwa [transpose_mul, transpose_mul, transpose_transpose, moFragMo_symm e x hb] at this

/-- The rows of the projected cluster density matrix. -/
theorem cluster_projector : e.moCluster x * e.clusterFragCluster x = e.moFragMo x * e.moCluster x := by
  rw [clusterFragCluster_eq e x hb, ← Matrix.mul_assoc, ← Matrix.mul_assoc, cluster_frag e x hb hg]

theorem cluster_orth : (e.moCluster x).transpose * e.moCluster x = 1 := by
  unfold Emb.moCluster
  rw [frag_transpose e hb e.mo x.cAct]
  calc _ = x.cAct.transpose * e.ovlp * ((e.mo * e.mo.transpose * e.ovlp) * x.cAct) := by simp only [Matrix.mul_assoc]
    _ = 1 := by rw [hb.complete, Matrix.one_mul, hg.orth]

omit hb in
/-- Occupied cluster orbitals are occupied. -/
theorem meanField_cluster (y : K) : meanField nmo e.nocc y * e.moCluster x = e.moCluster x * meanField x.ncl x.nocc y := by
  funext p i
  rw [Matrix.mul_apply, Matrix.mul_apply]
  have h1 : ∑ j, meanField nmo e.nocc y p j * e.moCluster x j i = (if p.val < e.nocc then y else 0) * e.moCluster x p i := by
    rw [Finset.sum_eq_single p]
    · simp [meanField]
    · intro j _ hj; simp [meanField, Ne.symm hj]
    · intro h; exact absurd (Finset.mem_univ p) h
  have h2 : ∑ j, e.moCluster x p j * meanField x.ncl x.nocc y j i = e.moCluster x p i * (if i.val < x.nocc then y else 0) := by
    rw [Finset.sum_eq_single i]
    · simp [meanField]
    · intro j _ hj; simp [meanField, hj]
    · intro h; exact absurd (Finset.mem_univ i) h
  rw [h1, h2]
  by_cases hz : e.moCluster x p i = 0
  · simp [hz]
  · have := hg.occupied p i hz
    by_cases hp : p.val < e.nocc
    · rw [if_pos hp, if_pos (this.1 hp), mul_comm]
    · rw [if_neg hp, if_neg (fun h => hp (this.2 h)), mul_comm]

theorem meanField_cut (y : K) : (e.moCluster x).transpose * meanField nmo e.nocc y * e.moCluster x = meanField x.ncl x.nocc y := by
  rw [Matrix.mul_assoc, meanField_cluster e x hg, ← Matrix.mul_assoc, cluster_orth e x hb hg, Matrix.one_mul]

/-- The mean field of the cluster, back in the full space. -/
theorem meanField_back (y : K) : e.moFragMo x * (e.moCluster x * meanField x.ncl x.nocc y * (e.moCluster x).transpose) = e.moFragMo x * meanField nmo e.nocc y := by
  have hsym : ∀ (m k : Nat), (meanField m k y).transpose = meanField m k y := by
    intro m k
    funext i j
    simp only [transpose_apply, meanField]
    by_cases h : i = j
    · subst h; rfl
    · simp [h, Ne.symm h]
  have h := congrArg Matrix.transpose (meanField_cluster e x hg y)
  rw [transpose_mul, transpose_mul, hsym, hsym] at h
  rw [Matrix.mul_assoc, ← h, ← Matrix.mul_assoc, ← Matrix.mul_assoc, Matrix.mul_assoc (e.moFragMo x), frag_cluster e x hb hg]

end

/-- The fragment projectors sum to the identity. -/
theorem sum_moFragMo (e : Emb nao nmo K) (hb : OrthonormalBasis e) (hc : CompleteFragmentation e) : (e.frags.map e.moFragMo).sum = 1 := by
  have h : ∀ l : List (Frag nao K), (l.map e.moFragMo).sum = e.mo.transpose * e.ovlp * (l.map fun x => x.cFrag * x.cFrag.transpose * e.ovlp).sum * e.mo := by
    intro l
    induction l with
    | nil => simp
    | cons x l ih =>
      rw [List.map_cons, List.sum_cons, ih, List.map_cons, List.sum_cons, Matrix.mul_add, Matrix.add_mul]
      unfold Emb.moFragMo
      simp only [Matrix.mul_assoc]
  rw [h, hc, Matrix.mul_one, hb.orth]

end Vayesta.DemoRdm
