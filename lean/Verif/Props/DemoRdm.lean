import Verif.Lemmas.DemoRdm2
import Verif.Props.Rdm
import Mathlib.Tactic.FinCases
import Mathlib.LinearAlgebra.Matrix.Notation
import Mathlib.Algebra.Field.Rat
import Mathlib.Algebra.Order.Ring.Rat
import Mathlib.Tactic.NormNum
import Mathlib.Tactic.FieldSimp

/-! C29: democratically partitioned one-body density matrices; C57: two-body density matrices. -/

namespace Vayesta.Props
open Vayesta Vayesta.Rdm Vayesta.DemoRdm Matrix

variable {K : Type} [Field K] {nao nmo nmoa nmob : Nat}

/-- The wave functions of C41 (callback and FCI solvers) deliver the density matrices and cumulants assumed below. -/
theorem rwf_has_rdms [CharZero K] {n : Nat} (w : RWf nao n K) : HasRdms (ClusterWf.ofRWf w) w.nocc w.dm1 w.dm2 := by
  refine ⟨rfl, eq_sub_of_add_eq (rdm1_mean_field w), fun a => rfl, ?_, .inl ?_⟩
  · obtain ⟨c, hc, h⟩ := rdm2_approximate_cumulant w
    exact hc.trans (congrArg Except.ok (by funext p q r s; exact h p q r s))
  · obtain ⟨d, c, -, hc, hd, h, -⟩ := rdm2_exact_cumulant w 0
    subst hd
    exact hc.trans (congrArg Except.ok (by funext p q r s; exact h p q r s))

private theorem correct {e : Emb nao nmo K} {d : Matrix (Fin nmo) (Fin nmo) K} {t : Ten nmo nmo K} {x : Frag nao K} (h : ExactCluster e d t x) :
    CorrectRdm1 2 e d x := h.rdm1_corr

private theorem corrects {e : Emb nao nmo K} {d : Matrix (Fin nmo) (Fin nmo) K} {t : Ten nmo nmo K}
    (h : ∀ x ∈ e.frags, GoodCluster e x ∧ ExactCluster e d t x) : ∀ x ∈ e.frags, GoodCluster e x ∧ CorrectRdm1 2 e d x :=
  fun x hx => ⟨(h x hx).1, correct (h x hx).2⟩

/-- **C29**: with symmetrisation the result is symmetric, whatever the clusters are, and the AO result is the transformed MO result. -/
theorem rdm1_demo_symmetric (e : Emb nao nmo K) (withMf : Bool) :
    (rdm1Demo e withMf true).transpose = rdm1Demo e withMf true ∧ (rdm1DemoAo e withMf true).transpose = rdm1DemoAo e withMf true ∧
    ∀ symm, rdm1DemoAo e withMf symm = e.mo * rdm1Demo e withMf symm * e.mo.transpose :=
  ⟨(channel_symmetric 2 e withMf).1, (channel_symmetric 2 e withMf).2, fun _ => rfl⟩

/-- **C29**: if the fragments are complete, every cluster contains its fragment and has the right density matrix of its orbitals, then the
number of electrons is right, whatever the clusters are otherwise. -/
theorem rdm1_demo_electrons [CharZero K] (e : Emb nao nmo K) (hb : OrthonormalBasis e) (hc : CompleteFragmentation e)
    (d : Matrix (Fin nmo) (Fin nmo) K) (t : Ten nmo nmo K) (hx : ∀ x ∈ e.frags, GoodCluster e x ∧ ExactCluster e d t x) (symm : Bool) :
    (rdm1Demo e true symm).trace = d.trace ∧ (rdm1Demo e false symm).trace = d.trace - (meanField nmo e.nocc 2).trace ∧
    (rdm1DemoAo e true symm * e.ovlp).trace = d.trace := channel_electrons 2 e hb hc d (corrects hx) symm

/-- **C29**: the elements between a fragment and the orbitals of its cluster are right (without symmetrisation); with symmetrisation those
between the orbitals of one fragment are. -/
theorem rdm1_demo_fragment_block [CharZero K] (e : Emb nao nmo K) (hb : OrthonormalBasis e) (hc : CompleteFragmentation e)
    (d : Matrix (Fin nmo) (Fin nmo) K) (t : Ten nmo nmo K) (hx : ∀ x ∈ e.frags, GoodCluster e x ∧ ExactCluster e d t x)
    (x : Frag nao K) (l₁ l₂ : List (Frag nao K)) (hl : e.frags = l₁ ++ x :: l₂) (hself : x.cFrag.transpose * e.ovlp * x.cFrag = 1)
    (hother : ∀ y ∈ l₁ ++ l₂, y.cFrag.transpose * e.ovlp * x.cFrag = 0) :
    x.cFrag.transpose * e.ovlp * rdm1DemoAo e true false * e.ovlp * x.cAct =
      x.cFrag.transpose * e.ovlp * (e.mo * d * e.mo.transpose) * e.ovlp * x.cAct ∧
    (d.transpose = d → x.cFrag.transpose * e.ovlp * rdm1DemoAo e true true * e.ovlp * x.cFrag =
      x.cFrag.transpose * e.ovlp * (e.mo * d * e.mo.transpose) * e.ovlp * x.cFrag) :=
  channel_fragment_block 2 e hb hc d (corrects hx) x l₁ l₂ hl hself hother

/-- **C29**: the whole density matrix is right if it does not couple any fragment to the outside of its cluster, in particular if the
clusters span all orbitals. For clusters that do not, see `rdm1_demo_truncated`. -/
theorem rdm1_demo_exact [CharZero K] (e : Emb nao nmo K) (hb : OrthonormalBasis e) (hc : CompleteFragmentation e)
    (d : Matrix (Fin nmo) (Fin nmo) K) (t : Ten nmo nmo K) (hx : ∀ x ∈ e.frags, GoodCluster e x ∧ ExactCluster e d t x)
    (hcov : ∀ x ∈ e.frags, (x.cFrag.transpose * e.ovlp * e.mo) * d * (e.mo.transpose * e.ovlp * x.cAct) * (x.cAct.transpose * e.ovlp * e.mo) =
      (x.cFrag.transpose * e.ovlp * e.mo) * d) :
    rdm1Demo e true false = d ∧ rdm1DemoAo e true false = e.mo * d * e.mo.transpose ∧ rdm1Demo e false false = d - meanField nmo e.nocc 2 ∧
    (d.transpose = d → rdm1Demo e true true = d) := channel_exact 2 e hb hc d (corrects hx) hcov

/-- The same cluster, seen from one spin of an unrestricted embedding. -/
def GoodU (e : UEmb nao nmoa nmob K) (da : Matrix (Fin nmoa) (Fin nmoa) K) (db : Matrix (Fin nmob) (Fin nmob) K) (x : UFrag nao K) : Prop :=
  (GoodCluster e.alpha x.alpha ∧ CorrectRdm1 1 e.alpha da x.alpha) ∧ GoodCluster e.beta x.beta ∧ CorrectRdm1 1 e.beta db x.beta

private theorem goodA {e : UEmb nao nmoa nmob K} {da : Matrix (Fin nmoa) (Fin nmoa) K} {db : Matrix (Fin nmob) (Fin nmob) K}
    (h : ∀ x ∈ e.frags, GoodU e da db x) : ∀ x ∈ e.alpha.frags, GoodCluster e.alpha x ∧ CorrectRdm1 1 e.alpha da x := by
  intro x hx
  obtain ⟨y, hy, rfl⟩ := List.mem_map.mp hx
  exact (h y hy).1

private theorem goodB {e : UEmb nao nmoa nmob K} {da : Matrix (Fin nmoa) (Fin nmoa) K} {db : Matrix (Fin nmob) (Fin nmob) K}
    (h : ∀ x ∈ e.frags, GoodU e da db x) : ∀ x ∈ e.beta.frags, GoodCluster e.beta x ∧ CorrectRdm1 1 e.beta db x := by
  intro x hx
  obtain ⟨y, hy, rfl⟩ := List.mem_map.mp hx
  exact (h y hy).2

/-- **C29**, unrestricted: symmetric results. -/
theorem urdm1_demo_symmetric (e : UEmb nao nmoa nmob K) (withMf : Bool) :
    ((rdm1DemoU e withMf true).1.transpose = (rdm1DemoU e withMf true).1 ∧ (rdm1DemoU e withMf true).2.transpose = (rdm1DemoU e withMf true).2) ∧
    (rdm1DemoUAo e withMf true).1.transpose = (rdm1DemoUAo e withMf true).1 ∧ (rdm1DemoUAo e withMf true).2.transpose = (rdm1DemoUAo e withMf true).2 :=
  ⟨⟨(channel_symmetric 1 e.alpha withMf).1, (channel_symmetric 1 e.beta withMf).1⟩, (channel_symmetric 1 e.alpha withMf).2, (channel_symmetric 1 e.beta withMf).2⟩

/-- **C29**, unrestricted: right numbers of electrons of both spins. -/
theorem urdm1_demo_electrons [CharZero K] (e : UEmb nao nmoa nmob K) (hba : OrthonormalBasis e.alpha) (hbb : OrthonormalBasis e.beta)
    (hca : CompleteFragmentation e.alpha) (hcb : CompleteFragmentation e.beta) (da : Matrix (Fin nmoa) (Fin nmoa) K)
    (db : Matrix (Fin nmob) (Fin nmob) K) (hx : ∀ x ∈ e.frags, GoodU e da db x) (symm : Bool) :
    (rdm1DemoU e true symm).1.trace = da.trace ∧ (rdm1DemoU e true symm).2.trace = db.trace ∧
    (rdm1DemoU e false symm).1.trace = da.trace - (meanField nmoa e.nocca (1 : K)).trace ∧
    (rdm1DemoU e false symm).2.trace = db.trace - (meanField nmob e.noccb (1 : K)).trace ∧
    ((rdm1DemoUAo e true symm).1 * e.ovlp).trace = da.trace ∧ ((rdm1DemoUAo e true symm).2 * e.ovlp).trace = db.trace := by
  obtain ⟨a1, a2, a3⟩ := channel_electrons 1 e.alpha hba hca da (goodA hx) symm
  obtain ⟨b1, b2, b3⟩ := channel_electrons 1 e.beta hbb hcb db (goodB hx) symm
  exact ⟨a1, b1, a2, b2, a3, b3⟩

/-- **C29**, unrestricted: the density matrices of both spins are right if they do not couple any fragment to the outside of its cluster. -/
theorem urdm1_demo_exact [CharZero K] (e : UEmb nao nmoa nmob K) (hba : OrthonormalBasis e.alpha) (hbb : OrthonormalBasis e.beta)
    (hca : CompleteFragmentation e.alpha) (hcb : CompleteFragmentation e.beta) (da : Matrix (Fin nmoa) (Fin nmoa) K)
    (db : Matrix (Fin nmob) (Fin nmob) K) (hx : ∀ x ∈ e.frags, GoodU e da db x)
    (hcova : ∀ x ∈ e.frags, (x.alpha.cFrag.transpose * e.ovlp * e.moa) * da * (e.moa.transpose * e.ovlp * x.alpha.cAct) * (x.alpha.cAct.transpose * e.ovlp * e.moa) =
      (x.alpha.cFrag.transpose * e.ovlp * e.moa) * da)
    (hcovb : ∀ x ∈ e.frags, (x.beta.cFrag.transpose * e.ovlp * e.mob) * db * (e.mob.transpose * e.ovlp * x.beta.cAct) * (x.beta.cAct.transpose * e.ovlp * e.mob) =
      (x.beta.cFrag.transpose * e.ovlp * e.mob) * db) :
    rdm1DemoU e true false = (da, db) ∧ rdm1DemoUAo e true false = (e.moa * da * e.moa.transpose, e.mob * db * e.mob.transpose) ∧
    rdm1DemoU e false false = (da - meanField nmoa e.nocca (1 : K), db - meanField nmob e.noccb (1 : K)) ∧
    (da.transpose = da → db.transpose = db → rdm1DemoU e true true = (da, db)) := by
  obtain ⟨a1, a2, a3, a4⟩ := channel_exact 1 e.alpha hba hca da (goodA hx) (by
    intro x hx'; obtain ⟨y, hy, rfl⟩ := List.mem_map.mp hx'; exact hcova y hy)
  obtain ⟨b1, b2, b3, b4⟩ := channel_exact 1 e.beta hbb hcb db (goodB hx) (by
    intro x hx'; obtain ⟨y, hy, rfl⟩ := List.mem_map.mp hx'; exact hcovb y hy)
  exact ⟨Prod.ext a1 b1, Prod.ext a2 b2, Prod.ext a3 b3, fun h1 h2 => Prod.ext (a4 h1) (b4 h2)⟩

/-- The clusters span all orbitals. -/
def FullClusters (e : Emb nao nmo K) : Prop := ∀ x ∈ e.frags, x.cAct * x.cAct.transpose * e.ovlp = 1

private theorem full_mo {e : Emb nao nmo K} (hb : OrthonormalBasis e) {x : Frag nao K} (h : x.cAct * x.cAct.transpose * e.ovlp = 1) :
    e.moCluster x * (e.moCluster x).transpose = 1 := by
  unfold Emb.moCluster
  rw [frag_transpose e hb e.mo x.cAct]
  calc _ = e.mo.transpose * e.ovlp * (x.cAct * x.cAct.transpose * e.ovlp) * e.mo := by simp only [Matrix.mul_assoc]
    _ = 1 := by rw [h, Matrix.mul_one, hb.orth]

/-- **C29**: clusters spanning all orbitals meet the condition of `rdm1_demo_exact`. -/
theorem rdm1_demo_full [CharZero K] (e : Emb nao nmo K) (hb : OrthonormalBasis e) (hc : CompleteFragmentation e) (hf : FullClusters e)
    (d : Matrix (Fin nmo) (Fin nmo) K) (t : Ten nmo nmo K) (hx : ∀ x ∈ e.frags, GoodCluster e x ∧ ExactCluster e d t x) :
    rdm1Demo e true false = d ∧ rdm1DemoAo e true false = e.mo * d * e.mo.transpose ∧ rdm1Demo e false false = d - meanField nmo e.nocc 2 ∧
    (d.transpose = d → rdm1Demo e true true = d) := by
  refine rdm1_demo_exact e hb hc d t hx fun x hx' => ?_
  have h := full_mo hb (hf x hx')
  unfold Emb.moCluster at h
  rw [frag_transpose e hb e.mo x.cAct] at h
  rw [Matrix.mul_assoc, h, Matrix.mul_one]

private theorem L_one1 {n : Nat} (t : Ten n n K) : Tensor.L1 (1 : Matrix (Fin n) (Fin n) K) t = t := by
  funext p q r s
  show ∑ k, (1 : Matrix (Fin n) (Fin n) K) p k * t k q r s = _
  rw [Finset.sum_eq_single p (fun k _ hk => by rw [Matrix.one_apply_ne (Ne.symm hk), zero_mul]) (fun h => absurd (Finset.mem_univ _) h), Matrix.one_apply_eq, one_mul]
private theorem L_one2 {n : Nat} (t : Ten n n K) : Tensor.L2 (1 : Matrix (Fin n) (Fin n) K) t = t := by
  funext p q r s
  show ∑ k, (1 : Matrix (Fin n) (Fin n) K) q k * t p k r s = _
  rw [Finset.sum_eq_single q (fun k _ hk => by rw [Matrix.one_apply_ne (Ne.symm hk), zero_mul]) (fun h => absurd (Finset.mem_univ _) h), Matrix.one_apply_eq, one_mul]
private theorem L_one3 {n : Nat} (t : Ten n n K) : Tensor.L3 (1 : Matrix (Fin n) (Fin n) K) t = t := by
  funext p q r s
  show ∑ k, (1 : Matrix (Fin n) (Fin n) K) r k * t p q k s = _
  rw [Finset.sum_eq_single r (fun k _ hk => by rw [Matrix.one_apply_ne (Ne.symm hk), zero_mul]) (fun h => absurd (Finset.mem_univ _) h), Matrix.one_apply_eq, one_mul]
private theorem L_one4 {n : Nat} (t : Ten n n K) : Tensor.L4 (1 : Matrix (Fin n) (Fin n) K) t = t := by
  funext p q r s
  show ∑ k, (1 : Matrix (Fin n) (Fin n) K) s k * t p q r k = _
  rw [Finset.sum_eq_single s (fun k _ hk => by rw [Matrix.one_apply_ne (Ne.symm hk), zero_mul]) (fun h => absurd (Finset.mem_univ _) h), Matrix.one_apply_eq, one_mul]

private theorem full_contribution {e : Emb nao nmo K} (hb : OrthonormalBasis e) (hf : FullClusters e) {d : Matrix (Fin nmo) (Fin nmo) K} {t : Ten nmo nmo K}
    (approx : Bool) {x : Frag nao K} (hx' : x ∈ e.frags) (h : GoodCluster e x ∧ ExactCluster e d t x) :
    (cumulant x.wf approx).map (fun t => project2 (e.clusterFragCluster x) t (e.moCluster x) (e.moCluster x)) =
      .ok (Tensor.L1 (e.moFragMo x) (fullCumulant e.nocc d t approx)) := by
  rw [cumulant_contribution e x hb h.1 h.2, full_mo hb (hf x hx'), L_one2, L_one3, L_one4]

private theorem full_sum {e : Emb nao nmo K} (hb : OrthonormalBasis e) (hc : CompleteFragmentation e) (t : Ten nmo nmo K) :
    tsum e.frags (fun x => Tensor.L1 (e.moFragMo x) t) = t := by
  rw [tsum_L1, sum_moFragMo e hb hc, L_one1]

private theorem sum_outer {e : Emb nao nmo K} (hb : OrthonormalBasis e) (hc : CompleteFragmentation e) (h : Matrix (Fin nmo) (Fin nmo) K) :
    tsum e.frags (fun x => fun p q r s =>
      2 * outer (meanField nmo e.nocc 1 * e.moFragMo x) h p q r s - outerX (meanField nmo e.nocc 1 * e.moFragMo x) h p q r s +
      (2 * outer (e.moFragMo x * h) (meanField nmo e.nocc 1) p q r s - outerX (e.moFragMo x * h) (meanField nmo e.nocc 1) p q r s)) =
    fun p q r s => 2 * outer (meanField nmo e.nocc 1) h p q r s - outerX (meanField nmo e.nocc 1) h p q r s +
      (2 * outer h (meanField nmo e.nocc 1) p q r s - outerX h (meanField nmo e.nocc 1) p q r s) := by
  have hlin : ∀ (l : List (Frag nao K)), tsum l (fun x => fun p q r s =>
      2 * outer (meanField nmo e.nocc 1 * e.moFragMo x) h p q r s - outerX (meanField nmo e.nocc 1 * e.moFragMo x) h p q r s +
      (2 * outer (e.moFragMo x * h) (meanField nmo e.nocc 1) p q r s - outerX (e.moFragMo x * h) (meanField nmo e.nocc 1) p q r s)) =
      fun p q r s => 2 * outer (meanField nmo e.nocc 1 * (l.map e.moFragMo).sum) h p q r s - outerX (meanField nmo e.nocc 1 * (l.map e.moFragMo).sum) h p q r s +
      (2 * outer ((l.map e.moFragMo).sum * h) (meanField nmo e.nocc 1) p q r s - outerX ((l.map e.moFragMo).sum * h) (meanField nmo e.nocc 1) p q r s) := by
    intro l
    induction l with
    | nil => funext p q r s; simp [tsum, outer, outerX]
    | cons x l ih =>
      funext p q r s
      have ih' := congrFun (congrFun (congrFun (congrFun ih p) q) r) s
      unfold tsum at ih' ⊢
      rw [List.map_cons, List.sum_cons, ih', List.map_cons, List.sum_cons]
      simp only [outer, outerX, Matrix.mul_add, Matrix.add_mul, Matrix.add_apply]
      ring
  rw [hlin, sum_moFragMo e hb hc, Matrix.mul_one, Matrix.one_mul]

private theorem linear_half (nocc : Nat) (d : Matrix (Fin nmo) (Fin nmo) K) [CharZero K] (p q r s : Fin nmo) :
    onePartLinear (1 / 2) d (meanField nmo nocc 2) p q r s =
      2 * outer (meanField nmo nocc 1) (d - meanField nmo nocc 1) p q r s - outerX (meanField nmo nocc 1) (d - meanField nmo nocc 1) p q r s +
      (2 * outer (d - meanField nmo nocc 1) (meanField nmo nocc 1) p q r s - outerX (d - meanField nmo nocc 1) (meanField nmo nocc 1) p q r s) := by
  have h2 : (2 : K) ≠ 0 := two_ne_zero
  rw [meanField_scale nmo nocc 2]
  simp only [onePartLinear, wedge, outer, outerX, Matrix.smul_apply, Matrix.sub_apply, smul_eq_mul]
  field_simp
  ring

/-- **C57**: with complete fragments and clusters that span all orbitals, every choice of options returns the exact two-body density matrix, or
its exact or approximate cumulant if the one-body part is not requested. -/
theorem rdm2_demo_exact [CharZero K] (e : Emb nao nmo K) (hb : OrthonormalBasis e) (hc : CompleteFragmentation e) (hf : FullClusters e)
    (d : Matrix (Fin nmo) (Fin nmo) K) (t : Ten nmo nmo K) (hd : d.transpose = d) (ht : ∀ p q r s, t p q r s = t q p s r)
    (hx : ∀ x ∈ e.frags, GoodCluster e x ∧ ExactCluster e d t x) (part approx symm : Bool) :
    rdm2Demo e true part approx symm = .ok t ∧
    rdm2Demo e false part true symm = .ok (fun p q r s => t p q r s - onePartLinear (1 / 2) d (meanField nmo e.nocc 2) p q r s) ∧
    rdm2Demo e false part false symm = .ok (fun p q r s => t p q r s - onePart (1 / 2) d p q r s) := by
  have hds : ∀ p q, d q p = d p q := fun p q => congrFun (congrFun hd p) q
  have hms : ∀ p q, meanField nmo e.nocc (2 : K) q p = meanField nmo e.nocc 2 p q := fun p q => congrFun (congrFun (meanField_symm nmo e.nocc 2) p) q
  have hsymm : ∀ u : Ten nmo nmo K, (∀ p q r s, u p q r s = u q p s r) → (if symm = true then symmetrize2 u else u) = u := by
    intro u hu
    split
    · funext p q r s
      simp only [symmetrize2, ← hu]
      exact add_self_div_two _
    · rfl
  have hone : ∀ p q r s, onePart (1 / 2) d p q r s = onePart (1 / 2) d q p s r := by
    intro p q r s
    simp only [onePart, wedge, hds p q, hds r s]
    ring
  have hlin : ∀ p q r s, onePartLinear (1 / 2) d (meanField nmo e.nocc 2) p q r s = onePartLinear (1 / 2) d (meanField nmo e.nocc 2) q p s r := by
    intro p q r s
    simp only [onePartLinear, wedge, hds p q, hds r s, hms p q, hms r s]
    ring
  have hcs : ∀ a p q r s, fullCumulant e.nocc d t a p q r s = fullCumulant e.nocc d t a q p s r := by
    intro a p q r s
    cases a
    · show t p q r s - onePart (1 / 2) d p q r s = t q p s r - onePart (1 / 2) d q p s r
      rw [ht, hone]
    · show t p q r s - onePartLinear (1 / 2) d (meanField nmo e.nocc 2) p q r s = t q p s r - onePartLinear (1 / 2) d (meanField nmo e.nocc 2) q p s r
      rw [ht, hlin]
  have hcum : ∀ (w pc a : Bool), (pc || !w) = true → e.frags.foldlM (fun t x => (contribution2 e w pc a x).map fun c => tadd t c) (fun _ _ _ _ => 0) =
      .ok (fullCumulant e.nocc d t a) := by
    intro w pc a h
    rw [foldlM_ok _ (fun x => Tensor.L1 (e.moFragMo x) (fullCumulant e.nocc d t a))]
    · rw [full_sum hb hc]
      congr 1
      funext p q r s
      simp [tadd]
    · intro x hx'
      unfold contribution2
      rw [if_pos h]
      exact full_contribution hb hf a hx' (hx x hx')
  obtain ⟨v1, -, v3, v4⟩ := rdm1_demo_full e hb hc hf d t hx
  have hv3 : rdm1Demo e false true = d - meanField nmo e.nocc 2 := by
    show rdm1Channel 2 e false true = _
    rw [symm_eq]
    have : rdm1Channel 2 e false false = d - meanField nmo e.nocc 2 := v3
    rw [this]
    funext p q
    simp only [symmetrize1, Matrix.sub_apply, hds p q, hms p q]
    exact add_self_div_two _
  refine ⟨?_, ?_, ?_⟩
  · cases part
    · -- the whole density matrix is partitioned
      unfold rdm2Demo
      rw [foldlM_ok _ (fun x => tadd (nonCumulantPart e x) (Tensor.L1 (e.moFragMo x) (fullCumulant e.nocc d t true)))]
      · show Except.ok _ = _
        simp only [Bool.and_false, Bool.false_eq_true, if_false]
        have hval : tadd (fun _ _ _ _ => 0) (tsum e.frags fun x => tadd (nonCumulantPart e x) (Tensor.L1 (e.moFragMo x) (fullCumulant e.nocc d t true))) = t := by
          rw [tsum_add, full_sum hb hc]
          have hh : ∀ x ∈ e.frags, addDiag e.nocc 1 (e.moCluster x * x.wf.rdm1 false * (e.moCluster x).transpose) = d - meanField nmo e.nocc 1 := by
            intro x hx'
            have h1 : x.wf.rdm1 false = (e.moCluster x).transpose * d * e.moCluster x - meanField x.ncl x.nocc 2 := (hx x hx').2.rdm1_corr
            have hq := full_mo hb (hf x hx')
            have h2 : e.moCluster x * meanField x.ncl x.nocc (2 : K) * (e.moCluster x).transpose = meanField nmo e.nocc (2 : K) := by
              rw [← meanField_cluster e x (hx x hx').1, Matrix.mul_assoc, hq, Matrix.mul_one]
            rw [addDiag_eq, h1, Matrix.mul_sub, Matrix.sub_mul, h2]
            have h3 : e.moCluster x * ((e.moCluster x).transpose * d * e.moCluster x) * (e.moCluster x).transpose = d := by
              calc _ = (e.moCluster x * (e.moCluster x).transpose) * d * (e.moCluster x * (e.moCluster x).transpose) := by simp only [Matrix.mul_assoc]
                _ = d := by rw [hq, Matrix.one_mul, Matrix.mul_one]
            rw [h3, meanField_scale nmo e.nocc 2]
            funext p q
            simp only [Matrix.add_apply, Matrix.sub_apply, Matrix.smul_apply, smul_eq_mul]
            ring
          rw [tsum_congr _ _ _ fun x hx' => nonCumulantPart_eq e x hb _ (hh x hx'), sum_outer hb hc]
          funext p q r s
          simp only [tadd, fullCumulant, if_true, linear_half]
          ring
        rw [hval, hsymm t ht]
      · intro x hx'
        have := full_contribution (d := d) (t := t) hb hf true hx' (hx x hx')
        unfold contribution2
        simp only [Bool.not_true, Bool.or_self, Bool.false_eq_true, if_false]
        have hc1 : cumulant x.wf true = x.wf.rdm2 false 1 := by simp [cumulant]
        rw [hc1] at this
        cases hw : x.wf.rdm2 false 1 with
        | error er => rw [hw] at this; cases this
        | ok u =>
          rw [hw] at this
          have hu : project2 (e.clusterFragCluster x) u (e.moCluster x) (e.moCluster x) = _ := Except.ok.inj this
          exact congrArg (fun c => Except.ok (tadd (nonCumulantPart e x) c)) hu
    · unfold rdm2Demo
      rw [hcum true true approx rfl]
      show Except.ok _ = _
      have hval : (if (true && true) = true then addNonCumulant e approx (fullCumulant e.nocc d t approx) else fullCumulant e.nocc d t approx) = t := by
        rw [if_pos (by rfl)]
        cases approx
        · simp only [addNonCumulant, Bool.false_eq_true, if_false, v4 hd]
          funext p q r s
          simp only [tadd, fullCumulant, Bool.false_eq_true, if_false, onePart, wedge, outer, outerX]
          ring
        · simp only [addNonCumulant, if_true, hv3]
          rw [foldl_four]
          funext p q r s
          have hm : addDiag e.nocc 1 (d - meanField nmo e.nocc 2) = d - meanField nmo e.nocc 1 := by
            rw [addDiag_eq, meanField_scale nmo e.nocc 2]
            funext p q
            simp only [Matrix.add_apply, Matrix.sub_apply, Matrix.smul_apply, smul_eq_mul]
            ring
          rw [hm]
          simp only [fullCumulant, if_true, linear_half, outer, outerX, Matrix.neg_apply, Matrix.smul_apply, smul_eq_mul]
          ring
      simp only [hval, hsymm t ht]
  · unfold rdm2Demo
    rw [hcum false part true (by simp)]
    show Except.ok _ = _
    simp only [Bool.false_and, Bool.false_eq_true, if_false]
    rw [hsymm _ (hcs true)]
    rfl
  · unfold rdm2Demo
    rw [hcum false part false (by simp)]
    show Except.ok _ = _
    simp only [Bool.false_and, Bool.false_eq_true, if_false]
    rw [hsymm _ (hcs false)]
    rfl

/-- A cluster whose wave function has the density matrices `d`, `t` of the whole system in its orbitals; used in examples. -/
private def cutFrag (ovlp : Matrix (Fin nao) (Fin nao) K) (mo : Matrix (Fin nao) (Fin nmo) K) (d : Matrix (Fin nmo) (Fin nmo) K) (t : Ten nmo nmo K)
    (nfrag ncl nocc : Nat) (cFrag : Matrix (Fin nao) (Fin nfrag) K) (cAct : Matrix (Fin nao) (Fin ncl) K) : Frag nao K :=
  let r := mo.transpose * ovlp * cAct
  let dc := r.transpose * d * r
  let tc := transform r.transpose r.transpose t
  ⟨nfrag, ncl, nocc, cFrag, cAct, ⟨fun b => if b then dc else dc - meanField ncl nocc 2, fun b a => if b then .ok tc else
    if a = 1 then .ok (fun p q r s => tc p q r s - onePartLinear (1 / 2) dc (meanField ncl nocc 2) p q r s) else .error .notImplementedError⟩⟩

private theorem cutFrag_exact (ovlp : Matrix (Fin nao) (Fin nao) K) (mo : Matrix (Fin nao) (Fin nmo) K) (d : Matrix (Fin nmo) (Fin nmo) K) (t : Ten nmo nmo K)
    (nfrag ncl nocc n : Nat) (cFrag : Matrix (Fin nao) (Fin nfrag) K) (cAct : Matrix (Fin nao) (Fin ncl) K) (l : List (Frag nao K)) :
    ExactCluster ⟨ovlp, mo, n, l⟩ d t (cutFrag ovlp mo d t nfrag ncl nocc cFrag cAct) := ⟨rfl, rfl, fun _ => rfl, rfl, .inr rfl⟩

/-- A column. -/
private def col (a b : ℚ) : Matrix (Fin 2) (Fin 1) ℚ := fun i _ => if i = 0 then a else b

private def demoD : Matrix (Fin 2) (Fin 2) ℚ := !![3 / 2, 3 / 10; 3 / 10, 1 / 2]

/-- Two orbitals, each its own fragment and its own cluster. -/
private def truncated : Emb 2 2 ℚ := ⟨1, 1, 1, [cutFrag 1 1 demoD (onePart (1 / 2) demoD) 1 1 1 (col (1) (0)) (col (1) (0)), cutFrag 1 1 demoD (onePart (1 / 2) demoD) 1 1 0 (col (0) (1)) (col (0) (1))]⟩

private theorem truncated_basis : OrthonormalBasis truncated := by
  refine ⟨?_, ?_, ?_⟩ <;> simp [truncated]

private theorem truncated_complete : CompleteFragmentation truncated := by
  unfold CompleteFragmentation truncated cutFrag
  funext i j
  fin_cases i <;> fin_cases j <;> simp [Matrix.mul_apply, col]

private theorem col_facts (a b : ℚ) (h : a * a + b * b = 1) : (col a b).transpose * (1 : Matrix (Fin 2) (Fin 2) ℚ) * col a b = 1 ∧
    col a b * (col a b).transpose * 1 * col a b = col a b := by
  constructor
  · funext i j; fin_cases i; fin_cases j; simpa [Matrix.mul_apply, col] using h
  · funext i j
    fin_cases i <;> fin_cases j <;> simp [Matrix.mul_apply, col]
    · linear_combination a * h
    · linear_combination b * h

private theorem truncated_good : ∀ x ∈ truncated.frags, GoodCluster truncated x := by
  intro x hx
  rcases List.mem_cons.mp hx with rfl | hx
  · refine ⟨(col_facts 1 0 (by norm_num)).1, (col_facts 1 0 (by norm_num)).2, ?_⟩
    intro p i (h : ((1 : Matrix (Fin 2) (Fin 2) ℚ).transpose * (1 : Matrix (Fin 2) (Fin 2) ℚ) * col 1 0 : Matrix (Fin 2) (Fin 1) ℚ) p i ≠ 0)
    show p.val < 1 ↔ i.val < 1
    revert h
    fin_cases i; fin_cases p <;> simp [col]
  · rcases List.mem_cons.mp hx with rfl | hx
    · refine ⟨(col_facts 0 1 (by norm_num)).1, (col_facts 0 1 (by norm_num)).2, ?_⟩
      intro p i (h : ((1 : Matrix (Fin 2) (Fin 2) ℚ).transpose * (1 : Matrix (Fin 2) (Fin 2) ℚ) * col 0 1 : Matrix (Fin 2) (Fin 1) ℚ) p i ≠ 0)
      show p.val < 1 ↔ i.val < 0
      revert h
      fin_cases i; fin_cases p <;> simp [col]
    · cases hx

private theorem truncated_exact : ∀ x ∈ truncated.frags, ExactCluster truncated demoD (onePart (1 / 2) demoD) x := by
  intro x hx
  rcases List.mem_cons.mp hx with rfl | hx
  · exact cutFrag_exact ..
  · rcases List.mem_cons.mp hx with rfl | hx
    · exact cutFrag_exact ..
    · cases hx

/-- **C29**: the condition of `rdm1_demo_exact` is needed. Complete orthonormal fragments with clusters that contain them and have the right
density matrices of their orbitals, but the partitioned density matrix loses the elements between the clusters. -/
theorem rdm1_demo_truncated : ∃ (e : Emb 2 2 ℚ) (d : Matrix (Fin 2) (Fin 2) ℚ) (t : Ten 2 2 ℚ), OrthonormalBasis e ∧ CompleteFragmentation e ∧
    d.transpose = d ∧ (∀ x ∈ e.frags, GoodCluster e x ∧ ExactCluster e d t x) ∧ rdm1Demo e true true ≠ d := by
  refine ⟨truncated, demoD, onePart (1 / 2) demoD, truncated_basis, truncated_complete, ?_, fun x hx => ⟨truncated_good x hx, truncated_exact x hx⟩, ?_⟩
  · funext i j; fin_cases i <;> fin_cases j <;> simp [demoD]
  · intro h
    have := congrFun (congrFun h 0) 1
    obtain ⟨-, v⟩ := rdm1_value 2 truncated truncated_basis truncated_complete demoD (corrects fun x hx => ⟨truncated_good x hx, truncated_exact x hx⟩)
    unfold rdm1Demo at this
    rw [symm_eq, v] at this
    simp [symmetrize1, truncated, cutFrag, Emb.moFragMo, Emb.moCluster, Matrix.mul_apply, demoD, col] at this
    norm_num at this

/-- The hypotheses of the electron count are met by clusters that are not exact overall. -/
example : (rdm1Demo truncated true true).trace = 2 := by
  rw [(rdm1_demo_electrons truncated truncated_basis truncated_complete demoD _ (fun x hx => ⟨truncated_good x hx, truncated_exact x hx⟩) true).1]
  simp [Matrix.trace, demoD]
  norm_num

/-- Rotated fragments, clusters with all orbitals. -/
private def covering : Emb 2 2 ℚ := ⟨1, 1, 1, [cutFrag 1 1 demoD (onePart (1 / 2) demoD) 1 2 1 (col (3 / 5) (4 / 5)) 1, cutFrag 1 1 demoD (onePart (1 / 2) demoD) 1 2 1 (col (-4 / 5) (3 / 5)) 1]⟩

private theorem covering_basis : OrthonormalBasis covering := by
  refine ⟨?_, ?_, ?_⟩ <;> simp [covering]

private theorem covering_complete : CompleteFragmentation covering := by
  unfold CompleteFragmentation covering cutFrag
  funext i j
  fin_cases i <;> fin_cases j <;> simp [Matrix.mul_apply, col] <;> norm_num

private theorem one_good (n : Nat) (l : List (Frag 2 ℚ)) (x : Frag 2 ℚ) (hx : x.ncl = 2) (ho : x.nocc = n) (h : HEq x.cAct (1 : Matrix (Fin 2) (Fin 2) ℚ)) :
    GoodCluster (nmo := 2) ⟨1, 1, n, l⟩ x := by
  obtain ⟨nf, ncl, no, cf, ca, wf⟩ := x
  simp only at hx ho h
  subst hx ho
  rw [eq_of_heq h]
  refine ⟨?_, ?_, ?_⟩
  · simp
  · simp
  · intro p i hp
    have : p = i := by
      by_contra hne
      exact hp (by simp [Matrix.one_apply_ne hne])
    subst this
    rfl

private theorem covering_good : ∀ x ∈ covering.frags, GoodCluster covering x ∧ ExactCluster covering demoD (onePart (1 / 2) demoD) x := by
  intro x hx
  rcases List.mem_cons.mp hx with rfl | hx
  · exact ⟨one_good 1 _ _ rfl rfl HEq.rfl, cutFrag_exact ..⟩
  · rcases List.mem_cons.mp hx with rfl | hx
    · exact ⟨one_good 1 _ _ rfl rfl HEq.rfl, cutFrag_exact ..⟩
    · cases hx

private theorem covering_full : FullClusters covering := by
  intro x hx
  rcases List.mem_cons.mp hx with rfl | hx
  · show (1 : Matrix (Fin 2) (Fin 2) ℚ) * (1 : Matrix (Fin 2) (Fin 2) ℚ).transpose * 1 = 1; simp
  · rcases List.mem_cons.mp hx with rfl | hx
    · show (1 : Matrix (Fin 2) (Fin 2) ℚ) * (1 : Matrix (Fin 2) (Fin 2) ℚ).transpose * 1 = 1; simp
    · cases hx

/-- The hypotheses of the exactness theorems are met by two rotated fragments with full clusters. -/
example : rdm1Demo covering true true = demoD ∧ rdm2Demo covering true false true true = .ok (onePart (1 / 2) demoD) := by
  have hd : demoD.transpose = demoD := by funext i j; fin_cases i <;> fin_cases j <;> simp [demoD]
  refine ⟨(rdm1_demo_full covering covering_basis covering_complete covering_full demoD _ covering_good).2.2.2 hd, ?_⟩
  refine (rdm2_demo_exact covering covering_basis covering_complete covering_full demoD _ hd ?_ covering_good false true true).1
  intro p q r s
  have hds : ∀ p q, demoD q p = demoD p q := fun p q => congrFun (congrFun hd p) q
  simp only [onePart, wedge, hds p q, hds r s]
  ring

end Vayesta.Props
