import Verif.Lemmas.CorrFunc
import Mathlib.Algebra.Order.Ring.Rat
import Mathlib.Algebra.Order.Field.Basic
import Mathlib.Tactic.Linarith
import Mathlib.Tactic.Positivity
import Mathlib.Tactic.NormNum

/-! C43: correlation functions. -/

namespace Vayesta.Props
open Vayesta.Rdm Vayesta.DmetEnergy Vayesta.CorrFunc Vayesta.CorrFuncSpec

variable {K : Type} [Field K] {n a b : Nat}

private theorem twoPoint_eq (d : Mat n K) (g : Ten n n K) (p q : Mat n K) (hp : p.transpose = p) (hq : q.transpose = q) (hd : d.transpose = d) :
    twoPoint d g p q = dot4 (outer p q) g + (p * d * q).trace := by
  unfold twoPoint
  rw [one_eq p q d hp hq hd]; rfl

/-- Charge correlation from one- and two-body density matrices. -/
theorem charge_correlation (d : Mat n K) (g : Ten n n K) (p q : Mat n K) (hp : p.transpose = p) (hq : q.transpose = q) (hd : d.transpose = d) (sub : Bool) :
    chargecharge d (some g) (some p) (some q) sub = twoPoint d g p q - if sub then mean p d * mean q d else 0 := by
  rw [twoPoint_eq d g p q hp hq hd, mean_eq, mean_eq, dot2_comm p, dot2_comm q]
  simp only [chargecharge, Option.isNone_some, Bool.false_eq_true, ↓reduceIte, contract2_eq, contract1_eq p q d hp hq hd]

private theorem dot4_one (t : Ten a b K) : dot4 (outer (1 : Mat a K) (1 : Mat b K)) t = trace2 t := by
  unfold dot4 outer trace2
  refine Finset.sum_congr rfl fun i _ => ?_
  rw [Finset.sum_eq_single i]
  · refine Finset.sum_congr rfl fun k _ => ?_
    rw [Finset.sum_eq_single k]
    · simp
    · intro l _ hl; rw [Matrix.one_apply_ne' hl]; ring
    · simp
  · intro j _ hj
    refine Finset.sum_eq_zero fun k _ => Finset.sum_eq_zero fun l _ => ?_
    rw [Matrix.one_apply_ne' hj]; ring
  · simp

private theorem dot2_one (d : Mat n K) : dot2 d 1 = d.trace := by
  rw [dot2_trace, Matrix.mul_one, Matrix.trace_transpose]

private theorem one_dot2 (d : Mat n K) : dot2 1 d = d.trace := by rw [dot2_comm, dot2_one]

private theorem one_symm : (1 : Mat n K).transpose = 1 := Matrix.transpose_one

/-- Projectors that are left out: the second is the first, none at all means the identity (whatever the second). -/
theorem charge_correlation_defaults (d : Mat n K) (hd : d.transpose = d) (g : Ten n n K) (sub : Bool) (p : Mat n K) (x : Option (Mat n K)) :
    chargecharge d (some g) (some p) none sub = chargecharge d (some g) (some p) (some p) sub ∧
    chargecharge d (some g) none x sub = chargecharge d (some g) (some 1) (some 1) sub := by
  refine ⟨rfl, ?_⟩
  rw [charge_correlation d g 1 1 one_symm one_symm hd, twoPoint_eq d g 1 1 one_symm one_symm hd, dot4_one, mean_eq, one_dot2, Matrix.one_mul, Matrix.mul_one]
  cases x <;> simp only [chargecharge, Option.isNone_none, Option.isNone_some, Bool.false_eq_true, ↓reduceIte, pow_two]

/-- Mean-field charge correlation: the two-body density matrix is the antisymmetrised product. -/
theorem charge_correlation_mf (d : Mat n K) (p q : Mat n K) (hp : p.transpose = p) (hq : q.transpose = q) (hd : d.transpose = d) (sub : Bool) :
    chargecharge d none (some p) (some q) sub = twoPoint d (onePart (1 / 2) d) p q - if sub then mean p d * mean q d else 0 := by
  rw [twoPoint_eq d _ p q hp hq hd, mean_eq, mean_eq]
  have e : (∑ i, ∑ j, ∑ k, ∑ l, p i k * d i j * d k l * q l j) = tr4 p d q d := by
    rw [show tr4 p d q d = tr4 p.transpose d q d by rw [hp]]
    unfold tr4
    simp only [Matrix.trace, Matrix.diag, Matrix.mul_apply, Matrix.transpose_apply, Finset.sum_mul]
    -- `k, l, j, i`
    calc (∑ i, ∑ j, ∑ k, ∑ l, p i k * d i j * d k l * q l j) = ∑ i, ∑ k, ∑ j, ∑ l, p i k * d i j * d k l * q l j :=
          Finset.sum_congr rfl fun _ _ => Finset.sum_comm
      _ = ∑ k, ∑ i, ∑ j, ∑ l, p i k * d i j * d k l * q l j := Finset.sum_comm
      _ = ∑ k, ∑ i, ∑ l, ∑ j, p i k * d i j * d k l * q l j :=
          Finset.sum_congr rfl fun _ _ => Finset.sum_congr rfl fun _ _ => Finset.sum_comm
      _ = ∑ k, ∑ l, ∑ i, ∑ j, p i k * d i j * d k l * q l j := Finset.sum_congr rfl fun _ _ => Finset.sum_comm
      _ = ∑ k, ∑ l, ∑ j, ∑ i, p i k * d i j * d k l * q l j :=
          Finset.sum_congr rfl fun _ _ => Finset.sum_congr rfl fun _ _ => Finset.sum_comm
      _ = _ := Finset.sum_congr rfl fun k _ => Finset.sum_congr rfl fun l _ => Finset.sum_congr rfl fun j _ => Finset.sum_congr rfl fun i _ => by
          have h1 : d k l = d l k := congrFun (congrFun hd l) k
          have h2 : q l j = q j l := congrFun (congrFun hq j) l
          rw [h1, h2]; ring
  have ew : dot4 (outer p q) (onePart (1 / 2) d) = dot2 p d * dot2 q d - 1 / 2 * tr4 p d q d := dot4_wedge (1 / 2) p q d d hp hq hd
  rw [ew]
  simp only [chargecharge, chargechargeMf, Option.isNone_some, Bool.false_eq_true, ↓reduceIte, contract1_eq p q d hp hq hd, e, dot2_comm d]
  cases sub
  · simp only [Bool.false_eq_true, ↓reduceIte]; ring
  · simp only [↓reduceIte]; ring

/-- Without projectors, the mean-field function is the one with identity projectors if the density matrix is that of a determinant. -/
theorem charge_correlation_mf_default_partial [CharZero K] (d : Mat n K) (hd : d.transpose = d) (hi : d * d = (2 : K) • d) (sub : Bool) (x : Option (Mat n K)) :
    chargecharge d none none x sub = chargecharge d none (some 1) (some 1) sub := by
  rw [charge_correlation_mf d 1 1 one_symm one_symm hd, twoPoint_eq d _ 1 1 one_symm one_symm hd, mean_eq, one_dot2, Matrix.one_mul, Matrix.mul_one]
  have ew : dot4 (outer 1 1) (onePart (1 / 2) d) = dot2 1 d * dot2 1 d - 1 / 2 * tr4 1 d 1 d := dot4_wedge (1 / 2) 1 1 d d one_symm one_symm hd
  have et : tr4 1 d 1 d = 2 * d.trace := by
    unfold tr4; rw [Matrix.one_mul, Matrix.mul_one, hi, Matrix.trace_smul, smul_eq_mul]
  rw [ew, et, one_dot2]
  have h2 : (2 : K) ≠ 0 := two_ne_zero
  cases x <;> cases sub <;>
    simp only [chargecharge, chargechargeMf, Option.isNone_none, Option.isNone_some, Bool.false_eq_true, ↓reduceIte] <;> field_simp <;> ring

/-- The condition is needed: half-filled spatial orbital. -/
theorem charge_correlation_mf_default_needs :
    chargecharge (K := ℚ) (n := 1) (fun _ _ => 1) none none none true ≠ chargecharge (K := ℚ) (n := 1) (fun _ _ => 1) none (some 1) (some 1) true := by
  decide +kernel

/-- Spin correlation of singlets from spin-summed density matrices. -/
theorem spin_correlation_singlet [CharZero K] (da : Mat n K) (g aa ab : Ten n n K) (hs : Singlet g aa ab) (p q : Mat n K) (hp : p.transpose = p)
    (hq : q.transpose = q) (hd : da.transpose = da) :
    spinspin ((2 : K) • da) (some g) (some p) (some q) = spinSpin da da aa ab aa p p q q := by
  have h2 : (2 : K) ≠ 0 := two_ne_zero
  have h6 : (6 : K) ≠ 0 := by exact_mod_cast (by decide : (6 : ℕ) ≠ 0)
  have eaa : dm2aaOf g = aa := by
    funext i j k l
    simp only [dm2aaOf, swapT, hs.total, hs.same]
    field_simp; ring
  have eab : dm2abOf g = ab := by
    funext i j k l
    simp only [dm2abOf, eaa, hs.total]
    field_simp; ring
  have ed : (2 : K)⁻¹ • (2 : K) • da = da := by rw [smul_smul, inv_mul_cancel₀ h2, one_smul]
  have ef : pairPart ab q p = pairPart ab p q := by
    rw [pairPart_eq, pairPart_eq]
    unfold dot4 outer
    calc _ = ∑ i, ∑ k, ∑ j, ∑ l, q i j * p k l * ab i j k l := Finset.sum_congr rfl fun _ _ => Finset.sum_comm
      _ = ∑ k, ∑ i, ∑ j, ∑ l, q i j * p k l * ab i j k l := Finset.sum_comm
      _ = ∑ k, ∑ i, ∑ l, ∑ j, q i j * p k l * ab i j k l := Finset.sum_congr rfl fun _ _ => Finset.sum_congr rfl fun _ _ => Finset.sum_comm
      _ = ∑ k, ∑ l, ∑ i, ∑ j, q i j * p k l * ab i j k l := Finset.sum_congr rfl fun _ _ => Finset.sum_comm
      _ = _ := Finset.sum_congr rfl fun k _ => Finset.sum_congr rfl fun l _ => Finset.sum_congr rfl fun i _ => Finset.sum_congr rfl fun j _ => by
          rw [hs.flip i j k l]; ring
  unfold spinSpin
  rw [ef, twoPoint_eq da aa p q hp hq hd, pairPart_eq]
  simp only [spinspin, Option.isNone_some, Bool.false_eq_true, ↓reduceIte, eaa, eab, ed, contractAb_eq, contract1_eq p q da hp hq hd]
  field_simp; ring

/-- Spin correlation from the density matrices of the spins. -/
theorem spin_correlation_unrestricted (da : Mat a K) (db : Mat b K) (aa : Ten a a K) (ab : Ten a b K) (bb : Ten b b K) (pa qa : Mat a K) (pb qb : Mat b K)
    (hpa : pa.transpose = pa) (hqa : qa.transpose = qa) (hpb : pb.transpose = pb) (hqb : qb.transpose = qb) (hda : da.transpose = da) (hdb : db.transpose = db) :
    spinspinU da db (some (aa, ab, bb)) (some (pa, pb)) (some (qa, qb)) = .ok (spinSpin da db aa ab bb pa pb qa qb) := by
  unfold spinSpin
  rw [twoPoint_eq da aa pa qa hpa hqa hda, twoPoint_eq db bb pb qb hpb hqb hdb, pairPart_eq, pairPart_eq]
  simp only [spinspinU, Option.isNone_some, Bool.false_eq_true, ↓reduceIte, contractAb_eq, contract1_eq pa qa da hpa hqa hda, contract1_eq pb qb db hpb hqb hdb]
  congr 1; ring

/-- Without projectors the unrestricted function raises NameError. -/
theorem spin_correlation_unrestricted_default (da : Mat a K) (db : Mat b K) (t : Ten a a K × Ten a b K × Ten b b K) (x : Option (Mat a K × Mat b K)) :
    spinspinU da db (some t) none x = .error .nameError := by
  cases x <;> rfl

private theorem exchU (p q d : Mat n K) (hp : p.transpose = p) (hq : q.transpose = q) (hd : d.transpose = d) :
    (∑ i, ∑ j, ∑ k, ∑ l, p i j * d i l * (d j k * q k l)) = tr4 p d q d := by
  have e : tr4 p d q d = dot4 (outer p q) (outerX d d) := by
    have := dot4_wedge 1 p q d d hp hq hd
    have h2 := dot4_sub (outer p q) (outer d d) (outerX d d)
    rw [dot4_outer] at h2
    have h3 : dot4 (outer p q) (wedge 1 d d) = dot4 (outer p q) (fun r s t u => outer d d r s t u - outerX d d r s t u) := by
      congr 1; funext r s t u; simp only [wedge, outer, outerX, one_mul]
    rw [h3, h2, one_mul] at this
    exact (sub_right_injective this).symm
  rw [e]
  unfold dot4 outer outerX
  exact Finset.sum_congr rfl fun _ _ => Finset.sum_congr rfl fun _ _ => Finset.sum_congr rfl fun _ _ => Finset.sum_congr rfl fun _ _ => by ring

/-- Mean-field spin correlation: antisymmetrised products within one spin, products for different spins. -/
theorem spin_correlation_mf (da : Mat a K) (db : Mat b K) (pa qa : Mat a K) (pb qb : Mat b K)
    (hpa : pa.transpose = pa) (hqa : qa.transpose = qa) (hpb : pb.transpose = pb) (hqb : qb.transpose = qb) (hda : da.transpose = da) (hdb : db.transpose = db) :
    spinspinU da db none (some (pa, pb)) (some (qa, qb)) =
      .ok (spinSpin da db (onePart 1 da) (fun i j k l => da i j * db k l) (onePart 1 db) pa pb qa qb) := by
  unfold spinSpin
  have ea : dot4 (outer pa qa) (onePart 1 da) = dot2 pa da * dot2 qa da - 1 * tr4 pa da qa da := dot4_wedge 1 pa qa da da hpa hqa hda
  have eb : dot4 (outer pb qb) (onePart 1 db) = dot2 pb db * dot2 qb db - 1 * tr4 pb db qb db := dot4_wedge 1 pb qb db db hpb hqb hdb
  have e1 : pairPart (fun i j k l => da i j * db k l) pa qb = dot2 pa da * dot2 qb db := dot4_outer pa da qb db
  have e2 : pairPart (fun i j k l => da i j * db k l) qa pb = dot2 qa da * dot2 pb db := dot4_outer qa da pb db
  rw [twoPoint_eq da _ pa qa hpa hqa hda, twoPoint_eq db _ pb qb hpb hqb hdb, ea, eb, e1, e2]
  simp only [spinspinU, spinspinMfU, Option.isNone_some, Bool.false_eq_true, ↓reduceIte, contract1_eq pa qa da hpa hqa hda,
    contract1_eq pb qb db hpb hqb hdb, exchU pa qa da hpa hqa hda, exchU pb qb db hpb hqb hdb, dot2_comm da, dot2_comm db]
  congr 1; ring

/-- Restricted mean field: half of the density matrix for each spin. -/
theorem spin_correlation_mf_restricted (d : Mat n K) (p q : Mat n K) (hp : p.transpose = p) (hq : q.transpose = q) (hd : d.transpose = d) :
    spinspin d none (some p) (some q) =
      spinSpin ((2 : K)⁻¹ • d) ((2 : K)⁻¹ • d) (onePart 1 ((2 : K)⁻¹ • d)) (fun i j k l => ((2 : K)⁻¹ • d) i j * ((2 : K)⁻¹ • d) k l) (onePart 1 ((2 : K)⁻¹ • d)) p p q q := by
  have hdh : ((2 : K)⁻¹ • d).transpose = (2 : K)⁻¹ • d := by rw [Matrix.transpose_smul, hd]
  have h := spin_correlation_mf ((2 : K)⁻¹ • d) ((2 : K)⁻¹ • d) p q p q hp hq hp hq hdh hdh
  exact Except.ok.inj h

/-! ### `get_corrfunc` -/

/-- Documented names of the kinds. -/
def kindName : Kind → String
  | .nn => "n,n"
  | .dndn => "dn,dn"
  | .szsz => "sz,sz"

/-- The requested kind, with any capitalisation; anything else is refused. -/
theorem corrfunc_kinds (kind : String) :
    (∀ k, parseKind kind = .ok k ↔ kind.toLower = kindName k) ∧ (parseKind kind = .error .valueError ↔ ∀ k, kind.toLower ≠ kindName k) := by
  refine ⟨fun k => ?_, ?_⟩
  · unfold parseKind
    cases k <;> simp only [kindName] <;> split <;> (try split) <;> (try split) <;> simp_all
  · unfold parseKind
    constructor
    · intro h k
      split at h
      · cases h
      · split at h
        · cases h
        · split at h
          · cases h
          · cases k <;> assumption
    · intro h
      have h1 := h .nn; have h2 := h .dndn; have h3 := h .szsz
      simp only [kindName] at h1 h2 h3
      rw [if_neg h1, if_neg h2, if_neg h3]

/-- Global cumulant: sum over fragments and their symmetry children, transformed to molecular orbitals. -/
def globalCumulant (frags : List (CFrag n K)) : Ten n n K := fun i j k l =>
  (frags.map fun x => (x.rx.map fun r => transform r.transpose r.transpose x.cumulant i j k l).sum).sum

private theorem array_add (kind : Kind) (t u : Ten n n K) :
    twoBodyArray kind (fun i j k l => t i j k l + u i j k l) = fun i j k l => twoBodyArray kind t i j k l + twoBodyArray kind u i j k l := by
  cases kind
  · rfl
  · rfl
  · funext i j k l
    simp only [twoBodyArray, swapT, ↓reduceIte]; ring

private theorem one_lin (nocc : Nat) (d p q : Mat n K) (f : K) (hp : p.transpose = p) (hq : q.transpose = q) (hd : d.transpose = d) :
    dot4 (outer p q) (onePartLinear f d (meanField n nocc 2)) =
      2 * (dot2 p (meanField n nocc 1) * dot2 q d + dot2 p d * dot2 q (meanField n nocc 1) - 2 * (dot2 p (meanField n nocc 1) * dot2 q (meanField n nocc 1)))
      - f * (4 * tr4 p d q (meanField n nocc 1) - 4 * tr4 p (meanField n nocc 1) q (meanField n nocc 1)) := by
  have hm := mf_transpose (n := n) nocc (2 : K)
  have e : dot4 (outer p q) (onePartLinear f d (meanField n nocc 2)) = dot4 (outer p q) (wedge f (meanField n nocc 2) d) + dot4 (outer p q) (wedge f d (meanField n nocc 2))
      - dot4 (outer p q) (wedge f (meanField n nocc 2) (meanField n nocc 2)) := by
    rw [← dot4_add, ← dot4_sub]; rfl
  rw [e, dot4_wedge f p q _ _ hp hq hd, dot4_wedge f p q _ _ hp hq hm, dot4_wedge f p q _ _ hp hq hm, mf_smul nocc (2 : K),
    tr4_smul2, tr4_smul2, tr4_smul4, tr4_smul4, dot2_smul, dot2_smul, tr4_swap p (meanField n nocc 1) q d hp (mf_transpose _ _) hq hd]
  ring

private theorem array_lin [CharZero K] (nocc : Nat) (d : Mat n K) (hd : d.transpose = d) :
    twoBodyArray .szsz (onePartLinear (1 / 2) d (meanField n nocc 2)) =
      fun i j k l => 1 / 4 * (onePartLinear 1 d (meanField n nocc 2) i j k l - onePartLinear 0 d (meanField n nocc 2) i j k l) := by
  have hm := mf_transpose (n := n) nocc (2 : K)
  generalize meanField n nocc (2 : K) = m at *
  funext i j k l
  have h1 : ∀ x y, d x y = d y x := fun x y => congrFun (congrFun hd y) x
  have h2 : ∀ x y, m x y = m y x := fun x y => congrFun (congrFun hm y) x
  simp only [twoBodyArray, swapT, ↓reduceIte, onePartLinear, wedge]
  rw [h1 l k, h2 l k, h1 k j, h2 k j]
  have h : (2 : K) ≠ 0 := two_ne_zero
  have h3 : (3 : K) ≠ 0 := by exact_mod_cast (by decide : (3 : ℕ) ≠ 0)
  have h6 : (6 : K) ≠ 0 := by exact_mod_cast (by decide : (6 : ℕ) ≠ 0)
  have h4 : (4 : K) ≠ 0 := by exact_mod_cast (by decide : (4 : ℕ) ≠ 0)
  field_simp; ring

/-- The non-cumulant terms are the contribution of the one-body part of the two-body density matrix (to first order around the mean
field). -/
private theorem nonCumulant_eq [CharZero K] (kind : Kind) (nocc : Nat) (d p q : Mat n K) (hp : p.transpose = p) (hq : q.transpose = q) (hd : d.transpose = d) :
    nonCumulant kind nocc d p q =
      (factors (K := K) kind).2.2 * dot4 (outer p q) (twoBodyArray kind (onePartLinear (1 / 2) d (meanField n nocc 2))) := by
  have h : (2 : K) ≠ 0 := two_ne_zero
  have h4 : (4 : K) ≠ 0 := by exact_mod_cast (by decide : (4 : ℕ) ≠ 0)
  have hneg : meanField n nocc (-1 : K) = (-1 : K) • meanField n nocc 1 := mf_smul nocc (-1)
  have er : rowsDot nocc (p * addDiag nocc (-1) d) q = tr4 p d q (meanField n nocc 1) - tr4 p (meanField n nocc 1) q (meanField n nocc 1) := by
    rw [rows_tr4 nocc p q _ hq, addDiag_eq, hneg, tr4_add2, tr4_smul2]; ring
  have ed : ∀ x : Mat n K, dot2 x (addDiag nocc (-1) d) = dot2 x d - dot2 x (meanField n nocc 1) := by
    intro x; rw [addDiag_eq, hneg, dot2_add, dot2_smul]; ring
  cases kind with
  | szsz =>
    rw [array_lin nocc d hd, dot4_smul, dot4_sub, one_lin nocc d p q 1 hp hq hd, one_lin nocc d p q 0 hp hq hd]
    simp only [nonCumulant, factors, ↓reduceIte, er]
    field_simp; ring
  | nn =>
    simp only [nonCumulant, factors, twoBodyArray, reduceCtorEq, ↓reduceIte, er, ed, occTrace_eq, one_lin nocc d p q (1 / 2) hp hq hd]
    field_simp; ring
  | dndn =>
    simp only [nonCumulant, factors, twoBodyArray, reduceCtorEq, ↓reduceIte, er, ed, occTrace_eq, one_lin nocc d p q (1 / 2) hp hq hd]
    field_simp; ring

/-- `get_corrfunc` from a full two-body density matrix. -/
theorem corrfunc_full [CharZero K] [LinearOrder K] (nocc nel : Nat) (d : Mat n K) (g : Ten n n K) (frags : List (CFrag n K)) (p q : Mat n K) (hp : p.transpose = p)
    (hq : q.transpose = q) (hd : d.transpose = d) :
    corrfunc nocc nel .nn d (some g) frags (some true) p q = twoPoint d g p q ∧
    corrfunc nocc nel .dndn d (some g) frags (some true) p q = twoPoint d g p q - mean p d * mean q d ∧
    ∀ (da : Mat n K) (aa ab : Ten n n K), d = (2 : K) • da → Singlet g aa ab →
      corrfunc nocc nel .szsz d (some g) frags (some true) p q = spinSpin da da aa ab aa p p q q := by
  refine ⟨?_, ?_, ?_⟩
  · rw [twoPoint_eq d g p q hp hq hd]
    simp only [corrfunc, Option.getD_some, ↓reduceIte, reduceCtorEq, oneBody, twoBody, factors, twoBodyArray, contract2_eq, oneDot_eq p q d hq]
    ring
  · rw [twoPoint_eq d g p q hp hq hd, mean_eq, mean_eq, dot2_comm p, dot2_comm q]
    simp only [corrfunc, Option.getD_some, ↓reduceIte, reduceCtorEq, oneBody, twoBody, factors, twoBodyArray, contract2_eq, oneDot_eq p q d hq]
    ring
  · intro da aa ab hda hs
    have h2 : (2 : K) ≠ 0 := two_ne_zero
    have h3 : (3 : K) ≠ 0 := by exact_mod_cast (by decide : (3 : ℕ) ≠ 0)
    have h4 : (4 : K) ≠ 0 := by exact_mod_cast (by decide : (4 : ℕ) ≠ 0)
    have h6 : (6 : K) ≠ 0 := by exact_mod_cast (by decide : (6 : ℕ) ≠ 0)
    have hda' : da.transpose = da := by
      have : (2 : K) • da.transpose = (2 : K) • da := by rw [← Matrix.transpose_smul, ← hda, hd]
      exact smul_right_injective _ h2 this
    rw [← spin_correlation_singlet da g aa ab hs p q hp hq hda', ← hda]
    have ea : twoBodyArray .szsz g = fun i j k l => dm2aaOf g i j k l - dm2abOf g i j k l := by
      funext i j k l
      simp only [twoBodyArray, ↓reduceIte, dm2abOf, dm2aaOf, swapT]
      field_simp; ring
    simp only [corrfunc, Option.getD_some, ↓reduceIte, reduceCtorEq, oneBody, twoBody, factors, contract2_eq, oneDot_eq p q d hq, ea, dot4_sub]
    have hdh : ((2 : K)⁻¹ • d).transpose = (2 : K)⁻¹ • d := by rw [Matrix.transpose_smul, hd]
    simp only [spinspin, Option.isNone_some, Bool.false_eq_true, ↓reduceIte, contractAb_eq, contract1_eq p q _ hp hq hdh, Matrix.mul_smul, Matrix.smul_mul,
      Matrix.trace_smul, smul_eq_mul]
    field_simp; ring

/-- A two-body density matrix without its one-body part gives the same as the full one. -/
theorem corrfunc_cumulant [CharZero K] [LinearOrder K] (nocc nel : Nat) (kind : Kind) (d : Mat n K) (k : Ten n n K) (frags : List (CFrag n K)) (p q : Mat n K)
    (hp : p.transpose = p) (hq : q.transpose = q) (hd : d.transpose = d) :
    corrfunc nocc nel kind d (some k) frags (some false) p q =
    corrfunc nocc nel kind d (some fun i j r s => onePartLinear (1 / 2) d (meanField n nocc 2) i j r s + k i j r s) frags (some true) p q := by
  simp only [corrfunc, Option.getD_some, ↓reduceIte, Bool.false_eq_true, twoBody, contract2_eq, array_add, dot4_add, nonCumulant_eq kind nocc d p q hp hq hd]
  split <;> ring

private theorem array_transform (kind : Kind) {m : Nat} (r : Matrix (Fin m) (Fin n) K) (t : Ten m m K) :
    transform r.transpose r.transpose (twoBodyArray kind t) = twoBodyArray kind (transform r.transpose r.transpose t) := by
  cases kind
  · rfl
  · rfl
  · have es : transform r.transpose r.transpose (swapT t) = swapT (transform r.transpose r.transpose t) := by
      funext p q u s
      simp only [transform, swapT]
      refine Finset.sum_congr rfl fun i _ => ?_
      calc _ = ∑ j, ∑ l, ∑ k, t i l k j * r.transpose p i * r.transpose q j * r.transpose u k * r.transpose s l :=
            Finset.sum_congr rfl fun _ _ => Finset.sum_comm
        _ = ∑ l, ∑ j, ∑ k, t i l k j * r.transpose p i * r.transpose q j * r.transpose u k * r.transpose s l := Finset.sum_comm
        _ = ∑ l, ∑ k, ∑ j, t i l k j * r.transpose p i * r.transpose q j * r.transpose u k * r.transpose s l :=
            Finset.sum_congr rfl fun _ _ => Finset.sum_comm
        _ = _ := Finset.sum_congr rfl fun _ _ => Finset.sum_congr rfl fun _ _ => Finset.sum_congr rfl fun _ _ => by ring
    have e : twoBodyArray .szsz t = fun i j k l => (-(1 / 6)) * t i j k l + (-(1 / 3)) * swapT t i j k l := by
      funext i j k l; simp only [twoBodyArray, ↓reduceIte]; ring
    rw [e, transform_add, transform_smul, transform_smul, es]
    funext i j k l; simp only [twoBodyArray, ↓reduceIte]; ring

private theorem sum_contract {ι : Type} (c : K) (w : Ten n n K) (kind : Kind) (f : ι → Ten n n K) (l : List ι) :
    (l.map fun x => c * dot4 w (twoBodyArray kind (f x))).sum = c * dot4 w (twoBodyArray kind fun i j r s => (l.map fun x => f x i j r s).sum) := by
  induction l with
  | nil =>
    have : twoBodyArray kind (fun _ _ _ _ => (0 : K)) = fun (_ _ _ _ : Fin n) => (0 : K) := by
      cases kind <;> (funext i j r s; simp [twoBodyArray, swapT])
    simp only [List.map_nil, List.sum_nil, this]
    simp [dot4]
  | cons x l ih =>
    simp only [List.map_cons, List.sum_cons, ih, array_add, dot4_add]; ring

/-- From the fragments' cumulants: the same as from the full two-body density matrix made of the one-body part and the global cumulant. -/
theorem corrfunc_fragments [CharZero K] [LinearOrder K] (nocc nel : Nat) (kind : Kind) (d : Mat n K) (frags : List (CFrag n K)) (p q : Mat n K)
    (hp : p.transpose = p) (hq : q.transpose = q) (hd : d.transpose = d) (w : Option Bool) (hw : w ≠ some true) :
    corrfunc nocc nel kind d none frags w p q =
    corrfunc nocc nel kind d (some fun i j r s => onePartLinear (1 / 2) d (meanField n nocc 2) i j r s + globalCumulant frags i j r s) frags (some true) p q := by
  rw [← corrfunc_cumulant nocc nel kind d (globalCumulant frags) frags p q hp hq hd]
  have hw' : w.getD (detectWithDm1 nel (none : Option (Ten n n K))) = false := by
    cases w with
    | none => rfl
    | some b => cases b
                · rfl
                · exact absurd rfl hw
  have e : twoBody kind none frags p q = twoBody kind (some (globalCumulant frags)) frags p q := by
    simp only [twoBody, contract2_rotate, array_transform]
    rw [contract2_eq]
    unfold globalCumulant
    rw [← sum_contract]
    congr 1
    refine List.map_congr_left fun x _ => ?_
    exact sum_contract _ _ _ _ _
  unfold corrfunc
  rw [hw', e]
  rfl

/-! ### Recognising full density matrices -/

section Order
variable [LinearOrder K] [IsStrictOrderedRing K]

/-- A full two-body density matrix of `N` electrons is recognised as such if and only if `N ≥ 2`. -/
theorem corrfunc_detects_full (nel : Nat) (g : Ten n n K) (hg : trace2 g = nel * (nel - 1)) : detectWithDm1 nel (some g) = true ↔ 2 ≤ nel := by
  simp only [detectWithDm1, decide_eq_true_eq, hg]
  constructor
  · intro h
    by_contra hn
    have : nel = 0 ∨ nel = 1 := by omega
    rcases this with rfl | rfl <;> simp at h
  · intro h
    have h1 : (2 : K) ≤ nel := by exact_mod_cast h
    have : (0 : K) < nel * (nel - 1) := mul_pos (by linarith) (by linarith)
    linarith

private theorem trace_lin (nocc : Nat) (hn : nocc ≤ n) (d : Mat n K) (hd : d.transpose = d) (ht : d.trace = 2 * nocc) :
    trace2 (onePartLinear (1 / 2) d (meanField n nocc 2)) = 2 * nocc * (2 * nocc - 1) + 2 * (2 * nocc - occTrace nocc d) := by
  have h := one_lin nocc d 1 1 (1 / 2) one_symm one_symm hd
  rw [dot4_one] at h
  have hm : (meanField n nocc (1 : K)).trace = nocc := by
    unfold Matrix.trace
    simp only [Matrix.diag, meanField, true_and]
    rw [Finset.sum_ite, Finset.sum_const_zero, add_zero, Finset.sum_const, nsmul_eq_mul, mul_one]
    congr 1
    have : (Finset.univ.filter fun i : Fin n => i.val < nocc) = Finset.univ.map (Fin.castLEEmb hn) := by
      ext i
      simp only [Finset.mem_filter, Finset.mem_univ, true_and, Finset.mem_map]
      constructor
      · intro hi; exact ⟨⟨i.val, hi⟩, rfl⟩
      · rintro ⟨j, rfl⟩; exact j.isLt
    rw [this, Finset.card_map, Finset.card_univ, Fintype.card_fin]
  have hmm : tr4 1 (meanField n nocc (1 : K)) 1 (meanField n nocc 1) = nocc := by
    unfold tr4
    rw [Matrix.one_mul, Matrix.mul_one, ← hm]
    congr 1
    funext i j
    rw [Matrix.mul_apply, Finset.sum_eq_single i]
    · simp only [meanField, true_and]
      split
      · simp
      · rename_i h1; rw [if_neg fun c => h1 c.2]; simp
    · intro k _ hk; simp [meanField, Ne.symm hk]
    · simp
  have hdm : tr4 1 d 1 (meanField n nocc 1) = occTrace nocc d := by
    unfold tr4
    rw [Matrix.one_mul, Matrix.mul_one, occTrace_eq, dot2_trace, hd]
  rw [one_dot2, one_dot2, hm, ht, hmm, hdm] at h
  rw [h]; ring

/-- A two-body density matrix without its one-body part is recognised as such, if the occupied orbitals hold at most all electrons. -/
theorem corrfunc_detects_cumulant (nocc : Nat) (hn : nocc ≤ n) (d : Mat n K) (hd : d.transpose = d) (ht : d.trace = 2 * nocc) (hocc : occTrace nocc d ≤ 2 * nocc)
    (g : Ten n n K) (hg : trace2 g = (2 * nocc : K) * (2 * nocc - 1)) :
    detectWithDm1 (2 * nocc) (some fun i j k l => g i j k l - onePartLinear (1 / 2) d (meanField n nocc 2) i j k l) = false := by
  have e : trace2 (fun i j k l => g i j k l - onePartLinear (1 / 2) d (meanField n nocc 2) i j k l) = trace2 g - trace2 (onePartLinear (1 / 2) d (meanField n nocc 2)) := by
    unfold trace2
    rw [← Finset.sum_sub_distrib]
    exact Finset.sum_congr rfl fun _ _ => by rw [← Finset.sum_sub_distrib]
  simp only [detectWithDm1, e, trace_lin nocc hn d hd ht, hg, decide_eq_false_iff_not, not_lt]
  have h0 : (0 : K) ≤ ((2 * nocc : Nat) : K) * (((2 * nocc : Nat) : K) - 1) := by
    rcases Nat.eq_zero_or_pos nocc with rfl | h
    · simp
    · have h1 : (1 : K) ≤ ((2 * nocc : Nat) : K) := by exact_mod_cast (by omega : 1 ≤ 2 * nocc)
      exact mul_nonneg (by linarith) (by linarith)
  linarith

/-- So for two or more electrons, leaving out `dm2_with_dm1` gives the correlation function of the full density matrix in both cases. -/
theorem corrfunc_automatic [CharZero K] (nocc : Nat) (h1 : 1 ≤ nocc) (hn : nocc ≤ n) (kind : Kind) (d : Mat n K) (hd : d.transpose = d) (ht : d.trace = 2 * nocc)
    (hocc : occTrace nocc d ≤ 2 * nocc) (g : Ten n n K) (hg : trace2 g = (2 * nocc : K) * (2 * nocc - 1)) (frags : List (CFrag n K)) (p q : Mat n K) (hp : p.transpose = p)
    (hq : q.transpose = q) :
    corrfunc nocc (2 * nocc) kind d (some g) frags none p q = corrfunc nocc (2 * nocc) kind d (some g) frags (some true) p q ∧
    corrfunc nocc (2 * nocc) kind d (some fun i j k l => g i j k l - onePartLinear (1 / 2) d (meanField n nocc 2) i j k l) frags none p q =
      corrfunc nocc (2 * nocc) kind d (some g) frags (some true) p q := by
  have hd1 : detectWithDm1 (2 * nocc) (some g) = true := (corrfunc_detects_full _ g (by rw [hg]; push_cast; ring)).mpr (by omega)
  have hd2 := corrfunc_detects_cumulant nocc hn d hd ht hocc g hg
  refine ⟨by simp only [corrfunc, hd1, Option.getD_none, Option.getD_some], ?_⟩
  have e : corrfunc nocc (2 * nocc) kind d (some fun i j k l => g i j k l - onePartLinear (1 / 2) d (meanField n nocc 2) i j k l) frags none p q =
      corrfunc nocc (2 * nocc) kind d (some fun i j k l => g i j k l - onePartLinear (1 / 2) d (meanField n nocc 2) i j k l) frags (some false) p q := by
    simp only [corrfunc, hd2, Option.getD_none, Option.getD_some]
  rw [e, corrfunc_cumulant nocc _ kind d _ frags p q hp hq hd]
  congr 2
  funext i j k l; ring

end Order

/-! ### Sum rules -/

private theorem pairPart_sum (g : Ten n n K) (p : Mat n K) (ps : List (Mat n K)) : (ps.map fun q => dot4 (outer p q) g).sum = dot4 (outer p ps.sum) g := by
  induction ps with
  | nil => simp [dot4, outer]
  | cons q ps ih =>
    rw [List.map_cons, List.sum_cons, List.sum_cons, ih]
    unfold dot4 outer
    simp only [← Finset.sum_add_distrib]
    exact Finset.sum_congr rfl fun _ _ => Finset.sum_congr rfl fun _ _ => Finset.sum_congr rfl fun _ _ => Finset.sum_congr rfl fun _ _ => by
      rw [Matrix.add_apply]; ring

private theorem trace_sum (x : Mat n K) (ps : List (Mat n K)) : (ps.map fun q => (x * q).trace).sum = (x * ps.sum).trace := by
  induction ps with
  | nil => simp
  | cons q ps ih => rw [List.map_cons, List.sum_cons, List.sum_cons, ih, Matrix.mul_add, Matrix.trace_add]

private theorem contract_right (g : Ten n n K) (p : Mat n K) : dot4 (outer p 1) g = dot2 p (fun i j => ∑ k, g i j k k) := by
  unfold dot4 outer dot2
  refine Finset.sum_congr rfl fun i _ => Finset.sum_congr rfl fun j _ => ?_
  rw [Finset.mul_sum]
  refine Finset.sum_congr rfl fun k _ => ?_
  rw [Finset.sum_eq_single k]
  · simp
  · intro l _ hl; rw [Matrix.one_apply_ne' hl]; ring
  · simp

private theorem twoPoint_sum (d : Mat n K) (g : Ten n n K) (p : Mat n K) (ps : List (Mat n K)) (hp : p.transpose = p) (hps : ∀ q ∈ ps, q.transpose = q)
    (hd : d.transpose = d) (h1 : ps.sum = 1) (x : K) (hx : ∀ i j, ∑ k, g i j k k = x * d i j) :
    (ps.map fun q => twoPoint d g p q).sum = (x + 1) * mean p d := by
  have e : (ps.map fun q => twoPoint d g p q) = ps.map fun q => dot4 (outer p q) g + (p * d * q).trace :=
    List.map_congr_left fun q hq => twoPoint_eq d g p q hp (hps q hq) hd
  rw [e, List.sum_map_add, pairPart_sum, trace_sum, h1, contract_right, Matrix.mul_one, mean_eq]
  have e2 : (fun i j => ∑ k, g i j k k : Mat n K) = x • d := by
    funext i j; rw [hx i j, Matrix.smul_apply, smul_eq_mul]
  have e3 : (p * d).trace = dot2 p d := by rw [dot2_trace, hp]
  rw [e2, dot2_smul, e3]; ring

/-- Charge correlations of an `N`-electron state, summed over a complete set of atoms: `N` times the population; correlations of charge
fluctuations sum to zero. -/
theorem corrfunc_charge_sum [CharZero K] [LinearOrder K] (nocc nel : Nat) (d : Mat n K) (g : Ten n n K) (frags : List (CFrag n K)) (p : Mat n K) (ps : List (Mat n K))
    (hp : p.transpose = p) (hps : ∀ q ∈ ps, q.transpose = q) (hd : d.transpose = d) (h1 : ps.sum = 1) (hN : d.trace = nel)
    (hx : ∀ i j, ∑ k, g i j k k = ((nel : K) - 1) * d i j) :
    (ps.map fun q => corrfunc nocc nel .nn d (some g) frags (some true) p q).sum = nel * mean p d ∧
    (ps.map fun q => corrfunc nocc nel .dndn d (some g) frags (some true) p q).sum = 0 := by
  have e1 := twoPoint_sum d g p ps hp hps hd h1 _ hx
  refine ⟨?_, ?_⟩
  · rw [List.map_congr_left fun q hq => (corrfunc_full nocc nel d g frags p q hp (hps q hq) hd).1, e1]; ring
  · rw [List.map_congr_left fun q hq => (corrfunc_full nocc nel d g frags p q hp (hps q hq) hd).2.1]
    have : (ps.map fun q => twoPoint d g p q - mean p d * mean q d) = ps.map fun q => twoPoint d g p q + (-mean p d) * (d * q).trace := by
      refine List.map_congr_left fun q hq => ?_
      have : mean q d = (d * q).trace := by rw [mean_eq, dot2_comm, dot2_trace, hd]
      rw [this]; ring
    rw [this, List.sum_map_add, e1, List.sum_map_mul_left, trace_sum, h1, Matrix.mul_one, hN]; ring

/-- Spin correlations of a singlet with `N` electrons, `N / 2` of each spin, sum to zero over a complete set of atoms. -/
theorem corrfunc_spin_sum [CharZero K] [LinearOrder K] (nocc nel : Nat) (da : Mat n K) (g aa ab : Ten n n K) (hs : Singlet g aa ab) (frags : List (CFrag n K)) (p : Mat n K)
    (ps : List (Mat n K)) (hp : p.transpose = p) (hps : ∀ q ∈ ps, q.transpose = q) (hd : da.transpose = da) (h1 : ps.sum = 1)
    (haa : ∀ i j, ∑ k, aa i j k k = (da.trace - 1) * da i j) (hab : ∀ i j, ∑ k, ab i j k k = da.trace * da i j) :
    (ps.map fun q => corrfunc nocc nel .szsz ((2 : K) • da) (some g) frags (some true) p q).sum = 0 := by
  have hd2 : ((2 : K) • da).transpose = (2 : K) • da := by rw [Matrix.transpose_smul, hd]
  rw [List.map_congr_left fun q hq => (corrfunc_full nocc nel _ g frags p q hp (hps q hq) hd2).2.2 da aa ab rfl hs]
  have ef : ∀ q, pairPart ab q p = pairPart ab p q := by
    intro q
    rw [pairPart_eq, pairPart_eq]
    unfold dot4 outer
    calc _ = ∑ i, ∑ k, ∑ j, ∑ l, q i j * p k l * ab i j k l := Finset.sum_congr rfl fun _ _ => Finset.sum_comm
      _ = ∑ k, ∑ i, ∑ j, ∑ l, q i j * p k l * ab i j k l := Finset.sum_comm
      _ = ∑ k, ∑ i, ∑ l, ∑ j, q i j * p k l * ab i j k l := Finset.sum_congr rfl fun _ _ => Finset.sum_congr rfl fun _ _ => Finset.sum_comm
      _ = ∑ k, ∑ l, ∑ i, ∑ j, q i j * p k l * ab i j k l := Finset.sum_congr rfl fun _ _ => Finset.sum_comm
      _ = _ := Finset.sum_congr rfl fun k _ => Finset.sum_congr rfl fun l _ => Finset.sum_congr rfl fun i _ => Finset.sum_congr rfl fun j _ => by
          rw [hs.flip i j k l]; ring
  have e : (ps.map fun q => spinSpin da da aa ab aa p p q q) = ps.map fun q => (1 / 2 : K) * twoPoint da aa p q + (-(1 / 2)) * dot4 (outer p q) ab := by
    refine List.map_congr_left fun q _ => ?_
    unfold spinSpin
    rw [ef, pairPart_eq]
    have h4 : (4 : K) ≠ 0 := by exact_mod_cast (by decide : (4 : ℕ) ≠ 0)
    have h2 : (2 : K) ≠ 0 := two_ne_zero
    field_simp; ring
  rw [e, List.sum_map_add, List.sum_map_mul_left, List.sum_map_mul_left, pairPart_sum, h1, twoPoint_sum da aa p ps hp hps hd h1 _ haa, contract_right]
  have e2 : (fun i j => ∑ k, ab i j k k : Mat n K) = da.trace • da := by
    funext i j; rw [hab i j, Matrix.smul_apply, smul_eq_mul]
  rw [e2, dot2_smul, mean_eq]; ring

/-! ### Mean field -/

/-- `get_corrfunc_mf`: charge and spin correlation of the given density matrix, by default that of the closed-shell determinant. -/
theorem corrfunc_mf (nocc : Nat) (d : Option (Mat n K)) (p q : Mat n K) (hp : p.transpose = p) (hq : q.transpose = q) (x : Mat n K)
    (hx : x = d.getD (meanField n nocc 2)) (hd : x.transpose = x) :
    corrfuncMf nocc .nn d p q = twoPoint x (onePart (1 / 2) x) p q ∧
    corrfuncMf nocc .dndn d p q = twoPoint x (onePart (1 / 2) x) p q - mean p x * mean q x ∧
    corrfuncMf nocc .szsz d p q = spinSpin ((2 : K)⁻¹ • x) ((2 : K)⁻¹ • x) (onePart 1 ((2 : K)⁻¹ • x)) (fun i j k l => ((2 : K)⁻¹ • x) i j * ((2 : K)⁻¹ • x) k l)
      (onePart 1 ((2 : K)⁻¹ • x)) p p q q := by
  have e : d.getD (addDiag nocc 2 0) = x := by
    rw [hx, addDiag_eq, zero_add]
  refine ⟨?_, ?_, ?_⟩
  · simp only [corrfuncMf, e, charge_correlation_mf x p q hp hq hd, Bool.false_eq_true, ↓reduceIte, sub_zero]
  · simp only [corrfuncMf, e, charge_correlation_mf x p q hp hq hd, ↓reduceIte]
  · simp only [corrfuncMf, e, spin_correlation_mf_restricted x p q hp hq hd]

/-! ### Unrestricted -/

private theorem lin_gen (f : K) (d m p q : Mat n K) (hp : p.transpose = p) (hq : q.transpose = q) (hd : d.transpose = d) (hm : m.transpose = m) :
    dot4 (outer p q) (onePartLinear f d m) = dot2 p m * dot2 q d + dot2 p d * dot2 q m - dot2 p m * dot2 q m - f * (2 * tr4 p d q m - tr4 p m q m) := by
  have e : dot4 (outer p q) (onePartLinear f d m) = dot4 (outer p q) (wedge f m d) + dot4 (outer p q) (wedge f d m) - dot4 (outer p q) (wedge f m m) := by
    rw [← dot4_add, ← dot4_sub]; rfl
  rw [e, dot4_wedge f p q _ _ hp hq hd, dot4_wedge f p q _ _ hp hq hm, dot4_wedge f p q _ _ hp hq hm, tr4_swap p m q d hp hm hq hd]
  ring

private theorem lin_opp (da ma p : Mat a K) (db mb q : Mat b K) :
    dot4 (outer p q) (onePartLinearOpposite da ma db mb) = dot2 p ma * dot2 q db + dot2 p da * dot2 q mb - dot2 p ma * dot2 q mb := by
  rw [← dot4_outer, ← dot4_outer, ← dot4_outer, ← dot4_add, ← dot4_sub]; rfl

private theorem uContract_eq (aa : Ten a a K) (ab : Ten a b K) (bb : Ten b b K) (pa qa : Mat a K) (pb qb : Mat b K) :
    uContract aa ab bb pa pb qa qb = dot4 (outer pa qa) aa + dot4 (outer pb qb) bb - dot4 (outer pa qb) ab - dot4 (outer qa pb) ab := by
  have h : ∀ (m k : Nat) (x : Mat m K) (y : Mat k K) (t : Ten m k K), dot2 (fun k l => ∑ i, ∑ j, x i j * t i j k l : Mat k K) y = dot4 (outer x y) t := by
    intro m k x y t
    unfold dot2 dot4 outer
    simp only [Finset.sum_mul]
    calc (∑ r, ∑ s, ∑ i, ∑ j, x i j * t i j r s * y r s) = ∑ r, ∑ i, ∑ s, ∑ j, x i j * t i j r s * y r s :=
          Finset.sum_congr rfl fun _ _ => Finset.sum_comm
      _ = ∑ i, ∑ r, ∑ s, ∑ j, x i j * t i j r s * y r s := Finset.sum_comm
      _ = ∑ i, ∑ r, ∑ j, ∑ s, x i j * t i j r s * y r s := Finset.sum_congr rfl fun _ _ => Finset.sum_congr rfl fun _ _ => Finset.sum_comm
      _ = ∑ i, ∑ j, ∑ r, ∑ s, x i j * t i j r s * y r s := Finset.sum_congr rfl fun _ _ => Finset.sum_comm
      _ = _ := Finset.sum_congr rfl fun _ _ => Finset.sum_congr rfl fun _ _ => Finset.sum_congr rfl fun _ _ => Finset.sum_congr rfl fun _ _ => by ring
  have h2 : dot2 (fun k l => ∑ i, ∑ j, ab k l i j * pb i j : Mat a K) qa = dot4 (outer qa pb) ab := by
    unfold dot2 dot4 outer
    simp only [Finset.sum_mul]
    exact Finset.sum_congr rfl fun _ _ => Finset.sum_congr rfl fun _ _ => Finset.sum_congr rfl fun _ _ => Finset.sum_congr rfl fun _ _ => by ring
  have e1 : uContract aa ab bb pa pb qa qb =
      dot2 ((fun k l => ∑ i, ∑ j, pa i j * aa i j k l : Mat a K) - (fun k l => ∑ i, ∑ j, ab k l i j * pb i j : Mat a K)) qa +
      dot2 ((fun k l => ∑ i, ∑ j, pb i j * bb i j k l : Mat b K) - (fun k l => ∑ i, ∑ j, pa i j * ab i j k l : Mat b K)) qb := rfl
  have s : ∀ (m : Nat) (x y z : Mat m K), dot2 (x - y) z = dot2 x z - dot2 y z := by
    intro m x y z
    rw [dot2_comm _ z, dot2_sub, dot2_comm z, dot2_comm z]
  have s1 := (s _ _ _ _).trans (congrArg₂ (· - ·) (h a a pa qa aa) h2)
  have s2 := (s _ _ _ _).trans (congrArg₂ (· - ·) (h b b pb qb bb) (h a b pa qb ab))
  refine e1.trans ((congrArg₂ (· + ·) s1 s2).trans ?_)
  ring

/-- Symmetric matrices. -/
def Symm4 (p q : Mat a K) (r s : Mat b K) : Prop := p.transpose = p ∧ q.transpose = q ∧ r.transpose = r ∧ s.transpose = s

/-- Unrestricted `get_corrfunc` from full two-body density matrices. -/
theorem ucorrfunc_full [LinearOrder K] (na nb nel : Nat) (da : Mat a K) (db : Mat b K) (aa : Ten a a K) (ab : Ten a b K) (bb : Ten b b K)
    (frags : List (UCFrag a b K)) (pa qa : Mat a K) (pb qb : Mat b K) (hs : Symm4 pa qa pb qb) (hda : da.transpose = da) (hdb : db.transpose = db) :
    uCorrfunc na nb nel da db (some (aa, ab, bb)) frags (some true) pa pb qa qb = spinSpin da db aa ab bb pa pb qa qb := by
  obtain ⟨hpa, hqa, hpb, hqb⟩ := hs
  unfold spinSpin
  rw [twoPoint_eq da aa pa qa hpa hqa hda, twoPoint_eq db bb pb qb hpb hqb hdb, pairPart_eq, pairPart_eq]
  simp only [uCorrfunc, Option.getD_some, ↓reduceIte, uContract_eq, oneDot_eq pa qa da hqa, oneDot_eq pb qb db hqb]
  ring

private theorem uNon_eq [CharZero K] (na nb : Nat) (da : Mat a K) (db : Mat b K) (pa qa : Mat a K) (pb qb : Mat b K) (hs : Symm4 pa qa pb qb) (hda : da.transpose = da)
    (hdb : db.transpose = db) : uNonCumulant na nb da db pa pb qa qb =
      1 / 4 * uContract (onePartLinear 1 da (meanField a na 1)) (onePartLinearOpposite da (meanField a na 1) db (meanField b nb 1))
        (onePartLinear 1 db (meanField b nb 1)) pa pb qa qb := by
  obtain ⟨hpa, hqa, hpb, hqb⟩ := hs
  have h2 : (2 : K) ≠ 0 := two_ne_zero
  have h4 : (4 : K) ≠ 0 := by exact_mod_cast (by decide : (4 : ℕ) ≠ 0)
  have hn : ∀ m k : Nat, meanField m k (-(1 / 2) : K) = (-(1 / 2) : K) • meanField m k 1 := fun m k => mf_smul k _
  have er : ∀ (m k : Nat) (p q d : Mat m K), q.transpose = q → rowsDot k (p * addDiag k (-(1 / 2)) d) q =
      tr4 p d q (meanField m k 1) - 1 / 2 * tr4 p (meanField m k 1) q (meanField m k 1) := by
    intro m k p q d hq
    rw [rows_tr4 k p q _ hq, addDiag_eq, hn, tr4_add2, tr4_smul2]; ring
  have ed : ∀ (m k : Nat) (x d : Mat m K), dot2 x (addDiag k (-(1 / 2)) d) = dot2 x d - 1 / 2 * dot2 x (meanField m k 1) := by
    intro m k x d; rw [addDiag_eq, hn, dot2_add, dot2_smul]; ring
  rw [uContract_eq, lin_gen 1 da _ pa qa hpa hqa hda (mf_transpose _ _), lin_gen 1 db _ pb qb hpb hqb hdb (mf_transpose _ _), lin_opp, lin_opp]
  simp only [uNonCumulant, er _ _ _ _ _ hqa, er _ _ _ _ _ hqb, ed, occTrace_eq]
  field_simp; ring

private theorem uContract_add (aa aa' : Ten a a K) (ab ab' : Ten a b K) (bb bb' : Ten b b K) (pa qa : Mat a K) (pb qb : Mat b K) :
    uContract (fun i j k l => aa i j k l + aa' i j k l) (fun i j k l => ab i j k l + ab' i j k l) (fun i j k l => bb i j k l + bb' i j k l) pa pb qa qb =
      uContract aa ab bb pa pb qa qb + uContract aa' ab' bb' pa pb qa qb := by
  simp only [uContract_eq, dot4_add]; ring

/-- Without the one-body parts: the same as from the full density matrices. -/
theorem ucorrfunc_cumulant [CharZero K] [LinearOrder K] (na nb nel : Nat) (da : Mat a K) (db : Mat b K) (aa : Ten a a K) (ab : Ten a b K) (bb : Ten b b K)
    (frags : List (UCFrag a b K)) (pa qa : Mat a K) (pb qb : Mat b K) (hs : Symm4 pa qa pb qb) (hda : da.transpose = da) (hdb : db.transpose = db) :
    uCorrfunc na nb nel da db (some (aa, ab, bb)) frags (some false) pa pb qa qb =
      spinSpin da db (fun i j k l => onePartLinear 1 da (meanField a na 1) i j k l + aa i j k l)
        (fun i j k l => onePartLinearOpposite da (meanField a na 1) db (meanField b nb 1) i j k l + ab i j k l)
        (fun i j k l => onePartLinear 1 db (meanField b nb 1) i j k l + bb i j k l) pa pb qa qb := by
  rw [← ucorrfunc_full na nb nel da db _ _ _ frags pa qa pb qb hs hda hdb]
  simp only [uCorrfunc, Option.getD_some, ↓reduceIte, Bool.false_eq_true, uContract_add, uNon_eq na nb da db pa qa pb qb hs hda hdb]
  ring

/-- Global cumulants of the spins. -/
def uGlobalAa (frags : List (UCFrag a b K)) : Ten a a K := fun i j k l =>
  (frags.map fun f => (f.rx.map fun r => transform r.1.transpose r.1.transpose f.aa i j k l).sum).sum
def uGlobalAb (frags : List (UCFrag a b K)) : Ten a b K := fun i j k l =>
  (frags.map fun f => (f.rx.map fun r => transform r.1.transpose r.2.transpose f.ab i j k l).sum).sum
def uGlobalBb (frags : List (UCFrag a b K)) : Ten b b K := fun i j k l =>
  (frags.map fun f => (f.rx.map fun r => transform r.2.transpose r.2.transpose f.bb i j k l).sum).sum

private theorem rotateAb {m k : Nat} (r : Matrix (Fin m) (Fin a) K) (s : Matrix (Fin k) (Fin b) K) (p : Mat a K) (q : Mat b K) (t : Ten m k K) :
    dot4 (outer (r * p * r.transpose) (s * q * s.transpose)) t = dot4 (outer p q) (transform r.transpose s.transpose t) := by
  rw [← dot4_cut]
  congr 1
  funext i j k l
  rw [transform_outer]
  rfl

private theorem dot4_list {ι : Type} (w : Ten a b K) (f : ι → Ten a b K) (l : List ι) :
    dot4 w (fun i j r s => (l.map fun x => f x i j r s).sum) = (l.map fun x => dot4 w (f x)).sum := by
  induction l with
  | nil => simp [dot4]
  | cons x l ih => simp only [List.map_cons, List.sum_cons, dot4_add, ih]

private theorem uContract_list {ι : Type} (aa : ι → Ten a a K) (ab : ι → Ten a b K) (bb : ι → Ten b b K) (pa qa : Mat a K) (pb qb : Mat b K) (l : List ι) :
    uContract (fun i j r s => (l.map fun x => aa x i j r s).sum) (fun i j r s => (l.map fun x => ab x i j r s).sum) (fun i j r s => (l.map fun x => bb x i j r s).sum)
      pa pb qa qb = (l.map fun x => uContract (aa x) (ab x) (bb x) pa pb qa qb).sum := by
  induction l with
  | nil => simp [uContract_eq, dot4]
  | cons x l ih => simp only [List.map_cons, List.sum_cons, uContract_add, ih]

/-- From the fragments' cumulants. -/
theorem ucorrfunc_fragments [CharZero K] [LinearOrder K] (na nb nel : Nat) (da : Mat a K) (db : Mat b K) (frags : List (UCFrag a b K)) (pa qa : Mat a K) (pb qb : Mat b K)
    (hs : Symm4 pa qa pb qb) (hda : da.transpose = da) (hdb : db.transpose = db) (w : Option Bool) (hw : w ≠ some true) :
    uCorrfunc na nb nel da db none frags w pa pb qa qb =
      spinSpin da db (fun i j k l => onePartLinear 1 da (meanField a na 1) i j k l + uGlobalAa frags i j k l)
        (fun i j k l => onePartLinearOpposite da (meanField a na 1) db (meanField b nb 1) i j k l + uGlobalAb frags i j k l)
        (fun i j k l => onePartLinear 1 db (meanField b nb 1) i j k l + uGlobalBb frags i j k l) pa pb qa qb := by
  rw [← ucorrfunc_cumulant na nb nel da db _ _ _ frags pa qa pb qb hs hda hdb]
  have hw' : w.getD (uDetectWithDm1 nel (none : Option (Ten a a K × Ten a b K × Ten b b K))) = false := by
    cases w with
    | none => rfl
    | some b => cases b
                · rfl
                · exact absurd rfl hw
  have e : (frags.map fun f => (f.rx.map fun r => 1 / 4 * uContract f.aa f.ab f.bb (r.1 * pa * r.1.transpose) (r.2 * pb * r.2.transpose)
      (r.1 * qa * r.1.transpose) (r.2 * qb * r.2.transpose)).sum).sum = 1 / 4 * uContract (uGlobalAa frags) (uGlobalAb frags) (uGlobalBb frags) pa pb qa qb := by
    have h1 : ∀ f : UCFrag a b K, ∀ r : Matrix (Fin f.na) (Fin a) K × Matrix (Fin f.nb) (Fin b) K, uContract f.aa f.ab f.bb (r.1 * pa * r.1.transpose) (r.2 * pb * r.2.transpose)
        (r.1 * qa * r.1.transpose) (r.2 * qb * r.2.transpose) = uContract (transform r.1.transpose r.1.transpose f.aa) (transform r.1.transpose r.2.transpose f.ab)
          (transform r.2.transpose r.2.transpose f.bb) pa pb qa qb := by
      intro f r
      rw [uContract_eq, uContract_eq, rotateAb, rotateAb, rotateAb, rotateAb]
    unfold uGlobalAa uGlobalAb uGlobalBb
    rw [uContract_list (fun f : UCFrag a b K => fun i j k l => (f.rx.map fun r => transform r.1.transpose r.1.transpose f.aa i j k l).sum)
      (fun f => fun i j k l => (f.rx.map fun r => transform r.1.transpose r.2.transpose f.ab i j k l).sum)
      (fun f => fun i j k l => (f.rx.map fun r => transform r.2.transpose r.2.transpose f.bb i j k l).sum), ← List.sum_map_mul_left]
    congr 1
    refine List.map_congr_left fun f _ => ?_
    rw [uContract_list (fun r : Matrix (Fin f.na) (Fin a) K × Matrix (Fin f.nb) (Fin b) K => transform r.1.transpose r.1.transpose f.aa) (fun r => transform r.1.transpose r.2.transpose f.ab)
      (fun r => transform r.2.transpose r.2.transpose f.bb), ← List.sum_map_mul_left]
    congr 1
    exact List.map_congr_left fun r _ => by rw [h1]
  simp only [uCorrfunc, hw', e, Option.getD_some]

section Order

variable [LinearOrder K] [IsStrictOrderedRing K]

private theorem mf_trace (k : Nat) (hn : k ≤ n) : (meanField n k (1 : K)).trace = k := by
  unfold Matrix.trace
  simp only [Matrix.diag, meanField, true_and]
  rw [Finset.sum_ite, Finset.sum_const_zero, add_zero, Finset.sum_const, nsmul_eq_mul, mul_one]
  congr 1
  have : (Finset.univ.filter fun i : Fin n => i.val < k) = Finset.univ.map (Fin.castLEEmb hn) := by
    ext i
    simp only [Finset.mem_filter, Finset.mem_univ, true_and, Finset.mem_map]
    constructor
    · intro hi; exact ⟨⟨i.val, hi⟩, rfl⟩
    · rintro ⟨j, rfl⟩; exact j.isLt
  rw [this, Finset.card_map, Finset.card_univ, Fintype.card_fin]

private theorem mf_sq (k : Nat) (hn : k ≤ n) : tr4 1 (meanField n k (1 : K)) 1 (meanField n k 1) = k := by
  unfold tr4
  rw [Matrix.one_mul, Matrix.mul_one, ← mf_trace (K := K) k hn]
  congr 1
  funext i j
  rw [Matrix.mul_apply, Finset.sum_eq_single i]
  · simp only [meanField, true_and]
    split
    · simp
    · rename_i h1; rw [if_neg fun c => h1 c.2]; simp
  · intro k _ hk; simp [meanField, Ne.symm hk]
  · simp

private theorem utrace_lin (k : Nat) (hn : k ≤ n) (d : Mat n K) (hd : d.transpose = d) (ht : d.trace = k) :
    trace2 (onePartLinear 1 d (meanField n k 1)) = k * (k - 1) + 2 * (k - occTrace k d) := by
  have h := lin_gen 1 d (meanField n k 1) 1 1 one_symm one_symm hd (mf_transpose _ _)
  have hdm : tr4 1 d 1 (meanField n k 1) = occTrace k d := by
    unfold tr4
    rw [Matrix.one_mul, Matrix.mul_one, occTrace_eq, dot2_trace, hd]
  rw [dot4_one, one_dot2, one_dot2, mf_trace k hn, ht, mf_sq k hn, hdm] at h
  rw [h]; ring

private theorem dot4_one2 (g : Ten a b K) : dot4 (outer 1 1) g = trace2 g := by
  unfold dot4 outer trace2
  refine Finset.sum_congr rfl fun i _ => ?_
  rw [Finset.sum_eq_single i]
  · refine Finset.sum_congr rfl fun k _ => ?_
    rw [Finset.sum_eq_single k]
    · simp
    · intro l _ hl; rw [Matrix.one_apply_ne' hl]; ring
    · simp
  · intro j _ hj
    rw [Matrix.one_apply_ne' hj]; simp
  · simp

private theorem utrace_opp (ka kb : Nat) (ha : ka ≤ a) (hb : kb ≤ b) (da : Mat a K) (db : Mat b K) (hta : da.trace = ka) (htb : db.trace = kb) :
    trace2 (onePartLinearOpposite da (meanField a ka 1) db (meanField b kb 1)) = ka * kb := by
  have h := lin_opp da (meanField a ka 1) 1 db (meanField b kb 1) 1
  rw [dot4_one2, one_dot2, one_dot2, one_dot2, one_dot2, mf_trace ka ha, mf_trace kb hb, hta, htb] at h
  rw [h]; ring

private theorem trace2_sub (g f : Ten a b K) : trace2 (fun i j k l => g i j k l - f i j k l) = trace2 g - trace2 f := by
  unfold trace2
  rw [← Finset.sum_sub_distrib]
  exact Finset.sum_congr rfl fun _ _ => by rw [← Finset.sum_sub_distrib]

/-- Unrestricted: for two or more electrons (and at most all electrons in the occupied orbitals), leaving out `dm2_with_dm1` gives the
correlation function of the full density matrices, whether these or those without one-body parts are handed over. -/
theorem ucorrfunc_automatic [CharZero K] (na nb : Nat) (h2 : 2 ≤ na + nb) (ha : na ≤ a) (hb : nb ≤ b) (da : Mat a K) (db : Mat b K) (hda : da.transpose = da)
    (hdb : db.transpose = db) (hta : da.trace = na) (htb : db.trace = nb) (hoa : occTrace na da ≤ na) (hob : occTrace nb db ≤ nb)
    (aa : Ten a a K) (ab : Ten a b K) (bb : Ten b b K) (hg : trace2 aa + 2 * trace2 ab + trace2 bb = ((na + nb : ℕ) : K) * ((na + nb : ℕ) - 1))
    (frags : List (UCFrag a b K)) (pa qa : Mat a K) (pb qb : Mat b K) (hs : Symm4 pa qa pb qb) :
    uCorrfunc na nb (na + nb) da db (some (aa, ab, bb)) frags none pa pb qa qb = spinSpin da db aa ab bb pa pb qa qb ∧
    uCorrfunc na nb (na + nb) da db (some (fun i j k l => aa i j k l - onePartLinear 1 da (meanField a na 1) i j k l,
        fun i j k l => ab i j k l - onePartLinearOpposite da (meanField a na 1) db (meanField b nb 1) i j k l,
        fun i j k l => bb i j k l - onePartLinear 1 db (meanField b nb 1) i j k l)) frags none pa pb qa qb = spinSpin da db aa ab bb pa pb qa qb := by
  have h1 : (2 : K) ≤ ((na + nb : ℕ) : K) := by exact_mod_cast h2
  have hpos : (0 : K) < ((na + nb : ℕ) : K) * ((na + nb : ℕ) - 1) := mul_pos (by linarith) (by linarith)
  constructor
  · have hw : uDetectWithDm1 (na + nb) (some (aa, ab, bb)) = true := by
      simp only [uDetectWithDm1, decide_eq_true_eq, hg]; linarith
    rw [← ucorrfunc_full na nb (na + nb) da db aa ab bb frags pa qa pb qb hs hda hdb]
    simp only [uCorrfunc, hw, Option.getD_none, Option.getD_some]
  · have hw : uDetectWithDm1 (na + nb) (some (fun i j k l => aa i j k l - onePartLinear 1 da (meanField a na 1) i j k l,
        fun i j k l => ab i j k l - onePartLinearOpposite da (meanField a na 1) db (meanField b nb 1) i j k l,
        fun i j k l => bb i j k l - onePartLinear 1 db (meanField b nb 1) i j k l)) = false := by
      simp only [uDetectWithDm1, trace2_sub, utrace_lin na ha da hda hta, utrace_lin nb hb db hdb htb, utrace_opp na nb ha hb da db hta htb, decide_eq_false_iff_not, not_lt]
      push_cast at hg hpos ⊢
      linarith
    have e := ucorrfunc_cumulant na nb (na + nb) da db (fun i j k l => aa i j k l - onePartLinear 1 da (meanField a na 1) i j k l)
      (fun i j k l => ab i j k l - onePartLinearOpposite da (meanField a na 1) db (meanField b nb 1) i j k l)
      (fun i j k l => bb i j k l - onePartLinear 1 db (meanField b nb 1) i j k l) frags pa qa pb qb hs hda hdb
    simp only [add_sub_cancel] at e
    rw [← e]
    simp only [uCorrfunc, hw, Option.getD_none, Option.getD_some]

end Order

/-! ### Concrete cases -/

/-- One orbital with two electrons: a singlet with `Γ_ab = 1`, `Γ_aa = 0`, `Γ = 2`. -/
example : Singlet (K := ℚ) (n := 1) (fun _ _ _ _ => 2) (fun _ _ _ _ => 0) (fun _ _ _ _ => 1) :=
  ⟨fun _ _ _ _ => by norm_num, fun _ _ _ _ => rfl, fun _ _ _ _ => by norm_num⟩

/-- It meets the hypotheses of the sum rules and of automatic recognition. -/
example : let d : Mat 1 ℚ := fun _ _ => 2
    let g : Ten 1 1 ℚ := fun _ _ _ _ => 2
    d.transpose = d ∧ d.trace = 2 * (1 : ℕ) ∧ occTrace 1 d ≤ 2 * (1 : ℕ) ∧ trace2 g = (2 * (1 : ℕ) : ℚ) * (2 * (1 : ℕ) - 1) ∧
      (∀ i j, ∑ k, g i j k k = (((2 : ℕ) : ℚ) - 1) * d i j) ∧ ([1] : List (Mat 1 ℚ)).sum = 1 := by
  refine ⟨rfl, by decide +kernel, by decide +kernel, by decide +kernel, by decide +kernel, by simp⟩

/-- For one electron the recognition fails: the (zero) two-body density matrix is taken for one without one-body part. -/
example : uDetectWithDm1 1 (some ((fun _ _ _ _ => 0, fun _ _ _ _ => 0, fun _ _ _ _ => 0) : Ten 1 1 ℚ × Ten 1 1 ℚ × Ten 1 1 ℚ)) = false := by decide +kernel

/-- The unrestricted hypotheses: one electron of either spin in one orbital. -/
example : let d : Mat 1 ℚ := fun _ _ => 1
    let z : Ten 1 1 ℚ := fun _ _ _ _ => 0
    let o : Ten 1 1 ℚ := fun _ _ _ _ => 1
    d.transpose = d ∧ d.trace = (1 : ℕ) ∧ occTrace 1 d ≤ (1 : ℕ) ∧ trace2 z + 2 * trace2 o + trace2 z = (((1 + 1 : ℕ) : ℚ) * ((1 + 1 : ℕ) - 1)) ∧ Symm4 (1 : Mat 1 ℚ) 1 (1 : Mat 1 ℚ) 1 := by
  refine ⟨rfl, by decide +kernel, by decide +kernel, by decide +kernel, by simp [Symm4]⟩

end Vayesta.Props
