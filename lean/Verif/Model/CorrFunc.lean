import Verif.Model.DmetEnergy

/-! Model of correlation functions: `vayesta/misc/corrfunc.py` and `vayesta/core/qemb/corrfunc.py`. Arithmetic is exact. The construction of
atom projectors from `atoms`/`projection` is not modelled: the functions below are given the projectors of the two atoms. -/

namespace Vayesta.CorrFunc

open Vayesta.Rdm Vayesta.DmetEnergy

variable {K : Type} [Field K] {n : Nat}

abbrev Mat (n : Nat) (K : Type) := Matrix (Fin n) (Fin n) K

/-- `einsum("(ij,ijkl),kl->", p1, dm2, p2)`. -/
def contract2 (p1 : Mat n K) (t : Ten n n K) (p2 : Mat n K) : K := ∑ i, ∑ j, ∑ k, ∑ l, p1 i j * t i j k l * p2 k l
/-- The same for different spins, `einsum("ijkl,ij,kl->", dm2ab, pa, pb)`. -/
def contractAb {a b : Nat} (t : Ten a b K) (pa : Mat a K) (pb : Mat b K) : K := ∑ i, ∑ j, ∑ k, ∑ l, t i j k l * pa i j * pb k l
/-- `einsum("ij,ik,jk->", dm1, p1, p2)`. -/
def contract1 (d p1 p2 : Mat n K) : K := ∑ i, ∑ j, ∑ k, d i j * p1 i k * p2 j k
/-- `einsum("iijj->", dm2)`. -/
def trace2 {a b : Nat} (t : Ten a b K) : K := ∑ i, ∑ j, t i i j j
/-- `dm2.transpose(0, 3, 2, 1)`. -/
def swapT (t : Ten n n K) : Ten n n K := fun i j k l => t i l k j

/-- `chargecharge_mf` (misc/corrfunc.py:93-107). -/
def chargechargeMf (dm1 : Mat n K) (proj1 proj2 : Option (Mat n K)) (subtract : Bool) : K :=
  let proj2 := if proj2.isNone then proj1 else proj2
  match proj1, proj2 with
  | some p1, some p2 =>
    (if subtract then 0 else dot2 dm1 p1 * dot2 dm1 p2) - (∑ i, ∑ j, ∑ k, ∑ l, p1 i k * dm1 i j * dm1 k l * p2 l j) / 2 + contract1 dm1 p1 p2
  | _, _ => if subtract then 0 else dm1.trace ^ 2

/-- `chargecharge` (misc/corrfunc.py:15-31). -/
def chargecharge (dm1 : Mat n K) (dm2 : Option (Ten n n K)) (proj1 proj2 : Option (Mat n K)) (subtract : Bool) : K :=
  match dm2 with
  | none => chargechargeMf dm1 proj1 proj2 subtract
  | some t =>
    let proj2 := if proj2.isNone then proj1 else proj2
    match proj1, proj2 with
    | some p1, some p2 => contract2 p1 t p2 + contract1 dm1 p1 p2 - if subtract then dot2 dm1 p1 * dot2 dm1 p2 else 0
    | _, _ => trace2 t + dm1.trace - if subtract then dm1.trace ^ 2 else 0

variable {a b : Nat}

/-- `spinspin_z_mf_unrestricted` (misc/corrfunc.py:134-163); projectors are given per spin. -/
def spinspinMfU (da : Mat a K) (db : Mat b K) (proj1 proj2 : Option (Mat a K × Mat b K)) : K :=
  let proj2 := if proj2.isNone then proj1 else proj2
  match proj1, proj2 with
  | some (p1a, p1b), some (p2a, p2b) =>
    (dot2 p1a da * dot2 da p2a - (∑ i, ∑ j, ∑ k, ∑ l, p1a i j * da i l * (da j k * p2a k l))
      + dot2 p1b db * dot2 db p2b - (∑ i, ∑ j, ∑ k, ∑ l, p1b i j * db i l * (db j k * p2b k l))
      - dot2 p1a da * dot2 db p2b - dot2 p1b db * dot2 da p2a) / 4 + (contract1 da p1a p2a + contract1 db p1b p2b) / 4
  | _, _ => (da.trace * da.trace / 4 - dot2 da da / 4 + db.trace * db.trace / 4 - dot2 db db / 4 - da.trace * db.trace / 2) + (da.trace + db.trace) / 4

/-- `spinspin_z_mf` (misc/corrfunc.py:110-113). -/
def spinspinMf (dm1 : Mat n K) (proj1 proj2 : Option (Mat n K)) : K :=
  spinspinMfU ((2 : K)⁻¹ • dm1) ((2 : K)⁻¹ • dm1) (proj1.map fun p => (p, p)) (proj2.map fun p => (p, p))

/-- `dm2aa = (dm2 - dm2.transpose(0, 3, 2, 1)) / 6` (misc/corrfunc.py:56). -/
def dm2aaOf (t : Ten n n K) : Ten n n K := fun i j k l => (t i j k l - swapT t i j k l) / 6
/-- `dm2ab = dm2 / 2 - dm2aa`. -/
def dm2abOf (t : Ten n n K) : Ten n n K := fun i j k l => t i j k l / 2 - dm2aaOf t i j k l

/-- `spinspin_z` (misc/corrfunc.py:51-66). -/
def spinspin (dm1 : Mat n K) (dm2 : Option (Ten n n K)) (proj1 proj2 : Option (Mat n K)) : K :=
  match dm2 with
  | none => spinspinMf dm1 proj1 proj2
  | some t =>
    let dm1a := (2 : K)⁻¹ • dm1
    let proj2 := if proj2.isNone then proj1 else proj2
    match proj1, proj2 with
    | some p1, some p2 => (contractAb (dm2aaOf t) p1 p2 - contractAb (dm2abOf t) p1 p2) / 2 + contract1 dm1a p1 p2 / 2
    | _, _ => (trace2 (dm2aaOf t) - trace2 (dm2abOf t)) / 2 + dm1a.trace / 2

/-- `spinspin_z_unrestricted` (misc/corrfunc.py:69-87); without projectors the names `dma`, `dmb` are undefined. -/
def spinspinU (da : Mat a K) (db : Mat b K) (dm2 : Option (Ten a a K × Ten a b K × Ten b b K)) (proj1 proj2 : Option (Mat a K × Mat b K)) : Except PyErr K :=
  match dm2 with
  | none => .ok (spinspinMfU da db proj1 proj2)
  | some (aa, ab, bb) =>
    let proj2 := if proj2.isNone then proj1 else proj2
    match proj1, proj2 with
    | some (p1a, p1b), some (p2a, p2b) =>
      .ok (contractAb aa p1a p2a / 4 + contractAb bb p1b p2b / 4 - contractAb ab p1a p2b / 4 - contractAb ab p2a p1b / 4
        + (contract1 da p1a p2a + contract1 db p1b p2b) / 4)
    | _, _ => .error .nameError

/-! ### `get_corrfunc` -/

inductive Kind | nn | dndn | szsz
deriving DecidableEq, Repr

/-- `kind.lower()` and the check (core/qemb/corrfunc.py:75-77). -/
def parseKind (kind : String) : Except PyErr Kind :=
  if kind.toLower = "n,n" then .ok .nn else if kind.toLower = "dn,dn" then .ok .dndn else if kind.toLower = "sz,sz" then .ok .szsz else .error .valueError

/-- `f1, f2, f22` (core/qemb/corrfunc.py:80-84). -/
def factors : Kind → K × K × K
  | .nn => (1, 2, 1)
  | .dndn => (1, 2, 1)
  | .szsz => (1 / 4, 1 / 2, 1 / 2)

/-- `np.sum(tmp[occ] * p[occ])` with the first `nocc` rows. -/
def rowsDot (nocc : Nat) (x y : Mat n K) : K := ∑ i : Fin n, if i.val < nocc then ∑ j, x i j * y i j else 0
/-- `np.trace(p[occ, occ])`. -/
def occTrace (nocc : Nat) (p : Mat n K) : K := ∑ i : Fin n, if i.val < nocc then p i i else 0

/-- Contribution of the one-body density matrix (core/qemb/corrfunc.py:96-103). -/
def oneBody (kind : Kind) (dm1 p1 p2 : Mat n K) : K := (factors (K := K) kind).1 * dot2 (p1 * dm1) p2

/-- Non-cumulant contribution (core/qemb/corrfunc.py:106-124). -/
def nonCumulant (kind : Kind) (nocc : Nat) (dm1 p1 p2 : Mat n K) : K :=
  let f2 := (factors (K := K) kind).2.1
  let ddm1 := addDiag nocc (-1) dm1
  let x := -(f2 * rowsDot nocc (p1 * ddm1) p2)
  if kind = .szsz then x
  else x + f2 * (occTrace nocc p1 * dot2 p2 ddm1 + occTrace nocc p2 * dot2 p1 ddm1)

/-- The two-body array that is contracted (core/qemb/corrfunc.py:133-137, 156-165). -/
def twoBodyArray (kind : Kind) (t : Ten n n K) : Ten n n K :=
  if kind = .szsz then fun i j k l => -(t i j k l / 6 + swapT t i j k l / 3) else t

/-- A fragment in the loop over cumulants: its cumulant and, for itself and its symmetry children, `rx = dot(c.T, ovlp, mo_coeff)`. -/
structure CFrag (n : Nat) (K : Type) where
  ncl : Nat
  cumulant : Ten ncl ncl K
  rx : List (Matrix (Fin ncl) (Fin n) K)

/-- Two-body contribution from `dm2` or from the fragments (core/qemb/corrfunc.py:126-176). -/
def twoBody (kind : Kind) (dm2 : Option (Ten n n K)) (frags : List (CFrag n K)) (p1 p2 : Mat n K) : K :=
  let f22 := (factors (K := K) kind).2.2
  match dm2 with
  | some t => f22 * contract2 p1 (twoBodyArray kind t) p2
  | none => (frags.map fun x => (x.rx.map fun r => f22 * contract2 (r * p1 * r.transpose) (twoBodyArray kind x.cumulant) (r * p2 * r.transpose)).sum).sum

/-- `dm2_with_dm1` if it is not given (core/qemb/corrfunc.py:85-91). -/
def detectWithDm1 [LinearOrder K] (nelectron : Nat) (dm2 : Option (Ten n n K)) : Bool :=
  match dm2 with
  | none => false
  | some t => decide ((nelectron * (nelectron - 1) : K) / 2 < trace2 t)

/-- One element of `get_corrfunc` (core/qemb/corrfunc.py:45-183). -/
def corrfunc [LinearOrder K] (nocc nelectron : Nat) (kind : Kind) (dm1 : Mat n K) (dm2 : Option (Ten n n K)) (frags : List (CFrag n K))
    (withDm1 : Option Bool) (p1 p2 : Mat n K) : K :=
  let w := withDm1.getD (detectWithDm1 nelectron dm2)
  let x := oneBody kind dm1 p1 p2
  let x := if w then x else x + nonCumulant kind nocc dm1 p1 p2
  let x := x + twoBody kind dm2 frags p1 p2
  if kind = .dndn then x - dot2 dm1 p1 * dot2 dm1 p2 else x

/-- Element of `get_corrfunc_mf` for restricted calculations (core/qemb/corrfunc.py:10-42). -/
def corrfuncMf (nocc : Nat) (kind : Kind) (dm1 : Option (Mat n K)) (p1 p2 : Mat n K) : K :=
  let dm1 := dm1.getD (addDiag nocc 2 0)
  match kind with
  | .nn => chargecharge dm1 none (some p1) (some p2) false
  | .dndn => chargecharge dm1 none (some p1) (some p2) true
  | .szsz => spinspin dm1 none (some p1) (some p2)

/-! ### `get_corrfunc_unrestricted`, only `sz,sz` -/

/-- Fragment with cumulants `(aa, ab, bb)` and rotations of both spins. -/
structure UCFrag (a b : Nat) (K : Type) where
  na : Nat
  nb : Nat
  aa : Ten na na K
  ab : Ten na nb K
  bb : Ten nb nb K
  rx : List (Matrix (Fin na) (Fin a) K × Matrix (Fin nb) (Fin b) K)

/-- `np.sum(tmpa * p2a) + np.sum(tmpb * p2b)` with `tmpa = tensordot(p1a, aa) - tensordot(ab, p1b)`, `tmpb = tensordot(p1b, bb) -
tensordot(p1a, ab)` (core/qemb/corrfunc.py:289-294, 320-325). -/
def uContract (aa : Ten a a K) (ab : Ten a b K) (bb : Ten b b K) (p1a : Mat a K) (p1b : Mat b K) (p2a : Mat a K) (p2b : Mat b K) : K :=
  let tmpa : Mat a K := fun k l => (∑ i, ∑ j, p1a i j * aa i j k l) - ∑ i, ∑ j, ab k l i j * p1b i j
  let tmpb : Mat b K := fun k l => (∑ i, ∑ j, p1b i j * bb i j k l) - ∑ i, ∑ j, p1a i j * ab i j k l
  dot2 tmpa p2a + dot2 tmpb p2b

/-- Non-cumulant contribution (core/qemb/corrfunc.py:243-275). -/
def uNonCumulant (na nb : Nat) (da : Mat a K) (db : Mat b K) (p1a : Mat a K) (p1b : Mat b K) (p2a : Mat a K) (p2b : Mat b K) : K :=
  let dda := addDiag na (-(1 / 2)) da
  let ddb := addDiag nb (-(1 / 2)) db
  let tr1a1 := occTrace na p1a; let tr1a2 := occTrace na p2a; let tr1b1 := occTrace nb p1b; let tr1b2 := occTrace nb p2b
  let tr2a1 := dot2 p1a dda; let tr2a2 := dot2 p2a dda; let tr2b1 := dot2 p1b ddb; let tr2b2 := dot2 p2b ddb
  let x := -(1 / 2 * rowsDot na (p1a * dda) p2a) - 1 / 2 * rowsDot nb (p1b * ddb) p2b
  x + (tr1a1 * tr2a2 + tr1a2 * tr2a1) / 4 - (tr1a1 * tr2b2 + tr1a2 * tr2b1) / 4 - (tr1b1 * tr2a2 + tr1b2 * tr2a1) / 4 + (tr1b1 * tr2b2 + tr1b2 * tr2b1) / 4

/-- `dm2_with_dm1` if it is not given (core/qemb/corrfunc.py:222-228). -/
def uDetectWithDm1 [LinearOrder K] (nelectron : Nat) (dm2 : Option (Ten a a K × Ten a b K × Ten b b K)) : Bool :=
  match dm2 with
  | none => false
  | some (aa, ab, bb) => decide ((nelectron * (nelectron - 1) : K) / 2 < trace2 aa + 2 * trace2 ab + trace2 bb)

/-- One element of `get_corrfunc_unrestricted(kind="sz,sz")` (core/qemb/corrfunc.py:186-335). -/
def uCorrfunc [LinearOrder K] (na nb nelectron : Nat) (da : Mat a K) (db : Mat b K) (dm2 : Option (Ten a a K × Ten a b K × Ten b b K)) (frags : List (UCFrag a b K))
    (withDm1 : Option Bool) (p1a : Mat a K) (p1b : Mat b K) (p2a : Mat a K) (p2b : Mat b K) : K :=
  let w := withDm1.getD (uDetectWithDm1 nelectron dm2)
  let x := 1 / 4 * dot2 (p1a * da) p2a + 1 / 4 * dot2 (p1b * db) p2b
  let x := if w then x else x + uNonCumulant na nb da db p1a p1b p2a p2b
  match dm2 with
  | some (aa, ab, bb) => x + 1 / 4 * uContract aa ab bb p1a p1b p2a p2b
  | none => x + (frags.map fun f => (f.rx.map fun r => 1 / 4 * uContract f.aa f.ab f.bb (r.1 * p1a * r.1.transpose) (r.2 * p1b * r.2.transpose)
      (r.1 * p2a * r.1.transpose) (r.2 * p2b * r.2.transpose)).sum).sum

end Vayesta.CorrFunc
