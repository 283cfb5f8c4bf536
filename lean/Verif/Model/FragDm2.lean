import Verif.Model.CcRdm2
import Verif.Model.Blocks

/-! Two-body density matrix of an embedding calculation, assembled from fragment calculations: `make_fragment_dm2cumulant` of ewf/fragment.py, `make_rdm2_ccsd_proj_lambda` and
`make_rdm2_ccsd_global_wf` of ewf/rdm.py, `make_rdm2` of ewf/ewf.py.

The routines of `pyscf.cc.ccsd_rdm` called there are external; they compute the formulas that the repository repeats in core/vpyscf/ccsd_rdm.py, modelled in `Model/CcRdm2`, without the
change of memory handling. Results are in the basis of molecular orbitals (`ao_basis=False`), on a single MPI rank. -/

namespace Vayesta.FragDm2
open Vayesta.CcRdm2

/-- Values of `approx_cumulant` told apart by the code: `1`/`True`, falsy values, `2`, any other value (fragment.py lines 460, 477-482, rdm.py lines 557-572). -/
inductive Approx
  | approx
  | exact
  | two
  | other
  deriving DecidableEq

/-- A contributing fragment: the amplitudes of its cluster (`results.wf.as_ccsd()`), those projected onto the fragment (`results.pwf.restore(sym=sym_t2).as_ccsd()`, as a function of `sym_t2`),
whether its solver is MP2, and the overlap `x.get_overlap("mo|cluster")` (fragment.py lines 412-415, 459, 462; rdm.py line 545). Cluster orbitals are a type of its own. -/
structure Frag (n K : Type) where
  co : Type
  cv : Type
  [fo : Fintype co]
  [fv : Fintype cv]
  [dec : DecidableEq co]
  mp2 : Bool
  wf : Amps co cv K
  pwf : Bool → Amps co cv K
  rx : n → co ⊕ cv → K

attribute [instance] Frag.fo Frag.fv Frag.dec

section cluster
variable {o v K : Type} [Fintype o] [DecidableEq o] [Fintype v] [Field K]

/-- fragment.py lines 411-423: `t1, t2` of the cluster with the projected multipliers, or the projected amplitudes if `t_as_lambda`. -/
def mixed (tl : Bool) (w p : Amps o v K) : Amps o v K := ⟨w.t1, w.t2, bif tl then p.t1 else p.l1, bif tl then p.t2 else p.l2⟩

/-- fragment.py lines 425-432 (`_get_projected_gamma1_intermediates`). -/
def gamma1x (tl : Bool) (w p : Amps o v K) : D1 o v K :=
  let d := gamma1 (mixed tl w p)
  { d with dvo := fun a i => d.dvo a i + (p.t1 i a - w.t1 i a) }

/-- fragment.py line 440: `dtau`. -/
def dtau (w p : Amps o v K) (i j : o) (a b : v) : K := (p.t2 i j a b - w.t2 i j a b) + (p.t1 i a - w.t1 i a) * w.t1 j b

/-- fragment.py lines 434-444 (`_get_projected_gamma2_intermediates`). -/
def gamma2x (tl : Bool) (w p : Amps o v K) : D2 o v K :=
  let d := gamma2 (mixed tl w p)
  { d with dovov := fun i a j b => d.dovov i a j b + dtau w p i j a b - dtau w p i j b a / 2 }

/-- fragment.py lines 446-452 (`make_fragment_dm1`). -/
def dm1x (tl : Bool) (w p : Amps o v K) : o ⊕ v → o ⊕ v → K := rdm1Of (gamma1x tl w p) false

/-- fragment.py lines 459-472: the branch for the MP2 solver. -/
def dm2mp2 (t2 : o → o → v → v → K) : o ⊕ v → o ⊕ v → o ⊕ v → o ⊕ v → K
  | .inl i, .inr a, .inl j, .inr b => 2 * (2 * t2 i j a b - t2 i j b a)
  | .inr a, .inl i, .inr b, .inl j => 2 * (2 * t2 i j a b - t2 i j b a)
  | _, _, _, _ => 0

/-- fragment.py lines 474-476: `_make_rdm2(..., with_dm1=False)`, with its transposition at the end. -/
def dm2cc (tl : Bool) (w p : Amps o v K) (p' q r s : o ⊕ v) : K := rdm2Of (gamma2x tl w p) q p' s r

/-- fragment.py lines 481-490: removal of the product of one-body density matrices. `wf.make_rdm1(with_mf=False)` uses the multipliers of the cluster whatever `t_as_lambda`. -/
def dm2exact (tl : Bool) (w p : Amps o v K) (p' q r s : o ⊕ v) : K :=
  dm2cc tl w p p' q r s
    - (makeRdm1 w false p' q * dm1x tl w p r s / 2 + dm1x tl w p p' q * makeRdm1 w false r s / 2 - makeRdm1 w false p' s * dm1x tl w p q r / 4
      - dm1x tl w p p' s * makeRdm1 w false q r / 4)

/-- fragment.py lines 492-493. -/
def average4 (d : o ⊕ v → o ⊕ v → o ⊕ v → o ⊕ v → K) (p q r s : o ⊕ v) : K := (d p q r s + d q p s r + d r s p q + d s r q p) / 4

/-- fragment.py lines 454-494 (`make_fragment_dm2cumulant` with `full_shape=True` and the default `sym_dm2=True`, which the caller never changes). -/
def cumulant (mp2 tl sym : Bool) (ap : Approx) (w p : Amps o v K) : Except PyErr (o ⊕ v → o ⊕ v → o ⊕ v → o ⊕ v → K) :=
  bif mp2 then
    if ap = .approx then .ok (dm2mp2 p.t2) else .error .notImplementedError
  else
    let fin (d : o ⊕ v → o ⊕ v → o ⊕ v → o ⊕ v → K) := bif sym then d else average4 d
    match ap with
    | .two => .error .notImplementedError
    | .approx => .ok (fin (dm2cc tl w p))
    | .exact => .ok (fin (dm2exact tl w p))
    | .other => .ok (fin (dm2cc tl w p))

/-- rdm.py line 547: `einsum("ijkl,Ii,Jj,Kk,Ll->IJKL", ...)`. -/
def rotate {n : Type} (rx : n → o ⊕ v → K) (d : o ⊕ v → o ⊕ v → o ⊕ v → o ⊕ v → K) (p q r s : n) : K :=
  ∑ i, ∑ j, ∑ k, ∑ l, d i j k l * rx p i * rx q j * rx r k * rx s l

end cluster

section global
variable {o v K : Type} [Fintype o] [DecidableEq o] [Fintype v] [Field K]

/-- rdm.py lines 542-547: the loop over fragments. -/
def loop {n : Type} (tl sym : Bool) (ap : Approx) : List (Frag n K) → Except PyErr (n → n → n → n → K)
  | [] => .ok fun _ _ _ _ => 0
  | f :: fs => do
    let dx ← cumulant f.mp2 tl sym ap f.wf (f.pwf sym)
    let d ← loop tl sym ap fs
    pure fun p q r s => rotate f.rx dx p q r s + d p q r s

/-- rdm.py lines 557-572: addition of the one-body part. The loops over `i` add to the entries in which the two indices are both `i`. -/
def addDm1 (ap : Approx) (dm1 : o ⊕ v → o ⊕ v → K) (dm2 : o ⊕ v → o ⊕ v → o ⊕ v → o ⊕ v → K) : Except PyErr (o ⊕ v → o ⊕ v → o ⊕ v → o ⊕ v → K) :=
  match ap with
  | .exact => .ok fun p q r s => dm2 p q r s + (dm1 p q * dm1 r s - dm1 p s * dm1 q r / 2)
  | .approx =>
    let d (p q : o ⊕ v) : K := dm1 p q - occEq p q
    .ok fun p q r s => dm2 p q r s + occEq p q * (d r s * 2) + occEq r s * (d p q * 2) - occEq q r * d p s - occEq p s * d r q
  | .two => .error .notImplementedError
  | .other => .error .valueError

/-- rdm.py lines 508-576 (`make_rdm2_ccsd_proj_lambda`). `dm1` is `none` for `with_dm1=False`, otherwise the array given, or `emb.make_rdm1()` for `with_dm1=True`. -/
def projLambda (dm1 : Option (o ⊕ v → o ⊕ v → K)) (tl sym : Bool) (ap : Approx) (fs : List (Frag (o ⊕ v) K)) : Except PyErr (o ⊕ v → o ⊕ v → o ⊕ v → o ⊕ v → K) := do
  let d ← loop tl sym ap fs
  match dm1 with
  | none => pure d
  | some dm1 => addDm1 ap dm1 d

/-- ewf.py lines 261-267 (`make_rdm2`), the solver's name in lower case; `tl` is the keyword `t_as_lambda`, which for MP2 is fixed. -/
def makeRdm2Emb (solver : String) (dm1 : Option (o ⊕ v → o ⊕ v → K)) (tl sym : Bool) (ap : Approx) (fs : List (Frag (o ⊕ v) K)) :
    Except PyErr (o ⊕ v → o ⊕ v → o ⊕ v → o ⊕ v → K) :=
  if solver = "ccsd" then projLambda dm1 tl sym ap fs
  else if solver = "mp2" then projLambda dm1 true sym ap fs
  else .error .notImplementedError

/-- rdm.py lines 121-156 (`make_rdm1_ccsd_proj_lambda` with `with_mf=True` and the default `sym_t2=True`): the mean field and the rotated contributions of the fragments. -/
def assembledDm1 (tl : Bool) (fs : List (Frag (o ⊕ v) K)) (p q : o ⊕ v) : K :=
  2 * occEq p q + (fs.map fun f => ∑ i, ∑ j, f.rx p i * f.rx q j * dm1x tl f.wf (f.pwf true) i j).sum

/-- The wave function with its amplitudes in place of the multipliers if `tl`: rdm.py lines 494-495 and fragment.py lines 417-422. -/
def asLambda (tl : Bool) (w : Amps o v K) : Amps o v K := bif tl then ⟨w.t1, w.t2, w.t1, w.t2⟩ else w

/-- rdm.py lines 469-505 (`make_rdm2_ccsd_global_wf`) for the global amplitudes `g` (`get_global_t1`, ... with `for_dm2=True`). -/
def globalWf (slow symmetrize withDm1 tl : Bool) (fs : List (Frag (o ⊕ v) K)) (g : Amps o v K) : Except PyErr (o ⊕ v → o ⊕ v → o ⊕ v → o ⊕ v → K) :=
  bif slow then
    if withDm1 ∧ fs.any (·.mp2) then .error .notImplementedError
    else
      let d := makeRdm2 (asLambda tl g) withDm1
      .ok (bif symmetrize then fun p q r s => (d p q r s + d q p s r) / 2 else d)
  else .error .notImplementedError

end global
end Vayesta.FragDm2
