import Verif.Model.EbFci
import Verif.Model.Blocks

/-! Moments of the density response of an electron-boson wave function: vayesta/solver/eb_fci/ebfci_slow.py 581-696
(uebfci_slow.py 579-696 is the same). A flattened array of vectors `t1a` is a family of vectors indexed by pairs of orbitals, or by
single orbitals if `trace=True`. -/

namespace Vayesta.EbFci

section
variable {n K : Type} [Fintype n] [DecidableEq n] [Field K] {X : Type} [Fintype X]

/-- Look-up in the dictionaries `aintermeds` and `bintermeds`, whose keys are 0, 1, ... (ebfci_slow.py 659-662). -/
def lookupKey {α : Type} (d : List α) (i : Nat) : Except PyErr α :=
  match d[i]? with
  | some x => .ok x
  | none => .error .keyError

/-- `hop(x) - e0 * x` (ebfci_slow.py 635-641). -/
def shifted (hopf : (X → K) → X → K) (e0 : K) (x : X → K) : X → K := fun y => hopf x y - e0 * x y

/-- The loop that fills `aintermeds` or `bintermeds` (ebfci_slow.py 629-649). -/
def intermeds {ι : Type} (hopf : (X → K) → X → K) (e0 : K) (t : ι → X → K) (maxInt : Nat) : Except PyErr (List (ι → X → K)) :=
  (List.range maxInt).foldlM (m := Except PyErr) (fun d iinter => do
    let x ← lookupKey d iinter
    pure (d ++ [fun j => shifted hopf e0 (x j)])) [t]

/-- Dot products of two families (ebfci_slow.py 664-675: `tensordot(l, r, (2, 2))` and `dot(l, r.T)`). -/
def dots {ι κ : Type} (l : ι → X → K) (r : κ → X → K) : ι → κ → K := fun i j => ∑ x, l i x * r j x

/-- One moment: spin blocks `aa`, `ab` and `bb`. -/
structure Mom (ι κ K : Type) where
  aa : ι → ι → K
  ab : ι → κ → K
  bb : κ → κ → K

/-- One pass of the loop over the moments (ebfci_slow.py 655-675). -/
def momentStep {ι κ : Type} (a : List (ι → X → K)) (b : List (κ → X → K)) (maxInt imom : Nat) : Except PyErr (Mom ι κ K) := do
  let r := min imom maxInt
  let l := imom - r
  let ar ← lookupKey a r
  let br ← lookupKey b r
  let al ← lookupKey a l
  let bl ← lookupKey b l
  pure ⟨dots al ar, dots al br, dots bl br⟩

/-- Products of density matrices subtracted from the zeroth moment (ebfci_slow.py 687-694). -/
def fixZero {ι κ : Type} (ra : ι → K) (rb : κ → K) (x : Mom ι κ K) : Mom ι κ K :=
  ⟨fun i j => x.aa i j - ra i * ra j, fun i j => x.ab i j - ra i * rb j, fun i j => x.bb i j - rb i * rb j⟩

/-- `moments[0] = ...` (ebfci_slow.py 686-695). -/
def fixHead {ι κ : Type} (ra : ι → K) (rb : κ → K) : List (Mom ι κ K) → List (Mom ι κ K)
  | [] => []
  | x :: l => fixZero ra rb x :: l

/-- Everything after the excitations have been computed (ebfci_slow.py 628-696); `ceil(max_mom / 2)` is `(max_mom + 1) / 2`. -/
def moments {ι κ : Type} (hopf : (X → K) → X → K) (e0 : K) (maxMom : Nat) (ta : ι → X → K) (tb : κ → X → K) (ra : ι → K) (rb : κ → K) :
    Except PyErr (List (Mom ι κ K)) := do
  let maxInt := (maxMom + 1) / 2
  let a ← intermeds hopf e0 ta maxInt
  let b ← intermeds hopf e0 tb maxInt
  let ms ← (List.range (maxMom + 1)).mapM (m := Except PyErr) (momentStep a b maxInt)
  pure (fixHead ra rb ms)

/-- The argument `rdm1`: a tuple of both spins, or one array (ebfci_slow.py 678-681). -/
inductive DmArg (n K : Type)
  | one (d : n → n → K)
  | two (da db : n → n → K)

/-- `rdma` (ebfci_slow.py 678-681): half of a single array. -/
def DmArg.alpha : DmArg n K → n → n → K
  | .one d => fun p q => d p q / 2
  | .two da _ => da

/-- `rdmb` (ebfci_slow.py 678-681). -/
def DmArg.beta : DmArg n K → n → n → K
  | .one d => fun p q => d p q / 2
  | .two _ db => db

/-- `einsum("ia...,ip,aq->pq...", t1, coeffs, coeffs)` (ebfci_slow.py 622-623). -/
def rotExc {o : Type} (C : n → o → K) (t : n → n → X → K) (pq : o × o) : X → K :=
  fun x => ∑ i, ∑ a, t i a x * C i pq.1 * C a pq.2

/-- `coeffs.T.dot(rdm).dot(coeffs)` (ebfci_slow.py 682-684). -/
def rotDm {o : Type} (C : n → o → K) (d : n → n → K) (pq : o × o) : K := ∑ a, (∑ i, C i pq.1 * d i a) * C a pq.2

variable {na nb nbos m : Nat}

/-- `calc_dd_resp_mom` with `coeffs=None` (ebfci_slow.py 581-696). -/
def ddMoms (hopf : (Idx na nb nbos m → K) → Idx na nb nbos m → K) (ta : Table n na K) (tb : Table n nb K) (c : Idx na nb nbos m → K) (e0 : K) (maxMom : Nat)
    (dm : DmArg n K) : Except PyErr (List (Mom (n × n) (n × n) K)) :=
  moments hopf e0 maxMom (fun pq => excA ta c pq.1 pq.2) (fun pq => excB tb c pq.1 pq.2) (fun pq => dm.alpha pq.1 pq.2) (fun pq => dm.beta pq.1 pq.2)

/-- `calc_dd_resp_mom` with given coefficients (ebfci_slow.py 616-623, 682-684). -/
def ddMomsRot {o p : Type} (hopf : (Idx na nb nbos m → K) → Idx na nb nbos m → K) (ta : Table n na K) (tb : Table n nb K) (c : Idx na nb nbos m → K) (e0 : K) (maxMom : Nat)
    (dm : DmArg n K) (Ca : n → o → K) (Cb : n → p → K) : Except PyErr (List (Mom (o × o) (p × p) K)) :=
  moments hopf e0 maxMom (rotExc Ca (excA ta c)) (rotExc Cb (excB tb c)) (rotDm Ca dm.alpha) (rotDm Cb dm.beta)

/-- `calc_dd_resp_mom` with given coefficients and `trace=True` (ebfci_slow.py 624-626, 687-690). -/
def ddMomsTrace {o p : Type} (hopf : (Idx na nb nbos m → K) → Idx na nb nbos m → K) (ta : Table n na K) (tb : Table n nb K) (c : Idx na nb nbos m → K) (e0 : K) (maxMom : Nat)
    (dm : DmArg n K) (Ca : n → o → K) (Cb : n → p → K) : Except PyErr (List (Mom o p K)) :=
  moments hopf e0 maxMom (fun i => rotExc Ca (excA ta c) (i, i)) (fun i => rotExc Cb (excB tb c) (i, i)) (fun i => rotDm Ca dm.alpha (i, i)) (fun i => rotDm Cb dm.beta (i, i))

end

end Vayesta.EbFci
