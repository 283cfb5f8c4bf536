import Verif.Model.Blocks
import Mathlib.Data.Matrix.Mul
import Mathlib.Algebra.Field.Defs

/-! Model of population analysis (`vayesta/core/qemb/qemb.py:1420-1487`, `vayesta/core/qemb/uqemb.py:270-290`). Arithmetic is exact;
writing of the result is not modelled. -/

namespace Vayesta.Pop

variable {K : Type} [Field K] {nao : Nat}

/-- The argument `local_orbitals`: a string or an array of orbitals (columns). -/
inductive Local (nao : Nat) (K : Type)
  | name (s : String)
  | orbitals (n : Nat) (c : Matrix (Fin nao) (Fin n) K)

/-- Orbitals used for a name after `lower()`: Löwdin orbitals are the power -1/2 of the overlap, IAO+PAO orbitals come from the
fragmentation (`get_lo_coeff`, qemb.py:1420-1428); both are given. -/
def loCoeff (lowdin iaopao : Matrix (Fin nao) (Fin nao) K) (s : String) : Except PyErr (Matrix (Fin nao) (Fin nao) K) :=
  if s = "lowdin" then .ok lowdin else if s = "iao+pao" then .ok iaopao else .error .valueError

/-- `einsum("ab,ba->a", dm1, ovlp)` (qemb.py:1469). -/
def mulliken (s dm : Matrix (Fin nao) (Fin nao) K) : List K := List.ofFn fun a => ∑ b, dm a b * s b a

/-- `cs = dot(c_lo.T, ovlp)`, `einsum("ia,ab,ib->i", cs, dm1, cs)` (qemb.py:1471-1472). -/
def localPop {n : Nat} (s dm : Matrix (Fin nao) (Fin nao) K) (c : Matrix (Fin nao) (Fin n) K) : List K :=
  List.ofFn fun i => ∑ a, ∑ b, (c.transpose * s) i a * dm a b * (c.transpose * s) i b

/-- `einsum("ai,ij,bj->ab", mo_coeff, dm1, mo_coeff)` (qemb.py:1456). -/
def toAo {n : Nat} (c : Matrix (Fin nao) (Fin n) K) (dm : Matrix (Fin n) (Fin n) K) : Matrix (Fin nao) (Fin nao) K :=
  fun a b => ∑ i, ∑ j, c a i * dm i j * c b j

/-- `pop_analysis` (qemb.py:1455-1476) without writing; `dm` in the AO basis (after `toAo` if `mo_coeff` was given). -/
def popAnalysis (s lowdin iaopao dm : Matrix (Fin nao) (Fin nao) K) : Local nao K → Except PyErr (List K)
  | .name x =>
    if x.toLower = "mulliken" then .ok (mulliken s dm)
    else (loCoeff lowdin iaopao x.toLower).map (localPop s dm)
  | .orbitals _ c => .ok (localPop s dm c)

/-- Atoms: nuclear charges, and the atom of every AO (`ao_labels(None)[i][0]`). -/
structure Mol (nao : Nat) (K : Type) where
  natm : Nat
  charge : Fin natm → K
  atomOf : Fin nao → Fin natm

/-- `a[i] += x`. -/
def addAt {n : Nat} (i : Fin n) (x : K) (a : Fin n → K) : Fin n → K := fun j => a j + if j = i then x else 0

/-- `get_atomic_charges` (qemb.py:1478-1487): charges and spins. -/
def atomicCharges (m : Mol nao K) (pop : List K) : Except PyErr ((Fin m.natm → K) × (Fin m.natm → K)) :=
  if pop.length ≠ nao then .error .valueError
  else .ok (fun j => (List.finRange nao).foldl (fun q i => addAt (m.atomOf i) (-(pop.getD i 0)) q) (fun _ => 0) j + m.charge j, fun _ => 0)

/-- One pass of the loop of the unrestricted function (uqemb.py:286-288): `pop[0][i]`, `pop[1][i]` beyond the end raise IndexError. -/
def chargeStep (m : Mol nao K) (pa pb : List K) (qs : (Fin m.natm → K) × (Fin m.natm → K)) (i : Fin nao) :
    Except PyErr ((Fin m.natm → K) × (Fin m.natm → K)) :=
  match pa[i.val]?, pb[i.val]? with
  | some a, some b => .ok (addAt (m.atomOf i) (-(a + b)) qs.1, addAt (m.atomOf i) (a - b) qs.2)
  | _, _ => .error .indexError

/-- `get_atomic_charges` of unrestricted calculations (uqemb.py:283-290): no test of the lengths. -/
def atomicChargesU (m : Mol nao K) (pa pb : List K) : Except PyErr ((Fin m.natm → K) × (Fin m.natm → K)) :=
  ((List.finRange nao).foldlM (chargeStep m pa pb) (fun _ => 0, fun _ => 0)).map fun qs => (fun j => qs.1 j + m.charge j, qs.2)

end Vayesta.Pop
