import Verif.Model.DemoRdm
import Mathlib.LinearAlgebra.Matrix.Trace

/-! Model of the DMET energy functions: `vayesta/core/qemb/fragment.py:437-447, 1027-1097`, `vayesta/core/qemb/qemb.py:1266-1307` and
`vayesta/dmet/fragment.py:100-126`, on one process (the sum over processes is modelled in `Verif.Model.MpiSum`). Arithmetic is exact. -/

namespace Vayesta.DmetEnergy

open Vayesta.Rdm Vayesta.DemoRdm

variable {K : Type} [Field K]

/-- `np.sum(a*b)` for matrices. -/
def dot2 {n m : Nat} (a b : Matrix (Fin n) (Fin m) K) : K := ∑ p, ∑ q, a p q * b p q
/-- `np.sum(a*b)` for arrays with four indices. -/
def dot4 {a b : Nat} (g t : Ten a b K) : K := ∑ p, ∑ q, ∑ r, ∑ s, g p q r s * t p q r s

/-- `mf.get_veff(dm)`: Coulomb minus half of exchange (pyscf); the divergence correction for periodic exchange is not modelled. -/
def veff {n : Nat} (g : Ten n n K) (dm : Matrix (Fin n) (Fin n) K) : Matrix (Fin n) (Fin n) K := fun p q =>
  (∑ r, ∑ s, g p q r s * dm r s) - (∑ r, ∑ s, g p r s q * dm r s) / 2

/-- A fragment of the embedding with the flags that decide where it is used (fragment.py:73-77, 449-452, 816-820): `weight` is
`symmetry_factor * opts.sym_factor`, `root` means that it has no symmetry parent. -/
structure Entry (nao : Nat) (K : Type) where
  frag : Frag nao K
  active : Bool
  auxiliary : Bool
  root : Bool
  weight : K

/-- The embedding with the Hamiltonian in the AO basis. -/
structure Sys (nao nmo : Nat) (K : Type) where
  ovlp : Matrix (Fin nao) (Fin nao) K
  mo : Matrix (Fin nao) (Fin nmo) K
  nocc : Nat
  entries : List (Entry nao K)
  hcore : Matrix (Fin nao) (Fin nao) K
  eris : Ten nao nao K
  ncells : Nat

variable {nao nmo : Nat}

/-- The fragments of the density matrices: `get_fragments(contributes=True)`, with `contributes` true for active fragments that are not
auxiliary (fragment.py:449-452). -/
def Sys.emb (e : Sys nao nmo K) : Emb nao nmo K := ⟨e.ovlp, e.mo, e.nocc, (e.entries.filter fun x => x.active && !x.auxiliary).map Entry.frag⟩

/-- `mf.make_rdm1()`. -/
def Sys.mfDm (e : Sys nao nmo K) : Matrix (Fin nao) (Fin nao) K := e.mo * addDiag e.nocc (2 : K) 0 * e.mo.transpose

/-- Integrals in the cluster basis, `hamil.get_eris_bare()` (solver/hamiltonian.py:178-188). -/
def Sys.clusterEris (e : Sys nao nmo K) (x : Frag nao K) : Ten x.ncl x.ncl K := transform x.cAct.transpose x.cAct.transpose e.eris

/-- `einsum("iipq->pq", eris[occ, occ]) - einsum("iqpi->pq", eris[occ, :, :, occ]) / 2` (fragment.py:1078). -/
def vAct {n : Nat} (nocc : Nat) (g : Ten n n K) : Matrix (Fin n) (Fin n) K := fun p q =>
  ((occ n nocc).map fun i => g i i p q).sum - ((occ n nocc).map fun i => g i q p i).sum / 2

/-- Effective core Hamiltonian of the cluster (fragment.py:1069-1079). -/
def Sys.h1eEff (e : Sys nao nmo K) (part : Bool) (x : Frag nao K) : Matrix (Fin x.ncl) (Fin x.ncl) K :=
  if part then x.cAct.transpose * e.hcore * x.cAct
  else x.cAct.transpose * (e.hcore + (2 : K)⁻¹ • veff e.eris e.mfDm) * x.cAct - vAct x.nocc (e.clusterEris x)

/-- `get_fragment_dmet_energy` with default density matrices and Hamiltonian (fragment.py:1053-1097), without the factor `sym_factor`;
`approx_cumulant` is an integer, `False` is 0 and `True` is 1. -/
def Sys.fragmentEnergy (e : Sys nao nmo K) (part : Bool) (approx : Int) (x : Frag nao K) : Except PyErr K :=
  (x.wf.rdm2 (!part) approx).map fun dm2 =>
    let dm1 := x.wf.rdm1 true
    let p := e.emb.clusterFragCluster x
    let e1b := ∑ a, ∑ i, ∑ j, e.h1eEff part x a j * p a i * dm1 i j
    let e2b := (∑ a, ∑ i, ∑ j, ∑ k, ∑ l, e.clusterEris x a j k l * p a i * dm2 i j k l) / 2
    e1b + e2b

/-- The loop of `get_dmet_elec_energy` (qemb.py:1287-1290): active fragments without symmetry parent, auxiliary or not. -/
def Sys.loopEnergy (e : Sys nao nmo K) (part : Bool) (approx : Int) : Except PyErr K :=
  (e.entries.filter fun x => x.active && x.root).foldlM (fun s x => (e.fragmentEnergy part approx x.frag).map fun y => s + x.weight * y) 0

/-- `get_dmet_elec_energy` (qemb.py:1286-1307). -/
def Sys.elecEnergy (e : Sys nao nmo K) (part : Bool) (approx : Int) : Except PyErr K :=
  match e.loopEnergy part approx with
  | .error err => .error err
  | .ok s =>
    if part then
      let dm1 := rdm1DemoAo e.emb true true
      if approx = 0 then .ok ((s + dot2 (veff e.eris dm1) dm1 / 2) / e.ncells)
      else if approx = 1 then .ok ((s + dot2 (veff e.eris e.mfDm) ((2 : K) • dm1 - e.mfDm) / 2) / e.ncells)
      else .error .valueError
    else .ok (s / e.ncells)

/-- `get_fragment_mf_energy` (fragment.py:437-447). -/
def Sys.fragmentMfEnergy (e : Sys nao nmo K) (x : Frag nao K) : K :=
  let hveff := e.emb.moFragMo x * (e.mo.transpose * ((2 : K) • e.hcore + veff e.eris e.mfDm) * e.mo)
  ((occ nmo e.nocc).map fun i => hveff i i).sum

/-- `get_dmet_energy_contrib` of DMET fragments (dmet/fragment.py:100-126): the one- and the two-body energy; `fock` is `mf.get_fock()`
and the density matrices are those of the solver. -/
def Sys.dmetContrib (e : Sys nao nmo K) (fock : Matrix (Fin nao) (Fin nao) K) (x : Frag nao K) (dm1 : Matrix (Fin x.ncl) (Fin x.ncl) K)
    (dm2 : Ten x.ncl x.ncl K) : K × K :=
  let p := e.emb.clusterFragCluster x
  let g := e.clusterEris x
  let vact : Matrix (Fin x.ncl) (Fin x.ncl) K := fun a b =>
    2 * ((occ x.ncl x.nocc).map fun i => g i i a b).sum - ((occ x.ncl x.nocc).map fun i => g i b a i).sum
  let heff := x.cAct.transpose * fock * x.cAct - vact
  let hbare := x.cAct.transpose * e.hcore * x.cAct
  (Matrix.trace (p * (hbare + heff) * dm1) / 2, (∑ a, ∑ t, ∑ q, ∑ r, ∑ s, p a t * g t q r s * dm2 a q r s) / 2)

end Vayesta.DmetEnergy
