import Verif.Model.Rdm

/-! Model of `vayesta/core/qemb/rdm.py`: democratically partitioned density matrices from fragment calculations, on one process (the sum
over processes is modelled in `Verif.Model.MpiSum`). Arithmetic is exact. -/

namespace Vayesta.DemoRdm

open Vayesta.Rdm

variable {K : Type} [Field K]

/-- What the partitioning functions ask of a cluster wave function: `make_rdm1(with_mf)` and `make_rdm2(with_dm1, approx_cumulant)` in
the cluster basis. -/
structure ClusterWf (n : Nat) (K : Type) where
  rdm1 : Bool → Matrix (Fin n) (Fin n) K
  rdm2 : Bool → Int → Except PyErr (Ten n n K)

/-- The wave functions of `Verif.Model.Rdm`. -/
def ClusterWf.ofRWf {nao n : Nat} (w : RWf nao n K) : ClusterWf n K := ⟨w.makeRdm1, w.makeRdm2⟩

/-- A fragment with a result: fragment orbitals, cluster orbitals and the wave function (core/qemb/fragment.py). Columns are orbitals,
the first `nocc` cluster orbitals are occupied. -/
structure Frag (nao : Nat) (K : Type) where
  nfrag : Nat
  ncl : Nat
  nocc : Nat
  cFrag : Matrix (Fin nao) (Fin nfrag) K
  cAct : Matrix (Fin nao) (Fin ncl) K
  wf : ClusterWf ncl K

/-- The embedding: overlap matrix, MO coefficients, number of occupied orbitals and the contributing fragments. -/
structure Emb (nao nmo : Nat) (K : Type) where
  ovlp : Matrix (Fin nao) (Fin nao) K
  mo : Matrix (Fin nao) (Fin nmo) K
  nocc : Nat
  frags : List (Frag nao K)

variable {nao nmo : Nat}

/-- `get_overlap("mo|cluster")` (fragment.py:297-306, 349-352). -/
def Emb.moCluster (e : Emb nao nmo K) (x : Frag nao K) : Matrix (Fin nmo) (Fin x.ncl) K := e.mo.transpose * e.ovlp * x.cAct
/-- `get_overlap("cluster|frag|cluster")` (fragment.py:321-325). -/
def Emb.clusterFragCluster (e : Emb nao nmo K) (x : Frag nao K) : Matrix (Fin x.ncl) (Fin x.ncl) K :=
  (x.cAct.transpose * e.ovlp * x.cFrag) * (x.cFrag.transpose * e.ovlp * x.cAct)
/-- `get_overlap("mo|frag|mo")`. -/
def Emb.moFragMo (e : Emb nao nmo K) (x : Frag nao K) : Matrix (Fin nmo) (Fin nmo) K :=
  (e.mo.transpose * e.ovlp * x.cFrag) * (x.cFrag.transpose * e.ovlp * e.mo)
/-- The coefficients of the occupied orbitals; the other columns are zero instead of missing, which does not change products summed over
them. -/
def Emb.moOcc (e : Emb nao nmo K) : Matrix (Fin nao) (Fin nmo) K := fun a i => if i.val < e.nocc then e.mo a i else 0
/-- `get_overlap("mo|mo[occ]|frag|mo")`, evaluated from the left (`rsplit`, fragment.py:321-325). -/
def Emb.moOccFragMo (e : Emb nao nmo K) (x : Frag nao K) : Matrix (Fin nmo) (Fin nmo) K :=
  ((e.mo.transpose * e.ovlp * e.moOcc) * (e.moOcc.transpose * e.ovlp * x.cFrag)) * (x.cFrag.transpose * e.ovlp * e.mo)

/-- `einsum("xi,ij,px,qj->pq", px, dm1x, rx, rx)` (rdm.py:41). -/
def project1 {n m : Nat} (p d : Matrix (Fin n) (Fin n) K) (r : Matrix (Fin m) (Fin n) K) : Matrix (Fin m) (Fin m) K :=
  fun a b => ∑ x, ∑ i, ∑ j, p x i * d i j * r a x * r b j

/-- `(dm1 + dm1.T) / 2`. -/
def symmetrize1 {n : Nat} (d : Matrix (Fin n) (Fin n) K) : Matrix (Fin n) (Fin n) K := fun p q => (d p q + d q p) / 2

/-- One spin channel of the one-body density matrix in the MO basis, with `y` electrons per occupied orbital (rdm.py:33-47, 72-95). -/
def rdm1Channel (y : K) (e : Emb nao nmo K) (withMf symm : Bool) : Matrix (Fin nmo) (Fin nmo) K :=
  let dm1 := e.frags.foldl (fun d x => d + project1 (e.clusterFragCluster x) (x.wf.rdm1 false) (e.moCluster x)) 0
  let dm1 := if withMf then addDiag e.nocc y dm1 else dm1
  if symm then symmetrize1 dm1 else dm1
/-- `make_rdm1_demo_rhf` in the MO basis (rdm.py:33-47). -/
def rdm1Demo (e : Emb nao nmo K) (withMf symm : Bool) : Matrix (Fin nmo) (Fin nmo) K := rdm1Channel 2 e withMf symm
/-- `make_rdm1_demo_rhf(ao_basis=True)` (rdm.py:48-50). -/
def rdm1DemoAo (e : Emb nao nmo K) (withMf symm : Bool) : Matrix (Fin nao) (Fin nao) K := e.mo * rdm1Demo e withMf symm * e.mo.transpose

/-- A fragment of an unrestricted calculation: orbitals and density matrices for both spins. -/
structure UFrag (nao : Nat) (K : Type) where
  alpha : Frag nao K
  beta : Frag nao K

/-- The unrestricted embedding. -/
structure UEmb (nao nmoa nmob : Nat) (K : Type) where
  ovlp : Matrix (Fin nao) (Fin nao) K
  moa : Matrix (Fin nao) (Fin nmoa) K
  mob : Matrix (Fin nao) (Fin nmob) K
  nocca : Nat
  noccb : Nat
  frags : List (UFrag nao K)

variable {nmoa nmob : Nat}

/-- The alpha orbitals only. -/
def UEmb.alpha (e : UEmb nao nmoa nmob K) : Emb nao nmoa K := ⟨e.ovlp, e.moa, e.nocca, e.frags.map UFrag.alpha⟩
/-- The beta orbitals only. -/
def UEmb.beta (e : UEmb nao nmoa nmob K) : Emb nao nmob K := ⟨e.ovlp, e.mob, e.noccb, e.frags.map UFrag.beta⟩

/-- `make_rdm1_demo_uhf` in the MO basis (rdm.py:72-95); the loop over fragments is run for one spin after the other. -/
def rdm1DemoU (e : UEmb nao nmoa nmob K) (withMf symm : Bool) : Matrix (Fin nmoa) (Fin nmoa) K × Matrix (Fin nmob) (Fin nmob) K :=
  (rdm1Channel 1 e.alpha withMf symm, rdm1Channel 1 e.beta withMf symm)
/-- `make_rdm1_demo_uhf(ao_basis=True)` (rdm.py:96-98). -/
def rdm1DemoUAo (e : UEmb nao nmoa nmob K) (withMf symm : Bool) : Matrix (Fin nao) (Fin nao) K × Matrix (Fin nao) (Fin nao) K :=
  (e.moa * (rdm1DemoU e withMf symm).1 * e.moa.transpose, e.mob * (rdm1DemoU e withMf symm).2 * e.mob.transpose)

/-- `einsum("xi,ijkl,px,qj,rk,sl->pqrs", px, dm2x, rx, rx, sx, sx)` (rdm.py:235, 311-314). -/
def project2 {a b a' b' : Nat} (p : Matrix (Fin a) (Fin a) K) (t : Ten a b K) (c : Matrix (Fin a') (Fin a) K) (d : Matrix (Fin b') (Fin b) K) : Ten a' b' K :=
  fun p' q r s => ∑ x, ∑ i, ∑ j, ∑ k, ∑ l, p x i * t i j k l * c p' x * c q j * d r k * d s l

/-- Sum of two arrays. -/
def tadd {a b : Nat} (t u : Ten a b K) : Ten a b K := fun p q r s => t p q r s + u p q r s

/-- The cluster cumulant used when the cumulant is partitioned (rdm.py:186-196): `approx_cumulant` is only tested for truth; exact
cumulants that are not implemented are formed from the density matrices. -/
def cumulant {n : Nat} (w : ClusterWf n K) (approx : Bool) : Except PyErr (Ten n n K) :=
  if approx then w.rdm2 false 1
  else match w.rdm2 false 0 with
    | .error .notImplementedError => (w.rdm2 true 1).map fun t => fun p q r s =>
        t p q r s - (outer (w.rdm1 true) (w.rdm1 true) p q r s - outerX (w.rdm1 true) (w.rdm1 true) p q r s / 2)
    | r => r

/-- The non-cumulant part of one fragment when the whole two-body density matrix is partitioned (rdm.py:199-233). -/
def nonCumulantPart (e : Emb nao nmo K) (x : Frag nao K) : Ten nmo nmo K :=
  let r := e.moCluster x
  let dm1 := addDiag e.nocc 1 (r * x.wf.rdm1 false * r.transpose)
  let pdm1 := e.moFragMo x * dm1
  let p := e.moOccFragMo x
  (occ nmo e.nocc).foldl (fun t i => addXiiX i (-pdm1) (addXXii i ((2 : K) • pdm1) t))
    fun a b c d => 2 * outer p dm1 a b c d - outerX p dm1 a b c d

/-- What one fragment adds (rdm.py:182-235); the additions are collected before they are added to the total. -/
def contribution2 (e : Emb nao nmo K) (withDm1 part approx : Bool) (x : Frag nao K) : Except PyErr (Ten nmo nmo K) :=
  if part || !withDm1 then
    (cumulant x.wf approx).map fun t => project2 (e.clusterFragCluster x) t (e.moCluster x) (e.moCluster x)
  else
    (x.wf.rdm2 false 1).map fun t => tadd (nonCumulantPart e x) (project2 (e.clusterFragCluster x) t (e.moCluster x) (e.moCluster x))

/-- `(dm2 + dm2.transpose(1, 0, 3, 2)) / 2`. -/
def symmetrize2 {a b : Nat} (t : Ten a b K) : Ten a b K := fun p q r s => (t p q r s + t q p s r) / 2

/-- The non-cumulant part added after the loop (rdm.py:238-250); the one-body density matrix is called with its default arguments, so it
is symmetrised. -/
def addNonCumulant (e : Emb nao nmo K) (approx : Bool) (t : Ten nmo nmo K) : Ten nmo nmo K :=
  if approx then
    let d := addDiag e.nocc 1 (rdm1Demo e false true)
    (occ nmo e.nocc).foldl (fun t i => addIxxI i (-d) (addXiiX i (-d) (addXXii i ((2 : K) • d) (addIIxx i ((2 : K) • d) t)))) t
  else
    let d := rdm1Demo e true true
    tadd t fun p q r s => outer d d p q r s - outerX d d p q r s / 2

/-- `make_rdm2_demo_rhf` in the MO basis (rdm.py:178-254). `with_mf` is not used by the code. -/
def rdm2Demo (e : Emb nao nmo K) (withDm1 part approx symm : Bool) : Except PyErr (Ten nmo nmo K) :=
  (e.frags.foldlM (fun t x => (contribution2 e withDm1 part approx x).map fun c => tadd t c) fun _ _ _ _ => 0).map fun t =>
    let t := if withDm1 && part then addNonCumulant e approx t else t
    if symm then symmetrize2 t else t
/-- `make_rdm2_demo_rhf(ao_basis=True)` (rdm.py:255-256). -/
def rdm2DemoAo (e : Emb nao nmo K) (withDm1 part approx symm : Bool) : Except PyErr (Ten nao nao K) :=
  (rdm2Demo e withDm1 part approx symm).map (transform e.mo e.mo)

end Vayesta.DemoRdm
