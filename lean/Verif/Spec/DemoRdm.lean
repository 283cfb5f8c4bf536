import Verif.Model.DemoRdm
import Verif.Spec.Rdm

/-! Specification for democratically partitioned density matrices: what it means that fragments are complete, that a cluster contains its
fragment, and that a cluster wave function has the right density matrices. -/

namespace Vayesta.DemoRdm

open Vayesta.Rdm

variable {K : Type} [Field K] {nao nmo : Nat}

/-- The molecular orbitals are an orthonormal basis with respect to a symmetric overlap matrix. -/
structure OrthonormalBasis (e : Emb nao nmo K) : Prop where
  symm : e.ovlp.transpose = e.ovlp
  orth : e.mo.transpose * e.ovlp * e.mo = 1
  complete : e.mo * e.mo.transpose * e.ovlp = 1

/-- The fragments of the list resolve the identity. -/
def CompleteFragmentation (e : Emb nao nmo K) : Prop := (e.frags.map fun x => x.cFrag * x.cFrag.transpose * e.ovlp).sum = 1

/-- Orthonormal cluster orbitals which span the fragment orbitals, the first ones combinations of occupied orbitals, the others of virtual
orbitals. -/
structure GoodCluster (e : Emb nao nmo K) (x : Frag nao K) : Prop where
  orth : x.cAct.transpose * e.ovlp * x.cAct = 1
  contains : x.cAct * x.cAct.transpose * e.ovlp * x.cFrag = x.cFrag
  occupied : ∀ p i, (e.mo.transpose * e.ovlp * x.cAct) p i ≠ 0 → (p.val < e.nocc ↔ i.val < x.nocc)

/-- A wave function with `nocc` doubly occupied mean-field orbitals whose density matrices are `d` and `t`, with cumulants as specified
in `Verif.Spec.Rdm`; exact cumulants may be missing. -/
structure HasRdms {n : Nat} (w : ClusterWf n K) (nocc : Nat) (d : Matrix (Fin n) (Fin n) K) (t : Ten n n K) : Prop where
  rdm1 : w.rdm1 true = d
  rdm1_corr : w.rdm1 false = d - meanField n nocc 2
  rdm2 : ∀ a, w.rdm2 true a = .ok t
  approx : w.rdm2 false 1 = .ok fun p q r s => t p q r s - onePartLinear (1 / 2) d (meanField n nocc 2) p q r s
  exact : w.rdm2 false 0 = .ok (fun p q r s => t p q r s - onePart (1 / 2) d p q r s) ∨ w.rdm2 false 0 = .error .notImplementedError

/-- The cluster wave function has the density matrices `d`, `t` (given in the basis of molecular orbitals) of its orbitals. -/
def ExactCluster (e : Emb nao nmo K) (d : Matrix (Fin nmo) (Fin nmo) K) (t : Ten nmo nmo K) (x : Frag nao K) : Prop :=
  HasRdms x.wf x.nocc ((e.mo.transpose * e.ovlp * x.cAct).transpose * d * (e.mo.transpose * e.ovlp * x.cAct))
    (transform (e.mo.transpose * e.ovlp * x.cAct).transpose (e.mo.transpose * e.ovlp * x.cAct).transpose t)

/-- One spin channel: `make_rdm1(with_mf=False)` of the cluster is the right density matrix `d` of its orbitals minus `y` electrons in each
occupied orbital. -/
def CorrectRdm1 (y : K) (e : Emb nao nmo K) (d : Matrix (Fin nmo) (Fin nmo) K) (x : Frag nao K) : Prop :=
  x.wf.rdm1 false = (e.mo.transpose * e.ovlp * x.cAct).transpose * d * (e.mo.transpose * e.ovlp * x.cAct) - meanField x.ncl x.nocc y

end Vayesta.DemoRdm
