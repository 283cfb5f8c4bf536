import Verif.Model.DmetEnergy
import Verif.Spec.DemoRdm

/-! Specification for energies: the energy of density matrices, permutational symmetry of integrals, and which fragments enter. -/

namespace Vayesta.DmetEnergy
open Vayesta.Rdm Vayesta.DemoRdm

variable {K : Type} [Field K] {nao nmo : Nat}

/-- Electronic energy of a one- and a two-body density matrix. -/
def energyOf {n : Nat} (h : Matrix (Fin n) (Fin n) K) (g : Ten n n K) (d : Matrix (Fin n) (Fin n) K) (t : Ten n n K) : K :=
  (∑ p, ∑ q, h p q * d p q) + (∑ p, ∑ q, ∑ r, ∑ s, g p q r s * t p q r s) / 2

/-- Real symmetric Hamiltonian. -/
structure RealSymmetric {n : Nat} (h : Matrix (Fin n) (Fin n) K) (g : Ten n n K) : Prop where
  core : h.transpose = h
  bra : ∀ p q r s, g p q r s = g q p r s
  ket : ∀ p q r s, g p q r s = g p q s r
  pair : ∀ p q r s, g p q r s = g r s p q

/-- All fragments are active and none is auxiliary or the image of another one under a symmetry. -/
def Plain (e : Sys nao nmo K) : Prop := ∀ x ∈ e.entries, x.active = true ∧ x.auxiliary = false ∧ x.root = true ∧ x.weight = 1

/-- Every cluster is a good one and its wave function has some symmetric one-body density matrix, and its other density matrices are
consistent with it. -/
def Consistent (e : Sys nao nmo K) : Prop := ∀ x ∈ e.entries, GoodCluster e.emb x.frag ∧
  ∃ (d : Matrix (Fin x.frag.ncl) (Fin x.frag.ncl) K) (t : Ten x.frag.ncl x.frag.ncl K), d.transpose = d ∧ HasRdms x.frag.wf x.frag.nocc d t

end Vayesta.DmetEnergy
