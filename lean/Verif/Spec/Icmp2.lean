import Verif.Model.Icmp2

/-! Specification of the intercluster MP2 energy: the MP2 energy of the whole system, its part for given projectors of the second integral, and clusters whose
spaces for amplitudes are exact. -/

namespace Vayesta.Icmp2
open Vayesta.Tensor

variable {K : Type} [Field K] {ι L N o v : Type} [Fintype ι] [Fintype L] [Fintype N] [Fintype o] [Fintype v]

/-- Orbital energies and integrals `(ia|jb)` of the whole system. -/
structure Whole (o v K : Type) where
  eo : o → K
  ev : v → K
  g : o → v → o → v → K

/-- First-order amplitudes `(ia|jb) / (e_i + e_j - e_a - e_b)`. -/
def Whole.t {o v : Type} (w : Whole o v K) (i j : o) (a b : v) : K := w.g i a j b / (w.eo i + w.eo j - w.ev a - w.ev b)

/-- Amplitudes of the direct and exchange energy, `2 t_ij^ab` and `-t_ij^ba`. -/
def Whole.amp {o v : Type} (w : Whole o v K) (d x : Bool) (i j : o) (a b : v) : K := (if d then 2 * w.t i j a b else 0) - (if x then w.t i j b a else 0)

/-- The MP2 energy `Σ (2 t_ij^ab - t_ij^ba) (ia|jb)`, or its direct or exchange part. -/
def Whole.mp2 (w : Whole o v K) (d x : Bool) : K := ∑ i, ∑ j, ∑ a, ∑ b, w.amp d x i j a b * w.g i a j b

/-- The same energy with `(ia|jb)` projected: `i` with `P`, `j` with `W`, `b` with `Q`. -/
def Whole.part (w : Whole o v K) (d x : Bool) (P W : o → o → K) (Q : v → v → K) : K :=
  ∑ i, ∑ j, ∑ a, ∑ b, w.amp d x i j a b * ∑ i', P i i' * ∑ j', W j j' * ∑ b', Q b b' * w.g i' a j' b'

/-- The mean-field: Fock matrix, occupied and virtual orbitals. -/
structure Mf (ι o v K : Type) where
  fock : ι → ι → K
  moOcc : ι → o → K
  moVir : ι → v → K

/-- A matrix of the AOs, in the occupied orbitals: `Coᵀ S D S Co`. -/
def Mf.inOcc {v : Type} (m : Mf ι o v K) (s : Sys ι L N K) (D : ι → ι → K) : o → o → K := mm (tp (mm s.ovlp m.moOcc)) (mm D (mm s.ovlp m.moOcc))

/-- The same in virtual orbitals. -/
def Mf.inVir {o : Type} (m : Mf ι o v K) (s : Sys ι L N K) (D : ι → ι → K) : v → v → K := mm (tp (mm s.ovlp m.moVir)) (mm D (mm s.ovlp m.moVir))

/-- Three-center integrals in occupied and virtual orbitals. -/
def Mf.three {o v A : Type} (m : Mf ι o v K) (B : A → ι → ι → K) (l : A) : o → v → K := mm (tp m.moOcc) (mm (B l) m.moVir)

/-- The whole system in its molecular orbitals: `(ia|jb) = Σ_L (L|ia)(L|jb)`, less the same sum of the negative ones. -/
def Mf.whole {o v : Type} (m : Mf ι o v K) (s : Sys ι L N K) : Whole o v K where
  eo := fun i => mm (tp m.moOcc) (mm m.fock m.moOcc) i i
  ev := fun a => mm (tp m.moVir) (mm m.fock m.moVir) a a
  g := fun i a j b => (∑ l, m.three s.cderi l i a * m.three s.cderi l j b) -
    (match s.neg with
     | none => 0
     | some n => ∑ l, m.three n l i a * m.three n l j b)

/-- The overlap is symmetric, the orbitals are orthonormal and canonical. -/
structure Canonical [DecidableEq o] [DecidableEq v] (s : Sys ι L N K) (m : Mf ι o v K) : Prop where
  symm : tp s.ovlp = s.ovlp
  occ : mm (tp m.moOcc) (mm s.ovlp m.moOcc) = delta
  vir : mm (tp m.moVir) (mm s.ovlp m.moVir) = delta
  fockOcc : ∀ i j, i ≠ j → mm (tp m.moOcc) (mm m.fock m.moOcc) i j = 0
  fockVir : ∀ i j, i ≠ j → mm (tp m.moVir) (mm m.fock m.moVir) i j = 0

/-- The orbitals `r` are normalised combinations of orbitals of equal energy. -/
structure Eigen {M n : Type} [Fintype M] (e : M → K) (r : M → n → K) : Prop where
  norm : ∀ i, ∑ I, r I i * r I i = 1
  eig : ∃ e' : n → K, ∀ I i, e I * r I i = r I i * e' i

/-- The spaces for the amplitudes of a fragment are exact: they consist of canonical orbitals; the virtual orbitals span the virtual space, and the occupied ones the
occupied part of the fragment. -/
structure Exact [DecidableEq v] (s : Sys ι L N K) (m : Mf ι o v K) (x : Chan ι K) (ro : o → x.o → K) (rv : v → x.v → K) : Prop where
  occ : x.cOcc = mm m.moOcc ro
  vir : x.cVir = mm m.moVir rv
  eigOcc : Eigen (m.whole s).eo ro
  eigVir : Eigen (m.whole s).ev rv
  covers : mm (mm (tp x.cProj) (mm s.ovlp m.moOcc)) (mm ro (tp ro)) = mm (tp x.cProj) (mm s.ovlp m.moOcc)
  spans : mm rv (tp rv) = delta

/-- Where a fragment is: `C Cᵀ` of its projector orbitals, of the orbitals of its cluster, and of the virtual orbitals of its cluster. -/
structure Region (ι K : Type) where
  frag : ι → ι → K
  clus : ι → ι → K
  clusVir : ι → ι → K

/-- The region of a fragment. -/
def Chan.region {ι : Type} (x : Chan ι K) : Region ι K := ⟨mm x.cProj (tp x.cProj), mm x.cActive (tp x.cActive), mm x.cActiveVir (tp x.cActiveVir)⟩

/-- The region moved by an operation on AOs. -/
def Region.image (U : ι → ι → K) (r : Region ι K) : Region ι K := ⟨mm U (mm r.frag (tp U)), mm U (mm r.clus (tp U)), mm U (mm r.clusVir (tp U))⟩

/-- Projector of `j`: the other fragment, or what of it is outside of the cluster: `D - D S A S D`. -/
def Dc.onOcc (dc : Dc) (S : ι → ι → K) (x : Region ι K) (D : ι → ι → K) : ι → ι → K :=
  match dc with
  | .occ | .both => fun i j => D i j - mm D (mm S (mm x.clus (mm S D))) i j
  | .vir | .none => D

/-- Projector of `b`: everything, or what is outside of the virtual space of the cluster. -/
def Dc.onVir [DecidableEq v] {o : Type} (dc : Dc) (s : Sys ι L N K) (m : Mf ι o v K) (x : Region ι K) : v → v → K :=
  match dc with
  | .vir | .both => fun a b => delta a b - m.inVir s x.clusVir a b
  | .occ | .none => delta

/-- Energy of a pair of fragments in the whole system: `i` in the first one, `j` in the second one, without what is in the cluster of the first one. -/
def pairEnergy [DecidableEq v] (s : Sys ι L N K) (m : Mf ι o v K) (d x : Bool) (dc : Dc) (X Y : Region ι K) : K :=
  (m.whole s).part d x (m.inOcc s X.frag) (m.inOcc s (dc.onOcc s.ovlp X Y.frag)) (dc.onVir s m X)

/-- The operation is a translation which leaves the overlap, the Fock matrix, and the occupied and virtual space unchanged; moving both orbitals of a three-center
integral is the same as moving the auxiliary functions. -/
structure Leaves [DecidableEq L] (s : Sys ι L N K) (m : Mf ι o v K) (u : Op ι L K) : Prop where
  trans : u.translation = true
  aux : mm (tp u.aux) u.aux = delta
  ovlp : mm (tp u.ao) (mm s.ovlp u.ao) = s.ovlp
  fock : mm (tp u.ao) (mm m.fock u.ao) = m.fock
  cderi : ∀ l, mm (tp u.ao) (mm (s.cderi l) u.ao) = fun p q => ∑ l', u.aux l l' * s.cderi l' p q
  neg : ∀ g, s.neg = some g → ∀ n, mm (tp u.ao) (mm (g n) u.ao) = g n
  occ : ∃ r, mm u.ao m.moOcc = mm m.moOcc r
  vir : ∃ r, mm u.ao m.moVir = mm m.moVir r

/-- The fragments of a family: identifiers and regions. -/
def Root.members (x : Root ι L K) : List (Nat × Region ι K) :=
  (x.tag.id, x.chan.region) :: x.children.map fun y => (y.tag.id, x.chan.region.image y.op.ao)

/-- All fragments contribute, and all fragments related by symmetry are direct images of those without parent, by operations which leave the system unchanged. -/
structure Family [DecidableEq L] (s : Sys ι L N K) (m : Mf ι o v K) (x : Root ι L K) : Prop where
  passes : x.tag.passes = true
  factor : x.tag.symFactor = 1
  child : ∀ y ∈ x.children, y.tag.passes = true ∧ y.tag.symFactor = 1 ∧ y.direct = true ∧ y.cProj = mm y.op.ao x.chan.cProj ∧ Leaves s m y.op

/-- The projectors of the fragments add up to that of the occupied space. -/
def Partition [DecidableEq o] (s : Sys ι L N K) (m : Mf ι o v K) (l : List (Root ι L K)) : Prop :=
  ∀ i j : o, ((l.flatMap Root.members).map fun Y => m.inOcc s Y.2.frag i j).sum = if i = j then 1 else 0

/-- The symmetry operations permute the fragments. -/
def Permuted (l : List (Root ι L K)) : Prop := ∀ x ∈ l, ∀ y ∈ x.children,
  ((l.flatMap Root.members).map fun Y => (Y.2.image y.op.ao).frag).Perm ((l.flatMap Root.members).map fun Y => Y.2.frag)

/-- The names of the possible values of `project_dc`. -/
def Dc.name : Dc → Option String
  | .occ => some "occ"
  | .vir => some "vir"
  | .both => some "both"
  | .none => Option.none

end Vayesta.Icmp2
