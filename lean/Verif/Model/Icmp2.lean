import Verif.Model.Blocks
import Verif.Lemmas.Tensor
import Mathlib.Algebra.Field.Basic

/-! Model of vayesta/ewf/icmp2.py: the intercluster MP2 energy. Exact arithmetic, one MPI process; logging left out. -/

namespace Vayesta.Icmp2
open Vayesta.Tensor

variable {K : Type} [Field K] {ι L N : Type} [Fintype ι] [Fintype L] [Fintype N]

/-- What the functions use of the embedding: overlap and three-center integrals in AOs, with the negative ones of two-dimensional systems if there are any
(`emb.get_cderi`), number of cells, density fitting. -/
structure Sys (ι L N K : Type) where
  ovlp : ι → ι → K
  cderi : L → ι → ι → K
  neg : Option (N → ι → ι → K)
  ncells : Nat
  hasDf : Bool

/-- Orbitals of one spin: projector orbitals of the fragment, the occupied and virtual space for the amplitudes, and all and the virtual orbitals of the cluster
(`x.cluster`). Simplified: the spaces for the amplitudes are given; they are chosen by thresholds in icmp2.py:116-136 and 319-324. -/
structure Chan (ι K : Type) where
  {f : Type}
  {o : Type}
  {v : Type}
  {a : Type}
  {av : Type}
  [ff : Fintype f]
  [df : DecidableEq f]
  [fo : Fintype o]
  [fv : Fintype v]
  [dv : DecidableEq v]
  [fa : Fintype a]
  [fav : Fintype av]
  cProj : ι → f → K
  cOcc : ι → o → K
  cVir : ι → v → K
  cActive : ι → a → K
  cActiveVir : ι → av → K

attribute [instance] Chan.ff Chan.df Chan.fo Chan.fv Chan.dv Chan.fa Chan.fav

/-- The attributes of a fragment which decide if and how often it is counted: `id`, `contributes`, `flags.is_envelop`, `sym_factor`. -/
structure Tag (K : Type) where
  id : Nat
  contributes : Bool
  envelop : Bool
  symFactor : K

/-- `_get_icmp2_fragments` (icmp2.py:49-50). -/
def Tag.passes {K : Type} (t : Tag K) : Bool := t.contributes && t.envelop

/-- A symmetry operation: its action on AOs and on auxiliary functions. Only translations have a `vector` (core/symmetry/operation.py:256-258), the others raise
AttributeError in icmp2.py:154-156. -/
structure Op (ι L K : Type) where
  translation : Bool
  ao : ι → ι → K
  aux : L → L → K

/-- `ClusterRHF`, or one spin of `ClusterUHF` (icmp2.py:11-46). -/
structure Cl (ι L N f o v K : Type) where
  pFrag : f → o → K
  eOcc : o → K
  eVir : v → K
  cVir : ι → v → K
  cderi : L → o → v → K
  neg : Option (N → o → v → K)

/-- `einsum("ai,ab,bi->i", c, fock, c)`: `get_fragment_mo_energy` (core/qemb/fragment.py:1012-1025). -/
def moEnergy {m : Type} (fock : ι → ι → K) (c : ι → m → K) : m → K := fun i => mm (tp c) (mm fock c) i i

/-- The entries of a fragment without symmetry parent (icmp2.py:137-148, 319-334). -/
def Chan.own (s : Sys ι L N K) (fock : ι → ι → K) (x : Chan ι K) : Cl ι L N x.f x.o x.v K where
  pFrag := mm (tp x.cProj) (mm s.ovlp x.cOcc)
  eOcc := moEnergy fock x.cOcc
  eVir := moEnergy fock x.cVir
  cVir := x.cVir
  cderi := fun l => mm (tp x.cOcc) (mm (s.cderi l) x.cVir)
  neg := s.neg.map fun g n => mm (tp x.cOcc) (mm (g n) x.cVir)

/-- The entries of a fragment related to `x` by symmetry (icmp2.py:149-160, 335-349): the virtual orbitals and three-center integrals are rotated, the negative
ones are not, all other attributes are those of `x` (icmp2.py:14-19). -/
def Chan.related (s : Sys ι L N K) (fock : ι → ι → K) (x : Chan ι K) (u : Op ι L K) : Cl ι L N x.f x.o x.v K :=
  { x.own s fock with
    cVir := mm u.ao x.cVir
    cderi := fun l i a => ∑ l', u.aux l l' * (x.own s fock).cderi l' i a }

section
variable {f o v f' o' v' : Type} [Fintype f] [Fintype o] [Fintype v] [Fintype f'] [Fintype o'] [Fintype v']

/-- `einsum("Lia,Ljb->ijab")` (icmp2.py:193, 376-379). -/
def contract {L : Type} [Fintype L] (x : L → o → v → K) (y : L → o' → v' → K) : o → o' → v → v' → K := fun i j a b => ∑ l, x l i a * y l j b

/-- Contribution of the negative integrals. Both clusters have them or none. -/
def contractNeg (x : Option (N → o → v → K)) (y : Option (N → o' → v' → K)) : o → o' → v → v' → K :=
  match x, y with
  | some g, some g' => contract g g'
  | _, _ => fun _ _ _ _ => 0

/-- `eris` (icmp2.py:193-195). -/
def eris (x : Cl ι L N f o v K) (y : Cl ι L N f' o' v' K) : o → o' → v → v' → K := fun i j a b =>
  contract x.cderi y.cderi i j a b - contractNeg x.neg y.neg i j a b

/-- `eris / eijab` (icmp2.py:196-197). -/
def divide {ι L N f o v f' o' v' : Type} (x : Cl ι L N f o v K) (y : Cl ι L N f' o' v' K) (e : o → o' → v → v' → K) : o → o' → v → v' → K :=
  fun i j a b => e i j a b / ((x.eOcc i - x.eVir a) + (y.eOcc j - y.eVir b))

/-- `einsum("xi,yj,ijab->xyab", cx.p_frag, cy.p_frag, t)` (icmp2.py:199-200). -/
def project {ι L N f v f' v' : Type} (x : Cl ι L N f o v K) (y : Cl ι L N f' o' v' K) (t : o → o' → v → v' → K) : f → f' → v → v' → K :=
  fun i j a b => ∑ k, ∑ l, x.pFrag i k * y.pFrag j l * t k l a b

end

/-- `np.eye(n) - dot(p.T, p)` (icmp2.py:210, 220, 230, 232). -/
def outside {a m : Type} [Fintype a] [DecidableEq m] (p : a → m → K) : m → m → K := fun i j => delta i j - ∑ k, p k i * p k j

/-- The argument `project_dc`. -/
inductive Dc where
  | occ
  | vir
  | both
  | none

/-- The check of `project_dc` (icmp2.py:93-94). -/
def Dc.parse : Option String → Except PyErr Dc
  | .none => .ok .none
  | .some s => if s = "occ" then .ok .occ else if s = "vir" then .ok .vir else if s = "both" then .ok .both else .error .valueError

section
variable {f f' v v' : Type} [Fintype f] [Fintype f'] [Fintype v] [Fintype v']

/-- The direct energy of a pair of fragments (icmp2.py:208-239). -/
def direct (dc : Dc) (vers : Int) (t e : f → f' → v → v' → K) (po : f' → f' → K) (pv : v' → v' → K) (s : v → v' → K) : K :=
  match dc with
  | .occ =>
    if vers = 1 then 2 * ∑ i, ∑ j, ∑ a, ∑ b, ∑ j', t i j a b * e i j' a b * po j j'
    else if vers = 2 then 2 * ∑ i, ∑ j, ∑ a, ∑ b, ∑ j', ∑ a', ∑ c, t i j a b * e i j' a' b * po j j' * s a c * s a' c
    else 0
  | .vir =>
    if vers = 1 then 2 * ∑ i, ∑ j, ∑ a, ∑ b, ∑ b', t i j a b * e i j a b' * pv b b'
    else if vers = 2 then 2 * ∑ i, ∑ j, ∑ a, ∑ b, ∑ a', ∑ b', ∑ c, t i j a b * e i j a' b' * pv b b' * s a c * s a' c
    else 0
  | .both => 2 * ∑ i, ∑ j, ∑ a, ∑ b, ∑ j', ∑ b', t i j a b * e i j' a b' * po j j' * pv b b'
  | .none => 2 * ∑ i, ∑ j, ∑ a, ∑ b, t i j a b * e i j a b

/-- The exchange energy of a pair of fragments (icmp2.py:217, 227, 236, 241). -/
def exchange (dc : Dc) (t e : f → f' → v → v' → K) (po : f' → f' → K) (pv : v' → v' → K) (s : v → v' → K) : K :=
  match dc with
  | .occ => -∑ i, ∑ j, ∑ a, ∑ b', ∑ j', ∑ b, ∑ a', t i j a b' * e i j' b a' * po j j' * s a a' * s b b'
  | .vir => -∑ i, ∑ j, ∑ a, ∑ b', ∑ b, ∑ c, ∑ a', t i j a b' * e i j b c * pv c a' * s a a' * s b b'
  | .both => -∑ i, ∑ j, ∑ a, ∑ b', ∑ j', ∑ b, ∑ c, ∑ a', t i j a b' * e i j' b c * po j j' * pv c a' * s a a' * s b b'
  | .none => -∑ i, ∑ j, ∑ a, ∑ b', ∑ b, ∑ a', t i j a b' * e i j b a' * s a a' * s b b'

end

/-- The other fragment of a pair: tag, projector orbitals, cluster. -/
structure Partner (ι L N K : Type) where
  {f : Type}
  {o : Type}
  {v : Type}
  [ff : Fintype f]
  [df : DecidableEq f]
  [fo : Fintype o]
  [fv : Fintype v]
  [dv : DecidableEq v]
  tag : Tag K
  cProj : ι → f → K
  cl : Cl ι L N f o v K

attribute [instance] Partner.ff Partner.df Partner.fo Partner.fv Partner.dv

/-- Direct and exchange energy of a pair (icmp2.py:165-241). -/
def pair (s : Sys ι L N K) (fock : ι → ι → K) (dc : Dc) (vers : Int) (x : Chan ι K) (y : Partner ι L N K) : K × K :=
  let cx := x.own s fock
  let e0 := eris cx y.cl
  let t := project cx y.cl (divide cx y.cl e0)
  let e := project cx y.cl e0
  let svir := mm (mm (tp cx.cVir) s.ovlp) y.cl.cVir
  let po := outside (mm (mm (tp x.cActive) s.ovlp) y.cProj)
  let pv := outside (mm (mm (tp x.cActiveVir) s.ovlp) y.cl.cVir)
  (direct dc vers t e po pv svir, exchange dc t e po pv svir)

/-- A fragment related by symmetry: `direct` if its `sym_parent` is the fragment at the root itself. Its projector orbitals have the shape of those of the root. -/
structure Child (ι L f K : Type) where
  tag : Tag K
  direct : Bool
  op : Op ι L K
  cProj : ι → f → K

/-- A fragment without symmetry parent, with the fragments related to it by symmetry, also in later generations; `symmetry_factor`
(core/qemb/fragment.py:812-820) counts all of them. -/
structure Root (ι L K : Type) where
  tag : Tag K
  chan : Chan ι K
  children : List (Child ι L chan.f K)

/-- `x.symmetry_factor`. -/
def Root.symmetryFactor {ι L K : Type} (x : Root ι L K) : Nat := x.children.length + 1

/-- The setup (icmp2.py:112-160): AttributeError if a direct child is not related by a translation. -/
def setup {ι L K : Type} (l : List (Root ι L K)) : Except PyErr Unit :=
  if (l.any fun x => x.tag.passes && x.children.any fun y => y.tag.passes && y.direct && !y.op.translation) then .error .attributeError else .ok ()

/-- `ClusterRHF(y, coll)` for one family (icmp2.py:11-25, 179-180): KeyError if the setup stored nothing for the root, or for the fragment itself. -/
def Root.partners (s : Sys ι L N K) (fock : ι → ι → K) (x : Root ι L K) : List (Except PyErr (Partner ι L N K)) :=
  (if x.tag.passes then [.ok ⟨x.tag, x.chan.cProj, x.chan.own s fock⟩] else []) ++
  (x.children.filter fun y => y.tag.passes).map fun y =>
    if x.tag.passes && y.direct then .ok ⟨y.tag, y.cProj, x.chan.related s fock y.op⟩ else .error .keyError

/-- The argument `diagonal`: `True`, `False` or `"only"`. -/
inductive Diagonal where
  | yes
  | no
  | only

/-- Pairs left out (icmp2.py:182-186). -/
def Diagonal.keeps : Diagonal → Nat → Nat → Bool
  | .yes, _, _ => true
  | .no, i, j => i != j
  | .only, i, j => i == j

/-- Arguments of the function; `sel` tells for which fragments `x` the energy is wanted (argument `fragments`, simplified to a condition on the identifier). -/
structure Args where
  projectDc : Option String
  direct : Bool
  exchange : Bool
  vers : Int
  diagonal : Diagonal
  sel : Nat → Bool

/-- `prefac * ed`, `prefac * ex` (icmp2.py:243-245). -/
def weigh (a : Args) (x : Root ι L K) (y : Partner ι L N K) (e : K × K) : K × K :=
  let prefac := x.tag.symFactor * (x.symmetryFactor : K) * y.tag.symFactor
  (prefac * (if a.direct then e.1 else 0), prefac * (if a.exchange then e.2 else 0))

/-- One turn of the loop over the other fragments (icmp2.py:179-245). -/
def turn (s : Sys ι L N K) (fock : ι → ι → K) (a : Args) (dc : Dc) (x : Root ι L K) : Except PyErr (Partner ι L N K) → Except PyErr (List (K × K))
  | .error e => .error e
  | .ok y => .ok (if a.diagonal.keeps x.tag.id y.tag.id then [weigh a x y (pair s fock dc a.vers x.chan y)] else [])

/-- The loop over the other fragments. -/
def row (s : Sys ι L N K) (fock : ι → ι → K) (a : Args) (dc : Dc) (l : List (Root ι L K)) (x : Root ι L K) : Except PyErr (List (K × K)) := do
  let es ← (l.flatMap (Root.partners s fock)).mapM (turn s fock a dc x)
  pure es.flatten

/-- `get_intercluster_mp2_energy_rhf` (icmp2.py:53-269) for the fragments `l` of the embedding. `estr` of the final output is assigned in the loop over pairs, so
NameError (UnboundLocalError) if there is none (icmp2.py:250, 258-266). -/
def energyRhf (s : Sys ι L N K) (fock : ι → ι → K) (a : Args) (l : List (Root ι L K)) : Except PyErr K := do
  let dc ← Dc.parse a.projectDc
  if !s.hasDf then .error .runtimeError
  setup l
  let rows ← (l.filter fun x => x.tag.passes && a.sel x.tag.id).mapM (row s fock a dc l)
  if rows.flatten.isEmpty then .error .nameError
  pure ((rows.flatten.map Prod.fst).sum / (s.ncells : K) + (rows.flatten.map Prod.snd).sum / (s.ncells : K))

end Vayesta.Icmp2
