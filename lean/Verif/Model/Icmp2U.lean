import Verif.Model.Icmp2

/-! Model of `get_intercluster_mp2_energy_uhf` (vayesta/ewf/icmp2.py:272-452). Exact arithmetic, one MPI process; logging left out. Not modelled: the negative
three-center integrals of two-dimensional systems (there the code subtracts the part of `eris_ba` from `eris_ab`, icmp2.py:383). -/

namespace Vayesta.Icmp2
open Vayesta.Tensor

variable {K : Type} [Field K] {ι L N : Type} [Fintype ι] [Fintype L] [Fintype N]

/-- A fragment related by symmetry, with projector orbitals of both spins. -/
structure UChild (ι L f g K : Type) where
  tag : Tag K
  direct : Bool
  op : Op ι L K
  cProjA : ι → f → K
  cProjB : ι → g → K

/-- A fragment without symmetry parent, as `Root`. -/
structure URoot (ι L K : Type) where
  tag : Tag K
  alpha : Chan ι K
  beta : Chan ι K
  children : List (UChild ι L alpha.f beta.f K)

/-- The other fragment of a pair, for both spins; the tags of `alpha` and `beta` are that of the fragment. -/
structure UPartner (ι L N K : Type) where
  alpha : Partner ι L N K
  beta : Partner ι L N K

/-- Direct energy of one pair of spins (icmp2.py:376-421), `x` of the first spin, `x'` the same fragment with the second one: `einsum("ijab,ijaB,bB->", t2, eris, pdcv) / 2`. -/
def directU (s : Sys ι L N K) (fock : ι → ι → K) (x x' : Chan ι K) (y : Partner ι L N K) : K :=
  let cx := x.own s fock
  let e0 := contract cx.cderi y.cl.cderi
  let t := project cx y.cl (divide cx y.cl e0)
  let e := project cx y.cl e0
  let pv := outside (mm (mm (tp x'.cActiveVir) s.ovlp) y.cl.cVir)
  (∑ i, ∑ j, ∑ a, ∑ b, ∑ b', t i j a b * e i j a b' * pv b b') / 2

/-- Exchange energy of one spin (icmp2.py:406-408, 423-424): `-einsum("ijaB,ijbC,CA,aA,bB->", t2, eris, pdcv, svir, svir) / 2`. -/
def exchangeU (s : Sys ι L N K) (fock : ι → ι → K) (x : Chan ι K) (y : Partner ι L N K) : K :=
  let cx := x.own s fock
  let e0 := contract cx.cderi y.cl.cderi
  let t := project cx y.cl (divide cx y.cl e0)
  let e := project cx y.cl e0
  let svir := mm (mm (tp cx.cVir) s.ovlp) y.cl.cVir
  let pv := outside (mm (mm (tp x.cActiveVir) s.ovlp) y.cl.cVir)
  (-(∑ i, ∑ j, ∑ a, ∑ b', ∑ b, ∑ c, ∑ a', t i j a b' * e i j b c * pv c a' * svir a a' * svir b b')) / 2

/-- Direct and exchange energy of a pair (icmp2.py:417-424); `pdcva` and `pdcvb` go with the spin of the second fragment. -/
def pairU (s : Sys ι L N K) (fockA fockB : ι → ι → K) (x : URoot ι L K) (y : UPartner ι L N K) : K × K :=
  (directU s fockA x.alpha x.alpha y.alpha + directU s fockA x.alpha x.beta y.beta + directU s fockB x.beta x.alpha y.alpha + directU s fockB x.beta x.beta y.beta,
   exchangeU s fockA x.alpha y.alpha + exchangeU s fockB x.beta y.beta)

/-- The setup (icmp2.py:315-349), as `setup`. -/
def setupU {ι L K : Type} (l : List (URoot ι L K)) : Except PyErr Unit :=
  if (l.any fun x => x.tag.passes && x.children.any fun y => y.tag.passes && y.direct && !y.op.translation) then .error .attributeError else .ok ()

/-- `ClusterUHF(y, coll)` for one family (icmp2.py:28-46, 367-368), as `Root.partners`. -/
def URoot.partners (s : Sys ι L N K) (fockA fockB : ι → ι → K) (x : URoot ι L K) : List (Except PyErr (UPartner ι L N K)) :=
  (if x.tag.passes then [.ok ⟨⟨x.tag, x.alpha.cProj, x.alpha.own s fockA⟩, ⟨x.tag, x.beta.cProj, x.beta.own s fockB⟩⟩] else []) ++
  (x.children.filter fun y => y.tag.passes).map fun y =>
    if x.tag.passes && y.direct then .ok ⟨⟨y.tag, y.cProjA, x.alpha.related s fockA y.op⟩, ⟨y.tag, y.cProjB, x.beta.related s fockB y.op⟩⟩ else .error .keyError

/-- `prefac * ed`, `prefac * ex` (icmp2.py:426-428). -/
def weighU (d e : Bool) (x : URoot ι L K) (y : UPartner ι L N K) (p : K × K) : K × K :=
  let prefac := x.tag.symFactor * ((x.children.length + 1 : Nat) : K) * y.alpha.tag.symFactor
  (prefac * (if d then p.1 else 0), prefac * (if e then p.2 else 0))

/-- One turn of the loop over the other fragments (icmp2.py:367-428). -/
def turnU (s : Sys ι L N K) (fockA fockB : ι → ι → K) (d e : Bool) (x : URoot ι L K) : Except PyErr (UPartner ι L N K) → Except PyErr (K × K)
  | .error err => .error err
  | .ok y => .ok (weighU d e x y (pairU s fockA fockB x y))

/-- `get_intercluster_mp2_energy_uhf` (icmp2.py:272-452). Without density fitting `emb.df` is `None`, and AttributeError is raised (icmp2.py:308-312); NameError if
there is no pair, as for `energyRhf`. -/
def energyUhf (s : Sys ι L N K) (fockA fockB : ι → ι → K) (projectDc : Option String) (d e : Bool) (l : List (URoot ι L K)) : Except PyErr K := do
  if projectDc != some "vir" then .error .notImplementedError
  if !s.hasDf then .error .attributeError
  setupU l
  let rows ← (l.filter fun x => x.tag.passes).mapM fun x => (l.flatMap (URoot.partners s fockA fockB)).mapM (turnU s fockA fockB d e x)
  if rows.flatten.isEmpty then .error .nameError
  pure ((rows.flatten.map Prod.fst).sum / (s.ncells : K) + (rows.flatten.map Prod.snd).sum / (s.ncells : K))

end Vayesta.Icmp2
