import Verif.Model.Amplitudes
import Verif.Lemmas.Tensor
import Mathlib.Algebra.Group.Pi.Basic
import Mathlib.Algebra.Group.Prod
import Mathlib.Data.Fintype.Sum

/-! Model of the one-body density matrices of restricted EWF calculations: `vayesta/ewf/rdm.py` 22-467, `vayesta/ewf/ewf.py` 270-296,
`vayesta/ewf/fragment.py` 411-452 and `vayesta/core/vpyscf/ccsd_rdm.py` 32-50, 243-290. Arrays are functions of their indices over a field
(exact arithmetic), one MPI process. `mm` is the matrix product, `tp` the transpose; `L1` to `L4` contract one axis of an array with four axes
with the second axis of a matrix: `L2 M t` is `einsum("Jj,ijab->iJab", M, t)`. -/

namespace Vayesta.EwfRdm
open Vayesta.Amplitudes Vayesta.Tensor

variable {K : Type} [Field K] {ι o v : Type} [Fintype ι] [Fintype o] [Fintype v]

/-! ## Density matrix of given amplitudes -/

/-- `2 * t2 - t2.transpose(0, 1, 3, 2)`. -/
def theta {f o v : Type} (t2 : T2 f o v v K) : T2 f o v v K := fun i j a b => 2 * t2 i j a b - t2 i j b a

/-- Blocks `(doo, dov, dvo, dvv)` of the one-body density matrix. -/
structure Gamma1 (o v K : Type) where
  doo : o → o → K
  dov : o → v → K
  dvo : v → o → K
  dvv : v → v → K

/-- `_gamma1_intermediates` (ccsd_rdm.py:32-49; the same function of PySCF is called in fragment.py:428). -/
def gamma1 {o v : Type} [Fintype o] [Fintype v] (t1 : T1 o v K) (t2 : T2 o o v v K) (l1 : T1 o v K) (l2 : T2 o o v v K) : Gamma1 o v K :=
  let th := theta t2
  let xtv : o → o → K := fun i m => ∑ e, t1 i e * l1 m e
  let xt1 : o → o → K := fun m i => ∑ n, ∑ e, ∑ f, l2 m n e f * th i n e f
  let xt2 : v → v → K := fun e a => ∑ m, ∑ n, ∑ f, l2 m n a f * th m n e f
  { doo := fun i j => -(∑ a, t1 j a * l1 i a) - ∑ k, ∑ a, ∑ b, th j k a b * l2 i k a b
    dov := l1
    dvo := fun a i => t1 i a - (∑ m, xtv i m * t1 m a) + (∑ m, ∑ e, th i m a e * l1 m e) - (∑ m, xt1 m i * t1 m a) - ∑ e, t1 i e * xt2 a e
    dvv := fun a b => (∑ i, t1 i a * l1 i b) + ∑ j, ∑ i, ∑ c, th j i c a * l2 j i c b }

/-- A matrix in the basis of all orbitals from its blocks: occupied orbitals first. -/
def blocks {o v : Type} (oo : o → o → K) (ov : o → v → K) (vv : v → v → K) : o ⊕ v → o ⊕ v → K
  | .inl i, .inl j => oo i j
  | .inl i, .inr a => ov i a
  | .inr a, .inl i => ov i a
  | .inr a, .inr b => vv a b

/-- `_make_rdm1` with `with_mf=False`, real numbers, no frozen orbitals (ccsd_rdm.py:261-275). -/
def makeRdm1 {o v : Type} (g : Gamma1 o v K) : o ⊕ v → o ⊕ v → K :=
  blocks (fun i j => g.doo i j + g.doo j i) (fun i a => g.dov i a + g.dvo a i) (fun a b => g.dvv a b + g.dvv b a)

/-- `dm1[np.diag_indices(nocc)] += 2` (rdm.py:112, 154, ewf.py:282). -/
def addMf {o v : Type} [DecidableEq o] (d : o ⊕ v → o ⊕ v → K) : o ⊕ v → o ⊕ v → K
  | .inl i, .inl j => d (.inl i) (.inl j) + if i = j then 2 else 0
  | p, q => d p q

/-! ## Fragments -/

/-- Overlap matrix and molecular orbitals. -/
structure Mf (ι o v K : Type) where
  ovlp : ι → ι → K
  moOcc : ι → o → K
  moVir : ι → v → K

/-- All molecular orbitals `emb.mo_coeff`. -/
def Mf.mo (s : Mf ι o v K) : ι → o ⊕ v → K := fun p => Sum.elim (s.moOcc p) (s.moVir p)

/-- A contributing fragment: fragment and active cluster orbitals, the amplitudes of `results.pwf.as_ccsd()` (an MP2 wave function
is converted with `t1 = l1 = 0` and `l2 = t2`: mp2.py:96-99), whether the solver is "MP2", the option `t_as_lambda`, and the operations that
generate its symmetry children, as matrices acting on the AOs (`loop_symmetry_children`, all generations). -/
structure Frag (ι K : Type) where
  {f : Type}
  {co : Type}
  {cv : Type}
  [ff : Fintype f]
  [fo : Fintype co]
  [fv : Fintype cv]
  cFrag : ι → f → K
  cOcc : ι → co → K
  cVir : ι → cv → K
  t1 : T1 f cv K
  t2 : T2 f co cv cv K
  l1 : Option (T1 f cv K)
  l2 : Option (T2 f co cv cv K)
  mp2 : Bool
  tAsLambda : Bool
  ops : List (ι → ι → K)

attribute [instance] Frag.ff Frag.fo Frag.fv

/-- The symmetry child of a fragment: the operation acts on fragment and cluster orbitals, the results are those of the parent
(core/qemb/fragment.py:359-373). -/
def Frag.image (x : Frag ι K) (u : ι → ι → K) : Frag ι K :=
  { x with cFrag := mm u x.cFrag, cOcc := mm u x.cOcc, cVir := mm u x.cVir, ops := [] }

/-- A fragment and its symmetry children. -/
def Frag.family (x : Frag ι K) : List (Frag ι K) := { x with ops := [] } :: x.ops.map x.image

/-- `get_overlap("mo[occ]|cluster[occ]")`, `("mo[vir]|cluster[vir]")`, `("mo[occ]|frag")`, `("cluster[occ]|frag")`
(core/qemb/fragment.py:309-352). -/
def Frag.mco (s : Mf ι o v K) (x : Frag ι K) : o → x.co → K := mm (tp s.moOcc) (mm s.ovlp x.cOcc)
def Frag.mcv (s : Mf ι o v K) (x : Frag ι K) : v → x.cv → K := mm (tp s.moVir) (mm s.ovlp x.cVir)
def Frag.mf (s : Mf ι o v K) (x : Frag ι K) : o → x.f → K := mm (tp s.moOcc) (mm s.ovlp x.cFrag)
def Frag.cf (s : Mf ι o v K) (x : Frag ι K) : x.co → x.f → K := mm (tp x.cOcc) (mm s.ovlp x.cFrag)

/-- The projector stored with the projected wave function, `get_overlap("frag|cluster-occ")` (ewf/fragment.py:258). -/
def Frag.px (s : Mf ι o v K) (x : Frag ι K) : x.f → x.co → K := mm (tp x.cFrag) (mm s.ovlp x.cOcc)

/-- What the assembly of global amplitudes reads from a fragment (amplitudes.py:20-40, 70-84). -/
def Frag.toAmp (s : Mf ι o v K) (x : Frag ι K) : Amplitudes.Frag o v K where
  ro := x.mco s
  rv := x.mcv s
  pwf := .ccsd (.proj (x.px s) x.t1 x.t2 x.l1 x.l2)
  tAsLambda := x.tAsLambda

/-- `get_global_t1()` of all fragments of a list of symmetry parents (amplitudes.py:7-46). -/
def globT1 (s : Mf ι o v K) (lam : Bool) (l : List (Frag ι K)) : Except PyErr (T1 o v K) :=
  globalT1 lam ((l.flatMap Frag.family).map (Frag.toAmp s))

/-- `get_global_t2()` (amplitudes.py:49-92). -/
def globT2 (s : Mf ι o v K) (lam : Bool) (l : List (Frag ι K)) : Except PyErr (T2 o o v v K) :=
  globalT2 lam ((l.flatMap Frag.family).map (Frag.toAmp s))

/-! ## make_rdm1_ccsd_global_wf -/

/-- The algorithm `slow=True` (rdm.py:203-215). `l` holds the symmetry parents. -/
def slow (s : Mf ι o v K) (tAsLambda withT1 : Bool) (l : List (Frag ι K)) : Except PyErr (o ⊕ v → o ⊕ v → K) := do
  let t1 ← globT1 s false l
  let t2 ← globT2 s false l
  let l1 ← bif tAsLambda then pure t1 else globT1 s true l
  let l2 ← bif tAsLambda then pure t2 else globT2 s true l
  pure (if withT1 then makeRdm1 (gamma1 t1 t2 l1 l2) else makeRdm1 (gamma1 0 t2 0 l2))

/-- Two factors of a matrix. -/
structure Factors (m n K : Type) where
  {k : Type}
  [fk : Fintype k]
  u : m → k → K
  w : k → n → K

attribute [instance] Factors.fk

/-- Options. `svd` is None for `svd_tol=None`; otherwise it gives the singular vectors kept for a matrix, each scaled with the square root of the
singular value (rdm.py:281-299). `small` is None if there is no screening of pairs, otherwise it tells if the largest singular value of
a matrix is below `ovlp_tol` (rdm.py:304-316). -/
structure Opts (K : Type) where
  tAsLambda : Bool
  withT1 : Bool
  svd : Option (∀ m n : Type, (m → n → K) → Factors m n K)
  small : Option (∀ m n : Type, (m → n → K) → Bool)
  useSym : Bool
  late : Bool

/-- Amplitudes of the second fragment (rdm.py:319-321). -/
def Frag.lam (tAsLambda : Bool) (y : Frag ι K) : Except PyErr (T2 y.f y.co y.cv y.cv K) :=
  if tAsLambda || y.mp2 then .ok y.t2 else
    match y.l2 with
    | some l2 => .ok l2
    | none => .error .runtimeError

/-- Doubles of `wf.restore()` (ccsd.py:136-147). -/
def restored {f co cv : Type} [Fintype f] (p : f → co → K) (t2 : T2 f co cv cv K) : T2 co co cv cv K :=
  symmetrizeC2 (projectC2 (tr p) t2)

/-- The array `tmp` of a pair of fragments with amplitudes symmetrised before (rdm.py:332-338). -/
def tmpEarly {c d c' d' : Type} [Fintype c] [Fintype d] [Fintype c'] [Fintype d']
    (svd : Option (∀ m n : Type, (m → n → K) → Factors m n K)) (th : T2 c c d d K) (l2 : T2 c' c' d' d' K) (ro : c → c' → K) (rv : d → d' → K) :
    c → c' → d → d' → K :=
  match svd with
  | none => fun i i' b b' => ∑ j', ∑ a', L2 (tp ro) (L3 (tp rv) th) i j' a' b * l2 i' j' a' b'
  | some f =>
    let o := f c c' ro
    let w := f d d' rv
    fun i i' b b' => ∑ s, ∑ p, L2 (tp o.u) (L3 (tp w.u) th) i s p b * L2 o.w (L3 w.w l2) i' s p b'

/-- Contributions to `doox` and `dvvx` of a pair of fragments, amplitudes symmetrised before (rdm.py:331-342). -/
def pairEarly {c d c' d' : Type} [Fintype c] [Fintype d] [Fintype c'] [Fintype d']
    (svd : Option (∀ m n : Type, (m → n → K) → Factors m n K)) (th : T2 c c d d K) (l2 : T2 c' c' d' d' K) (ro : c → c' → K) (rv : d → d' → K)
    (cyo : o → c' → K) (cyv : v → d' → K) : (c → o → K) × (d → v → K) :=
  let tmp := tmpEarly svd th l2 ro rv
  let tmpo : c → c' → K := fun i i' => -∑ b, ∑ b', tmp i i' b b' * rv b b'
  let tmpv : d → d' → K := fun b b' => ∑ i, ∑ i', tmp i i' b b' * ro i i'
  (mm tmpo (tp cyo), mm tmpv (tp cyv))

/-- The overlaps `cfxy_occ`, `cfyx_occ`, `ffxy` (rdm.py:345-352). -/
def overlapsLate {c c' f f' : Type} [Fintype c] [Fintype c'] (svd : Option (∀ m n : Type, (m → n → K) → Factors m n K)) (ro : c → c' → K)
    (cfx : c → f → K) (cfy : c' → f' → K) : (c → f' → K) × (c' → f → K) × (f → f' → K) :=
  match svd with
  | none => (mm ro cfy, mm (tp ro) cfx, mm (tp cfx) (mm ro cfy))
  | some g =>
    let o := g c c' ro
    (mm o.u (mm o.w cfy), mm (tp o.w) (mm (tp o.u) cfx), mm (tp cfx) (mm o.u (mm o.w cfy)))

/-- The four contributions to `doox` for given `t2tmp`, `l2tmp` and `tmp` of the first one (rdm.py:369-379). -/
def occSum {c c' f f' k : Type} [Fintype c] [Fintype c'] [Fintype f] [Fintype f'] [Fintype k] (ov : (c → f' → K) × (c' → f → K) × (f → f' → K))
    (t2tmp : T2 f c k k K) (l2tmp : T2 f' c' k k K) (tmp1 : f → f' → K) (cfx : c → f → K) (mfy : o → f' → K) (cyo : o → c' → K) : c → o → K :=
  let tmp2 : f → c' → K := fun x i => -(∑ y, ∑ a, ∑ b, L2 (tp ov.1) t2tmp x y a b * l2tmp y i b a) / 4
  let tmp3 : c → f' → K := fun i y => -(∑ x, ∑ a, ∑ b, t2tmp x i b a * L2 (tp ov.2.1) l2tmp y x a b) / 4
  let tmp4 : c → c' → K := fun i i' => -(∑ x, ∑ y, ∑ a, ∑ b, t2tmp x i b a * ov.2.2 x y * l2tmp y i' b a) / 4
  mm cfx (mm tmp1 (tp mfy)) + mm cfx (mm tmp2 (tp cyo)) + mm tmp3 (tp mfy) + mm tmp4 (tp cyo)

/-- The occupied part of a pair of fragments, symmetrised late (rdm.py:354-379). -/
def occLate {c d c' d' f f' : Type} [Fintype c] [Fintype d] [Fintype c'] [Fintype d'] [Fintype f] [Fintype f']
    (svd : Option (∀ m n : Type, (m → n → K) → Factors m n K)) (th : T2 f c d d K) (l2 : T2 f' c' d' d' K) (ro : c → c' → K) (rv : d → d' → K)
    (cfx : c → f → K) (cfy : c' → f' → K) (mfy : o → f' → K) (cyo : o → c' → K) : c → o → K :=
  let ov := overlapsLate svd ro cfx cfy
  match svd with
  | none =>
    let t2tmp := L3 (tp rv) (L4 (tp rv) th)
    let tmp1 : f → f' → K := fun x y => -(∑ j, ∑ a, ∑ b, L2 (tp ro) t2tmp x j a b * l2 y j a b) / 4
    occSum ov t2tmp l2 tmp1 cfx mfy cyo
  | some g =>
    let w := g d d' rv
    let t2tmp := L3 (tp w.u) (L4 (tp w.u) th)
    let l2tmp := L3 w.w (L4 w.w l2)
    let o := g c c' ro
    let tmp1 : f → f' → K := fun x y => -(∑ s, ∑ a, ∑ b, L2 (tp o.u) t2tmp x s a b * L2 o.w l2tmp y s a b) / 4
    occSum ov t2tmp l2tmp tmp1 cfx mfy cyo

/-- The virtual part of a pair of fragments, symmetrised late (rdm.py:381-402). -/
def virLate {c d c' d' f f' : Type} [Fintype c] [Fintype d] [Fintype c'] [Fintype d'] [Fintype f] [Fintype f']
    (svd : Option (∀ m n : Type, (m → n → K) → Factors m n K)) (th : T2 f c d d K) (l2 : T2 f' c' d' d' K) (ro : c → c' → K) (rv : d → d' → K)
    (cfx : c → f → K) (cfy : c' → f' → K) (cyv : v → d' → K) : d → v → K :=
  let ov := overlapsLate svd ro cfx cfy
  let t2b := L2 (tp ov.1) th
  let l2b := L2 (tp ov.2.1) l2
  match svd with
  | none =>
    let t2a := L1 (tp ov.2.2) (L2 (tp ro) th)
    let tmp : d → d' → K := fun b b' =>
      (∑ y, ∑ j, ∑ a, L3 (tp rv) t2a y j a b * l2 y j a b') / 4 + (∑ y, ∑ i, ∑ a, L4 (tp rv) t2a y i b a * l2 y i b' a) / 4 +
      (∑ x, ∑ y, ∑ a, L3 (tp rv) t2b x y a b * l2b y x b' a) / 4 + (∑ x, ∑ y, ∑ a, L4 (tp rv) t2b x y b a * l2b y x a b') / 4
    mm tmp (tp cyv)
  | some g =>
    let o := g c c' ro
    let w := g d d' rv
    let t2a := L2 (tp o.u) th
    let l2a := L1 ov.2.2 (L2 o.w l2)
    let tmp : d → d' → K := fun b b' =>
      (∑ x, ∑ s, ∑ p, L3 (tp w.u) t2a x s p b * L3 w.w l2a x s p b') / 4 + (∑ x, ∑ s, ∑ p, L4 (tp w.u) t2a x s b p * L4 w.w l2a x s b' p) / 4 +
      (∑ x, ∑ y, ∑ s, L3 (tp w.u) t2b x y s b * L4 w.w l2b y x b' s) / 4 + (∑ x, ∑ y, ∑ s, L4 (tp w.u) t2b x y b s * L3 w.w l2b y x s b') / 4
    mm tmp (tp cyv)

/-- Application of a symmetry operation to orbital coefficients; None for the fragment itself. -/
def act {n : Type} : Option (ι → ι → K) → (ι → n → K) → ι → n → K
  | none, c => c
  | some u, c => mm u c

/-- `loop_symmetry_children(..., include_self=True, maxgen=maxgen)`: without symmetry only the fragment itself (rdm.py:237-238). -/
def Frag.copies (useSym : Bool) (x : Frag ι K) : List (Option (ι → ι → K)) := none :: if useSym then x.ops.map some else []

/-- If the pair is skipped (rdm.py:304-316). -/
def skipped {c d c' d' : Type} (small : Option (∀ m n : Type, (m → n → K) → Bool)) (ro : c → c' → K) (rv : d → d' → K) : Bool :=
  match small with
  | none => false
  | some g => g c c' ro || g d d' rv

/-- The body of the inner loops (rdm.py:262-402): contributions of the pair `x`, `y` to `doox` and `dvvx`, where `y` is transformed by `u`. -/
def pairTerm (s : Mf ι o v K) (w : Opts K) (x y : Frag ι K) (u : Option (ι → ι → K)) :
    Except PyErr ((x.co → o → K) × (x.cv → v → K)) :=
  let cyo : o → y.co → K := mm (mm (tp s.moOcc) s.ovlp) (act u y.cOcc)
  let cyv : v → y.cv → K := mm (mm (tp s.moVir) s.ovlp) (act u y.cVir)
  let ro := mm (tp (x.mco s)) cyo
  let rv := mm (tp (x.mcv s)) cyv
  let mfy : o → y.f → K := mm (mm (tp s.moOcc) s.ovlp) (act u y.cFrag)
  if skipped w.small ro rv then .ok 0
  else do
    let l2 ← y.lam w.tAsLambda
    if w.late then
      pure (occLate w.svd (theta x.t2) l2 ro rv (x.cf s) (y.cf s) mfy cyo, virLate w.svd (theta x.t2) l2 ro rv (x.cf s) (y.cf s) cyv)
    else pure (pairEarly w.svd (theta (restored (x.px s) x.t2)) (restored (y.px s) l2) ro rv cyo cyv)

/-- Sum of the values of a function over a list, in order. -/
def accumulate {α M : Type*} [AddMonoid M] (f : α → Except PyErr M) (l : List α) : Except PyErr M :=
  l.foldlM (fun acc x => do let c ← f x; pure (acc + c)) 0

/-- `doox`, `dvvx` of fragment `x` (rdm.py:246-402). -/
def xIntermediates (s : Mf ι o v K) (w : Opts K) (l : List (Frag ι K)) (x : Frag ι K) : Except PyErr ((x.co → o → K) × (x.cv → v → K)) :=
  accumulate (fun y : Frag ι K => accumulate (pairTerm s w x y) (y.copies w.useSym)) l

/-- `D[occ,vir] <- T2 * L1` of fragment `x` (rdm.py:419-436), for one of its copies. -/
def ovTerm (s : Mf ι o v K) (w : Opts K) (l1 : T1 o v K) (x : Frag ι K) (u : Option (ι → ι → K)) : o → v → K :=
  let l1x := mm (tp (x.mco s)) (mm l1 (x.mcv s))
  let cs := mm (tp s.moOcc) s.ovlp
  let cxo : o → x.co → K := mm cs (act u x.cOcc)
  let cxv : v → x.cv → K := mm (mm (tp s.moVir) s.ovlp) (act u x.cVir)
  if w.late then
    let th := theta x.t2
    let dovx1 : x.f → x.cv → K := fun z a => (∑ j, ∑ b, th z j a b * l1x j b) / 2
    let dovx2 : x.co → x.cv → K := fun i a => (∑ z, ∑ b, th z i b a * mm (tp (x.cf s)) l1x z b) / 2
    fun i a => mm (mm cs (act u x.cFrag)) (mm dovx1 (tp cxv)) i a + mm cxo (mm dovx2 (tp cxv)) i a
  else
    let th := theta (restored (x.px s) x.t2)
    let dovx : x.co → x.cv → K := fun i a => ∑ j, ∑ b, th i j a b * l1x j b
    mm cxo (mm dovx (tp cxv))

/-- The body of the outer loop (rdm.py:239-436): contributions to `doo`, `dvv` and `dov`. -/
def xTerm (s : Mf ι o v K) (w : Opts K) (l : List (Frag ι K)) (l1 : T1 o v K) (x : Frag ι K) :
    Except PyErr ((o → o → K) × (v → v → K) × (o → v → K)) := do
  let d ← xIntermediates s w l x
  let cso := mm (tp s.moOcc) s.ovlp
  let csv := mm (tp s.moVir) s.ovlp
  let image (u : ι → ι → K) : (o → o → K) × (v → v → K) :=
    (mm cso (mm (mm u x.cOcc) (mm (mm (mm d.1 (tp s.moOcc)) (tp u)) (tp cso))),
      mm csv (mm (mm u x.cVir) (mm (mm (mm d.2 (tp s.moVir)) (tp u)) (tp csv))))
  let sym := ((if w.useSym then x.ops else []).map image).sum
  let dov := if w.withT1 then ((x.copies w.useSym).map (ovTerm s w l1 x)).sum else 0
  pure (mm (x.mco s) d.1 + sym.1, mm (x.mcv s) d.2 + sym.2, dov)

/-- The end of the function (rdm.py:447-463). Without singles the off-diagonal blocks are zero. -/
def combine (withT1 : Bool) (t1 l1 : T1 o v K) (d : (o → o → K) × (v → v → K) × (o → v → K)) : o ⊕ v → o ⊕ v → K :=
  if withT1 then
    let dov : o → v → K := fun i a => d.2.2 i a + (t1 i a + l1 i a - ∑ e, ∑ m, t1 i e * l1 m e * t1 m a) + (∑ m, d.1 i m * t1 m a) - ∑ e, t1 i e * d.2.1 a e
    let doo : o → o → K := fun i j => d.1 i j - ∑ a, t1 j a * l1 i a
    let dvv : v → v → K := fun a b => d.2.1 a b + ∑ i, t1 i a * l1 i b
    blocks (fun i j => doo i j + doo j i) dov (fun a b => dvv a b + dvv b a)
  else blocks (fun i j => d.1 i j + d.1 j i) 0 (fun a b => d.2.1 a b + d.2.1 b a)

/-- `make_rdm1_ccsd_global_wf(slow=False)` (rdm.py:217-467). `l` holds the symmetry parents; `get_fragments` without the filter on parents gives all
fragments. -/
def fast (s : Mf ι o v K) (w : Opts K) (l : List (Frag ι K)) : Except PyErr (o ⊕ v → o ⊕ v → K) := do
  let t1 ← bif w.withT1 then globT1 s false l else pure 0
  let l1 ← bif w.withT1 then globT1 s (!w.tAsLambda) l else pure 0
  let loop := if w.useSym then l else l.flatMap Frag.family
  let d ← accumulate (xTerm s w loop l1) loop
  pure (combine w.withT1 t1 l1 d)

/-- `EWF._make_rdm1_ccsd_global_wf` (ewf.py:279-285) with the result of the function above. -/
def finish {o v : Type} [DecidableEq o] (withMf : Bool) (d : o ⊕ v → o ⊕ v → K) : o ⊕ v → o ⊕ v → K := if withMf then addMf d else d

/-- The transformation to the AO basis, `dot(mo_coeff, dm1, mo_coeff.T)` (ewf.py:284, rdm.py:114, 156). -/
def toAo (s : Mf ι o v K) (d : o ⊕ v → o ⊕ v → K) : ι → ι → K := mm s.mo (mm d (tp s.mo))

/-! ## make_rdm1_ccsd -/

/-- `l2x` of the loop (rdm.py:66-70). Missing lambda amplitudes raise NotCalculatedError, a subclass of AttributeError. -/
def Frag.lamPlain (tAsLambda : Bool) (x : Frag ι K) : Except PyErr (T2 x.f x.co x.cv x.cv K) :=
  if tAsLambda then .ok x.t2 else
    match x.l2 with
    | some l2 => .ok l2
    | none => .error .attributeError

/-- The rest of the loop body (rdm.py:71-88): contributions of a fragment to `doo`, `dvv`, `dov`. -/
def fragBlocks (s : Mf ι o v K) (symmetrize mp2 : Bool) (l1 : T1 o v K) (x : Frag ι K) (l2 : T2 x.f x.co x.cv x.cv K) :
    (o → o → K) × (v → v → K) × (o → v → K) :=
  let th := theta x.t2
  let co := x.mco s
  let cv := x.mcv s
  let fo := x.mf s
  let doo : o → o → K := fun p q => -∑ k, ∑ i, ∑ j, ∑ b, ∑ a, th k i b a * l2 k j b a * co p i * co q j
  let l1x := mm (tp co) (mm l1 cv)
  let ov1 : o → v → K := fun p q => ∑ i, ∑ j, ∑ a, ∑ b, th i j a b * fo p i * cv q a * l1x j b
  let ov2 : o → v → K := fun p q => ∑ j, ∑ i, ∑ b, ∑ a, th j i b a * co p i * cv q a * mm (tp fo) (mm l1 cv) j b
  let vv1 : v → v → K := fun p q => ∑ i, ∑ j, ∑ c, ∑ a, ∑ b, th i j c a * l2 i j c b * cv p a * cv q b
  let vv2 : v → v → K := fun p q => ∑ i, ∑ j, ∑ c, ∑ a, ∑ b, th i j a c * l2 i j b c * cv p a * cv q b
  if symmetrize then (doo, fun p q => vv1 p q / 2 + vv2 p q / 2, if mp2 then 0 else fun p q => ov1 p q / 2 + ov2 p q / 2)
  else (doo, vv1, if mp2 then 0 else ov1)

/-- The loop body (rdm.py:66-88). -/
def fragTerm (s : Mf ι o v K) (tAsLambda symmetrize mp2 : Bool) (l1 : T1 o v K) (x : Frag ι K) :
    Except PyErr ((o → o → K) × (v → v → K) × (o → v → K)) :=
  (x.lamPlain tAsLambda).map (fragBlocks s symmetrize mp2 l1 x)

/-- `make_rdm1_ccsd` (rdm.py:22-117) with `with_mf=False`, `ao_basis=False`. Here `doo` gets `-l1 t1` where the other function has `-t1 l1`; both are
symmetrised. -/
def rdm1Ccsd (s : Mf ι o v K) (tAsLambda symmetrize mp2 : Bool) (l : List (Frag ι K)) : Except PyErr (o ⊕ v → o ⊕ v → K) := do
  let tl := tAsLambda || mp2
  let t1 ← bif mp2 then pure 0 else globT1 s false l
  let l1 ← bif mp2 then pure 0 else bif tl then pure t1 else globT1 s true l
  let d ← accumulate (fragTerm s tl symmetrize mp2 l1) (l.flatMap Frag.family)
  pure (combine (!mp2) t1 l1 d)

/-! ## make_rdm1_ccsd_proj_lambda -/

/-- A fragment with the unprojected amplitudes of its cluster (`results.wf.as_ccsd()`), besides the projected ones. -/
structure LFrag (ι K : Type) where
  x : Frag ι K
  t1 : T1 x.co x.cv K
  t2 : T2 x.co x.co x.cv x.cv K

/-- The projected amplitudes used as lambda amplitudes (fragment.py:418-424). Without lambda amplitudes None is passed on and the contractions raise
TypeError. -/
def Frag.lamPair (tAsLambda : Bool) (x : Frag ι K) : Except PyErr (T1 x.f x.cv K × T2 x.f x.co x.cv x.cv K) :=
  if tAsLambda then .ok (x.t1, x.t2) else
    match x.l1, x.l2 with
    | some l1, some l2 => .ok (l1, l2)
    | _, _ => .error .typeError

/-- `Fragment.make_fragment_dm1` (fragment.py:411-452) with lambda amplitudes `l`: `symT2` symmetrises the restored doubles. -/
def LFrag.dm1With (s : Mf ι o v K) (symT2 : Bool) (y : LFrag ι K) (l : T1 y.x.f y.x.cv K × T2 y.x.f y.x.co y.x.cv y.x.cv K) :
    y.x.co ⊕ y.x.cv → y.x.co ⊕ y.x.cv → K :=
  let r1 := projectC1 (tr (y.x.px s)) (v := y.x.cv)
  let r2 := fun t => if symT2 then restored (y.x.px s) t else projectC2 (tr (y.x.px s)) t
  let g := gamma1 y.t1 y.t2 (r1 l.1) (r2 l.2)
  let dvo : y.x.cv → y.x.co → K := fun a i => g.dvo a i + (r1 y.x.t1 i a - y.t1 i a)
  makeRdm1 { g with dvo := dvo }

/-- `Fragment.make_fragment_dm1`. -/
def LFrag.dm1 (s : Mf ι o v K) (tAsLambda symT2 : Bool) (y : LFrag ι K) : Except PyErr (y.x.co ⊕ y.x.cv → y.x.co ⊕ y.x.cv → K) :=
  (y.x.lamPair tAsLambda).map (y.dm1With s symT2)

/-- `get_overlap("mo|cluster")`. -/
def LFrag.mc (s : Mf ι o v K) (y : LFrag ι K) : o ⊕ v → y.x.co ⊕ y.x.cv → K :=
  mm (tp s.mo) (mm s.ovlp fun p => Sum.elim (y.x.cOcc p) (y.x.cVir p))

/-- `make_rdm1_ccsd_proj_lambda` (rdm.py:120-157) with `with_mf=False`, `ao_basis=False`; `l` holds all fragments. -/
def rdm1ProjLambda (s : Mf ι o v K) (tAsLambda symT2 : Bool) (l : List (LFrag ι K)) : Except PyErr (o ⊕ v → o ⊕ v → K) :=
  accumulate (fun y : LFrag ι K => do
    let d ← y.dm1 s tAsLambda symT2
    pure (mm (y.mc s) (mm d (tp (y.mc s))))) l

end Vayesta.EwfRdm
