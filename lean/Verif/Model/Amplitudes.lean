import Verif.Model.Blocks
import Mathlib.Algebra.BigOperators.Group.Finset.Basic
import Mathlib.Algebra.Field.Defs
import Mathlib.Data.Fintype.Basic

/-! Model of the CISD and CCSD wave-function types (`vayesta/core/types/wf/{ccsd,cisd,mp2,project}.py`) and of the assembly of
global amplitudes (`vayesta/ewf/amplitudes.py`). Tensors are functions of their indices over a field `K` (exact arithmetic). The
type of an index fixes the dimension of the array axis: `o` occupied, `v` virtual, `f` fragment. Orbital coefficients (`self.mo`)
are carried along unchanged by all functions of this file and are left out. -/

namespace Vayesta.Amplitudes

/-- Array with one occupied(-like) and one virtual axis. -/
abbrev T1 (o v K : Type) := o → v → K
/-- Array with two occupied(-like) and two virtual axes. -/
abbrev T2 (o₁ o₂ v₁ v₂ K : Type) := o₁ → o₂ → v₁ → v₂ → K

section Basic
variable {o o' v v' f K : Type}

/-- `einsum("ia,jb->ijab", a, b)` (ccsd.py:181, cisd.py:71). -/
def outer [Mul K] (a : T1 o v K) (b : T1 o' v' K) : T2 o o' v v' K := fun i j x y => a i x * b j y

/-- `einsum("ib,ja->ijab", a, b)` (ccsd.py:328-329, cisd.py:158-159). -/
def outerX [Mul K] (a : T1 o v' K) (b : T1 o' v K) : T2 o o' v v' K := fun i j x y => a i y * b j x

/-- `c2.transpose(1, 0, 3, 2)` (project.py:36, 49, 61). -/
def transp (c : T2 o o' v v' K) : T2 o' o v' v K := fun i j x y => c j i y x

/-- `project_c1` (project.py:7-12) with both arguments given. -/
def projectC1 [CommRing K] [Fintype o] (p : f → o → K) (c1 : T1 o v K) : T1 f v K := fun x a => ∑ i, p x i * c1 i a

/-- `project_c2` (project.py:15-20) with both arguments given: `tensordot(p, c2, axes=1)` contracts the first axis only. -/
def projectC2 [CommRing K] [Fintype o] (p : f → o → K) (c2 : T2 o o' v v' K) : T2 f o' v v' K :=
  fun x j a b => ∑ i, p x i * c2 i j a b

/-- `projector.T`. -/
def tr (p : f → o → K) : o → f → K := fun i x => p x i

/-- `symmetrize_c2` (project.py:46-50). -/
def symmetrizeC2 [Field K] (c2 : T2 o o v v K) : T2 o o v v K := fun i j a b => (c2 i j a b + transp c2 i j a b) / 2

end Basic

section Restricted
variable {o v f K : Type} [Field K] [Fintype o] [Fintype f]

/-- `RCISD_WaveFunction` (cisd.py:25-30). `full`: `projector is None`. `proj`: the first occupied axis of the amplitudes lives in
the space of dimension `f` that the stored projector maps to. -/
inductive RCisd (f o v K : Type) where
  | full (c0 : K) (c1 : T1 o v K) (c2 : T2 o o v v K)
  | proj (p : f → o → K) (c0 : K) (c1 : T1 f v K) (c2 : T2 f o v v K)

/-- `RCCSD_WaveFunction` (ccsd.py:37-49), same conventions; `l1`, `l2` may be None. -/
inductive RCcsd (f o v K : Type) where
  | full (t1 : T1 o v K) (t2 : T2 o o v v K) (l1 : Option (T1 o v K)) (l2 : Option (T2 o o v v K))
  | proj (p : f → o → K) (t1 : T1 f v K) (t2 : T2 f o v v K) (l1 : Option (T1 f v K)) (l2 : Option (T2 f o v v K))

/-- `RCCSD_WaveFunction.project` (ccsd.py:109-116) of an unprojected wave function. -/
def RCcsd.project (p : f → o → K) (t1 : T1 o v K) (t2 : T2 o o v v K) (l1 : Option (T1 o v K)) (l2 : Option (T2 o o v v K)) :
    RCcsd f o v K :=
  .proj p (projectC1 p t1) (projectC2 p t2) (l1.map (projectC1 p)) (l2.map (projectC2 p))

/-- `RCCSD_WaveFunction.restore` (ccsd.py:136-147) with the stored projector. Without a projector `None.T` raises
AttributeError. `sym` symmetrises the doubles amplitudes. -/
def RCcsd.restore (sym : Bool) : RCcsd f o v K → Except PyErr (RCcsd f o v K)
  | .full _ _ _ _ => .error .attributeError
  | .proj p t1 t2 l1 l2 =>
    let s := fun c => if sym then symmetrizeC2 c else c
    .ok (.full (projectC1 (tr p) t1) (s (projectC2 (tr p) t2)) (l1.map (projectC1 (tr p)))
      (l2.map fun l => s (projectC2 (tr p) l)))

/-- `RCISD_WaveFunction.project` (cisd.py:32-37) of an unprojected wave function. -/
def RCisd.project (p : f → o → K) (c0 : K) (c1 : T1 o v K) (c2 : T2 o o v v K) : RCisd f o v K :=
  .proj p c0 (projectC1 p c1) (projectC2 p c2)

/-- `RCISD_WaveFunction.restore` (cisd.py:39-47) with the stored projector. -/
def RCisd.restore (sym : Bool) : RCisd f o v K → Except PyErr (RCisd f o v K)
  | .full _ _ _ => .error .attributeError
  | .proj p c0 c1 c2 =>
    let c2' := projectC2 (tr p) c2
    .ok (.full c0 (projectC1 (tr p) c1) (if sym then symmetrizeC2 c2' else c2'))

/-- `RCCSD_WaveFunction.as_cisd` (ccsd.py:176-182). -/
def RCcsd.asCisd (c0 : K) : RCcsd f o v K → Except PyErr (RCisd f o v K)
  | .full t1 t2 _ _ => .ok (.full c0 (fun i a => c0 * t1 i a) (fun i j a b => c0 * (t2 i j a b + outer t1 t1 i j a b)))
  | .proj _ _ _ _ _ => .error .notImplementedError

/-- `RCISD_WaveFunction.as_cisd` (cisd.py:59-64). -/
def RCisd.asCisd (c0 : Option K) (w : RCisd f o v K) : RCisd f o v K :=
  match c0 with
  | none => w
  | some c =>
    match w with
    | .full c0 c1 c2 => .full c (fun i a => c1 i a * c / c0) (fun i j a b => c2 i j a b * c / c0)
    | .proj p c0 c1 c2 => .proj p c (fun i a => c1 i a * c / c0) (fun i j a b => c2 i j a b * c / c0)

/-- The body of `RCISD_WaveFunction.as_ccsd` for an unprojected wave function (cisd.py:70-73): the lambda amplitudes are set to
the cluster amplitudes. -/
def ccsdOfCisd (c0 : K) (c1 : T1 o v K) (c2 : T2 o o v v K) : T1 o v K × T2 o o v v K :=
  let t1 := fun i a => c1 i a / c0
  (t1, fun i j a b => c2 i j a b / c0 - outer t1 t1 i j a b)

/-- `RCISD_WaveFunction.as_ccsd` (cisd.py:66-76): a projected wave function is restored first and projected afterwards. -/
def RCisd.asCcsd : RCisd f o v K → RCcsd f o v K
  | .full c0 c1 c2 =>
    let t := ccsdOfCisd c0 c1 c2
    .full t.1 t.2 (some t.1) (some t.2)
  | .proj p c0 c1 c2 =>
    let t := ccsdOfCisd c0 (projectC1 (tr p) c1) (symmetrizeC2 (projectC2 (tr p) c2))
    RCcsd.project p t.1 t.2 (some t.1) (some t.2)

/-- `RMP2_WaveFunction.as_cisd` (mp2.py:90-94), projected or not: `f` is the dimension of the first axis. -/
def mp2AsCisd (c0 : K) (t2 : T2 f o v v K) : K × T1 f v K × T2 f o v v K := (c0, fun _ _ => 0, fun i j a b => c0 * t2 i j a b)

/-- `RMP2_WaveFunction.as_ccsd` (mp2.py:96-99) of an unprojected wave function. -/
def mp2AsCcsd (t2 : T2 o o v v K) : RCcsd f o v K := .full (fun _ _ => 0) t2 (some fun _ _ => 0) (some t2)

end Restricted

section Unrestricted
variable {oa ob va vb fa fb K : Type} [Field K] [Fintype oa] [Fintype ob] [Fintype fa] [Fintype fb]

/-- Three stored spin blocks of a doubles amplitude: `(aa, ab, bb)`. -/
structure U3 (oa ob va vb K : Type) where
  aa : T2 oa oa va va K
  ab : T2 oa ob va vb K
  bb : T2 ob ob vb vb K

/-- Four stored spin blocks `(aa, ab, ba, bb)`, the first axis being of dimension `fa` (alpha) or `fb` (beta). -/
structure U4 (fa fb oa ob va vb K : Type) where
  aa : T2 fa oa va va K
  ab : T2 fa ob va vb K
  ba : T2 fb oa vb va K
  bb : T2 fb ob vb vb K

/-- Doubles amplitudes of an unprojected unrestricted wave function: `len(t2)` is 3 or 4 (ccsd.py:252-256, 332-336). -/
inductive UC2 (oa ob va vb K : Type) where
  | three (c : U3 oa ob va vb K)
  | four (c : U4 oa ob oa ob va vb K)

/-- Unprojected `UCISD_WaveFunction` (cisd.py:88-113). -/
structure UCisd (oa ob va vb K : Type) where
  c0 : K
  c1 : T1 oa va K × T1 ob vb K
  c2 : UC2 oa ob va vb K

/-- Unprojected `UCCSD_WaveFunction` (ccsd.py:227-260), amplitudes only. -/
structure UCcsd (oa ob va vb K : Type) where
  t1 : T1 oa va K × T1 ob vb K
  t2 : UC2 oa ob va vb K

/-- The `c2ba` / `t2ba` property (cisd.py:106-109, ccsd.py:253-256). -/
def UC2.ba : UC2 oa ob va vb K → T2 ob oa vb va K
  | .three c => transp c.ab
  | .four c => c.ba

/-- `UCCSD_WaveFunction.as_cisd` (ccsd.py:323-337) for `projector is None`. Note line 335: in four-block storage the beta-alpha
block is `c0 * t2ba` plus the outer product of the already scaled singles. -/
def UCcsd.asCisd (c0 : K) (w : UCcsd oa ob va vb K) : UCisd oa ob va vb K :=
  let t1a := w.t1.1
  let t1b := w.t1.2
  let c1a : T1 oa va K := fun i a => c0 * t1a i a
  let c1b : T1 ob vb K := fun i a => c0 * t1b i a
  let same {o v : Type} (t2 : T2 o o v v K) (t1 : T1 o v K) : T2 o o v v K :=
    fun i j a b => c0 * (t2 i j a b + outer t1 t1 i j a b - outerX t1 t1 i j a b)
  let mixed (t2 : T2 oa ob va vb K) : T2 oa ob va vb K := fun i j a b => c0 * (t2 i j a b + outer t1a t1b i j a b)
  ⟨c0, (c1a, c1b),
    match w.t2 with
    | .three t => .three ⟨same t.aa t1a, mixed t.ab, same t.bb t1b⟩
    | .four t => .four ⟨same t.aa t1a, mixed t.ab, fun i j a b => c0 * t.ba i j a b + outer c1b c1a i j a b, same t.bb t1b⟩⟩

/-- `UCISD_WaveFunction.as_cisd` (cisd.py:135-149). -/
def UCisd.asCisd (c0 : Option K) (w : UCisd oa ob va vb K) : UCisd oa ob va vb K :=
  match c0 with
  | none => w
  | some c =>
    let s {A B C D : Type} (x : T2 A B C D K) : T2 A B C D K := fun i j a b => x i j a b * c / w.c0
    ⟨c, (fun i a => w.c1.1 i a * c / w.c0, fun i a => w.c1.2 i a * c / w.c0),
      match w.c2 with
      | .three t => .three ⟨s t.aa, s t.ab, s t.bb⟩
      | .four t => .four ⟨s t.aa, s t.ab, s t.ba, s t.bb⟩⟩

/-- `UCISD_WaveFunction.as_ccsd` (cisd.py:151-170) for `projector is None`. Note line 164: in four-block storage the beta-alpha
block is computed from `c2ab`, whose axes have the alpha-beta dimensions. `same` says whether the array shapes permit this:
`some (g, h)` renames beta positions to alpha positions (equal numbers of alpha and beta orbitals); `none` stands for shapes
that numpy refuses to broadcast (ValueError). Dimensions of length 1, which numpy would broadcast, are not distinguished. -/
def UCisd.asCcsd (same : Option ((ob ≃ oa) × (vb ≃ va))) (w : UCisd oa ob va vb K) : Except PyErr (UCcsd oa ob va vb K) :=
  let t1a : T1 oa va K := fun i a => w.c1.1 i a / w.c0
  let t1b : T1 ob vb K := fun i a => w.c1.2 i a / w.c0
  let eq {o v : Type} (c2 : T2 o o v v K) (t1 : T1 o v K) : T2 o o v v K :=
    fun i j a b => c2 i j a b / w.c0 - outer t1 t1 i j a b + outerX t1 t1 i j a b
  let mixed (c2 : T2 oa ob va vb K) : T2 oa ob va vb K := fun i j a b => c2 i j a b / w.c0 - outer t1a t1b i j a b
  match w.c2 with
  | .three c => .ok ⟨(t1a, t1b), .three ⟨eq c.aa t1a, mixed c.ab, eq c.bb t1b⟩⟩
  | .four c =>
    match same with
    | none => .error .valueError
    | some (g, h) =>
      .ok ⟨(t1a, t1b), .four ⟨eq c.aa t1a, mixed c.ab,
        fun i j a b => c.ab (g i) (g.symm j) (h a) (h.symm b) / w.c0 - outer t1b t1a i j a b, eq c.bb t1b⟩⟩

/-- `project_uc2` (project.py:31-43) of unprojected blocks. Always four blocks. -/
def projectUC2 (p : (fa → oa → K) × (fb → ob → K)) (c2 : UC2 oa ob va vb K) : U4 fa fb oa ob va vb K :=
  match c2 with
  | .three c => ⟨projectC2 p.1 c.aa, projectC2 p.1 c.ab, projectC2 p.2 (transp c.ab), projectC2 p.2 c.bb⟩
  | .four c => ⟨projectC2 p.1 c.aa, projectC2 p.1 c.ab, projectC2 p.2 c.ba, projectC2 p.2 c.bb⟩

/-- `project_uc2` with the transposed projectors, applied to projected (four-block) amplitudes: the first step of `restore`
(ccsd.py:310, cisd.py:125). -/
def unprojectUC2 (p : (fa → oa → K) × (fb → ob → K)) (c : U4 fa fb oa ob va vb K) : U4 oa ob oa ob va vb K :=
  ⟨projectC2 (tr p.1) c.aa, projectC2 (tr p.1) c.ab, projectC2 (tr p.2) c.ba, projectC2 (tr p.2) c.bb⟩

/-- `symmetrize_uc2` (project.py:53-62). -/
def symmetrizeUC2 (c2 : UC2 oa ob va vb K) : U3 oa ob va vb K :=
  match c2 with
  | .three c => ⟨symmetrizeC2 c.aa, c.ab, symmetrizeC2 c.bb⟩
  | .four c => ⟨symmetrizeC2 c.aa, fun i j a b => (c.ab i j a b + transp c.ba i j a b) / 2, symmetrizeC2 c.bb⟩

/-- `restore` of projected unrestricted doubles (ccsd.py:307-318, cisd.py:122-130, mp2.py:159-167). -/
def restoreUC2 (p : (fa → oa → K) × (fb → ob → K)) (sym : Bool) (c : U4 fa fb oa ob va vb K) : UC2 oa ob va vb K :=
  let r := UC2.four (unprojectUC2 p c)
  if sym then .three (symmetrizeUC2 r) else r

/-- A `UCISD_WaveFunction` with a projector (cisd.py:115-120). -/
structure UPCisd (fa fb oa ob va vb K : Type) where
  p : (fa → oa → K) × (fb → ob → K)
  c0 : K
  c1 : T1 fa va K × T1 fb vb K
  c2 : U4 fa fb oa ob va vb K

/-- A `UCCSD_WaveFunction` with a projector (ccsd.py:298-305), amplitudes only. -/
structure UPCcsd (fa fb oa ob va vb K : Type) where
  p : (fa → oa → K) × (fb → ob → K)
  t1 : T1 fa va K × T1 fb vb K
  t2 : U4 fa fb oa ob va vb K

/-- `UCISD_WaveFunction.project` (cisd.py:115-120), from an unprojected wave function. -/
def UCisd.project (p : (fa → oa → K) × (fb → ob → K)) (w : UCisd oa ob va vb K) : UPCisd fa fb oa ob va vb K :=
  ⟨p, w.c0, (projectC1 p.1 w.c1.1, projectC1 p.2 w.c1.2), projectUC2 p w.c2⟩

/-- `UCCSD_WaveFunction.project` (ccsd.py:298-305), from an unprojected wave function. -/
def UCcsd.project (p : (fa → oa → K) × (fb → ob → K)) (w : UCcsd oa ob va vb K) : UPCcsd fa fb oa ob va vb K :=
  ⟨p, (projectC1 p.1 w.t1.1, projectC1 p.2 w.t1.2), projectUC2 p w.t2⟩

/-- `UCISD_WaveFunction.restore` (cisd.py:122-130). -/
def UPCisd.restore (sym : Bool) (w : UPCisd fa fb oa ob va vb K) : UCisd oa ob va vb K :=
  ⟨w.c0, (projectC1 (tr w.p.1) w.c1.1, projectC1 (tr w.p.2) w.c1.2), restoreUC2 w.p sym w.c2⟩

/-- `UCCSD_WaveFunction.restore` (ccsd.py:307-318). -/
def UPCcsd.restore (sym : Bool) (w : UPCcsd fa fb oa ob va vb K) : UCcsd oa ob va vb K :=
  ⟨(projectC1 (tr w.p.1) w.t1.1, projectC1 (tr w.p.2) w.t1.2), restoreUC2 w.p sym w.t2⟩

/-- `UCISD_WaveFunction.as_ccsd` (cisd.py:151-170) with a projector: restore (symmetrised), convert, project. -/
def UPCisd.asCcsd (same : Option ((ob ≃ oa) × (vb ≃ va))) (w : UPCisd fa fb oa ob va vb K) :
    Except PyErr (UPCcsd fa fb oa ob va vb K) :=
  ((w.restore true).asCcsd same).map (UCcsd.project w.p)

end Unrestricted

section Global
variable {o v K : Type} [Field K]

/-- The projected wave function stored with a fragment (ewf/fragment.py:258-275): MP2 and CCSD solutions are projected as they
are, FCI solutions are converted to CISD first. -/
inductive Pwf (f o v K : Type) where
  | mp2 (p : f → o → K) (t2 : T2 f o v v K)
  | ccsd (w : RCcsd f o v K)
  | cisd (w : RCisd f o v K)

/-- The amplitudes of `pwf.restore().as_ccsd()` (amplitudes.py:31, 74): `(t1, t2, l1, l2)`. MP2: mp2.py:77-85, 96-99. CCSD:
`as_ccsd` is the identity (ccsd.py:184-185). CISD: cisd.py:39-47, 66-76. `restore` always yields an unprojected wave function. -/
def Pwf.restoredCcsd {f o v : Type} [Fintype f] [Fintype o] (w : Pwf f o v K) :
    Except PyErr (T1 o v K × T2 o o v v K × Option (T1 o v K) × Option (T2 o o v v K)) :=
  let get : RCcsd f o v K → Except PyErr (T1 o v K × T2 o o v v K × Option (T1 o v K) × Option (T2 o o v v K))
    | .full t1 t2 l1 l2 => .ok (t1, t2, l1, l2)
    | .proj _ _ _ _ _ => .error .other
  match w with
  | .mp2 p t2 => get (mp2AsCcsd (symmetrizeC2 (projectC2 (tr p) t2)))
  | .ccsd w => w.restore true >>= get
  | .cisd w => w.restore true >>= fun r => get r.asCcsd

/-- What the loops of `ewf/amplitudes.py` read from a fragment of the restricted code: overlaps `ro = mo[occ]|cluster[occ]`,
`rv = mo[vir]|cluster[vir]`, the projected wave function, the option `t_as_lambda`. -/
structure Frag (o v K : Type) where
  {f : Type}
  {co : Type}
  {cv : Type}
  [ff : Fintype f]
  [fo : Fintype co]
  [fv : Fintype cv]
  ro : o → co → K
  rv : v → cv → K
  pwf : Pwf f co cv K
  tAsLambda : Bool := false

attribute [instance] Frag.ff Frag.fo Frag.fv

/-- `dot(ro, t1x, rv.T)` (amplitudes.py:40). -/
def backT1 {co cv : Type} [Fintype co] [Fintype cv] (ro : o → co → K) (rv : v → cv → K) (t : T1 co cv K) : T1 o v K :=
  fun i a => ∑ k, ∑ c, ro i k * t k c * rv a c

/-- `einsum("ijab,Ii,Jj,Aa,Bb->IJAB", t2x, ro, ro, rv, rv)` (amplitudes.py:84). -/
def backT2 {co cv : Type} [Fintype co] [Fintype cv] (ro : o → co → K) (rv : v → cv → K) (t : T2 co co cv cv K) :
    T2 o o v v K :=
  fun i j a b => ∑ k, ∑ l, ∑ c, ∑ d, t k l c d * ro i k * ro j l * rv a c * rv b d

/-- One pass of the loop body of `get_global_t1_rhf` (amplitudes.py:31-40), `for_dm2=False`, for a fragment that is not a
symmetry parent of others (the loop over symmetry children then visits the fragment itself only). A missing lambda amplitude
raises NotCalculatedError, a subclass of AttributeError. -/
def Frag.t1Contrib (getLambda : Bool) (x : Frag o v K) : Except PyErr (T1 o v K) := do
  let w ← x.pwf.restoredCcsd
  match (if getLambda && !x.tAsLambda then w.2.2.1 else some w.1) with
  | none => .error .attributeError
  | some t => .ok (backT1 x.ro x.rv t)

/-- One pass of the loop body of `get_global_t2_rhf` (amplitudes.py:74-84), `for_dm2=False`. -/
def Frag.t2Contrib (getLambda : Bool) (x : Frag o v K) : Except PyErr (T2 o o v v K) := do
  let w ← x.pwf.restoredCcsd
  match (if getLambda && !x.tAsLambda then w.2.2.2 else some w.2.1) with
  | none => .error .attributeError
  | some t => .ok (backT2 x.ro x.rv t)

/-- `get_global_t1_rhf` (amplitudes.py:7-46): the contributing fragments in order, one MPI process, `ao_basis=False`. -/
def globalT1 (getLambda : Bool) (l : List (Frag o v K)) : Except PyErr (T1 o v K) :=
  l.foldlM (fun acc x => do let c ← x.t1Contrib getLambda; pure fun i a => acc i a + c i a) (fun _ _ => 0)

/-- `get_global_t2_rhf` (amplitudes.py:49-92), same restrictions. -/
def globalT2 (getLambda : Bool) (l : List (Frag o v K)) : Except PyErr (T2 o o v v K) :=
  l.foldlM (fun acc x => do let c ← x.t2Contrib getLambda; pure fun i j a b => acc i j a b + c i j a b) (fun _ _ _ _ => 0)

end Global

end Vayesta.Amplitudes
