import Verif.Model.Blocks
import Mathlib.Data.Matrix.Mul
import Mathlib.Data.Matrix.Basic
import Mathlib.Algebra.Order.Ring.Abs
import Mathlib.Algebra.Field.Basic

/-! Tailoring and external correction of CCSD amplitudes with those of other fragments (`vayesta/solver/coupling.py`,
`vayesta/solver/ext_ccsd.py`).

Simplifications: exact arithmetic; four-index amplitudes `t2[i,j,a,b]` are matrices with row `(i,j)` and column `(a,b)`; log messages
are dropped, but variables which they read and which may be undefined are not. -/

namespace Vayesta.Tailor

/-- Four-index amplitudes. -/
abbrev Amp2 (o o' v v' : Nat) (K : Type) := Matrix (Fin o × Fin o') (Fin v × Fin v') K

section
variable {K : Type} [Field K] {o o' v v' p p' q q' : Nat}

/-- `transform_amplitude` for T1 (coupling.py:26-27): `einsum("ia,ix,ay->xy", t, u_occ, u_vir)`. With `inverse=True` the transposed
matrices are passed (coupling.py:16-20). -/
def transform1 (t : Matrix (Fin o) (Fin v) K) (uo : Matrix (Fin o) (Fin p) K) (uv : Matrix (Fin v) (Fin q) K) :
    Matrix (Fin p) (Fin q) K :=
  Matrix.of fun x y => ∑ i, ∑ a, t i a * uo i x * uv a y

/-- `transform_amplitude` for T2 (coupling.py:29-30): `einsum("ijab,ix,jy,az,bw->xyzw", t, u_occ, u_occ2, u_vir, u_vir2)`. -/
def transform2 (t : Amp2 o o' v v' K) (uo : Matrix (Fin o) (Fin p) K) (uv : Matrix (Fin v) (Fin q) K)
    (uo2 : Matrix (Fin o') (Fin p') K) (uv2 : Matrix (Fin v') (Fin q') K) : Amp2 p p' q q' K :=
  Matrix.of fun xy zw => ∑ i, ∑ j, ∑ a, ∑ b, t (i, j) (a, b) * uo i xy.1 * uo2 j xy.2 * uv a zw.1 * uv2 b zw.2

/-- `t2.transpose(1, 0, 3, 2)`. -/
def swapPairs (t : Amp2 o o' v v' K) : Amp2 o' o v' v K := Matrix.of fun ji ba => t (ji.2, ji.1) (ba.2, ba.1)

/-- `einsum("xi,i...->x...", proj, t2)` (coupling.py:70). -/
def projFirst (P : Matrix (Fin p) (Fin o) K) (t : Amp2 o o' v v' K) : Amp2 p o' v v' K :=
  Matrix.of fun xj ab => ∑ i, P xj.1 i * t (i, xj.2) ab

/-- `einsum("xj,ij...->ix...", proj[1], t2[1])` (coupling.py:83). -/
def projSecond (P : Matrix (Fin p) (Fin o') K) (t : Amp2 o o' v v' K) : Amp2 o p v v' K :=
  Matrix.of fun ix ab => ∑ j, P ix.2 j * t (ix.1, j) ab

/-- `einsum("xi,yj,ij...->xy...", proj, proj, t2)` (coupling.py:73, 85). -/
def projBoth (P : Matrix (Fin p) (Fin o) K) (P' : Matrix (Fin p') (Fin o') K) (t : Amp2 o o' v v' K) : Amp2 p p' v v' K :=
  Matrix.of fun xy ab => ∑ i, ∑ j, P xy.1 i * P' xy.2 j * t (i, j) ab

/-- `project_t2_rspin` (coupling.py:66-74). -/
def projectSame (projectors : Int) (P : Matrix (Fin o) (Fin o) K) (t : Amp2 o o v v K) : Except PyErr (Amp2 o o v v K) :=
  if projectors = 0 then .ok t
  else if projectors = 1 then .ok (Matrix.of fun ij ab => (projFirst P t ij ab + swapPairs (projFirst P t) ij ab) / 2)
  else if projectors = 2 then .ok (projBoth P P t)
  else .error .valueError

/-- The mixed-spin block in `project_t2_uspin` (coupling.py:77-87). -/
def projectMixed (projectors : Int) (P : Matrix (Fin o) (Fin o) K) (P' : Matrix (Fin o') (Fin o') K) (t : Amp2 o o' v v' K) :
    Except PyErr (Amp2 o o' v v' K) :=
  if projectors = 0 then .ok t
  else if projectors = 1 then .ok (Matrix.of fun ij ab => (projFirst P t ij ab + projSecond P' t ij ab) / 2)
  else if projectors = 2 then .ok (projBoth P P' t)
  else .error .valueError

/-- `project_t2_uspin` (coupling.py:77-90): the same-spin blocks are projected first. -/
def projectU (projectors : Int) (P : Matrix (Fin o) (Fin o) K) (P' : Matrix (Fin o') (Fin o') K)
    (t : Amp2 o o v v K × Amp2 o o' v v' K × Amp2 o' o' v' v' K) :
    Except PyErr (Amp2 o o v v K × Amp2 o o' v v' K × Amp2 o' o' v' v' K) :=
  if projectors = 0 then .ok t
  else do
    let aa ← projectSame projectors P t.1
    let bb ← projectSame projectors P' t.2.2
    let ab ← projectMixed projectors P P' t.2.1
    return (aa, ab, bb)

end

section Fragments
variable {K : Type} [Field K] [LinearOrder K] {nao : Nat}

/-- Orbitals of a fragment with its cluster, one spin channel: `cluster.c_active_occ`, `cluster.c_active_vir` and `c_frag`. -/
structure Orbs (nao : Nat) (K : Type) where
  no : Nat
  nv : Nat
  nf : Nat
  occ : Matrix (Fin nao) (Fin no) K
  vir : Matrix (Fin nao) (Fin nv) K
  frag : Matrix (Fin nao) (Fin nf) K

/-- `rxy_occ` (coupling.py:184, 206): `cx_occ.T @ ovlp @ cy_occ`. -/
def rOcc (S : Matrix (Fin nao) (Fin nao) K) (x y : Orbs nao K) : Matrix (Fin x.no) (Fin y.no) K := x.occ.transpose * S * y.occ

/-- `rxy_vir` (coupling.py:185, 207). -/
def rVir (S : Matrix (Fin nao) (Fin nao) K) (x y : Orbs nao K) : Matrix (Fin x.nv) (Fin y.nv) K := x.vir.transpose * S * y.vir

/-- The fragment projector in occupied cluster orbitals (coupling.py:233-234, 625-626): `get_overlap("frag|cluster-occ")` is
`c_frag.T @ ovlp @ c_active_occ` (`vayesta/core/qemb/fragment.py:309-352`). -/
def fragProjOcc (S : Matrix (Fin nao) (Fin nao) K) (y : Orbs nao K) : Matrix (Fin y.no) (Fin y.no) K :=
  (y.frag.transpose * S * y.occ).transpose * (y.frag.transpose * S * y.occ)

/-- All elements below a bound in magnitude. -/
def allBelow {m n : Nat} (tol : K) (r : Matrix (Fin m) (Fin n) K) : Bool := decide (∀ i j, |r i j| < tol)

/-- The test whether a fragment is skipped, restricted (coupling.py:209-217): the smaller of the largest elements of `rxy_occ` and
`rxy_vir` is below `ovlp_tol`. The largest element of an empty array is a ValueError. -/
def skipR (S : Matrix (Fin nao) (Fin nao) K) (tol : K) (x y : Orbs nao K) : Except PyErr Bool :=
  if x.no * y.no = 0 ∨ x.nv * y.nv = 0 then .error .valueError
  else .ok (allBelow tol (rOcc S x y) || allBelow tol (rVir S x y))

/-- The same, unrestricted (coupling.py:211-214). -/
def skipU (S : Matrix (Fin nao) (Fin nao) K) (tol : K) (xa xb ya yb : Orbs nao K) : Except PyErr Bool :=
  if xa.no * ya.no = 0 ∨ xb.no * yb.no = 0 ∨ xa.nv * ya.nv = 0 ∨ xb.nv * yb.nv = 0 then .error .valueError
  else .ok ((allBelow tol (rOcc S xa ya) && allBelow tol (rOcc S xb yb))
    || (allBelow tol (rVir S xa ya) && allBelow tol (rVir S xb yb)))

/-- T1 correction of one fragment (coupling.py:223-225, 235-236, 241-242), one spin channel. -/
def delta1 (S : Matrix (Fin nao) (Fin nao) K) (project : Int) (x y : Orbs nao K) (ty : Matrix (Fin y.no) (Fin y.nv) K)
    (t : Matrix (Fin x.no) (Fin x.nv) K) : Matrix (Fin x.no) (Fin x.nv) K :=
  let d := ty - transform1 t (rOcc S x y) (rVir S x y)
  let d := if project = 0 then d else fragProjOcc S y * d
  transform1 d (rOcc S x y).transpose (rVir S x y).transpose

/-- A restricted fragment with its amplitudes (`results.wf.as_ccsd()`). -/
structure FragR (nao : Nat) (K : Type) extends Orbs nao K where
  t1 : Matrix (Fin no) (Fin nv) K
  t2 : Amp2 no no nv nv K

/-- T2 correction of one fragment (coupling.py:226-228, 237-238, 243-244), restricted. -/
def delta2R (S : Matrix (Fin nao) (Fin nao) K) (project : Int) (x : Orbs nao K) (y : FragR nao K) (t : Amp2 x.no x.no x.nv x.nv K) :
    Except PyErr (Amp2 x.no x.no x.nv x.nv K) :=
  let ro := rOcc S x y.toOrbs
  let rv := rVir S x y.toOrbs
  let d := y.t2 - transform2 t ro rv ro rv
  (projectSame project (fragProjOcc S y.toOrbs) d).map fun d =>
    transform2 d ro.transpose rv.transpose ro.transpose rv.transpose

/-- `tailor_with_fragments` (coupling.py:148-274), restricted: the corrections `dt1`, `dt2` of all fragments, both computed from the
amplitudes passed in. -/
def deltasR (S : Matrix (Fin nao) (Fin nao) K) (project : Int) (tol : K) (x : Orbs nao K) (t1 : Matrix (Fin x.no) (Fin x.nv) K)
    (t2 : Amp2 x.no x.no x.nv x.nv K) : List (FragR nao K) →
    Except PyErr (Matrix (Fin x.no) (Fin x.nv) K × Amp2 x.no x.no x.nv x.nv K) →
    Except PyErr (Matrix (Fin x.no) (Fin x.nv) K × Amp2 x.no x.no x.nv x.nv K)
  | [], acc => acc
  | y :: l, acc => deltasR S project tol x t1 t2 l (do
      let a ← acc
      let skip ← skipR S tol x y.toOrbs
      if skip then return a
      let d2 ← delta2R S project x y t2
      return (a.1 + delta1 S project x y.toOrbs y.t1 t1, a.2 + d2))

/-- The exception raised if one of `tailor_t1`, `tailor_t2` is switched off, restricted: the log message of the first fragment that
is not skipped (coupling.py:246-253), or the last one (coupling.py:272), reads an undefined variable (NameError), unless another
exception comes first. -/
def flagsOffR (S : Matrix (Fin nao) (Fin nao) K) (project : Int) (tol : K) (tailorT2 : Bool) (x : Orbs nao K)
    (t2 : Amp2 x.no x.no x.nv x.nv K) : List (FragR nao K) → PyErr
  | [] => .nameError
  | y :: l =>
    match skipR S tol x y.toOrbs with
    | .error e => e
    | .ok true => flagsOffR S project tol tailorT2 x t2 l
    | .ok false =>
      if tailorT2 then
        match delta2R S project x y t2 with
        | .error e => e
        | .ok _ => .nameError
      else .nameError

/-- The amplitudes after tailoring (coupling.py:254-272), restricted. -/
def tailorR (S : Matrix (Fin nao) (Fin nao) K) (project : Int) (tol : K) (tailorT1 tailorT2 : Bool) (x : Orbs nao K)
    (l : List (FragR nao K)) (t1 : Matrix (Fin x.no) (Fin x.nv) K) (t2 : Amp2 x.no x.no x.nv x.nv K) :
    Except PyErr (Matrix (Fin x.no) (Fin x.nv) K × Amp2 x.no x.no x.nv x.nv K) :=
  if tailorT1 && tailorT2 then (deltasR S project tol x t1 t2 l (.ok (0, 0))).map fun d => (t1 + d.1, t2 + d.2)
  else .error (flagsOffR S project tol tailorT2 x t2 l)

/-- An unrestricted fragment with its amplitudes. -/
structure FragU (nao : Nat) (K : Type) where
  a : Orbs nao K
  b : Orbs nao K
  t1a : Matrix (Fin a.no) (Fin a.nv) K
  t1b : Matrix (Fin b.no) (Fin b.nv) K
  t2aa : Amp2 a.no a.no a.nv a.nv K
  t2ab : Amp2 a.no b.no a.nv b.nv K
  t2bb : Amp2 b.no b.no b.nv b.nv K

/-- Unrestricted amplitudes of a cluster. -/
structure AmpsU (a b : Orbs nao K) where
  t1a : Matrix (Fin a.no) (Fin a.nv) K
  t1b : Matrix (Fin b.no) (Fin b.nv) K
  t2aa : Amp2 a.no a.no a.nv a.nv K
  t2ab : Amp2 a.no b.no a.nv b.nv K
  t2bb : Amp2 b.no b.no b.nv b.nv K

/-- Sum of amplitudes (`spinalg.add`). -/
def AmpsU.add {a b : Orbs nao K} (s t : AmpsU a b) : AmpsU a b :=
  ⟨s.t1a + t.t1a, s.t1b + t.t1b, s.t2aa + t.t2aa, s.t2ab + t.t2ab, s.t2bb + t.t2bb⟩

/-- Amplitudes zero (`spinalg.zeros_like`). -/
def AmpsU.zero {a b : Orbs nao K} : AmpsU a b := ⟨0, 0, 0, 0, 0⟩

/-- Correction by one fragment, unrestricted (coupling.py:221-244). -/
def deltaU (S : Matrix (Fin nao) (Fin nao) K) (project : Int) (xa xb : Orbs nao K) (y : FragU nao K) (t : AmpsU xa xb) :
    Except PyErr (AmpsU xa xb) :=
  let roa := rOcc S xa y.a
  let rva := rVir S xa y.a
  let rob := rOcc S xb y.b
  let rvb := rVir S xb y.b
  let d := (y.t2aa - transform2 t.t2aa roa rva roa rva, y.t2ab - transform2 t.t2ab roa rva rob rvb,
    y.t2bb - transform2 t.t2bb rob rvb rob rvb)
  (projectU project (fragProjOcc S y.a) (fragProjOcc S y.b) d).map fun d =>
    ⟨delta1 S project xa y.a y.t1a t.t1a, delta1 S project xb y.b y.t1b t.t1b,
      transform2 d.1 roa.transpose rva.transpose roa.transpose rva.transpose,
      transform2 d.2.1 roa.transpose rva.transpose rob.transpose rvb.transpose,
      transform2 d.2.2 rob.transpose rvb.transpose rob.transpose rvb.transpose⟩

/-- All corrections, unrestricted (coupling.py:200-253). -/
def deltasU (S : Matrix (Fin nao) (Fin nao) K) (project : Int) (tol : K) (xa xb : Orbs nao K) (t : AmpsU xa xb) :
    List (FragU nao K) → Except PyErr (AmpsU xa xb) → Except PyErr (AmpsU xa xb)
  | [], acc => acc
  | y :: l, acc => deltasU S project tol xa xb t l (do
      let s ← acc
      let skip ← skipU S tol xa xb y.a y.b
      if skip then return s
      let d ← deltaU S project xa xb y t
      return s.add d)

/-- Tailoring, unrestricted, with both T1 and T2 (coupling.py:254-271). -/
def tailorU (S : Matrix (Fin nao) (Fin nao) K) (project : Int) (tol : K) (xa xb : Orbs nao K) (l : List (FragU nao K))
    (t : AmpsU xa xb) : Except PyErr (AmpsU xa xb) :=
  (deltasU S project tol xa xb t l (.ok .zero)).map t.add

end Fragments

/-! ### External corrections -/

/-- Type of a correction. -/
inductive CorrType where
  | tailor
  | deltaTailor
  | external
  deriving DecidableEq

section Ext
variable {K : Type} [Field K] {nao : Nat}

/-- One correction as used by `externally_correct` (coupling.py:605-660): its type, the number of projectors, the fragment, the residuals
or amplitude differences obtained from it (`_get_delta_t_for_extcorr`, `_get_delta_t_for_delta_tailor`; parameters here) and the already
transformed contribution of `_get_delta_t2_from_t3v` (coupling.py:645-652; zero unless `low_level_coul` and type `external`). -/
structure Corr (nao : Nat) (K : Type) (x : Orbs nao K) where
  kind : CorrType
  projectors : Int
  frag : FragR nao K
  t3v : Amp2 x.no x.no x.nv x.nv K

/-- The corrections of one fragment, projected and transformed to cluster `x` (coupling.py:617-652). -/
def corrDelta (S : Matrix (Fin nao) (Fin nao) K) (x : Orbs nao K) (c : Corr nao K x) :
    Except PyErr (Matrix (Fin x.no) (Fin x.nv) K × Amp2 x.no x.no x.nv x.nv K) := do
  let P := fragProjOcc S c.frag.toOrbs
  let ro := (rOcc S x c.frag.toOrbs).transpose
  let rv := (rVir S x c.frag.toOrbs).transpose
  let d1 := if c.projectors = 0 then c.frag.t1 else P * c.frag.t1
  let d2 ← if c.projectors = 0 then .ok c.frag.t2 else projectSame c.projectors P c.frag.t2
  return (transform1 d1 ro rv, transform2 d2 ro rv ro rv + (if c.kind = .external then c.t3v else 0))

/-- Sum over corrections (coupling.py:605-660) and the variable `corrtype` after the loop. -/
def corrLoop (S : Matrix (Fin nao) (Fin nao) K) (x : Orbs nao K) :
    List (Corr nao K x) → Option CorrType → Matrix (Fin x.no) (Fin x.nv) K × Amp2 x.no x.no x.nv x.nv K →
    Except PyErr (Option CorrType × Matrix (Fin x.no) (Fin x.nv) K × Amp2 x.no x.no x.nv x.nv K)
  | [], k, acc => .ok (k, acc)
  | c :: l, _, acc =>
    if c.kind = .tailor then .error .valueError
    else (corrDelta S x c).bind fun d => corrLoop S x l (some c.kind) (acc.1 + d.1, acc.2 + d.2)

/-- `externally_correct`, restricted (coupling.py:593-690): after the loop, the sum is divided by energy denominators if the last
correction is of type `external`. `eo`, `ev` are the orbital energies. Returns what the callback adds to T1 and T2. -/
def externallyCorrect (S : Matrix (Fin nao) (Fin nao) K) (x : Orbs nao K) (eo : Fin x.no → K) (ev : Fin x.nv → K)
    (l : List (Corr nao K x)) : Except PyErr (Matrix (Fin x.no) (Fin x.nv) K × Amp2 x.no x.no x.nv x.nv K) :=
  (corrLoop S x l none (0, 0)).bind fun r =>
    match r.1 with
    | none => .error .nameError
    | some k =>
      if k = .external then
        .ok (Matrix.of fun i a => r.2.1 i a / (eo i - ev a),
          Matrix.of fun ij ab => r.2.2 ij ab / ((eo ij.1 - ev ab.1) + (eo ij.2 - ev ab.2)))
      else .ok r.2

/-- What `get_callback` of the extCCSD solver does (ext_ccsd.py:16-34): nothing, tailoring (with a number of projectors), or external
correction. -/
inductive Callback where
  | none
  | tailor (ids : List Nat) (projectors : Int)
  | external (n : Nat)
  deriving DecidableEq

/-- `extRCCSD_Solver.get_callback` (ext_ccsd.py:16-34). Corrections are (fragment, type, projectors). -/
def getCallback (l : List (Nat × CorrType × Int)) : Except PyErr Callback :=
  let tailors := l.filter fun c => c.2.1 = .tailor
  let externals := l.filter fun c => c.2.1 = .external ∨ c.2.1 = .deltaTailor
  if tailors ≠ [] ∧ externals ≠ [] then .error .notImplementedError
  else match tailors with
    | t :: ts =>
      if (t :: ts).any fun c => c.2.2 ≠ t.2.2 then .error .notImplementedError
      else .ok (.tailor ((t :: ts).map (·.1)) t.2.2)
    | [] => if externals ≠ [] then .ok (.external externals.length) else .ok .none

end Ext

end Vayesta.Tailor
