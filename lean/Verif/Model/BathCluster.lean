import Verif.Model.ActSpace
import Verif.Model.Bno
import Verif.Model.Orbitals
import Verif.Model.Options

/-! Model of the construction of bath and cluster orbitals of a spin-restricted fragment: `_get_bath_option`, `make_bath` and `make_cluster`
(`vayesta/core/qemb/fragment.py:856-973`), the bath types (`vayesta/core/bath/{full,ewdmet,r2bath,bno}.py`) and the recursive singular value
decomposition (`vayesta/core/linalg.py:8-80`). Orbitals are lists of columns in the atomic orbital basis. Arithmetic is exact. The eigenvalue
solver, the singular value decomposition and the square root are parameters, and so are the correlated density matrices of the MP2 and RPA baths,
the DMET orbitals and the matrices of the mean-field. -/

namespace Vayesta.BathCluster

open Vayesta.Lowdin Vayesta.ActSpace Matrix

variable {K : Type} [Field K] [LinearOrder K]

/-- `dot(c, r)` for the columns `c`. -/
def rot {a n : Nat} (c : Fin n → Col a K) (r : Matrix (Fin n) (Fin n) K) : Fin n → Col a K := fun k => ∑ i, r i k • c i

/-- `dot(c, r)`. -/
def rotate {a : Nat} (c : List (Col a K)) (r : Matrix (Fin c.length) (Fin c.length) K) : List (Col a K) := List.ofFn (rot c.get r)

/-- `dot(c.T, m, d)`. -/
def between {a p q : Nat} (m : Matrix (Fin a) (Fin a) K) (c : Fin p → Col a K) (d : Fin q → Col a K) : Matrix (Fin p) (Fin q) K :=
  Matrix.of fun i j => c i ⬝ᵥ (m *ᵥ d j)

/-- `c[:, :n]`. -/
def first {a q : Nat} (n : Nat) (c : Fin q → Col a K) : Fin (min n q) → Col a K := fun i => c ⟨i.1, by omega⟩

/-- `c[:, n:]`. -/
def after {a q : Nat} (n : Nat) (c : Fin q → Col a K) : Fin (q - n) → Col a K := fun i => c ⟨n + i.1, by omega⟩

/-- `fix_orbital_sign` (util.py:713-727) on one column. -/
def fixCol {a : Nat} (v : Col a K) : Col a K := colSign (Matrix.of fun i (_ : Unit) => v i) () • v

/-- Result of `np.linalg.svd`: `u`, singular values, `vh`. -/
structure Svd (p q : Nat) (K : Type) where
  u : Matrix (Fin p) (Fin p) K
  s : List K
  vh : Matrix (Fin q) (Fin q) K

/-- A column with its order (`none` for `np.inf`) and singular value. -/
structure Coupled (a : Nat) (K : Type) where
  col : Col a K
  order : Option Nat
  sv : K

/-- The columns `env` which are not coupled (linalg.py:33-34). -/
def uncoupled {a q : Nat} (env : Fin q → Col a K) : List (Coupled a K) := List.ofFn fun i => ⟨env i, none, 0⟩

/-- `recursive_block_svd` (linalg.py:8-80). The first argument is the number of iterations left, `order` the next order, `low` and `env` the
columns of `coeff` in the slices of that name. The result lists the columns of `coeff` after the first `n`, with orders and singular values.
Columns before the slice `low` are never read again. The assertions on the sizes are kept, that on the orthogonality of the result is not
(it is a theorem). The row slice of line 73 is left out: the rows it removes are zero (also a theorem). -/
def blockSvd {a : Nat} (svd : (p q : Nat) → Matrix (Fin p) (Fin q) K → Svd p q K) (tol : K) (m : Matrix (Fin a) (Fin a) K) :
    Nat → Nat → {p q : Nat} → (Fin p → Col a K) → (Fin q → Col a K) → Except PyErr (List (Coupled a K))
  | 0, _, _, _, _, env => .ok (uncoupled env)
  | fuel + 1, order, p, q, low, env =>
    if p = 0 ∨ q = 0 then .error .assertionError
    else
      let g := svd p q (between m low env)
      let ncpl := (g.s.filter fun x => decide (tol ≤ x)).length
      if ncpl = 0 then .ok (uncoupled env)
      else
        let env' := rot env g.vhᵀ
        let new := List.ofFn fun i => (⟨first ncpl env' i, some order, g.s.getD i.1 0⟩ : Coupled a K)
        if q ≤ ncpl then .ok new
        else
          match blockSvd svd tol m fuel (order + 1) (first ncpl env') (after ncpl env') with
          | .error e => .error e
          | .ok l => .ok (new ++ l)

/-- Column `i` of the identity matrix. -/
def unit {n : Nat} (i : Fin n) : Col n K := fun j => if j = i then 1 else 0

/-- `dot(mo, x)` for a column `x`. -/
def combine {a n : Nat} (mo : Fin n → Col a K) (x : Col n K) : Col a K := ∑ i, x i • mo i

/-- `EwDMET_Bath_RHF._make_svd` (ewdmet.py:41-53) for a non-empty environment. `np.dot(c_env, r_svd)` is written as `dot(mo, ·)` of the full
columns, whose first `n_frag` rows are zero. -/
def ewdmetKernel {a nf ne : Nat} (svd : (p q : Nat) → Matrix (Fin p) (Fin q) K → Svd p q K) (tol : K) (maxOrder : Nat)
    (fock : Matrix (Fin a) (Fin a) K) (cFrag : Fin nf → Col a K) (cEnv : Fin ne → Col a K) : Except PyErr (List (Coupled a K)) :=
  let mo := Fin.append cFrag cEnv
  match blockSvd svd tol (between fock mo mo) maxOrder 1 (fun i : Fin nf => unit (Fin.castAdd ne i)) (fun i : Fin ne => unit (Fin.natAdd nf i)) with
  | .error e => .error e
  | .ok l => .ok (l.map fun x => ⟨combine mo x.col, x.order, x.sv⟩)

/-- `orders <= order` for one entry. -/
def orderLe (order : Int) (x : Option Nat) : Bool := match x with | none => false | some k => decide ((k : Int) ≤ order)

/-- Values of bath options. -/
inductive Val (K : Type)
  | none
  | bool (b : Bool)
  | int (n : Int)
  | num (x : K)
  | str (s : String)

/-- `isinstance`-free use of an option as a number; `none` for anything without arithmetic. Booleans are the numbers 0 and 1. -/
def Val.asNum : Val K → Option K
  | .bool b => some (if b then 1 else 0)
  | .int n => some n
  | .num x => some x
  | _ => Option.none

/-- Truth value. -/
def Val.truthy : Val K → Bool
  | .none => false
  | .bool b => b
  | .int n => n != 0
  | .num x => !decide (x = 0)
  | .str s => s != ""

/-- The two orbital types. -/
inductive Occ
  | occ
  | vir
  deriving DecidableEq

/-- `"%s_%s" % (key, occtype[:3])`. -/
def specific (key : String) : Occ → String
  | .occ => key ++ "_occ"
  | .vir => key ++ "_vir"

/-- `_get_bath_option` (fragment.py:856-862). -/
def getOption (opts : List (String × Val K)) (key : String) (o : Occ) : Except PyErr (Val K) :=
  match opts.lookup (specific key o) with
  | some (.none) | Option.none =>
    match opts.lookup key with
    | Option.none => .error .keyError
    | some v => .ok v
  | some v => .ok v

/-- What the construction uses of the fragment, its DMET bath and the mean-field. `corrDm` is the correlated density matrix in the environment
orbitals computed by the MP2 (`bno.py:470-507`) and RPA (`rpa.py:21-102`) bath, for the given bath type. -/
structure Data (a : Nat) (K : Type) where
  cFrag : List (Col a K)
  cluster : Occ → List (Col a K)
  env : Occ → List (Col a K)
  dmetThreshold : K
  ovlp : Matrix (Fin a) (Fin a) K
  dm1 : Matrix (Fin a) (Fin a) K
  fock : Matrix (Fin a) (Fin a) K
  fockBath : Matrix (Fin a) (Fin a) K
  r2 : Matrix (Fin a) (Fin a) K
  natom : Nat
  nelecCluster : K
  corrDm : String → (o : Occ) → Matrix (Fin (env o).length) (Fin (env o).length) K

/-- The solvers. `negTol` is `1e-13` (r2bath.py:93) and `bohr` the constant `BOHR`. -/
structure Solvers (K : Type) where
  eigh : (n : Nat) → Matrix (Fin n) (Fin n) K → Eig (Fin n) K
  svd : (p q : Nat) → Matrix (Fin p) (Fin q) K → Svd p q K
  sqrt : K → K
  negTol : K
  bohr : K

/-- Bath objects. -/
inductive Factory (a : Nat) (K : Type)
  | none
  | full
  | ewdmet (l : List (Coupled a K))
  | r2 (coeff : List (Col a K)) (eig : List K)
  | bno (coeff : List (Col a K)) (occup : List K)

/-- `R2_Bath_RHF.__init__` and `kernel` (r2bath.py:51-103): NotImplementedError unless the fragment has one atom, RuntimeError for negative
eigenvalues. Symmetrising the matrix (line 74) is left out. -/
def r2Kernel {a : Nat} (sol : Solvers K) (d : Data a K) (o : Occ) : Except PyErr (Factory a K) :=
  if d.natom ≠ 1 then .error .notImplementedError
  else
    let g := sol.eigh _ (between d.r2 (d.env o).get (d.env o).get)
    if (List.ofFn g.val).any fun e => decide (e < -sol.negTol) then .error .runtimeError
    else .ok (.r2 (rotate (d.env o) g.vec) (List.ofFn fun k => sol.sqrt (max (g.val k) 0)))

/-- `_diagonalize_dm` (bno.py:249-254) and the orbitals of `make_bno_coeff` (bno.py:506-511, rpa.py:102-107): eigenvectors in reverse order. For an
empty environment (bno.py:100-101) nothing is computed, with the same result. -/
def bnoKernel {a : Nat} (sol : Solvers K) (d : Data a K) (btype : String) (o : Occ) : Factory a K :=
  let g := sol.eigh _ (d.corrDm btype o)
  .bno ((rotate (d.env o) (Matrix.of fun i k => g.vec i k.rev)).map fixCol) (List.ofFn fun k => g.val k.rev)

/-- `get_bath` inside `make_bath` (fragment.py:871-915). The options of the MP2 and RPA baths are read for their KeyError only; their effect is in
`corrDm`. A threshold without arithmetic raises TypeError at its first comparison, as does a maximum order which is not an integer; a
negative maximum order means no iterations. -/
def makeFactory {a : Nat} (sol : Solvers K) (d : Data a K) (opts : List (String × Val K)) (o : Occ) : Except PyErr (Factory a K) := do
  match ← getOption opts "bathtype" o with
  | .str "dmet" => .ok .none
  | .str "full" => .ok .full
  | .str "ewdmet" =>
    let threshold ← getOption opts "threshold" o
    let maxOrder ← getOption opts "max_order" o
    if (d.env o).length = 0 then .ok (.ewdmet [])
    else
      match maxOrder with
      | .int n =>
        match threshold with
        | .none => (ewdmetKernel sol.svd d.dmetThreshold n.toNat d.fockBath d.cFrag.get (d.env o).get).map .ewdmet
        | v =>
          match v.asNum with
          | some tol => (ewdmetKernel sol.svd tol n.toNat d.fockBath d.cFrag.get (d.env o).get).map .ewdmet
          | Option.none => .error .typeError
      | _ => .error .typeError
  | .str "r2" => r2Kernel sol d o
  | .str "mp2" =>
    let _ ← getOption opts "project_dmet_order" o
    let _ ← getOption opts "project_dmet_mode" o
    let _ ← getOption opts "addbuffer" o
    .ok (bnoKernel sol d "mp2" o)
  | .str "rpa" =>
    let _ ← getOption opts "project_dmet_order" o
    let _ ← getOption opts "project_dmet_mode" o
    .ok (bnoKernel sol d "rpa" o)
  | _ => .error .notImplementedError

/-- `_to_bohr` (r2bath.py:11-17), `unit` in lower case. -/
def toBohr (bohr rcut : K) (unit : String) : Except PyErr K :=
  if unit.startsWith "ang" then .ok (rcut / bohr) else if unit.startsWith "b" then .ok rcut else .error .valueError

/-- `R2_Bath_RHF.get_bath` (r2bath.py:105-109) for the default unit `"Ang"` (`make_cluster` passes no other): a cutoff without arithmetic raises
TypeError. -/
def r2GetBath {a : Nat} (bohr : K) (coeff : List (Col a K)) (eig : List K) (rcut : Val K) : Except PyErr (List (Col a K) × List (Col a K)) :=
  match rcut.asNum with
  | Option.none => .error .typeError
  | some x =>
    match toBohr bohr x "ang" with
    | .error e => .error e
    | .ok r => .ok (Bno.hsplit coeff (eig.filter fun e => decide (e ≤ r)).length)

/-- `EwDMET_Bath_RHF.get_bath` (ewdmet.py:62-64); an order of `None` raises TypeError unless there are no orbitals to compare. Orders which are not
integers are compared like their values and are left out. -/
def ewdmetGetBath {a : Nat} (l : List (Coupled a K)) (order : Val K) : Except PyErr (List (Col a K) × List (Col a K)) :=
  if l.length = 0 then .ok ([], [])
  else
    match order with
    | .int k => .ok (Bno.hsplit (l.map Coupled.col) (l.filter fun x => orderLe k x.order).length)
    | _ => .error .typeError

/-- `BNO_Threshold(truncation, threshold)` and `truncate_bno` (fragment.py:938-941, bno.py:11-53, 153-187). A threshold of `None` with
`truncation="number"` ends up in `np.hsplit(coeff, [None])`, which returns all columns twice; in all other cases it raises TypeError. A number which
is not an integer cannot be used for slicing. -/
def bnoGetBath {a : Nat} (coeff : List (Col a K)) (occup : List K) (nelec : K) (truncation threshold : Val K) :
    Except PyErr (List (Col a K) × List (Col a K)) :=
  match truncation with
  | .str t =>
    match Bno.Threshold.make t (0 : K) 0 with
    | .error e => .error e
    | .ok _ =>
      if occup.length = 0 then .ok (Bno.hsplit coeff 0)
      else
        match threshold with
        | .none => if t = "number" then .ok (coeff, coeff) else .error .typeError
        | .str _ => .error .typeError
        | .num x => if t = "number" then .error .typeError else (Bno.Threshold.make t x 0).bind fun b => Bno.truncateBno coeff occup (.thr b) nelec
        | .int n => (Bno.Threshold.make t (n : K) n).bind fun b => Bno.truncateBno coeff occup (.thr b) nelec
        | .bool b =>
          (Bno.Threshold.make t (if b then 1 else 0 : K) (if b then 1 else 0)).bind fun b => Bno.truncateBno coeff occup (.thr b) nelec
  | _ => .error .valueError

/-- `get_orbitals` inside `make_cluster` (fragment.py:922-946): bath and frozen orbitals. A factory which does not belong to the bath type (the
option was changed in between) is used as it is in the code, by its `get_bath`; that case is left out (AttributeError here). -/
def getOrbitals {a : Nat} (sol : Solvers K) (d : Data a K) (opts : List (String × Val K)) (o : Occ) (f : Factory a K) :
    Except PyErr (List (Col a K) × List (Col a K)) := do
  match ← getOption opts "bathtype" o with
  | .str "dmet" => .ok ([], d.env o)
  | .str "full" => .ok (d.env o, [])
  | .str "r2" =>
    let rcut ← getOption opts "rcut" o
    let _ ← getOption opts "unit" o
    match f with
    | .r2 coeff eig => r2GetBath sol.bohr coeff eig rcut
    | _ => .error .attributeError
  | .str "ewdmet" =>
    let order ← getOption opts "order" o
    match f with
    | .ewdmet l => ewdmetGetBath l order
    | _ => .error .attributeError
  | .str "mp2" | .str "rpa" | .str "rpacorr" =>
    let threshold ← getOption opts "threshold" o
    let truncation ← getOption opts "truncation" o
    match f with
    | .bno coeff occup => bnoGetBath coeff occup d.nelecCluster truncation threshold
    | _ => .error .attributeError
  | _ => .error .valueError

/-- `canonicalize_mo` (fragment.py:506-539), the orbitals. -/
def canonicalizeMo {a : Nat} (sol : Solvers K) (fock : Matrix (Fin a) (Fin a) K) (c : List (Col a K)) : List (Col a K) :=
  (rotate c (sol.eigh _ (between fock c.get c.get)).vec).map fixCol

/-- Mean-field occupation of an orbital (fragment.py:479-497). -/
def occupation {a : Nat} (d : Data a K) (v : Col a K) : K := (d.ovlp *ᵥ v) ⬝ᵥ (d.dm1 *ᵥ (d.ovlp *ᵥ v))

/-- `check_occup` (fragment.py:959-967), spin-restricted: without orbitals, `occup[0]` raises IndexError. -/
def checkOccup {a : Nat} (d : Data a K) (atol : K) (c : List (Col a K)) (expected : K) : Except PyErr Unit :=
  if c.length = 0 then .error .indexError
  else if c.all fun v => decide (|occupation d v - 2 * expected| ≤ 2 * atol) then .ok ()
  else .error .assertionError

/-- `make_bath` followed by `make_cluster` (fragment.py:864-973). -/
def makeCluster {a : Nat} (sol : Solvers K) (d : Data a K) (opts : List (String × Val K)) (atol : K) : Except PyErr (Orbitals.Cluster (Col a K)) := do
  let fo ← makeFactory sol d opts .occ
  let fv ← makeFactory sol d opts .vir
  let (bo, zo) ← getOrbitals sol d opts .occ fo
  let (bv, zv) ← getOrbitals sol d opts .vir fv
  let ao := d.cluster .occ ++ bo
  let av := d.cluster .vir ++ bv
  let co ← getOption opts "canonicalize" .occ
  let ao := if co.truthy then canonicalizeMo sol d.fock ao else ao
  let cv ← getOption opts "canonicalize" .vir
  let av := if cv.truthy then canonicalizeMo sol d.fock av else av
  let cluster := Orbitals.Cluster.fromCoeffs ao av zo zv
  let _ ← checkOccup d atol cluster.cTotalOcc 1
  let _ ← checkOccup d atol cluster.cTotalVir 0
  .ok cluster

/-- Default bath options (qemb.py:80-122). `tol` and `thr` are the numbers `1e-6` and `1e-8`. -/
def defaults (tol thr : K) : List (String × Val K) :=
  [("bathtype", .str "dmet"), ("canonicalize", .bool true), ("occupation_tolerance", .num tol), ("dmet_threshold", .num thr), ("rcut", .none),
   ("unit", .str "Ang"), ("order", .none), ("max_order", .int 20), ("threshold", .none), ("truncation", .str "occupation"),
   ("project_dmet_order", .int 2), ("project_dmet_mode", .str "squared-entropy"), ("addbuffer", .bool false), ("bathtype_occ", .none),
   ("bathtype_vir", .none), ("rcut_occ", .none), ("rcut_vir", .none), ("unit_occ", .none), ("unit_vir", .none), ("order_occ", .none),
   ("order_vir", .none), ("max_order_occ", .none), ("max_order_vir", .none), ("threshold_occ", .none), ("threshold_vir", .none),
   ("truncation_occ", .none), ("truncation_vir", .none), ("project_dmet_order_occ", .none), ("project_dmet_order_vir", .none),
   ("project_dmet_mode_occ", .none), ("project_dmet_mode_vir", .none), ("addbuffer_occ", .none), ("addbuffer_dmet_vir", .none),
   ("canonicalize_occ", .none), ("canonicalize_vir", .none)]

/-- The bath options of an embedding created with `bath_options=given`: `Options().replace(bath_options=given)` (qemb.py:282 and
util.py:676-690). -/
def setOptions (tol thr : K) (given : List (String × Val K)) : Except PyErr (List (String × Val K)) :=
  match Options.replace [("bath_options", .dict (defaults tol thr))] [("bath_options", .dict given)] with
  | (_, some e) => .error e
  | ([(_, .dict l)], Option.none) => .ok l
  | _ => .error .other

end Vayesta.BathCluster
