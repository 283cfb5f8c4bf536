import Verif.Model.SelfEnergy

/-! Quasi-particle self-consistent energy-weighted density-matrix embedding: vayesta/core/scmf/qpewdmet.py, with the loop of vayesta/core/scmf/scmf.py.
Exact real arithmetic. Eigensolvers, self-consistent fields of PySCF, DIIS, and what is done by the package `dyson` are parameters. -/

namespace Vayesta.QpEwdmet

open Matrix Lowdin SelfEnergy

noncomputable section

variable {ι : Type} [Fintype ι] {nmo : Nat}

/-- Options (qpewdmet.py:17, 43-61, 78). `drop_non_causal` is stored but never used. -/
structure Opts where
  proj : Int
  tol : ℝ
  globalPot : Bool
  damping : ℝ
  sc : Bool
  useSym : Bool
  storeScfs : Bool
  degenTol : ℝ
  evalTol : ℝ

/-- The system and all numerical routines. `fock` is the Fock matrix of the mean-field object with given orbitals (`emb.mf.get_fock()`); `stat` and
`statWhole` are `as_static_potential` of `dyson` for clusters and for the whole system; `shift` is the identity or, with `aux_shift`, the shift of
auxiliaries, given the matrix `phys` (qpewdmet.py:133-136); `greens` is what may raise while Green's functions and gaps are made for reports, which have no
other effect (qpewdmet.py:128-132, 141, 155-156, 163-164, 239-283); `geigh` is `scipy.linalg.eigh` of two matrices; `scf` are the orbitals of a new
mean-field calculation with a given one-electron Hamiltonian; `folded` tells that the mean-field is a `FoldedSCF`. -/
structure Env (ι : Type) (nmo : Nat) where
  ovlp : Matrix ι ι ℝ
  hcore : Matrix ι ι ℝ
  fock : Matrix ι (Fin nmo) ℝ → Matrix ι ι ℝ
  stat : AsStatic
  statWhole : List (Pole (Fin nmo) ℝ) → (Fin nmo → ℝ) → Matrix (Fin nmo) (Fin nmo) ℝ
  routines : Routines nmo
  shift : Matrix (Fin nmo) (Fin nmo) ℝ → List (Pole (Fin nmo) ℝ) → List (Pole (Fin nmo) ℝ)
  greens : Matrix (Fin nmo) (Fin nmo) ℝ → List (Pole (Fin nmo) ℝ) → Matrix ι ι ℝ → Except PyErr Unit
  geigh : Matrix ι ι ℝ → Matrix ι ι ℝ → (Fin nmo → ℝ) × Matrix ι (Fin nmo) ℝ
  scf : Matrix ι ι ℝ → Matrix ι (Fin nmo) ℝ
  folded : Bool

/-- The mean-field of the embedding: orbitals and their energies. -/
structure Mf (ι : Type) (nmo : Nat) where
  mo : Matrix ι (Fin nmo) ℝ
  energy : Fin nmo → ℝ

/-- What the fragments see. -/
def Env.sys (v : Env ι nmo) (m : Mf ι nmo) : Sys ι nmo := ⟨v.ovlp, v.fock m.mo, m.mo⟩

/-- `self.self_energy, self.static_self_energy, self.static_potential` (qpewdmet.py:122-127); `none` is the case in which an exception object is
returned instead of raised. With one projector singular vectors are used (self_energy.py:114). -/
def selfEnergy (v : Env ι nmo) (o : Opts) (m : Mf ι nmo) (l : List (Frag ι)) : Except PyErr (Option (Result ι nmo (List (Pole (Fin nmo) ℝ)))) :=
  if o.proj = 1 then (make1proj (v.sys m) v.stat v.routines o.useSym true o.degenTol o.evalTol false l).map some
  else if o.proj = 2 then (make2proj (v.sys m) v.stat v.routines.sort o.useSym l).map some
  else .ok none

/-- `phys` (qpewdmet.py:128). -/
def phys (v : Env ι nmo) (m : Mf ι nmo) (static : Matrix (Fin nmo) (Fin nmo) ℝ) : Matrix (Fin nmo) (Fin nmo) ℝ := m.moᵀ * v.fock m.mo * m.mo + static

/-- The static potential before extrapolation (qpewdmet.py:146-148). -/
def potential (v : Env ι nmo) (o : Opts) (m : Mf ι nmo) (r : Result ι nmo (List (Pole (Fin nmo) ℝ))) : Matrix ι ι ℝ :=
  let p := if o.globalPot then m.mo * v.statWhole (v.shift (phys v m r.static) r.se) m.energy * m.moᵀ else r.pot
  v.ovlp * p * v.ovlp

/-- `new_fock` and `qp_ham` (qpewdmet.py:145, 152, 274-275). -/
def newFock (v : Env ι nmo) (m : Mf ι nmo) (static : Matrix (Fin nmo) (Fin nmo) ℝ) (pot : Matrix ι ι ℝ) : Matrix ι ι ℝ :=
  let sc := v.ovlp * m.mo
  v.fock m.mo + sc * static * scᵀ + pot

/-- `sc_fock` (qpewdmet.py:153). -/
def scFock (v : Env ι nmo) (o : Opts) (m : Mf ι nmo) (static : Matrix (Fin nmo) (Fin nmo) ℝ) (pot : Matrix ι ι ℝ) : Matrix ι ι ℝ :=
  o.damping • v.fock m.mo + (1 - o.damping) • newFock v m static pot

/-- `fock_scf` (qpewdmet.py:177-228). The list `scfs` exists only with `sc` (qpewdmet.py:75-76, 226-227). -/
def fockScf (v : Env ι nmo) (o : Opts) (pot : Matrix ι ι ℝ) : Except PyErr (Matrix ι (Fin nmo) ℝ) :=
  if v.folded then .error .notImplementedError
  else if o.storeScfs && !o.sc then .error .attributeError
  else .ok (v.scf (v.hcore + pot))

/-- Attributes that are set by one update, and the orbitals that are returned. -/
structure Update (ι : Type) (nmo : Nat) (D : Type) where
  pot : Matrix ι ι ℝ
  static : Matrix (Fin nmo) (Fin nmo) ℝ
  scFock : Matrix ι ι ℝ
  qpham : Matrix ι ι ℝ
  mo : Matrix ι (Fin nmo) ℝ
  diis : Option D

/-- Extrapolation: `diis.update` of a DIIS object with some state. -/
abbrev DiisUpdate (ι : Type) (D : Type) := D → Matrix ι ι ℝ → Matrix ι ι ℝ × D

/-- `diis.update`, if there is such an object (qpewdmet.py:149-150). -/
def extrapolate {D : Type} (diis : DiisUpdate ι D) (d : Option D) (pot : Matrix ι ι ℝ) : Matrix ι ι ℝ × Option D :=
  match d with
  | none => (pot, none)
  | some d => ((diis d pot).1, some (diis d pot).2)

/-- The new orbitals (qpewdmet.py:158-161). -/
def newOrbitals (v : Env ι nmo) (o : Opts) (f pot : Matrix ι ι ℝ) : Except PyErr (Matrix ι (Fin nmo) ℝ) :=
  if o.sc then fockScf v o pot else .ok (v.geigh f v.ovlp).2

/-- `update_mo_coeff` (qpewdmet.py:93-175); `none` stands for the returned exception object. Histories are not modelled. -/
def updateMo {D : Type} (v : Env ι nmo) (o : Opts) (diis : DiisUpdate ι D) (d : Option D) (m : Mf ι nmo) (l : List (Frag ι)) :
    Except PyErr (Option (Update ι nmo D)) := do
  let r ← selfEnergy v o m l
  match r with
  | none => .ok none
  | some r =>
    let x := extrapolate diis d (potential v o m r)
    let qpham := newFock v m r.static x.1
    let f := scFock v o m r.static x.1
    v.greens (phys v m r.static) (v.shift (phys v m r.static) r.se) qpham
    let mo ← newOrbitals v o f x.1
    pure (some ⟨x.1, r.static, f, qpham, mo, x.2⟩)

open Classical in
/-- `update_mf` (qemb.py:1652-1666): the check that orbitals are orthonormal (exact here), and new orbital energies. An exception object has no `T`. -/
def updateMf {D : Type} (v : Env ι nmo) (u : Option (Update ι nmo D)) : Except PyErr (Mf ι nmo) :=
  match u with
  | none => .error .attributeError
  | some u => if u.moᵀ * v.ovlp * u.mo = 1 then .ok ⟨u.mo, fun i => (u.moᵀ * v.fock u.mo * u.mo) i i⟩ else .error .valueError

open Classical in
/-- `check_convergence` (qpewdmet.py:230-237), the first result. The energies and density matrices go to the method of the base class, of which only the
last two results are used. -/
def checkConvergence (o : Opts) (pot last : Option (Matrix ι ι ℝ)) : Bool :=
  match pot, last with
  | some p, some q => decide (∑ i, ∑ j, |p i j - q i j| < o.tol)
  | _, _ => false

/-! ## The loop -/

/-- The embedding: `run` is the original kernel for a mean-field and gives clusters and a result; `energy` the total energy afterwards (scmf.py:105-107);
`symmetric` tells that `check_fragment_symmetry` does not raise SymmetryError (scmf.py:114-121). -/
structure Emb (ι : Type) (nmo : Nat) (R : Type) where
  run : Mf ι nmo → Except PyErr (R × List (Frag ι))
  energy : Mf ι nmo → List (Frag ι) → ℝ
  symmetric : Mf ι nmo → Bool

/-- Attributes which are changed by the loop. -/
structure State (ι : Type) (nmo : Nat) where
  mf : Mf ι nmo
  pot : Option (Matrix ι ι ℝ)
  iteration : Nat
  converged : Bool
  energies : List ℝ

/-- End of a pass (scmf.py:114-132): the next pass goes on with this state. -/
inductive Pass (ι : Type) (nmo : Nat) (D R : Type)
  | raised (e : PyErr) (s : State ι nmo)
  | done (r : R) (s : State ι nmo)
  | next (r : R) (d : Option D) (s : State ι nmo)

/-- After the update (scmf.py:112-132): `last` is the potential before it (qpewdmet.py:113-114). -/
def finish {D R : Type} (x : Emb ι nmo R) (o : Opts) (r : R) (d : Option D) (last : Option (Matrix ι ι ℝ)) (s : State ι nmo) : Pass ι nmo D R :=
  if x.symmetric s.mf = false then .done r { s with converged := false }
  else if checkConvergence o s.pot last then .done r { s with converged := true }
  else .next r d s

/-- One pass of the loop (scmf.py:96-132); the number of the iteration has been set. `emb.reset()` only removes what the next calculation makes
again, and is not modelled. What is left in the object when `update_mo_coeff` raises is not modelled. -/
def pass {D R : Type} (v : Env ι nmo) (x : Emb ι nmo R) (o : Opts) (diis : DiisUpdate ι D) (d : Option D) (s : State ι nmo) : Pass ι nmo D R :=
  match x.run s.mf with
  | .error e => .raised e s
  | .ok (r, l) =>
    let s' : State ι nmo := { s with energies := s.energies ++ [x.energy s.mf l] }
    match updateMo v o diis d s.mf l with
    | .error e => .raised e s'
    | .ok u =>
      match u, updateMf v u with
      | none, _ => .raised .attributeError { s' with pot := some 0 }
      | some u, .error e => .raised e { s' with pot := some u.pot }
      | some u, .ok m => finish x o r u.diis s.pot { s' with mf := m, pot := some u.pot }

/-- The loop (scmf.py:96-136): `fuel` passes are left, `res` is the result of the previous one; without any pass `res` is unbound. -/
def loop {D R : Type} (v : Env ι nmo) (x : Emb ι nmo R) (o : Opts) (diis : DiisUpdate ι D) :
    Nat → Nat → State ι nmo → Option D → Option R → State ι nmo × Except PyErr R
  | 0, _, s, _, none => (s, .error .nameError)
  | 0, _, s, _, some r => (s, .ok r)
  | fuel + 1, k, s, d, _ =>
    match pass v x o diis d { s with iteration := k } with
    | .raised e s => (s, .error e)
    | .done r s => (s, .ok r)
    | .next r d s => loop v x o diis fuel (k + 1) s d (some r)

/-- `kernel` (scmf.py:80-136). -/
def kernel {D R : Type} (v : Env ι nmo) (x : Emb ι nmo R) (o : Opts) (diis : DiisUpdate ι D) (d : Option D) (maxiter : Int) (s : State ι nmo) :
    State ι nmo × Except PyErr R :=
  loop v x o diis maxiter.toNat 1 s d none

/-! ## The constructor -/

open Classical in
/-- `__init__` (qpewdmet.py:43-91), with the mean-field that the embedding has afterwards. With an initial potential the mean-field is recalculated;
`SymmetryError` is not imported, so that the handler of this exception raises NameError. -/
def init {R : Type} (v : Env ι nmo) (x : Emb ι nmo R) (o : Opts) (potInit : Option (Matrix ι ι ℝ)) (m : Mf ι nmo) : Except PyErr (State ι nmo) :=
  match potInit with
  | none => .ok ⟨m, none, 0, false, []⟩
  | some p => do
    let mo ← fockScf v o p
    let m ← updateMf (D := Unit) v (some ⟨p, 0, 0, 0, mo, none⟩)
    if x.symmetric m then .ok ⟨m, none, 0, false, []⟩ else .error .nameError

end

end Vayesta.QpEwdmet
