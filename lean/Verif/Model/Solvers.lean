import Verif.Model.Blocks

/-! Model of solver selection: `vayesta/solver/__init__.py` and the checks in `vayesta/core/qemb/{qemb,fragment}.py`. -/

namespace Vayesta.Solvers

/-- Solver classes named in `vayesta/solver/__init__.py:4-20`. -/
inductive Cls
  | rmp2 | ump2 | rcisd | ucisd | rccsd | uccsd | trccsd | extRccsd | extUccsd | coupledRccsd | fci | ufci | ebEbfci | ebUebfci
  | dump | callback | rebcc | uebcc | ebRebcc | ebUebcc
  deriving DecidableEq

/-- Entries of `_solver_dict`: a class or `NotImplemented`. -/
inductive Entry
  | cls (c : Cls)
  | notImplemented
  deriving DecidableEq

/-- `_solver_dict` (solver/__init__.py:51-72): (name, unrestricted, electron-boson) and entry. -/
def solverDict : List ((String × Bool × Bool) × Entry) :=
  [(("MP2", false, false), .cls .rmp2),
   (("MP2", true, false), .cls .ump2),
   (("CISD", false, false), .cls .rcisd),
   (("CISD", true, false), .cls .ucisd),
   (("CCSD", false, false), .cls .rccsd),
   (("CCSD", true, false), .cls .uccsd),
   (("TCCSD", false, false), .cls .trccsd),
   (("TCCSD", true, false), .notImplemented),
   (("extCCSD", false, false), .cls .extRccsd),
   (("extCCSD", true, false), .cls .extUccsd),
   (("coupledCCSD", false, false), .cls .coupledRccsd),
   (("coupledCCSD", true, false), .notImplemented),
   (("FCI", false, false), .cls .fci),
   (("FCI", true, false), .cls .ufci),
   (("FCI", false, true), .cls .ebEbfci),
   (("FCI", true, true), .cls .ebUebfci),
   (("DUMP", false, false), .cls .dump),
   (("DUMP", true, false), .cls .dump),
   (("CALLBACK", false, false), .cls .callback),
   (("CALLBACK", true, false), .cls .callback)]

/-- `_ebcc_solver_dict` (solver/__init__.py:76-81). -/
def ebccDict (uhf eb : Bool) : Cls :=
  match uhf, eb with
  | false, false => .rebcc
  | true, false => .uebcc
  | false, true => .ebRebcc
  | true, true => .ebUebcc

/-- What the lookup returns: a class, or the wrapper `get_right_cc` around a class with the ansatz it will set. -/
inductive Factory
  | cls (c : Cls)
  | withAnsatz (c : Cls) (ansatz : String)
  deriving DecidableEq

/-- `'CC' in solver`. -/
def containsCC : List Char → Bool
  | 'C' :: 'C' :: _ => true
  | _ :: cs => containsCC cs
  | [] => false

/-- The ansatz used by the wrapper (solver/__init__.py:104-108): `EB` prefix removed; CCSD with bosons replaced. -/
def ansatzOf (solver : String) (eb : Bool) : String :=
  let s := if solver.toList.take 2 = "EB".toList then String.ofList (solver.toList.drop 2) else solver
  if s = "CCSD" ∧ eb = true then "CCSD-SD-1-1" else s

/-- `_get_solver_class_ebcc` (solver/__init__.py:97-121). -/
def lookupEbcc (hasEbcc : Bool) (solver : String) (uhf eb : Bool) : Except PyErr Factory :=
  if hasEbcc = false then .error .importError
  else if solver = "EBCC" then .ok (.cls (ebccDict uhf eb))
  else .ok (.withAnsatz (ebccDict uhf eb) (ansatzOf solver eb))

/-- `_get_solver_class_internal` (solver/__init__.py:84-94). -/
def lookupInternal (hasEbcc : Bool) (solver : String) (uhf eb : Bool) : Except PyErr Factory :=
  match solverDict.lookup (solver, uhf, eb) with
  | some .notImplemented => .error .notImplementedError
  | some (.cls c) => .ok (.cls c)
  | none => if containsCC solver.toList = false then .error .valueError else lookupEbcc hasEbcc solver uhf eb

/-- `_get_solver_class` (solver/__init__.py:38-47): ValueErrors are raised again with another message, other exceptions pass. -/
def lookup (hasEbcc : Bool) (solver : String) (uhf eb : Bool) : Except PyErr Factory :=
  match lookupInternal hasEbcc solver uhf eb with
  | .ok f => .ok f
  | .error .valueError => .error .valueError
  | .error e => .error e

/-- Calling what the lookup returned, with the solver option `ansatz` if given (solver/__init__.py:111-119): the class that is
instantiated and the ansatz passed to it. Classes without an `ansatz` option reject it; that is part of the options model (C07). -/
def construct (f : Factory) (ansatz : Option String) : Except PyErr (Cls × Option String) :=
  match f with
  | .cls c => .ok (c, ansatz)
  | .withAnsatz c s =>
    match ansatz with
    | none => .ok (c, some s)
    | some a => if a ≠ s then .error .valueError else .ok (c, some s)

/-- Mean-field coefficients: one matrix with `nao` rows, or a pair of matrices. -/
inductive MoCoeff
  | restricted (nao : Nat)
  | unrestricted

/-- `np.ndim(mo_coeff[1]) == 2` (qemb.py:1753, fragment.py:1158); `mo_coeff[1]` of a matrix with fewer than two rows raises
IndexError. -/
def checkUhf : MoCoeff → Except PyErr Bool
  | .restricted nao => if 1 < nao then .ok false else .error .indexError
  | .unrestricted => .ok true

/-- `check_solver` (qemb.py:1752-1758, fragment.py:1157-1163); `crpaFull` – the screening option contains "crpa_full". -/
def checkSolver (hasEbcc : Bool) (mo : MoCoeff) (crpaFull : Bool) (solver : String) : Except PyErr Unit :=
  match checkUhf mo with
  | .error e => .error e
  | .ok uhf =>
    match lookup hasEbcc solver uhf crpaFull with
    | .error e => .error e
    | .ok _ => .ok ()

/-- `rhf = np.ndim(mf.mo_coeff[0]) == 1` in `ClusterHamiltonian` (hamiltonian.py:29): whether the Hamiltonian is unrestricted. A matrix
without rows is not modelled. -/
def hamUhf : MoCoeff → Bool
  | .restricted _ => false
  | .unrestricted => true

/-- `get_solver` (fragment.py:1165-1174) with the type of Hamiltonian chosen by `ClusterHamiltonian` (hamiltonian.py:28-38);
`bosFreqs` – the fragment has boson frequencies, which `get_frag_hamil` sets if the screening option contains "crpa_full"
(fragment.py:1186-1189); `incBosons` – the cluster has a bosonic bath (cluster.py:121-123). -/
def getSolver (hasEbcc : Bool) (mo : MoCoeff) (bosFreqs incBosons : Bool) (solver : String) (ansatz : Option String) :
    Except PyErr (Cls × Option String) :=
  match lookup hasEbcc solver (hamUhf mo) (bosFreqs || incBosons) with
  | .error e => .error e
  | .ok f => construct f ansatz

end Vayesta.Solvers
