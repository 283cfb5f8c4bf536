import Verif.Model.Solvers

/-! Vocabulary for solver selection. -/

namespace Vayesta.Solvers

/-- Classes derived from the unrestricted solver base class. -/
def Cls.unrestricted : Cls → Bool
  | .ump2 | .ucisd | .uccsd | .extUccsd | .ufci | .ebUebfci | .uebcc | .ebUebcc => true
  | _ => false

/-- Classes that treat bosons coupled to the electrons. -/
def Cls.bosons : Cls → Bool
  | .ebEbfci | .ebUebfci | .ebRebcc | .ebUebcc => true
  | _ => false

/-- Classes that only hand the cluster Hamiltonian on, for either spin symmetry. -/
def Cls.spinGeneric : Cls → Bool
  | .dump | .callback => true
  | _ => false

/-- A class made for the given spin symmetry, with or without bosons. -/
def Cls.UsableFor (c : Cls) (uhf eb : Bool) : Prop :=
  (c.spinGeneric = true ∨ c.unrestricted = uhf) ∧ c.bosons = eb

/-- The class that a lookup result instantiates. -/
def Factory.target : Factory → Cls
  | .cls c => c
  | .withAnsatz c _ => c

/-- Names of the solvers included in the package that exist for systems without bosons. -/
def builtinNames : List String := ["MP2", "CISD", "CCSD", "TCCSD", "extCCSD", "coupledCCSD", "FCI", "DUMP", "CALLBACK"]

/-- Of these, the ones that exist for restricted systems only. -/
def restrictedOnly : List String := ["TCCSD", "coupledCCSD"]

/-- A name that contains the two letters CC in a row. -/
def NamesCC (s : String) : Prop := ∃ a b, s.toList = a ++ 'C' :: 'C' :: b

/-- Served by the package itself for this setting (`some false`: known but not available). -/
def Builtin (s : String) (eb : Bool) : Prop := (eb = false ∧ s ∈ builtinNames) ∨ (eb = true ∧ s = "FCI")

end Vayesta.Solvers
