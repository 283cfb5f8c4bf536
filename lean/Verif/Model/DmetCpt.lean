import Verif.Model.Cpt

/-! Model of the search for a chemical-potential bracket in `DMET.kernel` (`vayesta/dmet/dmet.py:142-181`). Exact arithmetic. -/

namespace Vayesta.DmetCpt
open Vayesta.Cpt (sgn)

variable {K : Type} [Field K] [LinearOrder K]

/-- How an evaluation of the electron-number error can fail: the linear-algebra error that is caught for the CCSD solver, or any
other exception. -/
inductive EvalErr where
  | linAlg
  | other (e : PyErr)
  deriving DecidableEq

/-- One evaluation of `electron_err`: the point and its outcome. -/
abbrev Log (K : Type) := List (K × Except EvalErr K)

/-- `electron_err`: may depend on everything evaluated before, and may raise. -/
abbrev Func (K : Type) := Log K → K → Except EvalErr K

/-- How the block ends: nothing to do, a bracket for `brentq`, no bracket found (`log.fatal` and leaving the iteration loop), or an
exception leaving `kernel`. -/
inductive Outcome (K : Type) where
  | suitable
  | bracket (lo hi : K)
  | noBracket
  | raised (e : EvalErr)

/-- `try: new_err = electron_err(new_cpt)`, `except LinAlgError` (dmet.py:151-161 and 165-174): on success the new error; a caught
error keeps the old error and sets `new_cpt = cpt - (new_cpt - cpt) * 3 / 8`; everything else is re-raised. -/
def tryEval (func : Func K) (ccsd : Bool) (cpt newCpt newErr : K) (log : Log K) : Except EvalErr (K × K) × Log K :=
  let r := func log newCpt
  let log := log ++ [(newCpt, r)]
  match r with
  | .ok v => (.ok (newCpt, v), log)
  | .error .linAlg => if ccsd then (.ok (cpt - (newCpt - cpt) * 3 / 8, newErr), log) else (.error .linAlg, log)
  | .error e => (.error e, log)

/-- The loop `for ntry in range(10)` (dmet.py:163-179) with `n` iterations left. -/
def tryLoop (func : Func K) (ccsd : Bool) (cpt err : K) : (n : Nat) → (newCpt newErr : K) → Log K → Outcome K × Log K
  | 0, _, _, log => (.noBracket, log)
  | n + 1, newCpt, newErr, log =>
    let newCpt := cpt + (newCpt - cpt) * 2
    match tryEval func ccsd cpt newCpt newErr log with
    | (.error e, log) => (.raised e, log)
    | (.ok (newCpt, newErr), log) =>
      if err * newErr < 0 then (.bracket (min cpt newCpt) (max cpt newCpt), log)
      else tryLoop func ccsd cpt err n newCpt newErr log

/-- The whole block (dmet.py:138-182): `maxErr` is `max_elec_err * nelec_mf`. -/
def search (func : Func K) (ccsd : Bool) (cpt maxErr : K) : Outcome K × Log K :=
  match func [] cpt with
  | .error e => (.raised e, [(cpt, .error e)])
  | .ok err =>
    let log : Log K := [(cpt, .ok err)]
    if maxErr < |err| then
      let newCpt := cpt - sgn err * (1 / 10)
      match tryEval func ccsd cpt newCpt err log with
      | (.error e, log) => (.raised e, log)
      | (.ok (newCpt, newErr), log) =>
        if 0 < err * newErr then tryLoop func ccsd cpt err 10 newCpt newErr log
        else (.bracket (min cpt newCpt) (max cpt newCpt), log)
    else (.suitable, log)

end Vayesta.DmetCpt
