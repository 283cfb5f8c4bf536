import Verif.Model.Blocks
import Mathlib.Algebra.Order.Field.Basic
import Mathlib.Algebra.Order.Group.Abs

/-! Model of `ChempotBisection` (`vayesta/misc/cptbisect.py`). Exact arithmetic over an ordered field. -/

namespace Vayesta.Cpt

variable {K : Type} [Field K] [LinearOrder K]

/-- The history of evaluations of the user function: points and values, newest last. -/
abbrev Log (K : Type) := List (K × K)

/-- The user function `self.func`: may be stateful, so that its value may depend on everything evaluated before. -/
abbrev Func (K : Type) := Log K → K → K

/-- What a scalar root finder (`scipy.optimize.brentq`) does when started on an interval: ask for function values, one after the
other and depending on the answers, and finally return or raise. Any such strategy is allowed. -/
inductive Finder (K : Type) where
  | done (res : K)
  | fail (e : PyErr)
  | query (x : K) (next : K → Finder K)

/-- `np.sign`. -/
def sgn (x : K) : K := if 0 < x then 1 else if x < 0 then -1 else 0

/-- Result of `kernel`: returned value, `self.converged`, `self.cpt`, all evaluations, and the interval given to the root finder. -/
structure Result (K : Type) where
  ret : K
  converged : Bool
  log : Log K
  bracket : Option (K × K)

/-- The bracketing loop (cptbisect.py:38-47): `factors` are `base**exp` for the remaining `exp`; returns `cpt3`, `err3` of the
first sign change. Running out of factors raises ValueError (line 47). -/
def bracketLoop (func : Func K) (cpt1 err1 m : K) : (factors : List K) → Log K → Except PyErr (K × K × Log K)
  | [], _ => .error .valueError
  | b :: rest, log =>
    let cpt3 := cpt1 - b * err1 / m
    let err3 := func log cpt3
    let log := log ++ [(cpt3, err3)]
    if err1 * err3 ≤ 0 then .ok (cpt3, err3, log) else bracketLoop func cpt1 err1 m rest log

/-- Running the root finder on `iteration` (cptbisect.py:53-72): values at `cpt1` and `cpt3` are reused, `self.cpt` is set at every
call, and a value within the tolerance raises StopIteration, which is caught. -/
def runFinder (func : Func K) (tol cpt1 err1 cpt3 err3 : K) : Finder K → (cpt : K) → Log K → Except PyErr (K × Bool × Log K)
  | .done _, cpt, log => .ok (cpt, false, log)
  | .fail e, _, _ => .error e
  | .query x next, _, log =>
    let (err, log) :=
      if x = cpt1 then (err1, log)
      else if x = cpt3 then (err3, log)
      else (func log x, log ++ [(x, func log x)])
    if |err| ≤ tol then .ok (x, true, log) else runFinder func tol cpt1 err1 cpt3 err3 (next err) x log

/-- The powers `base**exp for exp in range(exp0, 4)` (cptbisect.py:34-38). -/
def factors (robust : Bool) : List K := if robust then [1, 13/10, (13/10)^2, (13/10)^3] else [2, 2^2, 2^3]

/-- `kernel` (cptbisect.py:18-72). A vanishing gradient `m` makes the division in line 39 fail; it is modelled as ZeroDivisionError
(Python floats; NumPy floats would give infinities instead). -/
def kernel (func : Func K) (finder : K → K → Finder K) (cptInit tol : K) (robust : Bool) : Except PyErr (Result K) :=
  let cpt1 := cptInit
  let err1 := func [] cpt1
  let log := [(cpt1, err1)]
  if |err1| ≤ tol then .ok ⟨cpt1, true, log, none⟩
  else
    let cpt2 := cpt1 + sgn err1 * (1 / 1000)
    let err2 := func log cpt2
    let log := log ++ [(cpt2, err2)]
    let m := (err2 - err1) / (cpt2 - cpt1)
    if m = 0 then .error .zeroDivisionError
    else
      (bracketLoop func cpt1 err1 m (factors robust) log).bind fun (cpt3, err3, log) =>
        let lower := min cpt1 cpt3
        let upper := max cpt1 cpt3
        (runFinder func tol cpt1 err1 cpt3 err3 (finder lower upper) cpt1 log).map fun (cpt, conv, log) =>
          ⟨cpt, conv, log, some (lower, upper)⟩

end Vayesta.Cpt
