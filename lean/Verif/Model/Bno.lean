import Verif.Model.Blocks
import Mathlib.Algebra.Order.Field.Basic

/-! Model of the bath natural orbital truncation (`vayesta/core/bath/bno.py`) and of the selection of bath orbitals of the other
bath types (`full.py`, `r2bath.py`, `ewdmet.py`). Arithmetic is exact, over an ordered field. A coefficient matrix is the list of
its columns. -/

namespace Vayesta.Bno

variable {K : Type} [Field K] [LinearOrder K] {C : Type}

/-- `BNO_Threshold` (bno.py:10-22), one constructor per accepted type. The fixed number is an integer (the code stores whatever was
given; a non-integer fails later in `np.hsplit`). -/
inductive Threshold (K : Type) where
  | number (n : Int)
  | occupation (x : K)
  | truncation (x : K)
  | electronPercent (x : K)
  | excitedPercent (x : K)

/-- `BNO_Threshold.__init__` (bno.py:11-22): other type strings raise ValueError. `n` is the integer value of the threshold, used
for the fixed number only. -/
def Threshold.make (type : String) (x : K) (n : Int) : Except PyErr (Threshold K) :=
  if type = "number" then .ok (.number n)
  else if type = "occupation" then .ok (.occupation x)
  else if type = "truncation" then .ok (.truncation x)
  else if type = "electron-percent" then .ok (.electronPercent x)
  else if type = "excited-percent" then .ok (.excitedPercent x)
  else .error .valueError

/-- The loop `for bno_number in range(nbno + 1)` (bno.py:45-49) from `n` on with `fuel` iterations left; after the loop
RuntimeError. -/
def searchFrom (nelec0 ntarget : K) (npos : List K) : (fuel n : Nat) → Except PyErr Int
  | 0, _ => .error .runtimeError
  | fuel + 1, n =>
    if ntarget ≤ nelec0 + (npos.take n).sum then .ok n else searchFrom nelec0 ntarget npos fuel (n + 1)

/-- `get_number` (bno.py:27-53). -/
def Threshold.getNumber (t : Threshold K) (occup : List K) (electronTotal : Option K) : Except PyErr Int :=
  let nbno := occup.length
  if nbno = 0 then .ok 0
  else
    let npos := occup.map fun x => max x 0
    let nexcited := npos.sum
    match t with
    | .number n => .ok n
    | .truncation x => searchFrom 0 (nexcited - x) npos (nbno + 1) 0
    | .electronPercent x =>
      match electronTotal with
      | none => .error .assertionError
      | some total => searchFrom (total - nexcited) ((1 - x) * total) npos (nbno + 1) 0
    | .excitedPercent x => searchFrom 0 ((1 - x) * nexcited) npos (nbno + 1) 0
    | .occupation x => .ok (occup.filter fun o => decide (x ≤ o)).length

/-- `np.hsplit(coeff, [n])` = `coeff[:, :n], coeff[:, n:]` with Python's slice semantics: a negative `n` counts from the end,
values out of range are clipped. -/
def hsplit (coeff : List C) (n : Int) : List C × List C :=
  let k : Nat := if 0 ≤ n then n.toNat else (n + coeff.length).toNat
  (coeff.take k, coeff.drop k)

/-- The accepted values of `bno_threshold`: `None`, a plain number, or a threshold object. -/
inductive Arg (K : Type) where
  | none
  | num (x : K)
  | thr (t : Threshold K)

/-- `truncate_bno` (bno.py:153-187) without logging; `nelecCluster` is `dmet_bath.get_cluster_electrons()`. `None` has no
`get_number`: AttributeError. -/
def truncateBno (coeff : List C) (occup : List K) (a : Arg K) (nelecCluster : K) : Except PyErr (List C × List C) :=
  match a with
  | .none => .error .attributeError
  | .num x => ((Threshold.occupation x).getNumber occup (some nelecCluster)).map (hsplit coeff)
  | .thr t => (t.getNumber occup (some nelecCluster)).map (hsplit coeff)

/-- `Boson_Threshold.__init__` (bosonic_bath/bbath.py:8-12): the two percentage types raise ValueError. -/
def bosonThreshold (type : String) (x : K) (n : Int) : Except PyErr (Threshold K) :=
  if type = "electron-percent" ∨ type = "excited-percent" then .error .valueError else Threshold.make type x n

/-- `truncate_bosons` (bosonic_bath/bbath.py:45-79): as `truncate_bno` but without a number of electrons. -/
def truncateBosons (coeff : List C) (occup : List K) (a : Arg K) : Except PyErr (List C × List C) :=
  match a with
  | .none => .error .attributeError
  | .num x => ((Threshold.occupation x).getNumber occup none).map (hsplit coeff)
  | .thr t => (t.getNumber occup none).map (hsplit coeff)

end Vayesta.Bno
