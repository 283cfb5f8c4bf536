import Verif.Model.Blocks
import Mathlib.Algebra.Order.Ring.Defs
import Mathlib.Algebra.Order.Group.Abs

/-! Model of `CAS_Fragmentation.add_cas_fragment`, `vayesta/core/fragmentation/cas.py:31-108`.

Simplifications: occupations are natural numbers (spin-summed for UHF, cas.py:44-47), `ncas` and `nelec` are non-negative,
logging is left out. The result is the list of orbital indices handed to `add_orbital_fragment`. -/

namespace Vayesta.Cas

/-- `np.where(occ > 0)[0][-1]` (cas.py:55): index of the last occupied orbital; `none` if there is none (the code then raises
IndexError where it is used). -/
def lastOcc (occ : List Nat) : Option Nat := ((List.range occ.length).filter fun i => 0 < occ.getD i 0).getLast?

/-- The while loop (cas.py:56-59). `rem` lists the occupations of the orbitals `last - offset - 1, ..., 0` still to come. Python
would wrap around to negative indices after index 0; that case is `none` (never reached, see `casLoop_isSome`). -/
def casLoop (nelec : Nat) : List Nat → Int → Nat → Option (Int × Nat)
  | [], offset, curr => if curr < nelec then none else some (offset, curr)
  | o :: rem, offset, curr => if curr < nelec then casLoop nelec rem (offset + 1) (curr + o) else some (offset, curr)

variable {K : Type} [Ring K] [LinearOrder K]

/-- `check_for_degen` (cas.py:64-99) for one spin channel, with window `po ≤ i < pv`. An infinite gap is never below the
tolerance. -/
def checkDegen (tol : K) (energies : List K) (po pv : Nat) : Except PyErr Unit :=
  if 0 < po ∧ |energies.getD po 0 - energies.getD (po - 1) 0| < tol then .error .valueError
  else if h : pv < energies.length then
    if |energies[pv] - energies.getD (pv - 1) 0| < tol then .error .valueError else .ok ()
  else if pv = energies.length then .ok ()
  else .error .assertionError

/-- All spin channels in order (cas.py:101-105): one for RHF, two for UHF. -/
def checkAll (tol : K) (po pv : Nat) : List (List K) → Except PyErr Unit
  | [] => .ok ()
  | e :: es => (checkDegen tol e po pv).bind fun _ => checkAll tol po pv es

/-- `add_cas_fragment` (cas.py:31-108). An empty orbital list fails in `get_orbital_indices_labels` with IndexError
(`orbitals[0]`, cas.py:24). -/
def addCas (occ : List Nat) (energies : List (List K)) (tol : K) (ncas nelec : Nat) : Except PyErr (List Nat) :=
  if occ.sum < nelec then .error .valueError
  else if occ.length < ncas then .error .valueError
  else match lastOcc occ with
    | none => .error .indexError
    | some last =>
      match casLoop nelec (occ.take (last + 1)).reverse (-1) 0 with
      | none => .error .other
      | some (offset, curr) =>
        if nelec < curr ∨ (ncas : Int) < offset then .error .valueError
        else
          let start := (last - offset).toNat
          (checkAll tol start (start + ncas) energies).bind fun _ =>
            if ncas = 0 then .error .indexError else .ok (List.range' start ncas)

end Vayesta.Cas
