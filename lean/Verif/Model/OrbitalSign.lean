import Verif.Model.Blocks
import Mathlib.Algebra.Order.Ring.Abs
import Mathlib.Algebra.Field.Defs

/-! Model of `fix_orbital_sign` (`vayesta/core/util.py:713-727`) and `orbital_sign_convention` (`vayesta/core/helper.py:4-14`).
Arithmetic is exact. -/

namespace Vayesta.OrbitalSign

variable {K : Type} [Field K] [LinearOrder K]

/-- `np.argmax` of `v 0, …, v n`: the first index of the largest value. -/
def argmax (v : Nat → K) : Nat → Nat
  | 0 => 0
  | n + 1 => if v (argmax v n) < v (n + 1) then n + 1 else argmax v n

/-- Coefficients: rows `0, …, nao - 1`, columns `0, …, nmo - 1`. -/
structure Coeff (K : Type) where
  nao : Nat
  nmo : Nat
  val : Nat → Nat → K

/-- Whether the orbital is flipped: its entry of largest magnitude is negative (util.py:721-723). -/
def swap (c : Coeff K) (j : Nat) : Bool := decide (c.val (argmax (fun i => |c.val i j|) (c.nao - 1)) j < 0)

/-- The array after `mo_coeff[:, swap] *= -1` (util.py:724). -/
def flipped (c : Coeff K) : Coeff K := ⟨c.nao, c.nmo, fun i j => if swap c j then c.val i j * (-1) else c.val i j⟩

/-- What a call leaves behind: the caller's array after the call, the returned array and signs. -/
structure Result (K : Type) where
  argument : Coeff K
  coeff : Coeff K
  signs : Nat → Int

/-- One array (util.py:719-727, helper.py:4-14): with `inplace` the caller's array is changed and returned, otherwise a copy.
`np.argmax` along an axis of length zero raises ValueError. -/
def fixRestricted (c : Coeff K) (inplace : Bool) : Except PyErr (Result K) :=
  if c.nao = 0 then .error .valueError
  else .ok ⟨if inplace then flipped c else c, flipped c, fun j => if swap c j then -1 else 1⟩

/-- `fix_orbital_sign` for a pair of arrays (util.py:715-718). -/
def fixUnrestricted (ca cb : Coeff K) (inplace : Bool) : Except PyErr (Result K × Result K) :=
  (fixRestricted ca inplace).bind fun a => (fixRestricted cb inplace).map fun b => (a, b)

end Vayesta.OrbitalSign
