import Verif.Model.Blocks
import Mathlib.Algebra.Ring.Defs
import Mathlib.Algebra.BigOperators.Group.List.Basic

/-! Model of secondary fragments: `vayesta/core/fragmentation/fragmentation.py:246-296`, with `Fragment.copy`
(`vayesta/core/qemb/fragment.py:610-623`) and the use of `wf_factor` (`vayesta/ewf/fragment.py:253-254`). -/

namespace Vayesta.Secondary

/-- Bath options (`bath_options` dictionary): the three thresholds that the code touches; a missing key and the value `None` are
both `none` (the code tests `get(..., None) is not None`). `rest` stands for all other entries. -/
structure BathOpts (K R : Type) where
  threshold : Option K
  thresholdOcc : Option K
  thresholdVir : Option K
  rest : R
  deriving DecidableEq

/-- The attributes of a fragment used here (fragment.py:82-92, 138-215). `orb` stands for the fragment orbitals and all other
attributes that `copy` hands over unchanged. -/
structure Frag (K R S B : Type) where
  id : Nat
  orb : B
  solver : S
  bath : BathOpts K R
  wfFactor : Option Int
  isEnvelop : Bool := true
  isSecfrag : Bool := false
  bathParent : Option Nat := none
  symParent : Option Nat := none
  deriving DecidableEq

variable {K R S B : Type}

/-- New bath options (fragmentation.py:277-287). -/
def secBath [Mul K] (bnoThreshold : Option K) (factor : K) (b : BathOpts K R) : BathOpts K R :=
  match bnoThreshold with
  | some t => { b with threshold := some t, thresholdOcc := none, thresholdVir := none }
  | none => { b with
      threshold := b.threshold.map (· * factor)
      thresholdOcc := b.thresholdOcc.map (· * factor)
      thresholdVir := b.thresholdVir.map (· * factor) }

/-- Python `-(x or 1)` for `x` an integer or None (fragmentation.py:290): both None and 0 are replaced by 1. -/
def negOrOne (w : Option Int) : Int :=
  match w with
  | none => -1
  | some w => if w = 0 then -1 else -w

/-- Loop of `_create_secondary_fragments` (fragmentation.py:263-296). `next` is the next id of the register. Returns the primary
fragments (their `is_envelop` flag is reset), the new fragments and the next id; a fragment with a symmetry parent raises
NotImplementedError. Names are not modelled. -/
def createSecondary [Mul K] (bnoThreshold : Option K) (factor : K) (solver : S) :
    Nat → List (Frag K R S B) → Except PyErr (List (Frag K R S B) × List (Frag K R S B) × Nat)
  | next, [] => .ok ([], [], next)
  | next, fx :: fs =>
    if fx.symParent.isSome then .error .notImplementedError
    else
      let plus := { fx with id := next, solver := solver, bath := secBath bnoThreshold factor fx.bath,
                            isEnvelop := true, isSecfrag := true, bathParent := some fx.id }
      let minus := { fx with id := next + 1, solver := solver, wfFactor := some (negOrOne fx.wfFactor),
                             isEnvelop := false, isSecfrag := true, bathParent := some fx.id }
      (createSecondary bnoThreshold factor solver (next + 2) fs).map fun r =>
        ({ fx with isEnvelop := false } :: r.1, plus :: minus :: r.2.1, r.2.2)

/-- Weight of a fragment's wave function: `if wf_factor is not None: wf.multiply(wf_factor)` (ewf/fragment.py:253-254). -/
def weight (f : Frag K R S B) : Int := f.wfFactor.getD 1

end Vayesta.Secondary
