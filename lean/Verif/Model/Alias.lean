import Verif.Model.Blocks
import Mathlib.Algebra.Ring.Defs
import Mathlib.Logic.Function.Basic

/-! Model of in-place scaling of wave functions: `multiply` of the CCSD and MP2 types (`vayesta/core/types/wf/ccsd.py:101-107`,
`342-348`, `mp2.py:68-69`), `copy` (`ccsd.py:149-155`), and the places where two amplitudes are the same array object. Arrays are
lists of numbers on a heap; a wave function holds references. -/

namespace Vayesta.Alias

/-- Heap of arrays; references from `next` on are unused. -/
structure Heap (K : Type) where
  get : Nat → List K
  next : Nat

variable {K : Type} [CommRing K]

/-- `a *= f` on the array object behind reference `r`. -/
def Heap.scale (f : K) (r : Nat) (h : Heap K) : Heap K := { h with get := Function.update h.get r ((h.get r).map (f * ·)) }

/-- A new array object. -/
def Heap.alloc (a : List K) (h : Heap K) : Heap K × Nat := ({ get := Function.update h.get h.next a, next := h.next + 1 }, h.next)

/-- The amplitude attributes of an `RCCSD_WaveFunction` (ccsd.py:44-49). -/
structure RWf where
  t1 : Nat
  t2 : Nat
  l1 : Option Nat
  l2 : Option Nat

/-- References in the order in which `multiply` visits them. -/
def RWf.refs (w : RWf) : List Nat := [w.t1, w.t2] ++ w.l1.toList ++ w.l2.toList

/-- `RCCSD_WaveFunction.multiply` (ccsd.py:101-107): four in-place multiplications, the last two if the attribute is not None. -/
def RWf.multiply (f : K) (w : RWf) (h : Heap K) : Heap K :=
  let h := h.scale f w.t1
  let h := h.scale f w.t2
  let h := match w.l1 with | none => h | some r => h.scale f r
  match w.l2 with | none => h | some r => h.scale f r

/-- `RCCSD_WaveFunction.copy` (ccsd.py:149-155): every amplitude is copied into a new array. -/
def RWf.copy (w : RWf) (h : Heap K) : Heap K × RWf :=
  let (h, t1) := h.alloc (h.get w.t1)
  let (h, t2) := h.alloc (h.get w.t2)
  match w.l1, w.l2 with
  | none, none => (h, ⟨t1, t2, none, none⟩)
  | some r, none => let (h, l1) := h.alloc (h.get r); (h, ⟨t1, t2, some l1, none⟩)
  | none, some r => let (h, l2) := h.alloc (h.get r); (h, ⟨t1, t2, none, some l2⟩)
  | some r, some s =>
    let (h, l1) := h.alloc (h.get r)
    let (h, l2) := h.alloc (h.get s)
    (h, ⟨t1, t2, some l1, some l2⟩)

/-- The wave function left by the CCSD solver (solver/ccsd.py:65-73): with `solve_lambda` the lambda amplitudes are new arrays,
otherwise `l1, l2 = mycc.t1, mycc.t2` are the same objects as the cluster amplitudes. `sol` are the arrays produced by the
external coupled-cluster code: `t1, t2` and, if solved for, `l1, l2`. -/
def solverWf (solveLambda : Bool) (sol : (List K × List K) × (List K × List K)) (h : Heap K) : Heap K × RWf :=
  let (h, t1) := h.alloc sol.1.1
  let (h, t2) := h.alloc sol.1.2
  if solveLambda then
    let (h, l1) := h.alloc sol.2.1
    let (h, l2) := h.alloc sol.2.2
    (h, ⟨t1, t2, some l1, some l2⟩)
  else (h, ⟨t1, t2, some t1, some t2⟩)

/-- `if self.opts.wf_factor is not None: wf.multiply(self.opts.wf_factor)` (ewf/fragment.py:253-254). -/
def applyFactor (factor : Option K) (w : RWf) (h : Heap K) : Heap K :=
  match factor with
  | none => h
  | some f => w.multiply f h

/-- The values of the four amplitudes. -/
def RWf.vals (w : RWf) (h : Heap K) : List K × List K × Option (List K) × Option (List K) :=
  (h.get w.t1, h.get w.t2, w.l1.map h.get, w.l2.map h.get)

/-- The amplitude attributes of a `UCCSD_WaveFunction`: tuples of arrays. -/
structure UWf where
  t1 : List Nat
  t2 : List Nat
  l1 : Option (List Nat)
  l2 : Option (List Nat)

/-- `spinalg.multiply(x, len(x) * [factor])` (spinalg.py:79-104): a tuple of new arrays. -/
def mulTuple (f : K) : List Nat → Heap K → Heap K × List Nat
  | [], h => (h, [])
  | r :: rs, h =>
    let (h, r') := h.alloc ((h.get r).map (· * f))
    let (h, rs') := mulTuple f rs h
    (h, r' :: rs')

/-- `UCCSD_WaveFunction.multiply` (ccsd.py:342-348). -/
def UWf.multiply (f : K) (w : UWf) (h : Heap K) : Heap K × UWf :=
  let (h, t1) := mulTuple f w.t1 h
  let (h, t2) := mulTuple f w.t2 h
  let opt (x : Option (List Nat)) (h : Heap K) : Heap K × Option (List Nat) :=
    match x with
    | none => (h, none)
    | some x => let (h, y) := mulTuple f x h; (h, some y)
  let (h, l1) := opt w.l1 h
  let (h, l2) := opt w.l2 h
  (h, ⟨t1, t2, l1, l2⟩)

/-- The values of the amplitudes. -/
def UWf.vals (w : UWf) (h : Heap K) : List (List K) × List (List K) × Option (List (List K)) × Option (List (List K)) :=
  (w.t1.map h.get, w.t2.map h.get, w.l1.map (·.map h.get), w.l2.map (·.map h.get))

end Vayesta.Alias
