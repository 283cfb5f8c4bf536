import Verif.Model.Lowdin
import Mathlib.Data.Matrix.Mul
import Mathlib.Data.List.FinRange

/-! Model of the active spaces of the ebcc solver: `gen_space` (`vayesta/solver/ebcc.py:374-438`). Orbitals are lists of columns in the local
cluster basis. Arithmetic is exact: singular values are compared with zero and one exactly. -/

namespace Vayesta.ActSpace

open Vayesta.Lowdin Matrix

variable {K : Type} [Field K] [LinearOrder K]

/-- A column in the basis of `m` cluster orbitals. -/
abbrev Col (m : Nat) (K : Type) := Fin m → K

/-- `dot(c, c.T)`. -/
def proj {m : Nat} (c : List (Col m K)) : Matrix (Fin m) (Fin m) K := (c.map fun v => vecMulVec v v).sum

/-- All singular values of `dot(a.T, b)` are zero: all overlaps are. -/
def noOverlap {m : Nat} (a b : List (Col m K)) : Bool := a.all fun u => b.all fun v => u ⬝ᵥ v == 0

/-- The columns of `x` are orthonormal after projection on the columns of `y`: `dot(dot(y.T, x).T, dot(y.T, x))` is the identity. -/
def unitGram {m : Nat} (y x : List (Col m K)) : Bool :=
  (List.range x.length).all fun i => (List.range x.length).all fun j =>
    (y.map fun f => (f ⬝ᵥ x.getD i 0) * (f ⬝ᵥ x.getD j 0)).sum == if i = j then 1 else 0

/-- All singular values of `dot(full.T, act)` are one; there are as many as the smaller of the two sizes. -/
def unitSingular {m : Nat} (full act : List (Col m K)) : Bool := if act.length ≤ full.length then unitGram full act else unitGram act full

/-- Eigenvectors with eigenvalues above `tol` (ebcc.py:415-416). -/
def above {m : Nat} (g : Eig (Fin m) K) (tol : K) : List (Col m K) := ((List.finRange m).filter fun k => tol < g.val k).map fun k i => g.vec i k

/-- `a = np.zeros(n, dtype=bool); a[-k:] = True`: for `k = 0` the slice is the whole array. -/
def lastTrue (n k : Nat) : List Bool := if k = 0 then List.replicate n true else List.replicate (n - k) false ++ List.replicate (min k n) true

/-- `a = np.zeros(n, dtype=bool); a[:k] = True`. -/
def firstTrue (n k : Nat) : List Bool := List.replicate (min k n) true ++ List.replicate (n - k) false

/-- `gen_actspace` (ebcc.py:401-426): orbitals, frozen flags, active flags. -/
def genActspace {m : Nat} (eigh : Matrix (Fin m) (Fin m) K → Eig (Fin m) K) (tol : K) (full act frozen : List (Col m K)) :
    Except PyErr (List (Col m K) × List Bool × List Bool) :=
  if 0 < frozen.length ∧ noOverlap act frozen = false then .error .valueError
  else if 0 < act.length ∧ unitSingular full act = false then .error .valueError
  else
    let rest := above (eigh (proj full - proj act - proj frozen)) tol
    let c := frozen ++ rest ++ act
    if c.length ≠ full.length then .error .assertionError
    else .ok (c, firstTrue c.length frozen.length, lastTrue c.length act.length)

/-- An orbital with its flags. -/
structure Orb (m : Nat) (K : Type) where
  col : Col m K
  occupied : Bool
  frozen : Bool
  active : Bool

/-- Put orbitals and flags together. -/
def orbs {m : Nat} (occ : Bool) (c : List (Col m K)) (f a : List Bool) : List (Orb m K) := (c.zip (f.zip a)).map fun x => ⟨x.1, occ, x.2.1, x.2.2⟩

/-- `c[:, mask]`. -/
def masked {m : Nat} (c : List (Col m K)) (mask : List Bool) : List (Col m K) := ((c.zip mask).filter fun x => x.2).map Prod.fst

/-- `frozen = np.zeros(n, dtype=bool); frozen[frozen_orbs] = True` (ebcc.py:396-398); indices out of range raise IndexError. -/
def frozenMask (n : Nat) : Option (List Nat) → Except PyErr (List Bool)
  | none => .ok (List.replicate n false)
  | some l => if l.all (· < n) then .ok ((List.range n).map fun i => decide (i ∈ l)) else .error .indexError

/-- `gen_space` (ebcc.py:374-438); the arrays handed to `ebcc.Space` are given as flags of the orbitals. -/
def genSpace {m : Nat} (eigh : Matrix (Fin m) (Fin m) K → Eig (Fin m) K) (tol : K) (occ vir : List (Col m K)) (actOcc actVir : Option (List (Col m K)))
    (frozenOrbs : Option (List Nat)) : Except PyErr (List (Orb m K)) :=
  match actOcc, actVir with
  | none, none =>
    match frozenMask (occ.length + vir.length) frozenOrbs with
    | .error e => .error e
    | .ok f =>
      .ok (orbs true occ (f.take occ.length) (List.replicate occ.length false) ++ orbs false vir (f.drop occ.length) (List.replicate vir.length false))
  | some ao, some av =>
    match frozenMask (occ.length + vir.length) frozenOrbs with
    | .error e => .error e
    | .ok f =>
      match genActspace eigh tol occ ao (masked occ (f.take occ.length)) with
      | .error e => .error e
      | .ok (co, fo, aco) =>
        match genActspace eigh tol vir av (masked vir (f.drop occ.length)) with
        | .error e => .error e
        | .ok (cv, fv, acv) => .ok (orbs true co fo aco ++ orbs false cv.reverse fv.reverse acv.reverse)
  | _, _ => .error .valueError

end Vayesta.ActSpace
