import Verif.Model.SymOp

/-! What symmetry operations should do. -/

namespace Vayesta.SymOp

variable {K : Type} [Field K] [LinearOrder K]

/-- Atoms of the same kind: same element (or same label, if labels are respected) and, unless disabled, same basis. -/
def SameKind (m : Mol K) (o : Opts K) (a b : Atom K) : Prop :=
  (if o.checkLabel then a.symbol = b.symbol else a.pure = b.pure) ∧ (o.checkBasis = true → m.basis a.symbol = m.basis b.symbol)

/-- The operation `f` brings atom `i` to the position of atom `j`, which is of the same kind. -/
def BringsTo (m : Mol K) (o : Opts K) (f : Pt K → Pt K) (i j : Nat) : Prop :=
  ∃ a b, m.atoms[i]? = some a ∧ m.atoms[j]? = some b ∧ norm2 (b.coord - f a.coord) ≤ o.xtol ^ 2 ∧ SameKind m o a b

/-- Different atoms are more than `t` apart. -/
def Apart (m : Mol K) (t : K) : Prop :=
  ∀ (i j : Nat) (a b : Atom K), m.atoms[i]? = some a → m.atoms[j]? = some b → norm2 (a.coord - b.coord) ≤ t ^ 2 → i = j

/-- Distances are preserved. -/
def Isometric (f : Pt K → Pt K) : Prop := ∀ p q, norm2 (f p - f q) = norm2 (p - q)

/-- Within the cell, translation by `v` brings atom `i` to atom `j`, crossing the boundary `n d` times in direction `d`. -/
def CellBringsTo (c : Cell K) (o : Opts K) (v : Pt K) (i j : Nat) (n : Fin 3 → Int) : Prop :=
  ∃ a b, c.mol.atoms[i]? = some a ∧ c.mol.atoms[j]? = some b ∧ norm2 (b.coord + shiftPt n - (a.coord + v)) < o.xtol ^ 2 ∧ SameKind c.mol o a b

/-- Different atoms, and different periodic images of an atom, are more than `t` apart. -/
def CellApart (c : Cell K) (t : K) : Prop :=
  ∀ (i j : Nat) (a b : Atom K) (n : Fin 3 → Int), c.mol.atoms[i]? = some a → c.mol.atoms[j]? = some b →
    norm2 (a.coord + shiftPt n - b.coord) ≤ t ^ 2 → i = j ∧ n = 0

/-- Sign of crossing the boundary `n d` times in direction `d`: minus one per crossing of a boundary that is not periodic. -/
def crossingSign (b : Boundary) (n : Fin 3 → Int) : Int :=
  ∏ d, if (b.list d).toLower = "pbc" then 1 else (-1) ^ (n d).natAbs

/-- Product of angular matrices: first `r`, then `s`. -/
def rotMul (r s : Nat → Nat → Nat → K) : Nat → Nat → Nat → K := fun l x z => ∑ y : Fin (2 * l + 1), r l x y * s l y z
/-- Unit matrices. -/
def rotOne : Nat → Nat → Nat → K := fun _ x y => if x = y then 1 else 0
/-- Powers. -/
def rotPow (r : Nat → Nat → Nat → K) : Nat → Nat → Nat → Nat → K
  | 0 => rotOne
  | n + 1 => rotMul r (rotPow r n)
/-- Equal as far as components exist; `s` functions are never rotated. -/
def RotEq (r s : Nat → Nat → Nat → K) : Prop := ∀ l, 0 < l → ∀ x y : Fin (2 * l + 1), r l x y = s l x y

end Vayesta.SymOp
