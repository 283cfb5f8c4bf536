/-! Specifications for C04 and C05. -/

namespace Vayesta.Spec

/-- Specification: the integers `a, a+1, ..., b-1`. -/
def ints (a b : Int) : List Int := (List.range (b - a).toNat).map fun i : Nat => a + i

/-- Positional arguments as documented: `brange(stop)`, `brange(start, stop)`, `brange(start, stop, step)`. -/
def parsedArgs : List Int → Option (Int × Int × Int)
  | [stop] => some (0, stop, 1)
  | [start, stop] => some (start, stop, 1)
  | [start, stop, step] => some (start, stop, step)
  | _ => none

end Vayesta.Spec
