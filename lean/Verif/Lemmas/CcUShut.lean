import Verif.Model.CcURdm2
import Verif.Lemmas.DiagramTactic

namespace Vayesta.CcURdm2
open Vayesta.Diagram

set_option linter.unusedSectionVars false

variable {o v K : Type} [Fintype o] [Fintype v] [Field K] [CharZero K]
variable (t1 : o → v → K) (t2 : o → o → v → v → K) (l1 : o → v → K) (l2 : o → o → v → v → K)

/-- Amplitudes and multipliers of a closed shell. -/
def shut : UAmps o o v v K :=
  ⟨t1, t1, fun i j a b => t2 i j a b - t2 i j b a, t2, fun i j a b => t2 i j a b - t2 i j b a, l1, l1, fun i j a b => l2 i j a b - l2 i j b a, l2, fun i j a b => l2 i j a b - l2 i j b a⟩

end Vayesta.CcURdm2
