import Verif.Model.Cache

/-! Specification for C09. -/

namespace Vayesta.Cache

variable {K V : Type} [DecidableEq K]

/-- Specification of recency: the distinct arguments called since the last `cache_clear`, most recent first. -/
def recent : List K → Op K V → List K
  | ks, .call k => k :: ks.filter (· ≠ k)
  | ks, .mutate _ _ => ks
  | _, .clear => []

end Vayesta.Cache
