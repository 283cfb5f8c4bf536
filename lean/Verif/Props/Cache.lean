import Verif.Lemmas.Cache

/-! # C09: memoised functions -/

namespace Vayesta.Props
open Vayesta.Cache

variable {K V : Type} [DecidableEq K]

/-- **C09.** With `copy=True`, for every program of calls, mutations of earlier results and `cache_clear`s, and every cache
size, each call observes exactly the value of the undecorated function. -/
theorem cache_copy_transparent (maxsize : Option Nat) (f : K → V) (ops : List (Op K V)) :
    (run maxsize true f {} ops).2 = ops.filterMap fun
      | .call k => some (k, some (f k))
      | _ => none := by
  rw [run_copy maxsize f ops {} (by intro _ _ h; simp at h) (by intro _ _ h; simp at h) (by intro _ h; simp at h)]
  induction ops with
  | nil => rfl
  | cons op ops ih => cases op <;> simp [expected, ih]

/-- **C09.** Without `copy` the same holds for every program that does not mutate results. -/
theorem cache_transparent_without_mutation (maxsize : Option Nat) (f : K → V) (ops : List (Op K V))
    (hm : ∀ i v, Op.mutate i v ∉ ops) :
    (run maxsize false f {} ops).2 = ops.filterMap fun
      | .call k => some (k, some (f k))
      | _ => none := by
  rw [run_nocopy maxsize f ops {} hm (by intro _ _ h; simp at h)]
  clear hm
  induction ops with
  | nil => rfl
  | cons op ops ih => cases op <;> simp [expected, ih]

/-- **C09.** After any program the cache holds exactly the `maxsize` most recently used distinct arguments since the last
`cache_clear` (all of them if `maxsize` is `None`); in particular never more than `maxsize` entries. -/
theorem cache_holds_most_recent (maxsize : Option Nat) (copy : Bool) (f : K → V) (ops : List (Op K V)) :
    (run maxsize copy f {} ops).1.cache.map Prod.fst =
      (match maxsize with
        | none => ops.foldl recent []
        | some m => (ops.foldl recent []).take m) ∧
    ∀ m, maxsize = some m → (run maxsize copy f {} ops).1.cache.length ≤ m := by
  have h := run_keys maxsize copy f ops {} [] (by simp) (by cases maxsize <;> simp [lruKeys])
  refine ⟨by rw [h]; rfl, ?_⟩
  rintro m rfl
  have h2 := congrArg List.length h
  simp only [lruKeys, List.length_map, List.length_take] at h2
  omega

/-- **C09.** Without `copy` a caller that mutates a result changes what a later call returns. -/
theorem cache_without_copy_aliases :
    ∃ ops : List (Op Nat Nat), (run (some 16) false (fun k => k + 1) {} ops).2 ≠ ops.filterMap fun
      | .call k => some (k, some (k + 1))
      | _ => none :=
  ⟨[.call 3, .mutate 0 99, .call 3], by decide⟩

example : (run (some 2) true (fun k => k + 1) {} [.call 3, .mutate 0 99, .call 3, .call 4, .call 5, .clear, .call 3]).2
    = [(3, some 4), (3, some 4), (4, some 5), (5, some 6), (3, some 4)] := by decide
example : (run (some 2) true (fun k => k + 1) {} [Op.call 3, .call 4, .call 3, .call 5]).1.cache.map Prod.fst = [5, 3] := by
  decide

end Vayesta.Props
