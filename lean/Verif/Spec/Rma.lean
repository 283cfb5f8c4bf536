import Verif.Model.Rma

/-! Specification of a dictionary shared between processes: one published map, and the writes each process made since the last
successful end of a phase. -/

namespace Vayesta.Rma

/-- The abstract dictionary. -/
structure Shared (Key A : Type) where
  /-- Published values with the process that wrote them. -/
  view : Key → Option (Nat × Option A)
  /-- Unpublished values of each process. -/
  pending : Nat → Key → Option (Option A)
  /-- Processes in a write phase. -/
  writing : Nat → Bool

/-- Nothing written. -/
def Shared.empty {Key A : Type} : Shared Key A := ⟨fun _ => none, fun _ _ => none, fun _ => false⟩

/-- Two processes hold a value for the same key. -/
def Shared.Conflict {Key A : Type} (n : Nat) (s : Shared Key A) : Prop :=
  ∃ k r r', r < n ∧ r' < n ∧ r ≠ r' ∧ (s.pending r k).isSome ∧ (s.pending r' k).isSome

/-- The value of a key after publishing. -/
def Shared.published {Key A : Type} (n : Nat) (s : Shared Key A) (k : Key) : Option (Nat × Option A) :=
  match (List.range n).findSome? fun r => (s.pending r k).map fun v => (r, v) with
  | some x => some x
  | none => s.view k

open Classical in
/-- Effect and result of an event (writes, reads and ends of phases). -/
noncomputable def Shared.step {Key A : Type} (n : Nat) (s : Shared Key A) : Event Key A → Shared Key A × Output A
  | .enter r => ({ s with writing := fun i => if i = r then true else s.writing i }, .ok none)
  | .set r k (.arr a) =>
    if s.writing r = true then
      ({ s with pending := fun i k' => if i = r ∧ k' = k then some a else s.pending i k' }, .ok none)
    else (s, .error .attributeError)
  | .set r _ .bad => (s, .error (if s.writing r = true then .valueError else .attributeError))
  | .get r k =>
    if s.writing r = true then (s, .error .attributeError)
    else (s, match s.view k with
      | none => .error .keyError
      | some v => .ok (some v.2))
  | .sync =>
    if s.Conflict n then ({ s with writing := fun _ => false }, .error .attributeError)
    else (⟨s.published n, fun _ _ => none, fun _ => false⟩, .ok none)
  | .del _ _ => (s, .ok none)
  | .clear _ => (s, .ok none)

/-- A schedule. -/
noncomputable def Shared.run {Key A : Type} (n : Nat) : Shared Key A → List (Event Key A) → Shared Key A × List (Output A)
  | s, [] => (s, [])
  | s, e :: es =>
    let r := s.step n e
    let rest := Shared.run n r.1 es
    (rest.1, r.2 :: rest.2)

/-- The event is a write, a read, or the start or end of a phase, by one of `n` processes. -/
def Event.Plain {Key A : Type} (n : Nat) : Event Key A → Prop
  | .enter r => r < n
  | .set r _ _ => r < n
  | .get r _ => r < n
  | .sync => True
  | .del _ _ => False
  | .clear _ => False

/-- The event writes the key. -/
def Event.Writes {Key A : Type} (k : Key) : Event Key A → Prop
  | .set _ k' _ => k' = k
  | _ => False

/-- The event ends a phase. -/
def Event.IsSync {Key A : Type} : Event Key A → Prop
  | .sync => True
  | _ => False

end Vayesta.Rma
