import Verif.Model.Symmetry

/-! Specification for C14 and C15. -/

namespace Vayesta.Spec
open Vayesta.Sym

/-- A script is properly nested and closes all contexts it opens. -/
def Closed {O : Type} : Nat → List (Cmd O) → Prop
  | n, [] => n = 0
  | n, .add :: cs => Closed n cs
  | n, .enter _ :: cs => Closed (n + 1) cs
  | n, .exit :: cs => 0 < n ∧ Closed (n - 1) cs

/-- Expected number of fragments: each `add` contributes the product of the orders (operations including identity) of the
contexts open at that point. `open_` lists the orders of the open contexts, innermost first. -/
def expectedCount {O : Type} (open_ : List Nat) : List (Cmd O) → Nat
  | [] => 0
  | .add :: cs => open_.foldr (· * ·) 1 + expectedCount open_ cs
  | .enter ops :: cs => expectedCount ((ops.length + 1) :: open_) cs
  | .exit :: cs => expectedCount open_.tail cs

/-- `Image act fs arr f x`: the object `x` is what the object `arr r` of `f`'s root `r` becomes when carried to `f` along the chain
of symmetry operations from the root to `f`. -/
inductive Image {O A : Type} (act : O → A → A) (fs : List (Frag O)) (arr : Frag O → A) : Frag O → A → Prop
  | root {r} : r ∈ fs → r.parent = none → Image act fs arr r (arr r)
  | child {p f op x} : Image act fs arr p x → f ∈ fs → f.parent = some p.id → f.op = some op → Image act fs arr f (act op x)

/-- `Depth fs f n`: `f` is `n` generations below a root. -/
inductive Depth {O : Type} (fs : List (Frag O)) : Frag O → Nat → Prop
  | root {r} : r ∈ fs → r.parent = none → Depth fs r 0
  | child {p f n} : Depth fs p n → f ∈ fs → f.parent = some p.id → Depth fs f (n + 1)

/-- The operation sequences generated by contexts with operations `open_` (innermost first): from each context either the
identity or one of its operations, innermost first. -/
def choices {O : Type} : List (List O) → List (List O)
  | [] => [[]]
  | ops :: outer => ([] :: ops.map fun o => [o]).flatMap fun a => (choices outer).map fun b => a ++ b

/-- The operations of the contexts open at each `add`, in order. -/
def openAtAdds {O : Type} (open_ : List (List O)) : List (Cmd O) → List (List (List O))
  | [] => []
  | .add :: cs => open_ :: openAtAdds open_ cs
  | .enter ops :: cs => openAtAdds (ops :: open_) cs
  | .exit :: cs => openAtAdds open_.tail cs

/-- A labelling of fragment ids by (root id, operation sequence) that agrees with the parents and operations. -/
structure IsLabelling {O : Type} (fs : List (Frag O)) (lab : Nat → Nat × List O) : Prop where
  root : ∀ f ∈ fs, f.parent = none → lab f.id = (f.id, [])
  child : ∀ f ∈ fs, ∀ p, f.parent = some p → ∃ g ∈ fs, g.id = p ∧ ∃ o, f.op = some o ∧
    lab f.id = ((lab p).1, (lab p).2 ++ [o])

/-- Largest number of simultaneously open contexts, starting with `n` open ones. -/
def maxNesting {O : Type} : Nat → List (Cmd O) → Nat
  | n, [] => n
  | n, .add :: cs => maxNesting n cs
  | n, .enter _ :: cs => max n (maxNesting (n + 1) cs)
  | n, .exit :: cs => max n (maxNesting (n - 1) cs)

end Vayesta.Spec
