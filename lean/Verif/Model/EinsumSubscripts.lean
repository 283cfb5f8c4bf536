import Verif.Model.Blocks

/-! Model of `_einsum_replace_decorated_subscripts` (`vayesta/core/util.py:259-280`). -/

namespace Vayesta.Einsum

/-- `string.ascii_letters` in sorted (code point) order. -/
def asciiLetters : List Char :=
  "ABCDEFGHIJKLMNOPQRSTUVWXYZabcdefghijklmnopqrstuvwxyz".toList

/-- The separators of `keep` (util.py:265). -/
def separators : List Char := " ,->.()[]{}".toList

/-- State of the loop: `free` letters, the `replaced` dictionary, and `subscripts_out` (reversed, so that `pop` takes the head). -/
structure St where
  free : List Char
  replaced : List ((Char × Char) × Char)
  out : List Char

/-- One iteration of the loop (util.py:268-279). `free.pop()` takes the last element; on an empty list it raises `IndexError`. -/
def step (s : St) (char : Char) : Except PyErr St :=
  if char ∈ asciiLetters ∨ char ∈ separators then
    .ok { s with out := char :: s.out }
  else
    match s.out with
    | [] => .error .valueError
    | last :: out =>
      if last ∈ asciiLetters then
        match s.replaced.lookup (last, char) with
        | some c => .ok { s with out := c :: out }
        | none =>
          match s.free.getLast? with
          | none => .error .indexError
          | some c => .ok { free := s.free.dropLast, replaced := s.replaced ++ [((last, char), c)], out := c :: out }
      else .error .valueError

/-- The loop. -/
def loop (s : St) : List Char → Except PyErr St
  | [] => .ok s
  | c :: cs => match step s c with
    | .error e => .error e
    | .ok s => loop s cs

/-- `_einsum_replace_decorated_subscripts` (util.py:259-280). -/
def replaceDecorated (subscripts : List Char) : Except PyErr (List Char) :=
  (loop ⟨asciiLetters.filter (· ∉ subscripts), [], []⟩ subscripts).map fun s => s.out.reverse

end Vayesta.Einsum
