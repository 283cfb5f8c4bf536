/-! Specification for C06: how decorated subscripts are read. -/

namespace Vayesta.Spec

/-- An element of a subscripts string: a separator, or an index letter with its decorators. -/
inductive Tok
  | sep (c : Char)
  | idx (letter : Char) (decorators : List Char)
  deriving DecidableEq, Repr

def IsLetter (c : Char) : Prop := ('a' ≤ c ∧ c ≤ 'z') ∨ ('A' ≤ c ∧ c ≤ 'Z')

def IsSep (c : Char) : Prop := c ∈ [' ', ',', '-', '>', '.', '(', ')', '[', ']', '{', '}']

instance (c : Char) : Decidable (IsLetter c) := by unfold IsLetter; infer_instance
instance (c : Char) : Decidable (IsSep c) := by unfold IsSep; infer_instance

/-- `Reads s toks`: the string `s` consists of the tokens `toks`, in order. Every character that is neither a letter nor a
separator decorates the index it follows. -/
inductive Reads : List Char → List Tok → Prop
  | nil : Reads [] []
  | letter {s toks c} : Reads s toks → IsLetter c → Reads (s ++ [c]) (toks ++ [.idx c []])
  | sep {s toks c} : Reads s toks → IsSep c → Reads (s ++ [c]) (toks ++ [.sep c])
  | decorate {s toks l ds c} : Reads s (toks ++ [.idx l ds]) → ¬ IsLetter c → ¬ IsSep c →
      Reads (s ++ [c]) (toks ++ [.idx l (ds ++ [c])])

end Vayesta.Spec
