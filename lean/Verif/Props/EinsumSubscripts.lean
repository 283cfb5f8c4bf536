import Verif.Lemmas.EinsumSubscripts

/-! # C06: decorated einsum subscripts never alias -/

namespace Vayesta.Props
open Vayesta.Spec Vayesta.Einsum

/-- **C06.** If the subscripts are accepted, they can be read as tokens, and token `i` is written as the single character
`out[i]` such that: separators and undecorated indices are unchanged, decorated indices become letters that do not occur in
the input, and two tokens get the same character exactly if they are the same token. -/
theorem einsum_replace_faithful (subs out : List Char) (h : replaceDecorated subs = .ok out) :
    ∃ toks : List Tok, Reads subs toks ∧ out.length = toks.length ∧
      (∀ (i : Nat) c, toks[i]? = some (Tok.sep c) → out[i]? = some c) ∧
      (∀ (i : Nat) l, toks[i]? = some (Tok.idx l []) → out[i]? = some l) ∧
      (∀ (i : Nat) l d ds, toks[i]? = some (Tok.idx l (d :: ds)) → ∃ c, out[i]? = some c ∧ IsLetter c ∧ c ∉ subs) ∧
      (∀ i j : Nat, i < toks.length → j < toks.length → (out[i]? = out[j]? ↔ toks[i]? = toks[j]?)) := by
  unfold replaceDecorated at h
  rcases loop_inv subs [] [] ⟨asciiLetters.filter (· ∉ subs), [], []⟩ (inv_init subs) (by simp) with
    ⟨st, toks, h1, hI⟩ | ⟨h1, _⟩ | ⟨h1, _⟩
  swap
  · rw [h1] at h; simp [Except.map] at h
  swap
  · rw [h1] at h; simp [Except.map] at h
  rw [h1] at h
  simp only [Except.map, Except.ok.injEq] at h
  have hout := hI.out
  rw [h] at hout
  have hlen : out.length = toks.length := by
    have := congrArg List.length hout
    simpa using this.symm
  have key : ∀ (i : Nat) t, toks[i]? = some t → ∃ c, out[i]? = some c ∧ interp st.replaced t = some c := by
    intro i t ht
    have := congrArg (fun l => l[i]?) hout
    simp only [List.getElem?_map, ht, Option.map_some] at this
    cases ho : out[i]? with
    | none => simp [ho] at this
    | some c => simp [ho] at this; exact ⟨c, rfl, this⟩
  refine ⟨toks, hI.reads, hlen, ?_, ?_, ?_, ?_⟩
  · intro i c ht
    obtain ⟨c', h1, h2⟩ := key i _ ht
    simp [interp] at h2
    rw [h1, h2]
  · intro i c ht
    obtain ⟨c', h1, h2⟩ := key i _ ht
    simp [interp, interpIdx] at h2
    rw [h1, h2]
  · intro i l d ds ht
    obtain ⟨c', h1, h2⟩ := key i _ ht
    have hl := hI.letters l (d :: ds) (List.mem_of_getElem? ht)
    have h3 := interpIdx_isLetter hI hl.2 h2
    exact ⟨c', h1, h3.1, (hI.vals_new c' (h3.2 (by simp))).1⟩
  · intro i j hi hj
    obtain ⟨c, c1, c2⟩ := key i toks[i] (by simp [hi])
    obtain ⟨c', c1', c2'⟩ := key j toks[j] (by simp [hj])
    rw [c1, c1', List.getElem?_eq_getElem hi, List.getElem?_eq_getElem hj]
    constructor
    · intro e
      simp only [Option.some.injEq] at e
      subst e
      rw [interp_inj hI (List.getElem_mem hi) (List.getElem_mem hj) c2 c2']
    · intro e
      simp only [Option.some.injEq] at e
      rw [e, c2'] at c2
      rw [c2]

/-- **C06**, rejection: the call raises `ValueError` only for subscripts that cannot be read (a decorator that follows no index),
raises `IndexError` only if there are more decorator characters than unused letters, and never accepts unreadable subscripts. -/
theorem einsum_replace_rejects (subs : List Char) :
    (∀ e, replaceDecorated subs = .error e →
      (e = .valueError ∧ ¬ ∃ toks, Reads subs toks) ∨
      (e = .indexError ∧ (asciiLetters.filter (· ∉ subs)).length < subs.countP (fun c => ¬ (IsLetter c ∨ IsSep c)))) ∧
    ((¬ ∃ toks, Reads subs toks) → ∃ e, replaceDecorated subs = .error e) := by
  have hl := loop_inv subs [] [] ⟨asciiLetters.filter (· ∉ subs), [], []⟩ (inv_init subs) (by simp)
  unfold replaceDecorated
  constructor
  · intro e he
    rcases hl with ⟨st, toks, h1, hI⟩ | ⟨h1, h2⟩ | ⟨h1, h2⟩
    · rw [h1] at he; simp [Except.map] at he
    · rw [h1] at he; simp [Except.map] at he; exact Or.inl ⟨he.symm, h2⟩
    · rw [h1] at he; simp [Except.map] at he
      refine Or.inr ⟨he.symm, ?_⟩
      unfold ndec at h2
      exact h2
  · intro hn
    rcases hl with ⟨st, toks, h1, hI⟩ | ⟨h1, h2⟩ | ⟨h1, h2⟩
    · exact absurd ⟨toks, hI.reads⟩ hn
    · rw [h1]; exact ⟨_, rfl⟩
    · rw [h1]; exact ⟨_, rfl⟩

/-- Decorated, doubly decorated and plain indices are kept apart. -/
example : replaceDecorated "a!b,a!!b$->ab$".toList = .ok "zb,yx->ax".toList := by decide
example : replaceDecorated ",!a".toList = .error .valueError := by decide

end Vayesta.Props
