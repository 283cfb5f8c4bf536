import Verif.Model.EinsumSubscripts
import Verif.Spec.EinsumSubscripts
import Mathlib.Data.List.Basic
import Mathlib.Data.List.Nodup
import Mathlib.Data.List.Induction
import Mathlib.Tactic.Tauto

namespace Vayesta.Einsum
open Vayesta.Spec

theorem mem_separators (c : Char) : c ∈ separators ↔ IsSep c := by
  have : separators = [' ', ',', '-', '>', '.', '(', ')', '[', ']', '{', '}'] := by decide
  rw [this]; rfl

theorem mem_asciiLetters (c : Char) : c ∈ asciiLetters ↔ IsLetter c := by
  unfold IsLetter
  constructor
  · intro h
    have : ∀ x ∈ asciiLetters, ('a' ≤ x ∧ x ≤ 'z') ∨ ('A' ≤ x ∧ x ≤ 'Z') := by decide
    exact this c h
  · intro h
    have h1 : (65 ≤ c.toNat ∧ c.toNat ≤ 90) ∨ (97 ≤ c.toNat ∧ c.toNat ≤ 122) := by
      rcases h with h | h
      · right; exact ⟨h.1, h.2⟩
      · left; exact ⟨h.1, h.2⟩
    have hc : c = Char.ofNat c.toNat := (Char.ofNat_toNat c).symm
    have : ∀ n, n < 123 → ((65 ≤ n ∧ n ≤ 90) ∨ (97 ≤ n ∧ n ≤ 122)) → Char.ofNat n ∈ asciiLetters := by decide
    rw [hc]
    exact this _ (by omega) h1

theorem letter_not_sep {c : Char} (h : IsLetter c) : ¬ IsSep c := by
  intro h2
  rw [← mem_asciiLetters] at h
  rw [← mem_separators] at h2
  have : ∀ x ∈ asciiLetters, x ∉ separators := by decide
  exact this c h h2

/-- The plain letter currently standing for a decorated index. -/
def interpIdx (rep : List ((Char × Char) × Char)) : Char → List Char → Option Char
  | l, [] => some l
  | l, d :: ds => match rep.lookup (l, d) with
    | none => none
    | some c => interpIdx rep c ds

def interp (rep : List ((Char × Char) × Char)) : Tok → Option Char
  | .sep c => some c
  | .idx l ds => interpIdx rep l ds

theorem interpIdx_append (rep : List ((Char × Char) × Char)) (l : Char) (ds : List Char) (d : Char) :
    interpIdx rep l (ds ++ [d]) = (interpIdx rep l ds).bind fun c => rep.lookup (c, d) := by
  induction ds generalizing l with
  | nil => simp [interpIdx]; cases rep.lookup (l, d) <;> rfl
  | cons a ds ih =>
    simp only [List.cons_append, interpIdx]
    cases rep.lookup (l, a) with
    | none => rfl
    | some c => exact ih c

theorem lookup_append_some {rep : List ((Char × Char) × Char)} {k k' : Char × Char} {c c' : Char}
    (h : rep.lookup k = some c) : (rep ++ [(k', c')]).lookup k = some c := by
  rw [List.lookup_append, h]; rfl

theorem interpIdx_mono {rep : List ((Char × Char) × Char)} {k' : Char × Char} {c' : Char} {l : Char} {ds : List Char} {r : Char}
    (h : interpIdx rep l ds = some r) : interpIdx (rep ++ [(k', c')]) l ds = some r := by
  induction ds generalizing l with
  | nil => exact h
  | cons d ds ih =>
    simp only [interpIdx] at h ⊢
    cases hl : rep.lookup (l, d) with
    | none => simp [hl] at h
    | some c =>
      simp only [hl] at h
      rw [lookup_append_some hl]
      exact ih h

theorem interp_mono {rep : List ((Char × Char) × Char)} {k' : Char × Char} {c' : Char} {t : Tok} {r : Char}
    (h : interp rep t = some r) : interp (rep ++ [(k', c')]) t = some r := by
  cases t with
  | sep c => exact h
  | idx l ds => exact interpIdx_mono h

/-- Loop invariant after reading `s` (a prefix of `subs`), with tokens `toks`. -/
structure Inv (subs : List Char) (s : List Char) (toks : List Tok) (st : St) : Prop where
  reads : Reads s toks
  out : toks.map (interp st.replaced) = st.out.reverse.map some
  letters : ∀ l ds, Tok.idx l ds ∈ toks → l ∈ subs ∧ IsLetter l
  seps : ∀ c, Tok.sep c ∈ toks → IsSep c
  vals_nodup : (st.replaced.map Prod.snd).Nodup
  vals_new : ∀ c ∈ st.replaced.map Prod.snd, c ∉ subs ∧ IsLetter c
  free_new : ∀ c ∈ st.free, c ∉ subs ∧ IsLetter c ∧ c ∉ st.replaced.map Prod.snd
  free_nodup : st.free.Nodup

theorem mem_of_lookup {rep : List ((Char × Char) × Char)} {k : Char × Char} {c : Char} (h : rep.lookup k = some c) :
    (k, c) ∈ rep := by
  induction rep with
  | nil => simp at h
  | cons x l ih =>
    obtain ⟨a, b⟩ := x
    by_cases hk : k = a
    · subst hk; simp [List.lookup] at h; simp [h]
    · have : (k == a) = false := by simp [hk]
      simp only [List.lookup, this] at h
      simp [ih h]

theorem interpIdx_isLetter {subs s toks st} (hI : Inv subs s toks st) {l : Char} {ds : List Char} {r : Char}
    (hl : IsLetter l) (h : interpIdx st.replaced l ds = some r) :
    IsLetter r ∧ (ds ≠ [] → r ∈ st.replaced.map Prod.snd) := by
  induction ds generalizing l with
  | nil => simp [interpIdx] at h; subst h; exact ⟨hl, by simp⟩
  | cons d ds ih =>
    simp only [interpIdx] at h
    cases hk : st.replaced.lookup (l, d) with
    | none => simp [hk] at h
    | some c =>
      simp only [hk] at h
      have hc : c ∈ st.replaced.map Prod.snd := List.mem_map.2 ⟨_, mem_of_lookup hk, rfl⟩
      have := ih (hI.vals_new c hc).2 h
      refine ⟨this.1, fun _ => ?_⟩
      cases ds with
      | nil => simp [interpIdx] at h; subst h; exact hc
      | cons e ds => exact this.2 (by simp)

/-- Tokens with the same plain letter are the same. -/
theorem interpIdx_inj {subs s toks st} (hI : Inv subs s toks st) :
    ∀ (ds ds' : List Char) (l l' r : Char), l ∈ subs → l' ∈ subs → IsLetter l → IsLetter l' →
      interpIdx st.replaced l ds.reverse = some r → interpIdx st.replaced l' ds'.reverse = some r → l = l' ∧ ds = ds' := by
  intro ds
  induction ds with
  | nil =>
    intro ds' l l' r hl hl' hL hL' h h'
    simp [interpIdx] at h
    subst h
    cases ds' with
    | nil => simp [interpIdx] at h'; exact ⟨h'.symm, rfl⟩
    | cons d ds' =>
      have := (interpIdx_isLetter hI hL' h').2 (by simp)
      exact absurd hl (hI.vals_new _ this).1
  | cons d ds ih =>
    intro ds' l l' r hl hl' hL hL' h h'
    cases ds' with
    | nil =>
      simp [interpIdx] at h'
      subst h'
      have := (interpIdx_isLetter hI hL h).2 (by simp)
      exact absurd hl' (hI.vals_new _ this).1
    | cons d' ds' =>
      rw [List.reverse_cons, interpIdx_append] at h h'
      obtain ⟨c, hc, hc2⟩ := Option.bind_eq_some_iff.1 h
      obtain ⟨c', hc', hc2'⟩ := Option.bind_eq_some_iff.1 h'
      have e : ((c, d), r) = ((c', d'), r) := by
        have hinj := List.inj_on_of_nodup_map hI.vals_nodup
        exact hinj (mem_of_lookup hc2) (mem_of_lookup hc2') rfl
      simp only [Prod.mk.injEq, and_true] at e
      obtain ⟨rfl, rfl⟩ := e
      obtain ⟨h1, h2⟩ := ih ds' l l' c hl hl' hL hL' hc hc'
      exact ⟨h1, by rw [h2]⟩

theorem interp_inj {subs s toks st} (hI : Inv subs s toks st) {t t' : Tok} (ht : t ∈ toks) (ht' : t' ∈ toks) {r : Char}
    (h : interp st.replaced t = some r) (h' : interp st.replaced t' = some r) : t = t' := by
  cases t with
  | sep c =>
    simp [interp] at h; subst h
    cases t' with
    | sep c' => simp [interp] at h'; rw [h']
    | idx l ds =>
      exact absurd (hI.seps c ht) (letter_not_sep (interpIdx_isLetter hI (hI.letters l ds ht').2 h').1)
  | idx l ds =>
    cases t' with
    | sep c' =>
      simp [interp] at h'; subst h'
      exact absurd (hI.seps c' ht') (letter_not_sep (interpIdx_isLetter hI (hI.letters l ds ht).2 h).1)
    | idx l' ds' =>
      obtain ⟨a1, a2⟩ := hI.letters l ds ht
      obtain ⟨b1, b2⟩ := hI.letters l' ds' ht'
      have := interpIdx_inj hI ds.reverse ds'.reverse l l' r a1 b1 a2 b2 (by rw [List.reverse_reverse]; exact h) (by rw [List.reverse_reverse]; exact h')
      have h2 := this.2
      rw [List.reverse_inj] at h2
      rw [this.1, h2]

theorem inv_init (subs : List Char) : Inv subs [] [] ⟨asciiLetters.filter (· ∉ subs), [], []⟩ where
  reads := .nil
  out := rfl
  letters := by simp
  seps := by simp
  vals_nodup := by simp
  vals_new := by simp
  free_new := by
    intro c hc
    simp at hc
    exact ⟨hc.2, (mem_asciiLetters c).1 hc.1, by simp⟩
  free_nodup := by
    apply List.Nodup.filter
    decide

/-- Nothing can be read after a prefix whose last token is not an index. -/
theorem reads_unique {s toks toks'} (h : Reads s toks) (h' : Reads s toks') : toks = toks' := by
  induction h generalizing toks' with
  | nil =>
    generalize hs : ([] : List Char) = t at h'
    cases h' with
    | nil => rfl
    | letter _ _ => simp at hs
    | sep _ _ => simp at hs
    | decorate _ _ _ => simp at hs
  | @letter s toks c h hc ih =>
    generalize hs : s ++ [c] = t at h'
    cases h' with
    | nil => simp at hs
    | letter h2 hc2 => obtain ⟨rfl, h3⟩ := List.append_inj' hs rfl; simp at h3; subst h3; rw [ih h2]
    | sep h2 hc2 =>
      obtain ⟨rfl, h3⟩ := List.append_inj' hs rfl; simp at h3; subst h3; exact absurd hc2 (letter_not_sep hc)
    | decorate h2 hc2 _ => obtain ⟨rfl, h3⟩ := List.append_inj' hs rfl; simp at h3; subst h3; exact absurd hc hc2
  | @sep s toks c h hc ih =>
    generalize hs : s ++ [c] = t at h'
    cases h' with
    | nil => simp at hs
    | letter h2 hc2 =>
      obtain ⟨rfl, h3⟩ := List.append_inj' hs rfl; simp at h3; subst h3; exact absurd hc (letter_not_sep hc2)
    | sep h2 hc2 => obtain ⟨rfl, h3⟩ := List.append_inj' hs rfl; simp at h3; subst h3; rw [ih h2]
    | decorate h2 _ hc2 => obtain ⟨rfl, h3⟩ := List.append_inj' hs rfl; simp at h3; subst h3; exact absurd hc hc2
  | @decorate s toks l ds c h hc hc' ih =>
    generalize hs : s ++ [c] = t at h'
    cases h' with
    | nil => simp at hs
    | letter h2 hc2 => obtain ⟨rfl, h3⟩ := List.append_inj' hs rfl; simp at h3; subst h3; exact absurd hc2 hc
    | sep h2 hc2 => obtain ⟨rfl, h3⟩ := List.append_inj' hs rfl; simp at h3; subst h3; exact absurd hc2 hc'
    | decorate h2 _ hc2 =>
      obtain ⟨rfl, h3⟩ := List.append_inj' hs rfl; simp at h3; subst h3
      have := ih h2
      obtain ⟨e1, e2⟩ := List.append_inj' this rfl
      simp at e2
      rw [e1, e2.1, e2.2]

/-- Reading can only be extended one character at a time. -/
theorem reads_snoc {s toks c toks'} (h : Reads s toks) (h' : Reads (s ++ [c]) toks') :
    (IsLetter c ∧ toks' = toks ++ [.idx c []]) ∨ (IsSep c ∧ toks' = toks ++ [.sep c]) ∨
    (¬ IsLetter c ∧ ¬ IsSep c ∧ ∃ t l ds, toks = t ++ [.idx l ds] ∧ toks' = t ++ [.idx l (ds ++ [c])]) := by
  generalize hs : s ++ [c] = t at h'
  cases h' with
  | nil => simp at hs
  | letter h2 hc2 =>
    obtain ⟨rfl, h3⟩ := List.append_inj' hs rfl; simp at h3; subst h3
    exact Or.inl ⟨hc2, by rw [reads_unique h h2]⟩
  | sep h2 hc2 =>
    obtain ⟨rfl, h3⟩ := List.append_inj' hs rfl; simp at h3; subst h3
    exact Or.inr (Or.inl ⟨hc2, by rw [reads_unique h h2]⟩)
  | decorate h2 hc2 hc3 =>
    obtain ⟨rfl, h3⟩ := List.append_inj' hs rfl; simp at h3; subst h3
    exact Or.inr (Or.inr ⟨hc2, hc3, _, _, _, reads_unique h h2, rfl⟩)

theorem reads_prefix {s c toks'} (h' : Reads (s ++ [c]) toks') : ∃ toks, Reads s toks := by
  generalize hs : s ++ [c] = t at h'
  cases h' with
  | nil => simp at hs
  | letter h2 _ => obtain ⟨rfl, _⟩ := List.append_inj' hs rfl; exact ⟨_, h2⟩
  | sep h2 _ => obtain ⟨rfl, _⟩ := List.append_inj' hs rfl; exact ⟨_, h2⟩
  | decorate h2 _ _ => obtain ⟨rfl, _⟩ := List.append_inj' hs rfl; exact ⟨_, h2⟩

theorem reads_prefix_append {s t toks'} (h' : Reads (s ++ t) toks') : ∃ toks, Reads s toks := by
  induction t using List.reverseRecOn generalizing toks' with
  | nil => exact ⟨toks', by simpa using h'⟩
  | append_singleton t c ih =>
    rw [← List.append_assoc] at h'
    obtain ⟨_, h2⟩ := reads_prefix h'
    exact ih h2

/-- One iteration: the invariant is kept, or the error is justified. -/
theorem step_inv {subs s toks st} (hI : Inv subs s toks st) {c : Char} (hc : c ∈ subs) :
    (∃ st' toks', step st c = .ok st' ∧ Inv subs (s ++ [c]) toks' st' ∧
      st.free.length ≤ st'.free.length + (if IsLetter c ∨ IsSep c then 0 else 1) ∧ st'.free.length ≤ st.free.length) ∨
    (step st c = .error .valueError ∧ ¬ ∃ toks', Reads (s ++ [c]) toks') ∨
    (step st c = .error .indexError ∧ st.free = [] ∧ ¬ (IsLetter c ∨ IsSep c)) := by
  unfold step
  simp only [mem_asciiLetters, mem_separators]
  by_cases hk : IsLetter c ∨ IsSep c
  · left
    rw [if_pos hk]
    rcases hk with hk | hk
    · refine ⟨_, toks ++ [.idx c []], rfl, ⟨.letter hI.reads hk, ?_, ?_, ?_, hI.vals_nodup, hI.vals_new, hI.free_new,
        hI.free_nodup⟩, by simp, by simp⟩
      · simp [hI.out, interp, interpIdx]
      · intro l ds hm
        rcases List.mem_append.1 hm with hm | hm
        · exact hI.letters l ds hm
        · simp at hm; obtain ⟨rfl, rfl⟩ := hm; exact ⟨hc, hk⟩
      · intro l hm
        rcases List.mem_append.1 hm with hm | hm
        · exact hI.seps l hm
        · simp at hm
    · refine ⟨_, toks ++ [.sep c], rfl, ⟨.sep hI.reads hk, ?_, ?_, ?_, hI.vals_nodup, hI.vals_new, hI.free_new,
        hI.free_nodup⟩, by simp, by simp⟩
      · simp [hI.out, interp]
      · intro l ds hm
        rcases List.mem_append.1 hm with hm | hm
        · exact hI.letters l ds hm
        · simp at hm
      · intro l hm
        rcases List.mem_append.1 hm with hm | hm
        · exact hI.seps l hm
        · simp at hm; subst hm; exact hk
  · rw [if_neg hk]
    have hk' := hk
    simp only [not_or] at hk'
    cases ho : st.out with
    | nil =>
      right; left
      refine ⟨rfl, ?_⟩
      rintro ⟨toks', h'⟩
      have h0 := hI.out
      rw [ho] at h0
      simp at h0
      subst h0
      rcases reads_snoc hI.reads h' with h | h | ⟨_, _, t, l, ds, h, _⟩
      · exact hk'.1 h.1
      · exact hk'.2 h.1
      · simp at h
    | cons last out =>
      have h0 := hI.out
      rw [ho, List.reverse_cons, List.map_append] at h0
      obtain ⟨t, x, rfl⟩ : ∃ t x, toks = t ++ [x] := by
        rcases List.eq_nil_or_concat toks with h | ⟨t, x, h⟩
        · subst h; simp at h0
        · exact ⟨t, x, by simpa using h⟩
      rw [List.map_append] at h0
      obtain ⟨h1, h2⟩ := List.append_inj' h0 rfl
      simp at h2
      simp only
      by_cases hl : IsLetter last
      · rw [if_pos hl]
        obtain ⟨l, ds, rfl⟩ : ∃ l ds, x = .idx l ds := by
          cases x with
          | idx l ds => exact ⟨l, ds, rfl⟩
          | sep c' =>
            simp [interp] at h2; subst h2
            exact absurd (hI.seps c' (by simp)) (letter_not_sep hl)
        have hll := hI.letters l ds (by simp)
        cases hlk : st.replaced.lookup (last, c) with
        | some r =>
          left
          refine ⟨_, t ++ [.idx l (ds ++ [c])], rfl, ⟨.decorate hI.reads hk'.1 hk'.2, ?_, ?_, ?_, hI.vals_nodup, hI.vals_new,
            hI.free_new, hI.free_nodup⟩, by simp, by simp⟩
          · simp only [List.map_append, h1, List.reverse_cons, List.map_cons, List.map_nil]
            congr 2
            simp only [interp] at h2 ⊢
            rw [interpIdx_append, h2, Option.bind_some, hlk]
          · intro l' ds' hm
            rcases List.mem_append.1 hm with hm | hm
            · exact hI.letters l' ds' (by simp [hm])
            · simp at hm; obtain ⟨rfl, rfl⟩ := hm; exact hll
          · intro l' hm
            rcases List.mem_append.1 hm with hm | hm
            · exact hI.seps l' (by simp [hm])
            · simp at hm
        | none =>
          cases hf : st.free.getLast? with
          | none =>
            right; right
            exact ⟨rfl, by simpa using hf, hk⟩
          | some r =>
            left
            have hfree : st.free = st.free.dropLast ++ [r] := (List.dropLast_append_getLast? r hf).symm
            have hrm : r ∈ st.free := by rw [hfree]; simp
            have hdl : ∀ x ∈ st.free.dropLast, x ≠ r := by
              have := hI.free_nodup
              rw [hfree] at this
              intro x hx he
              exact (List.nodup_append.1 this).2.2 x hx r (by simp) he
            have hnew := hI.free_new r hrm
            have hlen : st.free.dropLast.length + 1 = st.free.length := by
              conv_rhs => rw [hfree]
              simp
            refine ⟨_, t ++ [.idx l (ds ++ [c])], rfl, ⟨.decorate hI.reads hk'.1 hk'.2, ?_, ?_, ?_, ?_, ?_, ?_, ?_⟩,
              by simp [hk]; omega, by simp⟩
            · simp only [List.map_append, List.reverse_cons, List.map_cons, List.map_nil]
              congr 1
              · rw [← h1]
                apply List.map_congr_left
                intro y hy
                have hs : ∃ z, interp st.replaced y = some z := by
                  have : interp st.replaced y ∈ t.map (interp st.replaced) := List.mem_map.2 ⟨y, hy, rfl⟩
                  rw [h1] at this
                  obtain ⟨z, _, hz⟩ := List.mem_map.1 this
                  exact ⟨z, hz.symm⟩
                obtain ⟨z, hz⟩ := hs
                rw [hz, interp_mono hz]
              · congr 1
                simp only [interp] at h2 ⊢
                rw [interpIdx_append, interpIdx_mono h2, Option.bind_some, List.lookup_append, hlk]
                simp [List.lookup]
            · intro l' ds' hm
              rcases List.mem_append.1 hm with hm | hm
              · exact hI.letters l' ds' (by simp [hm])
              · simp at hm; obtain ⟨rfl, rfl⟩ := hm; exact hll
            · intro l' hm
              rcases List.mem_append.1 hm with hm | hm
              · exact hI.seps l' (by simp [hm])
              · simp at hm
            · simp only [List.map_append, List.map_cons, List.map_nil]
              rw [List.nodup_append]
              refine ⟨hI.vals_nodup, by simp, ?_⟩
              intro a ha b hb
              simp at hb
              subst hb
              rintro rfl
              exact hnew.2.2 ha
            · intro a ha
              simp only [List.map_append, List.map_cons, List.map_nil, List.mem_append, List.mem_singleton] at ha
              rcases ha with ha | rfl
              · exact hI.vals_new a ha
              · exact ⟨hnew.1, hnew.2.1⟩
            · intro a ha
              have ha' : a ∈ st.free := (List.dropLast_sublist _).subset ha
              have := hI.free_new a ha'
              refine ⟨this.1, this.2.1, ?_⟩
              simp only [List.map_append, List.map_cons, List.map_nil, List.mem_append, List.mem_singleton, not_or]
              exact ⟨this.2.2, hdl a ha⟩
            · exact hI.free_nodup.sublist (List.dropLast_sublist _)
      · rw [if_neg hl]
        right; left
        refine ⟨rfl, ?_⟩
        rintro ⟨toks', h'⟩
        rcases reads_snoc hI.reads h' with h | h | ⟨_, _, t', l, ds, h, _⟩
        · exact hk'.1 h.1
        · exact hk'.2 h.1
        · obtain ⟨e1, e2⟩ := List.append_inj' h rfl
          simp at e2
          subst e2
          simp only [interp] at h2
          exact hl (interpIdx_isLetter hI (hI.letters l ds (by simp)).2 h2).1

/-- Number of decorator characters. -/
def ndec (s : List Char) : Nat := s.countP (fun c => ¬ (IsLetter c ∨ IsSep c))

theorem loop_inv {subs : List Char} (rest : List Char) : ∀ (s : List Char) (toks : List Tok) (st : St),
    Inv subs s toks st → subs = s ++ rest →
    (∃ st' toks', loop st rest = .ok st' ∧ Inv subs subs toks' st') ∨
    (loop st rest = .error .valueError ∧ ¬ ∃ toks', Reads subs toks') ∨
    (loop st rest = .error .indexError ∧ st.free.length < ndec rest) := by
  induction rest with
  | nil =>
    intro s toks st hI hs
    left
    simp at hs
    subst hs
    exact ⟨st, toks, rfl, hI⟩
  | cons c rest ih =>
    intro s toks st hI hs
    have hcm : c ∈ subs := by rw [hs]; simp
    simp only [loop]
    rcases step_inv hI hcm with ⟨st', toks', h1, h2, h3, _⟩ | ⟨h1, h2⟩ | ⟨h1, h2, h3⟩
    · rw [h1]
      simp only
      rcases ih (s ++ [c]) toks' st' h2 (by simp [hs]) with h | h | ⟨h, h'⟩
      · exact Or.inl h
      · exact Or.inr (Or.inl h)
      · refine Or.inr (Or.inr ⟨h, ?_⟩)
        unfold ndec at h' ⊢
        by_cases hk : IsLetter c ∨ IsSep c
        · rw [List.countP_cons_of_neg (by simp only [decide_not, Bool.not_eq_true', decide_eq_false_iff_not, not_not]; exact hk)]
          simp only [hk, if_true] at h3
          omega
        · rw [List.countP_cons_of_pos (by simpa using hk)]
          simp only [hk, if_false] at h3
          omega
    · right; left
      rw [h1]
      refine ⟨rfl, ?_⟩
      rintro ⟨t, ht⟩
      rw [hs] at ht
      rw [show s ++ c :: rest = (s ++ [c]) ++ rest by simp] at ht
      exact h2 (reads_prefix_append ht)
    · right; right
      rw [h1]
      refine ⟨rfl, ?_⟩
      unfold ndec
      rw [List.countP_cons_of_pos (by simpa using h3), h2]
      simp

end Vayesta.Einsum
