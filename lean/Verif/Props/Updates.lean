import Verif.Spec.Updates
import Mathlib.Tactic.Ring
import Mathlib.Tactic.NormNum
import Mathlib.Tactic.LinearCombination
import Mathlib.Algebra.Order.Ring.Defs
import Mathlib.Algebra.Order.BigOperators.Group.List
import Mathlib.Algebra.BigOperators.Ring.Finset
import Mathlib.Algebra.Order.Ring.Rat
import Mathlib.Data.List.GetD
import Mathlib.Data.List.Forall2

/-! C39, C52: flattening and mixing of parameters. -/

namespace Vayesta.Props
open Vayesta Vayesta.Updates

section
variable {K : Type}

mutual
private theorem upd_flat : ∀ (p : Params K), Valid p → flat p = .ok (elements p)
  | .arr _ _, _ => rfl
  | .node [], h => absurd rfl h.1
  | .node (x :: xs), h => by
    rw [flat, elements]
    exact upd_flats (x :: xs) h.2
private theorem upd_flats : ∀ (ps : List (Params K)), ValidAll ps → flats ps = .ok (elementsOf ps)
  | [], _ => rfl
  | x :: xs, h => by
    rw [flats, upd_flat x h.1, upd_flats xs h.2, elementsOf]
end

mutual
private theorem upd_nonflat (v : List K) : ∀ (p : Params K) (x : Nat), Valid p → x + (elements p).length ≤ v.length →
    ∃ q, nonflat v (shapeOf p) x = .ok (q, x + (elements p).length) ∧ Valid q ∧ shapeOf q = shapeOf p ∧
      elements q = (v.drop x).take (elements p).length
  | .arr [] _, _, h, _ => absurd rfl h.1
  | .arr (d :: ds) a, x, h, hx => by
    have hl : a.length = prod (d :: ds) := h.2
    have hx' : x + a.length ≤ v.length := hx
    have hs : ((v.drop x).take (prod (d :: ds))).length = prod (d :: ds) := by
      rw [List.length_take, List.length_drop]; omega
    refine ⟨.arr (d :: ds) ((v.drop x).take (prod (d :: ds))), ?_, ⟨by simp, hs⟩, rfl, ?_⟩
    · rw [shapeOf, nonflat]
      simp only [hs, if_true, elements, hl]
    · simp only [elements, hl]
  | .node [], _, h, _ => absurd rfl h.1
  | .node (y :: ys), x, h, hx => by
    obtain ⟨qs, h1, h2, h3, h4⟩ := upd_nonflats v (y :: ys) x h.2 hx
    refine ⟨.node qs, ?_, ⟨?_, h2⟩, ?_, ?_⟩
    · rw [shapeOf, shapesOf, nonflat, ← shapesOf, h1, elements]
    · intro hq; rw [hq, shapesOf, shapesOf] at h3; cases h3
    · rw [shapeOf, shapeOf, h3]
    · rw [elements, h4, elements]
private theorem upd_nonflats (v : List K) : ∀ (ps : List (Params K)) (x : Nat), ValidAll ps →
    x + (elementsOf ps).length ≤ v.length →
    ∃ qs, nonflats v (shapesOf ps) x = .ok (qs, x + (elementsOf ps).length) ∧ ValidAll qs ∧ shapesOf qs = shapesOf ps ∧
      elementsOf qs = (v.drop x).take (elementsOf ps).length
  | [], x, _, _ => ⟨[], rfl, trivial, rfl, by simp [elementsOf]⟩
  | y :: ys, x, h, hx => by
    have hlen : (elementsOf (y :: ys)).length = (elements y).length + (elementsOf ys).length := by
      rw [elementsOf, List.length_append]
    obtain ⟨q, h1, h2, h3, h4⟩ := upd_nonflat v y x h.1 (by omega)
    obtain ⟨qs, k1, k2, k3, k4⟩ := upd_nonflats v ys (x + (elements y).length) h.2 (by omega)
    refine ⟨q :: qs, ?_, ⟨h2, k2⟩, ?_, ?_⟩
    · rw [shapesOf, nonflats, h1]
      simp only [k1, hlen, Nat.add_assoc]
    · rw [shapesOf, shapesOf, h3, k3]
    · rw [elementsOf, h4, k4, hlen, List.take_add, List.drop_drop]
end

mutual
private theorem upd_inj : ∀ (p q : Params K), Valid p → Valid q → shapeOf p = shapeOf q → elements p = elements q → p = q
  | .arr _ _, .arr _ _, _, _, hs, he => by
    rw [shapeOf, shapeOf] at hs
    rw [elements, elements] at he
    injection hs with hs
    rw [hs, he]
  | .arr _ _, .node _, _, _, hs, _ => by rw [shapeOf, shapeOf] at hs; cases hs
  | .node _, .arr _ _, _, _, hs, _ => by rw [shapeOf, shapeOf] at hs; cases hs
  | .node xs, .node ys, h, k, hs, he => by
    rw [shapeOf, shapeOf] at hs
    rw [elements, elements] at he
    injection hs with hs
    rw [upd_injs xs ys h.2 k.2 hs he]
private theorem upd_injs : ∀ (ps qs : List (Params K)), ValidAll ps → ValidAll qs → shapesOf ps = shapesOf qs →
    elementsOf ps = elementsOf qs → ps = qs
  | [], [], _, _, _, _ => rfl
  | [], _ :: _, _, _, hs, _ => by rw [shapesOf, shapesOf] at hs; cases hs
  | _ :: _, [], _, _, hs, _ => by rw [shapesOf, shapesOf] at hs; cases hs
  | x :: xs, y :: ys, h, k, hs, he => by
    rw [shapesOf, shapesOf] at hs
    injection hs with hs1 hs2
    rw [elementsOf, elementsOf] at he
    have hl := upd_len x y h.1 k.1 hs1
    obtain ⟨e1, e2⟩ := List.append_inj he hl
    rw [upd_inj x y h.1 k.1 hs1 e1, upd_injs xs ys h.2 k.2 hs2 e2]
private theorem upd_len : ∀ (p q : Params K), Valid p → Valid q → shapeOf p = shapeOf q →
    (elements p).length = (elements q).length
  | .arr _ _, .arr _ _, h, k, hs => by
    rw [shapeOf, shapeOf] at hs
    injection hs with hs
    rw [elements, elements, h.2, k.2, hs]
  | .arr _ _, .node _, _, _, hs => by rw [shapeOf, shapeOf] at hs; cases hs
  | .node _, .arr _ _, _, _, hs => by rw [shapeOf, shapeOf] at hs; cases hs
  | .node xs, .node ys, h, k, hs => by
    rw [shapeOf, shapeOf] at hs
    injection hs with hs
    rw [elements, elements, upd_lens xs ys h.2 k.2 hs]
private theorem upd_lens : ∀ (ps qs : List (Params K)), ValidAll ps → ValidAll qs → shapesOf ps = shapesOf qs →
    (elementsOf ps).length = (elementsOf qs).length
  | [], [], _, _, _ => rfl
  | [], _ :: _, _, _, hs => by rw [shapesOf, shapesOf] at hs; cases hs
  | _ :: _, [], _, _, hs => by rw [shapesOf, shapesOf] at hs; cases hs
  | x :: xs, y :: ys, h, k, hs => by
    rw [shapesOf, shapesOf] at hs
    injection hs with hs1 hs2
    rw [elementsOf, elementsOf, List.length_append, List.length_append, upd_len x y h.1 k.1 hs1, upd_lens xs ys h.2 k.2 hs2]
end

mutual
private theorem upd_nonflat_pos (v : List K) : ∀ (p : Params K) (x : Nat) (q : Params K) (y : Nat), Valid p →
    nonflat v (shapeOf p) x = .ok (q, y) → y = x + (elements p).length
  | .arr [] _, _, _, _, h, _ => absurd rfl h.1
  | .arr (d :: ds) a, x, q, y, h, hn => by
    rw [shapeOf, nonflat] at hn
    split at hn
    · simp only [Except.ok.injEq, Prod.mk.injEq] at hn
      rw [elements, ← hn.2]
      have : a.length = prod (d :: ds) := h.2
      rw [this]
    · cases hn
  | .node [], _, _, _, h, _ => absurd rfl h.1
  | .node (z :: zs), x, q, y, h, hn => by
    rw [shapeOf, shapesOf, nonflat, ← shapesOf] at hn
    cases hr : nonflats v (shapesOf (z :: zs)) x with
    | error e => rw [hr] at hn; cases hn
    | ok r =>
      rw [hr] at hn
      simp only [Except.ok.injEq, Prod.mk.injEq] at hn
      rw [elements, ← hn.2]
      exact upd_nonflats_pos v (z :: zs) x r.1 r.2 h.2 hr
private theorem upd_nonflats_pos (v : List K) : ∀ (ps : List (Params K)) (x : Nat) (qs : List (Params K)) (y : Nat), ValidAll ps →
    nonflats v (shapesOf ps) x = .ok (qs, y) → y = x + (elementsOf ps).length
  | [], x, qs, y, _, hn => by
    rw [shapesOf, nonflats] at hn
    simp only [Except.ok.injEq, Prod.mk.injEq] at hn
    rw [elementsOf, ← hn.2]; rfl
  | z :: zs, x, qs, y, h, hn => by
    rw [shapesOf, nonflats] at hn
    cases hr : nonflat v (shapeOf z) x with
    | error e => rw [hr] at hn; cases hn
    | ok r =>
      rw [hr] at hn
      simp only at hn
      cases hr2 : nonflats v (shapesOf zs) r.2 with
      | error e => rw [hr2] at hn; cases hn
      | ok r2 =>
        rw [hr2] at hn
        simp only [Except.ok.injEq, Prod.mk.injEq] at hn
        have e1 := upd_nonflat_pos v z x r.1 r.2 h.1 hr
        have e2 := upd_nonflats_pos v zs r.2 r2.1 r2.2 h.2 hr2
        rw [elementsOf, List.length_append, ← hn.2, e2, e1, Nat.add_assoc]
end

/-- **C39**: every vector with as many elements as the structure holds is rebuilt into that structure, with exactly those elements. -/
theorem unflatten_rebuilds (ps : List (Params K)) (hne : ps ≠ []) (hv : ValidAll ps) (v : List K)
    (hl : v.length = (elementsOf ps).length) :
    ∃ qs, unflatten (shapesOf ps) v = .ok qs ∧ ValidAll qs ∧ shapesOf qs = shapesOf ps ∧ elementsOf qs = v := by
  obtain ⟨q, h1, h2, h3, h4⟩ := upd_nonflat v (.node ps) 0 ⟨hne, hv⟩ (by rw [elements, hl]; omega)
  cases q with
  | arr ds d => rw [shapeOf, shapeOf] at h3; cases h3
  | node qs =>
    refine ⟨qs, ?_, h2.2, ?_, ?_⟩
    · rw [shapeOf] at h1
      unfold unflatten
      rw [h1]
      simp only [elements, hl, Nat.zero_add, if_true]
    · rw [shapeOf, shapeOf] at h3; injection h3
    · rw [elements, elements, ← hl, List.drop_zero, List.take_length] at h4
      exact h4

/-- **C39**: rebuilding the flattened parameters returns the parameters. -/
theorem unflatten_flatten (ps : List (Params K)) (hne : ps ≠ []) (hv : ValidAll ps) :
    ∃ v, flat (.node ps) = .ok v ∧ v = elementsOf ps ∧ unflatten (shapesOf ps) v = .ok ps := by
  refine ⟨elementsOf ps, ?_, rfl, ?_⟩
  · rw [upd_flat (.node ps) ⟨hne, hv⟩, elements]
  · obtain ⟨qs, h1, h2, h3, h4⟩ := unflatten_rebuilds ps hne hv (elementsOf ps) rfl
    rw [h1, upd_injs qs ps h2 hv h3 h4]

/-- **C39**: a vector of any other length is rejected, never silently cut or padded. -/
theorem unflatten_wrong_length (ps : List (Params K)) (hv : ValidAll ps) (v : List K)
    (hl : v.length ≠ (elementsOf ps).length) : ∃ e, unflatten (shapesOf ps) v = .error e := by
  cases ps with
  | nil => exact ⟨_, rfl⟩
  | cons p ps =>
    cases hr : nonflat v (shapeOf (.node (p :: ps))) 0 with
    | error e =>
      refine ⟨e, ?_⟩
      rw [shapeOf] at hr
      unfold unflatten
      rw [hr]
    | ok r =>
      have hp := upd_nonflat_pos v (.node (p :: ps)) 0 r.1 r.2 ⟨by simp, hv⟩ hr
      rw [shapeOf] at hr
      unfold unflatten
      rw [hr]
      obtain ⟨q, y⟩ := r
      cases q with
      | arr ds d => exact ⟨_, rfl⟩
      | node l =>
        refine ⟨.assertionError, ?_⟩
        simp only at hp ⊢
        rw [if_neg]
        rw [hp, elements]; omega

/-- **C39**: an empty list cannot be flattened (ValueError), wherever the list of parameters is empty; an array without axes is
flattened but cannot be rebuilt (IndexError). -/
theorem flatten_unsupported (ps qs : List (Params K)) (a : K) :
    flat (.node ([] : List (Params K))) = .error .valueError ∧
    (ValidAll ps → flat (.node (ps ++ .node [] :: qs)) = .error .valueError) ∧
    (ValidAll ps → ValidAll qs → flat (.node (ps ++ .arr [] [a] :: qs)) = .ok (elementsOf ps ++ a :: elementsOf qs) ∧
      ∀ v : List K, (elementsOf ps).length ≤ v.length →
        unflatten (shapesOf (ps ++ .arr [] [a] :: qs)) v = .error .indexError) := by
  have hnode : ∀ l : List (Params K), l ≠ [] → flat (.node l) = flats l := by
    intro l hl
    cases l with
    | nil => exact absurd rfl hl
    | cons x xs => rw [flat]
  refine ⟨rfl, ?_, ?_⟩
  · intro hv
    rw [hnode _ (by simp)]
    induction ps with
    | nil => simp only [List.nil_append, flats, flat]
    | cons p ps ih => rw [List.cons_append, flats, upd_flat p hv.1, ih hv.2]
  · intro hv hq
    constructor
    · rw [hnode _ (by simp)]
      induction ps with
      | nil => rw [List.nil_append, flats, flat, upd_flats qs hq]; rfl
      | cons p ps ih => rw [List.cons_append, flats, upd_flat p hv.1, ih hv.2, elementsOf]; simp
    · intro v hl
      have key : ∀ (ps : List (Params K)) (x : Nat), ValidAll ps → x + (elementsOf ps).length ≤ v.length →
          nonflats v (shapesOf (ps ++ .arr [] [a] :: qs)) x = .error .indexError := by
        intro ps
        induction ps with
        | nil => intro x _ _; rw [List.nil_append, shapesOf, nonflats, shapeOf, nonflat]
        | cons p ps ih =>
          intro x hv hl
          rw [elementsOf, List.length_append] at hl
          obtain ⟨q, h1, -⟩ := upd_nonflat v p x hv.1 (by omega)
          rw [List.cons_append, shapesOf, nonflats, h1]
          simp only
          rw [ih _ hv.2 (by omega)]
      have hk := key ps 0 hv (by omega)
      unfold unflatten
      have hns : ∃ s ss, shapesOf (ps ++ .arr [] [a] :: qs) = s :: ss := by
        cases ps with
        | nil => exact ⟨_, _, rfl⟩
        | cons p ps => exact ⟨_, _, rfl⟩
      obtain ⟨s, ss, hs⟩ := hns
      rw [hs] at hk ⊢
      rw [nonflat, hk]

end

section
variable {K : Type} [CommRing K]

private theorem upd_flatten_some (s : State K) (ps : List (Params K)) (hne : ps ≠ []) (hv : ValidAll ps) :
    flatten (some s) ps = .ok (s, elementsOf ps) := by
  unfold flatten
  rw [upd_flat (.node ps) ⟨hne, hv⟩, elements]

private theorem upd_flatten_none (ps : List (Params K)) (hne : ps ≠ []) (hv : ValidAll ps) :
    flatten none ps = .ok (⟨shapesOf ps, (elementsOf ps).map fun _ => 0⟩, elementsOf ps) := by
  unfold flatten
  rw [upd_flat (.node ps) ⟨hne, hv⟩, elements]

private theorem upd_step (α : K) (st : Option (State K)) (s : State K) (ps : List (Params K)) (hne : ps ≠ []) (hv : ValidAll ps)
    (hs : flatten st ps = .ok (s, elementsOf ps)) (hsh : s.shape = shapesOf ps) (hpl : s.prev.length = (elementsOf ps).length) :
    ∃ r, mixUpdate α st ps = (some ⟨shapesOf ps, elementsOf ps⟩, .ok (r, distSq (elementsOf ps) s.prev)) ∧
      ValidAll r ∧ shapesOf r = shapesOf ps ∧ elementsOf r = mixed α s.prev (elementsOf ps) := by
  obtain ⟨r, h1, h2, h3, h4⟩ := unflatten_rebuilds ps hne hv (mixed α s.prev (elementsOf ps))
    (by rw [mixed, List.length_zipWith, hpl, Nat.min_self])
  refine ⟨r, ?_, h2, h3, h4⟩
  unfold mixUpdate
  rw [hs]
  simp only [bcast, hpl, if_true]
  rw [hsh]
  unfold mixed at h1
  rw [h1]
  rfl

/-- The parameters of the call before call `k`, or zeros before the first call. -/
def previous (calls : List (List (Params K))) (k : Nat) : List K :=
  if k = 0 then (elementsOf (calls.getD 0 [])).map fun _ => 0 else elementsOf (calls.getD (k - 1) [])

private theorem upd_run (α : K) : ∀ (calls : List (List (Params K))) (sh : List Shape) (prev : List K) (st : Option (State K)),
    (∀ c ∈ calls, c ≠ [] ∧ ValidAll c ∧ shapesOf c = sh ∧ (elementsOf c).length = prev.length) →
    (∀ c ∈ calls, flatten st c = .ok (⟨sh, prev⟩, elementsOf c)) →
    ∀ k, (hk : k < calls.length) → ∃ r, (mixRun α st calls).2[k]? = some (.ok (r,
        distSq (elementsOf calls[k]) (if k = 0 then prev else elementsOf (calls.getD (k - 1) [])))) ∧
      ValidAll r ∧ shapesOf r = sh ∧
      elementsOf r = mixed α (if k = 0 then prev else elementsOf (calls.getD (k - 1) [])) (elementsOf calls[k])
  | [], _, _, _, _, _, k, hk => by simp at hk
  | c :: cs, sh, prev, st, hc, hst, k, hk => by
    obtain ⟨h1, h2, h3, h4⟩ := hc c List.mem_cons_self
    obtain ⟨r, e1, e2, e3, e4⟩ := upd_step α st ⟨sh, prev⟩ c h1 h2 (hst c List.mem_cons_self) h3.symm h4.symm
    cases k with
    | zero =>
      refine ⟨r, ?_, e2, e3.trans h3, ?_⟩
      · rw [mixRun]; simp only [e1, List.getElem?_cons_zero, List.getElem_cons_zero, if_true]
      · simpa using e4
    | succ k =>
      have hk' : k < cs.length := by simpa using hk
      obtain ⟨r', f1, f2, f3, f4⟩ := upd_run α cs sh (elementsOf c) (some ⟨shapesOf c, elementsOf c⟩)
        (by
          intro d hd
          obtain ⟨a, b, c', d'⟩ := hc d (List.mem_cons_of_mem _ hd)
          exact ⟨a, b, c', d'.trans h4.symm⟩)
        (by
          intro d hd
          obtain ⟨a, b, c', d'⟩ := hc d (List.mem_cons_of_mem _ hd)
          rw [upd_flatten_some _ d a b, h3]) k hk'
      have hprev : (if k + 1 = 0 then prev else elementsOf ((c :: cs).getD (k + 1 - 1) [])) =
          (if k = 0 then elementsOf c else elementsOf (cs.getD (k - 1) [])) := by
        cases k with
        | zero => rfl
        | succ k => rfl
      refine ⟨r', ?_, f2, f3, ?_⟩
      · rw [mixRun, hprev]
        simp only [e1, List.getElem?_cons_succ, List.getElem_cons_succ]
        exact f1
      · rw [hprev]
        simpa using f4

/-- **C39**: for every sequence of calls with one structure, call `k` returns, in that structure, `(1-α)` times the parameters
passed to call `k-1` plus `α` times the parameters passed to it (zeros before the first call), and the distance between those two. -/
theorem mix_history (α : K) (calls : List (List (Params K)))
    (hc : ∀ c ∈ calls, c ≠ [] ∧ ValidAll c ∧ shapesOf c = shapesOf (calls.getD 0 [])) (k : Nat) (hk : k < calls.length) :
    ∃ r d, (mixRun α none calls).2[k]? = some (.ok (r, d)) ∧
      d = distSq (elementsOf calls[k]) (previous calls k) ∧
      shapesOf r = shapesOf calls[k] ∧ ValidAll r ∧
      elementsOf r = mixed α (previous calls k) (elementsOf calls[k]) := by
  cases calls with
  | nil => simp at hk
  | cons c cs =>
    simp only [List.getD_cons_zero] at hc
    have hlen : ∀ d ∈ c :: cs, (elementsOf d).length = (elementsOf c).length := by
      intro d hd
      exact upd_lens d c (hc d hd).2.1 (hc c List.mem_cons_self).2.1 (hc d hd).2.2
    obtain ⟨h1, h2, -⟩ := hc c List.mem_cons_self
    obtain ⟨r0, e1, e2, e3, e4⟩ := upd_step α none ⟨shapesOf c, (elementsOf c).map fun _ => 0⟩ c h1 h2 (upd_flatten_none c h1 h2) rfl
      (by simp)
    cases k with
    | zero =>
      refine ⟨r0, _, ?_, rfl, e3, e2, e4⟩
      rw [mixRun]
      simp only [e1, List.getElem?_cons_zero]
      rfl
    | succ k =>
      have hk' : k < cs.length := by simpa using hk
      obtain ⟨r, f1, f2, f3, f4⟩ := upd_run α cs (shapesOf c) (elementsOf c) (some ⟨shapesOf c, elementsOf c⟩)
        (by
          intro d hd
          obtain ⟨a, b, c'⟩ := hc d (List.mem_cons_of_mem _ hd)
          exact ⟨a, b, c', hlen d (List.mem_cons_of_mem _ hd)⟩)
        (by
          intro d hd
          obtain ⟨a, b, c'⟩ := hc d (List.mem_cons_of_mem _ hd)
          rw [upd_flatten_some _ d a b]) k hk'
      have hprev : previous (c :: cs) (k + 1) = (if k = 0 then elementsOf c else elementsOf (cs.getD (k - 1) [])) := by
        cases k with
        | zero => rfl
        | succ k => rfl
      refine ⟨r, _, ?_, rfl, ?_, f2, ?_⟩
      · rw [mixRun, hprev]
        simp only [e1, List.getElem?_cons_succ, List.getElem_cons_succ]
        exact f1
      · rw [f3]; exact ((hc _ (List.getElem_mem hk)).2.2).symm
      · rw [hprev]; simpa using f4

private theorem mixed_self (α : K) : ∀ v : List K, mixed α v v = v
  | [] => rfl
  | a :: v => by
    have h := mixed_self α v
    unfold mixed at h ⊢
    rw [List.zipWith_cons_cons, h]
    congr 1; ring

private theorem distSq_self (v : List K) : distSq v v = 0 := by
  simp [distSq]

/-- **C39**: parameters that repeat are a fixed point: they are returned unchanged, with no change reported. -/
theorem mix_fixed_point (α : K) (calls : List (List (Params K)))
    (hc : ∀ c ∈ calls, c ≠ [] ∧ ValidAll c ∧ shapesOf c = shapesOf (calls.getD 0 [])) (k : Nat) (hk : k + 1 < calls.length)
    (heq : calls[k + 1] = calls[k]) :
    (mixRun α none calls).2[k + 1]? = some (.ok (calls[k + 1], 0)) := by
  obtain ⟨r, d, h1, h2, h3, h4, h5⟩ := mix_history α calls hc (k + 1) hk
  have hp : previous calls (k + 1) = elementsOf calls[k + 1] := by
    rw [heq, previous, if_neg (by omega), Nat.add_sub_cancel, List.getD_eq_getElem _ _ (by omega)]
  rw [hp, mixed_self] at h5
  rw [hp, distSq_self] at h2
  rw [h1, h2, upd_injs r _ h4 (hc _ (List.getElem_mem hk)).2.1 h3 h5]

private theorem mixed_one : ∀ (v w : List K), v.length = w.length → mixed 1 v w = w
  | [], [], _ => rfl
  | [], _ :: _, h => by simp at h
  | _ :: _, [], h => by simp at h
  | a :: v, b :: w, h => by
    have h := mixed_one v w (by simpa using h)
    unfold mixed at h ⊢
    rw [List.zipWith_cons_cons, h]
    congr 1; ring

/-- **C39**: with mixing parameter 1 (the default of the updater) every call returns its own parameters. -/
theorem mix_one (calls : List (List (Params K)))
    (hc : ∀ c ∈ calls, c ≠ [] ∧ ValidAll c ∧ shapesOf c = shapesOf (calls.getD 0 [])) (k : Nat) (hk : k < calls.length) :
    ∃ d, (mixRun 1 none calls).2[k]? = some (.ok (calls[k], d)) := by
  obtain ⟨r, d, h1, h2, h3, h4, h5⟩ := mix_history 1 calls hc k hk
  refine ⟨d, ?_⟩
  have hl : (previous calls k).length = (elementsOf calls[k]).length := by
    have hc0 : ∀ (j : Nat) (hj : j < calls.length), (elementsOf calls[j]).length = (elementsOf calls[k]).length := fun j hj =>
      upd_lens _ _ (hc _ (List.getElem_mem hj)).2.1 (hc _ (List.getElem_mem hk)).2.1
        ((hc _ (List.getElem_mem hj)).2.2.trans (hc _ (List.getElem_mem hk)).2.2.symm)
    unfold previous
    split
    · rw [List.length_map, List.getD_eq_getElem _ _ (by omega)]; exact hc0 0 (by omega)
    · rw [List.getD_eq_getElem _ _ (by omega)]; exact hc0 (k - 1) (by omega)
  rw [mixed_one _ _ hl] at h5
  rw [h1, upd_injs r _ h4 (hc _ (List.getElem_mem hk)).2.1 h3 h5]

end

section
variable {K : Type} [CommRing K] [LinearOrder K] [IsStrictOrderedRing K]

private theorem distSq_nonneg (a b : List K) : 0 ≤ distSq a b := by
  unfold distSq
  apply List.sum_nonneg
  intro x hx
  obtain ⟨y, -, rfl⟩ := List.mem_map.1 hx
  exact mul_self_nonneg y

private theorem distSq_eq_zero : ∀ (a b : List K), a.length = b.length → distSq a b = 0 → a = b
  | [], [], _, _ => rfl
  | [], _ :: _, h, _ => by simp at h
  | _ :: _, [], h, _ => by simp at h
  | x :: a, y :: b, h, hd => by
    have e : distSq (x :: a) (y :: b) = (x - y) * (x - y) + distSq a b := by simp [distSq]
    rw [e] at hd
    have h1 := mul_self_nonneg (x - y)
    have h2 := distSq_nonneg a b
    have h3 : (x - y) * (x - y) = 0 := by
      apply le_antisymm _ h1
      rw [← hd]; exact le_add_of_nonneg_right h2
    have h4 : distSq a b = 0 := by rw [h3, zero_add] at hd; exact hd
    rw [distSq_eq_zero a b (by simpa using h) h4, sub_eq_zero.1 (mul_self_eq_zero.1 h3)]

/-- **C39**: after the first call the reported change is zero exactly when the parameters repeat those of the call before. -/
theorem mix_change_zero_iff (α : K) (calls : List (List (Params K)))
    (hc : ∀ c ∈ calls, c ≠ [] ∧ ValidAll c ∧ shapesOf c = shapesOf (calls.getD 0 [])) (k : Nat) (hk : k + 1 < calls.length)
    (r : List (Params K)) (d : K) (hr : (mixRun α none calls).2[k + 1]? = some (.ok (r, d))) :
    d = 0 ↔ calls[k + 1] = calls[k] := by
  obtain ⟨r', d', h1, h2, h3, h4, h5⟩ := mix_history α calls hc (k + 1) hk
  have hk0 : k < calls.length := by omega
  have hp : previous calls (k + 1) = elementsOf calls[k] := by
    rw [previous, if_neg (by omega), Nat.add_sub_cancel, List.getD_eq_getElem _ _ hk0]
  rw [h1] at hr
  simp only [Option.some.injEq, Except.ok.injEq, Prod.mk.injEq] at hr
  rw [← hr.2, h2, hp]
  have hs : shapesOf calls[k + 1] = shapesOf calls[k] :=
    (hc _ (List.getElem_mem hk)).2.2.trans (hc _ (List.getElem_mem hk0)).2.2.symm
  have hv1 := (hc _ (List.getElem_mem hk)).2.1
  have hv2 := (hc _ (List.getElem_mem hk0)).2.1
  constructor
  · intro h
    exact upd_injs _ _ hv1 hv2 hs (distSq_eq_zero _ _ (upd_lens _ _ hv1 hv2 hs) h)
  · intro h
    rw [h, distSq_self]

end

/-- **C39** (structure is fixed by the first call): a later call with as many elements but another structure is silently rebuilt in
the structure of the first call. -/
theorem mix_structure_fixed : (mixRun (1 : ℤ) none
      [[.arr [2, 1] [1, 2]], [.arr [1] [3], .arr [1] [4]]]).2 =
    [.ok ([.arr [2, 1] [1, 2]], 5), .ok ([.arr [2, 1] [3, 4]], 8)] := by
  have h2 : mixUpdate (1 : ℤ) (some ⟨[.dims [2, 1]], [1, 2]⟩) [.arr [1] [3], .arr [1] [4]] =
      (some ⟨[.dims [2, 1]], [3, 4]⟩, .ok ([.arr [2, 1] [3, 4]], 8)) := by rfl
  have h1 : mixUpdate (1 : ℤ) none [.arr [2, 1] [1, 2]] =
      (some ⟨[.dims [2, 1]], [1, 2]⟩, .ok ([.arr [2, 1] [1, 2]], 5)) := by rfl
  simp only [mixRun, h1, h2]

section
variable {K : Type} [CommRing K]

private theorem trace_mixed (α : K) (n : Nat) (a b : List K) (ha : a.length = n * n) (hb : b.length = n * n) :
    trace n (mixed α a b) = (1 - α) * trace n a + α * trace n b := by
  unfold trace
  rw [Finset.mul_sum, Finset.mul_sum, ← Finset.sum_add_distrib]
  apply Finset.sum_congr rfl
  intro i hi
  have hin := Finset.mem_range.1 hi
  have hlt : i * n + i < n * n := by
    have : i * n + n ≤ n * n := by
      rw [← Nat.succ_mul]; exact Nat.mul_le_mul_right n hin
    omega
  rw [List.getD_eq_getElem _ _ (by rw [mixed, List.length_zipWith]; omega), List.getD_eq_getElem _ _ (by omega),
    List.getD_eq_getElem _ _ (by omega)]
  simp only [mixed, List.getElem_zipWith]

private theorem mixed_append (α : K) (a b c d : List K) (h : a.length = c.length) :
    mixed α (a ++ b) (c ++ d) = mixed α a c ++ mixed α b d := by
  unfold mixed
  exact List.zipWith_append h

omit [CommRing K] in
private theorem mat_cons (n : Nat) (ns : List Nat) (ps : List (Params K)) (h : Matrices (n :: ns) ps) :
    ∃ d qs, ps = .arr [n, n] d :: qs ∧ d.length = n * n ∧ Matrices ns qs := by
  cases h with
  | cons h1 h2 =>
    obtain ⟨d, rfl, hd⟩ := h1
    exact ⟨d, _, rfl, hd, h2⟩

omit [CommRing K] in
private theorem mat_shapes : ∀ (ns : List Nat) (ps : List (Params K)), Matrices ns ps →
    ValidAll ps ∧ shapesOf ps = ns.map fun n => .dims [n, n]
  | [], ps, h => by cases h; exact ⟨trivial, rfl⟩
  | n :: ns, ps, h => by
    obtain ⟨d, qs, rfl, hd, hq⟩ := mat_cons n ns ps h
    obtain ⟨h1, h2⟩ := mat_shapes ns qs hq
    refine ⟨⟨⟨by simp, ?_⟩, h1⟩, ?_⟩
    · rw [hd]; simp [prod]
    · rw [shapesOf, shapeOf, h2]; rfl

omit [CommRing K] in
private theorem mat_of_shapes : ∀ (ns : List Nat) (ps : List (Params K)), ValidAll ps → shapesOf ps = (ns.map fun n => .dims [n, n]) →
    Matrices ns ps
  | [], ps, _, h => by
    cases ps with
    | nil => exact .nil
    | cons p ps => rw [shapesOf] at h; cases h
  | n :: ns, ps, hv, h => by
    cases ps with
    | nil => rw [shapesOf] at h; cases h
    | cons p ps =>
      rw [shapesOf, List.map_cons] at h
      injection h with h1 h2
      cases p with
      | node xs => rw [shapeOf] at h1; cases h1
      | arr ds d =>
        rw [shapeOf] at h1
        injection h1 with h1
        subst h1
        refine List.Forall₂.cons ⟨d, rfl, ?_⟩ (mat_of_shapes ns ps hv.2 h2)
        rw [hv.1.2]; simp [prod]

private theorem totalTrace_mixed (α : K) : ∀ (ns : List Nat) (r p q : List (Params K)), Matrices ns r → Matrices ns p → Matrices ns q →
    elementsOf r = mixed α (elementsOf p) (elementsOf q) → totalTrace r = (1 - α) * totalTrace p + α * totalTrace q
  | [], r, p, q, hr, hp, hq, _ => by cases hr; cases hp; cases hq; simp [totalTrace]
  | n :: ns, r, p, q, hr, hp, hq, he => by
    obtain ⟨dr, r', rfl, lr, hr'⟩ := mat_cons n ns r hr
    obtain ⟨dp, p', rfl, lp, hp'⟩ := mat_cons n ns p hp
    obtain ⟨dq, q', rfl, lq, hq'⟩ := mat_cons n ns q hq
    simp only [elementsOf, elements] at he
    rw [mixed_append _ _ _ _ _ (by rw [lp, lq])] at he
    obtain ⟨e1, e2⟩ := List.append_inj he (by rw [mixed, List.length_zipWith, lr, lp, lq, Nat.min_self])
    have ih := totalTrace_mixed α ns r' p' q' hr' hp' hq' e2
    simp only [totalTrace]
    rw [ih, e1, trace_mixed α n dp dq lp lq]
    ring

private theorem totalTrace_scaled (α : K) : ∀ (ns : List Nat) (r q : List (Params K)), Matrices ns r → Matrices ns q →
    elementsOf r = mixed α ((elementsOf q).map fun _ => 0) (elementsOf q) → totalTrace r = α * totalTrace q
  | [], r, q, hr, hq, _ => by cases hr; cases hq; simp [totalTrace]
  | n :: ns, r, q, hr, hq, he => by
    obtain ⟨dr, r', rfl, lr, hr'⟩ := mat_cons n ns r hr
    obtain ⟨dq, q', rfl, lq, hq'⟩ := mat_cons n ns q hq
    simp only [elementsOf, elements, List.map_append] at he
    rw [mixed_append _ _ _ _ _ (by rw [List.length_map])] at he
    obtain ⟨e1, e2⟩ := List.append_inj he (by rw [mixed, List.length_zipWith, List.length_map, lr, lq, Nat.min_self])
    have ih := totalTrace_scaled α ns r' q' hr' hq' e2
    simp only [totalTrace]
    rw [ih, e1, trace_mixed α n _ dq (by rw [List.length_map, lq]) lq]
    have hz : trace n (dq.map fun _ => (0 : K)) = 0 := by
      unfold trace
      apply Finset.sum_eq_zero
      intro i _
      rw [List.getD_eq_getElem?_getD, List.getElem?_map]
      cases dq[i * n + i]? <;> rfl
    rw [hz]; ring

omit [CommRing K] in
private theorem elementsOf_ne (ns : List Nat) (hne : ns ≠ []) (ps : List (Params K)) (h : Matrices ns ps) : ps ≠ [] := by
  intro hp; subst hp
  cases h
  exact hne rfl

/-- **C52**: when every call passes density matrices of the same sizes with `N` electrons in total, every call but the first returns
density matrices with `N` electrons; the first returns `α N`. -/
theorem mix_electrons_partial (α N : K) (ns : List Nat) (hne : ns ≠ []) (calls : List (List (Params K)))
    (hm : ∀ c ∈ calls, Matrices ns c) (hN : ∀ c ∈ calls, totalTrace c = N) (k : Nat) (hk : k < calls.length) :
    ∃ r d, (mixRun α none calls).2[k]? = some (.ok (r, d)) ∧ Matrices ns r ∧
      totalTrace r = (if k = 0 then α * N else N) := by
  have hk0 : 0 < calls.length := by omega
  have h0 : calls.getD 0 [] = calls[0] := List.getD_eq_getElem _ _ hk0
  have hc : ∀ c ∈ calls, c ≠ [] ∧ ValidAll c ∧ shapesOf c = shapesOf (calls.getD 0 []) := by
    intro c hcm
    refine ⟨elementsOf_ne ns hne c (hm c hcm), (mat_shapes ns c (hm c hcm)).1, ?_⟩
    rw [h0, (mat_shapes ns c (hm c hcm)).2, (mat_shapes ns _ (hm _ (List.getElem_mem hk0))).2]
  obtain ⟨r, d, h1, -, h3, h4, h5⟩ := mix_history α calls hc k hk
  have hmk := hm _ (List.getElem_mem hk)
  have hr : Matrices ns r := mat_of_shapes ns r h4 (h3.trans (mat_shapes ns _ hmk).2)
  refine ⟨r, d, h1, hr, ?_⟩
  unfold previous at h5
  split
  · rename_i hkz
    subst hkz
    rw [if_pos rfl, h0] at h5
    rw [totalTrace_scaled α ns r calls[0] hr hmk h5, hN _ (List.getElem_mem hk0)]
  · rename_i hkz
    rw [if_neg hkz, List.getD_eq_getElem _ _ (by omega)] at h5
    rw [totalTrace_mixed α ns r _ _ hr (hm _ (List.getElem_mem (by omega))) hmk h5,
      hN _ (List.getElem_mem (by omega)), hN _ (List.getElem_mem hk)]
    ring

end

/-- **C52** (violated by the first call): with the default mixing parameter 1/2, density matrices with two electrons become density
matrices with one electron. -/
theorem mix_first_call_loses_electrons :
    ∃ r d, (mixRun (1 / 2 : ℚ) none [[.arr [2, 2] [1, 0, 0, 1]]]).2 = [.ok (r, d)] ∧
      totalTrace ([.arr [2, 2] [1, 0, 0, 1]] : List (Params ℚ)) = 2 ∧ totalTrace r = 1 := by
  have hm : ∀ c ∈ [[(.arr [2, 2] [1, 0, 0, 1] : Params ℚ)]], Matrices [2] c := by
    intro c hc
    rw [List.mem_singleton] at hc
    subst hc
    exact .cons ⟨_, rfl, rfl⟩ .nil
  have ht : totalTrace ([.arr [2, 2] [1, 0, 0, 1]] : List (Params ℚ)) = 2 := by
    simp [totalTrace, trace, Finset.sum_range_succ]
    norm_num
  obtain ⟨r, d, h1, -, h3⟩ := mix_electrons_partial (1 / 2 : ℚ) 2 [2] (by simp) _ hm
    (by intro c hc; rw [List.mem_singleton] at hc; subst hc; exact ht) 0 (by simp)
  refine ⟨r, d, ?_, ht, ?_⟩
  · have hl : (mixRun (1 / 2 : ℚ) none [[.arr [2, 2] [1, 0, 0, 1]]]).2.length = 1 := rfl
    obtain ⟨x, hx⟩ := List.length_eq_one_iff.1 hl
    rw [hx] at h1 ⊢
    simpa using h1
  · rw [h3, if_pos rfl]; norm_num

/-- The nested parameters of extended DMET: two density matrices, then one boson block per fragment. -/
example : ValidAll ([.node [.arr [2, 2] [1, 2, 3, 4], .arr [1, 1] [5]], .node [.arr [2, 1] [6, 7]]] : List (Params ℤ)) ∧
    elementsOf ([.node [.arr [2, 2] [1, 2, 3, 4], .arr [1, 1] [5]], .node [.arr [2, 1] [6, 7]]] : List (Params ℤ)) =
      [1, 2, 3, 4, 5, 6, 7] :=
  ⟨⟨⟨by simp, ⟨by simp, rfl⟩, ⟨by simp, rfl⟩, trivial⟩, ⟨by simp, ⟨by simp, rfl⟩, trivial⟩, trivial⟩, rfl⟩

/-- Three calls with one structure, the last two equal. -/
example : let c1 : List (Params ℤ) := [.arr [2, 1] [1, 2]]
    let c2 : List (Params ℤ) := [.arr [2, 1] [3, 4]]
    (∀ c ∈ [c1, c2, c2], c ≠ [] ∧ ValidAll c ∧ shapesOf c = shapesOf ([c1, c2, c2].getD 0 [])) ∧ (1 : Nat) + 1 < [c1, c2, c2].length := by
  refine ⟨?_, by decide⟩
  intro c hc
  simp only [List.mem_cons, List.not_mem_nil, or_false] at hc
  rcases hc with rfl | rfl | rfl <;> exact ⟨by simp, ⟨⟨by simp, rfl⟩, trivial⟩, rfl⟩

/-- Two fragments with densities of two electrons in total. -/
example : ∀ c ∈ [[(.arr [1, 1] [1] : Params ℤ), .arr [2, 2] [1, 0, 0, 0]], [.arr [1, 1] [0], .arr [2, 2] [1, 3, 3, 1]]],
    Matrices [1, 2] c ∧ totalTrace c = 2 := by
  intro c hc
  simp only [List.mem_cons, List.not_mem_nil, or_false] at hc
  rcases hc with rfl | rfl
  · exact ⟨.cons ⟨_, rfl, rfl⟩ (.cons ⟨_, rfl, rfl⟩ .nil), by decide⟩
  · exact ⟨.cons ⟨_, rfl, rfl⟩ (.cons ⟨_, rfl, rfl⟩ .nil), by decide⟩

end Vayesta.Props
