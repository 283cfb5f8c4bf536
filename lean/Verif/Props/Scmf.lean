import Verif.Model.Scmf
import Mathlib.Tactic.Linarith
import Mathlib.Tactic.FieldSimp
import Mathlib.Tactic.Ring
import Mathlib.Tactic.NormNum

/-! Self-consistent mean-fields: the loop (C80). -/

namespace Vayesta.Props

open Vayesta.Scmf Matrix Lowdin

set_option linter.unusedSectionVars false

variable {σ D R : Type} {n : Nat}

/-! ## Specification -/

/-- A series of one-shot calculations, each after an update of the mean-field: states `a`, DIIS objects `d`, results `r`, energies `e`. -/
structure Trajectory (x : Emb σ D R n) (start : σ) (diis : Option D) (m : Nat) (a : Nat → σ) (d : Nat → Option D) (r : Nat → R) (e : Nat → ℝ) : Prop where
  start : a 0 = start
  diis : d 0 = diis
  shot : ∀ (k : Nat), k < m → ∃ b, x.run (if k = 0 then a k else x.reset (a k)) = .ok (r k, b) ∧ e k = x.eMf b + x.eCorr b
    ∧ x.update (d k) b = .ok (d (k + 1), a (k + 1))

/-- Below the tolerance tightened by damping; no tolerance means any number, unless damping is full. -/
def Within (tol : Option ℝ) (damping x : ℝ) : Prop := (∀ t, tol = some t → x < (1 - damping) * t) ∧ (tol = none → damping < 1)

/-- Density matrices differ by less than the tolerance (per spin). -/
def DmWithin (tol : Option ℝ) (damping : ℝ) (p q : Dm n) : Prop :=
  (∃ u v, p = .restricted u ∧ q = .restricted v ∧ ∀ i j, Within tol damping (|u i j - v i j| / 2))
    ∨ ∃ u v u' v', p = .unrestricted u u' ∧ q = .unrestricted v v' ∧ ∀ i j, Within tol damping |u i j - v i j| ∧ Within tol damping |u' i j - v' i j|

/-- The changes in calculation `k`, compared to the one before, are small. -/
def SmallChange (x : Emb σ D R n) (o : Opts) (a : Nat → σ) (e : Nat → ℝ) (k : Nat) : Prop :=
  0 < k ∧ Within o.etol o.damping |e k - e (k - 1)| ∧ DmWithin o.dtol o.damping (x.dm (a (k + 1))) (x.dm (a k))

/-- The loop ends after calculation `k`. -/
def Stops (x : Emb σ D R n) (o : Opts) (a : Nat → σ) (e : Nat → ℝ) (k : Nat) : Prop := x.symmetric (a (k + 1)) = false ∨ SmallChange x o a e k

/-! ## Proofs -/

private theorem below_iff (tol : Option ℝ) (damping x : ℝ) : below tol (1 - damping) x ↔ Within tol damping x := by
  cases tol with
  | none =>
    refine ⟨fun h => ⟨fun t h' => ?_, fun _ => ?_⟩, fun h => ?_⟩
    · cases h'
    · have : 0 < 1 - damping := h
      linarith
    · have := h.2 rfl
      show 0 < 1 - damping
      linarith
  | some t => exact ⟨fun h => ⟨fun t' h' => by cases h'; exact h, fun h' => by cases h'⟩, fun h => h.1 t rfl⟩

private theorem dmBelow_iff (tol : Option ℝ) (damping : ℝ) (p q : Dm n) : dmBelow tol (1 - damping) p q ↔ DmWithin tol damping p q := by
  constructor
  · intro h
    cases p <;> cases q
    · exact .inl ⟨_, _, rfl, rfl, fun i j => (below_iff _ _ _).1 (h i j)⟩
    · exact h.elim
    · exact h.elim
    · exact .inr ⟨_, _, _, _, rfl, rfl, fun i j => ⟨(below_iff _ _ _).1 (h i j).1, (below_iff _ _ _).1 (h i j).2⟩⟩
  · rintro (⟨u, v, rfl, rfl, h⟩ | ⟨u, v, u', v', rfl, rfl, h⟩)
    · exact fun i j => (below_iff _ _ _).2 (h i j)
    · exact fun i j => ⟨(below_iff _ _ _).2 (h i j).1, (below_iff _ _ _).2 (h i j).2⟩

/-- What is known before calculation `k`. -/
private def lastOf (x : Emb σ D R n) (a : Nat → σ) (e : Nat → ℝ) : Nat → Option (ℝ × Dm n)
  | 0 => none
  | k + 1 => some (e k, x.dm (a (k + 1)))

private theorem check_iff (x : Emb σ D R n) (o : Opts) (a : Nat → σ) (e : Nat → ℝ) (k : Nat) :
    checkConvergence o (e k) (x.dm (a (k + 1))) (lastOf x a e k) ↔ SmallChange x o a e k := by
  cases k with
  | zero => exact ⟨fun h => h.elim, fun h => absurd h.1 (lt_irrefl _)⟩
  | succ k =>
    show below _ _ _ ∧ dmBelow _ _ _ _ ↔ _
    rw [below_iff, dmBelow_iff]
    exact ⟨fun h => ⟨Nat.succ_pos k, h⟩, fun h => h.2⟩

/-- The state before calculation `k`. -/
private def before (s : State σ) (a : Nat → σ) (e : Nat → ℝ) (k : Nat) : State σ := ⟨a k, if k = 0 then s.iteration else k, s.converged, s.energies ++ (List.range k).map e⟩

private theorem reset_eq (x : Emb σ D R n) (s : State σ) (a : Nat → σ) (e : Nat → ℝ) (k : Nat) : resetIf x { before s a e k with iteration := k + 1 }
    = ⟨if k = 0 then a k else x.reset (a k), k + 1, s.converged, s.energies ++ (List.range k).map e⟩ := by
  unfold resetIf
  by_cases hk : k = 0
  · rw [if_neg (by simp [hk]), if_pos hk]; rfl
  · rw [if_pos (by show 1 < k + 1; omega), if_neg hk]; rfl

private theorem pass_eq (x : Emb σ D R n) (o : Opts) (s : State σ) (a : Nat → σ) (d : Nat → Option D) (r : Nat → R) (e : Nat → ℝ) (k : Nat) (b : σ)
    (h1 : x.run (if k = 0 then a k else x.reset (a k)) = .ok (r k, b)) (h2 : e k = x.eMf b + x.eCorr b) (h3 : x.update (d k) b = .ok (d (k + 1), a (k + 1))) :
    pass x o { before s a e k with iteration := k + 1 } (d k) (lastOf x a e k)
      = open Classical in if x.symmetric (a (k + 1)) = false then (⟨a (k + 1), k + 1, false, s.energies ++ (List.range (k + 1)).map e⟩, .done (r k))
        else if SmallChange x o a e k then (⟨a (k + 1), k + 1, true, s.energies ++ (List.range (k + 1)).map e⟩, .done (r k))
        else (before s a e (k + 1), .next (r k) (d (k + 1)) (e k, x.dm (a (k + 1)))) := by
  have hc := check_iff x o a e k
  unfold pass
  dsimp only
  rw [reset_eq]
  dsimp only
  rw [h1]
  dsimp only
  rw [h3]
  dsimp only
  have hl : s.energies ++ (List.range k).map e ++ [x.eMf b + x.eCorr b] = s.energies ++ (List.range (k + 1)).map e := by
    rw [List.range_succ, List.map_append, List.append_assoc, ← h2]; rfl
  rw [hl, ← h2]
  by_cases hy : x.symmetric (a (k + 1)) = false
  · rw [if_pos hy, if_pos hy]
  · rw [if_neg hy, if_neg hy]
    by_cases hx : SmallChange x o a e k
    · rw [if_pos hx, if_pos (hc.2 hx)]
    · rw [if_neg hx, if_neg (fun h => hx (hc.1 h))]
      rfl

open Classical in
/-- The state after calculation `k`, if it was the last one. -/
noncomputable def finalState (x : Emb σ D R n) (o : Opts) (s : State σ) (a : Nat → σ) (e : Nat → ℝ) (k : Nat) : State σ where
  emb := a (k + 1)
  iteration := k + 1
  converged := if x.symmetric (a (k + 1)) = false then false else if SmallChange x o a e k then true else s.converged
  energies := s.energies ++ (List.range (k + 1)).map e

private def resOf (r : Nat → R) : Nat → Option R
  | 0 => none
  | k + 1 => some (r k)

private theorem loop_step (x : Emb σ D R n) (o : Opts) (s : State σ) (a : Nat → σ) (d : Nat → Option D) (r : Nat → R) (e : Nat → ℝ) (k : Nat) (b : σ)
    (h1 : x.run (if k = 0 then a k else x.reset (a k)) = .ok (r k, b)) (h2 : e k = x.eMf b + x.eCorr b) (h3 : x.update (d k) b = .ok (d (k + 1), a (k + 1)))
    (fuel : Nat) : loop x o (fuel + 1) (k + 1) (before s a e k) (d k) (lastOf x a e k) (resOf r k)
      = open Classical in if Stops x o a e k then (finalState x o s a e k, .ok (r k))
        else loop x o fuel (k + 2) (before s a e (k + 1)) (d (k + 1)) (lastOf x a e (k + 1)) (resOf r (k + 1)) := by
  rw [loop, pass_eq x o s a d r e k b h1 h2 h3]
  by_cases hy : x.symmetric (a (k + 1)) = false
  · rw [if_pos hy, if_pos (show Stops x o a e k from Or.inl hy)]
    simp only [finalState, if_pos hy]
  · rw [if_neg hy]
    by_cases hx : SmallChange x o a e k
    · rw [if_pos hx, if_pos (show Stops x o a e k from Or.inr hx)]
      simp only [finalState, if_neg hy, if_pos hx]
    · rw [if_neg hx, if_neg (show ¬ Stops x o a e k from fun h => h.elim hy hx)]
      rfl

private theorem loop_to (x : Emb σ D R n) (o : Opts) (s : State σ) (a : Nat → σ) (d : Nat → Option D) (r : Nat → R) (e : Nat → ℝ) (diis : Option D) (m : Nat)
    (ht : Trajectory x s.emb diis m a d r e) (hn : ∀ (k : Nat), k < m → ¬ Stops x o a e k) (fuel : Nat) :
    loop x o (fuel + m) 1 s diis none none = loop x o fuel (m + 1) (before s a e m) (d m) (lastOf x a e m) (resOf r m) := by
  induction m generalizing fuel with
  | zero =>
    have : before s a e 0 = s := by
      unfold before; rw [if_pos rfl, ht.start]; simp
    rw [this, ht.diis]
    rfl
  | succ m ih =>
    rw [show fuel + (m + 1) = (fuel + 1) + m by omega]
    rw [ih ⟨ht.start, ht.diis, fun k hk => ht.shot k (by omega)⟩ (fun k hk => hn k (by omega))]
    obtain ⟨b, h1, h2, h3⟩ := ht.shot m (by omega)
    rw [loop_step x o s a d r e m b h1 h2 h3, if_neg (hn m (by omega))]

/-- A self-consistent calculation is a series of one-shot calculations with updates in between. It ends after the first calculation which breaks the
symmetry between fragments or changes little, or after `maxiter` calculations; the result is the one of the last calculation, all
energies are recorded, and `converged` is set as it should, except that a calculation which runs out of iterations leaves it as it was. -/
theorem scmf_kernel (x : Emb σ D R n) (o : Opts) (diis : Option D) (s : State σ) (a : Nat → σ) (d : Nat → Option D) (r : Nat → R) (e : Nat → ℝ) (k : Nat)
    (ht : Trajectory x s.emb diis (k + 1) a d r e) (hk : ((k : Int)) < o.maxiter) (hn : ∀ (j : Nat), j < k → ¬ Stops x o a e j)
    (hl : Stops x o a e k ∨ (k : Int) + 1 = o.maxiter) : kernel x o diis s = (finalState x o s a e k, .ok (r k)) := by
  unfold kernel
  obtain ⟨fuel, hf⟩ : ∃ fuel, o.maxiter.toNat = fuel + 1 + k := ⟨o.maxiter.toNat - 1 - k, by omega⟩
  rw [hf, loop_to x o s a d r e diis k ⟨ht.start, ht.diis, fun j hj => ht.shot j (by omega)⟩ hn]
  obtain ⟨b, h1, h2, h3⟩ := ht.shot k (by omega)
  rw [loop_step x o s a d r e k b h1 h2 h3]
  by_cases hs : Stops x o a e k
  · rw [if_pos hs]
  · rw [if_neg hs]
    have : fuel = 0 := by rcases hl with h | h <;> [exact absurd h hs; omega]
    subst this
    rw [resOf, loop]
    unfold Stops at hs
    push Not at hs
    simp only [finalState, before, if_neg hs.1, if_neg hs.2, if_neg (Nat.succ_ne_zero k)]

/-- An exception in a calculation, or in the update after it, is passed on; energies recorded until then are kept. -/
theorem scmf_raises (x : Emb σ D R n) (o : Opts) (diis : Option D) (s : State σ) (a : Nat → σ) (d : Nat → Option D) (r : Nat → R) (e : Nat → ℝ) (k : Nat)
    (ht : Trajectory x s.emb diis k a d r e) (hk : ((k : Int)) < o.maxiter) (hn : ∀ (j : Nat), j < k → ¬ Stops x o a e j) (err : PyErr) :
    (x.run (if k = 0 then a k else x.reset (a k)) = .error err →
      ∃ s', kernel x o diis s = (s', .error err) ∧ s'.converged = s.converged ∧ s'.energies = s.energies ++ (List.range k).map e) ∧
    (∀ res b, x.run (if k = 0 then a k else x.reset (a k)) = .ok (res, b) → x.update (d k) b = .error err →
      ∃ s', kernel x o diis s = (s', .error err) ∧ s'.converged = s.converged ∧ s'.energies = s.energies ++ (List.range k).map e ++ [x.eMf b + x.eCorr b]) := by
  unfold kernel
  obtain ⟨fuel, hf⟩ : ∃ fuel, o.maxiter.toNat = fuel + 1 + k := ⟨o.maxiter.toNat - 1 - k, by omega⟩
  rw [hf, loop_to x o s a d r e diis k ht hn, loop]
  unfold pass
  dsimp only
  rw [reset_eq]
  dsimp only
  constructor
  · intro h
    rw [h]
    exact ⟨_, rfl, rfl, rfl⟩
  · intro res b h h'
    rw [h]
    dsimp only
    rw [h']
    exact ⟨_, rfl, rfl, rfl⟩

private theorem stops_congr (x : Emb σ D R n) (o : Opts) {a a' : Nat → σ} {e e' : Nat → ℝ} {m k : Nat} (ha : ∀ (j : Nat), j ≤ m → a' j = a j)
    (he : ∀ (j : Nat), j < m → e' j = e j) (hk : k < m) : Stops x o a' e' k ↔ Stops x o a e k := by
  unfold Stops SmallChange
  rw [ha (k + 1) (by omega), ha k (by omega), he k hk, he (k - 1) (by omega)]

/-- What can happen in the first `m` calculations. -/
private theorem outcomes [Nonempty R] (x : Emb σ D R n) (o : Opts) (diis : Option D) (start : σ) (m : Nat) :
    (∃ a d r e, Trajectory x start diis m a d r e ∧ ∀ (j : Nat), j < m → ¬ Stops x o a e j)
      ∨ (∃ k a d r e, k < m ∧ Trajectory x start diis (k + 1) a d r e ∧ (∀ (j : Nat), j < k → ¬ Stops x o a e j) ∧ Stops x o a e k)
      ∨ ∃ k a d r e err, k < m ∧ Trajectory x start diis k a d r e ∧ (∀ (j : Nat), j < k → ¬ Stops x o a e j)
        ∧ (x.run (if k = 0 then a k else x.reset (a k)) = .error err
          ∨ ∃ res b, x.run (if k = 0 then a k else x.reset (a k)) = .ok (res, b) ∧ x.update (d k) b = .error err) := by
  induction m with
  | zero =>
    obtain ⟨r⟩ := ‹Nonempty R›
    exact .inl ⟨fun _ => start, fun _ => diis, fun _ => r, fun _ => 0, ⟨rfl, rfl, fun k hk => absurd hk (Nat.not_lt_zero k)⟩, fun k hk => absurd hk (Nat.not_lt_zero k)⟩
  | succ m ih =>
    rcases ih with ⟨a, d, r, e, ht, hn⟩ | ⟨k, a, d, r, e, hk, h⟩ | ⟨k, a, d, r, e, err, hk, h⟩
    · cases h1 : x.run (if m = 0 then a m else x.reset (a m)) with
      | error err => exact .inr (.inr ⟨m, a, d, r, e, err, by omega, ht, hn, .inl h1⟩)
      | ok y =>
        obtain ⟨res, b⟩ := y
        cases h2 : x.update (d m) b with
        | error err => exact .inr (.inr ⟨m, a, d, r, e, err, by omega, ht, hn, .inr ⟨res, b, h1, h2⟩⟩)
        | ok y =>
          obtain ⟨d', b'⟩ := y
          have ha : ∀ (j : Nat), j ≤ m → (if j ≤ m then a j else b') = a j := fun j hj => if_pos hj
          have he : ∀ (j : Nat), j < m → (if j < m then e j else x.eMf b + x.eCorr b) = e j := fun j hj => if_pos hj
          have ht' : Trajectory x start diis (m + 1) (fun j => if j ≤ m then a j else b') (fun j => if j ≤ m then d j else d')
              (fun j => if j < m then r j else res) (fun j => if j < m then e j else x.eMf b + x.eCorr b) := by
            refine ⟨?_, ?_, fun k hk => ?_⟩
            · show (if 0 ≤ m then a 0 else b') = start
              rw [if_pos (Nat.zero_le m)]; exact ht.start
            · show (if 0 ≤ m then d 0 else d') = diis
              rw [if_pos (Nat.zero_le m)]; exact ht.diis
            · show ∃ c, x.run (if k = 0 then (if k ≤ m then a k else b') else x.reset (if k ≤ m then a k else b')) = .ok (if k < m then r k else res, c)
                ∧ (if k < m then e k else x.eMf b + x.eCorr b) = x.eMf c + x.eCorr c
                ∧ x.update (if k ≤ m then d k else d') c = .ok (if k + 1 ≤ m then d (k + 1) else d', if k + 1 ≤ m then a (k + 1) else b')
              by_cases hkm : k < m
              · obtain ⟨c, g1, g2, g3⟩ := ht.shot k hkm
                refine ⟨c, ?_, ?_, ?_⟩
                · rw [if_pos (show k ≤ m by omega), if_pos hkm]; exact g1
                · rw [if_pos hkm]; exact g2
                · rw [if_pos (show k ≤ m by omega), if_pos (show k + 1 ≤ m by omega), if_pos (show k + 1 ≤ m by omega)]; exact g3
              · have hkm' : k = m := by omega
                subst hkm'
                refine ⟨b, ?_, ?_, ?_⟩
                · rw [if_pos le_rfl, if_neg hkm]; exact h1
                · rw [if_neg hkm]
                · rw [if_pos le_rfl, if_neg (by omega), if_neg (by omega)]; exact h2
          have hn' : ∀ (j : Nat), j < m → ¬ Stops x o (fun j => if j ≤ m then a j else b') (fun j => if j < m then e j else x.eMf b + x.eCorr b) j :=
            fun j hj h => hn j hj ((stops_congr x o ha he hj).1 h)
          by_cases hs : Stops x o (fun j => if j ≤ m then a j else b') (fun j => if j < m then e j else x.eMf b + x.eCorr b) m
          · exact .inr (.inl ⟨m, _, _, _, _, Nat.lt_succ_self m, ht', hn', hs⟩)
          · refine .inl ⟨_, _, _, _, ht', fun j hj => ?_⟩
            by_cases hjm : j < m
            · exact hn' j hjm
            · have : j = m := by omega
              subst this
              exact hs
    · exact .inr (.inl ⟨k, a, d, r, e, by omega, h⟩)
    · exact .inr (.inr ⟨k, a, d, r, e, err, by omega, h⟩)

/-- Every call which returns is such a series of calculations, so that `scmf_kernel` and `scmf_raises` describe all calls. -/
theorem scmf_returns (x : Emb σ D R n) (o : Opts) (diis : Option D) (s s' : State σ) (res : R) (h : kernel x o diis s = (s', .ok res)) :
    ∃ k a d r e, Trajectory x s.emb diis (k + 1) a d r e ∧ (k : Int) < o.maxiter ∧ (∀ (j : Nat), j < k → ¬ Stops x o a e j)
      ∧ (Stops x o a e k ∨ (k : Int) + 1 = o.maxiter) ∧ s' = finalState x o s a e k ∧ res = r k := by
  haveI : Nonempty R := ⟨res⟩
  rcases outcomes x o diis s.emb o.maxiter.toNat with ⟨a, d, r, e, ht, hn⟩ | ⟨k, a, d, r, e, hk, ht, hn, hs⟩ | ⟨k, a, d, r, e, err, hk, ht, hn, hs⟩
  · cases hm : o.maxiter.toNat with
    | zero =>
      unfold kernel at h
      rw [hm, loop] at h
      cases h
    | succ k =>
      rw [hm] at ht hn
      have hl : (k : Int) + 1 = o.maxiter := by omega
      have := scmf_kernel x o diis s a d r e k ht (by omega) (fun j hj => hn j (by omega)) (.inr hl)
      rw [h] at this
      exact ⟨k, a, d, r, e, ht, by omega, fun j hj => hn j (by omega), .inr hl, congrArg Prod.fst this, Except.ok.inj (congrArg Prod.snd this)⟩
  · have := scmf_kernel x o diis s a d r e k ht (by omega) hn (.inl hs)
    rw [h] at this
    exact ⟨k, a, d, r, e, ht, by omega, hn, .inl hs, congrArg Prod.fst this, Except.ok.inj (congrArg Prod.snd this)⟩
  · exfalso
    obtain ⟨g1, g2⟩ := scmf_raises x o diis s a d r e k ht (by omega) hn err
    rcases hs with hs | ⟨res', b, hs, hs'⟩
    · obtain ⟨s'', g, _⟩ := g1 hs
      rw [h] at g
      cases congrArg Prod.snd g
    · obtain ⟨s'', g, _⟩ := g2 res' b hs hs'
      rw [h] at g
      cases congrArg Prod.snd g

/-- Without iterations allowed, there is no result to return. -/
theorem scmf_no_iterations (x : Emb σ D R n) (o : Opts) (diis : Option D) (s : State σ) (h : o.maxiter ≤ 0) : kernel x o diis s = (s, .error .nameError) := by
  unfold kernel
  rw [show o.maxiter.toNat = 0 by omega, loop]

/-- `converged` of a new object means: at least two calculations have been done, symmetry is obeyed, and the last two energies and density matrices
agree within the tolerances. -/
theorem scmf_converged (x : Emb σ D R n) (o : Opts) (diis : Option D) (s s' : State σ) (res : R) (h : kernel x o diis s = (s', .ok res)) (hs : s.converged = false) :
    s'.converged = true ↔ 2 ≤ s'.iteration ∧ x.symmetric s'.emb = true ∧ ∃ before e e' rest, s'.energies = s.energies ++ rest ++ [e', e]
      ∧ Within o.etol o.damping |e - e'| ∧ rest.length + 2 = s'.iteration ∧ (∃ c d r f, Trajectory x s.emb diis s'.iteration c d r f ∧ before = c (s'.iteration - 1) ∧ s'.emb = c s'.iteration)
      ∧ DmWithin o.dtol o.damping (x.dm s'.emb) (x.dm before) := by
  obtain ⟨k, a, d, r, e, ht, hk, hn, hl, rfl, rfl⟩ := scmf_returns x o diis s s' res h
  have hrange : ∀ m : Nat, (List.range (m + 1 + 1)).map e = (List.range m).map e ++ [e m, e (m + 1)] := by
    intro m
    rw [List.range_succ, List.range_succ, List.map_append, List.map_append, List.append_assoc]; rfl
  constructor
  · intro hc
    unfold finalState at hc
    dsimp only at hc
    split at hc
    · cases hc
    · rename_i hy
      split at hc
      · rename_i hx
        obtain ⟨h0, h1, h2⟩ := hx
        obtain ⟨m, rfl⟩ : ∃ m, k = m + 1 := ⟨k - 1, by omega⟩
        refine ⟨by show 2 ≤ m + 1 + 1; omega, by show x.symmetric (a (m + 1 + 1)) = true; simpa using hy, a (m + 1), e (m + 1), e m, (List.range m).map e, ?_, h1, ?_, ⟨a, d, r, e, ht, rfl, rfl⟩, h2⟩
        · show s.energies ++ (List.range (m + 1 + 1)).map e = _
          rw [hrange, List.append_assoc]
        · show ((List.range m).map e).length + 2 = m + 1 + 1
          rw [List.length_map, List.length_range]
      · rw [hs] at hc; cases hc
  · rintro ⟨h2, hy, b, f, f', rest, h3, h4, h5, ⟨a', d', r', e', ht', rfl, h6⟩, h7⟩
    obtain ⟨m, rfl⟩ : ∃ m, k = m + 1 := ⟨k - 1, by have : 2 ≤ k + 1 := h2; omega⟩
    have hsm : SmallChange x o a e (m + 1) := by
      have hal : ∀ (j : Nat), j ≤ m + 1 + 1 → a' j = a j ∧ d' j = d j := by
        intro j
        induction j with
        | zero => intro _; exact ⟨ht'.start.trans ht.start.symm, ht'.diis.trans ht.diis.symm⟩
        | succ j ih =>
          intro hj
          obtain ⟨b, g1, g2, g3⟩ := ht.shot j (by omega)
          obtain ⟨b', g1', g2', g3'⟩ := ht'.shot j (by show j < m + 1 + 1; omega)
          obtain ⟨i1, i2⟩ := ih (by omega)
          rw [i1, g1] at g1'
          have hb : b = b' := congrArg Prod.snd (Except.ok.inj g1')
          rw [i2, ← hb, g3] at g3'
          have := Except.ok.inj g3'
          exact ⟨(congrArg Prod.snd this).symm, (congrArg Prod.fst this).symm⟩
      have h3' : s.energies ++ (List.range (m + 1 + 1)).map e = s.energies ++ rest ++ [f', f] := h3
      rw [hrange, List.append_assoc] at h3'
      have h3'' := List.append_cancel_left h3'
      have hlen : ((List.range m).map e).length = rest.length := by
        have h5' : rest.length + 2 = m + 1 + 1 := h5
        rw [List.length_map, List.length_range]; omega
      obtain ⟨-, h8⟩ := List.append_inj h3'' hlen
      have h8a : e m = f' := by simpa using congrArg List.head? h8
      have h8b : e (m + 1) = f := by
        rw [List.cons.injEq, List.cons.injEq] at h8
        exact h8.2.1
      refine ⟨Nat.succ_pos m, ?_, ?_⟩
      · rw [show m + 1 - 1 = m from rfl, h8a, h8b]; exact h4
      · have h7' : DmWithin o.dtol o.damping (x.dm (a (m + 1 + 1))) (x.dm (a' (m + 1))) := h7
        rw [(hal (m + 1) (by omega)).1] at h7'
        exact h7'
    have hy' : x.symmetric (a (m + 1 + 1)) = true := hy
    unfold finalState
    dsimp only
    rw [hy', if_neg (by simp), if_pos hsm]

/-- Energies are only ever added, so that the first one stays the one-shot energy of the first call; after a call which returns, the last
energy belongs to the result. -/
theorem scmf_energies (x : Emb σ D R n) (o : Opts) (diis : Option D) (s s' : State σ) (res : R) (h : kernel x o diis s = (s', .ok res)) :
    s.energies <+: s'.energies ∧ s'.energies.length = s.energies.length + s'.iteration ∧ (∃ b c, x.run c = .ok (res, b) ∧ eTot s' = .ok (x.eMf b + x.eCorr b))
      ∧ (∀ e, eTotOneshot s = .ok e → eTotOneshot s' = .ok e)
      ∧ (s.energies = [] → ∃ r b, x.run s.emb = .ok (r, b) ∧ eTotOneshot s' = .ok (x.eMf b + x.eCorr b)) := by
  obtain ⟨k, a, d, r, e, ht, hk, hn, hl, rfl, rfl⟩ := scmf_returns x o diis s s' res h
  refine ⟨⟨_, rfl⟩, ?_, ?_, fun f hf => ?_, fun h0 => ?_⟩
  · show (s.energies ++ (List.range (k + 1)).map e).length = s.energies.length + (k + 1)
    rw [List.length_append, List.length_map, List.length_range]
  · obtain ⟨b, g1, g2, g3⟩ := ht.shot k (by omega)
    refine ⟨b, _, g1, ?_⟩
    rw [← g2]
    unfold eTot finalState
    dsimp only
    rw [List.range_succ, List.map_append, ← List.append_assoc, List.map_singleton, List.getLast?_concat]
  · unfold eTotOneshot at hf ⊢
    show (match (s.energies ++ (List.range (k + 1)).map e).head? with | some e => Except.ok e | none => .error PyErr.indexError) = _
    cases hse : s.energies with
    | nil => rw [hse] at hf; cases hf
    | cons y l => rw [hse] at hf; exact hf
  · obtain ⟨b, g1, g2, g3⟩ := ht.shot 0 (by omega)
    rw [if_pos rfl, ht.start] at g1
    refine ⟨_, b, g1, ?_⟩
    unfold eTotOneshot finalState
    dsimp only
    rw [h0, List.range_succ_eq_map, ← g2]
    rfl

/-- If the mean-field is already self-consistent, the second calculation finds this. -/
theorem scmf_stationary (x : Emb σ D R n) (o : Opts) (diis : Option D) (s : State σ) (res : R) (b : σ) (hr : ∀ c : σ, x.dm c = x.dm s.emb → x.run c = .ok (res, b))
    (hu : ∀ d, ∃ d' c, x.update d b = .ok (d', c) ∧ x.dm c = x.dm s.emb ∧ x.symmetric c = true) (hreset : ∀ c, x.dm (x.reset c) = x.dm c)
    (hm : 2 ≤ o.maxiter) (hd : o.damping < 1) (he : ∀ t, o.etol = some t → 0 < t) (ht : ∀ t, o.dtol = some t → 0 < t) :
    ∃ s', kernel x o diis s = (s', .ok res) ∧ s'.converged = true ∧ s'.iteration = 2 ∧ s'.energies = s.energies ++ [x.eMf b + x.eCorr b, x.eMf b + x.eCorr b] := by
  obtain ⟨d1, c1, h1, h1', h1''⟩ := hu diis
  obtain ⟨d2, c2, h2, h2', h2''⟩ := hu d1
  let a : Nat → σ := fun j => if j = 0 then s.emb else if j = 1 then c1 else c2
  let d : Nat → Option D := fun j => if j = 0 then diis else if j = 1 then d1 else d2
  have htr : Trajectory x s.emb diis (1 + 1) a d (fun _ => res) (fun _ => x.eMf b + x.eCorr b) := by
    refine ⟨rfl, rfl, fun k hk => ?_⟩
    obtain rfl | rfl : k = 0 ∨ k = 1 := by omega
    · exact ⟨b, hr s.emb rfl, rfl, h1⟩
    · exact ⟨b, hr _ ((hreset c1).trans h1'), rfl, h2⟩
  have hw : ∀ tol : Option ℝ, (∀ t, tol = some t → 0 < t) → Within tol o.damping 0 := fun tol h =>
    ⟨fun t ht => mul_pos (by linarith) (h t ht), fun _ => hd⟩
  have hsm : SmallChange x o a (fun _ => x.eMf b + x.eCorr b) 1 := by
    refine ⟨Nat.one_pos, ?_, ?_⟩
    · rw [sub_self, abs_zero]; exact hw _ he
    · show DmWithin _ _ (x.dm c2) (x.dm c1)
      rw [h2', h1']
      cases x.dm s.emb with
      | restricted u => exact .inl ⟨u, u, rfl, rfl, fun i j => by rw [sub_self, abs_zero, zero_div]; exact hw _ ht⟩
      | unrestricted u v => exact .inr ⟨u, u, v, v, rfl, rfl, fun i j => by rw [sub_self, abs_zero, sub_self, abs_zero]; exact ⟨hw _ ht, hw _ ht⟩⟩
  have h0 : ∀ (j : Nat), j < 1 → ¬ Stops x o a (fun _ => x.eMf b + x.eCorr b) j := by
    intro j hj
    obtain rfl : j = 0 := by omega
    rintro (h | h)
    · have : x.symmetric c1 = false := h
      rw [h1''] at this; cases this
    · exact absurd h.1 (lt_irrefl _)
  refine ⟨_, scmf_kernel x o diis s a d _ _ 1 htr (by exact_mod_cast hm) h0 (.inl (.inr hsm)), ?_, rfl, rfl⟩
  unfold finalState
  dsimp only
  rw [if_neg (by show ¬ x.symmetric c2 = false; rw [h2'']; simp), if_pos hsm]

/-- If energies and density matrices converge, the loop notices, given enough iterations. -/
theorem scmf_limit (x : Emb σ D R n) (o : Opts) (diis : Option D) (s : State σ) (a : Nat → σ) (d : Nat → Option D) (r : Nat → R) (e : Nat → ℝ)
    (ht : ∀ m, Trajectory x s.emb diis m a d r e) (hsym : ∀ k, x.symmetric (a k) = true) (hd : o.damping < 1) (hpe : ∀ t, o.etol = some t → 0 < t)
    (hpd : ∀ t, o.dtol = some t → 0 < t) (he : ∀ ε > 0, ∃ N : Nat, ∀ k ≥ N, |e (k + 1) - e k| < ε)
    (hdm : ∀ ε > 0, ∃ N : Nat, ∀ k ≥ N, (∃ u v, x.dm (a (k + 1)) = .restricted u ∧ x.dm (a k) = .restricted v ∧ ∀ i j, |u i j - v i j| < ε)
      ∨ ∃ u v u' v', x.dm (a (k + 1)) = .unrestricted u u' ∧ x.dm (a k) = .unrestricted v v' ∧ ∀ i j, |u i j - v i j| < ε ∧ |u' i j - v' i j| < ε) :
    ∃ M : Nat, (M : Int) ≤ o.maxiter → ∃ s' res, kernel x o diis s = (s', .ok res) ∧ s'.converged = true ∧ s'.iteration ≤ M := by
  have hd' : 0 < 1 - o.damping := by linarith
  obtain ⟨te, hte, hte'⟩ : ∃ t : ℝ, 0 < t ∧ ∀ y, y < t → Within o.etol o.damping y := by
    cases h : o.etol with
    | none => exact ⟨1, one_pos, fun y _ => ⟨fun t h => (by cases h), fun _ => hd⟩⟩
    | some t => exact ⟨(1 - o.damping) * t, mul_pos hd' (hpe t h), fun y hy => ⟨fun t' h' => by cases h'; exact hy, fun h => by cases h⟩⟩
  obtain ⟨td, htd, htd'⟩ : ∃ t : ℝ, 0 < t ∧ ∀ y, y < t → Within o.dtol o.damping y := by
    cases h : o.dtol with
    | none => exact ⟨1, one_pos, fun y _ => ⟨fun t h => (by cases h), fun _ => hd⟩⟩
    | some t => exact ⟨(1 - o.damping) * t, mul_pos hd' (hpd t h), fun y hy => ⟨fun t' h' => by cases h'; exact hy, fun h => by cases h⟩⟩
  obtain ⟨N1, hN1⟩ := he te hte
  obtain ⟨N2, hN2⟩ := hdm td htd
  have hex : ∃ k, Stops x o a e k := by
    refine ⟨N1 + N2 + 1, .inr ⟨Nat.succ_pos _, hte' _ (hN1 (N1 + N2) (by omega)), ?_⟩⟩
    rcases hN2 (N1 + N2 + 1) (by omega) with ⟨u, v, h1, h2, h3⟩ | ⟨u, v, u', v', h1, h2, h3⟩
    · exact .inl ⟨u, v, h1, h2, fun i j => htd' _ (by have := h3 i j; have := abs_nonneg (u i j - v i j); linarith)⟩
    · exact .inr ⟨u, v, u', v', h1, h2, fun i j => ⟨htd' _ (h3 i j).1, htd' _ (h3 i j).2⟩⟩
  classical
  refine ⟨Nat.find hex + 1, fun hM => ⟨_, _, scmf_kernel x o diis s a d r e (Nat.find hex) (ht _) (by push_cast at hM; omega) (fun j hj => Nat.find_min hex hj) (.inl (Nat.find_spec hex)), ?_, le_refl _⟩⟩
  have hsm : SmallChange x o a e (Nat.find hex) := by
    rcases Nat.find_spec hex with h | h
    · rw [hsym] at h; cases h
    · exact h
  unfold finalState
  dsimp only
  rw [hsym, if_neg (by simp), if_pos hsm]

/-! ## Deviations -/

/-- A calculation whose energy jumps after three one-shot calculations. -/
noncomputable def jumpEmb : Emb Nat Unit Unit 0 where
  run := fun c => .ok ((), c)
  reset := id
  eMf := fun _ => 0
  eCorr := fun c => if c < 3 then 0 else 10 * c
  update := fun d c => .ok (d, c + 1)
  dm := fun _ => .restricted 0
  symmetric := fun _ => true

private theorem jump_trajectory (c : Nat) (m : Nat) : Trajectory jumpEmb c none m (fun k => c + k) (fun _ => none) (fun _ => ()) (fun k => if c + k < 3 then 0 else 10 * ((c + k : Nat) : ℝ)) := by
  refine ⟨rfl, rfl, fun k _ => ⟨c + k, by split <;> rfl, ?_, rfl⟩⟩
  show _ = 0 + if c + k < 3 then (0 : ℝ) else 10 * ((c + k : Nat) : ℝ)
  rw [zero_add]

/-- A second call which does not converge still reports convergence, if the first one converged: the last two energies differ by thirty, the
tolerance is one. -/
theorem scmf_stale_convergence : let o : Opts := ⟨some 1, none, 2, 0⟩
    ∃ s s' : State Nat, kernel jumpEmb o none ⟨0, 0, false, []⟩ = (s, .ok ()) ∧ s.converged = true ∧ kernel jumpEmb o none s = (s', .ok ())
      ∧ s'.converged = true ∧ s'.energies = [0, 0, 0, 30] := by
  intro o
  have hdm : DmWithin (n := 0) o.dtol o.damping (.restricted 0) (.restricted 0) := .inl ⟨0, 0, rfl, rfl, fun i => i.elim0⟩
  have h1 := scmf_kernel jumpEmb o none ⟨0, 0, false, []⟩ _ _ _ _ 1 (jump_trajectory 0 2) (by decide) (by
    intro j hj
    obtain rfl : j = 0 := by omega
    rintro (h | h)
    · cases h
    · exact absurd h.1 (lt_irrefl _)) (.inr (by decide))
  have hs1 : SmallChange jumpEmb o (fun k => 0 + k) (fun k => if 0 + k < 3 then 0 else 10 * ((0 + k : Nat) : ℝ)) 1 := by
    refine ⟨Nat.one_pos, ⟨fun t ht => ?_, fun h => by cases h⟩, hdm⟩
    obtain rfl : (1 : ℝ) = t := Option.some.inj ht
    show |(if 0 + 1 < 3 then (0 : ℝ) else 10 * ((0 + 1 : Nat) : ℝ)) - (if 0 + 0 < 3 then (0 : ℝ) else 10 * ((0 + 0 : Nat) : ℝ))| < (1 - 0) * 1
    norm_num
  have e1 : finalState jumpEmb o ⟨0, 0, false, []⟩ (fun k => 0 + k) (fun k => if 0 + k < 3 then 0 else 10 * ((0 + k : Nat) : ℝ)) 1 = ⟨2, 2, true, [0, 0]⟩ := by
    unfold finalState
    rw [if_neg (by simp [jumpEmb]), if_pos hs1]
    congr 1
  rw [e1] at h1
  have h2 := scmf_kernel jumpEmb o none ⟨2, 2, true, [0, 0]⟩ _ _ _ _ 1 (jump_trajectory 2 2) (by decide) (by
    intro j hj
    obtain rfl : j = 0 := by omega
    rintro (h | h)
    · cases h
    · exact absurd h.1 (lt_irrefl _)) (.inr (by decide))
  refine ⟨_, _, h1, rfl, h2, ?_, ?_⟩
  · unfold finalState
    dsimp only
    rw [if_neg (by simp [jumpEmb])]
    split <;> rfl
  · unfold finalState
    dsimp only
    norm_num [List.range_succ]

/-- The recorded energies are total energies of the supercell plus correlation energies per cell: they agree with the energies of the embedding
only for a single cell (or vanishing mean-field energy). -/
theorem scmf_energy_per_cell (x : Emb σ D R n) (ncells : Nat) (hn : 0 < ncells) (b : σ) :
    x.eMf b + x.eCorr b = embEnergy x ncells b ↔ ncells = 1 ∨ x.eMf b = 0 := by
  unfold embEnergy
  have hc : (ncells : ℝ) ≠ 0 := by exact_mod_cast hn.ne'
  rw [add_left_inj, eq_div_iff hc]
  constructor
  · intro h
    by_cases h0 : x.eMf b = 0
    · exact .inr h0
    · left
      have : (ncells : ℝ) = 1 := mul_left_cancel₀ h0 (by rw [h, mul_one])
      exact_mod_cast this
  · rintro (h | h)
    · rw [h]; simp
    · rw [h]; simp

/-- The hypotheses of `scmf_kernel` are met. -/
example : ∃ s', kernel jumpEmb ⟨some 1, none, 2, 0⟩ none ⟨0, 0, false, []⟩ = (s', .ok ()) ∧ s'.converged = true :=
  let ⟨s, _, h, h', _⟩ := scmf_stale_convergence
  ⟨s, h, h'⟩

/-- Those of `scmf_stationary`. -/
example : ∃ s', kernel (⟨fun c => .ok ((), c), id, fun _ => -1, fun _ => -1, fun d c => .ok (d, c), fun _ => .restricted 1, fun _ => true⟩ : Emb Unit Unit Unit 2) ⟨some 1, some 1, 2, 0⟩
    none ⟨(), 0, false, []⟩ = (s', .ok ()) ∧ s'.converged = true ∧ s'.iteration = 2 := by
  obtain ⟨s', h1, h2, h3, _⟩ := scmf_stationary (⟨fun c => .ok ((), c), id, fun _ => -1, fun _ => -1, fun d c => .ok (d, c), fun _ => .restricted 1, fun _ => true⟩ : Emb Unit Unit Unit 2)
    ⟨some 1, some 1, 2, 0⟩ none ⟨(), 0, false, []⟩ () () (fun _ _ => rfl) (fun d => ⟨d, (), rfl, rfl, rfl⟩) (fun _ => rfl) le_rfl (by norm_num)
    (fun t h => by cases h; norm_num) (fun t h => by cases h; norm_num)
  exact ⟨s', h1, h2, h3⟩

end Vayesta.Props
