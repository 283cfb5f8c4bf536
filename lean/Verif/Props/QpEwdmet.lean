import Verif.Model.QpEwdmet
import Verif.Spec.SelfEnergy
import Verif.Props.SelfEnergy
import Mathlib.Tactic.Linarith
import Mathlib.Tactic.Module

/-! Quasi-particle self-consistent energy-weighted density-matrix embedding (C91). -/

namespace Vayesta.Props

open Vayesta.SelfEnergy Lemmas.SelfEnergy Vayesta.QpEwdmet Matrix Lowdin

set_option linter.unusedSectionVars false

variable {ι : Type} [Fintype ι] {nmo : Nat} {D R : Type}

/-! ## Specification -/

/-- A series of one-shot calculations, each after an update of the mean-field: mean-fields `m`, potentials `p` (before and after each), DIIS
objects `d`, results `r`, energies `e`. -/
structure QpTrajectory (v : Env ι nmo) (x : QpEwdmet.Emb ι nmo R) (o : QpEwdmet.Opts) (diis : DiisUpdate ι D) (m0 : Mf ι nmo) (p0 : Option (Matrix ι ι ℝ)) (d0 : Option D) (n : Nat)
    (m : Nat → Mf ι nmo) (p : Nat → Option (Matrix ι ι ℝ)) (d : Nat → Option D) (r : Nat → R) (e : Nat → ℝ) : Prop where
  mf0 : m 0 = m0
  pot0 : p 0 = p0
  diis0 : d 0 = d0
  shot : ∀ (k : Nat), k < n → ∃ l u, x.run (m k) = .ok (r k, l) ∧ e k = x.energy (m k) l ∧ updateMo v o diis (d k) (m k) l = .ok (some u)
    ∧ p (k + 1) = some u.pot ∧ d (k + 1) = u.diis ∧ updateMf v (some u) = .ok (m (k + 1))

/-- The potential after calculation `k` is close to the one before it. -/
def PotentialStays (tol : ℝ) (p : Nat → Option (Matrix ι ι ℝ)) (k : Nat) : Prop :=
  ∃ a b, p k = some a ∧ p (k + 1) = some b ∧ ∑ i, ∑ j, |b i j - a i j| < tol

/-- The loop ends after calculation `k`. -/
def QpStops (x : QpEwdmet.Emb ι nmo R) (tol : ℝ) (m : Nat → Mf ι nmo) (p : Nat → Option (Matrix ι ι ℝ)) (k : Nat) : Prop :=
  x.symmetric (m (k + 1)) = false ∨ PotentialStays tol p k

open Classical in
/-- The state after calculation `k`, if it was the last one. -/
noncomputable def qpFinal (x : QpEwdmet.Emb ι nmo R) (tol : ℝ) (s : QpEwdmet.State ι nmo) (m : Nat → Mf ι nmo) (p : Nat → Option (Matrix ι ι ℝ)) (e : Nat → ℝ) (k : Nat) :
    QpEwdmet.State ι nmo where
  mf := m (k + 1)
  pot := p (k + 1)
  iteration := k + 1
  converged := if x.symmetric (m (k + 1)) = false then false else if PotentialStays tol p k then true else s.converged
  energies := s.energies ++ (List.range (k + 1)).map e

/-! ## The loop -/

private theorem checkConvergence_iff (o : QpEwdmet.Opts) (p : Nat → Option (Matrix ι ι ℝ)) (k : Nat) :
    QpEwdmet.checkConvergence o (p (k + 1)) (p k) = true ↔ PotentialStays o.tol p k := by
  unfold QpEwdmet.checkConvergence PotentialStays
  cases h1 : p (k + 1) with
  | none =>
    constructor
    · intro h; simp at h
    · rintro ⟨a, b, _, h, _⟩; cases h
  | some b =>
    cases h2 : p k with
    | none =>
      constructor
      · intro h; simp at h
      · rintro ⟨a, b, h, _⟩; cases h
    | some a =>
      dsimp only
      rw [decide_eq_true_iff]
      constructor
      · intro h; exact ⟨a, b, rfl, rfl, h⟩
      · rintro ⟨a', b', h, h', h''⟩
        cases h; cases h'; exact h''

private def qpBefore (s : QpEwdmet.State ι nmo) (m : Nat → Mf ι nmo) (p : Nat → Option (Matrix ι ι ℝ)) (e : Nat → ℝ) (k : Nat) : QpEwdmet.State ι nmo :=
  ⟨m k, p k, if k = 0 then s.iteration else k, s.converged, s.energies ++ (List.range k).map e⟩

private theorem pass_eq (v : Env ι nmo) (x : QpEwdmet.Emb ι nmo R) (o : QpEwdmet.Opts) (diis : DiisUpdate ι D) (s : QpEwdmet.State ι nmo) (m : Nat → Mf ι nmo)
    (p : Nat → Option (Matrix ι ι ℝ)) (d : Nat → Option D) (r : Nat → R) (e : Nat → ℝ) (k : Nat) (l : List (Frag ι)) (u : Update ι nmo D)
    (h1 : x.run (m k) = .ok (r k, l)) (h2 : e k = x.energy (m k) l) (h3 : updateMo v o diis (d k) (m k) l = .ok (some u)) (h4 : p (k + 1) = some u.pot)
    (h5 : d (k + 1) = u.diis) (h6 : updateMf v (some u) = .ok (m (k + 1))) :
    QpEwdmet.pass v x o diis (d k) { qpBefore s m p e k with iteration := k + 1 }
      = open Classical in if QpStops x o.tol m p k then .done (r k) (qpFinal x o.tol s m p e k) else .next (r k) (d (k + 1)) (qpBefore s m p e (k + 1)) := by
  have hc := checkConvergence_iff o p k
  unfold QpEwdmet.pass
  have hm : (qpBefore s m p e k).mf = m k := rfl
  have hp : (qpBefore s m p e k).pot = p k := rfl
  dsimp only
  rw [hm, h1]
  dsimp only
  rw [h3]
  dsimp only
  rw [h6]
  dsimp only
  unfold QpEwdmet.finish
  dsimp only
  have hl : (qpBefore s m p e k).energies ++ [x.energy (m k) l] = s.energies ++ (List.range (k + 1)).map e := by
    show s.energies ++ (List.range k).map e ++ _ = _
    rw [List.range_succ, List.map_append, List.append_assoc, ← h2]; rfl
  have hcv : (qpBefore s m p e k).converged = s.converged := rfl
  rw [hl, hp, ← h4, ← h5, hcv]
  by_cases hy : x.symmetric (m (k + 1)) = false
  · rw [if_pos hy, if_pos (show QpStops x o.tol m p k from Or.inl hy)]
    simp only [qpFinal, if_pos hy]
  · rw [if_neg hy]
    by_cases hx : PotentialStays o.tol p k
    · rw [if_pos (hc.2 hx), if_pos (show QpStops x o.tol m p k from Or.inr hx)]
      simp only [qpFinal, if_neg hy, if_pos hx]
    · rw [if_neg (fun h => hx (hc.1 h)), if_neg (show ¬ QpStops x o.tol m p k from fun h => h.elim hy hx)]
      rfl

private def qpRes (r : Nat → R) : Nat → Option R
  | 0 => none
  | k + 1 => some (r k)

section
variable {v : Env ι nmo} {x : QpEwdmet.Emb ι nmo R} {o : QpEwdmet.Opts} {diis : DiisUpdate ι D} {d0 : Option D} {s : QpEwdmet.State ι nmo} {m : Nat → Mf ι nmo}
  {p : Nat → Option (Matrix ι ι ℝ)} {d : Nat → Option D} {r : Nat → R} {e : Nat → ℝ}

private theorem QpTrajectory.shorter {n k : Nat} (h : k ≤ n) (ht : QpTrajectory v x o diis s.mf s.pot d0 n m p d r e) :
    QpTrajectory v x o diis s.mf s.pot d0 k m p d r e := ⟨ht.mf0, ht.pot0, ht.diis0, fun j hj => ht.shot j (by omega)⟩

private theorem loop_step {k : Nat} (ht : QpTrajectory v x o diis s.mf s.pot d0 (k + 1) m p d r e) (fuel : Nat) :
    QpEwdmet.loop v x o diis (fuel + 1) (k + 1) (qpBefore s m p e k) (d k) (qpRes r k)
      = open Classical in if QpStops x o.tol m p k then (qpFinal x o.tol s m p e k, .ok (r k))
        else QpEwdmet.loop v x o diis fuel (k + 2) (qpBefore s m p e (k + 1)) (d (k + 1)) (qpRes r (k + 1)) := by
  obtain ⟨l, u, h1, h2, h3, h4, h5, h6⟩ := ht.shot k (by omega)
  rw [QpEwdmet.loop, pass_eq v x o diis s m p d r e k l u h1 h2 h3 h4 h5 h6]
  by_cases hx : QpStops x o.tol m p k
  · rw [if_pos hx, if_pos hx]
  · rw [if_neg hx, if_neg hx]; rfl

private theorem loop_to {n : Nat} (ht : QpTrajectory v x o diis s.mf s.pot d0 n m p d r e) (hn : ∀ (k : Nat), k < n → ¬ QpStops x o.tol m p k) (fuel : Nat) :
    QpEwdmet.loop v x o diis (fuel + n) 1 s d0 none = QpEwdmet.loop v x o diis fuel (n + 1) (qpBefore s m p e n) (d n) (qpRes r n) := by
  induction n generalizing fuel with
  | zero =>
    have : qpBefore s m p e 0 = s := by
      unfold qpBefore; rw [if_pos rfl, ht.mf0, ht.pot0]; simp
    rw [this, ht.diis0]
    rfl
  | succ n ih =>
    rw [show fuel + (n + 1) = (fuel + 1) + n by omega, ih (ht.shorter (by omega)) (fun k hk => hn k (by omega)), loop_step ht, if_neg (hn n (by omega))]

/-- A calculation is a series of one-shot calculations with updates in between. It ends after the first calculation which breaks the symmetry between
fragments or changes the static potential by less than the tolerance in sum over all elements, whatever the energies and density matrices, or after
`maxiter` calculations. -/
theorem qp_kernel {k : Nat} (ht : QpTrajectory v x o diis s.mf s.pot d0 (k + 1) m p d r e) {maxiter : Int} (hk : (k : Int) < maxiter)
    (hn : ∀ (j : Nat), j < k → ¬ QpStops x o.tol m p j) (hl : QpStops x o.tol m p k ∨ (k : Int) + 1 = maxiter) :
    QpEwdmet.kernel v x o diis d0 maxiter s = (qpFinal x o.tol s m p e k, .ok (r k)) := by
  unfold QpEwdmet.kernel
  obtain ⟨fuel, hf⟩ : ∃ fuel, maxiter.toNat = fuel + 1 + k := ⟨maxiter.toNat - 1 - k, by omega⟩
  rw [hf, loop_to (ht.shorter (by omega)) hn, loop_step ht]
  by_cases hs : QpStops x o.tol m p k
  · rw [if_pos hs]
  · rw [if_neg hs]
    have : fuel = 0 := by rcases hl with h | h <;> [exact absurd h hs; omega]
    subst this
    rw [qpRes, QpEwdmet.loop]
    unfold QpStops at hs
    push Not at hs
    simp only [qpFinal, qpBefore, if_neg hs.1, if_neg hs.2, if_neg (Nat.succ_ne_zero k)]

private theorem pass_ok {d1 : Option D} {s1 : QpEwdmet.State ι nmo} (h : ∀ err s', QpEwdmet.pass v x o diis d1 s1 ≠ .raised err s') :
    ∃ r l u m', x.run s1.mf = .ok (r, l) ∧ updateMo v o diis d1 s1.mf l = .ok (some u) ∧ updateMf v (some u) = .ok m' := by
  unfold QpEwdmet.pass at h
  cases h1 : x.run s1.mf with
  | error err => rw [h1] at h; exact absurd rfl (h _ _)
  | ok y =>
    obtain ⟨r, l⟩ := y
    rw [h1] at h
    dsimp only at h
    cases h2 : updateMo v o diis d1 s1.mf l with
    | error err => rw [h2] at h; exact absurd rfl (h _ _)
    | ok u =>
      rw [h2] at h
      dsimp only at h
      cases u with
      | none => exact absurd rfl (h _ _)
      | some u =>
        cases h3 : updateMf v (some u) with
        | error err => rw [h3] at h; exact absurd rfl (h _ _)
        | ok m' => exact ⟨r, l, u, m', rfl, h2, h3⟩

private theorem stays_congr {tol : ℝ} {p p' : Nat → Option (Matrix ι ι ℝ)} {k : Nat} (h : p' k = p k) (h' : p' (k + 1) = p (k + 1)) :
    PotentialStays tol p' k ↔ PotentialStays tol p k := by
  unfold PotentialStays; rw [h, h']

private theorem extend {n : Nat} (ht : QpTrajectory v x o diis s.mf s.pot d0 n m p d r e) {res : R} {l : List (Frag ι)} {u : Update ι nmo D} {m' : Mf ι nmo}
    (h1 : x.run (m n) = .ok (res, l)) (h2 : updateMo v o diis (d n) (m n) l = .ok (some u)) (h3 : updateMf v (some u) = .ok m') :
    ∃ (m1 : Nat → Mf ι nmo) (p1 : Nat → Option (Matrix ι ι ℝ)) (d1 : Nat → Option D) (r1 : Nat → R) (e1 : Nat → ℝ),
      QpTrajectory v x o diis s.mf s.pot d0 (n + 1) m1 p1 d1 r1 e1 ∧ ∀ (j : Nat), j ≤ n → m1 j = m j ∧ p1 j = p j := by
  refine ⟨fun j => if j ≤ n then m j else m', fun j => if j ≤ n then p j else some u.pot, fun j => if j ≤ n then d j else u.diis,
    fun j => if j < n then r j else res, fun j => if j < n then e j else x.energy (m n) l, ⟨?_, ?_, ?_, fun k hk => ?_⟩, fun j hj => ⟨if_pos hj, if_pos hj⟩⟩
  · exact (if_pos (Nat.zero_le n)).trans ht.mf0
  · exact (if_pos (Nat.zero_le n)).trans ht.pot0
  · exact (if_pos (Nat.zero_le n)).trans ht.diis0
  · by_cases hkn : k < n
    · obtain ⟨l, u, g1, g2, g3, g4, g5, g6⟩ := ht.shot k hkn
      refine ⟨l, u, ?_⟩
      rw [if_pos (show k ≤ n by omega), if_pos hkn, if_pos hkn, if_pos (show k ≤ n by omega), if_pos (show k + 1 ≤ n by omega), if_pos (show k + 1 ≤ n by omega),
        if_pos (show k + 1 ≤ n by omega)]
      exact ⟨g1, g2, g3, g4, g5, g6⟩
    · obtain rfl : k = n := by omega
      refine ⟨l, u, ?_⟩
      rw [if_pos le_rfl, if_neg hkn, if_neg hkn, if_pos le_rfl, if_neg (by omega), if_neg (by omega), if_neg (by omega)]
      exact ⟨h1, rfl, h2, rfl, rfl, h3⟩

/-- What can happen in the first `n` calculations. -/
private theorem outcomes (r0 : R) (n : Nat) : (∃ m p d r e, QpTrajectory v x o diis s.mf s.pot d0 n m p d r e ∧ ∀ (j : Nat), j < n → ¬ QpStops x o.tol m p j)
    ∨ (∃ k m p d r e, k < n ∧ QpTrajectory v x o diis s.mf s.pot d0 (k + 1) m p d r e ∧ (∀ (j : Nat), j < k → ¬ QpStops x o.tol m p j) ∧ QpStops x o.tol m p k)
    ∨ ∃ k m p d r e err s', k < n ∧ QpTrajectory v x o diis s.mf s.pot d0 k m p d r e ∧ (∀ (j : Nat), j < k → ¬ QpStops x o.tol m p j)
        ∧ QpEwdmet.pass v x o diis (d k) { qpBefore s m p e k with iteration := k + 1 } = .raised err s' := by
  induction n with
  | zero =>
    exact .inl ⟨fun _ => s.mf, fun _ => s.pot, fun _ => d0, fun _ => r0, fun _ => 0, ⟨rfl, rfl, rfl, fun k hk => absurd hk (Nat.not_lt_zero k)⟩, fun k hk => absurd hk (Nat.not_lt_zero k)⟩
  | succ n ih =>
    rcases ih with ⟨m, p, d, r, e, ht, hn⟩ | ⟨k, m, p, d, r, e, hk, h⟩ | ⟨k, m, p, d, r, e, err, s', hk, h⟩
    · by_cases hp : ∃ err s', QpEwdmet.pass v x o diis (d n) { qpBefore s m p e n with iteration := n + 1 } = .raised err s'
      · obtain ⟨err, s', hp⟩ := hp
        exact .inr (.inr ⟨n, m, p, d, r, e, err, s', by omega, ht, hn, hp⟩)
      · push Not at hp
        obtain ⟨res, l, u, m', h1, h2, h3⟩ := pass_ok hp
        obtain ⟨m1, p1, d1, r1, e1, ht1, he1⟩ := extend ht h1 h2 h3
        have hn' : ∀ (j : Nat), j < n → ¬ QpStops x o.tol m1 p1 j := by
          intro j hj h
          refine hn j hj ?_
          unfold QpStops at h ⊢
          rw [(he1 (j + 1) (by omega)).1, stays_congr (he1 j (by omega)).2 (he1 (j + 1) (by omega)).2] at h
          exact h
        by_cases hs : QpStops x o.tol m1 p1 n
        · exact .inr (.inl ⟨n, _, _, _, _, _, Nat.lt_succ_self n, ht1, hn', hs⟩)
        · refine .inl ⟨_, _, _, _, _, ht1, fun j hj => ?_⟩
          by_cases hjm : j < n
          · exact hn' j hjm
          · obtain rfl : j = n := by omega
            exact hs
    · exact .inr (.inl ⟨k, m, p, d, r, e, by omega, h⟩)
    · exact .inr (.inr ⟨k, m, p, d, r, e, err, s', by omega, h⟩)

/-- Every call which returns is such a series of calculations. -/
theorem qp_returns {maxiter : Int} {s' : QpEwdmet.State ι nmo} {res : R} (h : QpEwdmet.kernel v x o diis d0 maxiter s = (s', .ok res)) :
    ∃ k m p d r e, QpTrajectory v x o diis s.mf s.pot d0 (k + 1) m p d r e ∧ (k : Int) < maxiter ∧ (∀ (j : Nat), j < k → ¬ QpStops x o.tol m p j)
      ∧ (QpStops x o.tol m p k ∨ (k : Int) + 1 = maxiter) ∧ s' = qpFinal x o.tol s m p e k ∧ res = r k := by
  rcases outcomes (v := v) (x := x) (o := o) (diis := diis) (d0 := d0) (s := s) res maxiter.toNat with
    ⟨m, p, d, r, e, ht, hn⟩ | ⟨k, m, p, d, r, e, hk, ht, hn, hs⟩ | ⟨k, m, p, d, r, e, err, s1, hk, ht, hn, hs⟩
  · cases hm : maxiter.toNat with
    | zero =>
      unfold QpEwdmet.kernel at h
      rw [hm, QpEwdmet.loop] at h
      cases h
    | succ k =>
      rw [hm] at ht hn
      have hl : (k : Int) + 1 = maxiter := by omega
      have := qp_kernel ht (show (k : Int) < maxiter by omega) (fun j hj => hn j (by omega)) (.inr hl)
      rw [h] at this
      exact ⟨k, m, p, d, r, e, ht, by omega, fun j hj => hn j (by omega), .inr hl, congrArg Prod.fst this, Except.ok.inj (congrArg Prod.snd this)⟩
  · have := qp_kernel ht (show (k : Int) < maxiter by omega) hn (.inl hs)
    rw [h] at this
    exact ⟨k, m, p, d, r, e, ht, by omega, hn, .inl hs, congrArg Prod.fst this, Except.ok.inj (congrArg Prod.snd this)⟩
  · exfalso
    unfold QpEwdmet.kernel at h
    obtain ⟨fuel, hf⟩ : ∃ fuel, maxiter.toNat = fuel + 1 + k := ⟨maxiter.toNat - 1 - k, by omega⟩
    rw [hf, loop_to ht hn, QpEwdmet.loop, hs] at h
    cases congrArg Prod.snd h

/-- A new object is converged after a call that returns if and only if at least two calculations were done, the last mean-field is symmetric, and the
last two potentials differ by less than the tolerance. -/
theorem qp_converged {maxiter : Int} {s' : QpEwdmet.State ι nmo} {res : R} (h : QpEwdmet.kernel v x o diis d0 maxiter s = (s', .ok res)) (hs : s.converged = false)
    (hp : s.pot = none) : s'.converged = true ↔ ∃ (n : Nat) (m : Nat → Mf ι nmo) (p : Nat → Option (Matrix ι ι ℝ)) (d : Nat → Option D) (r : Nat → R) (e : Nat → ℝ) (a b : Matrix ι ι ℝ),
      QpTrajectory v x o diis s.mf none d0 (n + 2) m p d r e ∧ s'.iteration = n + 2 ∧ x.symmetric (m (n + 2)) = true ∧ p (n + 1) = some a ∧ p (n + 2) = some b
        ∧ ∑ i, ∑ j, |b i j - a i j| < o.tol := by
  obtain ⟨k, m, p, d, r, e, ht, hk, hn, hl, rfl, rfl⟩ := qp_returns h
  constructor
  · intro hc
    unfold qpFinal at hc
    dsimp only at hc
    split at hc
    · cases hc
    · rename_i hy
      split at hc
      · rename_i hx
        obtain ⟨a, b, h1, h2, h3⟩ := hx
        cases k with
        | zero => rw [ht.pot0, hp] at h1; cases h1
        | succ k =>
          rw [hp] at ht
          exact ⟨k, m, p, d, r, e, a, b, ht, rfl, by simpa using hy, h1, h2, h3⟩
      · rw [hs] at hc; cases hc
  · rintro ⟨n, m', p', d', r', e', a, b, ht', hi, hy, h1, h2, h3⟩
    have hkn : k + 1 = n + 2 := hi
    obtain rfl : k = n + 1 := by omega
    rw [hp] at ht
    have hal : ∀ (j : Nat), j ≤ n + 2 → m' j = m j ∧ d' j = d j ∧ p' j = p j := by
      intro j
      induction j with
      | zero => intro _; exact ⟨ht'.mf0.trans ht.mf0.symm, ht'.diis0.trans ht.diis0.symm, ht'.pot0.trans ht.pot0.symm⟩
      | succ j ih =>
        intro hj
        obtain ⟨l, u, g1, g2, g3, g4, g5, g6⟩ := ht.shot j (by omega)
        obtain ⟨l', u', g1', g2', g3', g4', g5', g6'⟩ := ht'.shot j (by omega)
        obtain ⟨i1, i2, i3⟩ := ih (by omega)
        rw [i1, g1] at g1'
        have hl : l = l' := congrArg Prod.snd (Except.ok.inj g1')
        rw [i1, i2, ← hl, g3] at g3'
        have hu : u = u' := Option.some.inj (Except.ok.inj g3')
        subst hu
        rw [g6] at g6'
        exact ⟨(Except.ok.inj g6').symm, g5'.trans g5.symm, g4'.trans g4.symm⟩
    have hsm : PotentialStays o.tol p (n + 1) := ⟨a, b, by rw [← (hal (n + 1) (by omega)).2.2]; exact h1, by rw [← (hal (n + 2) le_rfl).2.2]; exact h2, h3⟩
    rw [(hal (n + 2) le_rfl).1] at hy
    unfold qpFinal
    dsimp only
    rw [show n + 1 + 1 = n + 2 from rfl, hy, if_neg (by simp), if_pos hsm]

/-- All energies are recorded, one for each calculation. -/
theorem qp_energies {maxiter : Int} {s' : QpEwdmet.State ι nmo} {res : R} (h : QpEwdmet.kernel v x o diis d0 maxiter s = (s', .ok res)) :
    ∃ (m : Nat → Mf ι nmo) (p : Nat → Option (Matrix ι ι ℝ)) (d : Nat → Option D) (r : Nat → R) (e : Nat → ℝ),
      QpTrajectory v x o diis s.mf s.pot d0 s'.iteration m p d r e ∧ s'.energies = s.energies ++ (List.range s'.iteration).map e ∧ s'.mf = m s'.iteration
        ∧ s'.pot = p s'.iteration ∧ 0 < s'.iteration ∧ res = r (s'.iteration - 1) := by
  obtain ⟨k, m, p, d, r, e, ht, hk, hn, hl, rfl, rfl⟩ := qp_returns h
  exact ⟨m, p, d, r, e, ht, rfl, rfl, rfl, Nat.succ_pos k, rfl⟩

end

/-! ## One update -/

section
variable {v : Env ι nmo} {x : QpEwdmet.Emb ι nmo R} {o : QpEwdmet.Opts} {diis : DiisUpdate ι D} {d0 : Option D} {s : QpEwdmet.State ι nmo} {m : Mf ι nmo}
  {l : List (Frag ι)} {u : Update ι nmo D}

private theorem update_cases (h : updateMo v o diis d0 m l = .ok (some u)) : ∃ r mo, selfEnergy v o m l = .ok (some r) ∧
    newOrbitals v o (scFock v o m r.static (extrapolate diis d0 (potential v o m r)).1) (extrapolate diis d0 (potential v o m r)).1 = .ok mo ∧
    u = ⟨(extrapolate diis d0 (potential v o m r)).1, r.static, scFock v o m r.static (extrapolate diis d0 (potential v o m r)).1,
      newFock v m r.static (extrapolate diis d0 (potential v o m r)).1, mo, (extrapolate diis d0 (potential v o m r)).2⟩ := by
  unfold updateMo at h
  cases h1 : selfEnergy v o m l with
  | error e => rw [h1] at h; cases h
  | ok r =>
    rw [h1] at h
    cases r with
    | none => cases h
    | some r =>
      obtain ⟨X, hX⟩ : ∃ X, X = extrapolate diis d0 (potential v o m r) := ⟨_, rfl⟩
      replace h : (v.greens (phys v m r.static) (v.shift (phys v m r.static) r.se) (newFock v m r.static (extrapolate diis d0 (potential v o m r)).1) >>= fun _ =>
        newOrbitals v o (scFock v o m r.static (extrapolate diis d0 (potential v o m r)).1) (extrapolate diis d0 (potential v o m r)).1 >>= fun mo =>
        pure (some (⟨(extrapolate diis d0 (potential v o m r)).1, r.static, scFock v o m r.static (extrapolate diis d0 (potential v o m r)).1,
          newFock v m r.static (extrapolate diis d0 (potential v o m r)).1, mo, (extrapolate diis d0 (potential v o m r)).2⟩ : Update ι nmo D))) = .ok (some u) := h
      rw [← hX] at h
      cases h2 : v.greens (phys v m r.static) (v.shift (phys v m r.static) r.se) (newFock v m r.static X.1) with
      | error e => rw [h2] at h; cases h
      | ok y =>
        rw [h2] at h
        cases h3 : newOrbitals v o (scFock v o m r.static X.1) X.1 with
        | error e =>
          replace h : (newOrbitals v o (scFock v o m r.static X.1) X.1 >>= _) = .ok (some u) := h
          rw [h3] at h; cases h
        | ok mo =>
          replace h : (newOrbitals v o (scFock v o m r.static X.1) X.1 >>= _) = .ok (some u) := h
          rw [h3] at h
          refine ⟨r, mo, rfl, by rw [← hX]; exact h3, ?_⟩
          rw [← hX]
          exact (Option.some.inj (Except.ok.inj h)).symm

private theorem conj_mo [DecidableEq ι] (hs : Orbitals (v.sys m)) (a : Matrix (Fin nmo) (Fin nmo) ℝ) :
    m.moᵀ * (v.ovlp * m.mo * a * (v.ovlp * m.mo)ᵀ) * m.mo = a := by
  have h1 : m.moᵀ * v.ovlp * m.mo = 1 := hs.orthonormal
  have h2 : v.ovlpᵀ = v.ovlp := hs.overlap
  rw [transpose_mul, h2]
  calc m.moᵀ * (v.ovlp * m.mo * a * (m.moᵀ * v.ovlp)) * m.mo = (m.moᵀ * v.ovlp * m.mo) * a * (m.moᵀ * v.ovlp * m.mo) := by simp only [Matrix.mul_assoc]
    _ = a := by rw [h1, Matrix.one_mul, Matrix.mul_one]

private theorem conj_ao (a : Matrix (Fin nmo) (Fin nmo) ℝ) (h2 : v.ovlpᵀ = v.ovlp) :
    v.ovlp * (m.mo * a * m.moᵀ) * v.ovlp = v.ovlp * m.mo * a * (v.ovlp * m.mo)ᵀ := by
  rw [transpose_mul, h2]
  simp only [Matrix.mul_assoc]

/-- In molecular orbitals the quasi-particle Hamiltonian is the sum of the Fock matrix, the static self-energy and the static potential (of the whole system, or
the sum over clusters), and the new Fock matrix is the old one plus the undamped part of the change. -/
theorem qp_hamiltonian [DecidableEq ι] (hs : Orbitals (v.sys m)) (h : updateMo v o diis none m l = .ok (some u)) :
    ∃ r, selfEnergy v o m l = .ok (some r) ∧
      m.moᵀ * u.qpham * m.mo = m.moᵀ * v.fock m.mo * m.mo + r.static + (if o.globalPot then v.statWhole (v.shift (phys v m r.static) r.se) m.energy
        else m.moᵀ * v.ovlp * r.pot * (m.moᵀ * v.ovlp)ᵀ) ∧
      u.scFock = v.fock m.mo + (1 - o.damping) • (u.qpham - v.fock m.mo) := by
  obtain ⟨r, mo, h1, -, rfl⟩ := update_cases h
  have h2 : v.ovlpᵀ = v.ovlp := hs.overlap
  refine ⟨r, h1, ?_, ?_⟩
  · show m.moᵀ * (v.fock m.mo + v.ovlp * m.mo * r.static * (v.ovlp * m.mo)ᵀ + potential v o m r) * m.mo = _
    rw [Matrix.mul_add, Matrix.mul_add, Matrix.add_mul, Matrix.add_mul, conj_mo hs]
    congr 1
    unfold potential
    dsimp only
    cases o.globalPot with
    | true =>
      rw [if_pos rfl, if_pos rfl, conj_ao _ h2, conj_mo hs]
    | false =>
      rw [if_neg (by simp), if_neg (by simp), transpose_mul, h2, transpose_transpose]
      simp only [Matrix.mul_assoc]
  · show o.damping • v.fock m.mo + (1 - o.damping) • newFock v m r.static _ = v.fock m.mo + (1 - o.damping) • (newFock v m r.static _ - v.fock m.mo)
    module

/-- The potential before extrapolation. -/
private theorem pot_none (h : updateMo v o diis none m l = .ok (some u)) : ∃ r, selfEnergy v o m l = .ok (some r) ∧ u.pot = potential v o m r ∧ u.static = r.static := by
  obtain ⟨r, mo, h1, -, rfl⟩ := update_cases h
  exact ⟨r, h1, rfl, rfl⟩

/-- With a DIIS object the potential of the clusters is given to it; what it returns is the new potential and takes part in the Hamiltonian instead of that of the
clusters, and the object remembers what it was given. -/
theorem qp_diis {d1 : D} {u0 : Update ι nmo D} (h0 : updateMo v o diis none m l = .ok (some u0)) (h : updateMo v o diis (some d1) m l = .ok (some u)) :
    u.pot = (diis d1 u0.pot).1 ∧ u.diis = some (diis d1 u0.pot).2 ∧ u.qpham = u0.qpham - u0.pot + (diis d1 u0.pot).1 ∧
      u.scFock = v.fock m.mo + (1 - o.damping) • (u.qpham - v.fock m.mo) ∧ u0.diis = none := by
  obtain ⟨r, mo, h1, -, rfl⟩ := update_cases h
  obtain ⟨r0, mo0, h2, -, rfl⟩ := update_cases h0
  obtain rfl : r = r0 := Option.some.inj (Except.ok.inj (h1.symm.trans h2))
  refine ⟨rfl, rfl, ?_, ?_, rfl⟩
  · show v.fock m.mo + v.ovlp * m.mo * r.static * (v.ovlp * m.mo)ᵀ + _ = v.fock m.mo + v.ovlp * m.mo * r.static * (v.ovlp * m.mo)ᵀ + potential v o m r - potential v o m r + _
    rw [add_sub_cancel_right]
    rfl
  · show o.damping • v.fock m.mo + (1 - o.damping) • newFock v m r.static _ = v.fock m.mo + (1 - o.damping) • (newFock v m r.static _ - v.fock m.mo)
    module

/-- With the potential of the whole system, auxiliaries are shifted for the Fock matrix and the static self-energy together; otherwise they do not matter for it. -/
theorem qp_global_potential (h : updateMo v o diis none m l = .ok (some u)) : ∃ r, selfEnergy v o m l = .ok (some r) ∧
    u.pot = if o.globalPot then v.ovlp * (m.mo * v.statWhole (v.shift (m.moᵀ * v.fock m.mo * m.mo + u.static) r.se) m.energy * m.moᵀ) * v.ovlp else v.ovlp * r.pot * v.ovlp := by
  obtain ⟨r, h1, h2, h3⟩ := pot_none h
  refine ⟨r, h1, ?_⟩
  rw [h2, h3]
  unfold potential phys
  cases o.globalPot <;> rfl

/-- Without any iteration there is no result to return: UnboundLocalError, and nothing has changed. -/
theorem qp_no_iterations {maxiter : Int} (hm : maxiter ≤ 0) : QpEwdmet.kernel v x o diis d0 maxiter s = (s, .error .nameError) := by
  unfold QpEwdmet.kernel
  rw [Int.toNat_eq_zero.2 hm]
  rfl

/-- With exact clusters and one projector, the quasi-particle Hamiltonian is the sum of the first moment of the spectral function and of the static potential of
the whole system, with the potential made from the self-energy of the whole system, or from those of the clusters. -/
theorem qp_exact [DecidableEq ι] {w : Whole nmo} (hs : Orbitals (v.sys m)) (ht : RightRoutines v.routines) (hf : w.firstᵀ = w.first) (hv : w.potᵀ = w.pot)
    (hp : o.proj = 1) (hy : o.useSym = false) (hd : 0 < o.degenTol) (he : 0 ≤ o.evalTol) (hl : PartitionOfUnity (v.sys m) l)
    (hx : ∀ x ∈ l, ExactSelfEnergy (v.sys m) v.stat w x) (hr : Resolved (v.sys m) o.degenTol o.evalTol l) (h0 : ∃ f : ℝ → ℝ, w.dynamic f ≠ 0)
    (hw : ∀ y, (∀ f : ℝ → ℝ, weighted f y = w.dynamic f) → v.statWhole y m.energy = w.pot) (hsh : ∀ a y, v.shift a y = y)
    (h : updateMo v o diis none m l = .ok (some u)) : m.moᵀ * u.qpham * m.mo = w.first + w.pot := by
  obtain ⟨r, h1, h2, -⟩ := qp_hamiltonian hs h
  obtain ⟨r', h3, h4, h5, h6⟩ := self_energy_1proj_exact (stat := v.stat) ht hs hf hv true false hd he hl hx hr h0
  unfold selfEnergy at h1
  rw [if_pos hp, hy, h3] at h1
  have hr' : r' = r := Option.some.inj (Except.ok.inj h1)
  subst hr'
  rw [h2, h5]
  have h7 : (if o.globalPot then v.statWhole (v.shift (phys v m (w.first - (v.sys m).moᵀ * (v.sys m).fock * (v.sys m).mo)) r'.se) m.energy
      else m.moᵀ * v.ovlp * r'.pot * (m.moᵀ * v.ovlp)ᵀ) = w.pot := by
    cases o.globalPot with
    | true => rw [if_pos rfl, hsh, hw _ h4]
    | false =>
      rw [if_neg (by simp), h6]
      have := conj_mo hs w.pot
      have h2' : v.ovlpᵀ = v.ovlp := hs.overlap
      rw [← conj_ao _ h2'] at this
      rw [transpose_mul, h2', transpose_transpose]
      show m.moᵀ * v.ovlp * (m.mo * w.pot * m.moᵀ) * (v.ovlp * m.mo) = _
      refine Eq.trans ?_ this
      simp only [Matrix.mul_assoc]
  rw [h7]
  show m.moᵀ * v.fock m.mo * m.mo + (w.first - m.moᵀ * v.fock m.mo * m.mo) + w.pot = _
  rw [add_sub_cancel]

/-- Without a self-consistent field the new orbitals diagonalise the damped Fock matrix, if this is symmetric: without damping the quasi-particle Hamiltonian, with
full damping the old Fock matrix, whatever the self-energy. -/
theorem qp_diagonalised (hsc : o.sc = false) (h : updateMo v o diis d0 m l = .ok (some u))
    (hg : ∀ f, fᵀ = f → (v.geigh f v.ovlp).2ᵀ * v.ovlp * (v.geigh f v.ovlp).2 = 1 ∧ f * (v.geigh f v.ovlp).2 = v.ovlp * (v.geigh f v.ovlp).2 * diagonal (v.geigh f v.ovlp).1)
    (hu : u.scFockᵀ = u.scFock) : (∃ m', updateMf v (some u) = .ok m' ∧ m'.mo = u.mo) ∧ u.moᵀ * v.ovlp * u.mo = 1 ∧
      (∃ e, u.scFock * u.mo = v.ovlp * u.mo * diagonal e) ∧ (o.damping = 0 → u.scFock = u.qpham) ∧ (o.damping = 1 → u.scFock = v.fock m.mo) := by
  obtain ⟨r, mo, h1, h2, rfl⟩ := update_cases h
  unfold newOrbitals at h2
  rw [hsc, if_neg (by simp)] at h2
  have h2' := (Except.ok.inj h2).symm
  obtain ⟨h3, h4⟩ := hg _ hu
  dsimp only at h3 h4 ⊢
  rw [h2']
  refine ⟨⟨_, if_pos h3, rfl⟩, h3, ⟨_, h4⟩, fun h0 => ?_, fun h0 => ?_⟩
  · unfold scFock
    rw [h0, zero_smul, sub_zero, one_smul, zero_add]
  · unfold scFock
    rw [h0, sub_self, zero_smul, one_smul, add_zero]

/-- With a self-consistent field the new orbitals are those of a new mean-field calculation with the static potential added to the one-electron Hamiltonian:
neither the static self-energy nor damping has any effect on them. -/
theorem qp_sc_orbitals (hsc : o.sc = true) (h : updateMo v o diis d0 m l = .ok (some u)) : u.mo = v.scf (v.hcore + u.pot) ∧ v.folded = false := by
  obtain ⟨r, mo, h1, h2, rfl⟩ := update_cases h
  unfold newOrbitals fockScf at h2
  rw [if_pos hsc] at h2
  by_cases hf : v.folded = true
  · rw [if_pos hf] at h2; cases h2
  · rw [if_neg hf, hsc, if_neg (by simp)] at h2
    exact ⟨(Except.ok.inj h2).symm, by simpa using hf⟩

/-- The option `damping` has no effect on a calculation with a self-consistent field: same orbitals, potentials, energies, convergence and exceptions. -/
theorem qp_sc_damping_no_effect (hsc : o.sc = true) (c : ℝ) (maxiter : Int) :
    QpEwdmet.kernel v x { o with damping := c } diis d0 maxiter s = QpEwdmet.kernel v x o diis d0 maxiter s := by
  have hup : ∀ (d : Option D) (m : Mf ι nmo) (l : List (Frag ι)), updateMo v { o with damping := c } diis d m l
      = (updateMo v o diis d m l).map (Option.map fun u => { u with scFock := c • v.fock m.mo + (1 - c) • u.qpham }) := by
    intro d m l
    unfold updateMo
    have h1 : selfEnergy v { o with damping := c } m l = selfEnergy v o m l := rfl
    rw [h1]
    cases selfEnergy v o m l with
    | error e => rfl
    | ok r =>
      cases r with
      | none => rfl
      | some r =>
        have h2 : potential v { o with damping := c } m r = potential v o m r := rfl
        have h3 : ∀ f f' pot, newOrbitals v { o with damping := c } f pot = newOrbitals v o f' pot := by
          intro f f' pot
          unfold newOrbitals
          dsimp only
          rw [if_pos hsc, if_pos hsc]
          rfl
        show (v.greens _ _ (newFock v m r.static (extrapolate diis d (potential v { o with damping := c } m r)).1) >>= _) = Except.map _ (v.greens _ _ _ >>= _)
        rw [h2]
        obtain ⟨X, hX⟩ : ∃ X, X = extrapolate diis d (potential v o m r) := ⟨_, rfl⟩
        rw [← hX]
        cases v.greens (phys v m r.static) (v.shift (phys v m r.static) r.se) (newFock v m r.static X.1) with
        | error e => rfl
        | ok y =>
          show (newOrbitals v { o with damping := c } (scFock v { o with damping := c } m r.static X.1) X.1 >>= _)
            = Except.map _ (newOrbitals v o (scFock v o m r.static X.1) X.1 >>= _)
          rw [h3 _ (scFock v o m r.static X.1)]
          cases newOrbitals v o (scFock v o m r.static X.1) X.1 with
          | error e => rfl
          | ok mo => rfl
  have hpass : ∀ (d : Option D) (s : QpEwdmet.State ι nmo), QpEwdmet.pass v x { o with damping := c } diis d s = QpEwdmet.pass v x o diis d s := by
    intro d s
    unfold QpEwdmet.pass
    cases x.run s.mf with
    | error e => rfl
    | ok y =>
      obtain ⟨r, l⟩ := y
      dsimp only
      rw [hup]
      cases updateMo v o diis d s.mf l with
      | error e => rfl
      | ok u =>
        cases u with
        | none => rfl
        | some u =>
          have hm : updateMf v (some { u with scFock := c • v.fock s.mf.mo + (1 - c) • u.qpham }) = updateMf v (some u) := rfl
          dsimp only [Except.map, Option.map]
          rw [hm]
          cases updateMf v (some u) <;> rfl
  have hloop : ∀ (fuel k : Nat) (s : QpEwdmet.State ι nmo) (d : Option D) (r : Option R),
      QpEwdmet.loop v x { o with damping := c } diis fuel k s d r = QpEwdmet.loop v x o diis fuel k s d r := by
    intro fuel
    induction fuel with
    | zero => intro k s d r; cases r <;> rfl
    | succ fuel ih =>
      intro k s d r
      rw [QpEwdmet.loop, QpEwdmet.loop, hpass]
      cases QpEwdmet.pass v x o diis d { s with iteration := k } with
      | raised e s => rfl
      | done r s => rfl
      | next r d s => exact ih _ _ _ _
  exact hloop _ _ _ _ _

/-- A self-consistent mean-field and potential is found in the second calculation of a new object, and in the first of a later call. -/
theorem qp_stationary {res : R} {u : Update ι nmo D} (hr : x.run s.mf = .ok (res, l)) (hu : updateMo v o diis none s.mf l = .ok (some u))
    (hm : updateMf v (some u) = .ok s.mf) (hy : x.symmetric s.mf = true) (ht : 0 < o.tol) {maxiter : Int} :
    (s.pot = none → 2 ≤ maxiter → ∃ s', QpEwdmet.kernel v x o diis none maxiter s = (s', .ok res) ∧ s'.converged = true ∧ s'.iteration = 2 ∧ s'.mf = s.mf
      ∧ s'.pot = some u.pot ∧ s'.energies = s.energies ++ [x.energy s.mf l, x.energy s.mf l]) ∧
    (s.pot = some u.pot → 1 ≤ maxiter → ∃ s', QpEwdmet.kernel v x o diis none maxiter s = (s', .ok res) ∧ s'.converged = true ∧ s'.iteration = 1 ∧ s'.mf = s.mf
      ∧ s'.pot = some u.pot) := by
  have hd : u.diis = none := by
    obtain ⟨r, mo, h1, h2, rfl⟩ := update_cases hu
    rfl
  have hz : ∑ i, ∑ j, |u.pot i j - u.pot i j| < o.tol := by simpa using ht
  constructor
  · intro hp h2
    have htr : QpTrajectory v x o diis s.mf s.pot none (1 + 1) (fun _ => s.mf) (fun k => if k = 0 then none else some u.pot) (fun _ => none) (fun _ => res)
        (fun _ => x.energy s.mf l) := by
      refine ⟨rfl, hp.symm, rfl, fun k _ => ⟨l, u, hr, rfl, hu, ?_, hd.symm, hm⟩⟩
      exact if_neg (Nat.succ_ne_zero k)
    have h0 : ∀ (j : Nat), j < 1 → ¬ QpStops x o.tol (fun _ => s.mf) (fun k => if k = 0 then none else some u.pot) j := by
      intro j hj
      obtain rfl : j = 0 := by omega
      rintro (h | ⟨a, b, h, _⟩)
      · rw [hy] at h; cases h
      · cases h
    have h1 : PotentialStays o.tol (fun k => if k = 0 then none else some u.pot) 1 := ⟨u.pot, u.pot, rfl, rfl, hz⟩
    refine ⟨_, qp_kernel htr (by omega) h0 (.inl (.inr h1)), ?_, rfl, rfl, rfl, rfl⟩
    unfold qpFinal
    dsimp only
    rw [hy, if_neg (by simp), if_pos h1]
  · intro hp h2
    have htr : QpTrajectory v x o diis s.mf s.pot none (0 + 1) (fun _ => s.mf) (fun _ => some u.pot) (fun _ => none) (fun _ => res)
        (fun _ => x.energy s.mf l) := ⟨rfl, hp.symm, rfl, fun k _ => ⟨l, u, hr, rfl, hu, rfl, hd.symm, hm⟩⟩
    have h1 : PotentialStays o.tol (fun _ => some u.pot) 0 := ⟨u.pot, u.pot, rfl, rfl, hz⟩
    refine ⟨_, qp_kernel htr (by omega) (fun j hj => absurd hj (Nat.not_lt_zero j)) (.inl (.inr h1)), ?_, rfl, rfl, rfl⟩
    unfold qpFinal
    dsimp only
    rw [hy, if_neg (by simp), if_pos h1]

private theorem transpose_list_sum {α : Type} {a b : Type} (l : List α) (g : α → Matrix a b ℝ) : ((l.map g).sum)ᵀ = (l.map fun c => (g c)ᵀ).sum := by
  induction l with
  | nil => exact transpose_zero
  | cons c l ih => rw [List.map_cons, List.sum_cons, transpose_add, ih, List.map_cons, List.sum_cons]

private theorem symm_list_sum {α : Type} {a : Type} (l : List α) (g : α → Matrix a a ℝ) (h : ∀ c ∈ l, (g c)ᵀ = g c) : ((l.map g).sum)ᵀ = (l.map g).sum := by
  rw [transpose_list_sum]
  exact congrArg List.sum (List.map_congr_left h)

private theorem sandwich_symm {a b : Type} [Fintype b] {c : Matrix a b ℝ} {z : Matrix b b ℝ} (h : zᵀ = z) : (c * z * cᵀ)ᵀ = c * z * cᵀ := by
  rw [transpose_mul, transpose_mul, transpose_transpose, h, Matrix.mul_assoc]

private theorem one_symm {n : Nat} (c a : Matrix (Fin n) (Fin n) ℝ) : (SelfEnergy.one c a)ᵀ = SelfEnergy.one c a := by
  unfold SelfEnergy.one
  rw [transpose_smul, transpose_add, transpose_transpose, add_comm]

/-- The Fock matrices are symmetric, as the eigensolver needs: always with one projector, with two if the moments and static potentials of all clusters are. -/
theorem qp_symmetric (hS : v.ovlpᵀ = v.ovlp) (hF : (v.fock m.mo)ᵀ = v.fock m.mo) (hw : ∀ y e, (v.statWhole y e)ᵀ = v.statWhole y e)
    (hc : o.proj = 2 → ∀ x ∈ l, (x.th1 + x.tp1)ᵀ = x.th1 + x.tp1 ∧ ∀ e, (v.stat x.nc x.se e)ᵀ = v.stat x.nc x.se e)
    (h : updateMo v o diis none m l = .ok (some u)) : u.staticᵀ = u.static ∧ u.potᵀ = u.pot ∧ u.qphamᵀ = u.qpham ∧ u.scFockᵀ = u.scFock := by
  obtain ⟨r, mo, h1, -, rfl⟩ := update_cases h
  have hr : r.staticᵀ = r.static ∧ r.potᵀ = r.pot := by
    unfold selfEnergy at h1
    by_cases hp1 : o.proj = 1
    · rw [if_pos hp1, make1proj_eq] at h1
      have hst : ∀ x : Frag ι, (Frag.static1 (v.sys m) o.useSym x)ᵀ = Frag.static1 (v.sys m) o.useSym x := fun x =>
        symm_list_sum _ _ fun c _ => sandwich_symm (one_symm _ _)
      have hpo : ∀ x : Frag ι, (Frag.pot1 (v.sys m) v.stat o.useSym x)ᵀ = Frag.pot1 (v.sys m) v.stat o.useSym x := fun x =>
        symm_list_sum _ _ fun c _ => sandwich_symm (one_symm _ _)
      split at h1
      · cases h1
      · revert h1
        generalize Except.map List.flatten _ = y
        cases y with
        | error e => intro h; cases h
        | ok raw =>
          intro h1
          replace h1 : Except.map some (Except.map _ (removeDegeneracy v.routines o.degenTol o.evalTol false (v.routines.sortC raw))) = .ok (some r) := h1
          cases hrd : removeDegeneracy v.routines o.degenTol o.evalTol false (v.routines.sortC raw) with
          | error e => rw [hrd] at h1; cases h1
          | ok y =>
            rw [hrd] at h1
            cases h1
            exact ⟨symm_list_sum _ _ fun x _ => hst x, symm_list_sum _ _ fun x _ => hpo x⟩
    · rw [if_neg hp1] at h1
      by_cases hp2 : o.proj = 2
      · rw [if_pos hp2] at h1
        have hfc : ∀ x : Frag ι, (x.fockCls (v.sys m))ᵀ = x.fockCls (v.sys m) := by
          intro x
          have hF' : (v.sys m).fockᵀ = (v.sys m).fock := hF
          unfold Frag.fockCls
          rw [transpose_mul, transpose_mul, transpose_transpose, hF', Matrix.mul_assoc]
        have hmem : ∀ x ∈ chosen o.useSym l, x ∈ l := by
          intro x hx
          unfold chosen at hx
          split at hx
          · exact (List.mem_filter.mp hx).1
          · exact hx
        have hst : ∀ x ∈ chosen o.useSym l, (Frag.static2 (v.sys m) o.useSym x)ᵀ = Frag.static2 (v.sys m) o.useSym x := by
          intro x hx
          refine symm_list_sum _ _ fun c _ => sandwich_symm (sandwich_symm ?_)
          unfold Frag.staticCls
          rw [transpose_sub, (hc hp2 x (hmem x hx)).1, hfc]
        have hpo : ∀ x ∈ chosen o.useSym l, (Frag.pot2 (v.sys m) v.stat o.useSym x)ᵀ = Frag.pot2 (v.sys m) v.stat o.useSym x := by
          intro x hx
          refine symm_list_sum _ _ fun c _ => sandwich_symm (sandwich_symm ?_)
          exact (hc hp2 x (hmem x hx)).2 _
        unfold make2proj at h1
        revert h1 hst hpo
        generalize chosen o.useSym l = frags
        intro h1 hst hpo
        cases frags with
        | nil => cases h1
        | cons y ys =>
          dsimp only at h1
          split at h1
          · cases h1
          · split at h1
            · cases h1
              exact ⟨symm_list_sum _ _ hst, symm_list_sum _ _ hpo⟩
            · cases h1
      · rw [if_neg hp2] at h1; cases h1
  have hpot : (potential v o m r)ᵀ = potential v o m r := by
    unfold potential
    dsimp only
    have hin : (if o.globalPot then m.mo * v.statWhole (v.shift (phys v m r.static) r.se) m.energy * m.moᵀ else r.pot)ᵀ
        = if o.globalPot then m.mo * v.statWhole (v.shift (phys v m r.static) r.se) m.energy * m.moᵀ else r.pot := by
      cases o.globalPot with
      | true => rw [if_pos rfl]; exact sandwich_symm (hw _ _)
      | false => rw [if_neg (by simp)]; exact hr.2
    have := sandwich_symm (c := v.ovlp) hin
    rw [hS] at this
    exact this
  have hnew : (newFock v m r.static (potential v o m r))ᵀ = newFock v m r.static (potential v o m r) := by
    unfold newFock
    dsimp only
    rw [transpose_add, transpose_add, hF, hpot, sandwich_symm hr.1]
  refine ⟨hr.1, hpot, hnew, ?_⟩
  show (scFock v o m r.static (potential v o m r))ᵀ = scFock v o m r.static (potential v o m r)
  unfold scFock
  rw [transpose_add, transpose_smul, transpose_smul, hnew, hF]

/-! ## Exceptions -/

/-- Any other number of projectors: AttributeError instead of NotImplementedError, after the first calculation has been done. -/
theorem qp_wrong_projection {res : R} (h1 : o.proj ≠ 1) (h2 : o.proj ≠ 2) {maxiter : Int} (hm : 1 ≤ maxiter) (hr : x.run s.mf = .ok (res, l)) :
    QpEwdmet.kernel v x o diis d0 maxiter s
      = ({ s with iteration := 1, energies := s.energies ++ [x.energy s.mf l], pot := some 0 }, .error .attributeError) := by
  unfold QpEwdmet.kernel
  obtain ⟨fuel, hf⟩ : ∃ fuel, maxiter.toNat = fuel + 1 := ⟨maxiter.toNat - 1, by omega⟩
  have hu : ∀ d, updateMo v o diis d s.mf l = .ok none := by
    intro d
    unfold updateMo selfEnergy
    rw [if_neg h1, if_neg h2]
    rfl
  rw [hf, QpEwdmet.loop]
  unfold QpEwdmet.pass
  dsimp only
  rw [hr]
  dsimp only
  rw [hu]

/-- Folded mean-fields cannot be used with a self-consistent field: the calculation raises an exception, NotImplementedError if nothing else has gone wrong. -/
theorem qp_folded (hf : v.folded = true) (hsc : o.sc = true) {r : Result ι nmo (List (Pole (Fin nmo) ℝ))} (hr : selfEnergy v o m l = .ok (some r))
    (hg : ∀ a b c, v.greens a b c = .ok ()) : updateMo v o diis d0 m l = .error .notImplementedError := by
  unfold updateMo
  rw [hr]
  show (v.greens _ _ _ >>= _) = _
  rw [hg]
  show (newOrbitals v o _ _ >>= _) = _
  unfold newOrbitals fockScf
  rw [if_pos hsc, if_pos hf]
  rfl

/-- The constructor with an initial potential: the mean-field is recalculated with it. A folded mean-field raises NotImplementedError; storing mean-fields without
a self-consistent field AttributeError; a mean-field that breaks the symmetry between fragments NameError, although it is meant to be logged. -/
theorem qp_init (p : Matrix ι ι ℝ) (hmo : (v.scf (v.hcore + p))ᵀ * v.ovlp * v.scf (v.hcore + p) = 1) :
    QpEwdmet.init v x o none m = .ok ⟨m, none, 0, false, []⟩ ∧
    (v.folded = true → QpEwdmet.init v x o (some p) m = .error .notImplementedError) ∧
    (v.folded = false → o.storeScfs = true → o.sc = false → QpEwdmet.init v x o (some p) m = .error .attributeError) ∧
    (v.folded = false → (o.storeScfs = false ∨ o.sc = true) → ∃ m' : Mf ι nmo, m'.mo = v.scf (v.hcore + p) ∧
      (∀ i, m'.energy i = (m'.moᵀ * v.fock m'.mo * m'.mo) i i) ∧
      QpEwdmet.init v x o (some p) m = if x.symmetric m' then .ok ⟨m', none, 0, false, []⟩ else .error .nameError) := by
  refine ⟨rfl, fun hf => ?_, fun hf hs hsc => ?_, fun hf hs =>
    ⟨⟨v.scf (v.hcore + p), fun i => ((v.scf (v.hcore + p))ᵀ * v.fock (v.scf (v.hcore + p)) * v.scf (v.hcore + p)) i i⟩, rfl, fun i => rfl, ?_⟩⟩
  · unfold QpEwdmet.init fockScf
    dsimp only
    rw [if_pos hf]; rfl
  · unfold QpEwdmet.init fockScf
    dsimp only
    rw [if_neg (by simp [hf]), hs, hsc]; rfl
  · unfold QpEwdmet.init fockScf
    dsimp only
    rw [if_neg (by simp [hf]), if_neg (by rcases hs with h | h <;> simp [h])]
    show (updateMf v _ >>= _) = _
    unfold updateMf
    dsimp only
    rw [if_pos hmo]
    rfl

end

/-! ## Examples -/

/-- Two orbitals with constant Fock matrix. -/
noncomputable def qpEnv : Env (Fin 2) 2 where
  ovlp := 1
  hcore := !![-1, 0; 0, 1]
  fock := fun _ => !![-1, 0; 0, 1]
  stat := firstStat
  statWhole := fun y _ => (1 / 2 : ℝ) • (weighted (fun e => e) y + (weighted (fun e => e) y)ᵀ)
  routines := anyRoutines 2
  shift := fun _ y => y
  greens := fun _ _ _ => .ok ()
  geigh := fun f _ => ((anyEigh f).val, (anyEigh f).vec)
  scf := fun h => (anyEigh h).vec
  folded := false

/-- Two projectors, potentials of clusters, a self-consistent field. -/
noncomputable def qpOpts (proj : Int) (glob sc : Bool) (damping : ℝ) : QpEwdmet.Opts := ⟨proj, 1 / 10000, glob, damping, sc, false, false, 1 / 10000, 0⟩

private theorem qp_frags (x : Frag (Fin 2)) (hx : x ∈ [orbFrag 0 (.array twoWhole.poles), orbFrag 1 (.array twoWhole.poles)]) :
    x = orbFrag 0 (.array twoWhole.poles) ∨ x = orbFrag 1 (.array twoWhole.poles) := by
  simpa using hx

/-- The sum of potentials of the clusters does not depend on the orbitals here. -/
noncomputable def qpPot : Matrix (Fin 2) (Fin 2) ℝ := 1 * ([orbFrag 0 (.array twoWhole.poles), orbFrag 1 (.array twoWhole.poles)].map (Frag.pot2 twoSys firstStat false)).sum * 1

private theorem qp_update2 (m : Mf (Fin 2) 2) (damping : ℝ) : ∃ u : Update (Fin 2) 2 Unit,
    updateMo qpEnv (qpOpts 2 false true damping) (fun d p => (p, d)) none m [orbFrag 0 (.array twoWhole.poles), orbFrag 1 (.array twoWhole.poles)] = .ok (some u) ∧ u.pot = qpPot := by
  have h1 : selfEnergy qpEnv (qpOpts 2 false true damping) m [orbFrag 0 (.array twoWhole.poles), orbFrag 1 (.array twoWhole.poles)]
      = (make2proj (qpEnv.sys m) firstStat (anyRoutines 2).sort false [orbFrag 0 (.array twoWhole.poles), orbFrag 1 (.array twoWhole.poles)]).map some := rfl
  have h2 : make2proj (qpEnv.sys m) firstStat (anyRoutines 2).sort false [orbFrag 0 (.array twoWhole.poles), orbFrag 1 (.array twoWhole.poles)]
      = .ok ⟨(anyRoutines 2).sort ([orbFrag 0 (.array twoWhole.poles), orbFrag 1 (.array twoWhole.poles)].flatMap (Frag.poles2 (qpEnv.sys m) false)),
        ([orbFrag 0 (.array twoWhole.poles), orbFrag 1 (.array twoWhole.poles)].map (Frag.static2 (qpEnv.sys m) false)).sum,
        ([orbFrag 0 (.array twoWhole.poles), orbFrag 1 (.array twoWhole.poles)].map (Frag.pot2 (qpEnv.sys m) firstStat false)).sum⟩ := by
    unfold make2proj
    dsimp only [chosen_false]
    rw [if_neg (by simp), if_pos (by simp [orbFrag, Se.isTuple])]
  unfold updateMo
  rw [h1, h2]
  exact ⟨_, rfl, rfl⟩

/-- A self-consistent mean-field: orbitals of the Hamiltonian with the potential. -/
noncomputable def qpFixed : Mf (Fin 2) 2 :=
  ⟨qpEnv.scf (qpEnv.hcore + qpPot), fun i => ((qpEnv.scf (qpEnv.hcore + qpPot))ᵀ * qpEnv.fock (qpEnv.scf (qpEnv.hcore + qpPot)) * qpEnv.scf (qpEnv.hcore + qpPot)) i i⟩

/-- The embedding. -/
noncomputable def qpEmb : QpEwdmet.Emb (Fin 2) 2 Unit where
  run := fun _ => .ok ((), [orbFrag 0 (.array twoWhole.poles), orbFrag 1 (.array twoWhole.poles)])
  energy := fun _ _ => -7
  symmetric := fun _ => true

private theorem qpPot_symm : qpPotᵀ = qpPot := by
  obtain ⟨u, h1, h2⟩ := qp_update2 qpFixed 0
  rw [← h2]
  have hs : ∀ e : Fin 2 → ℝ, (firstStat 2 (.array twoWhole.poles) e)ᵀ = firstStat 2 (.array twoWhole.poles) e := fun e =>
    weighted_same_transpose _ fun a ha => by
      obtain ⟨b, _, rfl⟩ := List.mem_map.mp ha
      rfl
  have hm : ((!![-2, 1; 1, 0] : Matrix (Fin 2) (Fin 2) ℝ) + !![0, 0; 0, 3])ᵀ = !![-2, 1; 1, 0] + !![0, 0; 0, 3] := by
    ext i j; fin_cases i <;> fin_cases j <;> simp
  refine (qp_symmetric (m := qpFixed) transpose_one ?_ ?_ ?_ h1).2.1
  · ext i j; fin_cases i <;> fin_cases j <;> rfl
  · intro y e
    show ((1 / 2 : ℝ) • (weighted (fun e => e) y + (weighted (fun e => e) y)ᵀ))ᵀ = (1 / 2 : ℝ) • (weighted (fun e => e) y + (weighted (fun e => e) y)ᵀ)
    rw [transpose_smul, transpose_add, transpose_transpose, add_comm]
  · intro _ x hx
    rcases qp_frags x hx with rfl | rfl
    · exact ⟨hm, hs⟩
    · exact ⟨hm, hs⟩

private theorem qpFixed_orthonormal : (qpEnv.scf (qpEnv.hcore + qpPot))ᵀ * qpEnv.ovlp * qpEnv.scf (qpEnv.hcore + qpPot) = 1 := by
  have hh : (qpEnv.hcore + qpPot)ᵀ = qpEnv.hcore + qpPot := by
    rw [transpose_add, qpPot_symm]
    congr 1
    ext i j; fin_cases i <;> fin_cases j <;> rfl
  show (anyEigh _).vecᵀ * (1 : Matrix (Fin 2) (Fin 2) ℝ) * (anyEigh _).vec = 1
  rw [Matrix.mul_one]
  exact (anyEigh_diagonalises _ hh).1

/-- A calculation that converges in the second iteration, whatever the damping. -/
example (damping : ℝ) : ∃ s', QpEwdmet.kernel qpEnv qpEmb (qpOpts 2 false true damping) (fun (d : Unit) p => (p, d)) none 100 ⟨qpFixed, none, 0, false, []⟩ = (s', .ok ())
    ∧ s'.converged = true ∧ s'.iteration = 2 ∧ s'.energies = [-7, -7] := by
  obtain ⟨u, h1, h2⟩ := qp_update2 qpFixed damping
  have h3 := (qp_sc_orbitals rfl h1).1
  rw [h2] at h3
  have hm : updateMf qpEnv (some u) = .ok qpFixed := by
    have ho := qpFixed_orthonormal
    rw [← h3] at ho
    unfold updateMf
    dsimp only
    rw [if_pos ho, h3]
    rfl
  obtain ⟨s', g1, g2, g3, _, _, g4⟩ := (qp_stationary (x := qpEmb) (s := ⟨qpFixed, none, 0, false, []⟩) rfl h1 hm rfl (by norm_num [qpOpts]) (maxiter := 100)).1 rfl (by norm_num)
  exact ⟨s', g1, g2, g3, g4⟩

/-- Exact clusters. -/
example (glob : Bool) : ∃ u : Update (Fin 2) 2 Unit, updateMo qpEnv (qpOpts 1 glob false 0) (fun d p => (p, d)) none ⟨1, ![-1, 1]⟩
    [orbFrag 0 (.array twoWhole.poles), orbFrag 1 (.array twoWhole.poles)] = .ok (some u) ∧ u.scFock = twoWhole.first + twoWhole.pot := by
  have hx : ∀ x ∈ [orbFrag 0 (.array twoWhole.poles), orbFrag 1 (.array twoWhole.poles)], ExactSelfEnergy twoSys firstStat twoWhole x := by
    intro x hx
    rcases qp_frags x hx with rfl | rfl <;> exact orbFrag_exact _
  obtain ⟨r, h1, -⟩ := self_energy_1proj_exact (anyRoutines_right 2) twoSys_orbitals two_symm.1 two_symm.2 true false (dtol := 1 / 10000) (etol := 0)
    (by norm_num) (le_refl _) (orbFrag_partition _ _) hx two_resolved two_dynamic
  have h2 : selfEnergy qpEnv (qpOpts 1 glob false 0) ⟨1, ![-1, 1]⟩ [orbFrag 0 (.array twoWhole.poles), orbFrag 1 (.array twoWhole.poles)] = .ok (some r) := by
    show Except.map some (make1proj twoSys firstStat (anyRoutines 2) false true (1 / 10000) 0 false _) = _
    rw [h1]; rfl
  have h3 : ∃ u : Update (Fin 2) 2 Unit, updateMo qpEnv (qpOpts 1 glob false 0) (fun d p => (p, d)) none ⟨1, ![-1, 1]⟩
      [orbFrag 0 (.array twoWhole.poles), orbFrag 1 (.array twoWhole.poles)] = .ok (some u) := by
    unfold updateMo
    rw [h2]
    exact ⟨_, rfl⟩
  obtain ⟨u, h3⟩ := h3
  refine ⟨u, h3, ?_⟩
  have h4 := qp_exact (v := qpEnv) (o := qpOpts 1 glob false 0) (m := ⟨1, ![-1, 1]⟩) (w := twoWhole) twoSys_orbitals (anyRoutines_right 2) two_symm.1 two_symm.2 rfl rfl (by norm_num [qpOpts]) (le_refl _)
    (orbFrag_partition _ _) hx two_resolved two_dynamic (fun y hy => by
      show (1 / 2 : ℝ) • (weighted (fun e => e) y + (weighted (fun e => e) y)ᵀ) = twoWhole.pot
      have hp : twoWhole.dynamic (fun e => e) = twoWhole.pot := by
        simp [Whole.dynamic, twoWhole, weighted]
      rw [hy, hp, two_symm.2]
      module) (fun _ _ => rfl) h3
  obtain ⟨-, -, -, h5⟩ := qp_hamiltonian (v := qpEnv) (m := ⟨1, ![-1, 1]⟩) twoSys_orbitals h3
  rw [h5, ← h4]
  show _ + (1 - (0 : ℝ)) • _ = (1 : Matrix (Fin 2) (Fin 2) ℝ)ᵀ * u.qpham * 1
  rw [sub_zero, one_smul, add_sub_cancel, transpose_one, Matrix.one_mul, Matrix.mul_one]

private theorem qp_runs {D : Type} (diis : DiisUpdate (Fin 2) D) (d0 : Option D) (m : Mf (Fin 2) 2) : ∃ u : Update (Fin 2) 2 D,
    updateMo qpEnv (qpOpts 2 false true 0) diis d0 m [orbFrag 0 (.array twoWhole.poles), orbFrag 1 (.array twoWhole.poles)] = .ok (some u) := by
  have h1 : selfEnergy qpEnv (qpOpts 2 false true 0) m [orbFrag 0 (.array twoWhole.poles), orbFrag 1 (.array twoWhole.poles)]
      = (make2proj (qpEnv.sys m) firstStat (anyRoutines 2).sort false [orbFrag 0 (.array twoWhole.poles), orbFrag 1 (.array twoWhole.poles)]).map some := rfl
  unfold updateMo
  rw [h1]
  unfold make2proj
  dsimp only [chosen_false]
  rw [if_neg (by simp), if_pos (by simp [orbFrag, Se.isTuple])]
  exact ⟨_, rfl⟩

/-- A DIIS object that takes the mean of what it has seen last and of what it is given. -/
example (m : Mf (Fin 2) 2) (last : Matrix (Fin 2) (Fin 2) ℝ) : ∃ u0 u : Update (Fin 2) 2 (Matrix (Fin 2) (Fin 2) ℝ),
    updateMo qpEnv (qpOpts 2 false true 0) (fun d p => ((1 / 2 : ℝ) • (d + p), p)) (some last) m [orbFrag 0 (.array twoWhole.poles), orbFrag 1 (.array twoWhole.poles)]
      = .ok (some u) ∧ u.pot = (1 / 2 : ℝ) • (last + u0.pot) ∧ u.diis = some u0.pot := by
  obtain ⟨u0, h0⟩ := qp_runs (fun d p => ((1 / 2 : ℝ) • (d + p), p)) none m
  obtain ⟨u, h⟩ := qp_runs (fun d p => ((1 / 2 : ℝ) • (d + p), p)) (some last) m
  obtain ⟨h1, h2, -⟩ := qp_diis h0 h
  exact ⟨u0, u, h, h1, h2⟩

end Vayesta.Props
