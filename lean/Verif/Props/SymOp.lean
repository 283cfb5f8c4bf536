import Verif.Lemmas.SymOp
import Mathlib.Algebra.Field.Rat
import Mathlib.Algebra.Order.Ring.Rat
import Mathlib.Tactic.FinCases
import Mathlib.Tactic.IntervalCases

/-! Symmetry operations: the reordering of atoms and orbitals, and their action on orbital coefficients. -/

namespace Vayesta.Props

open Vayesta.SymOp

variable {K : Type} [Field K] [LinearOrder K] [IsStrictOrderedRing K]

private theorem atoms_lt {m : Mol K} {i : Nat} {a : Atom K} (h : m.atoms[i]? = some a) : i < m.natm :=
  (List.getElem?_eq_some_iff.mp h).1

private theorem brings_lt {m : Mol K} {o : Opts K} {f : Pt K → Pt K} {i j : Nat} (h : BringsTo m o f i j) : i < m.natm ∧ j < m.natm := by
  obtain ⟨a, b, ha, hb, _⟩ := h
  exact ⟨atoms_lt ha, atoms_lt hb⟩

private theorem kind_shells {m : Mol K} {o : Opts K} (hb : o.checkBasis = true) {i j : Nat} {a b : Atom K} (h1 : m.atoms[i]? = some a) (h2 : m.atoms[j]? = some b)
    (h : SameKind m o a b) : m.shells i = m.shells j := by
  simp only [Mol.shells, h1, h2, Option.map_some, Option.getD_some]
  exact h.2 hb

private theorem brings_shells {m : Mol K} {o : Opts K} (hb : o.checkBasis = true) {f : Pt K → Pt K} {i j : Nat} (h : BringsTo m o f i j) :
    m.shells i = m.shells j := by
  obtain ⟨a, b, h1, h2, _, hk⟩ := h
  exact kind_shells hb h1 h2 hk

/-! ### Atoms -/

/-- The returned arrays: `inverse[i]` is the atom to which atom `i` is brought, and `reorder` undoes `inverse` and vice versa. -/
theorem atom_reorder_sound (m : Mol K) (o : Opts K) (f : Pt K → Pt K) (r inv : Arr) (h : atomReorder m o f = .ok (some (r, inv))) :
    (∀ i < m.natm, ∃ j < m.natm, inv i = some j ∧ r j = some i ∧ BringsTo m o f i j) ∧
    (∀ j < m.natm, ∃ i < m.natm, r j = some i ∧ inv i = some j ∧ BringsTo m o f i j) := by
  unfold atomReorder at h
  obtain ⟨h1, h2, h3, h4⟩ := assign_spec (pointPartner m o f) m.natm _ rfl
  generalize (List.range m.natm).foldl (assignStep (pointPartner m o f)) (true, Arr.empty, Arr.empty) = s at *
  simp only at h
  split at h
  · cases h
  · rename_i hs
    split at h
    · cases h
    · rename_i hch
      simp only [Except.ok.injEq, Option.some.injEq] at h
      rw [not_or, not_or, Bool.not_eq_false, Bool.not_eq_false, Bool.not_eq_false, full_iff, full_iff, undone_iff] at hch
      obtain ⟨hf1, hf2, hu⟩ := hch
      rw [h] at h2 h3 h4 hf1 hf2 hu
      simp only at h2 h3 h4 hf1 hf2 hu
      constructor
      · intro i hi
        obtain ⟨j, hj⟩ := Option.isSome_iff_exists.mp (hf2 i hi)
        have hp : pointPartner m o f i = some j := by rw [h2, if_pos hi] at hj; exact hj
        have hb := pointPartner_sound m o f i j hp
        have := hu i hi
        rw [hj, Option.bind_some] at this
        exact ⟨j, (brings_lt hb).2, hj, this, hb⟩
      · intro j hj
        obtain ⟨i, hi⟩ := Option.isSome_iff_exists.mp (hf1 j hj)
        obtain ⟨hin, hp⟩ := h3 i j hi
        exact ⟨i, hin, hi, by rw [h2, if_pos hin, hp], pointPartner_sound m o f i j hp⟩

/-- Atoms more than twice the tolerance apart, distance-preserving operation: the arrays are found exactly if every atom is brought to an
atom of the same kind, otherwise `None` is returned. No check of the code fails. -/
theorem atom_reorder_decision (m : Mol K) (o : Opts K) (f : Pt K → Pt K) (hx : 0 ≤ o.xtol) (hf : Isometric f) (hap : Apart m (2 * o.xtol)) :
    ((∀ i < m.natm, ∃ j, BringsTo m o f i j) → ∃ r inv, atomReorder m o f = .ok (some (r, inv))) ∧
    ((∃ i < m.natm, ∀ j, ¬ BringsTo m o f i j) → atomReorder m o f = .ok none) := by
  obtain ⟨h1, h2, h3, h4⟩ := assign_spec (pointPartner m o f) m.natm _ rfl
  constructor
  · intro hall
    have hex : ∀ i, ∃ j, i < m.natm → BringsTo m o f i j := fun i => by
      by_cases hi : i < m.natm
      · obtain ⟨j, hj⟩ := hall i hi
        exact ⟨j, fun _ => hj⟩
      · exact ⟨0, fun h => absurd h hi⟩
    choose g hg using hex
    have hp : ∀ i < m.natm, pointPartner m o f i = some (g i) := fun i hi => pointPartner_complete m o f hx hap i (g i) (hg i hi)
    have hinj : ∀ i < m.natm, ∀ j < m.natm, g i = g j → i = j := by
      intro i hi j hj hij
      obtain ⟨a, b, ha, hb, hd, _⟩ := hg i hi
      obtain ⟨a', b', ha', hb', hd', _⟩ := hg j hj
      rw [hij] at hb
      have : b = b' := Option.some.inj (hb.symm.trans hb')
      subst this
      refine hap i j a a' ha ha' ?_
      rw [← hf]
      have e : f a.coord - f a'.coord = (f a.coord - b.coord) + (b.coord - f a'.coord) := by abel
      rw [e, two_mul]
      exact sq_add_le _ _ _ _ hx hx (by rw [sq_sub_comm]; exact hd) hd'
    have hc := checks_pass _ _ _ _ g hp (fun i hi => (brings_lt (hg i hi)).2) hinj h2 h3 h4
    unfold atomReorder
    generalize (List.range m.natm).foldl (assignStep (pointPartner m o f)) (true, Arr.empty, Arr.empty) = s at *
    refine ⟨s.2.1, s.2.2, ?_⟩
    have hs : s.1 = true := h1.mpr fun i hi => by rw [hp i hi]; rfl
    simp only
    rw [if_neg (by rw [hs]; decide), if_neg (by rw [hc.1, hc.2.1, hc.2.2]; decide)]
  · rintro ⟨i, hi, hn⟩
    unfold atomReorder
    generalize (List.range m.natm).foldl (assignStep (pointPartner m o f)) (true, Arr.empty, Arr.empty) = s at *
    have hs : s.1 = false := by
      rw [← Bool.not_eq_true, h1]
      intro hall
      obtain ⟨j, hj⟩ := Option.isSome_iff_exists.mp (hall i hi)
      exact hn j (pointPartner_sound m o f i j hj)
    simp only
    rw [if_pos hs]

/-! ### Construction of an operation -/

private theorem construct_spec {m : Mol K} {o : Opts K} {f : Pt K → Pt K} {ro : Arr} (h : construct m o f = .ok ro) :
    ∃ ρ : Nat → Nat, ∀ i < m.natm, ρ i < m.natm ∧ BringsTo m o f (ρ i) i ∧ m.count i = m.count (ρ i) ∧
      ∀ k < m.count i, ro (m.offset i + k) = some (m.offset (ρ i) + k) := by
  unfold construct at h
  cases ha : atomReorder m o f with
  | error e => rw [ha] at h; cases h
  | ok x =>
    cases x with
    | none => rw [ha] at h; cases h
    | some ri =>
      obtain ⟨r, inv⟩ := ri
      rw [ha] at h
      simp only at h
      cases hao : aoReorder m r with
      | error e => rw [hao] at h; cases h
      | ok s =>
        rw [hao] at h
        simp only [Except.map, Except.ok.injEq] at h
        subst h
        have hs := aoReorder_spec m r s.1 s.2 hao
        have hsnd := (atom_reorder_sound m o f r inv ha).2
        have hex : ∀ i, ∃ j, i < m.natm → j < m.natm ∧ BringsTo m o f j i ∧ m.count i = m.count j ∧ ∀ k < m.count i, s.1 (m.offset i + k) = some (m.offset j + k) := by
          intro i
          by_cases hi : i < m.natm
          · obtain ⟨j, hj, _, hc, hk⟩ := hs i hi
            obtain ⟨j', hj', hr, _, hb⟩ := hsnd i hi
            have : j = j' := Option.some.inj (hj.symm.trans hr)
            subst this
            exact ⟨j, fun _ => ⟨hj', hb, hc, hk⟩⟩
          · exact ⟨0, fun h => absurd h hi⟩
        choose ρ hρ using hex
        exact ⟨ρ, hρ⟩

/-- Constructing an operation (basis respected, atoms apart): RuntimeError if some atom has no symmetry-equivalent atom; otherwise
IndexError if some atom has no orbitals; otherwise the operation is constructed. -/
theorem operation_decision (m : Mol K) (o : Opts K) (f : Pt K → Pt K) (hb : o.checkBasis = true) (hx : 0 ≤ o.xtol) (hf : Isometric f) (hap : Apart m (2 * o.xtol)) :
    ((∃ i < m.natm, ∀ j, ¬ BringsTo m o f i j) → construct m o f = .error .runtimeError) ∧
    ((∀ i < m.natm, ∃ j, BringsTo m o f i j) → (∃ i < m.natm, m.count i = 0) → construct m o f = .error .indexError) ∧
    ((∀ i < m.natm, ∃ j, BringsTo m o f i j) → (∀ i < m.natm, m.count i ≠ 0) → ∃ ro, construct m o f = .ok ro) := by
  obtain ⟨d1, d2⟩ := atom_reorder_decision m o f hx hf hap
  refine ⟨fun h => by rw [construct, d2 h], fun h => ?_, fun h => ?_⟩
  all_goals
    obtain ⟨r, inv, hr⟩ := d1 h
    obtain ⟨hs1, hs2⟩ := atom_reorder_sound m o f r inv hr
    have hj : ∀ i < m.natm, ∃ j, r i = some j ∧ m.count i = m.count j := fun i hi => by
      obtain ⟨j, _, hj, _, hb'⟩ := hs2 i hi
      exact ⟨j, hj, by rw [Mol.count, Mol.count, brings_shells hb hb']⟩
  · rintro ⟨i, hi, h0⟩
    rw [construct, hr]
    simp only [aoReorder, ao_fold_error m r m.natm hj i hi h0, Except.map]
  · intro hc
    have hex : ∀ i, ∃ j, i < m.natm → r i = some j ∧ j < m.natm ∧ inv j = some i ∧ m.count i = m.count j := fun i => by
      by_cases hi : i < m.natm
      · obtain ⟨j, hjn, hj, hi', hb'⟩ := hs2 i hi
        exact ⟨j, fun _ => ⟨hj, hjn, hi', by rw [Mol.count, Mol.count, brings_shells hb hb']⟩⟩
      · exact ⟨0, fun h => absurd h hi⟩
    choose g hg using hex
    obtain ⟨ro, iv, hok⟩ := aoReorder_ok m r g (fun i hi => (hg i hi).1) (fun i hi => (hg i hi).2.1)
      (fun i hi j hj hij => by
        have h1 := (hg i hi).2.2.1
        have h2 := (hg j hj).2.2.1
        rw [hij] at h1
        exact Option.some.inj (h1.symm.trans h2))
      (fun i hi => ⟨hc i hi, (hg i hi).2.2.2⟩)
    exact ⟨ro, by rw [construct, hr]; simp only [hok, Except.map]⟩

/-- The orbitals of an atom get the coefficients from the atom that is brought to it, in the same order. -/
theorem operation_moves_orbitals (m : Mol K) (o : Opts K) (f : Pt K → Pt K) (hx : 0 ≤ o.xtol) (hf : Isometric f) (hap : Apart m (2 * o.xtol)) (ro : Arr)
    (h : construct m o f = .ok ro) (i j : Nat) (hij : BringsTo m o f i j) : m.count j = m.count i ∧ ∀ k < m.count j, ro (m.offset j + k) = some (m.offset i + k) := by
  obtain ⟨ρ, hρ⟩ := construct_spec h
  obtain ⟨_, hb, hc, hk⟩ := hρ j (brings_lt hij).2
  have : ρ j = i := by
    obtain ⟨a, b, ha, hbb, hd, _⟩ := hb
    obtain ⟨a', b', ha', hb', hd', _⟩ := hij
    have hbe : b = b' := Option.some.inj (hbb.symm.trans hb')
    subst hbe
    refine hap _ _ a a' ha ha' ?_
    rw [← hf]
    have e : f a.coord - f a'.coord = (f a.coord - b.coord) + (b.coord - f a'.coord) := by abel
    rw [e, two_mul]
    exact sq_add_le _ _ _ _ hx hx (by rw [sq_sub_comm]; exact hd) hd'
  rw [this] at hc hk
  exact ⟨hc, hk⟩

/-! ### Action on coefficients -/

private theorem apply_atom {m : Mol K} {o : Opts K} {f : Pt K → Pt K} {ro : Arr} {ρ : Nat → Nat}
    (hρ : ∀ i < m.natm, ρ i < m.natm ∧ BringsTo m o f (ρ i) i ∧ m.count i = m.count (ρ i) ∧ ∀ k < m.count i, ro (m.offset i + k) = some (m.offset (ρ i) + k))
    (rot : Nat → Nat → Nat → K) (a : Nat → K) (i : Nat) (hi : i < m.natm) (k : Nat) (hk : k < m.count i) :
    apply m ro rot a (m.offset i + k) = rotateFrom rot 0 (m.shells i) (fun k => a (m.offset (ρ i) + k)) k := by
  unfold apply Mol.allShells
  rw [rotate_atom rot m _ m.natm i hi k hk]
  refine rotateFrom_congr _ _ _ _ _ _ (Nat.zero_le _) (by rw [Nat.zero_add]; exact hk) fun q _ hq => ?_
  rw [Nat.zero_add] at hq
  simp only [take, (hρ i hi).2.2.2 q hq]

/-- Two operations after each other act as the combined operation. -/
theorem operations_compose (m : Mol K) (o : Opts K) (hb : o.checkBasis = true) (hx : 0 ≤ o.xtol) (hap : Apart m (3 * o.xtol)) (f g : Pt K → Pt K) (hg : Isometric g)
    (hgf : Isometric (g ∘ f)) (r1 r2 r3 : Arr) (h1 : construct m o f = .ok r1) (h2 : construct m o g = .ok r2) (h3 : construct m o (g ∘ f) = .ok r3) (rot1 rot2 : Nat → Nat → Nat → K)
    (a : Nat → K) : ∀ x < m.nao, apply m r2 rot2 (apply m r1 rot1 a) x = apply m r3 (rotMul rot1 rot2) a x := by
  intro x hxn
  obtain ⟨i, hi, k, hk, rfl⟩ := ao_exists m _ x hxn
  obtain ⟨ρ1, hρ1⟩ := construct_spec h1
  obtain ⟨ρ2, hρ2⟩ := construct_spec h2
  obtain ⟨ρ3, hρ3⟩ := construct_spec h3
  have hj := (hρ2 i hi).1
  have hsh := brings_shells hb (hρ2 i hi).2.1
  have e3 : ρ3 i = ρ1 (ρ2 i) := by
    obtain ⟨a2, b2, ha2, hb2, hd2, _⟩ := (hρ2 i hi).2.1
    obtain ⟨a1, b1, ha1, hb1, hd1, _⟩ := (hρ1 _ hj).2.1
    obtain ⟨a3, b3, ha3, hb3, hd3, _⟩ := (hρ3 i hi).2.1
    have e1 : b1 = a2 := Option.some.inj (hb1.symm.trans ha2)
    have e2 : b3 = b2 := Option.some.inj (hb3.symm.trans hb2)
    subst e1; subst e2
    refine hap _ _ a3 a1 ha3 ha1 ?_
    rw [← hgf]
    have e : (g ∘ f) a3.coord - (g ∘ f) a1.coord = ((g ∘ f) a3.coord - b3.coord) + ((b3.coord - g b1.coord) + (g b1.coord - g (f a1.coord))) := by
      simp only [Function.comp_apply]; abel
    rw [e, show (3 : K) * o.xtol = o.xtol + (o.xtol + o.xtol) by ring]
    refine sq_add_le _ _ _ _ hx (add_nonneg hx hx) (by rw [sq_sub_comm]; exact hd3) (sq_add_le _ _ _ _ hx hx hd2 ?_)
    rw [hg]; exact hd1
  rw [apply_atom hρ2 rot2 _ i hi k hk, apply_atom hρ3 _ a i hi k hk]
  unfold rotMul
  rw [← rotateFrom_mul rot1 rot2 _ _ _ _ (Nat.zero_le _) (by rw [Nat.zero_add]; exact hk)]
  refine rotateFrom_congr _ _ _ _ _ _ (Nat.zero_le _) (by rw [Nat.zero_add]; exact hk) fun q _ hq => ?_
  rw [Nat.zero_add] at hq
  have hq' : q < m.count (ρ2 i) := by rw [← (hρ2 i hi).2.2.1]; exact hq
  rw [apply_atom hρ1 rot1 a _ hj q hq', hsh, e3]

private theorem apply_iter {m : Mol K} {o : Opts K} (hb : o.checkBasis = true) {f : Pt K → Pt K} {ro : Arr} {ρ : Nat → Nat}
    (hρ : ∀ i < m.natm, ρ i < m.natm ∧ BringsTo m o f (ρ i) i ∧ m.count i = m.count (ρ i) ∧ ∀ k < m.count i, ro (m.offset i + k) = some (m.offset (ρ i) + k))
    (rot : Nat → Nat → Nat → K) (n : Nat) : ∀ (a : Nat → K) (i : Nat), i < m.natm → ρ^[n] i < m.natm ∧ m.shells i = m.shells (ρ^[n] i) ∧
      ∀ k < m.count i, (apply m ro rot)^[n] a (m.offset i + k) = rotateFrom (rotPow rot n) 0 (m.shells i) (fun k => a (m.offset (ρ^[n] i) + k)) k := by
  induction n with
  | zero =>
    intro a i hi
    refine ⟨hi, rfl, fun k hk => ?_⟩
    rw [rotPow]
    exact (rotateFrom_one (m.shells i) (fun k => a (m.offset i + k)) 0 k).symm
  | succ n ih =>
    intro a i hi
    obtain ⟨q1, q2, q3⟩ := ih (apply m ro rot a) i hi
    have hstep : ρ^[n + 1] i = ρ (ρ^[n] i) := Function.iterate_succ_apply' ρ n i
    have hsh := brings_shells hb (hρ _ q1).2.1
    refine ⟨by rw [hstep]; exact (hρ _ q1).1, by rw [hstep, hsh]; exact q2, fun k hk => ?_⟩
    rw [Function.iterate_succ_apply, q3 k hk]
    show _ = rotateFrom (rotMul rot (rotPow rot n)) 0 _ _ _
    unfold rotMul
    rw [← rotateFrom_mul rot (rotPow rot n) _ _ _ _ (Nat.zero_le _) (by rw [Nat.zero_add]; exact hk)]
    refine rotateFrom_congr _ _ _ _ _ _ (Nat.zero_le _) (by rw [Nat.zero_add]; exact hk) fun q _ hq => ?_
    rw [Nat.zero_add] at hq
    have hq' : q < m.count (ρ^[n] i) := by rw [Mol.count, ← q2]; exact hq
    rw [apply_atom hρ rot a _ q1 q hq', ← q2, hstep]

omit [LinearOrder K] [IsStrictOrderedRing K] in
private theorem iso_iter {f : Pt K → Pt K} (hf : Isometric f) (n : Nat) : Isometric (f^[n]) := by
  induction n with
  | zero => exact fun _ _ => rfl
  | succ n ih => intro p q; rw [Function.iterate_succ_apply, Function.iterate_succ_apply, ih, hf]

/-- An operation whose `n`-th power leaves all points in place and whose angular matrices have unit `n`-th power: applied `n` times it
leaves all coefficients in place. -/
theorem operation_power (m : Mol K) (o : Opts K) (hb : o.checkBasis = true) (hx : 0 ≤ o.xtol) (n : Nat) (hap : Apart m (n * o.xtol)) (f : Pt K → Pt K) (hf : Isometric f)
    (hfn : ∀ p, f^[n] p = p) (ro : Arr) (h : construct m o f = .ok ro) (rot : Nat → Nat → Nat → K) (hrot : RotEq (rotPow rot n) rotOne) (a : Nat → K) :
    ∀ x < m.nao, (apply m ro rot)^[n] a x = a x := by
  intro x hxn
  obtain ⟨i, hi, k, hk, rfl⟩ := ao_exists m _ x hxn
  obtain ⟨ρ, hρ⟩ := construct_spec h
  have key : ∀ (t : Nat) (c : Atom K), m.atoms[i]? = some c → ∃ c', m.atoms[ρ^[t] i]? = some c' ∧ norm2 (c.coord - f^[t] c'.coord) ≤ (t * o.xtol) ^ 2 := by
    intro t
    induction t with
    | zero => intro c hc; exact ⟨c, hc, by simp [norm2]⟩
    | succ t ih =>
      intro c hc
      obtain ⟨c', hc', hd⟩ := ih c hc
      obtain ⟨a', b', ha', hb', hd', _⟩ := (hρ _ (atoms_lt hc')).2.1
      have e : c' = b' := Option.some.inj (hc'.symm.trans hb')
      subst e
      refine ⟨a', by rw [Function.iterate_succ_apply']; exact ha', ?_⟩
      have e : c.coord - f^[t + 1] a'.coord = (c.coord - f^[t] c'.coord) + (f^[t] c'.coord - f^[t] (f a'.coord)) := by
        rw [Function.iterate_succ_apply]; abel
      rw [e, show ((t + 1 : Nat) : K) * o.xtol = t * o.xtol + o.xtol by push_cast; ring]
      refine sq_add_le _ _ _ _ (mul_nonneg (Nat.cast_nonneg t) hx) hx hd ?_
      rw [iso_iter hf]; exact hd'
  have hi' : ∃ c, m.atoms[i]? = some c := ⟨m.atoms[i], List.getElem?_eq_getElem hi⟩
  obtain ⟨c, hc⟩ := hi'
  obtain ⟨c', hc', hd⟩ := key n c hc
  rw [hfn] at hd
  have hfix : i = ρ^[n] i := hap _ _ c c' hc hc' hd
  obtain ⟨_, _, q3⟩ := apply_iter hb hρ rot n a i hi
  rw [q3 k hk, ← hfix, rotateFrom_rotEq _ _ hrot]
  exact rotateFrom_one _ _ _ _

omit [LinearOrder K] [IsStrictOrderedRing K] in
private theorem invert_iso (c : Pt K) : Isometric (invertPoint c) := by
  intro p q
  have e : invertPoint c p - invertPoint c q = -(p - q) := by simp only [invertPoint]; abel
  rw [e, sq_neg]

omit [LinearOrder K] [IsStrictOrderedRing K] in
private theorem reflect_iso (u c : Pt K) (hu : norm2 u = 1) : Isometric (reflectPoint u c) := by
  intro p q
  simp only [norm2, reflectPoint, dot3, Pi.sub_apply, Pi.smul_apply, smul_eq_mul] at hu ⊢
  linear_combination (4 * (u 0 * (p 0 - q 0) + u 1 * (p 1 - q 1) + u 2 * (p 2 - q 2)) ^ (2 : ℕ)) * hu

/-- What the operations do with points: inversion puts the centre in the middle of a point and its image; reflection reverses the component
along the axis, measured from the centre, and keeps the others; rotation keeps the centre and acts by its matrix on the difference. -/
theorem operation_points (u c r : Pt K) (hu : norm2 u = 1) (mat : Fin 3 → Fin 3 → K) :
    r + invertPoint c r = (2 : K) • c ∧ dot3 u (reflectPoint u c r - c) = - dot3 u (r - c) ∧ (∀ w, dot3 w u = 0 → dot3 w (reflectPoint u c r) = dot3 w r) ∧
    rotatePoint mat c c = c ∧ ∀ i, rotatePoint mat c r i - c i = ∑ j, mat i j * (r j - c j) := by
  refine ⟨by simp only [invertPoint]; abel, ?_, ?_, ?_, ?_⟩
  · simp only [norm2, reflectPoint, dot3, Pi.sub_apply, Pi.smul_apply, smul_eq_mul] at hu ⊢
    linear_combination (-2 * (u 0 * (r 0 - c 0) + u 1 * (r 1 - c 1) + u 2 * (r 2 - c 2))) * hu
  · intro w hw
    simp only [reflectPoint, dot3, Pi.sub_apply, Pi.smul_apply, smul_eq_mul] at hw ⊢
    linear_combination (-2 * (u 0 * (r 0 - c 0) + u 1 * (r 1 - c 1) + u 2 * (r 2 - c 2))) * hw
  · funext i; simp [rotatePoint]
  · intro i; simp [rotatePoint]

omit [Field K] [LinearOrder K] [IsStrictOrderedRing K] in
/-- Translations look in all neighbouring cells, along the periodic directions only. -/
theorem translation_shifts (dim : Nat) (dr : Fin 3 → Int) : dr ∈ shifts dim ↔
    (∀ d, dr d = 0 ∨ dr d = -1 ∨ dr d = 1) ∧ (dim = 1 → dr 1 = 0 ∧ dr 2 = 0) ∧ (dim = 2 → dr 2 = 0) := by
  have hall : dr ∈ allShifts ↔ ∀ d, dr d = 0 ∨ dr d = -1 ∨ dr d = 1 := by
    have e : dr = ![dr 0, dr 1, dr 2] := by funext d; fin_cases d <;> rfl
    constructor
    · intro h d
      simp only [allShifts, List.mem_flatMap, List.mem_map] at h
      obtain ⟨x, hx, y, hy, z, hz, rfl⟩ := h
      simp only [List.mem_cons, List.not_mem_nil, or_false] at hx hy hz
      fin_cases d
      · exact hx
      · exact hy
      · exact hz
    · intro h
      rw [e]
      simp only [allShifts, List.mem_flatMap, List.mem_map]
      exact ⟨dr 0, by simpa using h 0, dr 1, by simpa using h 1, dr 2, by simpa using h 2, rfl⟩
  rw [shifts, List.mem_filter, hall]
  refine and_congr Iff.rfl ?_
  simp only [Bool.and_eq_true, Bool.not_eq_true', Bool.and_eq_false_iff, Bool.or_eq_false_iff, beq_eq_false_iff_ne, bne_eq_false_iff_eq]
  constructor
  · rintro ⟨h1, h2⟩
    refine ⟨fun hd => ?_, fun hd => ?_⟩ <;> subst hd <;> simp_all
  · rintro ⟨h1, h2⟩
    by_cases d1 : dim = 1
    · exact ⟨Or.inr (h1 d1).2, Or.inr (h1 d1).1⟩
    · by_cases d2 : dim = 2
      · exact ⟨Or.inr (h2 d2), Or.inl d1⟩
      · exact ⟨Or.inl ⟨d1, d2⟩, Or.inl d1⟩

/-- Inversion applied twice is the identity. -/
theorem inversion_twice (m : Mol K) (o : Opts K) (hb : o.checkBasis = true) (hx : 0 ≤ o.xtol) (hap : Apart m (2 * o.xtol)) (c : Pt K) (ro : Arr)
    (h : construct m o (invertPoint c) = .ok ro) (a : Nat → K) : ∀ x < m.nao, apply m ro invertRot (apply m ro invertRot a) x = a x := by
  refine operation_power m o hb hx 2 (by exact_mod_cast hap) (invertPoint c) (invert_iso c) ?_ ro h invertRot ?_ a
  · intro p
    show invertPoint c (invertPoint c p) = p
    simp only [invertPoint]; abel
  · intro l _ x y
    show (∑ z : Fin (2 * l + 1), invertRot l x z * ∑ w : Fin (2 * l + 1), invertRot l z w * rotOne l w y) = rotOne (K := K) l x y
    have e : ∀ z : Fin (2 * l + 1), (∑ w : Fin (2 * l + 1), invertRot (K := K) l z w * rotOne l w y) = invertRot l z y := by
      intro z
      rw [Finset.sum_eq_single y]
      · simp [rotOne]
      · intro w _ hw; simp [rotOne, Fin.val_inj, hw]
      · simp
    rw [Finset.sum_congr rfl fun z _ => by rw [e z], Finset.sum_eq_single x]
    · simp only [invertRot, if_true, rotOne]
      split
      · rw [← pow_add, ← two_mul, pow_mul]; simp
      · simp
    · intro z _ hz
      simp only [invertRot]
      rw [if_neg (fun q => hz (Fin.ext q.symm)), zero_mul]
    · simp

/-- A reflection applied twice is the identity, if the angular matrices of the rotation by 180 degrees square to one. -/
theorem reflection_twice (m : Mol K) (o : Opts K) (hb : o.checkBasis = true) (hx : 0 ≤ o.xtol) (hap : Apart m (2 * o.xtol)) (u c : Pt K) (hu : norm2 u = 1) (ro : Arr)
    (h : construct m o (reflectPoint u c) = .ok ro) (c2 : Nat → Nat → Nat → K) (hc2 : RotEq (rotPow c2 2) rotOne) (a : Nat → K) :
    ∀ x < m.nao, apply m ro (reflectRot c2) (apply m ro (reflectRot c2) a) x = a x := by
  refine operation_power m o hb hx 2 (by exact_mod_cast hap) (reflectPoint u c) (reflect_iso u c hu) ?_ ro h (reflectRot c2) ?_ a
  · intro p
    show reflectPoint u c (reflectPoint u c p) = p
    funext i
    simp only [norm2, reflectPoint, dot3, Pi.sub_apply, Pi.smul_apply, smul_eq_mul] at hu ⊢
    linear_combination (4 * (u 0 * (p 0 - c 0) + u 1 * (p 1 - c 1) + u 2 * (p 2 - c 2)) * u i) * hu
  · intro l hl x y
    rw [← hc2 l hl x y]
    show (∑ z : Fin (2 * l + 1), reflectRot c2 l x z * ∑ w : Fin (2 * l + 1), reflectRot c2 l z w * rotOne l w y) =
      ∑ z : Fin (2 * l + 1), c2 l x z * ∑ w : Fin (2 * l + 1), c2 l z w * rotOne l w y
    refine Finset.sum_congr rfl fun z _ => ?_
    rw [Finset.mul_sum, Finset.mul_sum]
    refine Finset.sum_congr rfl fun w _ => ?_
    have e : ((-1 : K) ^ l) * (-1) ^ l = 1 := by rw [← pow_add, ← two_mul, pow_mul]; simp
    simp only [reflectRot]
    linear_combination (c2 l x z * (c2 l z w * rotOne l w y)) * e

/-! ### Translations -/

private theorem cell_lt {c : Cell K} {o : Opts K} {v : Pt K} {i j : Nat} {n : Fin 3 → Int} (h : CellBringsTo c o v i j n) : i < c.mol.natm ∧ j < c.mol.natm := by
  obtain ⟨a, b, ha, hb, _⟩ := h
  exact ⟨atoms_lt ha, atoms_lt hb⟩

private theorem cell_shells {c : Cell K} {o : Opts K} (hb : o.checkBasis = true) {v : Pt K} {i j : Nat} {n : Fin 3 → Int} (h : CellBringsTo c o v i j n) :
    c.mol.shells i = c.mol.shells j := by
  obtain ⟨a, b, h1, h2, _, hk⟩ := h
  exact kind_shells hb h1 h2 hk

private theorem transPartner_sound {c : Cell K} {o : Opts K} {v : Pt K} {i j : Nat} {p : Int} (h : transPartner c o v i = some (j, p)) :
    ∃ n ∈ shifts c.dim, CellBringsTo c o v i j n ∧ p = crossingSign c.boundary n := by
  unfold transPartner at h
  cases ha : c.mol.atoms[i]? with
  | none => rw [ha] at h; cases h
  | some a =>
    rw [ha] at h
    simp only at h
    cases hc : atomAt (c.mol.atoms.map Atom.coord) o.xtol c.boundary.list (a.coord + v) (shifts c.dim) with
    | none => rw [hc] at h; cases h
    | some jp =>
      obtain ⟨j', p'⟩ := jp
      rw [hc] at h
      simp only at h
      split at h
      · cases h
      · rename_i hcmp
        simp only [Option.some.injEq, Prod.mk.injEq] at h
        obtain ⟨rfl, rfl⟩ := h
        obtain ⟨n, hn, hp, x, hx, hd⟩ := atomAt_sound _ _ _ _ _ _ _ hc
        rw [List.getElem?_map] at hx
        cases hb : c.mol.atoms[j']? with
        | none => rw [hb] at hx; cases hx
        | some b =>
          rw [hb] at hx
          simp only [Option.map_some, Option.some.injEq] at hx
          subst hx
          refine ⟨n, hn, ⟨a, b, ha, hb, hd, ?_⟩, by rw [hp, shiftPhase_eq _ _ _ hn]⟩
          rw [← compare_iff c.mol o i j' a b ha hb]
          simpa using hcmp

/-- The translation that is constructed: every atom `i` takes the coefficients of an atom brought to it by the translation, times the sign
of the boundaries crossed on the way. -/
theorem translation_sound (c : Cell K) (o : Opts K) (v : Pt K) (t : Arr × (Nat → Int)) (h : translation c o v = .ok t) :
    ∀ i < c.mol.natm, ∃ j n, n ∈ shifts c.dim ∧ CellBringsTo c o v j i n ∧ c.mol.count i = c.mol.count j ∧
      ∀ (a : Nat → K), ∀ k < c.mol.count i, translate t a (c.mol.offset i + k) = a (c.mol.offset j + k) * (crossingSign c.boundary n : K) := by
  unfold translation transReorder at h
  cases hl : transLoop (transPartner c o v) (List.range c.mol.natm) (Arr.empty, Arr.empty, fun _ => 0) with
  | none => rw [hl] at h; cases h
  | some s =>
    obtain ⟨r, inv, p⟩ := s
    obtain ⟨_, h2, h3, _, h5⟩ := transLoop_spec _ _ _ hl
    simp only at h2 h3 h5
    rw [hl] at h
    simp only at h
    split at h
    · rename_i hq
      split at hq
      · cases hq; cases h
      · cases hq
    · rename_i hq
      split at hq <;> cases hq
    · rename_i r' inv' p' hq
      split at hq
      · cases hq
      · rename_i hch
        simp only [Except.ok.injEq, Option.some.injEq, Prod.mk.injEq] at hq
        obtain ⟨rfl, rfl, rfl⟩ := hq
        cases hao : aoReorder c.mol r with
        | error e => rw [hao] at h; cases h
        | ok ai =>
          obtain ⟨ao, aoi⟩ := ai
          rw [hao] at h
          simp only at h
          split at h
          · cases h
          · simp only [Except.ok.injEq] at h
            subst h
            intro i hi
            obtain ⟨j, hj, _, hc, hk⟩ := aoReorder_spec _ _ _ _ hao i hi
            obtain ⟨hjn, q, hq⟩ := h3 j i hj
            obtain ⟨n, hn, hb, hp⟩ := transPartner_sound hq
            refine ⟨j, n, hn, hb, hc, fun a k hkc => ?_⟩
            simp only [translate, take, hk k hkc]
            rw [aoPhases_at c.mol r p i hi k hkc j hj, h5 j hjn i q hq, hp]

private theorem translation_choice {c : Cell K} {o : Opts K} {v : Pt K} {t : Arr × (Nat → Int)} (h : translation c o v = .ok t) :
    ∃ (ρ : Nat → Nat) (n : Nat → Fin 3 → Int), ∀ i < c.mol.natm, ρ i < c.mol.natm ∧ CellBringsTo c o v (ρ i) i (n i) ∧ c.mol.count i = c.mol.count (ρ i) ∧
      ∀ (a : Nat → K), ∀ k < c.mol.count i, translate t a (c.mol.offset i + k) = a (c.mol.offset (ρ i) + k) * (crossingSign c.boundary (n i) : K) := by
  have hs := translation_sound c o v t h
  have hex : ∀ i, ∃ j n, i < c.mol.natm → j < c.mol.natm ∧ CellBringsTo c o v j i n ∧ c.mol.count i = c.mol.count j ∧
      ∀ (a : Nat → K), ∀ k < c.mol.count i, translate t a (c.mol.offset i + k) = a (c.mol.offset j + k) * (crossingSign c.boundary n : K) := by
    intro i
    by_cases hi : i < c.mol.natm
    · obtain ⟨j, n, _, hb, hc, hk⟩ := hs i hi
      exact ⟨j, n, fun _ => ⟨(cell_lt hb).1, hb, hc, hk⟩⟩
    · exact ⟨0, 0, fun h => absurd h hi⟩
  choose ρ n hρ using hex
  exact ⟨ρ, n, hρ⟩

/-- Atoms and their periodic images more than twice the tolerance apart: the translation is constructed exactly if every atom is brought,
across at most one boundary per direction, to an atom of the same kind (and all atoms have orbitals); otherwise AssertionError. -/
theorem translation_decision (c : Cell K) (o : Opts K) (v : Pt K) (hb : o.checkBasis = true) (hx : 0 ≤ o.xtol) (hap : CellApart c (2 * o.xtol)) :
    ((∃ i < c.mol.natm, ∀ j, ∀ n ∈ shifts c.dim, ¬ CellBringsTo c o v i j n) → translation c o v = .error .assertionError) ∧
    ((∀ i < c.mol.natm, ∃ j, ∃ n ∈ shifts c.dim, CellBringsTo c o v i j n) → (∀ i < c.mol.natm, c.mol.count i ≠ 0) → ∃ t, translation c o v = .ok t) := by
  constructor
  · rintro ⟨i, hi, hn⟩
    have : transLoop (transPartner c o v) (List.range c.mol.natm) (Arr.empty, Arr.empty, fun _ => 0) = none := by
      refine transLoop_none _ _ _ i (List.mem_range.mpr hi) ?_
      cases hp : transPartner c o v i with
      | none => rfl
      | some jp =>
        obtain ⟨j, p⟩ := jp
        obtain ⟨n, hns, hb', _⟩ := transPartner_sound hp
        exact absurd hb' (hn j n hns)
    rw [translation, transReorder, this]
  · intro hall hc
    have hpart : ∀ i < c.mol.natm, ∀ j, ∀ n ∈ shifts c.dim, CellBringsTo c o v i j n → transPartner c o v i = some (j, crossingSign c.boundary n) := by
      intro i hi j n hn hb'
      obtain ⟨a, b, ha, hbb, hd, hk⟩ := hb'
      unfold transPartner
      rw [ha]
      simp only
      have hat : atomAt (c.mol.atoms.map Atom.coord) o.xtol c.boundary.list (a.coord + v) (shifts c.dim) = some (j, shiftPhase c.boundary.list n) := by
        refine atomAt_complete _ _ _ _ (j := j) (n := n) (x := b.coord) _ hn (by rw [List.getElem?_map, hbb]; rfl) hd ?_
        intro j' x' n' hx' hd'
        rw [List.getElem?_map] at hx'
        cases hb'' : c.mol.atoms[j']? with
        | none => rw [hb''] at hx'; cases hx'
        | some b' =>
          rw [hb''] at hx'
          simp only [Option.map_some, Option.some.injEq] at hx'
          subst hx'
          have := hap j' j b' b (n' - n) hb'' hbb (by
            have e : b'.coord + shiftPt (n' - n) - b.coord = (b'.coord + shiftPt n' - (a.coord + v)) + ((a.coord + v) - (b.coord + shiftPt n)) := by
              rw [shiftPt_sub]; abel
            rw [e, two_mul]
            exact sq_add_le _ _ _ _ hx hx hd'.le (by rw [sq_sub_comm]; exact hd.le))
          exact ⟨this.1, sub_eq_zero.mp this.2⟩
      rw [hat]
      simp only
      rw [if_neg (by rw [(compare_iff c.mol o i j a b ha hbb).mpr hk]; simp), shiftPhase_eq _ _ _ hn]
    have hex : ∀ i, ∃ j n, i < c.mol.natm → n ∈ shifts c.dim ∧ CellBringsTo c o v i j n := by
      intro i
      by_cases hi : i < c.mol.natm
      · obtain ⟨j, n, hn, hb'⟩ := hall i hi
        exact ⟨j, n, fun _ => ⟨hn, hb'⟩⟩
      · exact ⟨0, 0, fun h => absurd h hi⟩
    choose g n hg using hex
    have hp : ∀ i < c.mol.natm, transPartner c o v i = some (g i, crossingSign c.boundary (n i)) := fun i hi => hpart i hi _ _ (hg i hi).1 (hg i hi).2
    have hinj : ∀ i < c.mol.natm, ∀ j < c.mol.natm, g i = g j → i = j := by
      intro i hi j hj hij
      obtain ⟨a, b, ha, hbb, hd, _⟩ := (hg i hi).2
      obtain ⟨a', b', ha', hb', hd', _⟩ := (hg j hj).2
      rw [hij] at hbb
      have : b = b' := Option.some.inj (hbb.symm.trans hb')
      subst this
      refine (hap i j a a' (n j - n i) ha ha' ?_).1
      have e : a.coord + shiftPt (n j - n i) - a'.coord = ((a.coord + v) - (b.coord + shiftPt (n i))) + (b.coord + shiftPt (n j) - (a'.coord + v)) := by
        rw [shiftPt_sub]; abel
      rw [e, two_mul]
      exact sq_add_le _ _ _ _ hx hx (by rw [sq_sub_comm]; exact hd.le) hd'.le
    obtain ⟨s, hs⟩ := transLoop_some (transPartner c o v) (List.range c.mol.natm) (Arr.empty, Arr.empty, fun _ => 0)
      (fun i hi => by rw [hp i (List.mem_range.mp hi)]; rfl)
    obtain ⟨r, inv, p⟩ := s
    obtain ⟨h1, h2, h3, h4, h5⟩ := transLoop_spec _ _ _ hs
    simp only at h2 h3 h4 h5
    have hpp : ∀ i < c.mol.natm, (transPartner c o v i).map Prod.fst = some (g i) := fun i hi => by rw [hp i hi]; rfl
    have hchk := checks_pass (fun i => (transPartner c o v i).map Prod.fst) c.mol.natm r inv g hpp
      (fun i hi => (cell_lt (hg i hi).2).2) hinj h2 (fun i j hij => by
        obtain ⟨hi, q, hq⟩ := h3 i j hij
        exact ⟨hi, by rw [hq]; rfl⟩) (fun i j hi hij => by
        refine h4 i hi j (crossingSign c.boundary (n i)) ?_
        have := hpp i hi
        rw [hij, Option.some.injEq] at this
        rw [hp i hi, this])
    have hph : ((List.range c.mol.natm).all fun i => p i != 0) = true := by
      rw [List.all_eq_true]
      intro i hi
      rw [h5 i (List.mem_range.mp hi) _ _ (hp i (List.mem_range.mp hi)), bne_iff_ne]
      exact crossingSign_ne_zero _ _
    have hre : transReorder c o v = .ok (some (r, inv, p)) := by
      rw [transReorder, hs]
      simp only
      rw [if_neg (by rw [hchk.1, hchk.2.1, hchk.2.2, hph]; decide)]
    have hri : ∀ i < c.mol.natm, ∃ j < c.mol.natm, r i = some j ∧ g j = i := fun i hi => by
      obtain ⟨j, hj⟩ := Option.isSome_iff_exists.mp ((full_iff _ _).mp hchk.1 i hi)
      obtain ⟨hjn, q, hq⟩ := h3 j i hj
      rw [hp j hjn, Option.some.injEq, Prod.mk.injEq] at hq
      exact ⟨j, hjn, hj, hq.1⟩
    have hex2 : ∀ i, ∃ j, i < c.mol.natm → j < c.mol.natm ∧ r i = some j ∧ g j = i := fun i => by
      by_cases hi : i < c.mol.natm
      · obtain ⟨j, q⟩ := hri i hi
        exact ⟨j, fun _ => q⟩
      · exact ⟨0, fun h => absurd h hi⟩
    choose ρ hρ using hex2
    obtain ⟨ao, aoi, hao⟩ := aoReorder_ok c.mol r ρ (fun i hi => (hρ i hi).2.1) (fun i hi => (hρ i hi).1)
      (fun i hi j hj hij => by rw [← (hρ i hi).2.2, ← (hρ j hj).2.2, hij])
      (fun i hi => ⟨hc i hi, by
        have := cell_shells hb (hg _ (hρ i hi).1).2
        rw [(hρ i hi).2.2] at this
        rw [Mol.count, Mol.count, this]⟩)
    refine ⟨(ao, aoPhases c.mol r p), ?_⟩
    have hpa : ((List.range c.mol.nao).all fun x => aoPhases c.mol r p x != 0) = true := by
      rw [List.all_eq_true]
      intro x hx'
      obtain ⟨i, hi, k, hk, rfl⟩ := ao_exists c.mol _ x (List.mem_range.mp hx')
      rw [aoPhases_at c.mol r p i hi k hk _ (hρ i hi).2.1, h5 _ (hρ i hi).1 _ _ (hp _ (hρ i hi).1), bne_iff_ne]
      exact crossingSign_ne_zero _ _
    rw [translation, hre]
    simp only [hao]
    rw [if_neg (by rw [hpa]; decide)]

/-- Two translations after each other act as the translation by the sum, signs included. -/
theorem translations_compose (c : Cell K) (o : Opts K) (hx : 0 ≤ o.xtol) (hap : CellApart c (3 * o.xtol)) (v w : Pt K) (t1 t2 t3 : Arr × (Nat → Int))
    (h1 : translation c o v = .ok t1) (h2 : translation c o w = .ok t2) (h3 : translation c o (v + w) = .ok t3) (a : Nat → K) :
    ∀ x < c.mol.nao, translate t2 (translate t1 a) x = translate t3 a x := by
  intro x hxn
  obtain ⟨i, hi, k, hk, rfl⟩ := ao_exists c.mol _ x hxn
  obtain ⟨ρ1, n1, hρ1⟩ := translation_choice h1
  obtain ⟨ρ2, n2, hρ2⟩ := translation_choice h2
  obtain ⟨ρ3, n3, hρ3⟩ := translation_choice h3
  obtain ⟨hj, hb2, hc2, hk2⟩ := hρ2 i hi
  obtain ⟨_, hb1, hc1, hk1⟩ := hρ1 _ hj
  obtain ⟨_, hb3, hc3, hk3⟩ := hρ3 i hi
  obtain ⟨a2, b2, ha2, hbb2, hd2, _⟩ := hb2
  obtain ⟨a1, b1, ha1, hbb1, hd1, _⟩ := hb1
  obtain ⟨a3, b3, ha3, hbb3, hd3, _⟩ := hb3
  have e1 : b1 = a2 := Option.some.inj (hbb1.symm.trans ha2)
  have e2 : b3 = b2 := Option.some.inj (hbb3.symm.trans hbb2)
  subst e1; subst e2
  obtain ⟨e3, e4⟩ := hap _ _ a3 a1 (n1 (ρ2 i) + n2 i - n3 i) ha3 ha1 (by
    have e : a3.coord + shiftPt (n1 (ρ2 i) + n2 i - n3 i) - a1.coord = ((a3.coord + (v + w)) - (b3.coord + shiftPt (n3 i))) +
        ((b3.coord + shiftPt (n2 i) - (b1.coord + w)) + (b1.coord + shiftPt (n1 (ρ2 i)) - (a1.coord + v))) := by
      rw [shiftPt_sub, shiftPt_add]; abel
    rw [e, show (3 : K) * o.xtol = o.xtol + (o.xtol + o.xtol) by ring]
    exact sq_add_le _ _ _ _ hx (add_nonneg hx hx) (by rw [sq_sub_comm]; exact hd3.le) (sq_add_le _ _ _ _ hx hx hd2.le hd1.le))
  rw [hk2 _ k hk, hk1 _ k (by rw [← hc2]; exact hk), hk3 _ k hk, e3, ← sub_eq_zero.mp e4, crossingSign_add]
  push_cast; ring

/-- A translation applied `n` times, if `n` times its vector is the lattice vector `z`: all coefficients get the sign of crossing the
boundaries `z` times. -/
theorem translation_power (c : Cell K) (o : Opts K) (hx : 0 ≤ o.xtol) (n : Nat) (hap : CellApart c (n * o.xtol)) (v : Pt K) (z : Fin 3 → Int)
    (hv : (n : K) • v = shiftPt z) (t : Arr × (Nat → Int)) (h : translation c o v = .ok t) (a : Nat → K) :
    ∀ x < c.mol.nao, (translate t)^[n] a x = a x * (crossingSign c.boundary z : K) := by
  intro x hxn
  obtain ⟨i, hi, k, hk, rfl⟩ := ao_exists c.mol _ x hxn
  obtain ⟨ρ, d, hρ⟩ := translation_choice h
  have key : ∀ (s : Nat) (b : Atom K), c.mol.atoms[i]? = some b → ∃ b' D, c.mol.atoms[ρ^[s] i]? = some b' ∧ c.mol.count i = c.mol.count (ρ^[s] i) ∧
      norm2 (b.coord + shiftPt D - (b'.coord + (s : K) • v)) ≤ (s * o.xtol) ^ 2 ∧
      ∀ a : Nat → K, (translate t)^[s] a (c.mol.offset i + k) = a (c.mol.offset (ρ^[s] i) + k) * (crossingSign c.boundary D : K) := by
    intro s
    induction s with
    | zero =>
      intro b hb
      refine ⟨b, 0, hb, rfl, ?_, fun a => ?_⟩
      · have : b.coord + shiftPt 0 - (b.coord + ((0 : Nat) : K) • v) = 0 := by
          funext d
          simp [shiftPt_zero]
        rw [this]; simp [norm2]
      · rw [crossingSign_zero]; simp
    | succ s ih =>
      intro b hb
      obtain ⟨b', D, hb', hc, hd, hval⟩ := ih b hb
      obtain ⟨hj, hbr, hcj, hkj⟩ := hρ _ (atoms_lt hb')
      obtain ⟨a1, b1, ha1, hb1, hd1, _⟩ := hbr
      have e : b' = b1 := Option.some.inj (hb'.symm.trans hb1)
      subst e
      refine ⟨a1, D + d (ρ^[s] i), by rw [Function.iterate_succ_apply']; exact ha1, by rw [Function.iterate_succ_apply', hc]; exact hcj, ?_, fun a => ?_⟩
      · have e : b.coord + shiftPt (D + d (ρ^[s] i)) - (a1.coord + ((s + 1 : Nat) : K) • v) =
            (b.coord + shiftPt D - (b'.coord + (s : K) • v)) + (b'.coord + shiftPt (d (ρ^[s] i)) - (a1.coord + v)) := by
          funext d
          simp only [shiftPt_add, Pi.add_apply, Pi.sub_apply, Pi.smul_apply, smul_eq_mul]
          push_cast; ring
        rw [e, show ((s + 1 : Nat) : K) * o.xtol = s * o.xtol + o.xtol by push_cast; ring]
        exact sq_add_le _ _ _ _ (mul_nonneg (Nat.cast_nonneg s) hx) hx hd hd1.le
      · rw [Function.iterate_succ_apply, hval, hkj _ k (by rw [← hc]; exact hk), Function.iterate_succ_apply', crossingSign_add]
        push_cast; ring
  obtain ⟨b, hb⟩ : ∃ b, c.mol.atoms[i]? = some b := ⟨c.mol.atoms[i], List.getElem?_eq_getElem hi⟩
  obtain ⟨b', D, hb', _, hd, hval⟩ := key n b hb
  obtain ⟨e1, e2⟩ := hap i (ρ^[n] i) b b' (D - z) hb hb' (by
    have e : b.coord + shiftPt (D - z) - b'.coord = b.coord + shiftPt D - (b'.coord + (n : K) • v) := by rw [hv, shiftPt_sub]; abel
    rw [e]; exact hd)
  rw [hval, ← e1, sub_eq_zero.mp e2]

/-- A translation and the translation by the opposite vector: the identity. -/
theorem translation_opposite (c : Cell K) (o : Opts K) (hx : 0 ≤ o.xtol) (hap : CellApart c (2 * o.xtol)) (v : Pt K) (t s : Arr × (Nat → Int))
    (h1 : translation c o v = .ok t) (h2 : translation c o (-v) = .ok s) (a : Nat → K) : ∀ x < c.mol.nao, translate s (translate t a) x = a x := by
  intro x hxn
  obtain ⟨i, hi, k, hk, rfl⟩ := ao_exists c.mol _ x hxn
  obtain ⟨ρ1, n1, hρ1⟩ := translation_choice h1
  obtain ⟨ρ2, n2, hρ2⟩ := translation_choice h2
  obtain ⟨hj, hb2, hc2, hk2⟩ := hρ2 i hi
  obtain ⟨_, hb1, hc1, hk1⟩ := hρ1 _ hj
  obtain ⟨a2, b2, ha2, hbb2, hd2, _⟩ := hb2
  obtain ⟨a1, b1, ha1, hbb1, hd1, _⟩ := hb1
  have e1 : b1 = a2 := Option.some.inj (hbb1.symm.trans ha2)
  subst e1
  obtain ⟨e3, e4⟩ := hap i _ b2 a1 (n1 (ρ2 i) + n2 i) hbb2 ha1 (by
    have e : b2.coord + shiftPt (n1 (ρ2 i) + n2 i) - a1.coord = (b2.coord + shiftPt (n2 i) - (b1.coord + -v)) + (b1.coord + shiftPt (n1 (ρ2 i)) - (a1.coord + v)) := by
      rw [shiftPt_add]; abel
    rw [e, two_mul]
    exact sq_add_le _ _ _ _ hx hx hd2.le hd1.le)
  have hone : crossingSign c.boundary (n1 (ρ2 i)) * crossingSign c.boundary (n2 i) = 1 := by rw [← crossingSign_add, e4, crossingSign_zero]
  rw [hk2 _ k hk, hk1 _ k (by rw [← hc2]; exact hk), ← e3, mul_assoc]
  have : ((crossingSign c.boundary (n1 (ρ2 i)) : Int) : K) * (crossingSign c.boundary (n2 i) : Int) = 1 := by exact_mod_cast hone
  rw [this, mul_one]

/-- Full claim: `inverse()` of a constructed translation returns an operation undoing it. -/
def InverseUndoes (c : Cell K) (o : Opts K) (v : Pt K) : Prop :=
  ∀ t, translation c o v = .ok t → ∀ r inv p, transReorder c o v = .ok (some (r, inv, p)) →
    ∃ s, translationInverse c v r = .ok s ∧ ∀ (a : Nat → K), ∀ x < c.mol.nao, translateWith s (translate t a) x = a x

/-- `inverse()` raises AttributeError, so the claim holds for no translation which can be constructed. -/
theorem translation_inverse_raises (c : Cell K) (o : Opts K) (v : Pt K) (t : Arr × (Nat → Int)) (h : translation c o v = .ok t) :
    (∀ r, translationInverse c v r = .error .attributeError) ∧ ¬ InverseUndoes c o v := by
  have h1 : ∀ r, translationInverse c v r = .error .attributeError := fun r => rfl
  refine ⟨h1, fun hu => ?_⟩
  unfold translation at h
  cases hr : transReorder c o v with
  | error e => rw [hr] at h; cases h
  | ok q =>
    match q, hr with
    | none, hr => rw [hr] at h; cases h
    | some (r, inv, p), hr =>
      obtain ⟨s, hs, _⟩ := hu t (by unfold translation; exact h) r inv p hr
      rw [h1] at hs; cases hs

/-- What does undo a translation (full claim: `InverseUndoes`; missing: `inverse()` itself, which raises): the translation constructed anew
with the opposite vector exists whenever the translation does not cross more than one boundary per direction backwards, and undoes it. -/
theorem translation_inverse_partial (c : Cell K) (o : Opts K) (hb : o.checkBasis = true) (hx : 0 ≤ o.xtol) (hap : CellApart c (2 * o.xtol)) (v : Pt K)
    (t : Arr × (Nat → Int)) (h : translation c o v = .ok t) (hc : ∀ i < c.mol.natm, c.mol.count i ≠ 0) :
    ∃ s, translationInit (.group c o) (-v) none = .ok s ∧ ∀ (a : Nat → K), ∀ x < c.mol.nao, translateWith s (translate t a) x = a x := by
  have hs := translation_sound c o v t h
  obtain ⟨s, hs'⟩ := (translation_decision c o (-v) hb hx hap).2 (fun i hi => by
    obtain ⟨j, n, hn, ⟨a, b, ha, hbb, hd, hk⟩, _⟩ := hs i hi
    refine ⟨j, -n, shifts_neg _ _ hn, b, a, hbb, ha, ?_, sameKind_symm hk⟩
    have e : a.coord + shiftPt (-n) - (b.coord + -v) = -(b.coord + shiftPt n - (a.coord + v)) := by
      rw [shiftPt_neg]; abel
    rw [e, sq_neg]
    exact hd) hc
  refine ⟨(s.1, some s.2), ?_, fun a x hxn => ?_⟩
  · simp only [translationInit, hs']; rfl
  · exact translation_opposite c o hx hap v t s h hs' a x hxn

/-! ### Concrete cases -/

/-- Two oxygen atoms and a hydrogen atom at their centre. -/
private def demoMol : Mol ℚ where
  atoms := [⟨"O1", "O", ![1, 0, 0]⟩, ⟨"H", "H", ![0, 0, 0]⟩, ⟨"O2", "O", ![-1, 0, 0]⟩]
  basis := fun s => if s = "H" then [(0, 2)] else [(0, 1), (1, 2)]
private def demoOpts : Opts ℚ := { xtol := 1 / 100 }

private theorem demo_apart : Apart demoMol (2 * demoOpts.xtol) := by
  intro i j a b ha hb h
  have hi : i < 3 := (List.getElem?_eq_some_iff.mp ha).1
  have hj : j < 3 := (List.getElem?_eq_some_iff.mp hb).1
  interval_cases i <;> interval_cases j <;> simp [demoMol] at ha hb <;> subst ha <;> subst hb <;> first | rfl | (exfalso; revert h; decide +kernel)

/-- The inversion is found and exchanges the `p` functions of the oxygen atoms with a sign. -/
example : (∃ ro, construct demoMol demoOpts (invertPoint 0) = .ok ro) ∧
    ((construct demoMol demoOpts (invertPoint 0)).toOption.map fun ro => (List.range 16).map (apply demoMol ro invertRot fun x => (x : ℚ))) =
      some [9, -10, -11, -12, -13, -14, -15, 7, 8, 0, -1, -2, -3, -4, -5, -6] := by
  have h : ((construct demoMol demoOpts (invertPoint 0)).toOption.map fun ro => (List.range 16).map (apply demoMol ro invertRot fun x => (x : ℚ))) =
      some [9, -10, -11, -12, -13, -14, -15, 7, 8, 0, -1, -2, -3, -4, -5, -6] := by decide +kernel
  refine ⟨?_, h⟩
  cases hc : construct demoMol demoOpts (invertPoint 0) with
  | error e => rw [hc] at h; cases h
  | ok ro => exact ⟨ro, rfl⟩

/-- All hypotheses of `inversion_twice` hold for it. -/
example : ∃ ro, construct demoMol demoOpts (invertPoint 0) = .ok ro ∧
    ∀ (a : Nat → ℚ), ∀ x < demoMol.nao, apply demoMol ro invertRot (apply demoMol ro invertRot a) x = a x := by
  obtain ⟨ro, h⟩ := (operation_decision demoMol demoOpts (invertPoint 0) rfl (by decide +kernel) (invert_iso 0) demo_apart).2.2 (by
    intro i hi
    have hi : i < 3 := hi
    have hk : ∀ j k : Nat, ∀ a b, demoMol.atoms[j]? = some a → demoMol.atoms[k]? = some b → norm2 (b.coord - invertPoint 0 a.coord) ≤ demoOpts.xtol ^ 2 →
        SameKind demoMol demoOpts a b → ∃ k, BringsTo demoMol demoOpts (invertPoint 0) j k := fun j k a b h1 h2 h3 h4 => ⟨k, a, b, h1, h2, h3, h4⟩
    interval_cases i
    · exact hk 0 2 _ _ rfl rfl (by decide +kernel) ⟨rfl, fun _ => rfl⟩
    · exact hk 1 1 _ _ rfl rfl (by decide +kernel) ⟨rfl, fun _ => rfl⟩
    · exact hk 2 0 _ _ rfl rfl (by decide +kernel) ⟨rfl, fun _ => rfl⟩) (by decide +kernel)
  exact ⟨ro, h, inversion_twice demoMol demoOpts rfl (by decide +kernel) demo_apart 0 ro h⟩

/-- Reflection that is no symmetry: RuntimeError. -/
example : construct demoMol demoOpts (reflectPoint ![1, 0, 0] ![1, 0, 0]) = .error .runtimeError := by
  have : (match construct demoMol demoOpts (reflectPoint ![1, 0, 0] ![1, 0, 0]) with | .error .runtimeError => true | _ => false) = true := by decide +kernel
  revert this
  split
  · rename_i h; intro _; exact h
  · intro h; cases h

/-- A ring of three cells with antiperiodic boundary in the first direction. -/
private def demoCell : Cell ℚ where
  mol := { atoms := [⟨"C", "C", ![0, 0, 0]⟩, ⟨"C", "C", ![1 / 3, 0, 0]⟩, ⟨"C", "C", ![2 / 3, 0, 0]⟩], basis := fun _ => [(0, 1), (1, 1)] }
  dim := 1
  boundary := .two "apbc" "PBC"

private theorem demoCell_apart : CellApart demoCell (3 * demoOpts.xtol) := by
  intro i j a b n ha hb h
  have hi : i < 3 := (List.getElem?_eq_some_iff.mp ha).1
  have hj : j < 3 := (List.getElem?_eq_some_iff.mp hb).1
  have hcoord : ∀ k : Nat, ∀ c, demoCell.mol.atoms[k]? = some c → c.coord 0 = k / 3 ∧ c.coord 1 = 0 ∧ c.coord 2 = 0 := by
    intro k c hc
    have hk : k < 3 := (List.getElem?_eq_some_iff.mp hc).1
    interval_cases k <;> simp [demoCell] at hc <;> subst hc <;> decide +kernel
  obtain ⟨x0, x1, x2⟩ := hcoord i a ha
  obtain ⟨y0, y1, y2⟩ := hcoord j b hb
  have e : norm2 (a.coord + shiftPt n - b.coord) = (((i : ℤ) + 3 * n 0 - j : ℤ) : ℚ) ^ 2 / 9 + ((n 1 : ℤ) : ℚ) ^ 2 + ((n 2 : ℤ) : ℚ) ^ 2 := by
    simp only [norm2, Pi.add_apply, Pi.sub_apply, shiftPt, x0, x1, x2, y0, y1, y2]
    push_cast; ring
  rw [e] at h
  have hlt : ∀ z : ℤ, ((z : ℚ)) ^ 2 ≤ 1 / 2 → z = 0 := by
    intro z hz
    by_contra hne
    have : 1 ≤ z ^ 2 := by
      have := Int.one_le_abs hne
      nlinarith [sq_abs z, abs_nonneg z]
    have : (1 : ℚ) ≤ (z : ℚ) ^ 2 := by exact_mod_cast this
    linarith
  have ht : (3 * demoOpts.xtol) ^ 2 ≤ 1 / 100 := by decide +kernel
  have z0 := hlt ((i : ℤ) + 3 * n 0 - j) (by nlinarith [_root_.sq_nonneg (((n 1 : ℤ) : ℚ)), _root_.sq_nonneg (((n 2 : ℤ) : ℚ))])
  have z1 := hlt (n 1) (by nlinarith [_root_.sq_nonneg ((((i : ℤ) + 3 * n 0 - j : ℤ) : ℚ)), _root_.sq_nonneg (((n 2 : ℤ) : ℚ))])
  have z2 := hlt (n 2) (by nlinarith [_root_.sq_nonneg ((((i : ℤ) + 3 * n 0 - j : ℤ) : ℚ)), _root_.sq_nonneg (((n 1 : ℤ) : ℚ))])
  refine ⟨by omega, ?_⟩
  funext d
  match d with
  | 0 => show n 0 = 0; omega
  | 1 => exact z1
  | 2 => exact z2

private theorem demo_translation : ∃ t, translation demoCell demoOpts ![1 / 3, 0, 0] = .ok t := by
  have h : (translation demoCell demoOpts ![1 / 3, 0, 0]).toOption.isSome = true := by decide +kernel
  cases hc : translation demoCell demoOpts ![1 / 3, 0, 0] with
  | error e => rw [hc] at h; cases h
  | ok t => exact ⟨t, rfl⟩

/-- The translation by a third is found; orbitals of the last atom come to the first one with a minus sign, and three translations are
minus the identity. -/
example : ((translation demoCell demoOpts ![1 / 3, 0, 0]).toOption.map fun t => (List.range 12).map (translate t fun x => (x : ℚ))) =
    some [-8, -9, -10, -11, 0, 1, 2, 3, 4, 5, 6, 7] := by decide +kernel
example : ∃ t, translation demoCell demoOpts ![1 / 3, 0, 0] = .ok t ∧ ∀ (a : Nat → ℚ), ∀ x < demoCell.mol.nao, (translate t)^[3] a x = -a x := by
  obtain ⟨t, h⟩ := demo_translation
  refine ⟨t, h, fun a x hx => ?_⟩
  rw [translation_power demoCell demoOpts (by decide +kernel) 3 (by exact_mod_cast demoCell_apart) ![1 / 3, 0, 0] ![1, 0, 0] ?_ t h a x hx]
  · have : crossingSign demoCell.boundary ![1, 0, 0] = -1 := by decide +kernel
    rw [this]; push_cast; ring
  · funext d
    match d with
    | 0 => decide +kernel
    | 1 => decide +kernel
    | 2 => decide +kernel
/-- Its inverse raises. -/
example : ∀ r, translationInverse demoCell ![1 / 3, 0, 0] r = .error .attributeError := by
  obtain ⟨t, h⟩ := demo_translation
  exact (translation_inverse_raises _ _ _ t h).1
/-- Translation by a half: AssertionError. -/
example : translation demoCell demoOpts ![1 / 2, 0, 0] = .error .assertionError := by
  have : (match translation demoCell demoOpts ![1 / 2, 0, 0] with | .error .assertionError => true | _ => false) = true := by decide +kernel
  revert this
  split
  · rename_i h; intro _; exact h
  · intro h; cases h

end Vayesta.Props
