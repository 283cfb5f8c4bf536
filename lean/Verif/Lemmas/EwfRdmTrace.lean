import Verif.Lemmas.EwfRdmProj

/-! Traces of density matrices, errors, and amplitudes of fragments closed under symmetry, for `Verif/Model/EwfRdm.lean`. -/

set_option linter.unusedSectionVars false

namespace Vayesta.EwfRdm
open Vayesta.Amplitudes Vayesta.Tensor Vayesta.Props

variable {K : Type} [Field K] {ι o v : Type} [Fintype ι] [Fintype o] [Fintype v]

theorem accumulate_inv {α M : Type*} [AddMonoid M] (P : M → Prop) (h0 : P 0) (ha : ∀ a b, P a → P b → P (a + b)) (f : α → Except PyErr M) (l : List α)
    (h : ∀ x ∈ l, ∀ c, f x = .ok c → P c) : ∀ d, accumulate f l = .ok d → P d := by
  suffices H : ∀ (l : List α) (acc : M), P acc → (∀ x ∈ l, ∀ c, f x = .ok c → P c) → ∀ d,
      l.foldlM (fun acc x => do let c ← f x; pure (acc + c)) acc = (.ok d : Except PyErr M) → P d from H l 0 h0 h
  intro l
  induction l with
  | nil => intro acc ha _ d hd; cases hd; exact ha
  | cons x l ih =>
    intro acc hacc hl d hd
    rw [List.foldlM_cons] at hd
    cases hx : f x with
    | error e => rw [hx] at hd; cases hd
    | ok c =>
      rw [hx] at hd
      exact ih (acc + c) (ha _ _ hacc (hl x (by simp) c hx)) (fun y hy => hl y (by simp [hy])) d hd

theorem accumulate_err {α M : Type*} [AddMonoid M] (e : PyErr) (f : α → Except PyErr M) (l : List α) (h : ∀ x ∈ l, (∃ c, f x = .ok c) ∨ f x = .error e)
    (hx : ∃ x ∈ l, f x = .error e) : accumulate f l = .error e := by
  suffices H : ∀ (l : List α) (acc : M), (∀ x ∈ l, (∃ c, f x = .ok c) ∨ f x = .error e) → (∃ x ∈ l, f x = .error e) →
      l.foldlM (fun acc x => do let c ← f x; pure (acc + c)) acc = (.error e : Except PyErr M) from H l 0 h hx
  intro l
  induction l with
  | nil => rintro _ _ ⟨x, hx, -⟩; cases hx
  | cons x l ih =>
    intro acc hl ⟨y, hy, hye⟩
    rw [List.foldlM_cons]
    cases hx : f x with
    | error e' =>
      rcases hl x (by simp) with ⟨c, hc⟩ | hc
      · rw [hx] at hc; cases hc
      · rw [hx] at hc; cases hc; rfl
    | ok c =>
      refine ih (acc + c) (fun z hz => hl z (by simp [hz])) ?_
      rcases List.mem_cons.1 hy with rfl | hy
      · rw [hx] at hye; cases hye
      · exact ⟨y, hy, hye⟩

/-! ### Traces -/

def trc {n : Type} [Fintype n] (A : n → n → K) : K := ∑ i, A i i

theorem trc_comm {m n : Type} [Fintype m] [Fintype n] (A : m → n → K) (B : n → m → K) : trc (mm A B) = trc (mm B A) := by
  show ∑ i, ∑ j, A i j * B j i = ∑ j, ∑ i, B j i * A i j
  rw [Finset.sum_comm]
  exact Finset.sum_congr rfl fun _ _ => Finset.sum_congr rfl fun _ _ => mul_comm _ _

theorem trc_add {n : Type} [Fintype n] (A B : n → n → K) : trc (A + B) = trc A + trc B := Finset.sum_add_distrib
theorem trc_zero {n : Type} [Fintype n] : trc (0 : n → n → K) = 0 := Finset.sum_const_zero

/-- Both diagonal blocks have the same trace, up to sign. -/
def Bal {M : Type} (d : (o → o → K) × (v → v → K) × M) : Prop := trc d.1 + trc d.2.1 = 0

theorem bal_add {M : Type} [Add M] (a b : (o → o → K) × (v → v → K) × M) (ha : Bal a) (hb : Bal b) : Bal (a + b) := by
  show trc (a.1 + b.1) + trc (a.2.1 + b.2.1) = 0
  rw [trc_add, trc_add, add_add_add_comm, ha, hb, add_zero]

theorem trc_combine (wt : Bool) (t1 l1 : T1 o v K) (d : (o → o → K) × (v → v → K) × (o → v → K)) (h : Bal d) : ∑ p, combine wt t1 l1 d p p = 0 := by
  have h' : (∑ i, d.1 i i) + ∑ a, d.2.1 a a = 0 := h
  rw [Fintype.sum_sum_type]
  cases wt with
  | false =>
    show (∑ i, (d.1 i i + d.1 i i)) + ∑ a, (d.2.1 a a + d.2.1 a a) = 0
    rw [Finset.sum_add_distrib, Finset.sum_add_distrib, add_add_add_comm, h', add_zero]
  | true =>
    show (∑ i, (d.1 i i - (∑ a, t1 i a * l1 i a) + (d.1 i i - ∑ a, t1 i a * l1 i a))) +
      ∑ a, (d.2.1 a a + (∑ i, t1 i a * l1 i a) + (d.2.1 a a + ∑ i, t1 i a * l1 i a)) = 0
    simp only [Finset.sum_add_distrib, Finset.sum_sub_distrib]
    rw [Finset.sum_comm (f := fun a i => t1 i a * l1 i a)]
    linear_combination 2 * h'

theorem blocks_symm {o v : Type} (oo : o → o → K) (ov : o → v → K) (vv : v → v → K) (ho : tp oo = oo) (hv : tp vv = vv) : tp (blocks oo ov vv) = blocks oo ov vv := by
  funext p q
  rcases p with i | a <;> rcases q with j | b
  · exact congrFun (congrFun ho i) j
  · rfl
  · rfl
  · exact congrFun (congrFun hv a) b

theorem combine_symm (wt : Bool) (t1 l1 : T1 o v K) (d : (o → o → K) × (v → v → K) × (o → v → K)) : tp (combine wt t1 l1 d) = combine wt t1 l1 d := by
  cases wt
  · exact blocks_symm _ _ _ (by funext i j; exact add_comm _ _) (by funext i j; exact add_comm _ _)
  · exact blocks_symm _ _ _ (by funext i j; exact add_comm _ _) (by funext i j; exact add_comm _ _)

theorem makeRdm1_symm {o v : Type} (g : Gamma1 o v K) : tp (makeRdm1 g) = makeRdm1 g :=
  blocks_symm _ _ _ (by funext i j; exact add_comm _ _) (by funext i j; exact add_comm _ _)

theorem trc_gamma {c d : Type} [Fintype c] [Fintype d] (t1 : T1 c d K) (t2 : T2 c c d d K) (l1 : T1 c d K) (l2 : T2 c c d d K) (dvo : d → c → K) :
    trc (makeRdm1 { gamma1 t1 t2 l1 l2 with dvo := dvo }) = 0 := by
  unfold trc
  rw [Fintype.sum_sum_type]
  show (∑ i, (-(∑ a, t1 i a * l1 i a) - (∑ k, ∑ a, ∑ b, theta t2 i k a b * l2 i k a b) + (-(∑ a, t1 i a * l1 i a) - ∑ k, ∑ a, ∑ b, theta t2 i k a b * l2 i k a b))) +
    ∑ a, ((∑ i, t1 i a * l1 i a) + (∑ j, ∑ i, ∑ c, theta t2 j i c a * l2 j i c a) + ((∑ i, t1 i a * l1 i a) + ∑ j, ∑ i, ∑ c, theta t2 j i c a * l2 j i c a)) = 0
  have e : (∑ a, ∑ j, ∑ i, ∑ c, theta t2 j i c a * l2 j i c a) = ∑ i, ∑ k, ∑ a, ∑ b, theta t2 i k a b * l2 i k a b := by
    rw [Finset.sum_comm]
    refine Finset.sum_congr rfl fun j _ => ?_
    rw [Finset.sum_comm]
    refine Finset.sum_congr rfl fun i _ => ?_
    rw [Finset.sum_comm]
  simp only [Finset.sum_add_distrib, Finset.sum_sub_distrib, Finset.sum_neg_distrib]
  rw [e, Finset.sum_comm (f := fun a i => t1 i a * l1 i a)]
  ring

theorem trc_cc (t1 l1 : T1 o v K) (t2 l2 : T2 o o v v K) : ∑ p, ccRdm1 t1 t2 l1 l2 p p = 0 := by
  rw [← combine_eq]
  refine trc_combine _ _ _ _ ?_
  show (∑ i, -dotO (theta t2) l2 i i) + ∑ a, dotV (theta t2) l2 a a = 0
  rw [Finset.sum_neg_distrib]
  have e : ∑ a, dotV (theta t2) l2 a a = ∑ i, dotO (theta t2) l2 i i := by
    show (∑ a, ∑ j, ∑ i, ∑ c, theta t2 j i c a * l2 j i c a) = ∑ i, ∑ k, ∑ a, ∑ b, theta t2 i k a b * l2 i k a b
    rw [Finset.sum_comm]
    refine Finset.sum_congr rfl fun j _ => ?_
    rw [Finset.sum_comm]
    refine Finset.sum_congr rfl fun i _ => ?_
    rw [Finset.sum_comm]
  rw [e]; ring

/-- Trace of a contribution of a pair, amplitudes symmetrised before. -/
theorem pairEarly_trc {c d c' d' : Type} [Fintype c] [Fintype d] [Fintype c'] [Fintype d'] (svd : Option (∀ m n : Type, (m → n → K) → Factors m n K))
    (th : T2 c c d d K) (l2 : T2 c' c' d' d' K) (co : o → c → K) (cv : v → d → K) (cyo : o → c' → K) (cyv : v → d' → K) :
    trc (mm co (pairEarly svd th l2 (mm (tp co) cyo) (mm (tp cv) cyv) cyo cyv).1) +
      trc (mm cv (pairEarly svd th l2 (mm (tp co) cyo) (mm (tp cv) cyv) cyo cyv).2) = 0 := by
  unfold pairEarly
  dsimp only
  generalize tmpEarly svd th l2 (mm (tp co) cyo) (mm (tp cv) cyv) = tmp
  have h : ∀ {m n n' : Type} [Fintype m] [Fintype n] [Fintype n'] (C : m → n → K) (X : n → n' → K) (D : m → n' → K), trc (mm C (mm X (tp D))) = ∑ i, ∑ j, X i j * mm (tp C) D i j := by
    intro m n n' _ _ _ C X D
    rw [trc_comm, mm_assoc]
    refine Finset.sum_congr rfl fun i _ => Finset.sum_congr rfl fun j _ => ?_
    congr 1
    exact Finset.sum_congr rfl fun _ _ => mul_comm _ _
  rw [h, h]
  have e1 : (∑ i, ∑ j, (-∑ b, ∑ b', tmp i j b b' * mm (tp cv) cyv b b') * mm (tp co) cyo i j) =
      -∑ i, ∑ j, ∑ b, ∑ b', tmp i j b b' * mm (tp cv) cyv b b' * mm (tp co) cyo i j := by
    simp only [neg_mul, Finset.sum_neg_distrib, Finset.sum_mul]
  have e2 : (∑ b, ∑ b', (∑ i, ∑ j, tmp i j b b' * mm (tp co) cyo i j) * mm (tp cv) cyv b b') =
      ∑ i, ∑ j, ∑ b, ∑ b', tmp i j b b' * mm (tp cv) cyv b b' * mm (tp co) cyo i j := by
    simp only [Finset.sum_mul]
    have s1 : ∀ F : d → d' → c → c' → K, (∑ b, ∑ b', ∑ i, ∑ j, F b b' i j) = ∑ i, ∑ j, ∑ b, ∑ b', F b b' i j := by
      intro F
      have a := Finset.sum_comm (s := (Finset.univ : Finset (d × d'))) (t := (Finset.univ : Finset (c × c'))) (f := fun p q => F p.1 p.2 q.1 q.2)
      simpa only [Fintype.sum_prod_type] using a
    rw [s1]
    exact Finset.sum_congr rfl fun _ _ => Finset.sum_congr rfl fun _ _ => Finset.sum_congr rfl fun _ _ => Finset.sum_congr rfl fun _ _ => by ring
  rw [e1, e2]
  ring

theorem bind_pure_ok {A B : Type} (e : Except PyErr A) (F : A → B) {d : B} (h : (do let a ← e; pure (F a)) = (.ok d : Except PyErr B)) : ∃ a, F a = d := by
  cases e with
  | error e => cases h
  | ok a => exact ⟨a, Except.ok.inj h⟩

theorem bind_pure_ok' {A B : Type} (e : Except PyErr A) (F : A → B) {d : B} (h : (do let a ← e; pure (F a)) = (.ok d : Except PyErr B)) :
    ∃ a, e = .ok a ∧ F a = d := by
  cases e with
  | error e => cases h
  | ok a => exact ⟨a, rfl, Except.ok.inj h⟩

theorem map_ok {A B : Type} (e : Except PyErr A) (F : A → B) {d : B} (h : e.map F = (.ok d : Except PyErr B)) : ∃ a, e = .ok a ∧ F a = d := by
  cases e with
  | error e => cases h
  | ok a => exact ⟨a, rfl, Except.ok.inj h⟩

theorem pairTerm_trc (s : Mf ι o v K) (w : Opts K) (hw : w.late = false) (x y : Frag ι K) (u : Option (ι → ι → K)) (d : (x.co → o → K) × (x.cv → v → K))
    (h : pairTerm s w x y u = .ok d) : trc (mm (x.mco s) d.1) + trc (mm (x.mcv s) d.2) = 0 := by
  unfold pairTerm at h
  dsimp only at h
  rw [hw] at h
  split_ifs at h with h1 h3
  · cases h
    have e : ∀ {m n : Type} [Fintype m] [Fintype n] (C : m → n → K), trc (mm C 0) = 0 := by intro m n _ _ C; simp [trc, mm]
    show trc (mm _ 0) + trc (mm _ 0) = 0
    rw [e, e, add_zero]
  · exact absurd h3 (by simp)
  · obtain ⟨l2, hl⟩ := bind_pure_ok _ _ h
    have := pairEarly_trc w.svd (theta (restored (x.px s) x.t2)) (restored (y.px s) l2) (x.mco s) (x.mcv s)
      (mm (mm (tp s.moOcc) s.ovlp) (act u y.cOcc)) (mm (mm (tp s.moVir) s.ovlp) (act u y.cVir))
    rw [hl] at this
    exact this

theorem xInt_trc (s : Mf ι o v K) (w : Opts K) (hw : w.late = false) (l : List (Frag ι K)) (x : Frag ι K) (d : (x.co → o → K) × (x.cv → v → K))
    (h : xIntermediates s w l x = .ok d) : trc (mm (x.mco s) d.1) + trc (mm (x.mcv s) d.2) = 0 := by
  have h0 : trc (mm (x.mco s) (0 : (x.co → o → K) × (x.cv → v → K)).1) + trc (mm (x.mcv s) (0 : (x.co → o → K) × (x.cv → v → K)).2) = 0 := by
    have e : ∀ {m n : Type} [Fintype m] [Fintype n] (C : m → n → K), trc (mm C 0) = 0 := by intro m n _ _ C; simp [trc, mm]
    show trc (mm _ 0) + trc (mm _ 0) = 0
    rw [e, e, add_zero]
  have ha : ∀ a b : (x.co → o → K) × (x.cv → v → K), trc (mm (x.mco s) a.1) + trc (mm (x.mcv s) a.2) = 0 →
      trc (mm (x.mco s) b.1) + trc (mm (x.mcv s) b.2) = 0 → trc (mm (x.mco s) (a + b).1) + trc (mm (x.mcv s) (a + b).2) = 0 := by
    intro a b ha hb
    show trc (mm _ (a.1 + b.1)) + trc (mm _ (a.2 + b.2)) = 0
    rw [mm_add_r, mm_add_r, trc_add, trc_add, add_add_add_comm, ha, hb, add_zero]
  exact accumulate_inv (fun d : (x.co → o → K) × (x.cv → v → K) => trc (mm (x.mco s) d.1) + trc (mm (x.mcv s) d.2) = 0) h0 ha _ _
    (fun y _ c hc => accumulate_inv (fun d : (x.co → o → K) × (x.cv → v → K) => trc (mm (x.mco s) d.1) + trc (mm (x.mcv s) d.2) = 0) h0 ha _ _ (fun u _ c' hc' => pairTerm_trc s w hw x y u c' hc') c hc) d h

theorem trc_conj {n : Type} [Fintype n] [DecidableEq n] {D : n → n → K} (hD : mm (tp D) D = delta) (A : n → n → K) : trc (mm D (mm A (tp D))) = trc A := by
  rw [trc_comm, mm_assoc, hD, mm_delta]

section
variable [DecidableEq o] [DecidableEq v] {s : Mf ι o v K}

theorem xTerm_trc {w : Opts K} (hw : w.late = false) {l : List (Frag ι K)} {l1 : T1 o v K} {x : Frag ι K}
    (hs : w.useSym = true → Orthonormal s ∧ ∀ u ∈ x.ops, Operation s u) (d : (o → o → K) × (v → v → K) × (o → v → K))
    (h : xTerm s w l l1 x = .ok d) : Bal d := by
  unfold xTerm at h
  cases hx : xIntermediates s w l x with
  | error e => rw [hx] at h; cases h
  | ok d' =>
    rw [hx] at h
    cases h
    have hb := xInt_trc s w hw l x d' hx
    show trc (mm (x.mco s) d'.1 + _) + trc (mm (x.mcv s) d'.2 + _) = 0
    rw [trc_add, trc_add, add_add_add_comm, hb, zero_add]
    have key : ∀ p : (o → o → K) × (v → v → K), p ∈ ((if w.useSym then x.ops else []).map fun u : ι → ι → K =>
      (mm (mm (tp s.moOcc) s.ovlp) (mm (mm u x.cOcc) (mm (mm (mm d'.1 (tp s.moOcc)) (tp u)) (tp (mm (tp s.moOcc) s.ovlp)))),
        mm (mm (tp s.moVir) s.ovlp) (mm (mm u x.cVir) (mm (mm (mm d'.2 (tp s.moVir)) (tp u)) (tp (mm (tp s.moVir) s.ovlp)))))) → trc p.1 + trc p.2 = 0 := by
      intro p hp
      obtain ⟨u, hu, rfl⟩ := List.mem_map.1 hp
      cases hsym : w.useSym with
      | false => rw [hsym] at hu; simp at hu
      | true =>
        rw [hsym] at hu
        obtain ⟨ho, hop⟩ := hs hsym
        have hu' := hop u (by simpa using hu)
        have hr : ∀ {n : Type} (c : ι → n → K), tp (rep s u c) = mm (tp c) (mm (tp u) (mm s.ovlp c)) := by
          intro n c
          rw [rep, tp_mm, tp_mm, tp_mm, ho.ovlp, tp_tp, mm_assoc, mm_assoc]
        dsimp only
        have e1 : mm (mm (tp s.moOcc) s.ovlp) (mm (mm u x.cOcc) (mm (mm (mm d'.1 (tp s.moOcc)) (tp u)) (tp (mm (tp s.moOcc) s.ovlp)))) =
            mm (rep s u s.moOcc) (mm (mm (x.mco s) d'.1) (tp (rep s u s.moOcc))) := by
          rw [hr, ← mm_assoc (rep s u s.moOcc), ← mm_assoc (rep s u s.moOcc) (x.mco s), ← image_mco ho hu' x, tp_mm, ho.ovlp, tp_tp]
          show _ = mm (mm (mm (tp s.moOcc) (mm s.ovlp (mm u x.cOcc))) d'.1) _
          simp only [mm_assoc]
        have e2 : mm (mm (tp s.moVir) s.ovlp) (mm (mm u x.cVir) (mm (mm (mm d'.2 (tp s.moVir)) (tp u)) (tp (mm (tp s.moVir) s.ovlp)))) =
            mm (rep s u s.moVir) (mm (mm (x.mcv s) d'.2) (tp (rep s u s.moVir))) := by
          rw [hr, ← mm_assoc (rep s u s.moVir), ← mm_assoc (rep s u s.moVir) (x.mcv s), ← image_mcv ho hu' x, tp_mm, ho.ovlp, tp_tp]
          show _ = mm (mm (mm (tp s.moVir) (mm s.ovlp (mm u x.cVir))) d'.2) _
          simp only [mm_assoc]
        rw [e1, e2, trc_conj (repO_orth ho hu'), trc_conj (repV_orth ho hu'), hb]
    have sumz : ∀ q : List ((o → o → K) × (v → v → K)), (∀ p ∈ q, trc p.1 + trc p.2 = 0) → trc q.sum.1 + trc q.sum.2 = 0 := by
      intro q
      induction q with
      | nil => intro _; show trc 0 + trc 0 = 0; rw [trc_zero, trc_zero, add_zero]
      | cons p q ih =>
        intro hq
        rw [List.sum_cons]
        show trc (p.1 + q.sum.1) + trc (p.2 + q.sum.2) = 0
        rw [trc_add, trc_add, add_add_add_comm, hq p (by simp), ih fun r hr => hq r (by simp [hr]), add_zero]
    exact sumz _ key

/-! ### Plain density matrix -/

theorem dotO_trc {p m q a : Type} [Fintype p] [Fintype m] [Fintype q] [Fintype a] (A B : p → m → q → a → K) : trc (dotO A B) = trc (dotV A B) := by
  show (∑ i, ∑ k, ∑ x, ∑ y, A i k x y * B i k x y) = ∑ y, ∑ i, ∑ k, ∑ x, A i k x y * B i k x y
  symm
  rw [Finset.sum_comm]
  refine Finset.sum_congr rfl fun j _ => ?_
  rw [Finset.sum_comm]
  refine Finset.sum_congr rfl fun i _ => ?_
  rw [Finset.sum_comm]

theorem dot_sw {p m q a : Type} [Fintype p] [Fintype m] [Fintype q] [Fintype a] (A B : p → m → q → a → K) : trc (dotV (sw A) (sw B)) = trc (dotV A B) := by
  rw [← dotO_trc, ← dotO_trc]
  refine Finset.sum_congr rfl fun i _ => Finset.sum_congr rfl fun _ _ => ?_
  rw [Finset.sum_comm]
  rfl

theorem dotO_transp {p m q a : Type} [Fintype p] [Fintype m] [Fintype q] [Fintype a] (A B : p → m → q → a → K) :
    trc (dotO (fun i j a b => A j i b a) (fun i j a b => B j i b a)) = trc (dotO A B) := by
  show (∑ i, ∑ k, ∑ x, ∑ y, A k i y x * B k i y x) = ∑ i, ∑ k, ∑ x, ∑ y, A i k x y * B i k x y
  rw [Finset.sum_comm]
  refine Finset.sum_congr rfl fun j _ => Finset.sum_congr rfl fun i _ => ?_
  rw [Finset.sum_comm]

theorem fragBlocks_trc (h2 : (2 : K) ≠ 0) (s : Mf ι o v K) (sym mp2 : Bool) (m1 : T1 o v K) (x : Frag ι K) [DecidableEq x.co] [DecidableEq x.cv]
    (ho : mm (tp (x.mco s)) (x.mco s) = delta) (hv : mm (tp (x.mcv s)) (x.mcv s) = delta) (l2 : T2 x.f x.co x.cv x.cv K) :
    Bal (fragBlocks s sym mp2 m1 x l2) := by
  have t1 : ∀ A B : x.co → x.f → x.cv → x.cv → K, trc (dotO (L1 (x.mco s) A) (L1 (x.mco s) B)) = trc (dotO A B) := by
    intro A B
    rw [dotO_L1l, dotO_L1r, trc_comm, mm_assoc, ho, mm_delta]
  have t2 : ∀ A B : x.f → x.co → x.cv → x.cv → K, trc (dotV (L4 (x.mcv s) A) (L4 (x.mcv s) B)) = trc (dotV A B) := by
    intro A B
    rw [dotV_L4l, dotV_L4r, trc_comm, mm_assoc, hv, mm_delta]
  rw [fragBlocks_eq]
  have n : ∀ A : o → o → K, trc (-A) = -trc A := fun A => Finset.sum_neg_distrib _
  have hh : ∀ a : K, (1 / 2 : K) * (a + a) = a := by intro a; field_simp; ring
  have sm : ∀ A : v → v → K, trc ((1 / 2 : K) • A) = (1 / 2 : K) * trc A := fun A => (Finset.mul_sum _ _ _).symm
  show trc (-_) + trc (if sym = true then _ else _) = 0
  rw [n, t1]
  have e : trc (dotO (transp (theta x.t2)) (transp l2)) = trc (dotV (theta x.t2) l2) := by
    rw [← dotO_trc]
    exact dotO_transp (theta x.t2) l2
  rw [e]
  cases sym with
  | true => rw [if_pos rfl, sm, trc_add, t2, t2, dot_sw, hh]; ring
  | false => rw [if_neg (by simp), t2]; ring

/-! ### Fragments closed under an operation -/

theorem image_Bl (hs : Orthonormal s) {u : ι → ι → K} (hu : Operation s u) (tl : Bool) (z : Frag ι K) :
    Bl s tl (z.image u) = L1 (rep s u s.moOcc) (L2 (rep s u s.moOcc) (L3 (rep s u s.moVir) (L4 (rep s u s.moVir) (Bl s tl z)))) := by
  have h : ∀ {c d : Type} [Fintype c] [Fintype d] (D : o → o → K) (E : v → v → K) (A : o → c → K) (B : v → d → K) (t : T2 c c d d K),
      back (mm D A) (mm E B) t = L1 D (L2 D (L3 E (L4 E (back A B t)))) := by
    intro c d _ _ D E A B t
    unfold back
    rw [L4_L1, L4_L2, L4_L3, L4_L4, L3_L1, L3_L2, L3_L3, L2_L1, L2_L2, L1_L1]
  have e : ∀ {A A' : o → z.co → K} {B B' : v → z.cv → K} {p p' : z.f → z.co → K}, A = A' → B = B' → p = p' →
      back A B (restored p (lamA tl z)) = back A' B' (restored p' (lamA tl z)) := by
    rintro A A' B B' p p' rfl rfl rfl; rfl
  exact (e (image_mco hs hu z) (image_mcv hs hu z) (image_px s z u hu.ovlp)).trans (h _ _ _ _ _)

theorem inv_of_closed (hs : Orthonormal s) {u : ι → ι → K} (hu : Operation s u) {w : Opts K} {l : List (Frag ι K)}
    (hc : ((l.flatMap Frag.family).map fun z => z.image u).Perm (l.flatMap Frag.family)) : Invariant s u (Lg s w l) := by
  have h1 : L1 (rep s u s.moOcc) (L2 (rep s u s.moOcc) (L3 (rep s u s.moVir) (L4 (rep s u s.moVir) (Lg s w l)))) = Lg s w l := by
    have hp := (hc.map (Bl s w.tAsLambda)).sum_eq
    rw [List.map_map] at hp
    unfold Lg
    conv_rhs => rw [← hp]
    rw [show (Bl s w.tAsLambda ∘ fun z => z.image u) = fun z => L1 (rep s u s.moOcc) (L2 (rep s u s.moOcc) (L3 (rep s u s.moVir) (L4 (rep s u s.moVir) (Bl s w.tAsLambda z))))
      from funext fun z => image_Bl hs hu w.tAsLambda z]
    refine map_sum_add (fun t : T2 o o v v K => L1 (rep s u s.moOcc) (L2 (rep s u s.moOcc) (L3 (rep s u s.moVir) (L4 (rep s u s.moVir) t)))) ?_ ?_ _ _
    · funext i j a b; simp [L1, L2, L3, L4]
    · intro a b
      show L1 _ (L2 _ (L3 _ (L4 _ (a + b)))) = _
      rw [L4_add, L3_add, L2_add, L1_add]
  intro i j a b
  conv_rhs => rw [← h1]
  simp only [L1, L2, L3, L4, Finset.mul_sum]

/-- Singles of a fragment in the basis of molecular orbitals. -/
def B1 (s : Mf ι o v K) (tl : Bool) (z : Frag ι K) : T1 o v K :=
  mm (z.mco s) (mm (mm (tp (z.px s)) (if tl then z.t1 else z.l1.getD 0)) (tp (z.mcv s)))

theorem t1Contrib_B1 (s : Mf ι o v K) (tl : Bool) (z : Frag ι K) (h : HasLambda tl z) : (z.toAmp s).t1Contrib (!tl) = .ok (B1 s tl z) := by
  have h3 : ∀ (c : T1 z.co z.cv K), backT1 (z.mco s) (z.mcv s) c = mm (z.mco s) (mm c (tp (z.mcv s))) := by
    intro c
    funext k e
    simp only [backT1, mm, tp, Finset.mul_sum]
    exact Finset.sum_congr rfl fun _ _ => Finset.sum_congr rfl fun _ _ => by ring
  have ht : (z.toAmp s).t1Contrib false = .ok (B1 s true z) := congrArg Except.ok (h3 (projectC1 (tr (z.px s)) z.t1))
  cases htl : tl with
  | true => exact ht
  | false =>
    rcases h with rfl | ⟨h1, h2, -⟩
    · cases htl
    · obtain ⟨l1, h2⟩ := Option.isSome_iff_exists.1 h2
      have ha : z.toAmp s = { ro := z.mco s, rv := z.mcv s, pwf := .ccsd (.proj (z.px s) z.t1 z.t2 (some l1) z.l2), tAsLambda := false } := by
        unfold Frag.toAmp; rw [h1, h2]
      have e : (z.toAmp s).t1Contrib true = .ok (backT1 (z.mco s) (z.mcv s) (projectC1 (tr (z.px s)) l1)) := by
        rw [ha]; rfl
      rw [show (!false) = true from rfl, e, h3]
      unfold B1
      rw [h2]
      rfl

theorem globT1_B1 (s : Mf ι o v K) (tl : Bool) (l : List (Frag ι K)) (h : ∀ z ∈ l.flatMap Frag.family, HasLambda tl z) :
    globT1 s (!tl) l = .ok ((l.flatMap Frag.family).map (B1 s tl)).sum := by
  have e : globT1 s (!tl) l = accumulate (fun z : Frag ι K => (z.toAmp s).t1Contrib (!tl)) (l.flatMap Frag.family) := by
    unfold globT1 globalT1 accumulate
    rw [List.foldlM_map]
    rfl
  rw [e]
  exact accumulate_ok _ _ _ fun z hz => t1Contrib_B1 s tl z (h z hz)

theorem image_B1 (hs : Orthonormal s) {u : ι → ι → K} (hu : Operation s u) (tl : Bool) (z : Frag ι K) :
    B1 s tl (z.image u) = mm (rep s u s.moOcc) (mm (B1 s tl z) (tp (rep s u s.moVir))) := by
  have e : ∀ {A A' : o → z.co → K} {B B' : v → z.cv → K} {p p' : z.f → z.co → K} (t : T1 z.f z.cv K), A = A' → B = B' → p = p' →
      mm A (mm (mm (tp p) t) (tp B)) = mm A' (mm (mm (tp p') t) (tp B')) := by
    rintro A A' B B' p p' t rfl rfl rfl; rfl
  refine (e (if tl then z.t1 else z.l1.getD 0) (image_mco hs hu z) (image_mcv hs hu z) (image_px s z u hu.ovlp)).trans ?_
  unfold B1
  rw [tp_mm]
  simp only [mm_assoc]

theorem inv1_of_closed (hs : Orthonormal s) {u : ι → ι → K} (hu : Operation s u) (tl : Bool) {l : List (Frag ι K)}
    (hc : ((l.flatMap Frag.family).map fun z => z.image u).Perm (l.flatMap Frag.family)) : Invariant1 s u ((l.flatMap Frag.family).map (B1 s tl)).sum := by
  have h1 : mm (rep s u s.moOcc) (mm ((l.flatMap Frag.family).map (B1 s tl)).sum (tp (rep s u s.moVir))) = ((l.flatMap Frag.family).map (B1 s tl)).sum := by
    have hp := (hc.map (B1 s tl)).sum_eq
    rw [List.map_map] at hp
    conv_rhs => rw [← hp]
    rw [show (B1 s tl ∘ fun z => z.image u) = fun z => mm (rep s u s.moOcc) (mm (B1 s tl z) (tp (rep s u s.moVir))) from funext fun z => image_B1 hs hu tl z]
    refine map_sum_add (fun t : T1 o v K => mm (rep s u s.moOcc) (mm t (tp (rep s u s.moVir)))) ?_ ?_ _ _
    · funext i a; simp [mm]
    · intro a b
      show mm _ (mm (a + b) _) = _
      rw [mm_add_l, mm_add_r]
  intro i a
  conv_rhs => rw [← h1]
  simp only [mm, tp, Finset.mul_sum]
  exact Finset.sum_congr rfl fun _ _ => Finset.sum_congr rfl fun _ _ => by ring

end

end Vayesta.EwfRdm
