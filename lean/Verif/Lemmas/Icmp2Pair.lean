import Verif.Lemmas.Icmp2Exact

/-! The energy of a pair of exact fragments. -/

set_option linter.unusedSectionVars false

namespace Vayesta.Icmp2
open Vayesta.Tensor

variable {K : Type} [Field K] {ι L N o v : Type} [Fintype ι] [Fintype L] [Fintype N] [Fintype o] [Fintype v]

theorem part_dot (w : Whole o v K) (d x : Bool) (P W : o → o → K) (Q : v → v → K) : w.part d x P W Q = dot4 (w.amp d x) (L1 P (L2 W (L4 Q w.e))) := rfl

theorem part_direct (w : Whole o v K) (P W : o → o → K) (Q : v → v → K) : w.part true false P W Q = 2 * dot4 w.t (L1 P (L2 W (L4 Q w.e))) := by
  rw [part_dot, ← dot4_smul]
  congr 1
  funext i j a b
  simp [Whole.amp]

theorem part_exchange (w : Whole o v K) (P W : o → o → K) (Q : v → v → K) : w.part false true P W Q = -dot4 (sw w.t) (L1 P (L2 W (L4 Q w.e))) := by
  rw [part_dot, ← neg_one_mul, ← dot4_smul]
  congr 1
  funext i j a b
  simp [Whole.amp, sw]

theorem part_split (w : Whole o v K) (d x : Bool) (P W : o → o → K) (Q : v → v → K) :
    w.part d x P W Q = (if d then w.part true false P W Q else 0) + (if x then w.part false true P W Q else 0) := by
  have h := dot4_add (fun i j a b => if d then 2 * w.t i j a b else 0) (fun i j a b => if x then -1 * w.t i j b a else 0) (L1 P (L2 W (L4 Q w.e)))
  rw [part_dot, part_direct, part_exchange, show w.amp d x = fun i j a b => (if d then 2 * w.t i j a b else 0) + if x then -1 * w.t i j b a else 0 from ?_, h]
  · congr 1
    · cases d
      · simp [dot4]
      · simp only [if_true]
        exact dot4_smul 2 w.t _
    · cases x
      · simp [dot4]
      · simp only [if_true]
        rw [show (fun i j a b => -1 * w.t i j b a) = fun i j a b => -1 * sw w.t i j a b from rfl, dot4_smul, neg_one_mul]
  · funext i j a b
    cases x <;> simp [Whole.amp, sub_eq_add_neg]

private theorem mm_sub {m n p : Type} [Fintype n] (A : m → n → K) (B C : n → p → K) : mm A (fun i j => B i j - C i j) = fun i j => mm A B i j - mm A C i j := by
  funext i j
  simp only [mm, mul_sub, Finset.sum_sub_distrib]

private theorem sub_mm {m n p : Type} [Fintype n] (A : n → p → K) (B C : m → n → K) : mm (fun i j => B i j - C i j) A = fun i j => mm B A i j - mm C A i j := by
  funext i j
  simp only [mm, sub_mul, Finset.sum_sub_distrib]

private theorem outside_eq {a n : Type} [Fintype a] [DecidableEq n] (p : a → n → K) : outside p = fun i j => delta i j - mm (tp p) p i j := rfl

theorem tp_outside {a n : Type} [Fintype a] [DecidableEq n] (p : a → n → K) : tp (outside p) = outside p := by
  funext i j
  simp only [tp, outside, delta, eq_comm (a := i)]
  congr 1
  exact Finset.sum_congr rfl fun _ _ => mul_comm _ _

private theorem tp_delta' {n : Type} [DecidableEq n] : tp (delta : n → n → K) = delta := by
  funext i j
  simp only [tp, delta, eq_comm]

private theorem onOcc_eq {s : Sys ι L N K} (hS : tp s.ovlp = s.ovlp) {m : Mf ι o v K} (dc : Dc) (x y : Chan ι K) :
    mm (tp (mm (tp y.cProj) (mm s.ovlp m.moOcc))) (mm (dc.selOcc (outside (mm (mm (tp x.cActive) s.ovlp) y.cProj))) (mm (tp y.cProj) (mm s.ovlp m.moOcc))) =
      m.inOcc s (dc.onOcc s.ovlp x.region y.region.frag) := by
  have e0 : mm (tp (mm (tp y.cProj) (mm s.ovlp m.moOcc))) (mm delta (mm (tp y.cProj) (mm s.ovlp m.moOcc))) = m.inOcc s y.region.frag := by
    unfold Mf.inOcc Chan.region
    simp only [delta_mm, tp_mm, tp_tp, mm_assoc]
  have e1 : mm (tp (mm (tp y.cProj) (mm s.ovlp m.moOcc))) (mm (outside (mm (mm (tp x.cActive) s.ovlp) y.cProj)) (mm (tp y.cProj) (mm s.ovlp m.moOcc))) =
      m.inOcc s fun i j => y.region.frag i j - mm y.region.frag (mm s.ovlp (mm x.region.clus (mm s.ovlp y.region.frag))) i j := by
    rw [outside_eq, sub_mm, mm_sub]
    unfold Mf.inOcc
    rw [sub_mm, mm_sub]
    funext i j
    rw [e0]
    congr 1
    unfold Chan.region
    simp only [tp_mm, tp_tp, mm_assoc, hS]
  cases dc with
  | occ => exact e1
  | both => exact e1
  | vir => exact e0
  | none => exact e0

private theorem onVir_eq [DecidableEq v] {s : Sys ι L N K} (hS : tp s.ovlp = s.ovlp) {m : Mf ι o v K} (dc : Dc) (x y : Chan ι K) (rv : v → y.v → K) (hv : y.cVir = mm m.moVir rv)
    (hr : mm rv (tp rv) = delta) :
    mm rv (mm (dc.selVir (outside (mm (mm (tp x.cActiveVir) s.ovlp) y.cVir))) (tp rv)) = dc.onVir s m x.region ∧
      mm rv (mm (tp (dc.selVir (outside (mm (mm (tp x.cActiveVir) s.ovlp) y.cVir)))) (tp rv)) = dc.onVir s m x.region := by
  have e0 : mm rv (mm delta (tp rv)) = delta := by rw [delta_mm, hr]
  have e1 : mm rv (mm (outside (mm (mm (tp x.cActiveVir) s.ovlp) y.cVir)) (tp rv)) = fun a b => delta a b - m.inVir s x.region.clusVir a b := by
    rw [outside_eq, sub_mm, mm_sub, e0]
    funext a b
    congr 1
    unfold Mf.inVir Chan.region
    rw [hv]
    have : mm rv (mm (mm (tp (mm (mm (tp x.cActiveVir) s.ovlp) (mm m.moVir rv))) (mm (mm (tp x.cActiveVir) s.ovlp) (mm m.moVir rv))) (tp rv)) =
        mm (mm rv (tp rv)) (mm (mm (tp (mm s.ovlp m.moVir)) (mm (mm x.cActiveVir (tp x.cActiveVir)) (mm s.ovlp m.moVir))) (mm rv (tp rv))) := by
      simp only [tp_mm, tp_tp, mm_assoc]
    rw [this, hr, delta_mm, mm_delta]
  cases dc with
  | occ => exact ⟨e0, by rw [show (Dc.occ.selVir (outside (mm (mm (tp x.cActiveVir) s.ovlp) y.cVir))) = delta from rfl, tp_delta']; exact e0⟩
  | none => exact ⟨e0, by rw [show (Dc.none.selVir (outside (mm (mm (tp x.cActiveVir) s.ovlp) y.cVir))) = delta from rfl, tp_delta']; exact e0⟩
  | vir => exact ⟨e1, by rw [show (Dc.vir.selVir (outside (mm (mm (tp x.cActiveVir) s.ovlp) y.cVir))) = outside _ from rfl, tp_outside]; exact e1⟩
  | both => exact ⟨e1, by rw [show (Dc.both.selVir (outside (mm (mm (tp x.cActiveVir) s.ovlp) y.cVir))) = outside _ from rfl, tp_outside]; exact e1⟩

/-- The energies of a pair of exact fragments are those of the whole system. -/
theorem pair_exact [DecidableEq o] [DecidableEq v] {s : Sys ι L N K} {m : Mf ι o v K} (hs : Canonical s m) {x y : Chan ι K} (hx : ∃ ro rv, Exact s m x ro rv)
    (hy : ∃ ro rv, Exact s m y ro rv) (dc : Dc) (vers : Int) (hv : (vers = 1 ∨ vers = 2) ∨ dc = .both ∨ dc = .none) (tag : Tag K) :
    pair s m.fock dc vers x ⟨tag, y.cProj, y.own s m.fock⟩ =
      (pairEnergy s m true false dc x.region y.region, pairEnergy s m false true dc x.region y.region) := by
  obtain ⟨rox, rvx, hx⟩ := hx
  obtain ⟨roy, rvy, hy⟩ := hy
  have hg := whole_e s m
  have rx := own_rotated hs hx
  have ry := own_rotated hs hy
  have et := project_amps hg rx ry
  have ee := project_eris hg rx ry
  have es : mm (mm (tp x.cVir) s.ovlp) y.cVir = mm (tp rvx) rvy := by
    rw [hx.vir, hy.vir]
    have : mm (mm (tp (mm m.moVir rvx)) s.ovlp) (mm m.moVir rvy) = mm (tp rvx) (mm (mm (tp m.moVir) (mm s.ovlp m.moVir)) rvy) := by simp only [tp_mm, mm_assoc]
    rw [this, hs.vir, delta_mm]
  have ho := onOcc_eq (m := m) hs.symm dc x y
  have hvv := onVir_eq (m := m) hs.symm dc x y rvy hy.vir hy.spans
  have hP : mm (tp (mm (tp x.cProj) (mm s.ovlp m.moOcc))) (mm (tp x.cProj) (mm s.ovlp m.moOcc)) = m.inOcc s x.region.frag := by
    unfold Mf.inOcc Chan.region
    simp only [tp_mm, tp_tp, mm_assoc]
  unfold pair pairEnergy
  dsimp only
  show (direct dc vers (project (x.own s m.fock) (y.own s m.fock) (divide (x.own s m.fock) (y.own s m.fock) (eris (x.own s m.fock) (y.own s m.fock))))
      (project (x.own s m.fock) (y.own s m.fock) (eris (x.own s m.fock) (y.own s m.fock))) (outside (mm (mm (tp x.cActive) s.ovlp) y.cProj))
      (outside (mm (mm (tp x.cActiveVir) s.ovlp) y.cVir)) (mm (mm (tp x.cVir) s.ovlp) y.cVir),
    exchange dc (project (x.own s m.fock) (y.own s m.fock) (divide (x.own s m.fock) (y.own s m.fock) (eris (x.own s m.fock) (y.own s m.fock))))
      (project (x.own s m.fock) (y.own s m.fock) (eris (x.own s m.fock) (y.own s m.fock))) (outside (mm (mm (tp x.cActive) s.ovlp) y.cProj))
      (outside (mm (mm (tp x.cActiveVir) s.ovlp) y.cVir)) (mm (mm (tp x.cVir) s.ovlp) y.cVir)) = _
  rw [et, ee, es, part_direct, part_exchange]
  refine Prod.ext ?_ ?_
  · dsimp only
    by_cases h1 : vers = 1 ∨ dc = .both ∨ dc = .none
    · rw [direct_one dc vers h1, direct_rot _ _ _ _ _ _ hx.spans, ho, hvv.1, hP]
    · push Not at h1
      have h2 : vers = 2 := by
        rcases hv with (h | h) | h
        · exact absurd h h1.1
        · exact h
        · exact absurd h (by rintro (h | h); exacts [h1.2.1 h, h1.2.2 h])
      have h3 : dc = .occ ∨ dc = .vir := by
        cases dc with
        | occ => exact .inl rfl
        | vir => exact .inr rfl
        | both => exact absurd rfl h1.2.1
        | none => exact absurd rfl h1.2.2
      subst h2
      rw [direct_two dc h3, direct_rot_two _ _ _ _ _ _ hx.spans hy.spans, ho, hvv.1, hP]
  · dsimp only
    rw [exchange_eq, exchange_rot _ _ _ _ _ _ hx.spans hy.spans, ho, hvv.2, hP]

end Vayesta.Icmp2
