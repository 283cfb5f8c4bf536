import Verif.Lemmas.Icmp2
import Mathlib.LinearAlgebra.Matrix.NonsingularInverse

/-! Fragments whose spaces for the amplitudes are exact, and their images. -/

set_option linter.unusedSectionVars false

namespace Vayesta.Icmp2
open Vayesta.Tensor

variable {K : Type} [Field K] {ι L N o v : Type} [Fintype ι] [Fintype L] [Fintype N] [Fintype o] [Fintype v]

/-- The image of a fragment. -/
def Chan.image (U : ι → ι → K) (x : Chan ι K) : Chan ι K :=
  { x with cProj := mm U x.cProj, cOcc := mm U x.cOcc, cVir := mm U x.cVir, cActive := mm U x.cActive, cActiveVir := mm U x.cActiveVir }

theorem Chan.region_image (U : ι → ι → K) (x : Chan ι K) : (x.image U).region = x.region.image U := by
  have e : ∀ {m : Type} [Fintype m] (c : ι → m → K), mm (mm U c) (tp (mm U c)) = mm U (mm (mm c (tp c)) (tp U)) := by
    intro m _ c
    simp only [tp_mm, mm_assoc]
  show Region.mk (mm (mm U x.cProj) (tp (mm U x.cProj))) (mm (mm U x.cActive) (tp (mm U x.cActive))) (mm (mm U x.cActiveVir) (tp (mm U x.cActiveVir))) = _
  rw [e, e, e]
  rfl

section
variable {A : Type} {U : ι → ι → K}

theorem sand (M : ι → ι → K) {m n : Type} (c : ι → m → K) (d : ι → n → K) :
    mm (tp (mm U c)) (mm M (mm U d)) = mm (tp c) (mm (mm (tp U) (mm M U)) d) := by
  simp only [tp_mm, mm_assoc]

end

/-- The entries of a related fragment are those it would have itself. -/
theorem related_eq [DecidableEq L] {s : Sys ι L N K} {m : Mf ι o v K} {u : Op ι L K} (h : Leaves s m u) (x : Chan ι K) :
    x.related s m.fock u = (x.image u.ao).own s m.fock := by
  have e1 : mm (tp (mm u.ao x.cProj)) (mm s.ovlp (mm u.ao x.cOcc)) = mm (tp x.cProj) (mm s.ovlp x.cOcc) := by rw [sand, h.ovlp]
  have e2 : moEnergy m.fock (mm u.ao x.cOcc) = moEnergy m.fock x.cOcc := by
    funext i
    unfold moEnergy
    rw [sand, h.fock]
  have e3 : moEnergy m.fock (mm u.ao x.cVir) = moEnergy m.fock x.cVir := by
    funext i
    unfold moEnergy
    rw [sand, h.fock]
  have e4 : (fun l => mm (tp (mm u.ao x.cOcc)) (mm (s.cderi l) (mm u.ao x.cVir))) = fun l i a => ∑ l', u.aux l l' * (x.own s m.fock).cderi l' i a := by
    funext l i a
    rw [sand, h.cderi]
    show ∑ p, x.cOcc p i * ∑ q, (∑ l', u.aux l l' * s.cderi l' p q) * x.cVir q a = ∑ l', u.aux l l' * ∑ p, x.cOcc p i * ∑ q, s.cderi l' p q * x.cVir q a
    simp only [Finset.mul_sum, Finset.sum_mul]
    have h := Fintype.sum_equiv (⟨fun x => (x.2.2, x.1, x.2.1), fun x => (x.2.1, x.2.2, x.1), fun _ => rfl, fun _ => rfl⟩ : ι × ι × L ≃ L × ι × ι)
      (fun y => x.cOcc y.1 i * (u.aux l y.2.2 * s.cderi y.2.2 y.1 y.2.1 * x.cVir y.2.1 a))
      (fun y => u.aux l y.1 * (x.cOcc y.2.1 i * (s.cderi y.1 y.2.1 y.2.2 * x.cVir y.2.2 a))) fun y => by
        dsimp only [Equiv.coe_fn_mk]
        ring
    simpa only [Fintype.sum_prod_type] using h
  have e5 : (s.neg.map fun g n => mm (tp (mm u.ao x.cOcc)) (mm (g n) (mm u.ao x.cVir))) = s.neg.map fun g n => mm (tp x.cOcc) (mm (g n) x.cVir) := by
    cases hn : s.neg with
    | none => rfl
    | some g =>
      show some _ = some _
      refine congrArg some (funext fun n => ?_)
      show mm (tp (mm u.ao x.cOcc)) (mm (g n) (mm u.ao x.cVir)) = mm (tp x.cOcc) (mm (g n) x.cVir)
      rw [sand, h.neg g hn]
  show Cl.mk _ _ _ _ _ _ = Cl.mk (mm (tp (mm u.ao x.cProj)) (mm s.ovlp (mm u.ao x.cOcc))) (moEnergy m.fock (mm u.ao x.cOcc)) (moEnergy m.fock (mm u.ao x.cVir))
    (mm u.ao x.cVir) (fun l => mm (tp (mm u.ao x.cOcc)) (mm (s.cderi l) (mm u.ao x.cVir)))
    (s.neg.map fun g n => mm (tp (mm u.ao x.cOcc)) (mm (g n) (mm u.ao x.cVir)))
  rw [e1, e2, e3, e4, e5]
  rfl

section
variable [DecidableEq o] [DecidableEq v]

private theorem comm_of {n : Type} [Fintype n] [DecidableEq n] {r : n → n → K} (h : mm (tp r) r = delta) : mm r (tp r) = delta := by
  have e : (Matrix.of (tp r) : Matrix n n K) * Matrix.of r = 1 := by
    ext i j
    have := congrFun (congrFun h i) j
    simpa [Matrix.mul_apply, mm, delta, Matrix.one_apply] using this
  have e' := mul_eq_one_comm.mp e
  funext i j
  have := congrFun (congrFun e' i) j
  simpa [Matrix.mul_apply, mm, delta, Matrix.one_apply] using this

private theorem diag_mm {n p : Type} [Fintype n] [DecidableEq n] {f : n → n → K} (hf : ∀ i j, i ≠ j → f i j = 0) (r : n → p → K) (i : n) (j : p) : mm f r i j = f i i * r i j := by
  unfold mm
  rw [Finset.sum_eq_single i]
  · intro b _ hb
    rw [hf i b (Ne.symm hb), zero_mul]
  · intro hh; exact absurd (Finset.mem_univ _) hh

private theorem mm_diag {n p : Type} [Fintype n] [DecidableEq n] {f : n → n → K} (hf : ∀ i j, i ≠ j → f i j = 0) (r : p → n → K) (i : p) (j : n) : mm r f i j = r i j * f j j := by
  unfold mm
  rw [Finset.sum_eq_single j]
  · intro b _ hb
    rw [hf b j hb, mul_zero]
  · intro hh; exact absurd (Finset.mem_univ _) hh

/-- A symmetry operation in orbitals: orthogonal, and only mixes orbitals of equal energy. -/
theorem op_orth {S F U : ι → ι → K} {n : Type} [Fintype n] [DecidableEq n] {c : ι → n → K} {r : n → n → K} (hS : mm (tp U) (mm S U) = S) (hF : mm (tp U) (mm F U) = F)
    (hc : mm (tp c) (mm S c) = delta) (hf : ∀ i j, i ≠ j → mm (tp c) (mm F c) i j = 0) (hr : mm U c = mm c r) :
    mm (tp r) r = delta ∧ mm r (tp r) = delta ∧ ∀ I J, mm (tp c) (mm F c) I I * r I J = r I J * mm (tp c) (mm F c) J J := by
  have h1 : mm (tp r) r = delta := by
    have e : mm (tp (mm U c)) (mm S (mm U c)) = delta := by rw [sand, hS, hc]
    rw [hr] at e
    have : mm (tp (mm c r)) (mm S (mm c r)) = mm (tp r) (mm (mm (tp c) (mm S c)) r) := by simp only [tp_mm, mm_assoc]
    rw [this, hc, delta_mm] at e
    exact e
  have h2 := comm_of h1
  refine ⟨h1, h2, fun I J => ?_⟩
  have e : mm (tp (mm U c)) (mm F (mm U c)) = mm (tp c) (mm F c) := by rw [sand, hF]
  rw [hr] at e
  have e' : mm (tp (mm c r)) (mm F (mm c r)) = mm (tp r) (mm (mm (tp c) (mm F c)) r) := by simp only [tp_mm, mm_assoc]
  rw [e'] at e
  have e2 : mm (mm (tp c) (mm F c)) r = mm r (mm (tp c) (mm F c)) := by
    conv_rhs => rw [← e, ← mm_assoc, h2, delta_mm]
  have := congrFun (congrFun e2 I) J
  rwa [diag_mm hf, mm_diag hf] at this

private theorem eigen_rot {n p : Type} [Fintype n] [DecidableEq n] {e : n → K} {r : n → p → K} {u : n → n → K} (h : Eigen e r) (hu : mm (tp u) u = delta)
    (he : ∀ I J, e I * u I J = u I J * e J) : Eigen e (mm u r) := by
  refine ⟨fun i => ?_, ?_⟩
  · rw [← h.norm i]
    have : mm (tp (mm u r)) (mm u r) = mm (tp r) r := by
      rw [tp_mm, mm_assoc, ← mm_assoc (tp u), hu, delta_mm]
    exact congrFun (congrFun this i) i
  · obtain ⟨e', h'⟩ := h.eig
    refine ⟨e', fun I i => ?_⟩
    unfold mm
    rw [Finset.mul_sum, Finset.sum_mul]
    refine Finset.sum_congr rfl fun J _ => ?_
    rw [← mul_assoc, he, mul_assoc, h', mul_assoc]

/-- The image of an exact fragment is exact. -/
theorem exact_image [DecidableEq L] {s : Sys ι L N K} {m : Mf ι o v K} (hs : Canonical s m) {u : Op ι L K} (hu : Leaves s m u) {x : Chan ι K}
    (h : ∃ ro rv, Exact s m x ro rv) : ∃ ro rv, Exact s m (x.image u.ao) ro rv := by
  obtain ⟨ro, rv, h⟩ := h
  obtain ⟨uo, ho⟩ := hu.occ
  obtain ⟨uv, hv⟩ := hu.vir
  obtain ⟨o1, o2, o3⟩ := op_orth hu.ovlp hu.fock hs.occ hs.fockOcc ho
  obtain ⟨v1, v2, v3⟩ := op_orth hu.ovlp hu.fock hs.vir hs.fockVir hv
  have p1 : mm u.ao x.cOcc = mm m.moOcc (mm uo ro) := by rw [h.occ, ← mm_assoc, ho, mm_assoc]
  have p2 : mm u.ao x.cVir = mm m.moVir (mm uv rv) := by rw [h.vir, ← mm_assoc, hv, mm_assoc]
  have p3 : mm (mm (tp (mm u.ao x.cProj)) (mm s.ovlp m.moOcc)) (mm (mm uo ro) (tp (mm uo ro))) = mm (tp (mm u.ao x.cProj)) (mm s.ovlp m.moOcc) := by
    have a1 : mm (mm (tp (mm u.ao x.cProj)) (mm s.ovlp m.moOcc)) uo = mm (tp x.cProj) (mm s.ovlp m.moOcc) := by
      rw [mm_assoc, mm_assoc, ← ho, sand, hu.ovlp]
    have a2 : mm (tp (mm u.ao x.cProj)) (mm s.ovlp m.moOcc) = mm (mm (tp x.cProj) (mm s.ovlp m.moOcc)) (tp uo) := by
      rw [← a1, mm_assoc, o2, mm_delta]
    have a3 : mm (mm uo ro) (tp (mm uo ro)) = mm uo (mm (mm ro (tp ro)) (tp uo)) := by simp only [tp_mm, mm_assoc]
    rw [a3, ← mm_assoc, a1, ← mm_assoc, h.covers, ← a2]
  have p4 : mm (mm uv rv) (tp (mm uv rv)) = delta := by rw [tp_mm, mm_assoc, ← mm_assoc rv, h.spans, delta_mm, v2]
  exact ⟨mm uo ro, mm uv rv, p1, p2, eigen_rot h.eigOcc o1 o3, eigen_rot h.eigVir v1 v3, p3, p4⟩

private theorem energy_of {n p : Type} [Fintype n] [DecidableEq n] {f : n → n → K} (hf : ∀ i j, i ≠ j → f i j = 0) {r : n → p → K} (h : Eigen (fun i => f i i) r) (I : n) (i : p)
    (hr : r I i ≠ 0) : f I I = mm (tp r) (mm f r) i i := by
  obtain ⟨e', h'⟩ := h.eig
  have h1 : f I I = e' i := by
    have := h' I i
    rw [mul_comm (r I i)] at this
    exact mul_right_cancel₀ hr this
  have h2 : mm (tp r) (mm f r) i i = e' i := by
    show ∑ J, r J i * mm f r J i = _
    have : ∀ J, r J i * mm f r J i = e' i * (r J i * r J i) := by
      intro J
      rw [diag_mm hf, h' J i]
      ring
    simp only [this]
    rw [← Finset.mul_sum, h.norm, mul_one]
  rw [h1, h2]

/-- Integrals of the whole system from its three-center integrals. -/
theorem whole_e (s : Sys ι L N K) (m : Mf ι o v K) : (m.whole s).e = fun i j a b =>
    contract (m.three s.cderi) (m.three s.cderi) i j a b - contractNeg (s.neg.map m.three) (s.neg.map m.three) i j a b := by
  funext i j a b
  cases hn : s.neg with
  | none => simp only [Whole.e, Mf.whole, hn]; rfl
  | some g => simp only [Whole.e, Mf.whole, hn]; rfl

/-- The entries of an exact fragment. -/
theorem own_rotated {s : Sys ι L N K} {m : Mf ι o v K} (hs : Canonical s m) {x : Chan ι K} {ro : o → x.o → K} {rv : v → x.v → K} (h : Exact s m x ro rv) :
    Rotated (m.three s.cderi) (s.neg.map m.three) (m.whole s) (x.own s m.fock) (mm (tp x.cProj) (mm s.ovlp m.moOcc)) ro rv := by
  have hB : ∀ M : ι → ι → K, mm (tp x.cOcc) (mm M x.cVir) = mm (tp ro) (mm (mm (tp m.moOcc) (mm M m.moVir)) rv) := by
    intro M
    rw [h.occ, h.vir]
    simp only [tp_mm, mm_assoc]
  refine ⟨fun l => hB _, ?_, fun {_} => ?_, fun I i hI => ?_, fun A a hA => ?_⟩
  · show s.neg.map (fun g n => mm (tp x.cOcc) (mm (g n) x.cVir)) = _
    cases s.neg with
    | none => rfl
    | some g => exact congrArg some (funext fun n => hB _)
  · show mm (mm (tp x.cProj) (mm s.ovlp x.cOcc)) (tp ro) = _
    conv_rhs => rw [← h.covers]
    rw [h.occ]
    have : ∀ {_ : Fintype x.o}, mm (mm (tp x.cProj) (mm s.ovlp (mm m.moOcc ro))) (tp ro) = mm (mm (tp x.cProj) (mm s.ovlp m.moOcc)) (mm ro (tp ro)) := by
      intro _
      simp only [mm_assoc]
    convert this
  · show mm (tp m.moOcc) (mm m.fock m.moOcc) I I = mm (tp x.cOcc) (mm m.fock x.cOcc) i i
    rw [energy_of hs.fockOcc h.eigOcc I i hI, h.occ]
    simp only [tp_mm, mm_assoc]
  · show mm (tp m.moVir) (mm m.fock m.moVir) A A = mm (tp x.cVir) (mm m.fock x.cVir) a a
    rw [energy_of hs.fockVir h.eigVir A a hA, h.vir]
    simp only [tp_mm, mm_assoc]

end

end Vayesta.Icmp2
