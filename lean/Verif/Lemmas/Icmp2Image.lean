import Verif.Lemmas.Icmp2Pair

/-! The energy of a pair of fragments does not change if both are moved. -/

set_option linter.unusedSectionVars false

namespace Vayesta.Icmp2
open Vayesta.Tensor

variable {K : Type} [Field K] {ι L N o v : Type} [Fintype ι] [Fintype L] [Fintype N] [Fintype o] [Fintype v]

private theorem dot4_rotated [DecidableEq v] (uo : o → o → K) (uv : v → v → K) (huv : mm uv (tp uv) = delta) (t e : o → o → v → v → K)
    (ht : t = L1 (tp uo) (L2 (tp uo) (L3 (tp uv) (L4 (tp uv) t)))) (he : e = L1 (tp uo) (L2 (tp uo) (L3 (tp uv) (L4 (tp uv) e)))) (P W : o → o → K) (Q : v → v → K) :
    dot4 t (L1 (mm uo (mm P (tp uo))) (L2 (mm uo (mm W (tp uo))) (L4 (mm uv (mm Q (tp uv))) e))) = dot4 t (L1 P (L2 W (L4 Q e))) := by
  conv_rhs => rw [ht, he, dot4_L1, dot4_L2, dot4_L3, dot4_L4]
  refine congrArg (dot4 t) ?_
  simp only [tp_tp]
  simp only [L4_L1, L4_L2, L4_L3, L3_L1, L3_L2, L2_L1, L1_L1, L2_L2, L3_L3, L4_L4, mm_assoc]
  rw [huv, L3_delta]

private theorem contract_aux {A : Type} [Fintype A] [DecidableEq A] (c : A → A → K) (hc : mm (tp c) c = delta) (B : A → o → v → K) :
    contract (fun l i a => ∑ l', c l l' * B l' i a) (fun l i a => ∑ l', c l l' * B l' i a) = contract B B := by
  funext i j a b
  unfold contract
  have h1 : ∀ l, (∑ l', c l l' * B l' i a) * (∑ l', c l l' * B l' j b) = ∑ l', ∑ l'', (tp c l' l * c l l'') * (B l' i a * B l'' j b) := by
    intro l
    rw [Finset.sum_mul_sum]
    exact Finset.sum_congr rfl fun _ _ => Finset.sum_congr rfl fun _ _ => by unfold tp; ring
  simp only [h1]
  rw [Finset.sum_comm]
  refine Finset.sum_congr rfl fun l' _ => ?_
  rw [Finset.sum_comm]
  have h2 : ∀ l'', ∑ l, (tp c l' l * c l l'') * (B l' i a * B l'' j b) = (delta l' l'' : K) * (B l' i a * B l'' j b) := by
    intro l''
    rw [← Finset.sum_mul, ← hc]
    rfl
  simp only [h2]
  exact sum_delta l' fun l'' => B l' i a * B l'' j b

private theorem sub4' (ro : o → o → K) (rv : v → v → K) (p q : o → o → v → v → K) :
    L1 (tp ro) (L2 (tp ro) (L3 (tp rv) (L4 (tp rv) fun i j a b => p i j a b - q i j a b))) =
      fun i j a b => L1 (tp ro) (L2 (tp ro) (L3 (tp rv) (L4 (tp rv) p))) i j a b - L1 (tp ro) (L2 (tp ro) (L3 (tp rv) (L4 (tp rv) q))) i j a b := by
  funext i j a b
  simp only [L1, L2, L3, L4, mul_sub, Finset.sum_sub_distrib]

section
variable [DecidableEq L] [DecidableEq o] [DecidableEq v] {s : Sys ι L N K} {m : Mf ι o v K} {u : Op ι L K}

/-- The integrals in moved orbitals. -/
private theorem e_moved (hu : Leaves s m u) {uo : o → o → K} {uv : v → v → K} (ho : mm u.ao m.moOcc = mm m.moOcc uo) (hv : mm u.ao m.moVir = mm m.moVir uv) :
    (m.whole s).e = L1 (tp uo) (L2 (tp uo) (L3 (tp uv) (L4 (tp uv) (m.whole s).e))) := by
  have e1 : ∀ l, mm (tp uo) (mm (m.three s.cderi l) uv) = fun i a => ∑ l', u.aux l l' * m.three s.cderi l' i a := by
    intro l
    have : mm (tp uo) (mm (m.three s.cderi l) uv) = mm (tp (mm u.ao m.moOcc)) (mm (s.cderi l) (mm u.ao m.moVir)) := by
      rw [ho, hv]
      simp only [Mf.three, tp_mm, mm_assoc]
    rw [this, sand, hu.cderi]
    funext i a
    show ∑ p, m.moOcc p i * ∑ q, (∑ l', u.aux l l' * s.cderi l' p q) * m.moVir q a = ∑ l', u.aux l l' * ∑ p, m.moOcc p i * ∑ q, s.cderi l' p q * m.moVir q a
    simp only [Finset.mul_sum, Finset.sum_mul]
    have h := Fintype.sum_equiv (⟨fun x => (x.2.2, x.1, x.2.1), fun x => (x.2.1, x.2.2, x.1), fun _ => rfl, fun _ => rfl⟩ : ι × ι × L ≃ L × ι × ι)
      (fun y => m.moOcc y.1 i * (u.aux l y.2.2 * s.cderi y.2.2 y.1 y.2.1 * m.moVir y.2.1 a))
      (fun y => u.aux l y.1 * (m.moOcc y.2.1 i * (s.cderi y.1 y.2.1 y.2.2 * m.moVir y.2.2 a))) fun y => by
        dsimp only [Equiv.coe_fn_mk]
        ring
    simpa only [Fintype.sum_prod_type] using h
  have e2 : L1 (tp uo) (L2 (tp uo) (L3 (tp uv) (L4 (tp uv) (contract (m.three s.cderi) (m.three s.cderi))))) = contract (m.three s.cderi) (m.three s.cderi) := by
    rw [← contract_rot]
    rw [show (fun l => mm (tp uo) (mm (m.three s.cderi l) uv)) = _ from funext e1]
    exact contract_aux u.aux hu.aux (m.three s.cderi)
  have e3 : L1 (tp uo) (L2 (tp uo) (L3 (tp uv) (L4 (tp uv) (contractNeg (s.neg.map m.three) (s.neg.map m.three))))) =
      contractNeg (s.neg.map m.three) (s.neg.map m.three) := by
    cases hn : s.neg with
    | none =>
      funext i j a b
      simp [contractNeg, L1, L2, L3, L4]
    | some g =>
      show L1 (tp uo) (L2 (tp uo) (L3 (tp uv) (L4 (tp uv) (contract (m.three g) (m.three g))))) = contract (m.three g) (m.three g)
      rw [← contract_rot]
      have : (fun l => mm (tp uo) (mm (m.three g l) uv)) = m.three g := by
        funext l
        have : mm (tp uo) (mm (m.three g l) uv) = mm (tp (mm u.ao m.moOcc)) (mm (g l) (mm u.ao m.moVir)) := by
          rw [ho, hv]
          simp only [Mf.three, tp_mm, mm_assoc]
        rw [this, sand, hu.neg g hn]
        rfl
      rw [this]
  rw [whole_e, sub4', e2, e3]

theorem inOcc_moved (hu : Leaves s m u) {uo : o → o → K} (ho : mm u.ao m.moOcc = mm m.moOcc uo) (h2 : mm uo (tp uo) = delta) (D : ι → ι → K) :
    m.inOcc s (mm u.ao (mm D (tp u.ao))) = mm uo (mm (m.inOcc s D) (tp uo)) := by
  have e : mm (tp u.ao) (mm s.ovlp m.moOcc) = mm (mm s.ovlp m.moOcc) (tp uo) := by
    have a : mm (mm (tp u.ao) (mm s.ovlp m.moOcc)) uo = mm s.ovlp m.moOcc := by
      conv_rhs => rw [← hu.ovlp]
      simp only [mm_assoc]
      rw [ho]
    conv_rhs => rw [← a]
    rw [mm_assoc, h2, mm_delta]
  have e' : mm (tp (mm s.ovlp m.moOcc)) u.ao = mm uo (tp (mm s.ovlp m.moOcc)) := by
    have := congrArg tp e
    rw [tp_mm, tp_mm (mm s.ovlp m.moOcc), tp_tp, tp_tp] at this
    exact this
  unfold Mf.inOcc
  have e2 : mm (tp (mm s.ovlp m.moOcc)) (mm (mm u.ao (mm D (tp u.ao))) (mm s.ovlp m.moOcc)) =
      mm (mm (tp (mm s.ovlp m.moOcc)) u.ao) (mm D (mm (tp u.ao) (mm s.ovlp m.moOcc))) := by simp only [mm_assoc]
  rw [e2, e', e]
  simp only [mm_assoc]

private theorem inVir_moved (hu : Leaves s m u) {uv : v → v → K} (ho : mm u.ao m.moVir = mm m.moVir uv) (h2 : mm uv (tp uv) = delta) (D : ι → ι → K) :
    m.inVir s (mm u.ao (mm D (tp u.ao))) = mm uv (mm (m.inVir s D) (tp uv)) := by
  have e : mm (tp u.ao) (mm s.ovlp m.moVir) = mm (mm s.ovlp m.moVir) (tp uv) := by
    have a : mm (mm (tp u.ao) (mm s.ovlp m.moVir)) uv = mm s.ovlp m.moVir := by
      conv_rhs => rw [← hu.ovlp]
      simp only [mm_assoc]
      rw [ho]
    conv_rhs => rw [← a]
    rw [mm_assoc, h2, mm_delta]
  have e' : mm (tp (mm s.ovlp m.moVir)) u.ao = mm uv (tp (mm s.ovlp m.moVir)) := by
    have := congrArg tp e
    rw [tp_mm, tp_mm (mm s.ovlp m.moVir), tp_tp, tp_tp] at this
    exact this
  unfold Mf.inVir
  have e2 : mm (tp (mm s.ovlp m.moVir)) (mm (mm u.ao (mm D (tp u.ao))) (mm s.ovlp m.moVir)) =
      mm (mm (tp (mm s.ovlp m.moVir)) u.ao) (mm D (mm (tp u.ao) (mm s.ovlp m.moVir))) := by simp only [mm_assoc]
  rw [e2, e', e]
  simp only [mm_assoc]

private theorem sub_mm' {a b c : Type} [Fintype b] (A : b → c → K) (B C : a → b → K) : mm (fun i j => B i j - C i j) A = fun i j => mm B A i j - mm C A i j := by
  funext i j
  simp only [mm, sub_mul, Finset.sum_sub_distrib]

private theorem mm_sub' {a b c : Type} [Fintype b] (A : a → b → K) (B C : b → c → K) : mm A (fun i j => B i j - C i j) = fun i j => mm A B i j - mm A C i j := by
  funext i j
  simp only [mm, mul_sub, Finset.sum_sub_distrib]

private theorem onOcc_moved (hu : Leaves s m u) (dc : Dc) (X : Region ι K) (D : ι → ι → K) :
    dc.onOcc s.ovlp (X.image u.ao) (mm u.ao (mm D (tp u.ao))) = mm u.ao (mm (dc.onOcc s.ovlp X D) (tp u.ao)) := by
  have h : (fun i j => mm u.ao (mm D (tp u.ao)) i j - mm (mm u.ao (mm D (tp u.ao))) (mm s.ovlp (mm (X.image u.ao).clus (mm s.ovlp (mm u.ao (mm D (tp u.ao)))))) i j) =
      mm u.ao (mm (fun i j => D i j - mm D (mm s.ovlp (mm X.clus (mm s.ovlp D))) i j) (tp u.ao)) := by
    rw [sub_mm', mm_sub']
    funext i j
    congr 1
    have e : mm (mm u.ao (mm D (tp u.ao))) (mm s.ovlp (mm (X.image u.ao).clus (mm s.ovlp (mm u.ao (mm D (tp u.ao)))))) =
        mm u.ao (mm D (mm (mm (tp u.ao) (mm s.ovlp u.ao)) (mm X.clus (mm (mm (tp u.ao) (mm s.ovlp u.ao)) (mm D (tp u.ao)))))) := by
      show mm (mm u.ao (mm D (tp u.ao))) (mm s.ovlp (mm (mm u.ao (mm X.clus (tp u.ao))) (mm s.ovlp (mm u.ao (mm D (tp u.ao)))))) = _
      simp only [mm_assoc]
    rw [e, hu.ovlp]
    simp only [mm_assoc]
  cases dc with
  | occ => exact h
  | both => exact h
  | vir => rfl
  | none => rfl

private theorem onVir_moved (hu : Leaves s m u) {uv : v → v → K} (hv : mm u.ao m.moVir = mm m.moVir uv) (h2 : mm uv (tp uv) = delta) (dc : Dc) (X : Region ι K) :
    dc.onVir s m (X.image u.ao) = mm uv (mm (dc.onVir s m X) (tp uv)) := by
  have e0 : (delta : v → v → K) = mm uv (mm delta (tp uv)) := by rw [delta_mm, h2]
  have h : (fun a b => (delta a b : K) - m.inVir s (X.image u.ao).clusVir a b) = mm uv (mm (fun a b => delta a b - m.inVir s X.clusVir a b) (tp uv)) := by
    rw [sub_mm', mm_sub', ← e0, ← inVir_moved hu hv h2]
    rfl
  cases dc with
  | occ => exact e0
  | none => exact e0
  | vir => exact h
  | both => exact h

/-- Moving both fragments does not change their energy. -/
theorem pairEnergy_image (hs : Canonical s m) (hu : Leaves s m u) (d x : Bool) (dc : Dc) (X Y : Region ι K) :
    pairEnergy s m d x dc (X.image u.ao) (Y.image u.ao) = pairEnergy s m d x dc X Y := by
  obtain ⟨uo, ho⟩ := hu.occ
  obtain ⟨uv, hv⟩ := hu.vir
  obtain ⟨o1, o2, o3⟩ := op_orth hu.ovlp hu.fock hs.occ hs.fockOcc ho
  obtain ⟨v1, v2, v3⟩ := op_orth hu.ovlp hu.fock hs.vir hs.fockVir hv
  have he := e_moved hu ho hv
  have hE : ∀ I i : o, uo I i ≠ 0 → (m.whole s).eo I = (m.whole s).eo i := by
    intro I i h
    have := o3 I i
    rw [mul_comm (uo I i)] at this
    exact mul_right_cancel₀ h this
  have hV : ∀ I i : v, uv I i ≠ 0 → (m.whole s).ev I = (m.whole s).ev i := by
    intro I i h
    have := v3 I i
    rw [mul_comm (uv I i)] at this
    exact mul_right_cancel₀ h this
  have ht : (m.whole s).t = L1 (tp uo) (L2 (tp uo) (L3 (tp uv) (L4 (tp uv) (m.whole s).t))) := by
    funext i j a b
    have := div_rot (fun i j a b => (m.whole s).eo i + (m.whole s).eo j - (m.whole s).ev a - (m.whole s).ev b)
      (fun i j a b => (m.whole s).eo i + (m.whole s).eo j - (m.whole s).ev a - (m.whole s).ev b) uo uv uo uv (fun I J A B i j a b h1 h2 h3 h4 => by
        rw [hE I i h1, hE J j h2, hV A a h3, hV B b h4]) (m.whole s).e i j a b
    rw [← he] at this
    exact this
  have ht' : sw (m.whole s).t = L1 (tp uo) (L2 (tp uo) (L3 (tp uv) (L4 (tp uv) (sw (m.whole s).t)))) := by
    conv_lhs => rw [ht]
    rw [← L4_L3]
    rfl
  unfold pairEnergy
  rw [show (Y.image u.ao).frag = mm u.ao (mm Y.frag (tp u.ao)) from rfl, onOcc_moved hu, inOcc_moved hu ho o2,
    show (X.image u.ao).frag = mm u.ao (mm X.frag (tp u.ao)) from rfl, inOcc_moved hu ho o2, onVir_moved hu hv v2, part_split, part_split (m.whole s) d x (m.inOcc s X.frag),
    part_direct, part_direct, part_exchange, part_exchange, dot4_rotated uo uv v2 _ _ ht he, dot4_rotated uo uv v2 _ _ ht' he]

end

end Vayesta.Icmp2
