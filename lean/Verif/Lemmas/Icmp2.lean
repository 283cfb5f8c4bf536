import Verif.Spec.Icmp2
import Verif.Lemmas.CcsdTCluster

/-! The energy of a pair of fragments in rotated orbitals. -/

set_option linter.unusedSectionVars false

namespace Vayesta.Icmp2
open Vayesta.Tensor

variable {K : Type} [Field K]

section Dot
variable {I J A B I' J' A' B' : Type} [Fintype I] [Fintype J] [Fintype A] [Fintype B] [Fintype I'] [Fintype J'] [Fintype A'] [Fintype B']

/-- Contraction of two arrays. -/
def dot4 (t e : I → J → A → B → K) : K := ∑ i, ∑ j, ∑ a, ∑ b, t i j a b * e i j a b

/-- The last two axes exchanged. -/
def sw {I J A B : Type} (e : I → J → A → B → K) : I → J → B → A → K := fun i j b a => e i j a b

private theorem move {M N : Type} [Fintype M] [Fintype N] (m : M → N → K) (x : N → K) (y : M → K) :
    ∑ i, (∑ k, m i k * x k) * y i = ∑ k, x k * ∑ i, tp m k i * y i := by
  simp only [Finset.sum_mul, Finset.mul_sum, tp]
  rw [Finset.sum_comm]
  exact Finset.sum_congr rfl fun _ _ => Finset.sum_congr rfl fun _ _ => by ring

theorem dot4_eq_prod (t e : I → J → A → B → K) : dot4 t e = ∑ x : I × J × A × B, t x.1 x.2.1 x.2.2.1 x.2.2.2 * e x.1 x.2.1 x.2.2.1 x.2.2.2 := by
  unfold dot4
  simp only [Fintype.sum_prod_type]

theorem dot4_sw (t : I → J → A → B → K) (e : I → J → B → A → K) : dot4 t (sw e) = dot4 (sw t) e := by
  unfold dot4 sw
  exact Finset.sum_congr rfl fun _ _ => Finset.sum_congr rfl fun _ _ => Finset.sum_comm

theorem dot4_L4 (m : B → B' → K) (t : I → J → A → B' → K) (e : I → J → A → B → K) : dot4 (L4 m t) e = dot4 t (L4 (tp m) e) := by
  unfold dot4 L4
  exact Finset.sum_congr rfl fun _ _ => Finset.sum_congr rfl fun _ _ => Finset.sum_congr rfl fun _ _ => move _ _ _

theorem dot4_L3 (m : A → A' → K) (t : I → J → A' → B → K) (e : I → J → A → B → K) : dot4 (L3 m t) e = dot4 t (L3 (tp m) e) := by
  have h := dot4_L4 m (sw t) (sw e)
  rw [← dot4_sw] at h
  rw [show dot4 t (L3 (tp m) e) = dot4 t (sw (L4 (tp m) (sw e))) from rfl, ← h, dot4_sw]
  rfl

private theorem dot4_rot (t e : I → J → A → B → K) : dot4 t e = dot4 (fun (a : A) (b : B) (i : I) (j : J) => t i j a b) fun a b i j => e i j a b := by
  rw [dot4_eq_prod, dot4_eq_prod]
  exact Fintype.sum_equiv (⟨fun x => (x.2.2.1, x.2.2.2, x.1, x.2.1), fun x => (x.2.2.1, x.2.2.2, x.1, x.2.1), fun _ => rfl, fun _ => rfl⟩ :
    I × J × A × B ≃ A × B × I × J) _ _ fun _ => rfl

theorem dot4_L2 (m : J → J' → K) (t : I → J' → A → B → K) (e : I → J → A → B → K) : dot4 (L2 m t) e = dot4 t (L2 (tp m) e) := by
  have h := dot4_L4 m (fun (a : A) (b : B) (i : I) (j : J') => t i j a b) fun a b i j => e i j a b
  rw [dot4_rot, dot4_rot t]
  exact h

theorem dot4_L1 (m : I → I' → K) (t : I' → J → A → B → K) (e : I → J → A → B → K) : dot4 (L1 m t) e = dot4 t (L1 (tp m) e) := by
  have h := dot4_L3 m (fun (a : A) (b : B) (i : I') (j : J) => t i j a b) fun a b i j => e i j a b
  rw [dot4_rot, dot4_rot t]
  exact h

theorem dot4_add (t t' e : I → J → A → B → K) : dot4 (fun i j a b => t i j a b + t' i j a b) e = dot4 t e + dot4 t' e := by
  unfold dot4
  simp only [add_mul, Finset.sum_add_distrib]

theorem dot4_smul (c : K) (t e : I → J → A → B → K) : dot4 (fun i j a b => c * t i j a b) e = c * dot4 t e := by
  unfold dot4
  simp only [mul_assoc, ← Finset.mul_sum]

end Dot

/-! ## The energies of a pair as contractions -/

section Pair
variable {f f' v v' : Type} [Fintype f] [Fintype f'] [Fintype v] [Fintype v'] [DecidableEq f'] [DecidableEq v']

/-- The matrix that is applied to `j`. -/
def Dc.selOcc (dc : Dc) (po : f' → f' → K) : f' → f' → K :=
  match dc with
  | .occ | .both => po
  | .vir | .none => delta

/-- The matrix that is applied to `b`. -/
def Dc.selVir (dc : Dc) (pv : v' → v' → K) : v' → v' → K :=
  match dc with
  | .vir | .both => pv
  | .occ | .none => delta

private theorem tp_delta {n : Type} [DecidableEq n] : tp (delta : n → n → K) = delta := by
  funext i j
  simp only [tp, delta, eq_comm]

private theorem congr4 {I J A B : Type} [Fintype I] [Fintype J] [Fintype A] [Fintype B] {p q : I → J → A → B → K} (h : ∀ i j a b, p i j a b = q i j a b) :
    ∑ i, ∑ j, ∑ a, ∑ b, p i j a b = ∑ i, ∑ j, ∑ a, ∑ b, q i j a b :=
  Finset.sum_congr rfl fun i _ => Finset.sum_congr rfl fun j _ => Finset.sum_congr rfl fun a _ => Finset.sum_congr rfl fun b _ => h i j a b

/-- The direct energy for `vers=1`, and for every `vers` if it is not looked at. -/
theorem direct_one (dc : Dc) (vers : Int) (hv : vers = 1 ∨ dc = .both ∨ dc = .none) (t e : f → f' → v → v' → K) (po : f' → f' → K) (pv : v' → v' → K) (s : v → v' → K) :
    direct dc vers t e po pv s = 2 * dot4 t (L2 (dc.selOcc po) (L4 (dc.selVir pv) e)) := by
  cases dc with
  | occ =>
    have : vers = 1 := by simpa using hv
    subst this
    unfold direct Dc.selOcc Dc.selVir
    simp only [if_true]
    rw [L4_delta]
    refine congrArg (2 * ·) (congr4 fun i j a b => ?_)
    rw [L2, Finset.mul_sum]
    exact Finset.sum_congr rfl fun _ _ => by ring
  | vir =>
    have : vers = 1 := by simpa using hv
    subst this
    unfold direct Dc.selOcc Dc.selVir
    simp only [if_true]
    rw [L2_delta]
    refine congrArg (2 * ·) (congr4 fun i j a b => ?_)
    rw [L4, Finset.mul_sum]
    exact Finset.sum_congr rfl fun _ _ => by ring
  | both =>
    refine congrArg (2 * ·) (congr4 fun i j a b => ?_)
    unfold Dc.selOcc Dc.selVir
    rw [L2, Finset.mul_sum]
    refine Finset.sum_congr rfl fun _ _ => ?_
    rw [L4, Finset.mul_sum, Finset.mul_sum]
    exact Finset.sum_congr rfl fun _ _ => by ring
  | none =>
    unfold direct Dc.selOcc Dc.selVir
    dsimp only
    rw [L2_delta, L4_delta]
    rfl

/-- The direct energy for `vers=2`. -/
theorem direct_two (dc : Dc) (hd : dc = .occ ∨ dc = .vir) (t e : f → f' → v → v' → K) (po : f' → f' → K) (pv : v' → v' → K) (s : v → v' → K) :
    direct dc 2 t e po pv s = 2 * dot4 t (L2 (dc.selOcc po) (L3 (mm s (tp s)) (L4 (dc.selVir pv) e))) := by
  rcases hd with rfl | rfl
  · unfold direct Dc.selOcc Dc.selVir
    simp only [if_neg (show ¬ (2 : Int) = 1 by decide), if_true]
    rw [L4_delta]
    refine congrArg (2 * ·) (congr4 fun i j a b => ?_)
    rw [L2, Finset.mul_sum]
    refine Finset.sum_congr rfl fun _ _ => ?_
    rw [L3, Finset.mul_sum, Finset.mul_sum]
    refine Finset.sum_congr rfl fun _ _ => ?_
    unfold mm tp
    rw [Finset.sum_mul, Finset.mul_sum, Finset.mul_sum]
    exact Finset.sum_congr rfl fun _ _ => by ring
  · unfold direct Dc.selOcc Dc.selVir
    simp only [if_neg (show ¬ (2 : Int) = 1 by decide), if_true]
    rw [L2_delta]
    refine congrArg (2 * ·) (congr4 fun i j a b => ?_)
    rw [L3, Finset.mul_sum]
    refine Finset.sum_congr rfl fun _ _ => ?_
    rw [L4, Finset.mul_sum, Finset.mul_sum]
    refine Finset.sum_congr rfl fun _ _ => ?_
    unfold mm tp
    rw [Finset.sum_mul, Finset.mul_sum]
    exact Finset.sum_congr rfl fun _ _ => by ring

/-- The exchange energy. -/
theorem exchange_eq (dc : Dc) (t e : f → f' → v → v' → K) (po : f' → f' → K) (pv : v' → v' → K) (s : v → v' → K) :
    exchange dc t e po pv s = -dot4 t (sw (L2 (dc.selOcc po) (L3 (tp s) (L4 (mm s (tp (dc.selVir pv))) e)))) := by
  cases dc with
  | occ =>
    refine congrArg (-·) (congr4 fun i j a b => ?_)
    unfold Dc.selOcc Dc.selVir
    dsimp only
    rw [tp_delta, mm_delta]
    show _ = t i j a b * L2 po (L3 (tp s) (L4 s e)) i j b a
    rw [L2, Finset.mul_sum]
    refine Finset.sum_congr rfl fun _ _ => ?_
    rw [L3, Finset.mul_sum, Finset.mul_sum]
    refine Finset.sum_congr rfl fun _ _ => ?_
    rw [L4, Finset.mul_sum, Finset.mul_sum, Finset.mul_sum]
    exact Finset.sum_congr rfl fun _ _ => by unfold tp; ring
  | vir =>
    refine congrArg (-·) (congr4 fun i j a b => ?_)
    unfold Dc.selOcc Dc.selVir
    dsimp only
    rw [L2_delta]
    show _ = t i j a b * L3 (tp s) (L4 (mm s (tp pv)) e) i j b a
    rw [L3, Finset.mul_sum]
    refine Finset.sum_congr rfl fun _ _ => ?_
    rw [L4, Finset.mul_sum, Finset.mul_sum]
    refine Finset.sum_congr rfl fun _ _ => ?_
    unfold mm
    rw [Finset.sum_mul, Finset.mul_sum, Finset.mul_sum]
    exact Finset.sum_congr rfl fun _ _ => by unfold tp; ring
  | both =>
    refine congrArg (-·) (congr4 fun i j a b => ?_)
    unfold Dc.selOcc Dc.selVir
    dsimp only
    show _ = t i j a b * L2 po (L3 (tp s) (L4 (mm s (tp pv)) e)) i j b a
    rw [L2, Finset.mul_sum]
    refine Finset.sum_congr rfl fun _ _ => ?_
    rw [L3, Finset.mul_sum, Finset.mul_sum]
    refine Finset.sum_congr rfl fun _ _ => ?_
    rw [L4, Finset.mul_sum, Finset.mul_sum, Finset.mul_sum]
    refine Finset.sum_congr rfl fun _ _ => ?_
    unfold mm
    rw [Finset.sum_mul, Finset.mul_sum, Finset.mul_sum, Finset.mul_sum]
    exact Finset.sum_congr rfl fun _ _ => by unfold tp; ring
  | none =>
    refine congrArg (-·) (congr4 fun i j a b => ?_)
    unfold Dc.selOcc Dc.selVir
    dsimp only
    rw [L2_delta, tp_delta, mm_delta]
    show _ = t i j a b * L3 (tp s) (L4 s e) i j b a
    rw [L3, Finset.mul_sum]
    refine Finset.sum_congr rfl fun _ _ => ?_
    rw [L4, Finset.mul_sum, Finset.mul_sum]
    exact Finset.sum_congr rfl fun _ _ => by unfold tp; ring

end Pair

/-! ## In rotated orbitals -/

section Rot
variable {o v f f' x x' : Type} [Fintype o] [Fintype v] [Fintype f] [Fintype f'] [Fintype x] [Fintype x'] [DecidableEq v]

/-- Direct energy of arrays which are those of the whole system with projected occupied and rotated virtual orbitals. -/
theorem direct_rot (t e : o → o → v → v → K) (wx : f → o → K) (wy : f' → o → K) (rx : v → x → K) (ry : v → x' → K) (hx : mm rx (tp rx) = delta)
    (po : f' → f' → K) (pv : x' → x' → K) :
    dot4 (L1 wx (L2 wy (L3 (tp rx) (L4 (tp ry) t)))) (L2 po (L4 pv (L1 wx (L2 wy (L3 (tp rx) (L4 (tp ry) e)))))) =
      dot4 t (L1 (mm (tp wx) wx) (L2 (mm (tp wy) (mm po wy)) (L4 (mm ry (mm pv (tp ry))) e))) := by
  rw [dot4_L1, dot4_L2, dot4_L3, dot4_L4]
  refine congrArg (dot4 t) ?_
  simp only [tp_tp]
  simp only [L4_L1, L4_L2, L4_L3, L3_L1, L3_L2, L2_L1, L1_L1, L2_L2, L3_L3, L4_L4, mm_assoc]
  rw [hx, L3_delta]

theorem direct_rot_two [DecidableEq x'] (t e : o → o → v → v → K) (wx : f → o → K) (wy : f' → o → K) (rx : v → x → K) (ry : v → x' → K) (hx : mm rx (tp rx) = delta)
    (hy : mm ry (tp ry) = delta) (po : f' → f' → K) (pv : x' → x' → K) :
    dot4 (L1 wx (L2 wy (L3 (tp rx) (L4 (tp ry) t))))
        (L2 po (L3 (mm (mm (tp rx) ry) (tp (mm (tp rx) ry))) (L4 pv (L1 wx (L2 wy (L3 (tp rx) (L4 (tp ry) e))))))) =
      dot4 t (L1 (mm (tp wx) wx) (L2 (mm (tp wy) (mm po wy)) (L4 (mm ry (mm pv (tp ry))) e))) := by
  rw [dot4_L1, dot4_L2, dot4_L3, dot4_L4]
  refine congrArg (dot4 t) ?_
  simp only [tp_tp, tp_mm]
  simp only [L4_L1, L4_L2, L4_L3, L3_L1, L3_L2, L2_L1, L1_L1, L2_L2, L3_L3, L4_L4, mm_assoc]
  have e : mm rx (mm (tp rx) (mm ry (mm (tp ry) (mm rx (tp rx))))) = delta := by
    rw [hx, mm_delta, hy, mm_delta, hx]
  rw [e, L3_delta]

/-- Exchange energy of these arrays. -/
theorem exchange_rot (t e : o → o → v → v → K) (wx : f → o → K) (wy : f' → o → K) (rx : v → x → K) (ry : v → x' → K) (hx : mm rx (tp rx) = delta)
    (hy : mm ry (tp ry) = delta) (po : f' → f' → K) (pv : x' → x' → K) :
    dot4 (L1 wx (L2 wy (L3 (tp rx) (L4 (tp ry) t))))
        (sw (L2 po (L3 (tp (mm (tp rx) ry)) (L4 (mm (mm (tp rx) ry) (tp pv)) (L1 wx (L2 wy (L3 (tp rx) (L4 (tp ry) e)))))))) =
      dot4 (sw t) (L1 (mm (tp wx) wx) (L2 (mm (tp wy) (mm po wy)) (L4 (mm ry (mm (tp pv) (tp ry))) e))) := by
  rw [dot4_sw]
  have e1 : sw (L1 wx (L2 wy (L3 (tp rx) (L4 (tp ry) t)))) = L1 wx (L2 wy (L4 (tp rx) (L3 (tp ry) (sw t)))) := rfl
  rw [e1, dot4_L1, dot4_L2, dot4_L4, dot4_L3]
  refine congrArg (dot4 (sw t)) ?_
  simp only [tp_tp, tp_mm]
  simp only [L4_L1, L4_L2, L4_L3, L3_L1, L3_L2, L2_L1, L1_L1, L2_L2, L3_L3, L4_L4, mm_assoc]
  have e3 : mm ry (mm (tp ry) (mm rx (tp rx))) = delta := by rw [hx, mm_delta, hy]
  have e4 : mm rx (mm (tp rx) (mm ry (mm (tp pv) (tp ry)))) = mm ry (mm (tp pv) (tp ry)) := by rw [← mm_assoc, hx, delta_mm]
  rw [e3, e4, L3_delta]

end Rot

/-! ## Clusters in canonical orbitals -/

section Cluster
variable {ι L N o v : Type} [Fintype ι] [Fintype L] [Fintype N] [Fintype o] [Fintype v]

/-- The entries of a cluster are those of the whole system in rotated canonical orbitals. -/
structure Rotated {f x y : Type} (B : L → o → v → K) (Bn : Option (N → o → v → K)) (w : Whole o v K) (c : Cl ι L N f x y K) (wt : f → o → K) (ro : o → x → K)
    (rv : v → y → K) : Prop where
  cderi : ∀ l, c.cderi l = mm (tp ro) (mm (B l) rv)
  neg : c.neg = Bn.map fun g n => mm (tp ro) (mm (g n) rv)
  frag : ∀ [Fintype x], mm c.pFrag (tp ro) = wt
  eo : ∀ I i, ro I i ≠ 0 → w.eo I = c.eOcc i
  ev : ∀ A a, rv A a ≠ 0 → w.ev A = c.eVir a

theorem contract_rot {A x y x' y' : Type} [Fintype A] [Fintype x] [Fintype y] [Fintype x'] [Fintype y'] (B : A → o → v → K) (ro : o → x → K) (rv : v → y → K) (ro' : o → x' → K)
    (rv' : v → y' → K) : contract (fun l => mm (tp ro) (mm (B l) rv)) (fun l => mm (tp ro') (mm (B l) rv')) =
      L1 (tp ro) (L2 (tp ro') (L3 (tp rv) (L4 (tp rv') (contract B B)))) := by
  funext i j a b
  show ∑ l, (∑ I, ro I i * ∑ C, B l I C * rv C a) * (∑ J, ro' J j * ∑ D, B l J D * rv' D b) =
    ∑ I, ro I i * ∑ J, ro' J j * ∑ C, rv C a * ∑ D, rv' D b * ∑ l, B l I C * B l J D
  simp only [Finset.mul_sum, Finset.sum_mul]
  have h := Fintype.sum_equiv (⟨fun x => (x.2.2.2.1, x.2.1, x.2.2.2.2, x.2.2.1, x.1), fun x => (x.2.2.2.2, x.2.1, x.2.2.2.1, x.1, x.2.2.1), fun _ => rfl, fun _ => rfl⟩ :
    A × o × v × o × v ≃ o × o × v × v × A)
    (fun x => ro x.2.2.2.1 i * (B x.1 x.2.2.2.1 x.2.2.2.2 * rv x.2.2.2.2 a) * (ro' x.2.1 j * (B x.1 x.2.1 x.2.2.1 * rv' x.2.2.1 b)))
    (fun x => ro x.1 i * (ro' x.2.1 j * (rv x.2.2.1 a * (rv' x.2.2.2.1 b * (B x.2.2.2.2 x.1 x.2.2.1 * B x.2.2.2.2 x.2.1 x.2.2.2.1))))) fun x => by
      dsimp only [Equiv.coe_fn_mk]
      ring
  simpa only [Fintype.sum_prod_type] using h

private theorem sub4 {x y x' y' : Type} (ro : o → x → K) (rv : v → y → K) (ro' : o → x' → K) (rv' : v → y' → K) (p q : o → o → v → v → K) (i : x) (j : x') (a : y) (b : y') :
    L1 (tp ro) (L2 (tp ro') (L3 (tp rv) (L4 (tp rv') fun i j a b => p i j a b - q i j a b))) i j a b =
      L1 (tp ro) (L2 (tp ro') (L3 (tp rv) (L4 (tp rv') p))) i j a b - L1 (tp ro) (L2 (tp ro') (L3 (tp rv) (L4 (tp rv') q))) i j a b := by
  simp only [L1, L2, L3, L4, mul_sub, Finset.sum_sub_distrib]

/-- Dividing by energies before or after a rotation among orbitals of equal energy. -/
theorem div_rot {x y x' y' : Type} (D : o → o → v → v → K) (D' : x → x' → y → y' → K) (ro : o → x → K) (rv : v → y → K) (ro' : o → x' → K) (rv' : v → y' → K)
    (h : ∀ I J A B i j a b, ro I i ≠ 0 → ro' J j ≠ 0 → rv A a ≠ 0 → rv' B b ≠ 0 → D I J A B = D' i j a b) (e : o → o → v → v → K) (i : x) (j : x') (a : y) (b : y') :
    L1 (tp ro) (L2 (tp ro') (L3 (tp rv) (L4 (tp rv') e))) i j a b / D' i j a b =
      L1 (tp ro) (L2 (tp ro') (L3 (tp rv) (L4 (tp rv') fun i j a b => e i j a b / D i j a b))) i j a b := by
  simp only [L1, L2, L3, L4, tp, Finset.mul_sum, Finset.sum_div]
  refine Finset.sum_congr rfl fun I _ => Finset.sum_congr rfl fun J _ => Finset.sum_congr rfl fun A _ => Finset.sum_congr rfl fun B _ => ?_
  by_cases h1 : ro I i = 0
  · simp [h1]
  by_cases h2 : ro' J j = 0
  · simp [h2]
  by_cases h3 : rv A a = 0
  · simp [h3]
  by_cases h4 : rv' B b = 0
  · simp [h4]
  rw [h I J A B i j a b h1 h2 h3 h4]
  ring

theorem project_eq {f x y f' x' y' : Type} [Fintype x] [Fintype x'] (c : Cl ι L N f x y K) (d : Cl ι L N f' x' y' K) (t : x → x' → y → y' → K) :
    project c d t = L1 c.pFrag (L2 d.pFrag t) := by
  funext i j a b
  simp only [project, L1, L2, Finset.mul_sum]
  exact Finset.sum_congr rfl fun _ _ => Finset.sum_congr rfl fun _ _ => by ring

/-- Integrals in the order of the amplitudes. -/
def Whole.e {o v : Type} (w : Whole o v K) : o → o → v → v → K := fun i j a b => w.g i a j b

variable {f x y f' x' y' : Type} [Fintype f] [Fintype x] [Fintype y] [Fintype f'] [Fintype x'] [Fintype y'] {B : L → o → v → K} {Bn : Option (N → o → v → K)}
  {w : Whole o v K} {c : Cl ι L N f x y K} {d : Cl ι L N f' x' y' K} {wt : f → o → K} {ro : o → x → K} {rv : v → y → K} {wt' : f' → o → K} {ro' : o → x' → K}
  {rv' : v → y' → K}

theorem eris_rot (hg : w.e = fun i j a b => contract B B i j a b - contractNeg Bn Bn i j a b) (hc : Rotated B Bn w c wt ro rv) (hd : Rotated B Bn w d wt' ro' rv') :
    eris c d = L1 (tp ro) (L2 (tp ro') (L3 (tp rv) (L4 (tp rv') w.e))) := by
  have e1 : contract c.cderi d.cderi = L1 (tp ro) (L2 (tp ro') (L3 (tp rv) (L4 (tp rv') (contract B B)))) := by
    rw [show c.cderi = _ from funext hc.cderi, show d.cderi = _ from funext hd.cderi, contract_rot]
  have e2 : contractNeg c.neg d.neg = L1 (tp ro) (L2 (tp ro') (L3 (tp rv) (L4 (tp rv') (contractNeg Bn Bn)))) := by
    rw [hc.neg, hd.neg]
    cases Bn with
    | none =>
      funext i j a b
      simp [contractNeg, L1, L2, L3, L4]
    | some g => exact contract_rot g ro rv ro' rv'
  funext i j a b
  rw [hg, sub4, ← e1, ← e2]
  rfl

theorem project_eris (hg : w.e = fun i j a b => contract B B i j a b - contractNeg Bn Bn i j a b) (hc : Rotated B Bn w c wt ro rv) (hd : Rotated B Bn w d wt' ro' rv') :
    project c d (eris c d) = L1 wt (L2 wt' (L3 (tp rv) (L4 (tp rv') w.e))) := by
  rw [project_eq, eris_rot hg hc hd, L2_L1, L2_L2, L1_L1, hc.frag, hd.frag]

theorem project_amps (hg : w.e = fun i j a b => contract B B i j a b - contractNeg Bn Bn i j a b) (hc : Rotated B Bn w c wt ro rv) (hd : Rotated B Bn w d wt' ro' rv') :
    project c d (divide c d (eris c d)) = L1 wt (L2 wt' (L3 (tp rv) (L4 (tp rv') w.t))) := by
  have e : divide c d (eris c d) = L1 (tp ro) (L2 (tp ro') (L3 (tp rv) (L4 (tp rv') w.t))) := by
    funext i j a b
    rw [divide, eris_rot hg hc hd]
    refine div_rot (fun i j a b => w.eo i + w.eo j - w.ev a - w.ev b) (fun i j a b => c.eOcc i - c.eVir a + (d.eOcc j - d.eVir b)) ro rv ro' rv' ?_ w.e i j a b
    intro I J A B i j a b h1 h2 h3 h4
    rw [hc.eo I i h1, hd.eo J j h2, hc.ev A a h3, hd.ev B b h4]
    ring
  rw [project_eq, e, L2_L1, L2_L2, L1_L1, hc.frag, hd.frag]

end Cluster

end Vayesta.Icmp2
