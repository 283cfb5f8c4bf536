import Verif.Props.Amplitudes

/-! # C50: global amplitudes assembled from exact clusters are exact (false for FCI-solved fragments) -/

namespace Vayesta.Props
open Vayesta.Amplitudes Vayesta.Tensor

section
variable {o v K : Type} [Field K] [Fintype o] [DecidableEq o] [Fintype v] [DecidableEq v]

/-- The amplitudes of the whole system expressed in cluster orbitals. -/
def inCluster1 {co cv : Type} (ro : o → co → K) (rv : v → cv → K) (t : T1 o v K) : T1 co cv K :=
  fun k c => ∑ i, ∑ a, ro i k * rv a c * t i a

/-- The same for doubles. -/
def inCluster2 {co cv : Type} (ro : o → co → K) (rv : v → cv → K) (t : T2 o o v v K) : T2 co co cv cv K :=
  fun k l c d => ∑ i, ∑ j, ∑ a, ∑ b, ro i k * ro j l * rv a c * rv b d * t i j a b

theorem inCluster2_eq {co cv : Type} (ro : o → co → K) (rv : v → cv → K) (t : T2 o o v v K) :
    inCluster2 ro rv t = L1 (tp ro) (L2 (tp ro) (L3 (tp rv) (L4 (tp rv) t))) := by
  funext k l c d
  simp only [inCluster2, L1, L2, L3, L4, tp, Finset.mul_sum]
  exact Finset.sum_congr rfl fun _ _ => Finset.sum_congr rfl fun _ _ => Finset.sum_congr rfl fun _ _ =>
    Finset.sum_congr rfl fun _ _ => by ring

theorem backT2_eq {co cv : Type} [Fintype co] [Fintype cv] (ro : o → co → K) (rv : v → cv → K) (t : T2 co co cv cv K) :
    backT2 ro rv t = L1 ro (L2 ro (L3 rv (L4 rv t))) := by
  funext i j a b
  simp only [backT2, L1, L2, L3, L4, Finset.mul_sum]
  exact Finset.sum_congr rfl fun _ _ => Finset.sum_congr rfl fun _ _ => Finset.sum_congr rfl fun _ _ =>
    Finset.sum_congr rfl fun _ _ => by ring

theorem transp_L1 {m n p q : Type} [Fintype n] (M : m → n → K) (t : T2 n p q q K) : transp (L1 M t) = L2 M (transp t) := rfl

/-- Cluster orbitals that span the occupied and virtual space: `ro roᵀ = 1`, `rv rvᵀ = 1`. -/
def SpansAll (x : Frag o v K) : Prop := mm x.ro (tp x.ro) = delta ∧ mm x.rv (tp x.rv) = delta

/-- The projector of a fragment onto its occupied fragment space, in the orbitals of the whole system. -/
def fragProj (x : Frag o v K) (p : x.f → x.co → K) : o → o → K :=
  fun i j => ∑ y, (∑ k, x.ro i k * p y k) * (∑ k, x.ro j k * p y k)

theorem fragProj_eq (x : Frag o v K) (p : x.f → x.co → K) : fragProj x p = mm (mm x.ro (tr p)) (mm p (tp x.ro)) := by
  funext i j
  refine Finset.sum_congr rfl fun y _ => ?_
  congr 1
  exact Finset.sum_congr rfl fun _ _ => by simp only [tp]; ring

theorem transp_back {co cv : Type} [Fintype co] [Fintype cv] (ro : o → co → K) (rv : v → cv → K) (t : T2 co co cv cv K) :
    backT2 ro rv (transp t) = transp (backT2 ro rv t) := by
  rw [backT2_eq, backT2_eq]
  have h : transp (L1 ro (L2 ro (L3 rv (L4 rv t)))) = L2 ro (L1 ro (L4 rv (L3 rv (transp t)))) := rfl
  rw [h, L2_L1, L4_L3]

theorem back_add {co cv : Type} [Fintype co] [Fintype cv] (ro : o → co → K) (rv : v → cv → K) (s t : T2 co co cv cv K) :
    backT2 ro rv (fun i j a b => (s i j a b + t i j a b) / 2) = fun i j a b => (backT2 ro rv s i j a b + backT2 ro rv t i j a b) / 2 := by
  funext i j a b
  simp only [backT2, ← Finset.sum_add_distrib, Finset.sum_div]
  exact Finset.sum_congr rfl fun _ _ => Finset.sum_congr rfl fun _ _ => Finset.sum_congr rfl fun _ _ =>
    Finset.sum_congr rfl fun _ _ => by ring

theorem back_sym {co cv : Type} [Fintype co] [Fintype cv] (ro : o → co → K) (rv : v → cv → K) (t : T2 co co cv cv K) :
    backT2 ro rv (symmetrizeC2 t) = symmetrizeC2 (backT2 ro rv t) := by
  have : symmetrizeC2 t = fun i j a b => (t i j a b + transp t i j a b) / 2 := rfl
  rw [this, back_add, transp_back]
  rfl

/-- A fragment's restored doubles, transformed back, are the fragment projector applied to the first index. -/
theorem back_restored2 (x : Frag o v K) (hx : SpansAll x) (p : x.f → x.co → K) (t : T2 o o v v K) :
    backT2 x.ro x.rv (projectC2 (tr p) (projectC2 p (inCluster2 x.ro x.rv t))) = L1 (fragProj x p) t := by
  have h1 : ∀ c : T2 x.co x.co x.cv x.cv K, projectC2 (tr p) (projectC2 p c) = L1 (tr p) (L1 p c) := fun _ => rfl
  rw [backT2_eq, h1, inCluster2_eq, fragProj_eq]
  simp only [L4_L1, L4_L2, L4_L3, L3_L1, L3_L2, L2_L1, L1_L1, L2_L2, L3_L3, L4_L4, hx.1, hx.2, L2_delta, L3_delta, L4_delta,
    mm_assoc]

theorem back_restored1 (x : Frag o v K) (hx : SpansAll x) (p : x.f → x.co → K) (t : T1 o v K) :
    backT1 x.ro x.rv (projectC1 (tr p) (projectC1 p (inCluster1 x.ro x.rv t))) = mm (fragProj x p) t := by
  have h1 : ∀ c : T1 x.co x.cv K, projectC1 (tr p) (projectC1 p c) = mm (tr p) (mm p c) := fun _ => rfl
  have h2 : inCluster1 x.ro x.rv t = mm (tp x.ro) (mm t x.rv) := by
    funext k c
    simp only [inCluster1, mm, tp, Finset.mul_sum]
    exact Finset.sum_congr rfl fun _ _ => Finset.sum_congr rfl fun _ _ => by ring
  have h3 : ∀ c : T1 x.co x.cv K, backT1 x.ro x.rv c = mm x.ro (mm c (tp x.rv)) := by
    intro c
    funext k c
    simp only [backT1, mm, tp, Finset.mul_sum]
    exact Finset.sum_congr rfl fun _ _ => Finset.sum_congr rfl fun _ _ => by ring
  rw [h1, h2, h3, fragProj_eq]
  simp only [mm_assoc, hx.2, mm_delta]

theorem globalT1_ok (g : Bool) (l : List (Frag o v K)) (c : Frag o v K → T1 o v K) (h : ∀ x ∈ l, x.t1Contrib g = .ok (c x)) :
    globalT1 g l = .ok fun i a => (l.map fun x => c x i a).sum := by
  suffices H : ∀ (l : List (Frag o v K)) (acc : T1 o v K), (∀ x ∈ l, x.t1Contrib g = .ok (c x)) →
      l.foldlM (fun acc x => do let c ← x.t1Contrib g; pure fun i a => acc i a + c i a) acc =
        (.ok fun i a => acc i a + (l.map fun x => c x i a).sum : Except PyErr (T1 o v K)) by
    have := H l (fun _ _ => 0) h
    simp only [zero_add] at this
    exact this
  intro l
  induction l with
  | nil => intro acc _; simp; rfl
  | cons x l ih =>
    intro acc h
    rw [List.foldlM_cons, h x (by simp)]
    have := ih (fun i a => acc i a + c x i a) fun y hy => h y (by simp [hy])
    simp only [List.map_cons, List.sum_cons, ← add_assoc]
    exact this

theorem globalT2_ok (g : Bool) (l : List (Frag o v K)) (c : Frag o v K → T2 o o v v K) (h : ∀ x ∈ l, x.t2Contrib g = .ok (c x)) :
    globalT2 g l = .ok fun i j a b => (l.map fun x => c x i j a b).sum := by
  suffices H : ∀ (l : List (Frag o v K)) (acc : T2 o o v v K), (∀ x ∈ l, x.t2Contrib g = .ok (c x)) →
      l.foldlM (fun acc x => do let c ← x.t2Contrib g; pure fun i j a b => acc i j a b + c i j a b) acc =
        (.ok fun i j a b => acc i j a b + (l.map fun x => c x i j a b).sum : Except PyErr (T2 o o v v K)) by
    have := H l (fun _ _ _ _ => 0) h
    simp only [zero_add] at this
    exact this
  intro l
  induction l with
  | nil => intro acc _; simp; rfl
  | cons x l ih =>
    intro acc h
    rw [List.foldlM_cons, h x (by simp)]
    have := ih (fun i j a b => acc i j a b + c x i j a b) fun y hy => h y (by simp [hy])
    simp only [List.map_cons, List.sum_cons, ← add_assoc]
    exact this

/-- The projector stored with the fragment's wave function. -/
def projOf (x : Frag o v K) : x.f → x.co → K :=
  match x.pwf with
  | .mp2 p _ => p
  | .ccsd (.proj p _ _ _ _) => p
  | .cisd (.proj p _ _ _) => p
  | _ => fun _ _ => 0

/-- The fragment occupied spaces of the fragments in `l` partition the occupied space. -/
def Complete (l : List (Frag o v K)) : Prop :=
  ∀ i j, (l.map fun x => fragProj x (projOf x) i j).sum = if i = j then 1 else 0

theorem complete_sum (l : List (Frag o v K)) (h : Complete l) (t : o → K) (i : o) :
    (l.map fun x => ∑ k, fragProj x (projOf x) i k * t k).sum = t i := by
  rw [list_sum_mul]
  simp only [h i]
  simp

theorem complete_sum_sym (h2 : (2 : K) ≠ 0) (l : List (Frag o v K)) (h : Complete l)
    (t : T2 o o v v K) (ht : ∀ i j a b, t j i b a = t i j a b) (i j : o) (a b : v) :
    (l.map fun x => symmetrizeC2 (L1 (fragProj x (projOf x)) t) i j a b).sum = t i j a b := by
  have e : ∀ (l : List (Frag o v K)), (l.map fun x => symmetrizeC2 (L1 (fragProj x (projOf x)) t) i j a b).sum =
      ((l.map fun x => ∑ k, fragProj x (projOf x) i k * t k j a b).sum + (l.map fun x => ∑ k, fragProj x (projOf x) j k * t k i b a).sum) / 2 := by
    intro l
    induction l with
    | nil => simp
    | cons x l ih =>
      simp only [List.map_cons, List.sum_cons]
      have : symmetrizeC2 (L1 (fragProj x (projOf x)) t) i j a b =
        ((∑ k, fragProj x (projOf x) i k * t k j a b) + ∑ k, fragProj x (projOf x) j k * t k i b a) / 2 := rfl
      rw [this]
      linear_combination ih
  rw [e, complete_sum l h (fun k => t k j a b), complete_sum l h (fun k => t k i b a), ht]
  field_simp
  ring

/-- The fragment holds the projection of the exact CCSD amplitudes. -/
def ExactCcsd (t1 l1 : T1 o v K) (t2 l2 : T2 o o v v K) (x : Frag o v K) : Prop :=
  ∃ p, x.pwf = .ccsd (RCcsd.project p (inCluster1 x.ro x.rv t1) (inCluster2 x.ro x.rv t2)
    (some (inCluster1 x.ro x.rv l1)) (some (inCluster2 x.ro x.rv l2)))

/-- The fragment holds the projection of the exact MP2 amplitudes. -/
def ExactMp2 (t2 : T2 o o v v K) (x : Frag o v K) : Prop :=
  ∃ p, x.pwf = .mp2 p (projectC2 p (inCluster2 x.ro x.rv t2))

/-- The fragment holds the projection of the exact CISD coefficients with reference coefficient `c0` (an FCI solution). -/
def ExactCisd (c0 : K) (c1 : T1 o v K) (c2 : T2 o o v v K) (x : Frag o v K) : Prop :=
  ∃ p, x.pwf = .cisd (RCisd.project p c0 (inCluster1 x.ro x.rv c1) (inCluster2 x.ro x.rv c2))

/-- C50 (CCSD solver). If every fragment's cluster spans the whole space and holds the exact cluster and lambda amplitudes, and
the fragments partition the occupied space, then the assembled global amplitudes are the exact ones. (The claim also covers FCI
fragments, for which the doubles are wrong: `global_t2_cisd_false`.) -/
theorem global_amplitudes_ccsd_partial (h2 : (2 : K) ≠ 0) (t1 l1 : T1 o v K) (t2 l2 : T2 o o v v K)
    (ht : ∀ i j a b, t2 j i b a = t2 i j a b) (hl : ∀ i j a b, l2 j i b a = l2 i j a b)
    (l : List (Frag o v K)) (hp : Complete l) (hs : ∀ x ∈ l, SpansAll x)
    (hx : ∀ x ∈ l, ExactCcsd t1 l1 t2 l2 x) (hlam : ∀ x ∈ l, x.tAsLambda = false) :
    globalT1 false l = .ok t1 ∧ globalT2 false l = .ok t2 ∧ globalT1 true l = .ok l1 ∧ globalT2 true l = .ok l2 := by
  have A1 : ∀ x ∈ l, x.t1Contrib false = .ok (mm (fragProj x (projOf x)) t1) := by
    intro x h
    obtain ⟨p, hpx⟩ := hx x h
    have hpp : projOf x = p := by simp only [projOf, hpx]; rfl
    rw [hpp, ← back_restored1 x (hs x h)]
    simp only [Frag.t1Contrib, hpx, hlam x h]
    rfl
  have A2 : ∀ x ∈ l, x.t2Contrib false = .ok (symmetrizeC2 (L1 (fragProj x (projOf x)) t2)) := by
    intro x h
    obtain ⟨p, hpx⟩ := hx x h
    have hpp : projOf x = p := by simp only [projOf, hpx]; rfl
    rw [hpp, ← back_restored2 x (hs x h), ← back_sym]
    simp only [Frag.t2Contrib, hpx, hlam x h]
    rfl
  have A3 : ∀ x ∈ l, x.t1Contrib true = .ok (mm (fragProj x (projOf x)) l1) := by
    intro x h
    obtain ⟨p, hpx⟩ := hx x h
    have hpp : projOf x = p := by simp only [projOf, hpx]; rfl
    rw [hpp, ← back_restored1 x (hs x h)]
    simp only [Frag.t1Contrib, hpx, hlam x h]
    rfl
  have A4 : ∀ x ∈ l, x.t2Contrib true = .ok (symmetrizeC2 (L1 (fragProj x (projOf x)) l2)) := by
    intro x h
    obtain ⟨p, hpx⟩ := hx x h
    have hpp : projOf x = p := by simp only [projOf, hpx]; rfl
    rw [hpp, ← back_restored2 x (hs x h), ← back_sym]
    simp only [Frag.t2Contrib, hpx, hlam x h]
    rfl
  refine ⟨?_, ?_, ?_, ?_⟩
  · rw [globalT1_ok false l _ A1]
    congr 1; funext i a
    exact complete_sum l hp (fun k => t1 k a) i
  · rw [globalT2_ok false l _ A2]
    congr 1; funext i j a b
    exact complete_sum_sym h2 l hp t2 ht i j a b
  · rw [globalT1_ok true l _ A3]
    congr 1; funext i a
    exact complete_sum l hp (fun k => l1 k a) i
  · rw [globalT2_ok true l _ A4]
    congr 1; funext i j a b
    exact complete_sum_sym h2 l hp l2 hl i j a b

/-- C50 (CCSD solver), with the option to use the cluster amplitudes in place of the lambda amplitudes: asking for global lambda
amplitudes gives the global cluster amplitudes, whatever lambda amplitudes are stored. -/
theorem global_amplitudes_t_as_lambda (h2 : (2 : K) ≠ 0) (t1 l1 : T1 o v K) (t2 l2 : T2 o o v v K)
    (ht : ∀ i j a b, t2 j i b a = t2 i j a b)
    (l : List (Frag o v K)) (hp : Complete l) (hs : ∀ x ∈ l, SpansAll x)
    (hx : ∀ x ∈ l, ExactCcsd t1 l1 t2 l2 x) (hlam : ∀ x ∈ l, x.tAsLambda = true) (g : Bool) :
    globalT1 g l = .ok t1 ∧ globalT2 g l = .ok t2 := by
  have A1 : ∀ x ∈ l, x.t1Contrib g = .ok (mm (fragProj x (projOf x)) t1) := by
    intro x h
    obtain ⟨p, hpx⟩ := hx x h
    have hpp : projOf x = p := by simp only [projOf, hpx]; rfl
    rw [hpp, ← back_restored1 x (hs x h)]
    simp only [Frag.t1Contrib, hpx, hlam x h, Bool.not_true, Bool.and_false]
    rfl
  have A2 : ∀ x ∈ l, x.t2Contrib g = .ok (symmetrizeC2 (L1 (fragProj x (projOf x)) t2)) := by
    intro x h
    obtain ⟨p, hpx⟩ := hx x h
    have hpp : projOf x = p := by simp only [projOf, hpx]; rfl
    rw [hpp, ← back_restored2 x (hs x h), ← back_sym]
    simp only [Frag.t2Contrib, hpx, hlam x h, Bool.not_true, Bool.and_false]
    rfl
  refine ⟨?_, ?_⟩
  · rw [globalT1_ok g l _ A1]
    congr 1; funext i a
    exact complete_sum l hp (fun k => t1 k a) i
  · rw [globalT2_ok g l _ A2]
    congr 1; funext i j a b
    exact complete_sum_sym h2 l hp t2 ht i j a b

/-- C50 (MP2 solver). Global lambda amplitudes are the cluster amplitudes. -/
theorem global_amplitudes_mp2_partial (h2 : (2 : K) ≠ 0) (t2 : T2 o o v v K) (ht : ∀ i j a b, t2 j i b a = t2 i j a b)
    (l : List (Frag o v K)) (hp : Complete l) (hs : ∀ x ∈ l, SpansAll x)
    (hx : ∀ x ∈ l, ExactMp2 t2 x) (g : Bool) : globalT1 g l = .ok (fun _ _ => 0) ∧ globalT2 g l = .ok t2 := by
  have A1 : ∀ x ∈ l, x.t1Contrib g = .ok (fun _ _ => 0) := by
    intro x h
    have : backT1 x.ro x.rv (fun _ _ => 0) = (fun _ _ => 0) := by funext i a; simp [backT1]
    obtain ⟨p, hpx⟩ := hx x h
    rw [← this]
    simp only [Frag.t1Contrib, hpx]
    cases g <;> cases x.tAsLambda <;> rfl
  have A2 : ∀ x ∈ l, x.t2Contrib g = .ok (symmetrizeC2 (L1 (fragProj x (projOf x)) t2)) := by
    intro x h
    obtain ⟨p, hpx⟩ := hx x h
    have hpp : projOf x = p := by simp only [projOf, hpx]
    rw [hpp, ← back_restored2 x (hs x h), ← back_sym]
    simp only [Frag.t2Contrib, hpx]
    cases g <;> cases x.tAsLambda <;> rfl
  constructor
  · rw [globalT1_ok g l _ A1]
    congr 1; funext i a
    simp
  · rw [globalT2_ok g l _ A2]
    congr 1; funext i j a b
    exact complete_sum_sym h2 l hp t2 ht i j a b

theorem outer_back {co cv : Type} [Fintype co] [Fintype cv] (ro : o → co → K) (rv : v → cv → K) (s : T1 co cv K) :
    backT2 ro rv (outer s s) = outer (backT1 ro rv s) (backT1 ro rv s) := by
  funext i j a b
  simp only [backT2, backT1, outer]
  rw [Finset.sum_mul_sum]
  refine Finset.sum_congr rfl fun k _ => Finset.sum_congr rfl fun l _ => ?_
  rw [Finset.sum_mul_sum]
  exact Finset.sum_congr rfl fun _ _ => Finset.sum_congr rfl fun _ _ => by ring

theorem back_cisd {co cv : Type} [Fintype co] [Fintype cv] (ro : o → co → K) (rv : v → cv → K) (c0 : K) (c1 : T1 co cv K)
    (c2 : T2 co co cv cv K) : backT2 ro rv (ccsdOfCisd c0 c1 c2).2 =
      fun i j a b => backT2 ro rv c2 i j a b / c0 - (backT1 ro rv c1 i a / c0) * (backT1 ro rv c1 j b / c0) := by
  have e : ∀ i a, backT1 ro rv c1 i a / c0 = backT1 ro rv (fun i a => c1 i a / c0) i a := by
    intro i a
    simp only [backT1, Finset.sum_div]
    exact Finset.sum_congr rfl fun _ _ => Finset.sum_congr rfl fun _ _ => by ring
  funext i j a b
  have h := congrFun (congrFun (congrFun (congrFun (outer_back ro rv (fun i a => c1 i a / c0)) i) j) a) b
  simp only [e]
  rw [show backT1 ro rv (fun i a => c1 i a / c0) i a * backT1 ro rv (fun i a => c1 i a / c0) j b =
    backT2 ro rv (outer (fun i a => c1 i a / c0) (fun i a => c1 i a / c0)) i j a b from h.symm]
  simp only [backT2, ccsdOfCisd, Finset.sum_div, ← Finset.sum_sub_distrib]
  exact Finset.sum_congr rfl fun _ _ => Finset.sum_congr rfl fun _ _ => Finset.sum_congr rfl fun _ _ =>
    Finset.sum_congr rfl fun _ _ => by ring

/-- C50 (FCI solver), what the code computes: the singles are exact, but the doubles subtract only the products of singles
that belong to the same fragment. -/
theorem global_amplitudes_cisd (h2 : (2 : K) ≠ 0) (c0 : K) (c1 : T1 o v K) (c2 : T2 o o v v K)
    (hc : ∀ i j a b, c2 j i b a = c2 i j a b)
    (l : List (Frag o v K)) (hp : Complete l) (hs : ∀ x ∈ l, SpansAll x)
    (hx : ∀ x ∈ l, ExactCisd c0 c1 c2 x) :
    globalT1 false l = .ok (fun i a => c1 i a / c0) ∧
      globalT2 false l = .ok fun i j a b => c2 i j a b / c0 -
        (l.map fun x => ((∑ k, fragProj x (projOf x) i k * c1 k a) / c0) * ((∑ k, fragProj x (projOf x) j k * c1 k b) / c0)).sum := by
  have A1 : ∀ x ∈ l, x.t1Contrib false = .ok fun i a => mm (fragProj x (projOf x)) c1 i a / c0 := by
    intro x h
    obtain ⟨p, hpx⟩ := hx x h
    have hpp : projOf x = p := by simp only [projOf, hpx]; rfl
    rw [hpp, ← back_restored1 x (hs x h)]
    simp only [Frag.t1Contrib, hpx]
    simp only [RCisd.project, Pwf.restoredCcsd, RCisd.restore, RCisd.asCcsd, ccsdOfCisd, bind, Except.bind, Bool.false_and]
    refine congrArg Except.ok ?_
    funext i a
    simp only [backT1, Finset.sum_div]
    exact Finset.sum_congr rfl fun _ _ => Finset.sum_congr rfl fun _ _ => by ring
  have A2 : ∀ x ∈ l, x.t2Contrib false = .ok fun i j a b => symmetrizeC2 (L1 (fragProj x (projOf x)) c2) i j a b / c0 -
      (mm (fragProj x (projOf x)) c1 i a / c0) * (mm (fragProj x (projOf x)) c1 j b / c0) := by
    intro x h
    obtain ⟨p, hpx⟩ := hx x h
    have hpp : projOf x = p := by simp only [projOf, hpx]; rfl
    rw [hpp, ← back_restored2 x (hs x h), ← back_sym, ← back_restored1 x (hs x h), ← back_cisd]
    simp only [Frag.t2Contrib, hpx]
    rfl
  constructor
  · rw [globalT1_ok false l _ A1]
    refine congrArg Except.ok ?_
    funext i a
    rw [← complete_sum l hp (fun k => c1 k a) i]
    have hm : ∀ (x : Frag o v K) i a, mm (fragProj x (projOf x)) c1 i a = ∑ k, fragProj x (projOf x) i k * c1 k a := fun _ _ _ => rfl
    simp only [hm]
    clear hp hs hx A1 A2
    induction l with
    | nil => simp
    | cons x l ih => simp only [List.map_cons, List.sum_cons, ih, add_div]
  · rw [globalT2_ok false l _ A2]
    refine congrArg Except.ok ?_
    funext i j a b
    rw [← complete_sum_sym h2 l hp c2 hc i j a b]
    have hm : ∀ (x : Frag o v K) i a, mm (fragProj x (projOf x)) c1 i a = ∑ k, fragProj x (projOf x) i k * c1 k a := fun _ _ _ => rfl
    simp only [hm]
    clear hp hs hx A1 A2
    induction l with
    | nil => simp
    | cons x l ih =>
      simp only [List.map_cons, List.sum_cons, ih]
      ring

end

section Witness

/-- Two occupied and one virtual orbital; fragment `n` owns occupied orbital `n`; its cluster is the whole system. The wave
function has `c0 = 1`, unit singles and doubles that are exactly the product of singles, i.e. vanishing cluster doubles. -/
def witnessFrag (n : Fin 2) : Frag (Fin 2) (Fin 1) ℚ where
  f := Fin 1
  co := Fin 2
  cv := Fin 1
  ro := delta
  rv := delta
  pwf := .cisd (RCisd.project (fun _ i => if i = n then 1 else 0) 1 (inCluster1 delta delta fun _ _ => 1)
    (inCluster2 delta delta fun _ _ _ _ => 1))

theorem witness_fragProj (n : Fin 2) (i j : Fin 2) :
    fragProj (witnessFrag n) (projOf (witnessFrag n)) i j = if i = n ∧ j = n then 1 else 0 := by
  have h : ∀ k : Fin 2, (∑ m : Fin 2, (delta k m : ℚ) * (if m = n then 1 else 0)) = if k = n then 1 else 0 := fun k =>
    sum_delta k _
  have e : fragProj (witnessFrag n) (projOf (witnessFrag n)) i j =
      ∑ _y : Fin 1, (∑ m : Fin 2, (delta i m : ℚ) * (if m = n then 1 else 0)) * (∑ m : Fin 2, (delta j m : ℚ) * (if m = n then 1 else 0)) :=
    rfl
  rw [e, h, h]
  by_cases h1 : i = n <;> by_cases h2 : j = n <;> simp [h1, h2]

/-- C50 is false for FCI-solved fragments: complete, orthonormal fragments whose clusters are the whole system and hold the exact
wave function (with vanishing cluster doubles) give non-zero global doubles. -/
theorem global_t2_cisd_false :
    ∃ (l : List (Frag (Fin 2) (Fin 1) ℚ))
      (t1 : T1 (Fin 2) (Fin 1) ℚ) (t2 g : T2 (Fin 2) (Fin 2) (Fin 1) (Fin 1) ℚ) (c1 : T1 (Fin 2) (Fin 1) ℚ)
      (c2 : T2 (Fin 2) (Fin 2) (Fin 1) (Fin 1) ℚ),
      Complete l ∧ (∀ x ∈ l, SpansAll x) ∧
      RCcsd.asCisd 1 (.full t1 t2 none none : RCcsd (Fin 1) (Fin 2) (Fin 1) ℚ) = .ok (.full 1 c1 c2) ∧
      (∀ x ∈ l, ExactCisd 1 c1 c2 x) ∧ globalT2 false l = .ok g ∧ g ≠ t2 := by
  have hC : Complete [witnessFrag 0, witnessFrag 1] := by
    intro i j
    simp only [List.map_cons, List.map_nil, List.sum_cons, List.sum_nil, witness_fragProj]
    fin_cases i <;> fin_cases j <;> simp
  have hS : ∀ x ∈ [witnessFrag 0, witnessFrag 1], SpansAll x := by
    have : ∀ n, SpansAll (witnessFrag n) := by
      intro n
      have e2 : (tp delta : Fin 2 → Fin 2 → ℚ) = delta := by funext i j; simp only [tp, delta, eq_comm]
      have e1 : (tp delta : Fin 1 → Fin 1 → ℚ) = delta := by funext i j; simp only [tp, delta, eq_comm]
      refine ⟨?_, ?_⟩
      · show mm (delta : Fin 2 → Fin 2 → ℚ) (tp delta) = delta
        rw [e2, mm_delta]
      · show mm (delta : Fin 1 → Fin 1 → ℚ) (tp delta) = delta
        rw [e1, mm_delta]
    intro x hx
    simp only [List.mem_cons, List.not_mem_nil, or_false] at hx
    rcases hx with rfl | rfl <;> exact this _
  have hE : ∀ x ∈ [witnessFrag 0, witnessFrag 1], ExactCisd 1 (fun _ _ => 1) (fun _ _ _ _ => 1) x := by
    intro x hx
    simp only [List.mem_cons, List.not_mem_nil, or_false] at hx
    rcases hx with rfl | rfl <;> exact ⟨_, rfl⟩
  refine ⟨[witnessFrag 0, witnessFrag 1], fun _ _ => 1, fun _ _ _ _ => 0, _, fun _ _ => 1, fun _ _ _ _ => 1, hC, hS, ?_, hE,
    (global_amplitudes_cisd (by norm_num) 1 (fun _ _ => 1) (fun _ _ _ _ => 1) (fun _ _ _ _ => rfl) _ hC hS hE).2, ?_⟩
  · simp [RCcsd.asCisd, outer]
  · intro h
    have := congrFun (congrFun (congrFun (congrFun h 0) 1) 0) 0
    simp [witness_fragProj] at this

/-- The hypotheses of the exact CCSD case are met by a non-trivial system: the witness clusters with CCSD amplitudes. -/
example : ∃ l : List (Frag (Fin 2) (Fin 1) ℚ), l.length = 2 ∧ Complete l ∧ ∀ x ∈ l, SpansAll x := by
  exact ⟨[witnessFrag 0, witnessFrag 1], rfl, by
    intro i j
    simp only [List.map_cons, List.map_nil, List.sum_cons, List.sum_nil, witness_fragProj]
    fin_cases i <;> fin_cases j <;> simp, by
    intro x hx
    simp only [List.mem_cons, List.not_mem_nil, or_false] at hx
    have e2 : (tp delta : Fin 2 → Fin 2 → ℚ) = delta := by funext i j; simp only [tp, delta, eq_comm]
    have e1 : (tp delta : Fin 1 → Fin 1 → ℚ) = delta := by funext i j; simp only [tp, delta, eq_comm]
    rcases hx with rfl | rfl <;> exact ⟨(by show mm (delta : Fin 2 → Fin 2 → ℚ) (tp delta) = delta; rw [e2, mm_delta]),
      (by show mm (delta : Fin 1 → Fin 1 → ℚ) (tp delta) = delta; rw [e1, mm_delta])⟩⟩

end Witness
end Vayesta.Props
