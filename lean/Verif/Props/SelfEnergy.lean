import Verif.Lemmas.SelfEnergySum
import Mathlib.Analysis.InnerProductSpace.PiL2

/-! C89: the self-energy of the whole system from those of clusters. Statements about Lehmann representations are about all sums over poles
`Σ f(energy) coupling_l coupling_r^T`, of which the moments (`f` a power) and the values at all frequencies are special cases. -/

namespace Vayesta.Props

open Vayesta.SelfEnergy Lemmas.SelfEnergy Matrix Lowdin

set_option linter.unusedSectionVars false

variable {ι : Type} [Fintype ι] {nmo : Nat} {s : Sys ι nmo} {stat : AsStatic}

/-! ## Moments -/

private theorem mom1_eq (k : Nat) (x : Frag ι) (useSym : Bool) : Frag.mom1 s useSym k x = frag1 s useSym (· ^ k) x := rfl

private theorem moments_one (hn : Fintype.card ι = nmo) (n : Nat) (l : List (Frag ι)) : makeMoments s stat n false 1 l
    = .ok ⟨fun k => (l.map (Frag.mom1 s false k)).sum, (l.map (Frag.static1 s false)).sum, (l.map (Frag.pot1 s stat false)).sum⟩ := by
  unfold makeMoments
  rw [if_pos rfl, sized, if_pos (Or.inr hn)]; rfl

/-- One projector: without symmetry, the moments are the democratically partitioned sums over the poles of all clusters, for all inputs. -/
theorem self_energy_moments_eq (hn : Fintype.card ι = nmo) (n : Nat) (l : List (Frag ι)) :
    ∃ r, makeMoments s stat n false 1 l = .ok r ∧ ∀ k : Fin n, r.se k = democratic s (fun e => e ^ (k : Nat)) l := by
  refine ⟨_, moments_one hn n l, fun k => ?_⟩
  rw [← frag1_false]; rfl

/-- One projector: with exact clusters which span all orbitals, and fragments which are a partition, the moments, the static self-energy and the static
potential are those of the whole system. -/
theorem self_energy_moments_exact [DecidableEq ι] {w : Whole nmo} (hs : Orbitals s) (hf : w.firstᵀ = w.first) (hv : w.potᵀ = w.pot) {l : List (Frag ι)}
    (hl : PartitionOfUnity s l) (hx : ∀ x ∈ l, ExactSelfEnergy s stat w x) (n : Nat) :
    ∃ r, makeMoments s stat n false 1 l = .ok r ∧ (∀ k : Fin n, r.se k = w.dynamic fun e => e ^ (k : Nat)) ∧
      r.static = w.first - s.moᵀ * s.fock * s.mo ∧ r.pot = s.mo * w.pot * s.moᵀ := by
  refine ⟨_, moments_one hs.complete n l, fun k => ?_, static1_exact hs hf hl hx, pot1_exact hs hv hl hx⟩
  rw [← democratic_exact hs hl hx, ← frag1_false]; rfl

private theorem poles2_weighted {x : Frag ι} (useSym : Bool) (h : ∀ u ∈ x.ops, SymmetryOf s u) (f : ℝ → ℝ) :
    weighted f (x.poles2 s useSym) = moSum s (images useSym x.ops x.cFrag) (x.fc s * weighted f x.se.poles * (x.fc s)ᵀ) := by
  have key : ∀ (c : Matrix ι (Fin x.nf) ℝ) (d : Matrix ι (Fin x.nc) ℝ), cᵀ * s.ovlp * d = x.fc s →
      weighted f (x.se.poles.map (pole2 s c d)) = toMo s c * (x.fc s * weighted f x.se.poles * (x.fc s)ᵀ) * (toMo s c)ᵀ := by
    intro c d hcd
    have h1 := weighted_map f (toMo s c * (cᵀ * s.ovlp * d)) x.se.poles
    refine Eq.trans ?_ (h1.trans ?_)
    · rfl
    · rw [hcd, transpose_mul]; simp only [Matrix.mul_assoc]
  cases useSym
  · rw [poles2_single]
    exact (key _ _ rfl).trans (moSum_single _ _).symm
  · have h2 : x.poles2 s true = x.se.poles.map (pole2 s x.cFrag x.cAct) ++
        (x.ops.map fun u => (u * x.cFrag, u * x.cAct)).flatMap fun c => x.se.poles.map (pole2 s c.1 c.2) := rfl
    rw [h2, weighted_append, weighted_flatMap, List.map_map]
    have h3 : images true x.ops x.cFrag = x.cFrag :: x.ops.map (· * x.cFrag) := rfl
    rw [h3, moSum, List.map_cons, List.sum_cons, key _ _ rfl, List.map_map]
    congr 2
    refine List.map_congr_left fun u hu => ?_
    exact key _ _ (image_fc (h u hu) x)

/-- Two projectors: the moments are half of those of the self-energy which is constructed with two projectors from the same clusters, while the static
parts agree. -/
theorem self_energy_moments_two_half_partial {sort : Sorter nmo} (hsort : ∀ x, (sort x).Perm x) (useSym : Bool) {l : List (Frag ι)}
    (hu : ∀ x ∈ l, ∀ u ∈ x.ops, SymmetryOf s u) (n : Nat) {r r'} (h1 : makeMoments s stat n useSym 2 l = .ok r)
    (h2 : make2proj s stat sort useSym l = .ok r') :
    (∀ k : Fin n, r.se k = (1 / 2 : ℝ) • weighted (fun e => e ^ (k : Nat)) r'.se) ∧ r.static = r'.static ∧ r.pot = r'.pot := by
  have hu' : ∀ x ∈ chosen useSym l, ∀ u ∈ x.ops, SymmetryOf s u := fun x hx => hu x (by
    cases useSym
    · exact hx
    · exact (List.mem_filter.mp hx).1)
  unfold make2proj at h2
  unfold makeMoments at h1
  rw [if_neg (by norm_num), if_pos rfl] at h1
  dsimp only at h1 h2
  cases hc : chosen useSym l with
  | nil => rw [hc] at h2; cases h2
  | cons x xs =>
    rw [hc] at h1 h2
    dsimp only at h2
    by_cases hz : Fintype.card ι ≠ nmo
    · rw [if_pos hz] at h2; cases h2
    · rw [if_neg hz] at h2
      rw [sized, if_pos (Or.inr (not_not.mp hz))] at h1
      split at h2
      · cases h1; cases h2
        refine ⟨fun k => ?_, rfl, rfl⟩
        rw [weighted_perm _ (hsort _), weighted_flatMap, List.smul_sum, List.map_map]
        show (List.map _ (x :: xs)).sum = _
        congr 1
        refine List.map_congr_left fun y hy => ?_
        show Frag.mom2 s useSym k y = (1 / 2 : ℝ) • weighted _ (y.poles2 s useSym)
        rw [poles2_weighted useSym (hu' y (by rw [hc]; exact hy)), Frag.mom2, moSum, moSum, List.smul_sum, List.map_map]
        congr 1
        refine List.map_congr_left fun c _ => ?_
        show _ = (1 / 2 : ℝ) • _
        rw [Matrix.mul_smul, Matrix.smul_mul]
      · cases h2

/-! ## Two projectors -/

/-- With exact clusters, the self-energy with two projectors is the part within each fragment of the one of the whole system. -/
theorem self_energy_2proj_exact [DecidableEq ι] {w : Whole nmo} (hs : Orbitals s) {sort : Sorter nmo} (hsort : ∀ x, (sort x).Perm x) {l : List (Frag ι)}
    (hne : l ≠ []) (hx : ∀ x ∈ l, ExactSelfEnergy s stat w x) :
    ∃ r, make2proj s stat sort false l = .ok r ∧
      (∀ f : ℝ → ℝ, weighted f r.se = (l.map fun x => projector s x * w.dynamic f * projector s x).sum) ∧
      r.static = (l.map fun x => projector s x * (w.first - s.moᵀ * s.fock * s.mo) * projector s x).sum ∧
      r.pot = (l.map fun x => (x.cFrag * x.cFragᵀ * s.ovlp) * (s.mo * w.pot * s.moᵀ) * (x.cFrag * x.cFragᵀ * s.ovlp)ᵀ).sum := by
  cases l with
  | nil => exact absurd rfl hne
  | cons x xs =>
    have hall : ((x :: xs).all fun y => y.se.isTuple == x.se.isTuple) = true := by
      rw [List.all_eq_true]
      intro y hy
      rw [(hx y hy).poles, (hx x (by simp)).poles]; rfl
    have heq : make2proj s stat sort false (x :: xs) = .ok ⟨sort ((x :: xs).flatMap (Frag.poles2 s false)), ((x :: xs).map (Frag.static2 s false)).sum,
        ((x :: xs).map (Frag.pot2 s stat false)).sum⟩ := by
      unfold make2proj
      dsimp only [chosen_false]
      rw [if_neg (not_not.mpr hs.complete), if_pos hall]
    refine ⟨_, heq, ?_, ?_, ?_⟩
    · intro f
      rw [weighted_perm _ (hsort _), weighted_flatMap]
      congr 1
      exact List.map_congr_left fun y hy => poles2_exact hs (hx y hy) f
    · exact congrArg List.sum (List.map_congr_left fun y hy => static2_exact hs (hx y hy))
    · exact congrArg List.sum (List.map_congr_left fun y hy => pot2_exact hs (hx y hy))

private theorem projector_one [DecidableEq ι] (hs : Orbitals s) {x : Frag ι} (hl : PartitionOfUnity s [x]) : projector s x = 1 := by
  have := projector_sum hs hl
  rwa [List.map_singleton, List.sum_singleton] at this

/-- With a single fragment of all orbitals, two projectors are exact for the poles, but the moments with two projectors are half of the exact ones. -/
theorem self_energy_moments_two_wrong [DecidableEq ι] {w : Whole nmo} (hs : Orbitals s) {sort : Sorter nmo} (hsort : ∀ x, (sort x).Perm x) {x : Frag ι}
    (hl : PartitionOfUnity s [x]) (hx : ExactSelfEnergy s stat w x) (hops : x.ops = []) (n : Nat) :
    (∃ r, make2proj s stat sort false [x] = .ok r ∧ ∀ f : ℝ → ℝ, weighted f r.se = w.dynamic f) ∧
    ∃ r, makeMoments s stat n false 2 [x] = .ok r ∧ ∀ k : Fin n, r.se k = (1 / 2 : ℝ) • w.dynamic fun e => e ^ (k : Nat) := by
  obtain ⟨r', h1, h2, _⟩ := self_energy_2proj_exact hs hsort (l := [x]) (by simp) (w := w) (stat := stat) (by
    intro y hy; rw [List.mem_singleton.mp hy]; exact hx)
  have h3 : ∀ f : ℝ → ℝ, weighted f r'.se = w.dynamic f := by
    intro f
    rw [h2, List.map_singleton, List.sum_singleton, projector_one hs hl, Matrix.one_mul, Matrix.mul_one]
  refine ⟨⟨r', h1, h3⟩, ?_⟩
  obtain ⟨r, hr⟩ : ∃ r, makeMoments s stat n false 2 [x] = .ok r := by
    unfold makeMoments
    rw [if_neg (by norm_num), if_pos rfl, sized, if_pos (Or.inr hs.complete)]
    exact ⟨_, rfl⟩
  refine ⟨r, hr, fun k => ?_⟩
  rw [(self_energy_moments_two_half_partial hsort false (by
    intro y hy u hu; rw [List.mem_singleton.mp hy, hops] at hu; cases hu) n hr h1).1 k, h3]

/-- Two projectors: if the couplings of all clusters are single arrays, the self-energy is causal: all sums over poles with non-negative weights are
positive semidefinite. -/
theorem self_energy_2proj_causal {sort : Sorter nmo} (hsort : ∀ x, (sort x).Perm x) (useSym : Bool) {l : List (Frag ι)}
    (ha : ∀ x ∈ l, x.se.isTuple = false) {r} (h : make2proj s stat sort useSym l = .ok r) {f : ℝ → ℝ} (hf : ∀ e, 0 ≤ f e) :
    (weighted f r.se).PosSemidef := by
  unfold make2proj at h
  dsimp only at h
  have hsub : ∀ x ∈ chosen useSym l, x ∈ l := fun x hx => by
    cases useSym
    · exact hx
    · exact (List.mem_filter.mp hx).1
  cases hc : chosen useSym l with
  | nil => rw [hc] at h; cases h
  | cons x xs =>
    rw [hc] at h
    dsimp only at h
    split at h
    · cases h
    · split at h
      · cases h
        rw [weighted_perm _ (hsort _)]
        refine weighted_posSemidef hf fun a ha' => ?_
        obtain ⟨y, hy, ha'⟩ := List.mem_flatMap.mp ha'
        obtain ⟨c, _, ha'⟩ := List.mem_flatMap.mp ha'
        obtain ⟨b, hb, rfl⟩ := List.mem_map.mp ha'
        have hy' := ha y (hsub y (by rw [hc]; exact hy))
        cases hse : y.se with
        | tuple p => rw [hse] at hy'; cases hy'
        | array p =>
          rw [hse] at hb
          obtain ⟨d, _, rfl⟩ := List.mem_map.mp hb
          rfl
      · cases h

/-! ## One projector -/

private theorem mapM_two {α β : Type} {F : α → Except PyErr β} : ∀ {l : List α}, (∀ a ∈ l, (∃ y, F a = .ok y) ∨ F a = .error .valueError) →
    (∃ ys, l.mapM (m := Except PyErr) F = .ok ys) ∨ l.mapM (m := Except PyErr) F = .error .valueError
  | [], _ => .inl ⟨[], rfl⟩
  | a :: l, h => by
    rw [List.mapM_cons]
    rcases h a (by simp) with ⟨y, hy⟩ | hy
    · rcases mapM_two fun b hb => h b (List.mem_cons_of_mem _ hb) with ⟨ys, hys⟩ | hys
      · left; rw [hy, hys]; exact ⟨_, rfl⟩
      · right; rw [hy, hys]; rfl
    · right; rw [hy]; rfl

/-- The assertion that at most two vectors belong to a pole never fails, for any tolerance which is not negative (with eigenvectors in place of singular
vectors: if the couplings of clusters are symmetric): there is a result, or ValueError. -/
theorem self_energy_1proj_no_assertion {t : Routines nmo} (ht : RightRoutines t) (useSym useSvd drop : Bool) {dtol etol : ℝ} (he : 0 ≤ etol)
    {l : List (Frag ι)} (hsym : useSvd = true ∨ ∀ x ∈ l, ∀ a ∈ x.se.poles, a.l = a.r) :
    (∃ r, make1proj s stat t useSym useSvd dtol etol drop l = .ok r) ∨ make1proj s stat t useSym useSvd dtol etol drop l = .error .valueError := by
  rw [make1proj_eq]
  split
  · exact .inr rfl
  · have hF : ∀ x ∈ chosen useSym l, (∃ y, loop1 s t useSym useSvd etol x = .ok y) ∨ loop1 s t useSym useSvd etol x = .error .valueError := by
      intro x hx
      have hxl : x ∈ l := by
        cases useSym
        · exact hx
        · exact (List.mem_filter.mp hx).1
      unfold loop1
      by_cases hz : Fintype.card ι = nmo
      · rw [sized, if_pos (Or.inr hz)]
        by_cases hp : x.se.poles = []
        · right
          show x.poles1 s t useSym useSvd etol = _
          unfold Frag.poles1; rw [hp]
        · left
          obtain ⟨y, hy, _⟩ := poles1_ok (s := s) ht useSym useSvd he hp (hsym.imp_right fun h => h x hxl)
          exact ⟨y, hy⟩
      · right
        rw [sized, if_neg (by simp [hz])]; rfl
    rcases mapM_two hF with ⟨ys, hys⟩ | hys
    · rw [hys]
      show (∃ r, Except.map _ (removeDegeneracy t dtol etol drop (t.sortC ys.flatten)) = .ok r) ∨ Except.map _ (removeDegeneracy t dtol etol drop (t.sortC ys.flatten)) = _
      by_cases hn : t.sortC ys.flatten = []
      · right; rw [hn, removeDegeneracy_nil]; rfl
      · left; rw [removeDegeneracy_eq t dtol etol drop hn]; exact ⟨_, rfl⟩
    · right; rw [hys]; rfl

/-- The option `drop_non_causal` has no effect on what is returned: for all inputs the same sums over poles, static parts and exceptions. -/
theorem self_energy_1proj_drop_no_effect {t : Routines nmo} (hsort : ∀ x, (t.sort x).Perm x) (useSym useSvd : Bool) {dtol etol : ℝ} (he : 0 ≤ etol)
    (l : List (Frag ι)) (f : ℝ → ℝ) :
    (make1proj s stat t useSym useSvd dtol etol true l).map (fun r => (weighted f r.se, r.static, r.pot))
      = (make1proj s stat t useSym useSvd dtol etol false l).map fun r => (weighted f r.se, r.static, r.pot) := by
  rw [make1proj_eq, make1proj_eq]
  split
  · rfl
  · cases ((chosen useSym l).mapM (m := Except PyErr) (loop1 s t useSym useSvd etol)).map List.flatten with
    | error e => rfl
    | ok raw =>
      show Except.map _ (Except.map _ _) = Except.map _ (Except.map _ _)
      by_cases hn : t.sortC raw = []
      · rw [hn, removeDegeneracy_nil, removeDegeneracy_nil]
      · rw [removeDegeneracy_eq _ _ _ _ hn, removeDegeneracy_eq _ _ _ _ hn]
        show Except.ok (weighted f (t.sort _), _, _) = Except.ok (weighted f (t.sort _), _, _)
        rw [weighted_perm f (hsort _), weighted_perm f (hsort _), weighted_flatMap, weighted_flatMap]
        congr 4
        refine funext fun g => regroup_drop _ he _ _ f

/-- The result is always causal. -/
theorem self_energy_1proj_causal {t : Routines nmo} (hsort : ∀ x, (t.sort x).Perm x) {useSym useSvd drop : Bool} {dtol etol : ℝ} {l : List (Frag ι)} {r}
    (h : make1proj s stat t useSym useSvd dtol etol drop l = .ok r) {f : ℝ → ℝ} (hf : ∀ e, 0 ≤ f e) : (weighted f r.se).PosSemidef := by
  rw [make1proj_eq] at h
  split at h
  · cases h
  · revert h
    cases ((chosen useSym l).mapM (m := Except PyErr) (loop1 s t useSym useSvd etol)).map List.flatten with
    | error e => intro h; cases h
    | ok raw =>
      intro h
      replace h : Except.map _ (removeDegeneracy t dtol etol drop (t.sortC raw)) = .ok r := h
      by_cases hn : t.sortC raw = []
      · rw [hn, removeDegeneracy_nil] at h; cases h
      · rw [removeDegeneracy_eq _ _ _ _ hn] at h
        cases h
        show (weighted f (t.sort _)).PosSemidef
        rw [weighted_perm f (hsort _)]
        refine weighted_posSemidef hf fun a ha => ?_
        obtain ⟨g, _, ha⟩ := List.mem_flatMap.mp ha
        exact (regroup_same _ _ _ _ _ a ha).1

/-- Nothing is below the thresholds of a calculation with one projector: not the vectors of single poles, not those of the sum of all poles of the same
energy; and different energies are told apart. -/
structure Resolved (s : Sys ι nmo) (dtol etol : ℝ) (l : List (Frag ι)) : Prop where
  poles : ∀ x ∈ l, ∀ a ∈ x.se.poles,
    let p := (x.cFragᵀ * s.ovlp * x.cAct)ᵀ * (x.cFragᵀ * s.ovlp * x.cAct)
    Significant etol ((1 / 2 : ℝ) • (p * vecMulVec a.l a.r + vecMulVec a.l a.r * p))
  residues : ∀ E, Significant etol (democratic s (only E) l)
  energies : Separated dtol (l.flatMap fun x => x.se.poles.map fun a => a.e)

private theorem raw_ok {t : Routines nmo} (ht : RightRoutines t) (hn : Fintype.card ι = nmo) (useSvd : Bool) {dtol etol : ℝ} (he : 0 ≤ etol)
    {l : List (Frag ι)} (hp : ∀ x ∈ l, x.se.poles ≠ []) (hsym : useSvd = true ∨ ∀ x ∈ l, ∀ a ∈ x.se.poles, a.l = a.r) (hr : Resolved s dtol etol l) :
    ∃ ys, l.mapM (m := Except PyErr) (loop1 s t false useSvd etol) = .ok ys ∧ (∀ f : ℝ → ℝ, reW f ys.flatten = democratic s f l) ∧
      Separated dtol (ys.flatten.map fun a => a.e) := by
  have key : ∀ x ∈ l, ∃ y, loop1 s t false useSvd etol x = .ok y ∧ (x ∈ l ∧ (∀ b ∈ y, ∃ a ∈ x.se.poles, b.e = a.e) ∧ ∀ f : ℝ → ℝ, reW f y = frag1 s false f x) := by
    intro x hx
    obtain ⟨y, h1, h2, h3⟩ := poles1_ok (s := s) ht false useSvd he (hp x hx) (hsym.imp_right fun h => h x hx)
    refine ⟨y, ?_, hx, h2, h3 fun a ha => ?_⟩
    · unfold loop1
      rw [sized, if_pos (Or.inr hn)]; exact h1
    · rw [symCoup_eq (cfc_symm s x)]
      exact hr.poles x hx a ha
  obtain ⟨ys, h1, h2⟩ := mapM_forall key
  refine ⟨ys, h1, fun f => ?_, ?_⟩
  · rw [← frag1_false]
    exact forall_reW f _ (h2.imp fun x y h => h.2.2 f)
  · have hmem : ∀ e ∈ ys.flatten.map (fun a => a.e), e ∈ l.flatMap fun x => x.se.poles.map fun a => a.e := by
      intro e he'
      obtain ⟨b, hb, rfl⟩ := List.mem_map.mp he'
      obtain ⟨y, hy, hby⟩ := List.mem_flatten.mp hb
      obtain ⟨x, hx, _, hh, _⟩ := forall_mem h2 y hy
      obtain ⟨a, ha, hab⟩ := hh b hby
      exact List.mem_flatMap.mpr ⟨x, hx, List.mem_map.mpr ⟨a, ha, hab.symm⟩⟩
    exact fun a ha b hb => hr.energies a (hmem a ha) b (hmem b hb)

/-- One projector: if nothing is below the thresholds, the poles that are returned give the democratically partitioned sums over the poles of all
clusters with all weights — so in particular the moments of `make_self_energy_moments` — if and only if all residues are positive semidefinite. -/
theorem self_energy_1proj_iff {t : Routines nmo} (ht : RightRoutines t) (hn : Fintype.card ι = nmo) (useSvd drop : Bool) {dtol etol : ℝ} (hd : 0 < dtol)
    (he : 0 ≤ etol) {l : List (Frag ι)} (hp : ∀ x ∈ l, x.se.poles ≠ []) (hsym : useSvd = true ∨ ∀ x ∈ l, ∀ a ∈ x.se.poles, a.l = a.r)
    (hr : Resolved s dtol etol l) (h0 : ∃ f : ℝ → ℝ, democratic s f l ≠ 0) :
    (∃ r, make1proj s stat t false useSvd dtol etol drop l = .ok r ∧ ∀ f : ℝ → ℝ, weighted f r.se = democratic s f l)
      ↔ ∀ E, (democratic s (only E) l).PosSemidef := by
  constructor
  · rintro ⟨r, h1, h2⟩ E
    rw [← h2]
    exact self_energy_1proj_causal ht.sort h1 fun e => by unfold only; split <;> norm_num
  · intro hpsd
    obtain ⟨ys, h1, h2, h3⟩ := raw_ok (s := s) ht hn useSvd he hp hsym hr
    have hlne : l ≠ [] := by
      rintro rfl
      obtain ⟨f, hf⟩ := h0
      exact hf (by simp [democratic])
    have hre : ∀ f : ℝ → ℝ, reW f (t.sortC ys.flatten) = democratic s f l := fun f => by rw [reW_perm f (ht.sortC _).1, h2]
    have hne : t.sortC ys.flatten ≠ [] := by
      intro hc
      obtain ⟨f, hf⟩ := h0
      exact hf (by rw [← hre, hc]; simp [reW])
    have hsep : Separated dtol ((t.sortC ys.flatten).map fun a => a.e) := by
      have hm : ∀ e ∈ (t.sortC ys.flatten).map (fun a => a.e), e ∈ ys.flatten.map fun a => a.e := fun e h => (((ht.sortC _).1.map _).mem_iff).mp h
      exact fun a ha b hb => h3 a (hm a ha) b (hm b hb)
    obtain ⟨y, h4, h5⟩ := removeDegeneracy_weighted ht hd he drop hne (ht.sortC _).2 hsep (fun E => by rw [hre]; exact hpsd E)
      (fun E => by rw [hre]; exact hr.residues E)
    have heq : make1proj s stat t false useSvd dtol etol drop l = .ok ⟨y, (l.map (Frag.static1 s false)).sum, (l.map (Frag.pot1 s stat false)).sum⟩ := by
      rw [make1proj_eq, chosen_false, if_neg (by simpa using hlne), h1]
      show Except.map _ (removeDegeneracy t dtol etol drop (t.sortC ys.flatten)) = _
      rw [h4]; rfl
    exact ⟨_, heq, fun f => (h5 f).trans (hre f)⟩

private theorem dynamic_psd (w : Whole nmo) {f : ℝ → ℝ} (hf : ∀ e, 0 ≤ f e) : (w.dynamic f).PosSemidef := by
  have h : w.dynamic f = weighted f (w.poles.map fun a => ⟨a.1, a.2, a.2⟩) := by rw [weighted, List.map_map]; rfl
  rw [h]
  refine weighted_posSemidef hf fun a ha => ?_
  obtain ⟨b, _, rfl⟩ := List.mem_map.mp ha
  rfl

/-- One projector: with exact clusters which span all orbitals, and fragments which are a partition, the poles, the static self-energy and the static
potential are those of the whole system, with singular vectors or with eigenvectors. -/
theorem self_energy_1proj_exact [DecidableEq ι] {t : Routines nmo} (ht : RightRoutines t) {w : Whole nmo} (hs : Orbitals s) (hf : w.firstᵀ = w.first)
    (hv : w.potᵀ = w.pot) (useSvd drop : Bool) {dtol etol : ℝ} (hd : 0 < dtol) (he : 0 ≤ etol) {l : List (Frag ι)} (hl : PartitionOfUnity s l)
    (hx : ∀ x ∈ l, ExactSelfEnergy s stat w x) (hr : Resolved s dtol etol l) (h0 : ∃ f : ℝ → ℝ, w.dynamic f ≠ 0) :
    ∃ r, make1proj s stat t false useSvd dtol etol drop l = .ok r ∧ (∀ f : ℝ → ℝ, weighted f r.se = w.dynamic f) ∧
      r.static = w.first - s.moᵀ * s.fock * s.mo ∧ r.pot = s.mo * w.pot * s.moᵀ := by
  have hdem := fun f => democratic_exact hs hl hx f
  have hwp : w.poles ≠ [] := by
    rintro hc
    obtain ⟨f, hf⟩ := h0
    exact hf (by simp [Whole.dynamic, hc])
  obtain ⟨r, h1, h2⟩ := (self_energy_1proj_iff (stat := stat) ht hs.complete useSvd drop hd he
    (fun x hxl => by
      rw [(hx x hxl).poles]
      simp [Se.poles, hwp])
    (Or.inr fun x hxl a ha => by
      rw [(hx x hxl).poles] at ha
      obtain ⟨b, _, rfl⟩ := List.mem_map.mp ha
      rfl) hr (by obtain ⟨f, hf⟩ := h0; exact ⟨f, by rw [hdem]; exact hf⟩)).mpr fun E => by
      rw [hdem]; exact dynamic_psd w fun e => by unfold only; split <;> norm_num
  refine ⟨r, h1, fun f => (h2 f).trans (hdem f), ?_⟩
  have h3 : r.static = (l.map (Frag.static1 s false)).sum ∧ r.pot = (l.map (Frag.pot1 s stat false)).sum := by
    rw [make1proj_eq, chosen_false] at h1
    split at h1
    · cases h1
    · revert h1
      cases (l.mapM (m := Except PyErr) (loop1 s t false useSvd etol)).map List.flatten with
      | error e => intro h; cases h
      | ok raw =>
        intro h1
        replace h1 : Except.map _ (removeDegeneracy t dtol etol drop (t.sortC raw)) = .ok r := h1
        cases hrd : removeDegeneracy t dtol etol drop (t.sortC raw) with
        | error e => rw [hrd] at h1; cases h1
        | ok y => rw [hrd] at h1; cases h1; exact ⟨rfl, rfl⟩
  exact ⟨h3.1.trans (static1_exact hs hf hl hx), h3.2.trans (pot1_exact hs hv hl hx)⟩

/-! ## Symmetry -/

private theorem chosen_sym {l : List (Frag ι)} (h : ∀ x ∈ l, ∀ u ∈ x.ops, SymmetryOf s u) : ∀ x ∈ chosen true l, ∀ u ∈ x.ops, SymmetryOf s u :=
  fun x hx => h x (List.mem_filter.mp hx).1

/-- Symmetry changes nothing: using it, for fragments without parents and their images, is the same as not using it for the list of all these fragments
with the same cluster results, for moments … -/
theorem self_energy_moments_symmetry {l : List (Frag ι)} (h : ∀ x ∈ l, ∀ u ∈ x.ops, SymmetryOf s u) (n : Nat) (proj : Int) :
    makeMoments s stat n true proj l = makeMoments s stat n false proj (allImages l) := by
  have hc := chosen_sym h
  unfold makeMoments
  dsimp only
  rw [chosen_false, allImages_eq, family_isEmpty]
  by_cases h1 : proj = 1
  · rw [if_pos h1, if_pos h1, family_sum _ _ _ fun x hx => family_static1 (hc x hx), family_sum _ _ _ fun x hx => family_pot1 (hc x hx)]
    congr 2
    exact funext fun k => (family_sum _ _ _ fun x hx => family_mom1 (hc x hx) k).symm
  · rw [if_neg h1, if_neg h1]
    by_cases h2 : proj = 2
    · rw [if_pos h2, if_pos h2, family_sum _ _ _ fun x hx => family_static2 (hc x hx), family_sum _ _ _ fun x hx => family_pot2 (hc x hx)]
      congr 2
      exact funext fun k => (family_sum _ _ _ fun x hx => family_mom2 (hc x hx) k).symm
    · rw [if_neg h2, if_neg h2]

/-- … for one projector … -/
theorem self_energy_1proj_symmetry {l : List (Frag ι)} (h : ∀ x ∈ l, ∀ u ∈ x.ops, SymmetryOf s u) (t : Routines nmo) (useSvd drop : Bool) (dtol etol : ℝ) :
    make1proj s stat t true useSvd dtol etol drop l = make1proj s stat t false useSvd dtol etol drop (allImages l) := by
  have hc := chosen_sym h
  rw [make1proj_eq, make1proj_eq, chosen_false, allImages_eq, family_isEmpty, family_sum _ _ _ fun x hx => family_static1 (hc x hx),
    family_sum _ _ _ fun x hx => family_pot1 (hc x hx), mapM_family family _ _ _ fun x hx => family_loop1 t useSvd etol (hc x hx)]

/-- … and for two projectors. -/
theorem self_energy_2proj_symmetry {l : List (Frag ι)} (h : ∀ x ∈ l, ∀ u ∈ x.ops, SymmetryOf s u) (sort : Sorter nmo) :
    make2proj s stat sort true l = make2proj s stat sort false (allImages l) := by
  have hc := chosen_sym h
  have hs := family_sum _ _ _ fun x hx => family_static2 (hc x hx)
  have hv := family_sum _ _ _ fun x hx => family_pot2 (stat := stat) (hc x hx)
  unfold make2proj
  dsimp only
  rw [chosen_false, allImages_eq]
  cases hl : chosen true l with
  | nil => rfl
  | cons x xs =>
    rw [hl] at hs hv
    have hall : (((x :: xs).flatMap family).all fun y => y.se.isTuple == (bare x).se.isTuple) = ((x :: xs).all fun y => y.se.isTuple == x.se.isTuple) := by
      rw [List.all_flatMap]
      congr 1
      funext y
      unfold family
      rw [List.all_cons, List.all_map]
      have h1 : ((fun z : Frag ι => z.se.isTuple == (bare x).se.isTuple) ∘ fun u => y.image u) = fun _ => (y.se.isTuple == x.se.isTuple) := rfl
      rw [h1]
      show ((y.se.isTuple == x.se.isTuple) && _) = _
      cases hb : y.se.isTuple == x.se.isTuple
      · rfl
      · simp
    have hcons : (x :: xs).flatMap family = bare x :: ((x.ops.map fun u => x.image u) ++ xs.flatMap family) := rfl
    have hpoles : ((x :: xs).flatMap family).flatMap (Frag.poles2 s false) = (x :: xs).flatMap (Frag.poles2 s true) := by
      rw [List.flatMap_assoc]
      exact List.flatMap_congr fun y _ => family_poles2 y
    rw [hcons] at hall hs hv hpoles ⊢
    dsimp only
    rw [hall, hs, hv, hpoles]

/-! ## Unique energies -/

private theorem slices_chain (atol : ℝ) : ∀ (xs pre : List ℝ), List.IsChain (fun s t : Nat × Nat => s.2 = t.1 ∧
      ∀ x y, (pre ++ xs)[s.1]? = some x → (pre ++ xs)[t.1]? = some y → atol ≤ |x - y|) (slices atol pre.length xs)
    ∧ ∀ t, (slices atol pre.length xs).head? = some t → t.1 = pre.length
  | [], pre => by simp [slices]
  | x :: xs, pre => by
    rw [slices]
    obtain ⟨w, hw⟩ : ∃ w, w = xs.takeWhile fun y => decide (|x - y| < atol) := ⟨_, rfl⟩
    rw [← hw]
    have htake : xs.take w.length = w := by rw [hw, take_takeWhile]
    have ih := slices_chain atol (xs.drop w.length) (pre ++ x :: w)
    have h1 : (pre ++ x :: w).length = pre.length + (w.length + 1) := by simp
    have h2 : pre ++ x :: w ++ xs.drop w.length = pre ++ x :: xs := by
      rw [List.append_assoc, List.cons_append]
      congr 2
      conv_rhs => rw [← List.take_append_drop w.length xs, htake]
    rw [h1, h2] at ih
    refine ⟨List.isChain_cons.mpr ⟨fun t ht => ?_, ih.1⟩, fun t ht => ?_⟩
    · have ht1 := ih.2 t ht
      refine ⟨ht1.symm, fun a b ha hb => ?_⟩
      have ha' : a = x := by simpa using ha.symm
      have hd : xs.drop w.length = xs.dropWhile fun y => decide (|x - y| < atol) := by rw [hw, drop_takeWhile]
      rw [ht1, ← h2, ← h1, List.getElem?_append_right (le_refl _), Nat.sub_self, hd] at hb
      have hb' : (xs.dropWhile fun y => decide (|x - y| < atol)).head? = some b := by rw [List.head?_eq_getElem?]; exact hb
      have := List.head?_dropWhile_not (fun y => decide (|x - y| < atol)) xs
      rw [hb'] at this
      rw [ha']
      simpa using this
    · simp only [List.head?_cons, Option.some.injEq] at ht
      rw [← ht]
termination_by xs => xs.length
decreasing_by simp

/-- `get_unique`: the slices are consecutive and cover the whole array, each has all elements near its first one, the first elements of two
consecutive slices are apart, and the new array has the averages. -/
theorem get_unique_slices (atol : ℝ) (a : List ℝ) :
    ((getUnique atol a).2.map (slice a)).flatten = a ∧
    (getUnique atol a).1 = (getUnique atol a).2.map (fun s => (slice a s).sum / (slice a s).length) ∧
    (∀ s ∈ (getUnique atol a).2, ∃ x t, slice a s = x :: t ∧ ∀ y ∈ t, |x - y| < atol) ∧
    (getUnique atol a).2.IsChain (fun s t => s.2 = t.1 ∧ ∀ x y, a[s.1]? = some x → a[t.1]? = some y → atol ≤ |x - y|) := by
  have hg := slices_groups (fun x : ℝ => x) atol a []
  rw [List.nil_append, List.length_nil, List.map_id'] at hg
  refine ⟨?_, rfl, fun s hs => ?_, ?_⟩
  · show ((slices atol 0 a).map (slice a)).flatten = a
    rw [hg, groups_flatten]
  · have : slice a s ∈ groups (fun x : ℝ => x) atol a := by rw [← hg]; exact List.mem_map.mpr ⟨s, hs, rfl⟩
    exact groups_ne _ _ _ _ this
  · exact (slices_chain atol a []).1

/-- The average of all energies is kept. -/
theorem get_unique_sum (atol : ℝ) (a : List ℝ) :
    (((getUnique atol a).1.zip (getUnique atol a).2).map fun es => es.1 * ((slice a es.2).length : ℝ)).sum = a.sum := by
  obtain ⟨h1, h2, h3, _⟩ := get_unique_slices atol a
  conv_rhs => rw [← h1, List.sum_flatten, List.map_map]
  rw [h2]
  obtain ⟨l, hl⟩ : ∃ l, l = (getUnique atol a).2 := ⟨_, rfl⟩
  rw [← hl] at h3 ⊢
  clear h1 h2 hl
  induction l with
  | nil => rfl
  | cons b l ih =>
    rw [List.map_cons, List.zip_cons_cons, List.map_cons, List.sum_cons, List.map_cons, List.sum_cons, ih fun s hs => h3 s (List.mem_cons_of_mem _ hs)]
    congr 1
    obtain ⟨x, t, hx, _⟩ := h3 b (by simp)
    have : ((slice a b).length : ℝ) ≠ 0 := by rw [hx]; simp; positivity
    show (slice a b).sum / _ * _ = (slice a b).sum
    field_simp

/-! ## Other inputs -/

/-- `proj` other than 1 and 2: zeros, no exception. No fragments: zeros, ValueError with one projector, IndexError with two. Fewer molecular than atomic
orbitals: ValueError in all functions. -/
theorem self_energy_other_inputs (t : Routines nmo) (sort : Sorter nmo) (useSym useSvd drop : Bool) (dtol etol : ℝ) (n : Nat) (l : List (Frag ι)) :
    (∀ proj : Int, proj ≠ 1 → proj ≠ 2 → ∃ r, makeMoments s stat n useSym proj l = .ok r ∧ (∀ k, r.se k = 0) ∧ r.static = 0 ∧ r.pot = 0) ∧
    ((∀ proj : Int, ∃ r, makeMoments s stat n useSym proj [] = .ok r ∧ (∀ k, r.se k = 0) ∧ r.static = 0 ∧ r.pot = 0) ∧
      make1proj s stat t useSym useSvd dtol etol drop [] = .error .valueError ∧ make2proj s stat sort useSym [] = .error .indexError) ∧
    (Fintype.card ι ≠ nmo → ∀ x : Frag ι, x.root = true →
      makeMoments s stat n useSym 1 (x :: l) = .error .valueError ∧ makeMoments s stat n useSym 2 (x :: l) = .error .valueError ∧
      make1proj s stat t useSym useSvd dtol etol drop (x :: l) = .error .valueError ∧ make2proj s stat sort useSym (x :: l) = .error .valueError) := by
  refine ⟨fun proj h1 h2 => ?_, ⟨fun proj => ?_, ?_, ?_⟩, fun hc x hx => ?_⟩
  · unfold makeMoments
    rw [if_neg h1, if_neg h2]
    exact ⟨_, rfl, fun _ => rfl, rfl, rfl⟩
  · have he : chosen useSym ([] : List (Frag ι)) = [] := by cases useSym <;> rfl
    unfold makeMoments
    dsimp only
    rw [he]
    split
    · exact ⟨_, if_pos (Or.inl rfl), fun _ => rfl, rfl, rfl⟩
    · split
      · exact ⟨_, if_pos (Or.inl rfl), fun _ => rfl, rfl, rfl⟩
      · exact ⟨_, rfl, fun _ => rfl, rfl, rfl⟩
  · cases useSym <;> rfl
  · cases useSym <;> rfl
  · obtain ⟨l', hl'⟩ : ∃ l', chosen useSym (x :: l) = x :: l' := by
      cases useSym
      · exact ⟨l, rfl⟩
      · exact ⟨l.filter fun y => y.root, by rw [chosen_true, List.filter_cons, if_pos hx]⟩
    have hz : ¬ ((x :: l').isEmpty = true ∨ Fintype.card ι = nmo) := by simp [hc]
    have hl1 : loop1 s t useSym useSvd etol x = .error .valueError := by
      unfold loop1
      rw [sized, if_neg (by simp [hc])]; rfl
    refine ⟨?_, ?_, ?_, ?_⟩
    · unfold makeMoments
      dsimp only
      rw [if_pos rfl, hl', sized, if_neg hz]
    · unfold makeMoments
      dsimp only
      rw [if_neg (by norm_num), if_pos rfl, hl', sized, if_neg hz]
    · rw [make1proj_eq, hl', List.mapM_cons, hl1]; rfl
    · unfold make2proj
      dsimp only
      rw [hl']
      dsimp only
      rw [if_pos hc]

/-- Two projectors: couplings which are arrays for some clusters and tuples for others: ValueError. -/
theorem self_energy_2proj_mixed (sort : Sorter nmo) (useSym : Bool) {l : List (Frag ι)} {x y : Frag ι} (hx : x ∈ l) (hy : y ∈ l) (hxr : x.root = true)
    (hyr : y.root = true) (hxy : x.se.isTuple ≠ y.se.isTuple) : make2proj s stat sort useSym l = .error .valueError := by
  have hin : ∀ z ∈ l, z.root = true → z ∈ chosen useSym l := fun z hz hr => by
    cases useSym
    · exact hz
    · exact List.mem_filter.mpr ⟨hz, hr⟩
  have hx' := hin x hx hxr
  have hy' := hin y hy hyr
  unfold make2proj
  dsimp only
  cases hc : chosen useSym l with
  | nil => rw [hc] at hx'; cases hx'
  | cons z zs =>
    dsimp only
    split
    · rfl
    · rw [if_neg]
      intro hall
      rw [List.all_eq_true] at hall
      rw [hc] at hx' hy'
      have h1 := hall x hx'
      have h2 := hall y hy'
      simp only [beq_iff_eq] at h1 h2
      exact hxy (h1.trans h2.symm)

/-! ## Examples -/

/-- A singular value decomposition exists for every matrix. -/
theorem exists_svd {n : Nat} (m : Matrix (Fin n) (Fin n) ℝ) : ∃ g : Svd n, IsSvd m g := by
  have hsym : (mᵀ * m)ᵀ = mᵀ * m := by rw [transpose_mul, transpose_transpose]
  obtain ⟨hv, hm⟩ := anyEigh_diagonalises (mᵀ * m) hsym
  obtain ⟨g, hg⟩ : ∃ g, g = anyEigh (mᵀ * m) := ⟨_, rfl⟩
  rw [← hg] at hv hm
  have hgram : (m * g.vec)ᵀ * (m * g.vec) = diagonal g.val := by
    rw [transpose_mul, Matrix.mul_assoc, ← Matrix.mul_assoc mᵀ, hm, ← Matrix.mul_assoc, hv, Matrix.one_mul]
  have hdot : ∀ i j, ∑ p, (m * g.vec) p i * (m * g.vec) p j = if i = j then g.val i else 0 := by
    intro i j
    have h1 := congrFun (congrFun hgram i) j
    rw [Matrix.mul_apply, diagonal_apply] at h1
    exact h1
  have hnn : ∀ i, 0 ≤ g.val i := by
    intro i
    have h1 := hdot i i
    rw [if_pos rfl] at h1
    rw [← h1]
    exact Finset.sum_nonneg fun p _ => mul_self_nonneg _
  let σ : Fin n → ℝ := fun i => Real.sqrt (g.val i)
  let v : Fin n → EuclideanSpace ℝ (Fin n) := fun i => WithLp.toLp 2 fun p => (σ i)⁻¹ * (m * g.vec) p i
  have hon : Orthonormal ℝ (({i | σ i ≠ 0} : Set (Fin n)).domRestrict v) := by
    rw [orthonormal_iff_ite]
    rintro ⟨i, hi⟩ ⟨j, hj⟩
    show inner ℝ (v i) (v j) = _
    rw [PiLp.inner_apply]
    have h1 : ∀ p, inner ℝ ((v i).ofLp p) ((v j).ofLp p) = (σ i)⁻¹ * (σ j)⁻¹ * ((m * g.vec) p i * (m * g.vec) p j) := by
      intro p
      show ((σ j)⁻¹ * (m * g.vec) p j) * ((σ i)⁻¹ * (m * g.vec) p i) = _
      ring
    rw [Finset.sum_congr rfl fun p _ => h1 p, ← Finset.mul_sum, hdot]
    by_cases hij : i = j
    · subst hij
      rw [if_pos rfl, if_pos rfl]
      have h2 : σ i * σ i = g.val i := Real.mul_self_sqrt (hnn i)
      rw [← h2]
      have : σ i ≠ 0 := hi
      field_simp
    · rw [if_neg hij, if_neg (by simpa [Subtype.ext_iff] using hij), mul_zero]
  obtain ⟨b, hb⟩ := hon.exists_orthonormalBasis_extension_of_card_eq (by simp)
  refine ⟨⟨fun p i => (b i).ofLp p, σ, g.vecᵀ⟩, ?_, ?_, fun i => Real.sqrt_nonneg _, ?_⟩
  · ext i j
    have h1 := orthonormal_iff_ite.mp b.orthonormal i j
    rw [PiLp.inner_apply] at h1
    rw [Matrix.mul_apply, Matrix.one_apply, ← h1]
    refine Finset.sum_congr rfl fun p _ => ?_
    show (b i).ofLp p * (b j).ofLp p = (b j).ofLp p * (b i).ofLp p
    ring
  · show g.vecᵀ * g.vecᵀᵀ = 1
    rw [transpose_transpose]; exact hv
  · show m = (Matrix.of fun p i => (b i).ofLp p) * diagonal σ * g.vecᵀ
    have h1 : (Matrix.of fun p i => (b i).ofLp p) * diagonal σ = m * g.vec := by
      ext p i
      rw [mul_diagonal]
      show (b i).ofLp p * σ i = _
      by_cases hi : σ i = 0
      · rw [hi, mul_zero]
        have h2 := hdot i i
        rw [if_pos rfl, (Real.sqrt_eq_zero (hnn i)).mp hi] at h2
        have h3 := (Finset.sum_eq_zero_iff_of_nonneg fun p _ => mul_self_nonneg ((m * g.vec) p i)).mp h2 p (Finset.mem_univ p)
        exact (mul_self_eq_zero.mp h3).symm
      · rw [hb i hi]
        show (σ i)⁻¹ * (m * g.vec) p i * σ i = _
        field_simp
    rw [h1, Matrix.mul_assoc, mul_eq_one_comm.mp hv, Matrix.mul_one]

/-- Right routines exist. -/
noncomputable def anyRoutines (nmo : Nat) : Routines nmo where
  svd := fun _ m => (exists_svd m).choose
  eigh := fun _ m => anyEigh m
  sortC := fun x => x.mergeSort fun a b => decide (a.e ≤ b.e)
  sort := fun x => x.mergeSort fun a b => decide (a.e ≤ b.e)

theorem anyRoutines_right (nmo : Nat) : RightRoutines (anyRoutines nmo) where
  svd := fun _ m => (exists_svd m).choose_spec
  eigh := fun _ m hm => anyEigh_diagonalises m hm
  sortC := fun x => ⟨List.mergeSort_perm _ _, by
    have h := List.pairwise_mergeSort (le := fun a b : Pole (Fin nmo) ℂ => decide (a.e ≤ b.e))
      (fun a b c h1 h2 => by simp only [decide_eq_true_eq] at *; linarith) (fun a b => by simp only [Bool.or_eq_true, decide_eq_true_eq]; exact le_total _ _) x
    exact h.imp fun h => by simpa using h⟩
  sort := fun x => List.mergeSort_perm _ _

/-- Two orbitals. -/
def twoSys : Sys (Fin 2) 2 := ⟨1, !![-1, 0; 0, 1], 1⟩

theorem twoSys_orbitals : Orbitals twoSys where
  overlap := transpose_one
  fock := by ext i j; fin_cases i <;> fin_cases j <;> rfl
  orthonormal := by simp [twoSys]
  complete := rfl

/-- A static potential. -/
noncomputable def firstStat : AsStatic := fun _ se _ => weighted (fun e => e) se.poles

/-- Two poles. -/
noncomputable def twoWhole : Whole 2 where
  poles := [(2, ![1, 1]), (-3, ![1, 0])]
  first := !![-2, 1; 1, 3]
  pot := weighted (fun e => e) [⟨2, ![1, 1], ![1, 1]⟩, ⟨-3, ![1, 0], ![1, 0]⟩]

/-- A fragment of one orbital, in a cluster of both. -/
def orbFrag (k : Fin 2) (se : Se 2) : Frag (Fin 2) where
  nf := 1
  nc := 2
  cFrag := fun p _ => if p = k then 1 else 0
  cAct := 1
  th1 := !![-2, 1; 1, 0]
  tp1 := !![0, 0; 0, 3]
  se := se
  root := true
  ops := []

private abbrev M2 := Matrix (Fin 2) (Fin 2) ℝ

private theorem one3 : (1 : M2)ᵀ * (1 : M2) * (1 : M2) = 1 := by simp

private theorem one3' : (1 : M2) * (1 : M2)ᵀ * (1 : M2) = 1 := by simp

private theorem two_poles : (Se.array twoWhole.poles : Se 2) = Se.array (twoWhole.poles.map fun a => (a.1, ((1 : M2)ᵀ * (1 : M2) * (1 : M2))ᵀ *ᵥ a.2)) := by
  rw [one3, transpose_one]
  simp only [Matrix.one_mulVec, Prod.mk.eta, List.map_id']

private theorem two_first : (!![-2, 1; 1, 0] : M2) + (!![0, 0; 0, 3] : M2)
    = ((1 : M2)ᵀ * (1 : M2) * (1 : M2))ᵀ * twoWhole.first * ((1 : M2)ᵀ * (1 : M2) * (1 : M2)) := by
  rw [one3, transpose_one, Matrix.one_mul, Matrix.mul_one]
  ext i j; fin_cases i <;> fin_cases j <;> simp [twoWhole]

private theorem two_pot : twoWhole.pot = ((1 : M2)ᵀ * (1 : M2) * (1 : M2))ᵀ * twoWhole.pot * ((1 : M2)ᵀ * (1 : M2) * (1 : M2)) := by
  rw [one3, transpose_one, Matrix.one_mul, Matrix.mul_one]

theorem orbFrag_exact (k : Fin 2) : ExactSelfEnergy twoSys firstStat twoWhole (orbFrag k (.array twoWhole.poles)) where
  complete := one3'
  poles := two_poles
  first := two_first
  pot := two_pot

/-- The orbital of a fragment. -/
def orbCol (k : Fin 2) : Matrix (Fin 2) (Fin 1) ℝ := Matrix.of fun p _ => if p = k then 1 else 0

theorem orbFrag_partition (a b : Se 2) : PartitionOfUnity twoSys [orbFrag 0 a, orbFrag 1 b] := by
  show (orbCol 0 * (orbCol 0)ᵀ * (1 : M2)) + ((orbCol 1 * (orbCol 1)ᵀ * (1 : M2)) + 0) = (1 : M2)
  rw [Matrix.mul_one, Matrix.mul_one, add_zero]
  ext i j
  fin_cases i <;> fin_cases j <;> simp [orbCol, Matrix.mul_apply]

theorem two_dynamic : ∃ f : ℝ → ℝ, twoWhole.dynamic f ≠ 0 := by
  refine ⟨fun _ => 1, fun h => ?_⟩
  have := congrFun (congrFun h 1) 1
  simp [Whole.dynamic, twoWhole, vecMulVec_apply] at this

theorem two_symm : twoWhole.firstᵀ = twoWhole.first ∧ twoWhole.potᵀ = twoWhole.pot := by
  constructor
  · ext i j; fin_cases i <;> fin_cases j <;> rfl
  · show (weighted (fun e => e) _)ᵀ = weighted (fun e => e) _
    refine weighted_same_transpose (p := Fin 2) _ fun a ha => ?_
    simp only [List.mem_cons, List.not_mem_nil, or_false] at ha
    rcases ha with rfl | rfl <;> rfl

theorem two_resolved : Resolved twoSys (1 / 10000) 0 [orbFrag 0 (.array twoWhole.poles), orbFrag 1 (.array twoWhole.poles)] :=
  ⟨fun _ _ _ _ => significant_zero _, fun _ => significant_zero _, by
    intro a ha b hb hab
    have hen : ∀ e ∈ [orbFrag 0 (.array twoWhole.poles), orbFrag 1 (.array twoWhole.poles)].flatMap (fun x => x.se.poles.map fun a => a.e), e = 2 ∨ e = -3 := by
      intro e he
      simp [orbFrag, Se.poles, twoWhole] at he
      rcases he with h | h | h | h <;> simp [h]
    rcases hen a ha with rfl | rfl <;> rcases hen b hb with rfl | rfl <;> first | rfl | (norm_num at hab)⟩

/-- Exact clusters: two fragments. -/
example (useSvd drop : Bool) : ∃ r, make1proj twoSys firstStat (anyRoutines 2) false useSvd (1 / 10000) 0 drop
      [orbFrag 0 (.array twoWhole.poles), orbFrag 1 (.array twoWhole.poles)] = .ok r ∧ ∀ f : ℝ → ℝ, weighted f r.se = twoWhole.dynamic f := by
  have hx : ∀ x ∈ [orbFrag 0 (.array twoWhole.poles), orbFrag 1 (.array twoWhole.poles)], ExactSelfEnergy twoSys firstStat twoWhole x := by
    intro x hx
    simp only [List.mem_cons, List.not_mem_nil, or_false] at hx
    rcases hx with rfl | rfl <;> exact orbFrag_exact _
  obtain ⟨r, h1, h2, _⟩ := self_energy_1proj_exact (anyRoutines_right 2) twoSys_orbitals two_symm.1 two_symm.2 useSvd drop (dtol := 1 / 10000) (etol := 0)
    (by norm_num) (le_refl _) (orbFrag_partition _ _) hx two_resolved two_dynamic
  exact ⟨r, h1, h2⟩

example : ∃ r, makeMoments twoSys firstStat 5 false 1 [orbFrag 0 (.array twoWhole.poles), orbFrag 1 (.array twoWhole.poles)] = .ok r ∧
    r.static = twoWhole.first - twoSys.moᵀ * twoSys.fock * twoSys.mo := by
  obtain ⟨r, h1, _, h2, _⟩ := self_energy_moments_exact twoSys_orbitals two_symm.1 two_symm.2 (orbFrag_partition _ _) (fun x hx => by
    simp only [List.mem_cons, List.not_mem_nil, or_false] at hx
    rcases hx with rfl | rfl <;> exact orbFrag_exact _) 5
  exact ⟨r, h1, h2⟩

/-- Two fragments with poles of different energies. -/
noncomputable def apart : List (Frag (Fin 2)) := [orbFrag 0 (.array [(2, ![1, 1])]), orbFrag 1 (.array [(5, ![1, 1])])]

private theorem apart_residue : democratic twoSys (only 2) apart = !![1, 1 / 2; 1 / 2, 0] := by
  have h1 : weighted (only 2) [(⟨2, ![1, 1], ![1, 1]⟩ : Pole (Fin 2) ℝ)] = !![1, 1; 1, 1] := by
    ext i j; fin_cases i <;> fin_cases j <;> simp [weighted, only, vecMulVec_apply]
  have h2 : weighted (only 2) [(⟨5, ![1, 1], ![1, 1]⟩ : Pole (Fin 2) ℝ)] = 0 := by
    simp [weighted, only]
  have h3 : ((orbCol 0)ᵀ * (1 : M2) * (1 : M2))ᵀ * ((orbCol 0)ᵀ * (1 : M2) * (1 : M2)) = !![1, 0; 0, 0] := by
    rw [Matrix.mul_one, Matrix.mul_one]
    ext i j; fin_cases i <;> fin_cases j <;> simp [orbCol, Matrix.mul_apply]
  have h4 : ((1 : M2)ᵀ * (1 : M2) * (1 : M2)) * ((1 / 2 : ℝ) • (((orbCol 0)ᵀ * (1 : M2) * (1 : M2))ᵀ * ((orbCol 0)ᵀ * (1 : M2) * (1 : M2))
      * weighted (only 2) [⟨2, ![1, 1], ![1, 1]⟩] + weighted (only 2) [⟨2, ![1, 1], ![1, 1]⟩]
      * (((orbCol 0)ᵀ * (1 : M2) * (1 : M2))ᵀ * ((orbCol 0)ᵀ * (1 : M2) * (1 : M2))))) * ((1 : M2)ᵀ * (1 : M2) * (1 : M2))ᵀ
    + (((1 : M2)ᵀ * (1 : M2) * (1 : M2)) * ((1 / 2 : ℝ) • (((orbCol 1)ᵀ * (1 : M2) * (1 : M2))ᵀ * ((orbCol 1)ᵀ * (1 : M2) * (1 : M2))
      * weighted (only 2) [⟨5, ![1, 1], ![1, 1]⟩] + weighted (only 2) [⟨5, ![1, 1], ![1, 1]⟩]
      * (((orbCol 1)ᵀ * (1 : M2) * (1 : M2))ᵀ * ((orbCol 1)ᵀ * (1 : M2) * (1 : M2))))) * ((1 : M2)ᵀ * (1 : M2) * (1 : M2))ᵀ + 0)
      = !![1, 1 / 2; 1 / 2, 0] := by
    rw [h1, h2, h3, one3, transpose_one]
    simp only [Matrix.mul_zero, Matrix.zero_mul, add_zero, smul_zero, Matrix.one_mul, Matrix.mul_one]
    ext i j
    fin_cases i <;> fin_cases j <;> simp [Matrix.mul_apply, Fin.sum_univ_two] <;> norm_num
  exact h4

/-- Residues of partitioned self-energies need not be positive: what is not causal is lost without an exception, and the result differs from the moments of
the same clusters, whatever the option `drop_non_causal`. -/
theorem self_energy_1proj_loses_noncausal (useSvd drop : Bool) :
    ∃ r, make1proj twoSys firstStat (anyRoutines 2) false useSvd (1 / 10000) 0 drop apart = .ok r ∧
      ∃ f : ℝ → ℝ, weighted f r.se ≠ democratic twoSys f apart := by
  have hsym : ∀ x ∈ apart, ∀ a ∈ x.se.poles, a.l = a.r := by
    intro x hx a ha
    simp only [apart, List.mem_cons, List.not_mem_nil, or_false] at hx
    rcases hx with rfl | rfl <;>
    · rw [List.mem_singleton.mp ha]
  have hp : ∀ x ∈ apart, x.se.poles ≠ [] := by
    intro x hx
    simp only [apart, List.mem_cons, List.not_mem_nil, or_false] at hx
    rcases hx with rfl | rfl <;> simp [orbFrag, Se.poles]
  have hr : Resolved twoSys (1 / 10000) 0 apart := ⟨fun _ _ _ _ => significant_zero _, fun _ => significant_zero _, by
      intro a ha b hb hab
      have hen : ∀ e ∈ apart.flatMap (fun x => x.se.poles.map fun a => a.e), e = 2 ∨ e = 5 := by
        intro e he
        simpa [apart, orbFrag, Se.poles] using he
      rcases hen a ha with rfl | rfl <;> rcases hen b hb with rfl | rfl <;> first | rfl | (norm_num at hab)⟩
  have h0 : ∃ f : ℝ → ℝ, democratic twoSys f apart ≠ 0 := by
    refine ⟨only 2, fun h => ?_⟩
    rw [apart_residue] at h
    have := congrFun (congrFun h 0) 0
    simp at this
  have hnot : ¬ ∀ E, (democratic twoSys (only E) apart).PosSemidef := by
    intro h
    have h1 := (h 2).dotProduct_mulVec_nonneg ![1, -3]
    rw [apart_residue] at h1
    simp [dotProduct, Matrix.mulVec, Fin.sum_univ_two] at h1
    norm_num at h1
  have hiff := self_energy_1proj_iff (stat := firstStat) (anyRoutines_right 2) (by simp) useSvd drop (dtol := 1 / 10000) (etol := 0) (by norm_num) (le_refl _) hp
    (Or.inr hsym) hr h0
  obtain ⟨ys, h1, h2, h3⟩ := raw_ok (s := twoSys) (anyRoutines_right 2) (by simp) useSvd (le_refl _) hp (Or.inr hsym) hr
  have hok : ∃ r, make1proj twoSys firstStat (anyRoutines 2) false useSvd (1 / 10000) 0 drop apart = .ok r := by
    have hne : (anyRoutines 2).sortC ys.flatten ≠ [] := by
      intro hc
      obtain ⟨f, hf⟩ := h0
      exact hf (by rw [← h2, ← reW_perm f ((anyRoutines_right 2).sortC _).1, hc]; simp [reW])
    rw [make1proj_eq, chosen_false, if_neg (by simp [apart]), h1]
    show ∃ r, Except.map _ (removeDegeneracy (anyRoutines 2) (1 / 10000) 0 drop ((anyRoutines 2).sortC ys.flatten)) = .ok r
    rw [removeDegeneracy_eq _ _ _ _ hne]
    exact ⟨_, rfl⟩
  obtain ⟨r, hr'⟩ := hok
  refine ⟨r, hr', ?_⟩
  by_contra hc
  push Not at hc
  exact hnot (hiff.mp ⟨r, hr', hc⟩)

/-- One fragment of all orbitals. -/
noncomputable def wholeFrag : Frag (Fin 2) :=
  { nf := 2, nc := 2, cFrag := 1, cAct := 1, th1 := !![-2, 1; 1, 0], tp1 := !![0, 0; 0, 3], se := .array twoWhole.poles, root := true, ops := [] }

example : ∃ r, makeMoments twoSys firstStat 3 false 2 [wholeFrag] = .ok r ∧ ∀ k : Fin 3, r.se k = (1 / 2 : ℝ) • twoWhole.dynamic fun e => e ^ (k : Nat) := by
  have hx := orbFrag_exact 0
  exact (self_energy_moments_two_wrong twoSys_orbitals (anyRoutines_right 2).sort (x := wholeFrag) (w := twoWhole) (stat := firstStat)
    (by simp [PartitionOfUnity, wholeFrag, twoSys]) ⟨hx.complete, hx.poles, hx.first, hx.pot⟩ rfl 3).2

/-- Exchange of both orbitals is a symmetry if they have the same energy. -/
example : SymmetryOf (⟨1, !![2, 1; 1, 2], 1⟩ : Sys (Fin 2) 2) !![0, 1; 1, 0] := by
  constructor <;> (ext i j; fin_cases i <;> fin_cases j <;> simp [Matrix.mul_apply, Fin.sum_univ_two])

/-- Neighbours which are closer than the tolerance may end in different slices. -/
theorem get_unique_neighbours_apart : (getUnique 1 [0, 9 / 10, 11 / 10]).2 = [(0, 2), (2, 3)] ∧ |(9 / 10 : ℝ) - 11 / 10| < 1 := by
  refine ⟨?_, by norm_num [abs_lt]⟩
  have h1 : |(0 : ℝ) - 9 / 10| < 1 := by norm_num [abs_lt]
  have h2 : ¬ |(0 : ℝ) - 11 / 10| < 1 := by rw [zero_sub, abs_neg, abs_of_pos (by norm_num)]; norm_num
  simp only [getUnique, slices, List.takeWhile_cons, h1, h2, decide_true, decide_false, if_true, Bool.false_eq_true, if_false, List.takeWhile_nil, List.length_cons,
    List.length_nil, List.drop_succ_cons, List.drop_zero]

end Vayesta.Props
