import Verif.Props.Lowdin
import Verif.Model.ActSpace

/-! Active spaces of the ebcc solver. -/

namespace Vayesta.Props

open Vayesta.Lowdin Vayesta.ActSpace Matrix

variable {K : Type} [Field K] [LinearOrder K] [IsStrictOrderedRing K] {m : Nat}

/-- Orthonormal columns. -/
def OrthoCols (c : List (Col m K)) : Prop := c.Pairwise (fun u v => u ⬝ᵥ v = 0) ∧ ∀ v ∈ c, v ⬝ᵥ v = 1

/-- Component of `x` in the space of orthonormal columns `c`. -/
def along (c : List (Col m K)) (x : Col m K) : Col m K := (c.map fun f => (f ⬝ᵥ x) • f).sum

/-- The orbitals with indices in `l`, where the first index is `off`. -/
def withIndex (c : List (Col m K)) (off : Nat) (l : List Nat) : List (Col m K) := ((c.zipIdx off).filter fun x => decide (x.2 ∈ l)).map Prod.fst

omit [LinearOrder K] [IsStrictOrderedRing K] in
private theorem proj_mulVec (c : List (Col m K)) (x : Col m K) : proj c *ᵥ x = along c x := by
  induction c with
  | nil => simp [proj, along]
  | cons v c ih =>
    have e : proj (v :: c) = vecMulVec v v + proj c := by simp [proj]
    have e' : along (v :: c) x = (v ⬝ᵥ x) • v + along c x := by simp [along]
    rw [e, e', add_mulVec, ih, vecMulVec_mulVec]
    congr 1
    ext i
    simp [MulOpposite.smul_eq_mul_unop, mul_comm]

omit [LinearOrder K] [IsStrictOrderedRing K] in
private theorem along_zero (c : List (Col m K)) (x : Col m K) (h : ∀ v ∈ c, v ⬝ᵥ x = 0) : along c x = 0 := by
  unfold along
  apply List.sum_eq_zero
  intro y hy
  obtain ⟨v, hv, rfl⟩ := List.mem_map.mp hy
  rw [h v hv, zero_smul]

omit [LinearOrder K] [IsStrictOrderedRing K] in
private theorem along_self (c : List (Col m K)) (h : OrthoCols c) (v : Col m K) (hv : v ∈ c) : along c v = v := by
  induction c with
  | nil => cases hv
  | cons u c ih =>
    obtain ⟨hp, hn⟩ := h
    rw [List.pairwise_cons] at hp
    have e' : along (u :: c) v = (u ⬝ᵥ v) • u + along c v := by simp [along]
    rw [e']
    rcases List.mem_cons.mp hv with rfl | hv
    · rw [hn v List.mem_cons_self, one_smul, along_zero c v fun w hw => by rw [dotProduct_comm]; exact hp.1 w hw, add_zero]
    · rw [hp.1 v hv, zero_smul, zero_add]
      exact ih ⟨hp.2, fun w hw => hn w (List.mem_cons_of_mem _ hw)⟩ hv

omit [LinearOrder K] [IsStrictOrderedRing K] in
private theorem mul_proj (M : Matrix (Fin m) (Fin m) K) (c : List (Col m K)) : M * proj c = (c.map fun v => vecMulVec (M *ᵥ v) v).sum := by
  induction c with
  | nil => simp [proj]
  | cons v c ih =>
    have e : proj (v :: c) = vecMulVec v v + proj c := by simp [proj]
    rw [e, Matrix.mul_add, ih, List.map_cons, List.sum_cons, mul_vecMulVec]

omit [LinearOrder K] [IsStrictOrderedRing K] in
private theorem mul_proj_fix (M : Matrix (Fin m) (Fin m) K) (c : List (Col m K)) (h : ∀ v ∈ c, M *ᵥ v = v) : M * proj c = proj c := by
  rw [mul_proj, proj]
  congr 1
  exact List.map_congr_left fun v hv => by rw [h v hv]

omit [LinearOrder K] [IsStrictOrderedRing K] in
private theorem mul_proj_zero (M : Matrix (Fin m) (Fin m) K) (c : List (Col m K)) (h : ∀ v ∈ c, M *ᵥ v = 0) : M * proj c = 0 := by
  rw [mul_proj]
  apply List.sum_eq_zero
  intro y hy
  obtain ⟨v, hv, rfl⟩ := List.mem_map.mp hy
  rw [h v hv, zero_vecMulVec]

omit [LinearOrder K] [IsStrictOrderedRing K] in
private theorem proj_symm (c : List (Col m K)) : (proj c)ᵀ = proj c := by
  induction c with
  | nil => simp [proj]
  | cons v c ih =>
    have e : proj (v :: c) = vecMulVec v v + proj c := by simp [proj]
    rw [e, transpose_add, ih, transpose_vecMulVec]

omit [LinearOrder K] [IsStrictOrderedRing K] in
private theorem proj_idem (c : List (Col m K)) (h : OrthoCols c) : proj c * proj c = proj c :=
  mul_proj_fix _ c fun v hv => by rw [proj_mulVec, along_self c h v hv]

omit [LinearOrder K] [IsStrictOrderedRing K] in
private theorem proj_trace (c : List (Col m K)) (h : ∀ v ∈ c, v ⬝ᵥ v = 1) : trace (proj c) = (c.length : K) := by
  induction c with
  | nil => simp [proj]
  | cons v c ih =>
    have e : proj (v :: c) = vecMulVec v v + proj c := by simp [proj]
    rw [e, trace_add, ih fun w hw => h w (List.mem_cons_of_mem _ hw), trace_vecMulVec, h v List.mem_cons_self, List.length_cons]
    push_cast; ring

omit [LinearOrder K] [IsStrictOrderedRing K] in
private theorem proj_append (c d : List (Col m K)) : proj (c ++ d) = proj c + proj d := by simp [proj]

omit [LinearOrder K] [IsStrictOrderedRing K] in
private theorem along_append (c d : List (Col m K)) (x : Col m K) : along (c ++ d) x = along c x + along d x := by simp [along]

omit [LinearOrder K] [IsStrictOrderedRing K] in
private theorem ortho_append (c d : List (Col m K)) (hc : OrthoCols c) (hd : OrthoCols d) (h : ∀ u ∈ c, ∀ v ∈ d, u ⬝ᵥ v = 0) : OrthoCols (c ++ d) :=
  ⟨List.pairwise_append.mpr ⟨hc.1, hd.1, h⟩, fun v hv => by rcases List.mem_append.mp hv with hv | hv; exact hc.2 v hv; exact hd.2 v hv⟩

omit [LinearOrder K] [IsStrictOrderedRing K] in
private theorem ortho_sublist (c d : List (Col m K)) (h : OrthoCols d) (hs : c.Sublist d) : OrthoCols c :=
  ⟨h.1.sublist hs, fun v hv => h.2 v (hs.subset hv)⟩

omit [IsStrictOrderedRing K] in
private theorem above_ortho (g : Eig (Fin m) K) (h1 : g.vecᵀ * g.vec = 1) (tol : K) : OrthoCols (above g tol) := by
  have hd : ∀ k l, (fun i => g.vec i k) ⬝ᵥ (fun i => g.vec i l) = if k = l then (1 : K) else 0 := by
    intro k l
    have := congrFun (congrFun h1 k) l
    rw [Matrix.mul_apply, one_apply] at this
    exact this
  constructor
  · unfold above
    rw [List.pairwise_map]
    have hn : ((List.finRange m).filter fun k => tol < g.val k).Pairwise (· ≠ ·) := (List.nodup_finRange m).filter _
    exact hn.imp fun {k l} hkl => by rw [hd, if_neg hkl]
  · intro v hv
    obtain ⟨k, _, rfl⟩ := List.mem_map.mp hv
    rw [hd, if_pos rfl]

omit [IsStrictOrderedRing K] in
private theorem above_proj (g : Eig (Fin m) K) (tol : K) :
    proj (above g tol) = g.vec * diagonal (fun k => if tol < g.val k then 1 else 0) * g.vecᵀ := by
  have key : ∀ l : List (Fin m), proj ((l.filter fun k => tol < g.val k).map fun k i => g.vec i k) =
      (l.map fun k => (if tol < g.val k then (1 : K) else 0) • vecMulVec (fun i => g.vec i k) (fun i => g.vec i k)).sum := by
    intro l
    induction l with
    | nil => simp [proj]
    | cons k l ih =>
      rw [List.map_cons, List.sum_cons, ← ih]
      by_cases hk : tol < g.val k
      · rw [List.filter_cons_of_pos (by simpa using hk), if_pos hk, one_smul]
        simp [proj]
      · rw [List.filter_cons_of_neg (by simpa using hk), if_neg hk, zero_smul, zero_add]
  unfold above
  rw [key, ← List.ofFn_eq_map, List.sum_ofFn]
  ext i j
  rw [Matrix.sum_apply, Matrix.mul_apply]
  refine Finset.sum_congr rfl fun k _ => ?_
  rw [mul_diagonal, transpose_apply, Matrix.smul_apply, vecMulVec_apply, smul_eq_mul]; ring

/-- What the remaining orbitals are, for valid input. -/
private theorem rest_spec (eigh : Matrix (Fin m) (Fin m) K → Eig (Fin m) K) (he : SolvesEigh eigh) (tol : K) (ht : 0 < tol) (ht1 : tol < 1)
    (full act frozen : List (Col m K)) (hf : OrthoCols full) (ha : OrthoCols act) (hz : frozen.Sublist full) (haz : ∀ u ∈ act, ∀ v ∈ frozen, u ⬝ᵥ v = 0)
    (hin : ∀ v ∈ act, along full v = v) :
    let rest := above (eigh (proj full - proj act - proj frozen)) tol
    OrthoCols (frozen ++ rest ++ act) ∧ (∀ x, along (frozen ++ rest ++ act) x = along full x) ∧ (frozen ++ rest ++ act).length = full.length := by
  intro rest
  have hzo := ortho_sublist frozen full hf hz
  set F := proj full with hF
  set A := proj act with hA
  set Z := proj frozen with hZ
  set P := F - A - Z with hP
  have FF : F * F = F := proj_idem full hf
  have AA : A * A = A := proj_idem act ha
  have ZZ : Z * Z = Z := proj_idem frozen hzo
  have FA : F * A = A := mul_proj_fix _ _ fun v hv => by rw [hF, proj_mulVec, hin v hv]
  have FZ : F * Z = Z := mul_proj_fix _ _ fun v hv => by rw [hF, proj_mulVec, along_self full hf v (hz.subset hv)]
  have AF : A * F = A := by have := congrArg transpose FA; rwa [transpose_mul, proj_symm, proj_symm] at this
  have ZF : Z * F = Z := by have := congrArg transpose FZ; rwa [transpose_mul, proj_symm, proj_symm] at this
  have AZ : A * Z = 0 := mul_proj_zero _ _ fun v hv => by rw [hA, proj_mulVec, along_zero act v fun u hu => haz u hu v hv]
  have ZA : Z * A = 0 := by have := congrArg transpose AZ; rwa [transpose_mul, proj_symm, proj_symm, transpose_zero] at this
  have PP : P * P = P := by
    rw [hP]
    simp only [Matrix.sub_mul, Matrix.mul_sub, FF, FA, FZ, AF, AA, AZ, ZF, ZA, ZZ]
    abel
  have hPs : Pᵀ = P := by rw [hP, transpose_sub, transpose_sub, hF, hA, hZ, proj_symm, proj_symm, proj_symm]
  have hg := he P hPs
  have hval := proj_values P PP (eigh P) hg
  have hrp : proj rest = P := by
    show proj (above (eigh P) tol) = P
    rw [above_proj]
    have e : (fun k => if tol < (eigh P).val k then (1 : K) else 0) = (eigh P).val := by
      funext k
      rcases hval k with h | h
      · rw [h, if_neg (not_lt.mpr ht.le)]
      · rw [h, if_pos ht1]
    rw [e, ← hg.2, Matrix.mul_assoc, mul_eq_one_comm.mp hg.1, Matrix.mul_one]
  have hro : OrthoCols rest := above_ortho _ hg.1 _
  have hPv : ∀ v ∈ rest, P *ᵥ v = v := fun v hv => by rw [← hrp, proj_mulVec, along_self rest hro v hv]
  have dotzero : ∀ (c : List (Col m K)), OrthoCols c → proj c * P = 0 → ∀ u ∈ c, ∀ v ∈ rest, u ⬝ᵥ v = 0 := by
    intro c hc h0 u hu v hv
    have h1 : proj c *ᵥ v = 0 := by
      have := congrArg (fun M => M *ᵥ v) h0
      simp only [← mulVec_mulVec, hPv v hv, zero_mulVec] at this
      exact this
    have h2 : proj c *ᵥ u = u := by rw [proj_mulVec, along_self c hc u hu]
    calc u ⬝ᵥ v = (proj c *ᵥ u) ⬝ᵥ v := by rw [h2]
      _ = u ⬝ᵥ (proj c *ᵥ v) := by rw [dotProduct_mulVec, ← mulVec_transpose, proj_symm]
      _ = 0 := by rw [h1, dotProduct_zero]
  have AP : A * P = 0 := by rw [hP, Matrix.mul_sub, Matrix.mul_sub, AF, AA, AZ]; abel
  have ZP : Z * P = 0 := by rw [hP, Matrix.mul_sub, Matrix.mul_sub, ZF, ZA, ZZ]; abel
  have hzr := dotzero frozen hzo ZP
  have har := dotzero act ha AP
  have hall : proj (frozen ++ rest ++ act) = F := by
    rw [proj_append, proj_append, hrp, ← hZ, ← hA, hP]; abel
  have hort : OrthoCols (frozen ++ rest ++ act) := by
    refine ortho_append _ _ (ortho_append _ _ hzo hro hzr) ha fun u hu v hv => ?_
    rcases List.mem_append.mp hu with hu | hu
    · rw [dotProduct_comm]; exact haz v hv u hu
    · rw [dotProduct_comm]; exact har v hv u hu
  refine ⟨hort, fun x => by rw [← proj_mulVec, hall, hF, proj_mulVec], ?_⟩
  have h1 := proj_trace _ hort.2
  rw [hall, hF, proj_trace full hf.2] at h1
  exact_mod_cast h1.symm

omit [IsStrictOrderedRing K] in
private theorem no_overlap_iff (a b : List (Col m K)) : noOverlap a b = true ↔ ∀ u ∈ a, ∀ v ∈ b, u ⬝ᵥ v = 0 := by
  simp [noOverlap, List.all_eq_true]

omit [LinearOrder K] [IsStrictOrderedRing K] in
private theorem dot_along (full : List (Col m K)) (u v : Col m K) : u ⬝ᵥ along full v = (full.map fun f => (f ⬝ᵥ u) * (f ⬝ᵥ v)).sum := by
  induction full with
  | nil => simp [along]
  | cons f c ih =>
    have e' : along (f :: c) v = (f ⬝ᵥ v) • f + along c v := by simp [along]
    rw [e', dotProduct_add, ih, List.map_cons, List.sum_cons, dotProduct_smul, smul_eq_mul, dotProduct_comm u f, mul_comm]

omit [IsStrictOrderedRing K] in
private theorem unit_gram_iff (y x : List (Col m K)) : unitGram y x = true ↔ ∀ (i j : Nat), i < x.length → j < x.length → x.getD i 0 ⬝ᵥ along y (x.getD j 0) = if i = j then 1 else 0 := by
  simp only [unitGram, List.all_eq_true, List.mem_range, beq_iff_eq, dot_along]
  exact ⟨fun h i j hi hj => h i hi j hj, fun h i hi j hj => h i j hi hj⟩

private theorem along_of_norm (full : List (Col m K)) (hf : OrthoCols full) (v : Col m K) (h : v ⬝ᵥ along full v = 1) (hv : v ⬝ᵥ v = 1) : along full v = v := by
  have hsym : along full v ⬝ᵥ along full v = v ⬝ᵥ along full v := by
    rw [← proj_mulVec]
    calc (proj full *ᵥ v) ⬝ᵥ (proj full *ᵥ v) = v ⬝ᵥ (proj full *ᵥ (proj full *ᵥ v)) := by
          rw [dotProduct_mulVec v, ← mulVec_transpose, proj_symm]
      _ = v ⬝ᵥ (proj full *ᵥ v) := by rw [mulVec_mulVec, proj_idem full hf]
  have h0 : (v - along full v) ⬝ᵥ (v - along full v) = 0 := by
    rw [sub_dotProduct, dotProduct_sub, dotProduct_sub, hsym, dotProduct_comm (along full v) v, h, hv]; ring
  have := dotProduct_self_eq_zero.mp h0
  exact (sub_eq_zero.mp this).symm

omit [LinearOrder K] [IsStrictOrderedRing K] in
private theorem getD_el (act : List (Col m K)) (i : Nat) (hi : i < act.length) : act.getD i 0 = act[i] := by
  rw [List.getD_eq_getElem?_getD, List.getElem?_eq_getElem hi, Option.getD_some]

omit [LinearOrder K] [IsStrictOrderedRing K] in
private theorem getD_dot (act : List (Col m K)) (ha : OrthoCols act) (i j : Nat) (hi : i < act.length) (hj : j < act.length) :
    act.getD i 0 ⬝ᵥ act.getD j 0 = if i = j then 1 else 0 := by
  rw [getD_el _ _ hi, getD_el _ _ hj]
  rcases lt_trichotomy i j with h | h | h
  · rw [if_neg (by omega)]
    exact List.pairwise_iff_getElem.mp ha.1 i j hi hj h
  · subst h; rw [if_pos rfl]; exact ha.2 _ (List.getElem_mem hi)
  · rw [if_neg (by omega), dotProduct_comm]
    exact List.pairwise_iff_getElem.mp ha.1 j i hj hi h

private theorem length_le_of_within (full act : List (Col m K)) (hf : OrthoCols full) (ha : OrthoCols act) (hin : ∀ v ∈ act, along full v = v) (eigh : Matrix (Fin m) (Fin m) K → Eig (Fin m) K) (he : SolvesEigh eigh) :
    act.length ≤ full.length := by
  have := (rest_spec eigh he (1 / 2) (by norm_num) (by norm_num) full act [] hf ha (List.nil_sublist _) (fun _ _ v hv => by cases hv) hin).2.2
  rw [List.length_append] at this
  omega

/-- For orthonormal orbitals the construction succeeds exactly if the active orbitals are orthogonal to the frozen ones and in the space of
the cluster orbitals; otherwise an exception is raised. -/
theorem actspace_decision (eigh : Matrix (Fin m) (Fin m) K → Eig (Fin m) K) (he : SolvesEigh eigh) (tol : K) (ht : 0 < tol) (ht1 : tol < 1)
    (full act frozen : List (Col m K)) (hf : OrthoCols full) (ha : OrthoCols act) (hz : frozen.Sublist full) :
    (∃ r, genActspace eigh tol full act frozen = .ok r) ↔ (∀ u ∈ act, ∀ v ∈ frozen, u ⬝ᵥ v = 0) ∧ ∀ v ∈ act, along full v = v := by
  constructor
  · rintro ⟨r, hr⟩
    unfold genActspace at hr
    split at hr
    · cases hr
    rename_i h1
    split at hr
    · cases hr
    rename_i h2
    simp only at hr
    split at hr
    · cases hr
    rename_i h3
    rw [not_not] at h3
    have hlen : act.length ≤ full.length := by rw [← h3, List.length_append]; omega
    refine ⟨?_, ?_⟩
    · rcases Nat.eq_zero_or_pos frozen.length with h0 | h0
      · rw [List.length_eq_zero_iff] at h0; subst h0; intro u _ v hv; cases hv
      · rw [← no_overlap_iff]
        rcases Bool.eq_false_or_eq_true (noOverlap act frozen) with h | h
        · exact h
        · exact absurd ⟨h0, h⟩ h1
    · intro v hv
      have h0 : 0 < act.length := List.length_pos_of_mem hv
      have hu : unitSingular full act = true := by
        rcases Bool.eq_false_or_eq_true (unitSingular full act) with h | h
        · exact h
        · exact absurd ⟨h0, h⟩ h2
      rw [unitSingular, if_pos hlen, unit_gram_iff] at hu
      obtain ⟨i, hi, rfl⟩ := List.getElem_of_mem hv
      have := hu i i hi hi
      rw [getD_el _ _ hi, if_pos rfl] at this
      exact along_of_norm full hf _ this (ha.2 _ (List.getElem_mem hi))
  · rintro ⟨haz, hin⟩
    obtain ⟨_, _, hl⟩ := rest_spec eigh he tol ht ht1 full act frozen hf ha hz haz hin
    unfold genActspace
    rw [if_neg (by rintro ⟨_, h⟩; rw [(no_overlap_iff _ _).mpr haz] at h; cases h), if_neg, if_neg (not_not.mpr hl)]
    · exact ⟨_, rfl⟩
    · rintro ⟨_, h⟩
      have hlen := length_le_of_within full act hf ha hin eigh he
      rw [unitSingular, if_pos hlen, (unit_gram_iff _ _).mpr] at h
      · cases h
      · intro i j hi hj
        rw [hin _ (by rw [getD_el _ _ hj]; exact List.getElem_mem hj)]
        exact getD_dot act ha i j hi hj

omit [IsStrictOrderedRing K] in
private theorem masked_eq (c : List (Col m K)) (off : Nat) (l : List Nat) :
    masked c ((List.range' off c.length).map fun i => decide (i ∈ l)) = withIndex c off l := by
  induction c generalizing off with
  | nil => rfl
  | cons v c ih =>
    have ih := ih (off + 1)
    unfold masked withIndex at *
    rw [List.length_cons, List.range'_succ, List.map_cons, List.zip_cons_cons, List.zipIdx_cons]
    by_cases h : off ∈ l
    · rw [List.filter_cons_of_pos (by simpa using h), List.filter_cons_of_pos (by simpa using h), List.map_cons, List.map_cons, ih]
    · rw [List.filter_cons_of_neg (by simpa using h), List.filter_cons_of_neg (by simpa using h), ih]

omit [Field K] [LinearOrder K] [IsStrictOrderedRing K] in
private theorem withIndex_sublist (c : List (Col m K)) (off : Nat) (l : List Nat) : (withIndex c off l).Sublist c := by
  have h : ((c.zipIdx off).filter fun x => decide (x.2 ∈ l)).Sublist (c.zipIdx off) := List.filter_sublist
  have := h.map Prod.fst
  rwa [List.zipIdx_map_fst] at this

private theorem mask_spec (n k : Nat) (frozenOrbs : Option (List Nat)) (h : ∀ i ∈ frozenOrbs.getD [], i < n + k) :
    ∃ f, frozenMask (n + k) frozenOrbs = .ok f ∧ f.take n = (List.range' 0 n).map (fun i => decide (i ∈ frozenOrbs.getD [])) ∧
      f.drop n = (List.range' n k).map (fun i => decide (i ∈ frozenOrbs.getD [])) := by
  refine ⟨(List.range (n + k)).map fun i => decide (i ∈ frozenOrbs.getD []), ?_, ?_, ?_⟩
  · cases frozenOrbs with
    | none =>
      simp only [frozenMask, Option.getD_none, List.not_mem_nil, decide_false]
      rw [List.map_const', List.length_range]
    | some l =>
      simp only [Option.getD_some] at h ⊢
      rw [frozenMask, if_pos (by simpa [List.all_eq_true] using h)]
  · rw [← List.map_take, List.take_range, Nat.min_eq_left (by omega), List.range_eq_range']
  · rw [← List.map_drop, List.range_eq_range', List.drop_range']
    congr 1
    simp

private theorem first_flags (a b c : Nat) : firstTrue (a + b + c) a = List.replicate a true ++ List.replicate b false ++ List.replicate c false := by
  rw [firstTrue, List.append_assoc, ← List.replicate_add, Nat.min_eq_left (by omega)]
  congr 2
  omega

private theorem last_flags (a b c : Nat) (hc : c ≠ 0) : lastTrue (a + b + c) c = List.replicate a false ++ List.replicate b false ++ List.replicate c true := by
  rw [lastTrue, if_neg hc, ← List.replicate_add, Nat.min_eq_left (by omega)]
  congr 2
  omega

omit [Field K] [LinearOrder K] [IsStrictOrderedRing K] in
private theorem orbs_append (occ : Bool) (c d : List (Col m K)) (f g a b : List Bool) (hf : f.length = c.length) (ha : a.length = c.length) :
    orbs occ (c ++ d) (f ++ g) (a ++ b) = orbs occ c f a ++ orbs occ d g b := by
  unfold orbs
  rw [List.zip_append (hf.trans ha.symm), List.zip_append (by rw [List.length_zip, hf, ha, Nat.min_self]), List.map_append]

omit [Field K] [LinearOrder K] [IsStrictOrderedRing K] in
private theorem orbs_replicate (occ f a : Bool) (c : List (Col m K)) (n : Nat) (h : n = c.length) :
    orbs occ c (List.replicate n f) (List.replicate n a) = c.map fun v => ⟨v, occ, f, a⟩ := by
  subst h
  induction c with
  | nil => rfl
  | cons v c ih => exact congrArg (_ :: ·) ih

omit [Field K] [LinearOrder K] [IsStrictOrderedRing K] in
private theorem orbs_three (occ : Bool) (x y z : List (Col m K)) (f1 a1 f2 a2 f3 a3 : Bool) :
    orbs occ (x ++ y ++ z) (List.replicate x.length f1 ++ List.replicate y.length f2 ++ List.replicate z.length f3)
      (List.replicate x.length a1 ++ List.replicate y.length a2 ++ List.replicate z.length a3) =
    x.map (fun v => ⟨v, occ, f1, a1⟩) ++ y.map (fun v => ⟨v, occ, f2, a2⟩) ++ z.map (fun v => ⟨v, occ, f3, a3⟩) := by
  rw [orbs_append _ _ _ _ _ _ _ (by simp) (by simp), orbs_append _ _ _ _ _ _ _ (by simp) (by simp), orbs_replicate _ _ _ _ _ rfl, orbs_replicate _ _ _ _ _ rfl,
    orbs_replicate _ _ _ _ _ rfl]

private theorem actspace_value (eigh : Matrix (Fin m) (Fin m) K → Eig (Fin m) K) (he : SolvesEigh eigh) (tol : K) (ht : 0 < tol) (ht1 : tol < 1)
    (full act frozen : List (Col m K)) (hf : OrthoCols full) (ha : OrthoCols act) (hz : frozen.Sublist full) (haz : ∀ u ∈ act, ∀ v ∈ frozen, u ⬝ᵥ v = 0)
    (hin : ∀ v ∈ act, along full v = v) :
    ∃ rest, genActspace eigh tol full act frozen = .ok (frozen ++ rest ++ act,
        List.replicate frozen.length true ++ List.replicate rest.length false ++ List.replicate act.length false,
        if act = [] then List.replicate frozen.length true ++ List.replicate rest.length true ++ List.replicate act.length true
        else List.replicate frozen.length false ++ List.replicate rest.length false ++ List.replicate act.length true) ∧
      OrthoCols (frozen ++ rest ++ act) ∧ (∀ x, along (frozen ++ rest ++ act) x = along full x) := by
  obtain ⟨h1, h2, h3⟩ := rest_spec eigh he tol ht ht1 full act frozen hf ha hz haz hin
  obtain ⟨r, hr⟩ := (actspace_decision eigh he tol ht ht1 full act frozen hf ha hz).mpr ⟨haz, hin⟩
  refine ⟨_, ?_, h1, h2⟩
  have hr' := hr
  unfold genActspace at hr'
  split at hr'
  · cases hr'
  split at hr'
  · cases hr'
  simp only at hr'
  rw [if_neg (not_not.mpr h3)] at hr'
  rw [hr, ← hr']
  congr 3
  · rw [List.length_append, List.length_append, first_flags]
  · rw [List.length_append, List.length_append]
    split
    · rename_i h; subst h
      simp [lastTrue]
    · rename_i h
      exact last_flags _ _ _ (by rwa [Ne, List.length_eq_zero_iff])

/-- The orbitals and flags for an active space: frozen, remaining and active occupied orbitals, then active, remaining and frozen virtual
orbitals; orthonormal, and of the same space as the cluster orbitals. The active orbitals must not be empty on either side. -/
theorem gen_space_partial (eigh : Matrix (Fin m) (Fin m) K → Eig (Fin m) K) (he : SolvesEigh eigh) (tol : K) (ht : 0 < tol) (ht1 : tol < 1)
    (occ vir ao av : List (Col m K)) (h : OrthoCols (occ ++ vir)) (hao : OrthoCols ao) (hav : OrthoCols av) (hio : ∀ v ∈ ao, along occ v = v) (hiv : ∀ v ∈ av, along vir v = v)
    (hno : ao ≠ []) (hnv : av ≠ []) (fr : Option (List Nat)) (hfr : ∀ i ∈ fr.getD [], i < occ.length + vir.length)
    (hfo : ∀ u ∈ ao, ∀ v ∈ withIndex occ 0 (fr.getD []), u ⬝ᵥ v = 0) (hfv : ∀ u ∈ av, ∀ v ∈ withIndex vir occ.length (fr.getD []), u ⬝ᵥ v = 0) :
    ∃ ro rv, genSpace eigh tol occ vir (some ao) (some av) fr = .ok
        ((withIndex occ 0 (fr.getD [])).map (fun v => ⟨v, true, true, false⟩) ++ ro.map (fun v => ⟨v, true, false, false⟩) ++ ao.map (fun v => ⟨v, true, false, true⟩) ++
          (av.reverse.map (fun v => ⟨v, false, false, true⟩) ++ rv.map (fun v => ⟨v, false, false, false⟩) ++
            (withIndex vir occ.length (fr.getD [])).reverse.map (fun v => ⟨v, false, true, false⟩))) ∧
      OrthoCols (withIndex occ 0 (fr.getD []) ++ ro ++ ao) ∧ (∀ x, along (withIndex occ 0 (fr.getD []) ++ ro ++ ao) x = along occ x) ∧
      OrthoCols (withIndex vir occ.length (fr.getD []) ++ rv ++ av) ∧ (∀ x, along (withIndex vir occ.length (fr.getD []) ++ rv ++ av) x = along vir x) := by
  have hocc := ortho_sublist _ _ h (List.sublist_append_left occ vir)
  have hvir := ortho_sublist _ _ h (List.sublist_append_right occ vir)
  obtain ⟨f, hf, hf1, hf2⟩ := mask_spec occ.length vir.length fr hfr
  obtain ⟨ro, h1, h2, h3⟩ := actspace_value eigh he tol ht ht1 occ ao _ hocc hao (withIndex_sublist occ 0 (fr.getD [])) hfo hio
  obtain ⟨rv, h4, h5, h6⟩ := actspace_value eigh he tol ht ht1 vir av _ hvir hav (withIndex_sublist vir occ.length (fr.getD [])) hfv hiv
  rw [if_neg hno] at h1
  rw [if_neg hnv] at h4
  refine ⟨ro, rv.reverse, ?_, h2, h3, ?_, ?_⟩
  · unfold genSpace
    simp only [hf, hf1, hf2, masked_eq, h1, h4]
    rw [orbs_three]
    simp only [List.reverse_append, List.reverse_replicate]
    rw [← List.append_assoc, ← List.append_assoc, ← List.append_assoc]
    have := orbs_three false av.reverse rv.reverse (withIndex vir occ.length (fr.getD [])).reverse false true false false true false
    simp only [List.length_reverse] at this
    rw [this]
  · obtain ⟨hp, hn⟩ := h5
    have hperm : (withIndex vir occ.length (fr.getD []) ++ rv.reverse ++ av).Perm (withIndex vir occ.length (fr.getD []) ++ rv ++ av) :=
      ((List.reverse_perm rv).append_left _).append_right _
    exact ⟨hp.perm hperm.symm fun {u v} huv => by rw [dotProduct_comm]; exact huv, fun v hv => hn v (hperm.subset hv)⟩
  · intro x
    rw [← h6 x, along_append, along_append, along_append, along_append]
    congr 2
    unfold along
    rw [List.map_reverse, List.sum_reverse]

/-- Empty active orbitals on the occupied side: all occupied orbitals are marked active, also the frozen ones. -/
theorem gen_space_empty_active (eigh : Matrix (Fin m) (Fin m) K → Eig (Fin m) K) (he : SolvesEigh eigh) (tol : K) (ht : 0 < tol) (ht1 : tol < 1)
    (occ vir av : List (Col m K)) (h : OrthoCols (occ ++ vir)) (hav : OrthoCols av) (hiv : ∀ v ∈ av, along vir v = v)
    (fr : Option (List Nat)) (hfr : ∀ i ∈ fr.getD [], i < occ.length + vir.length) (hfv : ∀ u ∈ av, ∀ v ∈ withIndex vir occ.length (fr.getD []), u ⬝ᵥ v = 0) :
    ∃ r, genSpace eigh tol occ vir (some []) (some av) fr = .ok r ∧ (r.filter fun o => o.occupied).length = occ.length ∧ (∀ o ∈ r, o.occupied = true → o.active = true) ∧
      (r.filter fun o => o.occupied && o.frozen).map Orb.col = withIndex occ 0 (fr.getD []) := by
  have hocc := ortho_sublist _ _ h (List.sublist_append_left occ vir)
  have hvir := ortho_sublist _ _ h (List.sublist_append_right occ vir)
  obtain ⟨f, hf, hf1, hf2⟩ := mask_spec occ.length vir.length fr hfr
  have hz0 := withIndex_sublist occ 0 (fr.getD [])
  obtain ⟨ro, h1, h2, h3⟩ := actspace_value eigh he tol ht ht1 occ [] _ hocc ⟨List.Pairwise.nil, fun v hv => by cases hv⟩ hz0 (fun u hu => by cases hu) (fun v hv => by cases hv)
  obtain ⟨rv, h4, h5, h6⟩ := actspace_value eigh he tol ht ht1 vir av _ hvir hav (withIndex_sublist vir occ.length (fr.getD [])) hfv hiv
  have hlen : (withIndex occ 0 (fr.getD []) ++ ro).length = occ.length := by
    have t1 := proj_trace _ h2.2
    have t2 := proj_trace _ hocc.2
    have e : proj (withIndex occ 0 (fr.getD []) ++ ro ++ []) = proj occ := by
      ext i j
      have := congrFun (h3 (Pi.single j 1)) i
      rw [← proj_mulVec, ← proj_mulVec, mulVec_single_one, mulVec_single_one] at this
      exact this
    rw [e, t2, List.append_nil] at t1
    exact_mod_cast t1.symm
  refine ⟨_, by unfold genSpace; simp only [hf, hf1, hf2, masked_eq, h1, h4]; rfl, ?_⟩
  rw [if_pos trivial, orbs_three]
  set vpart := orbs false (withIndex vir occ.length (fr.getD []) ++ rv ++ av).reverse _ _ with hv
  have hv0 : ∀ o ∈ vpart, o.occupied = false := by
    intro o ho
    rw [hv] at ho
    unfold orbs at ho
    obtain ⟨x, _, rfl⟩ := List.mem_map.mp ho
    rfl
  have hfv : vpart.filter (fun o => o.occupied) = [] := List.filter_eq_nil_iff.mpr fun o ho => by simp [hv0 o ho]
  have hfv' : vpart.filter (fun o => o.occupied && o.frozen) = [] := List.filter_eq_nil_iff.mpr fun o ho => by simp [hv0 o ho]
  refine ⟨?_, ?_, ?_⟩
  · rw [List.filter_append, hfv, List.append_nil, List.map_nil, List.append_nil, List.filter_eq_self.mpr, ← hlen, List.length_append, List.length_append, List.length_map, List.length_map]
    intro o ho
    rcases List.mem_append.mp ho with ho | ho <;> obtain ⟨x, _, rfl⟩ := List.mem_map.mp ho <;> rfl
  · intro o ho hocc
    rcases List.mem_append.mp ho with ho | ho
    · rw [List.map_nil, List.append_nil] at ho
      rcases List.mem_append.mp ho with ho | ho <;> obtain ⟨x, _, rfl⟩ := List.mem_map.mp ho <;> rfl
    · rw [hv0 o ho] at hocc; cases hocc
  · rw [List.filter_append, hfv', List.append_nil, List.map_nil, List.append_nil, List.filter_append, List.filter_eq_self.mpr, List.filter_eq_nil_iff.mpr, List.append_nil, List.map_map]
    · exact List.map_id _
    · intro o ho; obtain ⟨x, _, rfl⟩ := List.mem_map.mp ho; simp
    · intro o ho; obtain ⟨x, _, rfl⟩ := List.mem_map.mp ho; rfl

omit [IsStrictOrderedRing K] in
/-- Without active orbitals: the cluster orbitals themselves, none active, frozen as requested; active orbitals on one side only are refused. -/
theorem gen_space_default (eigh : Matrix (Fin m) (Fin m) K → Eig (Fin m) K) (tol : K) (occ vir : List (Col m K)) (fr : Option (List Nat)) :
    ((∀ i ∈ fr.getD [], i < occ.length + vir.length) → ∃ r, genSpace eigh tol occ vir none none fr = .ok r ∧ r.map Orb.col = occ ++ vir ∧
      (∀ o ∈ r, o.active = false) ∧ r.map Orb.occupied = List.replicate occ.length true ++ List.replicate vir.length false ∧
      r.map Orb.frozen = (List.range (occ.length + vir.length)).map fun i => decide (i ∈ fr.getD [])) ∧
    (∀ l, fr = some l → (∃ i ∈ l, occ.length + vir.length ≤ i) → genSpace eigh tol occ vir none none fr = .error .indexError) ∧
    (∀ a, genSpace eigh tol occ vir (some a) none fr = .error .valueError ∧ genSpace eigh tol occ vir none (some a) fr = .error .valueError) := by
  refine ⟨fun hfr => ?_, fun l hl hi => ?_, fun a => ⟨rfl, rfl⟩⟩
  · obtain ⟨f, hf, hf1, hf2⟩ := mask_spec occ.length vir.length fr hfr
    have e : ∀ (b : Bool) (c : List (Col m K)) (g : List Bool), g.length = c.length → (orbs b c g (List.replicate c.length false)).map Orb.col = c ∧
        (∀ o ∈ orbs b c g (List.replicate c.length false), o.active = false) ∧ (orbs b c g (List.replicate c.length false)).map Orb.occupied = List.replicate c.length b ∧
        (orbs b c g (List.replicate c.length false)).map Orb.frozen = g := by
      intro b c
      induction c with
      | nil => intro g hg; rw [List.length_nil, List.length_eq_zero_iff] at hg; subst hg; exact ⟨rfl, (fun o ho => by simp [orbs] at ho), rfl, rfl⟩
      | cons v c ih =>
        intro g hg
        cases g with
        | nil => cases hg
        | cons x g =>
          obtain ⟨i1, i2, i3, i4⟩ := ih g (by simpa using hg)
          refine ⟨congrArg (v :: ·) i1, ?_, congrArg (b :: ·) i3, congrArg (x :: ·) i4⟩
          intro o ho
          rcases List.mem_cons.mp ho with rfl | ho
          · rfl
          · exact i2 o ho
    obtain ⟨a1, a2, a3, a4⟩ := e true occ (f.take occ.length) (by rw [hf1]; simp)
    obtain ⟨b1, b2, b3, b4⟩ := e false vir (f.drop occ.length) (by rw [hf2]; simp)
    refine ⟨_, by unfold genSpace; simp only [hf]; rfl, ?_, ?_, ?_, ?_⟩
    · rw [List.map_append, a1, b1]
    · intro o ho
      rcases List.mem_append.mp ho with ho | ho
      · exact a2 o ho
      · exact b2 o ho
    · rw [List.map_append, a3, b3]
    · rw [List.map_append, a4, b4, hf1, hf2, ← List.map_append, List.range_eq_range', ← List.range'_append_1, Nat.zero_add]
  · subst hl
    obtain ⟨i, hi, hle⟩ := hi
    unfold genSpace
    simp only
    rw [frozenMask, if_neg]
    intro h
    have := List.all_eq_true.mp h i hi
    simp at this
    omega

/-! ### Examples: two occupied and two virtual orbitals -/

private def o1 : Col 4 ℝ := ![1, 0, 0, 0]
private def o2 : Col 4 ℝ := ![0, 1, 0, 0]
private def v1 : Col 4 ℝ := ![0, 0, 1, 0]
private def v2 : Col 4 ℝ := ![0, 0, 0, 1]
private noncomputable def mixed : Col 4 ℝ := ![3 / 5, 4 / 5, 0, 0]

private theorem cluster_ortho : OrthoCols ([o1, o2] ++ [v1, v2]) := by
  constructor
  · simp [o1, o2, v1, v2]
  · simp [o1, o2, v1, v2]

private theorem mixed_in : ∀ v ∈ [mixed], along [o1, o2] v = v := by
  intro v hv
  rw [List.mem_singleton.mp hv]
  ext i
  fin_cases i <;> simp [along, mixed, o1, o2]

private theorem v2_in : ∀ v ∈ [v2], along [v1, v2] v = v := by
  intro v hv
  rw [List.mem_singleton.mp hv]
  ext i
  fin_cases i <;> simp [along, v1, v2]

private theorem ortho_mixed : OrthoCols [mixed] := ⟨List.pairwise_singleton _ _, by intro v hv; rw [List.mem_singleton.mp hv]; simp [mixed]; norm_num⟩
private theorem ortho_v2 : OrthoCols [v2] := ⟨List.pairwise_singleton _ _, by intro v hv; rw [List.mem_singleton.mp hv]; simp [v2]⟩

/-- A mixture of the occupied orbitals and the second virtual orbital are active, the first virtual orbital is frozen. -/
example : ∃ ro rv : List (Col 4 ℝ), genSpace (realEigh 4) (1 / 10 ^ 8) [o1, o2] [v1, v2] (some [mixed]) (some [v2]) (some [2]) = .ok
    (ro.map (fun v => ⟨v, true, false, false⟩) ++ [⟨mixed, true, false, true⟩] ++ ([⟨v2, false, false, true⟩] ++ rv.map (fun v => ⟨v, false, false, false⟩) ++ [⟨v1, false, true, false⟩])) := by
  obtain ⟨ro, rv, h, _⟩ := gen_space_partial (realEigh 4) (realEigh_solves 4) (1 / 10 ^ 8) (by norm_num) (by norm_num) [o1, o2] [v1, v2] [mixed] [v2] cluster_ortho ortho_mixed ortho_v2
    mixed_in v2_in (by simp) (by simp) (some [2]) (by simp) (by simp [withIndex]) (by simp [withIndex, v1, v2])
  exact ⟨ro, rv, h⟩

/-- No active occupied orbital: both occupied orbitals are active. -/
example : ∃ r, genSpace (realEigh 4) (1 / 10 ^ 8) [o1, o2] [v1, v2] (some []) (some [v2]) none = .ok r ∧ (r.filter fun o => o.occupied).length = 2 ∧
    ∀ o ∈ r, o.occupied = true → o.active = true := by
  obtain ⟨r, h, h1, h2, _⟩ := gen_space_empty_active (realEigh 4) (realEigh_solves 4) (1 / 10 ^ 8) (by norm_num) (by norm_num) [o1, o2] [v1, v2] [v2] cluster_ortho ortho_v2
    v2_in none (by simp) (by simp [withIndex])
  exact ⟨r, h, h1, h2⟩

/-- An active orbital outside of the occupied space is refused. -/
example : ¬ ∃ r, genActspace (realEigh 4) (1 / 10 ^ 8) [o1, o2] [v2] [] = .ok r := by
  rw [actspace_decision (realEigh 4) (realEigh_solves 4) (1 / 10 ^ 8) (by norm_num) (by norm_num) [o1, o2] [v2] [] (ortho_sublist _ _ cluster_ortho (List.sublist_append_left _ _)) ortho_v2
    (List.nil_sublist _)]
  rintro ⟨_, h⟩
  have := congrFun (h v2 (List.mem_singleton.mpr rfl)) 3
  simp [along, v2, o1, o2] at this

end Vayesta.Props
