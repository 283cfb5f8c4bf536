import Verif.Model.TSym
import Verif.Lemmas.SymOp
import Mathlib.Algebra.Field.Rat
import Mathlib.Algebra.Order.Ring.Rat
import Mathlib.Data.Rat.Floor
import Mathlib.Tactic.Linarith
import Mathlib.Tactic.FieldSimp
import Mathlib.Tactic.IntervalCases

/-! Translations: boundary conditions, meshes of translation vectors, equivalent atoms. -/

namespace Vayesta.Props

open Vayesta.SymOp Vayesta.TSym

/-! ### Boundary conditions -/

/-- Sign of a boundary condition given by name, upper or lower case. -/
def signOfName (s : String) : Option Int := if s.toUpper = "PBC" then some 1 else if s.toUpper = "APBC" then some (-1) else none

/-- What the boundary conditions mean: one name for all directions, names for the first two directions, or for all three. -/
def namesOf : Bnd → Option (String × String × String)
  | .one s => some (s, s, s)
  | .list [.str x, .str y] => some (x, y, "PBC")
  | .list [.str x, .str y, .str z] => some (x, y, z)
  | _ => none

private theorem convert3 (x y z : String) :
    (convert [0, 1, 2] [.str x, .str y, .str z]).2 = none ↔ (signOfName x).isSome ∧ (signOfName y).isSome ∧ (signOfName z).isSome := by
  simp only [convert, signOfName]
  by_cases hx : x.toUpper = "PBC" <;> by_cases hx' : x.toUpper = "APBC" <;> by_cases hy : y.toUpper = "PBC" <;> by_cases hy' : y.toUpper = "APBC" <;>
    by_cases hz : z.toUpper = "PBC" <;> by_cases hz' : z.toUpper = "APBC" <;> simp_all

private theorem convert3_ok (x y z : String) (a b c : Int) (hx : signOfName x = some a) (hy : signOfName y = some b) (hz : signOfName z = some c) :
    convert [0, 1, 2] [.str x, .str y, .str z] = ([.int a, .int b, .int c], none) := by
  unfold signOfName at hx hy hz
  simp only [convert]
  split at hx <;> rename_i h1
  · cases hx
    split at hy <;> rename_i h2
    · cases hy
      split at hz <;> rename_i h3
      · cases hz; simp [h1, h2, h3]
      · split at hz <;> rename_i h3'
        · cases hz; simp [h1, h2, h3']
        · cases hz
    · split at hy <;> rename_i h2'
      · cases hy
        split at hz <;> rename_i h3
        · cases hz; simp [h1, h2', h3]
        · split at hz <;> rename_i h3'
          · cases hz; simp [h1, h2', h3']
          · cases hz
      · cases hy
  · split at hx <;> rename_i h1'
    · cases hx
      split at hy <;> rename_i h2
      · cases hy
        split at hz <;> rename_i h3
        · cases hz; simp [h1', h2, h3]
        · split at hz <;> rename_i h3'
          · cases hz; simp [h1', h2, h3']
          · cases hz
      · split at hy <;> rename_i h2'
        · cases hy
          split at hz <;> rename_i h3
          · cases hz; simp [h1', h2', h3]
          · split at hz <;> rename_i h3'
            · cases hz; simp [h1', h2', h3']
            · cases hz
        · cases hy
    · cases hx

private theorem convert3_bad (x y z : String) (h : signOfName x = none ∨ signOfName y = none ∨ signOfName z = none) :
    (convert [0, 1, 2] [.str x, .str y, .str z]).2 = some .valueError := by
  simp only [convert]
  unfold signOfName at h
  by_cases hx : x.toUpper = "PBC" <;> by_cases hx' : x.toUpper = "APBC" <;> by_cases hy : y.toUpper = "PBC" <;> by_cases hy' : y.toUpper = "APBC" <;>
    by_cases hz : z.toUpper = "PBC" <;> by_cases hz' : z.toUpper = "APBC" <;> simp_all

/-- The first call uses the signs of the names; a name which is neither `PBC` nor `APBC` raises ValueError. -/
theorem reorder_signs_first (b : Bnd) (x y z : String) (h : namesOf b = some (x, y, z)) (arg : Bool) :
    let call := (if arg then reorderSigns none (some b) else reorderSigns (some b) none).2.2
    (∀ s t u, signOfName x = some s → signOfName y = some t → signOfName z = some u → call = .ok [s, t, u]) ∧
    ((signOfName x = none ∨ signOfName y = none ∨ signOfName z = none) → call = .error .valueError) := by
  have hw : (working b).1 = [.str x, .str y, .str z] := by
    unfold namesOf at h
    split at h
    · cases h; rfl
    · cases h; rfl
    · cases h; rfl
    · cases h
  have hcall : (if arg then reorderSigns none (some b) else reorderSigns (some b) none).2.2 = (convertBnd b).2 := by cases arg <;> rfl
  simp only [hcall]
  unfold convertBnd
  simp only [hw]
  refine ⟨fun s t u hx hy hz => ?_, fun hbad => ?_⟩
  · rw [convert3_ok x y z s t u hx hy hz]; rfl
  · rw [convert3_bad x y z hbad]

/-- Full claim: calls change neither the boundary conditions of the cell nor those passed by the caller. -/
def LeavesBoundary (cell arg : Option Bnd) : Prop := (reorderSigns cell arg).1 = cell ∧ (reorderSigns cell arg).2.1 = arg

/-- Boundary conditions which are not a list of three: a call leaves them unchanged, and all calls use the same signs
(missing: lists of three entries, for which `reorder_signs_list_changed` shows the opposite). -/
theorem reorder_signs_partial (cell : Option Bnd) (h : ∀ l, cell = some (.list l) → l.length = 2) :
    (∀ arg, (∀ l, arg = some (.list l) → l.length = 2) → LeavesBoundary cell arg) ∧
    ∀ n, repeatedSigns n cell = List.replicate n (reorderSigns cell none).2.2 := by
  have key : ∀ b, (∀ l, b = Bnd.list l → l.length = 2) → (convertBnd b).1 = b := by
    intro b hb
    cases b with
    | one s => rfl
    | list l =>
      have hl := hb l rfl
      match l, hl with
      | [x, y], _ => rfl
  have hcell : ∀ b, cell = some b → (convertBnd b).1 = b := fun b hc => key b fun l hl => h l (by rw [hc, hl])
  have hleave : ∀ arg, (∀ l, arg = some (.list l) → l.length = 2) → LeavesBoundary cell arg := by
    intro arg harg
    cases arg with
    | some b => exact ⟨rfl, congrArg some (key b fun l hl => harg l (by rw [hl]))⟩
    | none =>
      cases hc : cell with
      | none => exact ⟨rfl, rfl⟩
      | some b => exact ⟨congrArg some (hcell b hc), rfl⟩
  refine ⟨hleave, fun n => ?_⟩
  induction n with
  | zero => rfl
  | succ n ih =>
    rw [repeatedSigns, List.replicate_succ]
    show (reorderSigns cell none).2.2 :: repeatedSigns n (reorderSigns cell none).1 = _
    rw [(hleave none (fun l hl => by cases hl)).1, ih]

/-- A list of three names, of the cell or passed by the caller, is overwritten with numbers: the next call with it raises AttributeError. -/
theorem reorder_signs_list_changed (x y z : String) (s t u : Int) (hx : signOfName x = some s) (hy : signOfName y = some t) (hz : signOfName z = some u)
    (n : Nat) :
    repeatedSigns (n + 1) (some (.list [.str x, .str y, .str z])) = .ok [s, t, u] :: List.replicate n (.error .attributeError) ∧
    ¬ LeavesBoundary (some (.list [.str x, .str y, .str z])) none ∧ ¬ LeavesBoundary none (some (.list [.str x, .str y, .str z])) := by
  have hc : convertBnd (.list [.str x, .str y, .str z]) = (.list [.int s, .int t, .int u], .ok [s, t, u]) := by
    unfold convertBnd working
    simp only [convert3_ok x y z s t u hx hy hz]
    rfl
  have hd : convertBnd (.list [.int s, .int t, .int u]) = (.list [.int s, .int t, .int u], .error .attributeError) := rfl
  have hrep : ∀ n, repeatedSigns n (some (.list [.int s, .int t, .int u])) = List.replicate n (.error .attributeError) := by
    intro n
    induction n with
    | zero => rfl
    | succ n ih =>
      rw [repeatedSigns, List.replicate_succ]
      simp only [reorderSigns, hd, ih]
  refine ⟨?_, fun h => ?_, fun h => ?_⟩
  · rw [repeatedSigns]
    simp only [reorderSigns, hc, hrep]
  · have := h.1
    simp only [reorderSigns, hc] at this
    cases this
  · have := h.2
    simp only [reorderSigns, hc] at this
    cases this

/-- For names known to both, the signs are those of the translation operation (`SymmetryTranslation`), which takes every name other than `pbc`
to be antiperiodic. -/
theorem reorder_signs_agree (b : Boundary) (d : Fin 3) (hd : (b.list d).toLower = "pbc" ↔ (b.list d).toUpper = "PBC") (s : Int)
    (h : signOfName (b.list d) = some s) : boundaryPhase b.list d = s := by
  unfold boundaryPhase
  unfold signOfName at h
  split at h
  · rename_i hp
    rw [if_pos (hd.mpr hp)]; cases h; rfl
  · rename_i hp
    rw [if_neg fun h' => hp (hd.mp h')]
    split at h
    · cases h; rfl
    · cases h

example : reorderSigns (some (.list [.str "apbc", .str "PBC"])) none = (some (.list [.str "apbc", .str "PBC"]), none, .ok [-1, 1, 1]) := by decide +kernel
example : repeatedSigns 3 (some (.list [.str "APBC", .str "PBC", .str "PBC"])) = [.ok [-1, 1, 1], .error .attributeError, .error .attributeError] := by
  decide +kernel
example : signOfName "Open" = none ∧ boundaryPhase (Boundary.one "Open").list 0 = -1 := by decide +kernel

/-! ### Meshes -/

variable {K : Type} [Field K] [LinearOrder K] [IsStrictOrderedRing K] [FloorRing K]

private theorem rint_near (x : K) : |x - (rint x : K)| ≤ 1 / 2 := by
  have h0 := Int.floor_le x
  have h1 := Int.lt_floor_add_one x
  unfold rint
  split
  · rw [abs_le]; constructor <;> linarith
  · split
    · push_cast; rw [abs_le]; constructor <;> linarith
    · have : x - ⌊x⌋ = 1 / 2 := le_antisymm (not_lt.mp (by assumption)) (not_lt.mp (by assumption))
      split
      · rw [abs_le]; constructor <;> linarith
      · push_cast; rw [abs_le]; constructor <;> linarith

private theorem rint_eq (x : K) (n : Int) (h : |x - n| < 1 / 2) : rint x = n := by
  have h1 := rint_near x
  rw [abs_lt] at h
  rw [abs_le] at h1
  have a : ((rint x : Int) : K) < (n : K) + 1 := by linarith [h.1, h.2, h1.1, h1.2]
  have b : (n : K) < ((rint x : Int) : K) + 1 := by linarith [h.1, h.2, h1.1, h1.2]
  have a' : rint x < n + 1 := by exact_mod_cast a
  have b' : n < rint x + 1 := by exact_mod_cast b
  omega

private theorem rint_int (n : Int) : rint (n : K) = n := rint_eq _ _ (by simp)

/-- Three numbers: the translation vectors times the numbers are the lattice vectors. -/
theorem mesh_from_counts (rvecs : Fin 3 → Pt K) (mesh : Fin 3 → Int) (hm : ∀ d, mesh d ≠ 0) :
    (meshFromCounts rvecs mesh).1 = mesh ∧ ∀ d, (mesh d : K) • (meshFromCounts rvecs mesh).2 d = rvecs d := by
  refine ⟨rfl, fun d => ?_⟩
  have h : (mesh d : K) ≠ 0 := by exact_mod_cast hm d
  simp only [meshFromCounts, smul_smul, mul_inv_cancel₀ h, one_smul]

/-- Full claim for three vectors: if each lattice vector is an integer multiple of a translation vector, the mesh consists of these integers;
if it is not, ValueError is raised. `norm` is the length. -/
def MeshCorrect (norm : Pt K → K) (tol u : K) (rvecs tvecs : Fin 3 → Pt K) : Prop :=
  (∀ n : Fin 3 → Int, (∀ d, 0 < n d ∧ (n d : K) • (u • tvecs d) = rvecs d) → ∃ t, meshFromVectors norm tol u rvecs tvecs = .ok (n, t)) ∧
  ((∃ d, ∀ n : Int, (n : K) • (u • tvecs d) ≠ rvecs d) → meshFromVectors norm tol u rvecs tvecs = .error .valueError)

private theorem meshCount_ok (tol rlen tlen : K) (ht : 0 ≤ tol) (h : rint tlen ≠ 0) : meshCount tol rlen tlen = .ok (rint (rlen / (rint tlen : K))) := by
  unfold meshCount
  rw [if_neg h]
  simp only [sub_self, abs_zero]
  rw [if_neg (not_lt.mpr ht)]

/-- The mesh is right if the lengths of the translation vectors are whole numbers of Bohr (missing: all other lengths, `mesh_wrong`). -/
theorem mesh_from_vectors_partial (norm : Pt K → K) (hn : ∀ (n : Int) (p : Pt K), 0 < n → norm ((n : K) • p) = n * norm p) (tol u : K) (ht : 0 ≤ tol)
    (rvecs tvecs : Fin 3 → Pt K) (hz : ∀ d, tvecs d ≠ 0) (len : Fin 3 → Int) (hl : ∀ d, 0 < len d ∧ norm (u • tvecs d) = len d) (n : Fin 3 → Int)
    (h : ∀ d, 0 < n d ∧ (n d : K) • (u • tvecs d) = rvecs d) :
    meshFromVectors norm tol u rvecs tvecs = .ok (n, fun d => u • tvecs d) := by
  have hc : ∀ d, meshCount tol (norm (rvecs d)) (norm (u • (if tvecs d = 0 then rvecs d else tvecs d))) = .ok (n d) := by
    intro d
    have hlen : (len d : K) ≠ 0 := by exact_mod_cast (hl d).1.ne'
    rw [if_neg (hz d), (hl d).2, meshCount_ok _ _ _ ht (by rw [rint_int]; exact (hl d).1.ne'), rint_int, ← (h d).2, hn _ _ (h d).1, (hl d).2,
      mul_div_cancel_right₀ _ hlen, rint_int]
  unfold meshFromVectors
  simp only [hc]
  congr 2
  · funext d
    match d with
    | 0 => rfl
    | 1 => rfl
    | 2 => rfl
  · funext d
    rw [if_neg (hz d)]

/-- No set of vectors is rejected for not being commensurate with the lattice: ValueError is never raised. -/
theorem mesh_never_rejected (norm : Pt K → K) (tol u : K) (ht : 0 ≤ tol) (rvecs tvecs : Fin 3 → Pt K) : meshFromVectors norm tol u rvecs tvecs ≠ .error .valueError := by
  have hc : ∀ r t : K, meshCount tol r t = .error .other ∨ ∃ n, meshCount tol r t = .ok n := by
    intro r t
    by_cases h : rint t = 0
    · left; unfold meshCount; rw [if_pos h]
    · right; exact ⟨_, meshCount_ok _ _ _ ht h⟩
  unfold meshFromVectors
  simp only
  generalize hu : (fun d => u • if tvecs d = 0 then rvecs d else tvecs d) = t
  rcases hc (norm (rvecs 0)) (norm (u • if tvecs 0 = 0 then rvecs 0 else tvecs 0)) with h | ⟨n0, h⟩ <;> rw [h] <;> simp only
  · intro h'; cases h'
  · rcases hc (norm (rvecs 1)) (norm (u • if tvecs 1 = 0 then rvecs 1 else tvecs 1)) with h | ⟨n1, h⟩ <;> rw [h] <;> simp only
    · intro h'; cases h'
    · rcases hc (norm (rvecs 2)) (norm (u • if tvecs 2 = 0 then rvecs 2 else tvecs 2)) with h | ⟨n2, h⟩ <;> rw [h] <;> simp only
      · intro h'; cases h'
      · intro h'; cases h'

/-- Vectors along the axes, with their lengths. -/
private def diag (x y z : ℚ) : Fin 3 → Pt ℚ := ![![x, 0, 0], ![0, y, 0], ![0, 0, z]]
private def axisNorm (p : Pt ℚ) : ℚ := |p 0| + |p 1| + |p 2|

/-- Both parts of the claim fail: ten translations of length 3/2 are counted as eight, and translations by 4 in a cell of length 10 are
accepted (as two); a translation vector shorter than 1/2 makes the function fail. `axisNorm` is the length of vectors along an axis. -/
theorem mesh_wrong :
    (∀ d, ((10 : Int) : ℚ) • ((1 : ℚ) • diag (3 / 2) (3 / 2) (3 / 2) d) = diag 15 15 15 d) ∧
    ((meshFromVectors axisNorm (1 / 10 ^ 14) 1 (diag 15 15 15) (diag (3 / 2) (3 / 2) (3 / 2))).toOption.map Prod.fst) = some ![8, 8, 8] ∧
    ¬ MeshCorrect axisNorm (1 / 10 ^ 14) 1 (diag 15 15 15) (diag (3 / 2) (3 / 2) (3 / 2)) ∧
    ((meshFromVectors axisNorm (1 / 10 ^ 14) 1 (diag 10 10 10) (diag 4 4 4)).toOption.map Prod.fst) = some ![2, 2, 2] ∧
    ¬ MeshCorrect axisNorm (1 / 10 ^ 14) 1 (diag 10 10 10) (diag 4 4 4) ∧
    (meshFromVectors axisNorm (1 / 10 ^ 14) 1 (diag 4 4 4) (diag (2 / 5) (2 / 5) (2 / 5))).toOption.isNone = true := by
  have h1 : ∀ d, ((10 : Int) : ℚ) • ((1 : ℚ) • diag (3 / 2) (3 / 2) (3 / 2) d) = diag 15 15 15 d := by decide +kernel
  have h2 : ((meshFromVectors axisNorm (1 / 10 ^ 14) 1 (diag 15 15 15) (diag (3 / 2) (3 / 2) (3 / 2))).toOption.map Prod.fst) = some ![8, 8, 8] := by
    decide +kernel
  refine ⟨h1, h2, fun h => ?_, by decide +kernel, fun h => ?_, by decide +kernel⟩
  · obtain ⟨t, ht⟩ := h.1 (fun _ => 10) fun d => ⟨by decide, h1 d⟩
    rw [ht] at h2
    have h8 : (10 : Int) = 8 := congrFun (Option.some.inj h2) 0
    revert h8; decide
  · refine mesh_never_rejected axisNorm _ 1 (by decide +kernel) _ _ (h.2 ⟨0, fun n hn => ?_⟩)
    have := congrFun hn 0
    simp only [diag, Matrix.cons_val_zero, Pi.smul_apply, smul_eq_mul] at this
    have h5 : (n : ℚ) * 2 = 5 := by linarith
    have : n * 2 = 5 := by exact_mod_cast h5
    omega

example : (meshFromVectors axisNorm (1 / 10 ^ 14) 1 (diag 12 12 12) (diag 3 4 12)).toOption.map Prod.fst = some ![4, 3, 1] := by decide +kernel

omit [LinearOrder K] [IsStrictOrderedRing K] [FloorRing K] in
private theorem mem_loop (mesh : Fin 3 → Int) (tvecs : Fin 3 → Pt K) (o : Bool) (i : Nat × Nat × Nat) (t : Pt K) :
    (i, t) ∈ loopTvecs mesh tvecs o ↔ ((i.1 : Int) < mesh 0 ∧ (i.2.1 : Int) < mesh 1 ∧ (i.2.2 : Int) < mesh 2 ∧ (o = true ∨ i ≠ (0, 0, 0)) ∧
      t = (i.1 : K) • tvecs 0 + (i.2.1 : K) • tvecs 1 + (i.2.2 : K) • tvecs 2) := by
  unfold loopTvecs
  simp only [List.mem_flatMap, List.mem_range]
  constructor
  · rintro ⟨z, hz, y, hy, x, hx, h⟩
    split at h
    · cases h
    · rename_i hc
      rw [List.mem_singleton, Prod.mk.injEq] at h
      obtain ⟨rfl, rfl⟩ := h
      refine ⟨by simp only; omega, by simp only; omega, by simp only; omega, ?_, rfl⟩
      by_cases ho : o = true
      · exact Or.inl ho
      · right
        intro h0
        simp only [Prod.mk.injEq] at h0
        exact hc ⟨by simpa using ho, by omega⟩
  · rintro ⟨hx, hy, hz, ho, rfl⟩
    obtain ⟨x, y, z⟩ := i
    simp only at hx hy hz
    refine ⟨z, by omega, y, by omega, x, by omega, ?_⟩
    rw [if_neg, List.mem_singleton]
    rintro ⟨h1, h2⟩
    rcases ho with h | h
    · rw [h] at h1; cases h1
    · exact h (by simp only [Prod.mk.injEq]; omega)

omit [LinearOrder K] [IsStrictOrderedRing K] [FloorRing K] in
private theorem loop_map (mesh : Fin 3 → Int) (tvecs : Fin 3 → Pt K) (o : Bool) : (loopTvecs mesh tvecs o).map Prod.fst =
    ((List.range (mesh 2).toNat).flatMap fun z => (List.range (mesh 1).toNat).flatMap fun y => (List.range (mesh 0).toNat).map fun x => (x, y, z)).filter
      fun i => o || i.1 + i.2.1 + i.2.2 != 0 := by
  unfold loopTvecs
  rw [List.map_flatMap, List.filter_flatMap]
  congr 1; funext z
  rw [List.map_flatMap, List.filter_flatMap]
  congr 1; funext y
  generalize List.range (mesh 0).toNat = l
  induction l with
  | nil => rfl
  | cons x l ih =>
    rw [List.flatMap_cons, List.map_append, ih, List.map_cons, List.filter_cons]
    by_cases h : o = false ∧ x + y + z = 0
    · rw [if_pos h, if_neg (by rw [h.1, h.2]; decide)]; rfl
    · rw [if_neg h, if_pos]
      · rfl
      · cases ho : o
        · simp only [Bool.false_or, bne_iff_ne]
          intro h0; exact h ⟨ho, h0⟩
        · rfl

private theorem nodup_grid (a b c : Nat) :
    ((List.range c).flatMap fun z => (List.range b).flatMap fun y => (List.range a).map fun x => (x, y, z)).Nodup := by
  rw [List.nodup_flatMap]
  refine ⟨fun z _ => ?_, ?_⟩
  · rw [List.nodup_flatMap]
    refine ⟨fun y _ => List.nodup_range.map fun x x' h => by simpa using h, ?_⟩
    refine List.nodup_range.imp fun {y y'} hne => ?_
    intro i hi hi'
    obtain ⟨x, _, rfl⟩ := List.mem_map.mp hi
    obtain ⟨x', _, h⟩ := List.mem_map.mp hi'
    simp only [Prod.mk.injEq] at h
    exact hne h.2.1.symm
  · refine List.nodup_range.imp fun {z z'} hne => ?_
    intro i hi hi'
    simp only [List.mem_flatMap, List.mem_map] at hi hi'
    obtain ⟨y, _, x, _, rfl⟩ := hi
    obtain ⟨y', _, x', _, h⟩ := hi'
    simp only [Prod.mk.injEq] at h
    exact hne h.2.2.symm

private theorem length_grid (a b c : Nat) :
    ((List.range c).flatMap fun z => (List.range b).flatMap fun y => (List.range a).map fun x => (x, y, z)).length = a * b * c := by
  simp only [List.length_flatMap, List.length_map, List.length_range]
  simp only [List.map_const', List.length_range, List.sum_replicate, smul_eq_mul]
  ring

omit [LinearOrder K] [IsStrictOrderedRing K] [FloorRing K] in
/-- The loop visits every cell of the mesh exactly once, without the origin unless asked for, each with its translation vector. -/
theorem loop_tvecs_all (mesh : Fin 3 → Int) (tvecs : Fin 3 → Pt K) (o : Bool) :
    (∀ (i : Nat × Nat × Nat) (t : Pt K), (i, t) ∈ loopTvecs mesh tvecs o ↔
      ((i.1 : Int) < mesh 0 ∧ (i.2.1 : Int) < mesh 1 ∧ (i.2.2 : Int) < mesh 2 ∧ (o = true ∨ i ≠ (0, 0, 0)) ∧
        t = (i.1 : K) • tvecs 0 + (i.2.1 : K) • tvecs 1 + (i.2.2 : K) • tvecs 2)) ∧
    ((loopTvecs mesh tvecs o).map Prod.fst).Nodup ∧
    ((∀ d, 0 < mesh d) → (loopTvecs mesh tvecs o).length + (if o then 0 else 1) = (mesh 0).toNat * (mesh 1).toNat * (mesh 2).toNat) := by
  refine ⟨mem_loop mesh tvecs o, by rw [loop_map]; exact (nodup_grid _ _ _).filter _, fun hm => ?_⟩
  rw [← List.length_map (f := Prod.fst) (as := loopTvecs mesh tvecs o), loop_map, ← length_grid]
  have hnd := nodup_grid (mesh 0).toNat (mesh 1).toNat (mesh 2).toNat
  have h0 : ((0, 0, 0) : Nat × Nat × Nat) ∈ ((List.range (mesh 2).toNat).flatMap fun z => (List.range (mesh 1).toNat).flatMap fun y =>
      (List.range (mesh 0).toNat).map fun x => (x, y, z)) := by
    simp only [List.mem_flatMap, List.mem_map, List.mem_range]
    have := hm 0; have := hm 1; have := hm 2
    exact ⟨0, by omega, 0, by omega, 0, by omega, rfl⟩
  generalize ((List.range (mesh 2).toNat).flatMap fun z => (List.range (mesh 1).toNat).flatMap fun y =>
      (List.range (mesh 0).toNat).map fun x => (x, y, z)) = l at hnd h0
  cases o
  · have e : (l.filter fun i => (false || i.1 + i.2.1 + i.2.2 != 0)) = l.erase (0, 0, 0) := by
      rw [hnd.erase_eq_filter]
      refine List.filter_congr fun i _ => ?_
      obtain ⟨x, y, z⟩ := i
      by_cases h : x + y + z = 0
      · have : x = 0 ∧ y = 0 ∧ z = 0 := by omega
        obtain ⟨rfl, rfl, rfl⟩ := this
        rfl
      · have h1 : (x, y, z) ≠ (0, 0, 0) := by
          intro h'; simp only [Prod.mk.injEq] at h'; omega
        rw [Bool.false_or, bne_iff_ne.mpr h, bne_iff_ne.mpr h1]
    rw [e, List.length_erase_of_mem h0]
    have := List.length_pos_of_mem h0
    simp only [Bool.false_eq_true, if_false]
    omega
  · simp

example : (loopTvecs (K := ℚ) ![2, 1, 2] (diag 1 1 1) false).map Prod.fst = [(1, 0, 0), (0, 0, 1), (1, 0, 1)] := by decide +kernel

/-! ### Equivalent atoms -/

/-- Atoms which a translation by lattice vectors brings to each other: same element and basis (as far as checked), positions equal up to a
lattice vector, within the tolerance. -/
def LatticeEquivalent (m : Mol K) (xtol : K) (checkElement checkBasis : Bool) (i j : Nat) : Prop :=
  ∃ a b, m.atoms[i]? = some a ∧ m.atoms[j]? = some b ∧ (checkElement = true → a.pure = b.pure) ∧
    (checkBasis = true → m.basis a.symbol = m.basis b.symbol) ∧ ∃ n : Fin 3 → Int, norm2 (a.coord + shiftPt n - b.coord) < xtol ^ 2

private theorem comp_lt {p : Pt K} {t : K} (ht : 0 ≤ t) (h : norm2 p < t ^ 2) (d : Fin 3) : |p d| < t := by
  have h3 : p d * p d ≤ norm2 p := by
    unfold norm2
    match d with
    | 0 => nlinarith [mul_self_nonneg (p 1), mul_self_nonneg (p 2)]
    | 1 => nlinarith [mul_self_nonneg (p 0), mul_self_nonneg (p 2)]
    | 2 => nlinarith [mul_self_nonneg (p 0), mul_self_nonneg (p 1)]
  refine abs_lt_of_sq_lt_sq ?_ ht
  nlinarith

private theorem equivalent_iff (m : Mol K) (xtol : K) (hx : 0 ≤ xtol) (hx' : xtol ≤ 1 / 2) (ce cb : Bool) (i j : Nat) :
    equivalent m xtol ce cb i j = true ↔ LatticeEquivalent m xtol ce cb i j := by
  unfold equivalent LatticeEquivalent
  cases ha : m.atoms[i]? with
  | none => simp
  | some a =>
    cases hb : m.atoms[j]? with
    | none => simp
    | some b =>
      have key : norm2 (reduced (b.coord - a.coord)) < xtol ^ 2 ↔ ∃ n : Fin 3 → Int, norm2 (a.coord + shiftPt n - b.coord) < xtol ^ 2 := by
        have e : reduced (b.coord - a.coord) = -(a.coord + shiftPt (fun d => rint (b.coord d - a.coord d)) - b.coord) := by
          funext d
          simp only [reduced, shiftPt, Pi.sub_apply, Pi.neg_apply, Pi.add_apply]; ring
        constructor
        · intro h
          rw [e, sq_neg] at h
          exact ⟨_, h⟩
        · rintro ⟨n, hn⟩
          have : (fun d => rint (b.coord d - a.coord d)) = n := by
            funext d
            refine rint_eq _ _ ?_
            have := comp_lt hx hn d
            simp only [Pi.add_apply, Pi.sub_apply, shiftPt] at this
            rw [show b.coord d - a.coord d - (n d : K) = -(a.coord d + (n d : K) - b.coord d) by ring, abs_neg]
            exact lt_of_lt_of_le this hx'
          rw [e, sq_neg, this]
          exact hn
      simp only
      constructor
      · intro h
        split at h
        · cases h
        · rename_i h1
          split at h
          · cases h
          · rename_i h2
            exact ⟨a, b, rfl, rfl, fun hc => by by_contra hne; exact h1 ⟨hc, hne⟩, fun hc => by by_contra hne; exact h2 ⟨hc, hne⟩,
              key.mp (by simpa using h)⟩
      · rintro ⟨a', b', ha', hb', h1, h2, h3⟩
        cases ha'; cases hb'
        rw [if_neg fun h => h.2 (h1 h.1), if_neg fun h => h.2 (h2 h.1)]
        simpa using key.mpr h3

omit [Field K] [LinearOrder K] [IsStrictOrderedRing K] [FloorRing K] in
private theorem tsym_fold (order : List Nat → List Nat) (ho : ∀ l x, x ∈ order l ↔ x ∈ l) (eq : Nat → Nat → Bool) (n : Nat)
    (refl : ∀ i ≤ n, eq i i = true) (symm : ∀ i j, eq i j = true → eq j i = true) (trans : ∀ i j k, eq i j = true → eq j k = true → eq i k = true) :
    ∀ k ≤ n, ∃ L, ((List.range k).map (· + 1)).foldl (tsymStep order eq) [0] = L ∧ L.length = k + 1 ∧
      ∀ i ≤ k, ∃ j, L[i]? = some j ∧ eq i j = true ∧ ∀ l, eq i l = true → j ≤ l := by
  intro k
  induction k with
  | zero =>
    intro _
    refine ⟨[0], rfl, rfl, fun i hi => ?_⟩
    obtain rfl : i = 0 := by omega
    exact ⟨0, rfl, refl 0 (Nat.zero_le _), fun l _ => Nat.zero_le _⟩
  | succ k ih =>
    intro hk
    obtain ⟨L, hL, hlen, hspec⟩ := ih (by omega)
    have hnew : ∃ j, tsymStep order eq L (k + 1) = L ++ [j] ∧ eq (k + 1) j = true ∧ ∀ l, eq (k + 1) l = true → j ≤ l := by
      unfold tsymStep
      cases hf : (order L).find? fun j => eq (k + 1) j with
      | some j =>
        refine ⟨j, rfl, by simpa using List.find?_some hf, fun l hl => ?_⟩
        have hmem := (ho L j).mp (List.mem_of_find?_eq_some hf)
        have hej : eq (k + 1) j = true := by simpa using List.find?_some hf
        obtain ⟨i, hi⟩ := List.mem_iff_getElem?.mp hmem
        have hi' : i < L.length := (List.getElem?_eq_some_iff.mp hi).1
        obtain ⟨j', hj', he, hmin⟩ := hspec i (by omega)
        rw [hi] at hj'
        cases hj'
        exact hmin l (trans _ _ _ he (trans _ _ _ (symm _ _ hej) hl))
      | none =>
        refine ⟨k + 1, rfl, refl _ hk, fun l hl => ?_⟩
        by_contra hlt
        obtain ⟨j, hj, he, _⟩ := hspec l (by omega)
        have := List.find?_eq_none.mp hf j ((ho L j).mpr (List.mem_of_getElem? hj))
        exact this (trans _ _ _ hl he)
    obtain ⟨j, hj, he, hmin⟩ := hnew
    refine ⟨L ++ [j], ?_, by rw [List.length_append, hlen]; rfl, fun i hi => ?_⟩
    · rw [List.range_succ, List.map_append, List.foldl_append, hL]
      exact hj
    · rcases Nat.lt_or_ge i (k + 1) with h | h
      · obtain ⟨j', hj', r⟩ := hspec i (by omega)
        exact ⟨j', by rw [List.getElem?_append_left (by omega)]; exact hj', r⟩
      · obtain rfl : i = k + 1 := by omega
        exact ⟨j, by rw [List.getElem?_append_right (by omega), hlen]; simp, he, hmin⟩

/-- Each entry of the result is the lowest index of an equivalent atom, in whatever order sets are iterated. Being equivalent within the
tolerance has to be transitive. -/
theorem tsymmetric_atoms_lowest (order : List Nat → List Nat) (ho : ∀ l x, x ∈ order l ↔ x ∈ l) (m : Mol K) (xtol : K) (hx : 0 < xtol) (hx' : xtol ≤ 1 / 2)
    (ce cb : Bool) (hm : 0 < m.natm)
    (htrans : ∀ i j k, LatticeEquivalent m xtol ce cb i j → LatticeEquivalent m xtol ce cb j k → LatticeEquivalent m xtol ce cb i k) :
    (tsymmetricAtoms order m xtol ce cb).length = m.natm ∧
    ∀ i < m.natm, ∃ j, (tsymmetricAtoms order m xtol ce cb)[i]? = some j ∧ LatticeEquivalent m xtol ce cb i j ∧
      ∀ l, LatticeEquivalent m xtol ce cb i l → j ≤ l := by
  have hiff := equivalent_iff m xtol hx.le hx' ce cb
  obtain ⟨L, hL, hlen, hspec⟩ := tsym_fold order ho (equivalent m xtol ce cb) (m.natm - 1)
    (fun i hi => by
      rw [hiff]
      have hi' : i < m.atoms.length := by unfold Mol.natm at hm hi; omega
      refine ⟨m.atoms[i], m.atoms[i], List.getElem?_eq_getElem hi', List.getElem?_eq_getElem hi', fun _ => rfl, fun _ => rfl, 0, ?_⟩
      rw [shiftPt_zero, add_zero, sub_self]
      have : norm2 (0 : Pt K) = 0 := by simp [norm2]
      rw [this]; positivity)
    (fun i j h => by
      rw [hiff] at h ⊢
      obtain ⟨a, b, h1, h2, h3, h4, n, hn⟩ := h
      refine ⟨b, a, h2, h1, fun h => (h3 h).symm, fun h => (h4 h).symm, -n, ?_⟩
      have e : b.coord + shiftPt (-n) - a.coord = -(a.coord + shiftPt n - b.coord) := by rw [shiftPt_neg]; abel
      rw [e, sq_neg]; exact hn)
    (fun i j k h1 h2 => by
      rw [hiff] at h1 h2 ⊢
      exact htrans i j k h1 h2) (m.natm - 1) le_rfl
  have hres : tsymmetricAtoms order m xtol ce cb = L := hL
  rw [hres]
  refine ⟨by omega, fun i hi => ?_⟩
  obtain ⟨j, hj, he, hmin⟩ := hspec i (by omega)
  exact ⟨j, hj, (hiff i j).mp he, fun l hl => hmin l ((hiff i l).mpr hl)⟩

/-- Atoms in a row, each within the tolerance of the next: the last one gets its own index, though it is equivalent to the one before. -/
private def chainMol : Mol ℚ where
  atoms := [⟨"H", "H", ![0, 0, 0]⟩, ⟨"H", "H", ![3 / 4, 0, 0]⟩, ⟨"H", "H", ![1 / 2, 0, 0]⟩]
  basis := fun _ => [(0, 1)]

theorem tsymmetric_atoms_needs_transitive :
    tsymmetricAtoms id chainMol (3 / 10) true true = [0, 0, 2] ∧ LatticeEquivalent chainMol (3 / 10) true true 2 1 := by
  refine ⟨by decide +kernel, _, _, rfl, rfl, fun _ => rfl, fun _ => rfl, 0, by decide +kernel⟩

private def pairMol : Mol ℚ where
  atoms := [⟨"H", "H", ![0, 0, 0]⟩, ⟨"C", "C", ![1 / 4, 0, 0]⟩, ⟨"H", "H", ![2, -1, 0]⟩, ⟨"C", "C", ![5 / 4, 1, 0]⟩]
  basis := fun _ => [(0, 1)]

private theorem pair_close : ∀ i j, LatticeEquivalent pairMol (1 / 100) true true i j ↔ i < 4 ∧ j < 4 ∧ i % 2 = j % 2 := by
  intro i j
  rw [← equivalent_iff pairMol (1 / 100) (by decide +kernel) (by decide +kernel)]
  constructor
  · intro h
    have hi : i < 4 := by
      by_contra hc
      have : pairMol.atoms[i]? = none := List.getElem?_eq_none (by show 4 ≤ i; omega)
      unfold equivalent at h
      rw [this] at h; cases h
    have hj : j < 4 := by
      by_contra hc
      have : pairMol.atoms[j]? = none := List.getElem?_eq_none (by show 4 ≤ j; omega)
      unfold equivalent at h
      rw [this] at h
      revert h
      cases pairMol.atoms[i]? <;> intro h <;> cases h
    refine ⟨hi, hj, ?_⟩
    revert h
    have : ∀ i < 4, ∀ j < 4, equivalent pairMol (1 / 100) true true i j = true → i % 2 = j % 2 := by decide +kernel
    exact this i hi j hj
  · rintro ⟨hi, hj, h⟩
    have : ∀ i < 4, ∀ j < 4, i % 2 = j % 2 → equivalent pairMol (1 / 100) true true i j = true := by decide +kernel
    exact this i hi j hj h

/-- The hypotheses hold for a cell of two primitive ones. -/
example : tsymmetricAtoms id pairMol (1 / 100) true true = [0, 1, 0, 1] ∧
    ∀ i < 4, ∃ j, (tsymmetricAtoms List.reverse pairMol (1 / 100) true true)[i]? = some j ∧ LatticeEquivalent pairMol (1 / 100) true true i j ∧
      ∀ l, LatticeEquivalent pairMol (1 / 100) true true i l → j ≤ l :=
  ⟨by decide +kernel, (tsymmetric_atoms_lowest List.reverse (fun _ _ => List.mem_reverse) pairMol (1 / 100) (by decide +kernel) (by decide +kernel) true true
    (by decide) (fun i j k h1 h2 => by
      rw [pair_close] at h1 h2 ⊢
      omega)).2⟩

end Vayesta.Props
