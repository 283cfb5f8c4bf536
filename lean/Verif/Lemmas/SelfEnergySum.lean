import Verif.Lemmas.SelfEnergy

/-! Facts used for self-energies: exact clusters, symmetry images, order of exceptions. -/

namespace Vayesta.Lemmas.SelfEnergy

open Matrix Vayesta.SelfEnergy Lowdin Props

set_option linter.unusedSectionVars false
set_option linter.unusedSimpArgs false

/-! ## Exact clusters -/

section
variable {ι : Type} [Fintype ι] [DecidableEq ι] {nmo : Nat} {s : Sys ι nmo} {stat : AsStatic} {w : Whole nmo} {x : Frag ι}

omit [DecidableEq ι] in
theorem moSum_single {n : Nat} (c : Matrix ι (Fin n) ℝ) (a : Matrix (Fin n) (Fin n) ℝ) : moSum s [c] a = toMo s c * a * (toMo s c)ᵀ := by
  rw [moSum, List.map_singleton, List.sum_singleton]

omit [DecidableEq ι] in
theorem aoSum_single {n : Nat} (c : Matrix ι (Fin n) ℝ) (a : Matrix (Fin n) (Fin n) ℝ) : aoSum [c] a = c * a * cᵀ := by
  rw [aoSum, List.map_singleton, List.sum_singleton]

theorem exact_cancel (hx : x.cAct * x.cActᵀ * s.ovlp = 1) {κ : Type} (z : Matrix ι κ ℝ) : x.cAct * (x.cActᵀ * (s.ovlp * z)) = z := by
  rw [← Matrix.mul_assoc, ← Matrix.mul_assoc, hx, Matrix.one_mul]

theorem exact_cancel' (hs : s.ovlpᵀ = s.ovlp) (hx : x.cAct * x.cActᵀ * s.ovlp = 1) {κ : Type} (z : Matrix ι κ ℝ) :
    s.ovlp * (x.cAct * (x.cActᵀ * z)) = z := by
  have h := congrArg transpose hx
  rw [transpose_one, transpose_mul, transpose_mul, transpose_transpose, hs] at h
  rw [← Matrix.mul_assoc, ← Matrix.mul_assoc, Matrix.mul_assoc s.ovlp, h, Matrix.one_mul]

theorem mo_cancel (hs : Orbitals s) {κ : Type} (z : Matrix ι κ ℝ) : s.mo * (s.moᵀ * (s.ovlp * z)) = z := by
  have h : s.mo * (s.moᵀ * s.ovlp) = 1 :=
    (Matrix.mul_eq_one_comm_of_card_eq _ _ _ (by rw [Fintype.card_fin, hs.complete])).mp hs.orthonormal
  rw [← Matrix.mul_assoc s.moᵀ, ← Matrix.mul_assoc, h, Matrix.one_mul]

theorem toMo_transpose (hs : s.ovlpᵀ = s.ovlp) {n : Nat} (c : Matrix ι (Fin n) ℝ) : (toMo s c)ᵀ = cᵀ * (s.ovlp * s.mo) := by
  rw [toMo, transpose_mul, transpose_mul, transpose_transpose, hs]

theorem fc_transpose (hs : s.ovlpᵀ = s.ovlp) : (x.fc s)ᵀ = x.cActᵀ * (s.ovlp * x.cFrag) := by
  rw [Frag.fc, transpose_mul, transpose_mul, transpose_transpose, hs]

theorem toMo_complete (hs : Orbitals s) (hx : x.cAct * x.cActᵀ * s.ovlp = 1) : toMo s x.cAct * (toMo s x.cAct)ᵀ = 1 := by
  rw [toMo_transpose hs.overlap, toMo]
  simp only [Matrix.mul_assoc, exact_cancel hx]
  rw [← Matrix.mul_assoc]; exact hs.orthonormal

theorem toMo_cfc (hs : Orbitals s) (hx : x.cAct * x.cActᵀ * s.ovlp = 1) : toMo s x.cAct * x.cfc s * (toMo s x.cAct)ᵀ = projector s x := by
  rw [toMo_transpose hs.overlap, toMo, Frag.cfc, fc_transpose hs.overlap, Frag.fc, projector]
  simp only [Matrix.mul_assoc, exact_cancel hx]

theorem toMo_fc (hs : Orbitals s) (hx : x.cAct * x.cActᵀ * s.ovlp = 1) :
    toMo s x.cFrag * x.fc s * (toMo s x.cAct)ᵀ = projector s x := by
  rw [toMo_transpose hs.overlap, toMo, Frag.fc, projector]
  simp only [Matrix.mul_assoc, exact_cancel hx]

theorem projector_symm (hs : Orbitals s) : (projector s x)ᵀ = projector s x := by
  rw [projector]
  simp only [transpose_mul, transpose_transpose, hs.overlap, Matrix.mul_assoc]

theorem fockCls_eq (hs : Orbitals s) : x.fockCls s = (toMo s x.cAct)ᵀ * (s.moᵀ * s.fock * s.mo) * toMo s x.cAct := by
  have h : s.mo * toMo s x.cAct = x.cAct := by rw [toMo, Matrix.mul_assoc s.moᵀ]; exact mo_cancel hs _
  have h' := congrArg transpose h
  rw [transpose_mul] at h'
  rw [Frag.fockCls]
  conv_lhs => rw [← h, transpose_mul]
  simp only [Matrix.mul_assoc]

theorem list_sum_mul' {α : Type} {a b c : Type} [Fintype a] [Fintype b] [Fintype c] (l : List α) (g : α → Matrix a b ℝ) (m : Matrix b c ℝ) :
    (l.map g).sum * m = (l.map fun x => g x * m).sum := by
  induction l with
  | nil => simp
  | cons a l ih => simp only [List.map_cons, List.sum_cons, Matrix.add_mul, ih]

theorem list_mul_sum' {α : Type} {a b c : Type} [Fintype a] [Fintype b] [Fintype c] (l : List α) (g : α → Matrix b c ℝ) (m : Matrix a b ℝ) :
    m * (l.map g).sum = (l.map fun x => m * g x).sum := by
  induction l with
  | nil => simp
  | cons a l ih => simp only [List.map_cons, List.sum_cons, Matrix.mul_add, ih]

theorem projector_sum (hs : Orbitals s) {l : List (Frag ι)} (hl : PartitionOfUnity s l) : (l.map (projector s)).sum = 1 := by
  have h : ∀ x : Frag ι, projector s x = s.moᵀ * s.ovlp * ((x.cFrag * x.cFragᵀ * s.ovlp) * s.mo) := fun x => by
    rw [projector]; simp only [Matrix.mul_assoc]
  have h2 : (l.map (projector s)) = l.map fun x => s.moᵀ * s.ovlp * ((x.cFrag * x.cFragᵀ * s.ovlp) * s.mo) := List.map_congr_left fun x _ => h x
  rw [h2, ← list_mul_sum', ← list_sum_mul', hl, Matrix.one_mul]
  exact hs.orthonormal

theorem exact_weighted (hx : ExactSelfEnergy s stat w x) (f : ℝ → ℝ) :
    weighted f x.se.poles = (toMo s x.cAct)ᵀ * w.dynamic f * toMo s x.cAct := by
  have h : x.se.poles = (w.poles.map fun a => (⟨a.1, a.2, a.2⟩ : Pole (Fin nmo) ℝ)).map
      fun a => ⟨a.e, (toMo s x.cAct)ᵀ *ᵥ a.l, (toMo s x.cAct)ᵀ *ᵥ a.r⟩ := by
    rw [hx.poles]
    simp only [Se.poles, List.map_map]
    rfl
  rw [h, weighted_map, transpose_transpose]
  congr 2
  rw [weighted, List.map_map]; rfl

theorem sandwich_one (hs : Orbitals s) (hx : x.cAct * x.cActᵀ * s.ovlp = 1) {a : Matrix (Fin nmo) (Fin nmo) ℝ} (ha : aᵀ = a) :
    toMo s x.cAct * Vayesta.SelfEnergy.one (x.cfc s) ((toMo s x.cAct)ᵀ * a * toMo s x.cAct) * (toMo s x.cAct)ᵀ
      = (1 / 2 : ℝ) • (projector s x * a + a * projector s x) := by
  have hr := toMo_complete hs hx
  have hp := toMo_cfc hs hx
  obtain ⟨r, hr'⟩ : ∃ r, r = toMo s x.cAct := ⟨_, rfl⟩
  rw [← hr'] at hr hp ⊢
  have h1 : r * (x.cfc s * (rᵀ * a * r)) * rᵀ = projector s x * a := by
    have : r * (x.cfc s * (rᵀ * a * r)) * rᵀ = (r * x.cfc s * rᵀ) * a * (r * rᵀ) := by simp only [Matrix.mul_assoc]
    rw [this, hp, hr, Matrix.mul_one]
  have h2 : r * (x.cfc s * (rᵀ * a * r))ᵀ * rᵀ = a * projector s x := by
    have h3 := congrArg transpose h1
    rw [transpose_mul, transpose_mul, transpose_mul, transpose_transpose, transpose_mul _ a, projector_symm hs, ha, ← Matrix.mul_assoc] at h3
    rw [transpose_mul (x.cfc s)]; exact h3
  rw [Vayesta.SelfEnergy.one, Matrix.mul_smul, Matrix.smul_mul, Matrix.mul_add, Matrix.add_mul, h1, h2]

theorem half_sum {α : Type} (l : List α) (P : α → Matrix (Fin nmo) (Fin nmo) ℝ) (h : (l.map P).sum = 1) (a : Matrix (Fin nmo) (Fin nmo) ℝ) :
    (l.map fun x => (1 / 2 : ℝ) • (P x * a + a * P x)).sum = a := by
  have : ∀ l : List α, (l.map fun x => (1 / 2 : ℝ) • (P x * a + a * P x)).sum = (1 / 2 : ℝ) • ((l.map P).sum * a + a * (l.map P).sum) := by
    intro l
    induction l with
    | nil => simp
    | cons b l ih => simp only [List.map_cons, List.sum_cons, ih, Matrix.add_mul, Matrix.mul_add]; module
  rw [this, h, Matrix.one_mul, Matrix.mul_one]
  module

theorem dynamic_symm (w : Whole nmo) (f : ℝ → ℝ) : (w.dynamic f)ᵀ = w.dynamic f := by
  have h : w.dynamic f = weighted f (w.poles.map fun a => ⟨a.1, a.2, a.2⟩) := by rw [weighted, List.map_map]; rfl
  rw [h]
  refine weighted_same_transpose f fun a ha => ?_
  obtain ⟨b, _, rfl⟩ := List.mem_map.mp ha
  rfl

theorem democratic_exact (hs : Orbitals s) {l : List (Frag ι)} (hl : PartitionOfUnity s l) (hx : ∀ x ∈ l, ExactSelfEnergy s stat w x) (f : ℝ → ℝ) :
    democratic s f l = w.dynamic f := by
  conv_rhs => rw [← half_sum l (projector s) (projector_sum hs hl) (w.dynamic f)]
  unfold democratic
  congr 1
  refine List.map_congr_left fun x hxl => ?_
  rw [← sandwich_one hs (hx x hxl).complete (dynamic_symm w f)]
  have hM := exact_weighted (hx x hxl) f
  have hMs : (weighted f x.se.poles)ᵀ = weighted f x.se.poles := by
    rw [hM, transpose_mul, transpose_mul, transpose_transpose, dynamic_symm, Matrix.mul_assoc]
  rw [← hM, Vayesta.SelfEnergy.one, transpose_mul (x.cfc s), hMs, cfc_symm]
  rfl

theorem static1_exact (hs : Orbitals s) (hw : w.firstᵀ = w.first) {l : List (Frag ι)} (hl : PartitionOfUnity s l)
    (hx : ∀ x ∈ l, ExactSelfEnergy s stat w x) : (l.map (Frag.static1 s false)).sum = w.first - s.moᵀ * s.fock * s.mo := by
  have hF : (s.moᵀ * s.fock * s.mo)ᵀ = s.moᵀ * s.fock * s.mo := by
    rw [transpose_mul, transpose_mul, transpose_transpose, hs.fock, Matrix.mul_assoc]
  have hA : (w.first - s.moᵀ * s.fock * s.mo)ᵀ = w.first - s.moᵀ * s.fock * s.mo := by rw [transpose_sub, hw, hF]
  conv_rhs => rw [← half_sum l (projector s) (projector_sum hs hl) (w.first - s.moᵀ * s.fock * s.mo)]
  congr 1
  refine List.map_congr_left fun x hxl => ?_
  rw [← sandwich_one hs (hx x hxl).complete hA]
  show (List.map (fun c => toMo s c * _ * (toMo s c)ᵀ) [x.cAct]).sum = _
  rw [List.map_singleton, List.sum_singleton, Frag.staticCls, (hx x hxl).first, fockCls_eq hs, Matrix.mul_sub, Matrix.sub_mul]
  rfl

theorem pot1_exact (hs : Orbitals s) (hw : w.potᵀ = w.pot) {l : List (Frag ι)} (hl : PartitionOfUnity s l)
    (hx : ∀ x ∈ l, ExactSelfEnergy s stat w x) : (l.map (Frag.pot1 s stat false)).sum = s.mo * w.pot * s.moᵀ := by
  have hV : (s.mo * w.pot * s.moᵀ)ᵀ = s.mo * w.pot * s.moᵀ := by
    rw [transpose_mul, transpose_mul, transpose_transpose, hw, Matrix.mul_assoc]
  have h1 : ∀ x ∈ l, Frag.pot1 s stat false x
      = (1 / 2 : ℝ) • ((x.cFrag * x.cFragᵀ * s.ovlp) * (s.mo * w.pot * s.moᵀ) + (s.mo * w.pot * s.moᵀ) * (x.cFrag * x.cFragᵀ * s.ovlp)ᵀ) := by
    intro x hxl
    have hc := (hx x hxl).complete
    show (List.map (fun c => c * _ * cᵀ) [x.cAct]).sum = _
    rw [List.map_singleton, List.sum_singleton, Vayesta.SelfEnergy.one, Frag.vCls]
    have hv : stat x.nc x.se (fun i => x.fockCls s i i) = (toMo s x.cAct)ᵀ * w.pot * toMo s x.cAct := (hx x hxl).pot
    rw [hv]
    have h2 : x.cAct * (x.cfc s * ((toMo s x.cAct)ᵀ * w.pot * toMo s x.cAct)) * x.cActᵀ
        = (x.cFrag * x.cFragᵀ * s.ovlp) * (s.mo * w.pot * s.moᵀ) := by
      rw [toMo_transpose hs.overlap, toMo, Frag.cfc, fc_transpose hs.overlap, Frag.fc]
      have h3 : s.ovlp * (x.cAct * x.cActᵀ) = 1 := by
        have := exact_cancel' hs.overlap hc (1 : Matrix ι ι ℝ)
        rwa [Matrix.mul_one] at this
      simp only [Matrix.mul_assoc, exact_cancel hc, h3, Matrix.mul_one]
    have h4 := congrArg transpose h2
    rw [transpose_mul, transpose_mul, transpose_transpose, transpose_mul _ (s.mo * w.pot * s.moᵀ), hV, ← Matrix.mul_assoc] at h4
    rw [Matrix.mul_smul, Matrix.smul_mul, Matrix.mul_add, Matrix.add_mul, h2, h4]
  have h5 : ∀ k : List (Frag ι), (k.map fun x => (1 / 2 : ℝ) • ((x.cFrag * x.cFragᵀ * s.ovlp) * (s.mo * w.pot * s.moᵀ)
        + (s.mo * w.pot * s.moᵀ) * (x.cFrag * x.cFragᵀ * s.ovlp)ᵀ)).sum
      = (1 / 2 : ℝ) • ((k.map fun x => x.cFrag * x.cFragᵀ * s.ovlp).sum * (s.mo * w.pot * s.moᵀ)
        + (s.mo * w.pot * s.moᵀ) * ((k.map fun x => x.cFrag * x.cFragᵀ * s.ovlp).sum)ᵀ) := by
    intro k
    induction k with
    | nil => simp
    | cons b l ih => simp only [List.map_cons, List.sum_cons, ih, Matrix.add_mul, Matrix.mul_add, transpose_add]; module
  rw [List.map_congr_left h1, h5]
  unfold PartitionOfUnity at hl
  rw [hl, transpose_one, Matrix.one_mul, Matrix.mul_one]
  module

/-! ## Two projectors -/

theorem poles2_false (f : ℝ → ℝ) : weighted f (x.poles2 s false) = toMo s x.cFrag * x.fc s * weighted f x.se.poles * (toMo s x.cFrag * x.fc s)ᵀ := by
  show weighted f (List.flatMap (fun c => x.se.poles.map (pole2 s c.1 c.2)) [(x.cFrag, x.cAct)]) = _
  rw [List.flatMap_singleton]
  exact weighted_map f _ _

theorem poles2_exact (hs : Orbitals s) (hx : ExactSelfEnergy s stat w x) (f : ℝ → ℝ) :
    weighted f (x.poles2 s false) = projector s x * w.dynamic f * projector s x := by
  have h1 := toMo_fc hs hx.complete
  have h2 := congrArg transpose h1
  rw [transpose_mul, transpose_transpose, projector_symm hs] at h2
  rw [poles2_false, exact_weighted hx]
  conv_rhs => rw [← h1]
  rw [h1]
  have : toMo s x.cFrag * x.fc s * ((toMo s x.cAct)ᵀ * w.dynamic f * toMo s x.cAct) * (toMo s x.cFrag * x.fc s)ᵀ
      = (toMo s x.cFrag * x.fc s * (toMo s x.cAct)ᵀ) * w.dynamic f * (toMo s x.cAct * (toMo s x.cFrag * x.fc s)ᵀ) := by
    simp only [Matrix.mul_assoc]
  rw [this, h1, h2]

theorem static2_exact (hs : Orbitals s) (hx : ExactSelfEnergy s stat w x) :
    x.static2 s false = projector s x * (w.first - s.moᵀ * s.fock * s.mo) * projector s x := by
  have h1 := toMo_fc hs hx.complete
  have h2 := congrArg transpose h1
  rw [transpose_mul, transpose_transpose, projector_symm hs] at h2
  show (List.map (fun c => toMo s c * _ * (toMo s c)ᵀ) [x.cFrag]).sum = _
  have hA : x.staticCls s = (toMo s x.cAct)ᵀ * (w.first - s.moᵀ * s.fock * s.mo) * toMo s x.cAct := by
    rw [Frag.staticCls, hx.first, fockCls_eq hs, Matrix.mul_sub, Matrix.sub_mul]; rfl
  rw [List.map_singleton, List.sum_singleton, hA]
  have : toMo s x.cFrag * (x.fc s * ((toMo s x.cAct)ᵀ * (w.first - s.moᵀ * s.fock * s.mo) * toMo s x.cAct) * (x.fc s)ᵀ) * (toMo s x.cFrag)ᵀ
      = (toMo s x.cFrag * x.fc s * (toMo s x.cAct)ᵀ) * (w.first - s.moᵀ * s.fock * s.mo) * (toMo s x.cAct * (toMo s x.cFrag * x.fc s)ᵀ) := by
    rw [transpose_mul]; simp only [Matrix.mul_assoc]
  rw [this, h1, h2]

theorem pot2_exact (hs : Orbitals s) (hx : ExactSelfEnergy s stat w x) :
    x.pot2 s stat false = (x.cFrag * x.cFragᵀ * s.ovlp) * (s.mo * w.pot * s.moᵀ) * (x.cFrag * x.cFragᵀ * s.ovlp)ᵀ := by
  show (List.map (fun c => c * _ * cᵀ) [x.cFrag]).sum = _
  have hv : x.vCls s stat = (toMo s x.cAct)ᵀ * w.pot * toMo s x.cAct := hx.pot
  rw [List.map_singleton, List.sum_singleton, hv, toMo_transpose hs.overlap, toMo, fc_transpose hs.overlap, Frag.fc]
  simp only [Matrix.mul_assoc, exact_cancel hx.complete, exact_cancel' hs.overlap hx.complete, transpose_mul, transpose_transpose, hs.overlap]

end

/-! ## Symmetry -/

section
variable {ι : Type} [Fintype ι] {nmo : Nat} {s : Sys ι nmo} {stat : AsStatic}

theorem image_sandwich {u m : Matrix ι ι ℝ} (h : uᵀ * m * u = m) {a b : Nat} (c : Matrix ι (Fin a) ℝ) (d : Matrix ι (Fin b) ℝ) :
    (u * c)ᵀ * m * (u * d) = cᵀ * m * d := by
  have h2 : (u * c)ᵀ * m * (u * d) = cᵀ * (uᵀ * m * u) * d := by rw [transpose_mul]; simp only [Matrix.mul_assoc]
  rw [h2, h]

theorem image_fc {u : Matrix ι ι ℝ} (h : SymmetryOf s u) (x : Frag ι) : (x.image u).fc s = x.fc s := image_sandwich h.1 _ _

theorem image_cfc {u : Matrix ι ι ℝ} (h : SymmetryOf s u) (x : Frag ι) : (x.image u).cfc s = x.cfc s := by
  have := image_fc h x
  unfold Frag.cfc
  rw [this]; rfl

theorem image_fock {u : Matrix ι ι ℝ} (h : SymmetryOf s u) (x : Frag ι) : (x.image u).fockCls s = x.fockCls s := image_sandwich h.2 _ _

theorem image_static {u : Matrix ι ι ℝ} (h : SymmetryOf s u) (x : Frag ι) : (x.image u).staticCls s = x.staticCls s := by
  have := image_fock h x
  unfold Frag.staticCls
  rw [this]; rfl

theorem image_v {u : Matrix ι ι ℝ} (h : SymmetryOf s u) (x : Frag ι) : (x.image u).vCls s stat = x.vCls s stat := by
  have := image_fock h x
  unfold Frag.vCls
  rw [this]; rfl

/-- A fragment without its images. -/
def bare (x : Frag ι) : Frag ι := { x with ops := [] }

/-- A fragment and its images. -/
def family (x : Frag ι) : List (Frag ι) := bare x :: x.ops.map fun u => x.image u

theorem sum_flatMap_map {α β γ : Type} [AddCommMonoid γ] (l : List α) (h : α → List β) (g : β → γ) :
    ((l.flatMap h).map g).sum = (l.map fun x => ((h x).map g).sum).sum := by
  induction l with
  | nil => rfl
  | cons a l ih => rw [List.flatMap_cons, List.map_append, List.sum_append, ih, List.map_cons, List.sum_cons]

theorem family_sum {γ : Type} [AddCommMonoid γ] (l : List (Frag ι)) (g g' : Frag ι → γ)
    (h : ∀ x ∈ l, ((family x).map g).sum = g' x) : ((l.flatMap family).map g).sum = (l.map g').sum := by
  rw [sum_flatMap_map]
  congr 1
  exact List.map_congr_left h

theorem family_term {γ : Type} [AddCommMonoid γ] {x : Frag ι} {n : Nat} (c : Matrix ι (Fin n) ℝ) (g : Frag ι → γ) (T : Matrix ι (Fin n) ℝ → γ)
    (h0 : g (bare x) = T c) (h1 : ∀ u ∈ x.ops, g (x.image u) = T (u * c)) : ((family x).map g).sum = ((images true x.ops c).map T).sum := by
  unfold family images
  rw [List.map_cons, List.sum_cons, h0, if_pos rfl, List.map_cons, List.sum_cons, List.map_map, List.map_map]
  congr 2
  exact List.map_congr_left h1

theorem family_mom1 {x : Frag ι} (h : ∀ u ∈ x.ops, SymmetryOf s u) (k : Nat) : ((family x).map (Frag.mom1 s false k)).sum = x.mom1 s true k := by
  refine family_term x.cAct _ (fun c => toMo s c * ((1 / 2 : ℝ) • (x.cfc s * weighted (· ^ k) x.se.poles + weighted (· ^ k) x.se.poles * x.cfc s)) * (toMo s c)ᵀ)
    ?_ fun u hu => ?_
  · exact moSum_single _ _
  · refine (moSum_single _ _).trans ?_
    rw [image_cfc (h u hu)]; rfl

theorem family_mom2 {x : Frag ι} (h : ∀ u ∈ x.ops, SymmetryOf s u) (k : Nat) : ((family x).map (Frag.mom2 s false k)).sum = x.mom2 s true k := by
  refine family_term x.cFrag _ (fun c => toMo s c * ((1 / 2 : ℝ) • (x.fc s * weighted (· ^ k) x.se.poles * (x.fc s)ᵀ)) * (toMo s c)ᵀ)
    ?_ fun u hu => ?_
  · exact moSum_single _ _
  · refine (moSum_single _ _).trans ?_
    rw [image_fc (h u hu)]; rfl

theorem family_static1 {x : Frag ι} (h : ∀ u ∈ x.ops, SymmetryOf s u) : ((family x).map (Frag.static1 s false)).sum = x.static1 s true := by
  refine family_term x.cAct _ (fun c => toMo s c * (Vayesta.SelfEnergy.one (x.cfc s) (x.staticCls s)) * (toMo s c)ᵀ) ?_ fun u hu => ?_
  · exact moSum_single _ _
  · refine (moSum_single _ _).trans ?_
    rw [image_cfc (h u hu), image_static (h u hu)]; rfl

theorem family_static2 {x : Frag ι} (h : ∀ u ∈ x.ops, SymmetryOf s u) : ((family x).map (Frag.static2 s false)).sum = x.static2 s true := by
  refine family_term x.cFrag _ (fun c => toMo s c * (x.fc s * x.staticCls s * (x.fc s)ᵀ) * (toMo s c)ᵀ) ?_ fun u hu => ?_
  · exact moSum_single _ _
  · refine (moSum_single _ _).trans ?_
    rw [image_fc (h u hu), image_static (h u hu)]; rfl

theorem family_pot1 {x : Frag ι} (h : ∀ u ∈ x.ops, SymmetryOf s u) : ((family x).map (Frag.pot1 s stat false)).sum = x.pot1 s stat true := by
  refine family_term x.cAct _ (fun c => c * (Vayesta.SelfEnergy.one (x.cfc s) (x.vCls s stat)) * cᵀ) ?_ fun u hu => ?_
  · exact aoSum_single _ _
  · refine (aoSum_single _ _).trans ?_
    rw [image_cfc (h u hu), image_v (h u hu)]; rfl

theorem family_pot2 {x : Frag ι} (h : ∀ u ∈ x.ops, SymmetryOf s u) : ((family x).map (Frag.pot2 s stat false)).sum = x.pot2 s stat true := by
  refine family_term x.cFrag _ (fun c => c * (x.fc s * x.vCls s stat * (x.fc s)ᵀ) * cᵀ) ?_ fun u hu => ?_
  · exact aoSum_single _ _
  · refine (aoSum_single _ _).trans ?_
    rw [image_fc (h u hu), image_v (h u hu)]; rfl

theorem poles2_single (x : Frag ι) : x.poles2 s false = x.se.poles.map (pole2 s x.cFrag x.cAct) := by
  show List.flatMap (fun c => x.se.poles.map (pole2 s c.1 c.2)) [(x.cFrag, x.cAct)] = _
  rw [List.flatMap_singleton]

theorem family_poles2 (x : Frag ι) : (family x).flatMap (Frag.poles2 s false) = x.poles2 s true := by
  have h : x.poles2 s true = x.se.poles.map (pole2 s x.cFrag x.cAct) ++
      (x.ops.map fun u => (u * x.cFrag, u * x.cAct)).flatMap fun c => x.se.poles.map (pole2 s c.1 c.2) := rfl
  unfold family
  rw [h, List.flatMap_cons, List.flatMap_map, List.flatMap_map, poles2_single]
  congr 1
  exact List.flatMap_congr fun u _ => poles2_single (x.image u)

theorem chosen_true (l : List (Frag ι)) : chosen true l = l.filter fun x => x.root := rfl
theorem chosen_false (l : List (Frag ι)) : chosen false l = l := rfl
theorem allImages_eq (l : List (Frag ι)) : allImages l = (chosen true l).flatMap family := rfl

theorem family_isEmpty (l : List (Frag ι)) : (l.flatMap family).isEmpty = l.isEmpty := by
  cases l with
  | nil => rfl
  | cons x l => rfl

/-! ## Exceptions -/

theorem mapM_family {α β γ : Type} (h : α → List β) (F' : β → Except PyErr (List γ)) (F : α → Except PyErr (List γ)) :
    ∀ l : List α, (∀ x ∈ l, ((h x).mapM (m := Except PyErr) F').map List.flatten = F x) →
    ((l.flatMap h).mapM (m := Except PyErr) F').map List.flatten = (l.mapM (m := Except PyErr) F).map List.flatten
  | [], _ => rfl
  | x :: l, hx => by
    have ih := mapM_family h F' F l fun y hy => hx y (List.mem_cons_of_mem _ hy)
    have h1 := hx x (by simp)
    rw [List.flatMap_cons, List.mapM_append, List.mapM_cons, ← h1]
    cases ha : (h x).mapM (m := Except PyErr) F' with
    | error e => rfl
    | ok a =>
      cases hb : (l.flatMap h).mapM (m := Except PyErr) F' with
      | error e =>
        rw [hb] at ih
        cases hc : l.mapM (m := Except PyErr) F with
        | error e' => rw [hc] at ih; simpa [Except.map, bind, Except.bind, pure, Except.pure] using ih
        | ok c => rw [hc] at ih; simp [Except.map] at ih
      | ok b =>
        rw [hb] at ih
        cases hc : l.mapM (m := Except PyErr) F with
        | error e' => rw [hc] at ih; simp [Except.map] at ih
        | ok c =>
          rw [hc] at ih
          have : b.flatten = c.flatten := by simpa [Except.map] using ih
          simp [Except.map, bind, Except.bind, pure, Except.pure, this]

theorem mapM_const {α β : Type} (l : List α) (F : α → Except PyErr β) (g : α → β) (h : ∀ a ∈ l, F a = .ok (g a)) :
    l.mapM (m := Except PyErr) F = .ok (l.map g) := by
  induction l with
  | nil => rfl
  | cons a l ih => rw [List.mapM_cons, h a (by simp), ih fun b hb => h b (List.mem_cons_of_mem _ hb)]; rfl

/-- The loop over fragments, without the last steps. -/
noncomputable def loop1 (s : Sys ι nmo) (t : Routines nmo) (useSym useSvd : Bool) (tol : ℝ) (x : Frag ι) : Except PyErr (List (Pole (Fin nmo) ℂ)) := do
  let _ ← sized ι nmo false ()
  x.poles1 s t useSym useSvd tol

/-- The decomposition of a list of poles. -/
noncomputable def splitList (t : Routines nmo) (useSvd : Bool) (tol : ℝ) {n : Nat} (cfc : Matrix (Fin n) (Fin n) ℝ) (poles : List (Pole (Fin n) ℝ)) :
    Except PyErr (List (List (Pole (Fin n) ℂ))) :=
  match poles with
  | [] => .error .valueError
  | a :: as => (a :: as).mapM (m := Except PyErr) fun a => if useSvd then splitSvd (t.svd n) tol cfc a else splitEigh (t.eigh n) tol cfc a

/-- The list which is decomposed for one fragment. -/
noncomputable def splitAll (s : Sys ι nmo) (t : Routines nmo) (useSvd : Bool) (tol : ℝ) (x : Frag ι) : Except PyErr (List (List (Pole (Fin x.nc) ℂ))) :=
  splitList t useSvd tol (x.cfc s) x.se.poles

theorem poles1_eq (t : Routines nmo) (useSym useSvd : Bool) (tol : ℝ) (x : Frag ι) : x.poles1 s t useSym useSvd tol
    = (splitAll s t useSvd tol x).map fun parts => (images useSym x.ops x.cAct).flatMap fun c => parts.flatten.map (Pole.toMo (toMo s c)) := by
  unfold Frag.poles1 splitAll splitList
  cases x.se.poles <;> rfl

theorem image_splitAll {u : Matrix ι ι ℝ} (h : SymmetryOf s u) (t : Routines nmo) (useSvd : Bool) (tol : ℝ) (x : Frag ι) :
    splitAll s t useSvd tol (x.image u) = splitAll s t useSvd tol x := by
  have := image_cfc h x
  unfold splitAll
  rw [this]; rfl

theorem family_loop1 (t : Routines nmo) (useSvd : Bool) (tol : ℝ) {x : Frag ι} (h : ∀ u ∈ x.ops, SymmetryOf s u) :
    ((family x).mapM (m := Except PyErr) (loop1 s t false useSvd tol)).map List.flatten = loop1 s t true useSvd tol x := by
  unfold family
  rw [List.mapM_cons]
  have hb : splitAll s t useSvd tol (bare x) = splitAll s t useSvd tol x := rfl
  by_cases hz : Fintype.card ι = nmo
  · have hs : sized ι nmo false () = .ok () := by rw [sized, if_pos (Or.inr hz)]
    cases hp : splitAll s t useSvd tol x with
    | error e =>
      have h1 : loop1 s t false useSvd tol (bare x) = .error e := by
        rw [loop1, hs, poles1_eq, hb, hp]; rfl
      have h2 : loop1 s t true useSvd tol x = .error e := by
        rw [loop1, hs, poles1_eq, hp]; rfl
      rw [h1, h2]; rfl
    | ok parts =>
      have h1 : loop1 s t false useSvd tol (bare x) = .ok (parts.flatten.map (Pole.toMo (toMo s x.cAct))) := by
        rw [loop1, hs, poles1_eq, hb, hp]
        show Except.ok (List.flatMap _ [_]) = _
        rw [List.flatMap_singleton]; rfl
      have h2 : loop1 s t true useSvd tol x = .ok ((images true x.ops x.cAct).flatMap fun c => parts.flatten.map (Pole.toMo (toMo s c))) := by
        rw [loop1, hs, poles1_eq, hp]; rfl
      have h3 : (x.ops.map fun u => x.image u).mapM (m := Except PyErr) (loop1 s t false useSvd tol)
          = .ok (x.ops.map fun u => parts.flatten.map (Pole.toMo (toMo s (u * x.cAct)))) := by
        rw [List.mapM_map]
        refine mapM_const _ _ _ fun u hu => ?_
        show loop1 s t false useSvd tol (x.image u) = _
        rw [loop1, hs, poles1_eq, image_splitAll (h u hu), hp]
        show Except.ok (List.flatMap _ [_]) = _
        rw [List.flatMap_singleton]; rfl
      rw [h1, h2, h3]
      show Except.ok (List.flatten (_ :: _)) = _
      unfold images
      rw [List.flatten_cons, if_pos rfl, List.flatMap_cons, List.flatMap_map, List.flatMap_def]
  · have hs : sized ι nmo false () = .error .valueError := by
      rw [sized, if_neg (by simp [hz])]
    have h1 : loop1 s t false useSvd tol (bare x) = .error .valueError := by rw [loop1, hs]; rfl
    have h2 : loop1 s t true useSvd tol x = .error .valueError := by rw [loop1, hs]; rfl
    rw [h1, h2]; rfl

theorem make1proj_eq (t : Routines nmo) (useSym useSvd : Bool) (dtol etol : ℝ) (drop : Bool) (l : List (Frag ι)) :
    make1proj s stat t useSym useSvd dtol etol drop l = if (chosen useSym l).isEmpty then .error .valueError else
      (((chosen useSym l).mapM (m := Except PyErr) (loop1 s t useSym useSvd etol)).map List.flatten).bind fun raw =>
        (removeDegeneracy t dtol etol drop (t.sortC raw)).map fun se =>
          ⟨se, ((chosen useSym l).map (Frag.static1 s useSym)).sum, ((chosen useSym l).map (Frag.pot1 s stat useSym)).sum⟩ := by
  unfold make1proj
  show ((chosen useSym l).mapM (m := Except PyErr) (loop1 s t useSym useSvd etol)).bind _ = _
  cases hl : chosen useSym l with
  | nil => rfl
  | cons x xs =>
    cases hm : (x :: xs).mapM (m := Except PyErr) (loop1 s t useSym useSvd etol) with
    | error e => rfl
    | ok parts =>
      have hne : parts.isEmpty = false := by
        rw [List.mapM_cons] at hm
        cases h1 : loop1 s t useSym useSvd etol x with
        | error e => rw [h1] at hm; cases hm
        | ok a =>
          rw [h1] at hm
          cases h2 : xs.mapM (m := Except PyErr) (loop1 s t useSym useSvd etol) with
          | error e => rw [h2] at hm; cases hm
          | ok b => rw [h2] at hm; cases hm; rfl
      show (bif parts.isEmpty then _ else _) = _
      rw [hne]
      cases h3 : removeDegeneracy t dtol etol drop (t.sortC parts.flatten) with
      | error e => simp [Except.map, Except.bind, bind, pure, Except.pure, h3]
      | ok b => simp [Except.map, Except.bind, bind, pure, Except.pure, h3]

end

end Vayesta.Lemmas.SelfEnergy
