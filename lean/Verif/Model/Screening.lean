import Verif.Model.Rpa

/-! Model of screened interactions in clusters: `vayesta/core/screening/screening_moment.py`, `screening_crpa.py`, and the parts of
`vayesta/solver/hamiltonian.py` and `vayesta/core/qemb/qemb.py` which use them. Excitations of the system are `p`, those of a cluster `q`,
alpha and beta excitations being the sides of a sum type. Exact arithmetic. -/

namespace Vayesta.Screening

open Matrix Lowdin Rpa

variable {o v o' v' c d c' d' p q r aux ι : Type} [Fintype p] [DecidableEq p] [Fintype q] [DecidableEq q] [Fintype r] [DecidableEq r] [Fintype aux]

/-! ## Moment-conserving interactions -/

/-- `get_target_rot_spat` (screening_moment.py:230-253), `ro` and `rv` are overlaps of orbitals of the system with the cluster orbitals. -/
def targetRotSpat (ro : Matrix o c ℝ) (rv : Matrix v d ℝ) : Matrix (c × d) (o × v) ℝ := Matrix.of fun x y => ro y.1 x.1 * rv y.2 x.2

/-- One of the `target_rots` (`_get_target_rot`, screening_moment.py:213-273), with alpha and beta blocked. -/
def targetRot (roa : Matrix o c ℝ) (rva : Matrix v d ℝ) (rob : Matrix o' c' ℝ) (rvb : Matrix v' d' ℝ) : Matrix (c × d ⊕ c' × d') (o × v ⊕ o' × v') ℝ :=
  fromBlocks (targetRotSpat roa rva) 0 0 (targetRotSpat rob rvb)

/-- The rows of all `target_rots`, `tr` (screening_moment.py:117), for fragments `f : ι` with `Q f` excitations. -/
def stack {Q : ι → Type} (rots : ∀ f, Matrix (Q f) p ℝ) : Matrix (Σ f, Q f) p ℝ := Matrix.of fun x => rots x.1 x.2

/-- `calc_moms_RIRPA` (screening_moment.py:115-138): `momzero` is the result of `rpa.kernel_moms(0, tr)`; the rows of fragment `f` are taken,
rotated and symmetrised. -/
noncomputable def localMoment {Q : ι → Type} (rots : ∀ f, Matrix (Q f) p ℝ) (momzero : Matrix (Σ f, Q f) p ℝ) (f : ι) : Matrix (Q f) (Q f) ℝ :=
  let m : Matrix (Q f) (Q f) ℝ := (Matrix.of fun (x : Q f) => momzero ⟨f, x⟩) * (rots f)ᵀ
  (1 / 2 : ℝ) • (m + mᵀ)

/-- `calc_moms_RPA` (screening_moment.py:141-148). -/
def localMomentRPA (rot : Matrix q p ℝ) (mom0 : Matrix p p ℝ) : Matrix q q ℝ := rot * mom0 * rotᵀ

/-- `amb = einsum("pn,qn,n->pq", rot, rot, eps)` (screening_moment.py:83). -/
def localAmB (rot : Matrix q p ℝ) (eps : p → ℝ) : Matrix q q ℝ := Matrix.of fun x y => ∑ n, rot x n * rot y n * eps n

/-- `mominv` (screening_moment.py:86-90); small eigenvalues only give a warning. -/
noncomputable def momInv (eigh : Matrix q q ℝ → Eig q ℝ) (mom : Matrix q q ℝ) : Matrix q q ℝ :=
  Matrix.of fun x y => ∑ n, (eigh mom).vec x n * ((eigh mom).val n)⁻¹ * (eigh mom).vec y n

/-- `kc` before the separation of spins (screening_moment.py:91-96). -/
noncomputable def momentKernel (eigh : Matrix q q ℝ → Eig q ℝ) (mom amb : Matrix q q ℝ) : Matrix q q ℝ :=
  (1 / 2 : ℝ) • (momInv eigh mom * amb * momInv eigh mom - amb)

/-- Integrals with pairs of one occupied and one virtual orbital. -/
abbrev Ov (c d c' d' : Type) := c → d → c' → d' → ℝ

/-- Spin components `kcaa`, `kcab`, `kcbb` (screening_moment.py:106-108). -/
def spinParts (kc : Matrix (c × d ⊕ c' × d') (c × d ⊕ c' × d') ℝ) : Ov c d c d × Ov c d c' d' × Ov c' d' c' d' :=
  (fun i a j b => kc (.inl (i, a)) (.inl (j, b)), fun i a j b => kc (.inl (i, a)) (.inr (j, b)), fun i a j b => kc (.inr (i, a)) (.inr (j, b)))

/-- What `build_screened_eris` stores in a fragment (screening_moment.py:111): the interaction, and moment and `A - B` if `store_m0`. -/
structure Stored (c d c' d' : Type) where
  kc : Ov c d c d × Ov c d c' d' × Ov c' d' c' d'
  m0 : Option (Matrix (c × d ⊕ c' × d') (c × d ⊕ c' × d') ℝ × Matrix (c × d ⊕ c' × d') (c × d ⊕ c' × d') ℝ)

/-- The loop body of `build_screened_eris` (screening_moment.py:82-112) for one fragment; without excitations `min(e)` raises ValueError. -/
noncomputable def buildOne [Fintype c] [Fintype d] [Fintype c'] [Fintype d'] [DecidableEq c] [DecidableEq d] [DecidableEq c'] [DecidableEq d']
    (eigh : Matrix (c × d ⊕ c' × d') (c × d ⊕ c' × d') ℝ → Eig (c × d ⊕ c' × d') ℝ) (storeM0 : Bool) (rot : Matrix (c × d ⊕ c' × d') p ℝ)
    (mom : Matrix (c × d ⊕ c' × d') (c × d ⊕ c' × d') ℝ) (eps : p → ℝ) : Except PyErr (Stored c d c' d') :=
  if Fintype.card (c × d ⊕ c' × d') = 0 then .error .valueError
  else .ok ⟨spinParts (momentKernel eigh mom (localAmB rot eps)), if storeM0 then some (mom, localAmB rot eps) else none⟩

/-! ## Screened arrays -/

/-- What `build_screened_eris` refuses (screening_moment.py:45-49, 82-87, 117-123): `novs` are the numbers of excitations of the fragments with
this kind of screening. Nothing can be concatenated without fragments, `min` of no eigenvalues is a ValueError. -/
def checkBuild (df : Bool) (novs : List Nat) : Except PyErr Unit :=
  if !df then .error .notImplementedError
  else if novs = [] then .error .valueError
  else if novs.sum = 0 then .error .valueError
  else novs.forM (m := Except PyErr) fun n => if n = 0 then .error .valueError else .ok ()


/-- `replace_ov` with `copy=True` (screening_moment.py:155-164). -/
def replaceOv (full : c ⊕ d → c ⊕ d → c' ⊕ d' → c' ⊕ d' → ℝ) (ov : Ov c d c' d') : c ⊕ d → c ⊕ d → c' ⊕ d' → c' ⊕ d' → ℝ
  | .inl i, .inr a, .inl j, .inr b => ov i a j b
  | .inr a, .inl i, .inl j, .inr b => ov i a j b
  | .inl i, .inr a, .inr b, .inl j => ov i a j b
  | .inr a, .inl i, .inr b, .inl j => ov i a j b
  | x, y, z, w => full x y z w

/-- `get_screened_eris_full` (screening_moment.py:150-174) for unrestricted integrals, with `copy=True`. -/
def screenedFull (gaa : c ⊕ d → c ⊕ d → c ⊕ d → c ⊕ d → ℝ) (gab : c ⊕ d → c ⊕ d → c' ⊕ d' → c' ⊕ d' → ℝ) (gbb : c' ⊕ d' → c' ⊕ d' → c' ⊕ d' → c' ⊕ d' → ℝ)
    (s : Ov c d c d × Ov c d c' d' × Ov c' d' c' d') :=
  (replaceOv gaa s.1, replaceOv gab s.2.1, replaceOv gbb s.2.2)

/-- `spin_integrate_and_report` (hamiltonian.py:464-471), the returned array. -/
noncomputable def spinIntegrate {n : Type} (aa ab bb : n → n → n → n → ℝ) : n → n → n → n → ℝ := fun x y z w =>
  (aa x y z w + ab x y z w + bb x y z w + ab z w x y) / 4

/-- `_add_screening` with "mrpa" for restricted Hamiltonians (hamiltonian.py:475-481), where one array stands for all spins
(screening_moment.py:166-167). -/
noncomputable def addScreeningR (g : c ⊕ d → c ⊕ d → c ⊕ d → c ⊕ d → ℝ) (s : Ov c d c d × Ov c d c d × Ov c d c d) : c ⊕ d → c ⊕ d → c ⊕ d → c ⊕ d → ℝ :=
  spinIntegrate (screenedFull g g g s).1 (screenedFull g g g s).2.1 (screenedFull g g g s).2.2

/-! ## CCSD integrals -/

/-- The integrals of a CCSD calculation which are screened, and the bare ones kept by the method `get_bare` if it exists. -/
structure CcsdEris (c d c' d' : Type) where
  ovov : Ov c d c d
  ovvo : c → d → d → c → ℝ
  ovOV : Ov c d c' d'
  ovVO : c → d → d' → c' → ℝ
  oVOV : Ov c' d' c' d'
  oVVO : c' → d' → d' → c' → ℝ
  oVvo : c' → d' → d → c → ℝ
  bare : Option (Ov c d c d × Ov c d c' d' × Ov c' d' c' d')

/-- The assignments in `get_screened_eris_ccsd` (screening_moment.py:183-194). -/
def assignOv (e : CcsdEris c d c' d') (s : Ov c d c d × Ov c d c' d' × Ov c' d' c' d') : CcsdEris c d c' d' :=
  { e with
    ovov := s.1, ovvo := fun i a b j => s.1 i a j b
    ovOV := s.2.1, ovVO := fun i a b j => s.2.1 i a j b
    oVOV := s.2.2, oVVO := fun i a b j => s.2.2 i a j b
    oVvo := fun j b a i => s.2.1 i a j b }

/-- `get_screened_eris_ccsd` with `add_restore_bare=True` (screening_moment.py:177-210). -/
def screenCcsd (e : CcsdEris c d c' d') (s : Ov c d c d × Ov c d c' d' × Ov c' d' c' d') : CcsdEris c d c' d' :=
  { assignOv e s with bare := some (e.ovov, e.ovOV, e.oVOV) }

/-- `restore_bare` (screening_moment.py:202-205): the method exists only after screening, and deletes itself. -/
def restoreBare (e : CcsdEris c d c' d') : Except PyErr (CcsdEris c d c' d') :=
  match e.bare with
  | none => .error .attributeError
  | some g => .ok { assignOv e g with bare := none }

/-! ## Energy corrections -/

/-- `pr` (hamiltonian.py:415-418): `np.tensordot(proj, m, axes=[0, 0])`, the first occupied index projected. -/
def projOcc [Fintype c] (proj : Matrix c c ℝ) (m : Matrix (c × d) (c × d) ℝ) : Matrix (c × d) (c × d) ℝ :=
  Matrix.of fun x y => ∑ i, proj i x.1 * m (i, x.2) y

/-- `calc_loc_erpa` (hamiltonian.py:397-449): the returned energy, for the projector `po`, cluster integrals `v`, moment `m0` and `amb`. -/
noncomputable def calcLocErpa [Fintype c] [Fintype d] [DecidableEq c] [DecidableEq d] (po : Matrix c c ℝ) (v : Matrix (c × d) (c × d) ℝ)
    (m0 amb : Matrix (c × d ⊕ c × d) (c × d ⊕ c × d) ℝ) (onlyCumulant : Bool) : Except PyErr ℝ :=
  let maa := m0.toBlocks₁₁
  let mab := m0.toBlocks₁₂
  let mbb := m0.toBlocks₂₂
  if onlyCumulant then .ok (1 / 2 * (projOcc po (maa + mab + mabᵀ + mbb - (2 : ℝ) • 1) * v).trace)
  else if ∀ x y, |amb.toBlocks₁₂ x y| < 1 / 10 ^ 10 then
    .ok (1 / 2 * ((projOcc po maa * amb.toBlocks₁₁).trace + (projOcc po mbb * amb.toBlocks₂₂).trace)
      + (projOcc po (maa + mab + mabᵀ + mbb) * v).trace - 1 / 2 * (projOcc po (amb.toBlocks₁₁ + v + amb.toBlocks₂₂ + v)).trace)
  else .error .assertionError

/-- `build_screened_eris` before any calculation (uqemb.py:198-203, qemb.py:757-771), with the option `ext_rpa_correction` and the numbers of
fragments with "mrpa" screening and of all fragments; an empty string is false in `if`. The result tells whether the correction is calculated. -/
def checkCorrection (unrestricted : Bool) (option : Option String) (nmrpa nfrag : Nat) : Except PyErr Bool :=
  if unrestricted ∧ option ≠ none then .error .notImplementedError
  else if option = none ∨ option = some "" then .ok false
  else if nmrpa < nfrag then .error .notImplementedError
  else if option ≠ some "erpa" ∧ option ≠ some "cumulant" then .error .valueError
  else .ok true

/-- `e_nonlocal` (qemb.py:585-589): `local_` are the local energies and symmetry factors of the parent fragments. -/
noncomputable def eNonlocal (corrected : Bool) (eRpa : ℝ) (locals : List (ℝ × ℝ)) (ncells : ℝ) : ℝ :=
  if corrected then eRpa - (locals.map fun x => x.1 * x.2).sum / ncells else 0

/-- `e_rpa` for the cumulant (qemb.py:773-789, 793): `lp` are the three-index integrals of one spin, `ln` those with negative sign in two
dimensions; `eta l` is `kernel_moms(0, target_rot=l)`. -/
noncomputable def eRpaCumulant {auxn pa : Type} [Fintype auxn] [Fintype pa] (lp : Matrix aux pa ℝ) (ln : Matrix auxn pa ℝ)
    (eta : Matrix (aux ⊕ auxn) (pa ⊕ pa) ℝ → Matrix (aux ⊕ auxn) (pa ⊕ pa) ℝ) (ncells : ℝ) : ℝ :=
  let l : Matrix (aux ⊕ auxn) (pa ⊕ pa) ℝ := fromBlocks lp lp ln ln
  let l2 : Matrix (aux ⊕ auxn) (pa ⊕ pa) ℝ := fromBlocks lp lp (-ln) (-ln)
  1 / 2 * (∑ x, ∑ y, (eta l - l) x y * l2 x y) / ncells

/-! ## Static constrained RPA -/

/-- Pairs of active orbitals, of one spin. -/
abbrev Pairs (c d : Type) := (c ⊕ d) × (c ⊕ d)

/-- Three-index integrals `ao2mo(mf, mo_coeff)` (screening_crpa.py:216-240) in all pairs of orbitals. -/
def threeIndex {n : Type} [Fintype ι] (l : aux → ι → ι → ℝ) (c : Matrix ι n ℝ) : Matrix aux (n × n) ℝ :=
  Matrix.of fun k x => ∑ y, ∑ z, l k y z * c y x.1 * c z x.2

/-- The same with `ijslice`, occupied-virtual pairs (screening_crpa.py:109, 113). -/
def threeIndexOv [Fintype ι] (l : aux → ι → ι → ℝ) (co : Matrix ι o ℝ) (cv : Matrix ι v ℝ) : Matrix aux (o × v) ℝ :=
  Matrix.of fun k x => ∑ y, ∑ z, l k y z * co y x.1 * cv z x.2

/-- What enters `set_up_W_crpa` for one spin: integrals in pairs of active orbitals and of excitations of the system, the rotations to the
excitations of the cluster and (after the RPA calculation) of the RPA space, and the energies of all excitations. -/
structure SpinData (aux c d p r : Type) where
  lpq : Matrix aux (Pairs c d) ℝ
  lov : Matrix aux p ℝ
  rotLoc : Matrix (c × d) p ℝ
  rot : Matrix r p ℝ
  eps : p → ℝ

/-- `l_aux` (screening_crpa.py:108-118). -/
def lAux {m ra rb pa pb : Type} [Fintype pa] [Fintype pb] [Fintype ra] [Fintype rb] (a : SpinData aux c d pa ra) (b : SpinData aux c' d' pb rb)
    (xa : Matrix ra m ℝ) (xb : Matrix rb m ℝ) : Matrix aux m ℝ := a.lov * a.rotᵀ * xa + b.lov * b.rotᵀ * xb

/-- `a_fb` and `b_fb` of one spin (screening_crpa.py:141-147), `x` being the excitation or de-excitation amplitudes. -/
def epsFb {m : Type} (s : SpinData aux c d p r) (x : Matrix r m ℝ) : Matrix (c × d) m ℝ := (Matrix.of fun i j => ∑ k, s.eps k * s.rotLoc i k * s.rot j k) * x

/-- Couplings of one spin (screening_crpa.py:126-169). -/
noncomputable def couple {m : Type} (s : SpinData aux c d p r) (pcoupling onlyOv : Bool) (l : Matrix aux m ℝ) (xpy xmy : Matrix r m ℝ) : m → c ⊕ d → c ⊕ d → ℝ
  | k, .inl i, .inr a => (∑ n, s.lpq n (.inl i, .inr a) * l n k) + if pcoupling then epsFb s ((1 / 2 : ℝ) • (xpy + xmy)) (i, a) k else 0
  | k, .inr a, .inl i => (∑ n, s.lpq n (.inr a, .inl i) * l n k) + if pcoupling then epsFb s ((1 / 2 : ℝ) • (xpy - xmy)) (i, a) k else 0
  | k, x, y => if onlyOv then 0 else ∑ n, s.lpq n (x, y) * l n k

/-- `delta_w` (screening_crpa.py:81-91), one spin component. -/
noncomputable def deltaW {m n n' : Type} [Fintype m] (freqs : m → ℝ) (la : m → n → n → ℝ) (lb : m → n' → n' → ℝ) : n → n → n' → n' → ℝ := fun x y z w =>
  ∑ k, la k x y * (-1 * (freqs k)⁻¹) * lb k z w + ∑ k, la k y x * (-1 * (freqs k)⁻¹) * lb k w z

/-- `get_crpa` and `set_up_W_crpa` (screening_crpa.py:95-213): `rot` of the arguments is the orthogonal complement of the cluster excitations
(`scipy.linalg.null_space`), energies in it are diagonalised by the RPA class, `fullv` are the integrals of that class. The result are frequencies
and couplings. -/
noncomputable def setUpW {ra rb pa pb : Type} [Fintype pa] [Fintype pb] [Fintype ra] [Fintype rb] [DecidableEq ra] [DecidableEq rb] [DecidableEq pa]
    [DecidableEq pb] (eigha : Matrix ra ra ℝ → Eig ra ℝ) (eighb : Matrix rb rb ℝ → Eig rb ℝ) (eigh : Matrix (ra ⊕ rb) (ra ⊕ rb) ℝ → Eig (ra ⊕ rb) ℝ)
    (a : SpinData aux c d pa ra) (b : SpinData aux c' d' pb rb) (fullv : Matrix (pa ⊕ pb) (pa ⊕ pb) ℝ) (pcoupling onlyOv : Bool) :
    Except PyErr ((ra ⊕ rb → ℝ) × (ra ⊕ rb → c ⊕ d → c ⊕ d → ℝ) × (ra ⊕ rb → c' ⊕ d' → c' ⊕ d' → ℝ)) :=
  let a' := { a with rot := (rotate eigha a.rot a.eps).2 }
  let b' := { b with rot := (rotate eighb b.rot b.eps).2 }
  (kernel eigh (concat (rotate eigha a.rot a.eps).1 (rotate eighb b.rot b.eps).1) (fromBlocks a'.rot 0 0 b'.rot) fullv 1).map fun r =>
    let xa : Matrix ra (ra ⊕ rb) ℝ := Matrix.of fun x n => r.1.xpy (.inl x) n
    let xb : Matrix rb (ra ⊕ rb) ℝ := Matrix.of fun x n => r.1.xpy (.inr x) n
    let ya : Matrix ra (ra ⊕ rb) ℝ := Matrix.of fun x n => r.1.xmy (.inl x) n
    let yb : Matrix rb (ra ⊕ rb) ℝ := Matrix.of fun x n => r.1.xmy (.inr x) n
    (r.1.freqs, couple a' pcoupling onlyOv (lAux a' b' xa xb) xa ya, couple b' pcoupling onlyOv (lAux a' b' xa xb) xb yb)

/-- `get_frag_deltaW` (screening_crpa.py:54-92): no screening if the space contains no excitations. -/
noncomputable def fragDeltaW {ra rb pa pb : Type} [Fintype pa] [Fintype pb] [Fintype ra] [Fintype rb] [DecidableEq ra] [DecidableEq rb] [DecidableEq pa]
    [DecidableEq pb] (eigha : Matrix ra ra ℝ → Eig ra ℝ) (eighb : Matrix rb rb ℝ → Eig rb ℝ) (eigh : Matrix (ra ⊕ rb) (ra ⊕ rb) ℝ → Eig (ra ⊕ rb) ℝ)
    (a : SpinData aux c d pa ra) (b : SpinData aux c' d' pb rb) (fullv : Matrix (pa ⊕ pb) (pa ⊕ pb) ℝ) (pcoupling onlyOv : Bool) :
    Except PyErr ((c ⊕ d → c ⊕ d → c ⊕ d → c ⊕ d → ℝ) × (c ⊕ d → c ⊕ d → c' ⊕ d' → c' ⊕ d' → ℝ) × (c' ⊕ d' → c' ⊕ d' → c' ⊕ d' → c' ⊕ d' → ℝ)) :=
  if Fintype.card ra = 0 ∧ Fintype.card rb = 0 then .ok (fun _ _ _ _ => 0, fun _ _ _ _ => 0, fun _ _ _ _ => 0)
  else (setUpW eigha eighb eigh a b fullv pcoupling onlyOv).map fun r =>
    (deltaW r.1 r.2.1 r.2.1, deltaW r.1 r.2.1 r.2.2, deltaW r.1 r.2.2 r.2.2)

/-! ## Choice of the protocol -/

/-- What `_add_screening` does (hamiltonian.py:463-506), for Hamiltonians without bosons. -/
inductive Protocol where
  | moment
  | static (pcoupling onlyOv : Bool)
  deriving DecidableEq

/-- Whether `sub` occurs in `s`: `sub in s`. -/
def contains (sub : List Char) : List Char → Bool
  | [] => sub.isEmpty
  | x :: s => sub.isPrefixOf (x :: s) || contains sub s

/-- The choice by the option `screening` (hamiltonian.py:473-506); `seris` tells whether `seris_intermed` was given. -/
def chooseProtocol (screening : Option String) (seris : Bool) : Except PyErr Protocol :=
  match screening with
  | none => .error .valueError
  | some s =>
    if s = "mrpa" then (if seris then .ok .moment else .error .assertionError)
    else if s.toList.take 4 = "crpa".toList then
      if contains "full".toList s.toList then .error .valueError
      else .ok (.static (contains "pcoupled".toList s.toList) (contains "ov".toList s.toList))
    else .error .valueError

end Vayesta.Screening
