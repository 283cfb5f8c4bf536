import Verif.Model.Lowdin
import Mathlib.Data.Matrix.Block
import Mathlib.LinearAlgebra.Matrix.Trace
import Mathlib.LinearAlgebra.Matrix.NonsingularInverse
import Mathlib.Data.Real.Sqrt

/-! Model of the random-phase approximation: `vayesta/rpa/ssrpa.py`, `ssurpa.py` and `rpa.py`. Arithmetic is exact; the eigensolver, the matrix
square root and the quadrature of the adiabatic connection are parameters. Excitations are pairs of an occupied and a virtual orbital;
alpha and beta excitations are the two sides of a sum type. -/

namespace Vayesta.Rpa

open Matrix Lowdin Classical

variable {o v o' v' ι p q : Type} [Fintype ι] [Fintype p] [DecidableEq p] [Fintype q] [DecidableEq q]

/-- Orbital energy differences of one spin (`_gen_eps`, ssrpa.py:181-186; ssurpa.py:46-60), `eo` occupied, `ev` virtual energies. -/
def genEps (eo : o → ℝ) (ev : v → ℝ) : o × v → ℝ := fun x => ev x.2 - eo x.1

/-- `AmB = np.concatenate([epsa, epsb])` (ssrpa.py:206). -/
def concat {a b : Type} (x : a → ℝ) (y : b → ℝ) : a ⊕ b → ℝ := Sum.elim x y

/-- `ov_rot` given (ssrpa.py:188-197; ssurpa.py:66-88): energies in the rotated space are diagonalised, and the rotation replaced. For an empty
rotation the restricted class raises UnboundLocalError, which is not modelled. -/
def rotate (eigh : Matrix q q ℝ → Eig q ℝ) (rot : Matrix q p ℝ) (eps : p → ℝ) : (q → ℝ) × Matrix q p ℝ :=
  let g := eigh (rot * diagonal eps * rotᵀ)
  (g.val, g.vecᵀ * rot)

/-- `pyscf.ao2mo.kernel`: integrals in molecular orbitals, from integrals in atomic orbitals. -/
def ao2mo {r s : Type} (eri : ι → ι → ι → ι → ℝ) (c : Matrix ι r ℝ) (c' : Matrix ι s ℝ) : r → r → s → s → ℝ := fun i j k l =>
  ∑ x, ∑ y, ∑ z, ∑ u, eri x y z u * c x i * c y j * c' z k * c' u l

/-- The block of integrals in the particle-hole space (ssrpa.py:236; ssurpa.py:126-128). -/
def ovov (g : o ⊕ v → o ⊕ v → o' ⊕ v' → o' ⊕ v' → ℝ) : Matrix (o × v) (o' × v') ℝ :=
  Matrix.of fun x y => g (.inl x.1) (.inr x.2) (.inl y.1) (.inr y.2)

/-- Restricted `get_k` (ssrpa.py:233-241). -/
def getKR (g : o ⊕ v → o ⊕ v → o ⊕ v → o ⊕ v → ℝ) : Matrix (o × v ⊕ o × v) (o × v ⊕ o × v) ℝ :=
  fromBlocks (ovov g) (ovov g) (ovov g) (ovov g)

/-- Unrestricted `get_k` (ssurpa.py:119-135). -/
def getKU (gaa : o ⊕ v → o ⊕ v → o ⊕ v → o ⊕ v → ℝ) (gab : o ⊕ v → o ⊕ v → o' ⊕ v' → o' ⊕ v' → ℝ)
    (gbb : o' ⊕ v' → o' ⊕ v' → o' ⊕ v' → o' ⊕ v' → ℝ) : Matrix (o × v ⊕ o' × v') (o × v ⊕ o' × v') ℝ :=
  fromBlocks (ovov gaa) (ovov gab) (ovov gab)ᵀ (ovov gbb)

/-- `ApB = 2 * fullv * alpha`, rotated, with the energy differences added on the diagonal (ssrpa.py:208-215; ssurpa.py:90-101). Without a
rotation `rot` is the identity. -/
def genApB (rot : Matrix q p ℝ) (fullv : Matrix p p ℝ) (alpha : ℝ) (eps : q → ℝ) : Matrix q q ℝ :=
  rot * ((2 * alpha) • fullv) * rotᵀ + diagonal eps

/-- Frequencies and amplitudes (`freqs_ss`, `XpY_ss`, `XmY_ss`; ssrpa.py:82-101). -/
structure Amps (q : Type) where
  freqs : q → ℝ
  xpy : Matrix q q ℝ
  xmy : Matrix q q ℝ

/-- Solution without kernel (ssrpa.py:80-87, 218). The roots of negative energy differences are not numbers, and then no comparison holds. -/
noncomputable def solve (eigh : Matrix q q ℝ → Eig q ℝ) (eps : q → ℝ) (apb : Matrix q q ℝ) : Except PyErr (Amps q) :=
  if ∃ x, eps x < 0 then .error .assertionError
  else
    let g := eigh (Matrix.of fun x y => Real.sqrt (eps x) * apb x y * Real.sqrt (eps y))
    if ∀ n, 1 / 10 ^ 12 < g.val n then
      .ok { freqs := fun n => Real.sqrt (g.val n)
            xpy := Matrix.of fun x n => (Real.sqrt (Real.sqrt (g.val n)))⁻¹ * Real.sqrt (eps x) * g.vec x n
            xmy := Matrix.of fun x n => Real.sqrt (Real.sqrt (g.val n)) * (Real.sqrt (eps x))⁻¹ * g.vec x n }
    else .error .assertionError

/-- Solution with kernel (ssrpa.py:80-83, 89-94, 225-226); `sqrtm` is the matrix square root of SciPy. -/
noncomputable def solveXc (eigh : Matrix q q ℝ → Eig q ℝ) (sqrtm : Matrix q q ℝ → Matrix q q ℝ) (amb apb : Matrix q q ℝ) : Except PyErr (Amps q) :=
  let g := eigh (sqrtm amb * apb * sqrtm amb)
  if ∀ n, 1 / 10 ^ 12 < g.val n then
    let g2 := eigh amb
    if ∀ n, 1 / 10 ^ 12 < g2.val n then
      let rt : Matrix q q ℝ := g2.vec * diagonal (fun n => Real.sqrt (g2.val n)) * g2.vecᵀ
      let rtinv : Matrix q q ℝ := g2.vec * diagonal (fun n => (Real.sqrt (g2.val n))⁻¹) * g2.vecᵀ
      .ok { freqs := fun n => Real.sqrt (g.val n)
            xpy := rt * g.vec * diagonal fun n => (Real.sqrt (Real.sqrt (g.val n)))⁻¹
            xmy := rtinv * g.vec * diagonal fun n => Real.sqrt (Real.sqrt (g.val n)) }
    else .error .assertionError
  else .error .assertionError

/-- Correlation energy without kernel (ssrpa.py:107); `fullv` is the interaction as returned by `get_k`. -/
noncomputable def plasmonEnergy (freqs eps : q → ℝ) (fullv : Matrix p p ℝ) : ℝ := (∑ n, freqs n - ∑ x, eps x - fullv.trace) / 2

/-- `kernel()` without xc-kernel (ssrpa.py:69-113): amplitudes and `e_corr_ss`. `eps` and `rot` as after `_gen_eps`. -/
noncomputable def kernel (eigh : Matrix q q ℝ → Eig q ℝ) (eps : q → ℝ) (rot : Matrix q p ℝ) (fullv : Matrix p p ℝ) (alpha : ℝ) :
    Except PyErr (Amps q × ℝ) :=
  (solve eigh eps (genApB rot fullv alpha eps)).map fun s => (s, plasmonEnergy s.freqs eps fullv)

/-- `gen_moms` (ssrpa.py:307-321): the blocks of the moment `k`, from the amplitudes split into alpha and beta excitations. -/
def genMom {a b : Type} [Fintype a] [Fintype b] (s : Amps (a ⊕ b)) (k : Nat) : Matrix (a ⊕ b) (a ⊕ b) ℝ :=
  let xa : Matrix a (a ⊕ b) ℝ := Matrix.of fun x n => s.xpy (.inl x) n
  let xb : Matrix b (a ⊕ b) ℝ := Matrix.of fun x n => s.xpy (.inr x) n
  let ab : Matrix a b ℝ := Matrix.of fun x y => ∑ n, xa x n * s.freqs n ^ k * xb y n
  fromBlocks (Matrix.of fun x y => ∑ n, xa x n * s.freqs n ^ k * xa y n) ab abᵀ (Matrix.of fun x y => ∑ n, xb x n * s.freqs n ^ k * xb y n)

/-! ## Exchange-correlation kernels -/

/-- `einsum("pqrs,pi,qa,rj,sb->iajb")` (ssrpa.py:255, 269, 283). -/
def kernelA (k : ι → ι → ι → ι → ℝ) (co : Matrix ι o ℝ) (cv : Matrix ι v ℝ) (co' : Matrix ι o' ℝ) (cv' : Matrix ι v' ℝ) : Matrix (o × v) (o' × v') ℝ :=
  Matrix.of fun x y => ∑ p, ∑ q, ∑ r, ∑ s, k p q r s * co p x.1 * cv q x.2 * co' r y.1 * cv' s y.2

/-- `einsum("pqsr,pi,qa,rj,sb->iajb")` (ssrpa.py:262, 277, 290). -/
def kernelB (k : ι → ι → ι → ι → ℝ) (co : Matrix ι o ℝ) (cv : Matrix ι v ℝ) (co' : Matrix ι o' ℝ) (cv' : Matrix ι v' ℝ) : Matrix (o × v) (o' × v') ℝ :=
  Matrix.of fun x y => ∑ p, ∑ q, ∑ s, ∑ r, k p q s r * co p x.1 * cv q x.2 * co' r y.1 * cv' s y.2

/-- An xc-kernel: full arrays or factors per spin. -/
inductive Kernel (ι aux : Type) where
  | arrays (aa ab bb : ι → ι → ι → ι → ℝ)
  | factors (la ra lb rb : aux → ι → ι → ℝ)

/-- The spin components used (ssrpa.py:244-249): the mixed one of a factorised kernel is made from `xc_kernel[0][0]` and `xc_kernel[0][1]`. -/
def Kernel.parts {aux : Type} [Fintype aux] : Kernel ι aux → (ι → ι → ι → ι → ℝ) × (ι → ι → ι → ι → ℝ) × (ι → ι → ι → ι → ℝ)
  | .arrays aa ab bb => (aa, ab, bb)
  | .factors la ra lb rb => (fun p q r s => ∑ n, la n p q * ra n r s, fun p q r s => ∑ n, la n p q * ra n r s, fun p q r s => ∑ n, lb n p q * rb n r s)

/-- `get_xc_contribs` (ssrpa.py:243-305): contributions to `A + B` and `A - B`, before a rotation. -/
def xcContribs {aux : Type} [Fintype aux] (k : Kernel ι aux) (coa : Matrix ι o ℝ) (cva : Matrix ι v ℝ) (cob : Matrix ι o' ℝ) (cvb : Matrix ι v' ℝ) (alpha : ℝ) :
    Matrix (o × v ⊕ o' × v') (o × v ⊕ o' × v') ℝ × Matrix (o × v ⊕ o' × v') (o × v ⊕ o' × v') ℝ :=
  let aaA := kernelA k.parts.1 coa cva coa cva
  let aaB := kernelB k.parts.1 coa cva coa cva
  let abA := kernelA k.parts.2.1 coa cva cob cvb
  let abB := kernelB k.parts.2.1 coa cva cob cvb
  let bbA := kernelA k.parts.2.2 cob cvb cob cvb
  let bbB := kernelB k.parts.2.2 cob cvb cob cvb
  (alpha • fromBlocks (aaA + aaB) (abA + abB) (abAᵀ + abBᵀ) (bbA + bbB), alpha • fromBlocks (aaA - aaB) (abA - abB) (abAᵀ - abBᵀ) (bbA - bbB))

/-- `A - B` and `A + B` with kernel (`_gen_arrays`, ssrpa.py:206-224), from the contributions `apbXc`, `ambXc` of the kernel at full strength. -/
def genAmBXc (ambXc : Matrix q q ℝ) (alpha : ℝ) (eps : q → ℝ) : Matrix q q ℝ := diagonal eps + alpha • ambXc

/-- See `genAmBXc`. -/
def genApBXc (fullv apbXc : Matrix q q ℝ) (alpha : ℝ) (eps : q → ℝ) : Matrix q q ℝ := (2 * alpha) • fullv + diagonal eps + alpha • apbXc

/-- What enters `calc_energy_correction` (ssrpa.py:115-125): arrays at full strength, and the zeroth moment. -/
structure EnergyInput (q : Type) where
  apb : Matrix q q ℝ
  amb : Matrix q q ℝ
  fullv : Matrix q q ℝ
  apbXc : Matrix q q ℝ
  ambXc : Matrix q q ℝ
  mom0 : Matrix q q ℝ

/-- `A_xc` (ssrpa.py:121). -/
noncomputable def EnergyInput.aXc (x : EnergyInput q) : Matrix q q ℝ := (1 / 2 : ℝ) • (x.apbXc + x.ambXc)

/-- `B_xc` (ssrpa.py:122). -/
noncomputable def EnergyInput.bXc (x : EnergyInput q) : Matrix q q ℝ := (1 / 2 : ℝ) • (x.apbXc - x.ambXc)

/-- `e_plasmon` (ssrpa.py:139, 149). -/
noncomputable def EnergyInput.plasmon (x : EnergyInput q) : ℝ := 1 / 2 * (x.mom0 * x.apb - ((1 / 2 : ℝ) • (x.apb + x.amb) - x.aXc)).trace

/-- `get_val_alpha` of version 0 (ssrpa.py:142-144), at the moment `eta0`. -/
noncomputable def EnergyInput.val0 (x : EnergyInput q) (eta0 : Matrix q q ℝ) : ℝ :=
  (((x.aXc + x.bXc) * eta0).trace + ((x.aXc - x.bXc) * eta0⁻¹).trace) / 4

/-- `get_val_alpha` of version 1 (ssrpa.py:152-154). -/
noncomputable def EnergyInput.val1 (x : EnergyInput q) (eta0 : Matrix q q ℝ) : ℝ := (x.aXc.trace + (x.bXc * (eta0 - 1)).trace) / 2

/-- `get_val_alpha` of version 4 (ssrpa.py:170-172). -/
def EnergyInput.val4 (x : EnergyInput q) (eta0 : Matrix q q ℝ) : ℝ := ((eta0 - 1) * x.fullv).trace

/-- `calc_energy_correction` (ssrpa.py:115-181), the energy only: `integrate` is `run_ac_inter`, `eta` is `get_eta_alpha`. Without a kernel, and
for other versions, ValueError is raised. -/
noncomputable def calcEnergyCorrection (x : Option (EnergyInput q)) (integrate : (ℝ → ℝ) → ℝ) (eta : ℝ → Matrix q q ℝ) (version : Int) : Except PyErr ℝ :=
  match x with
  | none => .error .valueError
  | some x =>
    if version = 0 then .ok (x.plasmon - integrate fun alpha => x.val0 (eta alpha))
    else if version = 1 then .ok (x.plasmon - integrate fun alpha => x.val1 (eta alpha))
    else if version = 2 then .ok (1 / 2 * (x.mom0 * x.apb - ((1 / 2 : ℝ) • (x.apb + x.amb) - x.aXc)).trace
      - (((x.aXc + x.bXc) * (x.mom0 + 1)).trace + ((x.aXc - x.bXc) * (x.mom0⁻¹ + 1)).trace) / 8)
    else if version = 3 then .ok (1 / 2 * (x.mom0 * (x.apb - (1 / 2 : ℝ) • x.bXc) - ((1 / 2 : ℝ) • (x.apb + x.amb) - (1 / 2 : ℝ) • x.bXc)).trace)
    else if version = 4 then .ok (1 / 2 * integrate fun alpha => x.val4 (eta alpha))
    else if version = 5 then .ok (((x.mom0 - 1) * x.fullv).trace / 4)
    else .error .valueError

/-! ## RPA with exchange (`rpa.py`) -/

/-- `solve_RPA_problem` (rpa.py:58-74). -/
noncomputable def solveFull (eigh : Matrix q q ℝ → Eig q ℝ) (sqrtm : Matrix q q ℝ → Matrix q q ℝ) (apb amb : Matrix q q ℝ) : Except PyErr (Amps q × ℝ) :=
  let rt := sqrtm amb
  let g := eigh (rt * apb * rt)
  if ∀ n, 1 / 10 ^ 12 < g.val n then
    .ok ({ freqs := fun n => Real.sqrt (g.val n)
           xpy := rt * g.vec * diagonal fun n => (Real.sqrt (Real.sqrt (g.val n)))⁻¹
           xmy := rt⁻¹ * g.vec * diagonal fun n => Real.sqrt (Real.sqrt (g.val n)) },
      1 / 2 * (∑ n, Real.sqrt (g.val n) - 1 / 2 * (apb.trace + amb.trace)))
  else .error .assertionError

/-- The argument `xc_kernel` of `RPA.kernel`: nothing, a string, or a tuple of arrays. -/
inductive KernelArg where
  | none
  | str (s : String)
  | arrays
  deriving DecidableEq

/-- Which interaction is used. -/
inductive Interaction where
  | coulomb
  | exchange
  deriving DecidableEq

/-- Choice of the interaction in `get_interaction_kernel` (rpa.py:134-169): a tuple has no method `lower`; other strings fail the assertion on
their length, or cannot be unpacked into arrays. -/
def chooseInteraction : KernelArg → Except PyErr Interaction
  | .none => .ok .coulomb
  | .str s => if s.toLower = "drpa" then .ok .coulomb else if s.toLower = "rpax" then .ok .exchange
    else if s.length = 4 then .error .typeError else .error .assertionError
  | .arrays => .error .attributeError

/-- `combine_spin_components` (rpa.py:98-102). -/
def combine (k1 k2 : Matrix p p ℝ) : Matrix (p ⊕ p) (p ⊕ p) ℝ := fromBlocks k1 k2 k2 k1

/-- `A + B` and `A - B` for same-spin and spin-flip excitations (rpa.py:88-118, 137-166): `w`, `ka`, `kb` are `(ia|jb)`, `(ij|ab)`, `(ib|ja)`. -/
def buildArrays (i : Interaction) (eps : p → ℝ) (w ka kb : Matrix p p ℝ) :
    (Matrix (p ⊕ p) (p ⊕ p) ℝ × Matrix (p ⊕ p) (p ⊕ p) ℝ) × (Matrix (p ⊕ p) (p ⊕ p) ℝ × Matrix (p ⊕ p) (p ⊕ p) ℝ) :=
  let d : Matrix (p ⊕ p) (p ⊕ p) ℝ := diagonal (concat eps eps)
  match i with
  | .coulomb => ((combine ((2 : ℝ) • w) ((2 : ℝ) • w) + d, combine 0 0 + d), (combine 0 0 + d, combine 0 0 + d))
  | .exchange => ((combine ((2 : ℝ) • w - ka - kb) ((2 : ℝ) • w) + d, combine (kb - ka) 0 + d), (combine (-ka) (-kb) + d, combine (-ka) kb + d))

/-- `RPA.kernel` (rpa.py:50-86): both solutions, `e_corr_ss` and `e_corr_sf`. The energies are halved if the argument is `"rpax"`. -/
noncomputable def rpaKernel (eigh : Matrix (p ⊕ p) (p ⊕ p) ℝ → Eig (p ⊕ p) ℝ) (sqrtm : Matrix (p ⊕ p) (p ⊕ p) ℝ → Matrix (p ⊕ p) (p ⊕ p) ℝ)
    (arg : KernelArg) (eps : p → ℝ) (w ka kb : Matrix p p ℝ) : Except PyErr ((Amps (p ⊕ p) × ℝ) × (Amps (p ⊕ p) × ℝ)) := do
  let i ← chooseInteraction arg
  let a := buildArrays i eps w ka kb
  let ss ← solveFull eigh sqrtm a.1.1 a.1.2
  let sf ← solveFull eigh sqrtm a.2.1 a.2.2
  let factor : ℝ := if arg = .str "rpax" then 1 / 2 else 1
  return ((ss.1, ss.2 * factor), (sf.1, sf.2 * factor))

/-- `RPA.e_corr` (rpa.py:40-45). -/
def rpaEnergy (r : (Amps (p ⊕ p) × ℝ) × (Amps (p ⊕ p) × ℝ)) : ℝ := r.1.2 + r.2.2

end Vayesta.Rpa
