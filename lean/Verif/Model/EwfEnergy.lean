import Verif.Model.Amplitudes
import Verif.Lemmas.Tensor

/-! Model of the projected wave-function energy of EWF calculations (`vayesta/ewf/fragment.py` 250-311 and 355-407,
`vayesta/ewf/ufragment.py` 22-135, `vayesta/ewf/ewf.py` 335-350 and 427-476). Arrays are functions of their indices over a field
(exact arithmetic). `mm` is the matrix product, `tp` the transpose, `delta` the identity. -/

namespace Vayesta.EwfEnergy
open Vayesta.Amplitudes Vayesta.Tensor

variable {K : Type} [Field K] {ι o v : Type} [Fintype ι] [Fintype o] [Fintype v]

/-- What the energies need from the mean-field calculation: overlap, Fock matrix `get_fock_for_energy()`, the same matrix
`with_exxdiv=False`, bare two-electron integrals `(pq|rs)`, all in the AO basis, occupied and virtual molecular orbitals, and
the number of primitive cells in the supercell. -/
structure Sys (ι o v K : Type) where
  ovlp : ι → ι → K
  fock : ι → ι → K
  fockNoExx : ι → ι → K
  eri : ι → ι → ι → ι → K
  moOcc : ι → o → K
  moVir : ι → v → K
  ncells : K

/-- An unprojected cluster wave function (`results.wf`) of the restricted code; an FCI solution is represented by the CISD wave
function to which it is converted (fragment.py:262-263, 295). -/
inductive Wf (o v K : Type) where
  | mp2 (t2 : T2 o o v v K)
  | ccsd (t1 : T1 o v K) (t2 : T2 o o v v K)
  | cisd (c0 : K) (c1 : T1 o v K) (c2 : T2 o o v v K)

/-- `wf.as_cisd(c0=1.0)` (mp2.py:90-94, ccsd.py:176-182, cisd.py:59-64): `(c1, c2)`. -/
def Wf.asCisd {o v : Type} : Wf o v K → T1 o v K × T2 o o v v K
  | .mp2 t2 => (mp2AsCisd 1 t2).2
  | .ccsd t1 t2 => (fun i a => 1 * t1 i a, fun i j a b => 1 * (t2 i j a b + outer t1 t1 i j a b))
  | .cisd c0 c1 c2 => (fun i a => c1 i a * 1 / c0, fun i j a b => c2 i j a b * 1 / c0)

/-- The projected wave function `pwf = wf.project(proj)` (fragment.py:259-275). The lambda amplitudes are not needed here. -/
def Wf.project {f o v : Type} [Fintype o] (p : f → o → K) : Wf o v K → Pwf f o v K
  | .mp2 t2 => .mp2 p (projectC2 p t2)
  | .ccsd t1 t2 => .ccsd (RCcsd.project p t1 t2 none none)
  | .cisd c0 c1 c2 => .cisd (RCisd.project p c0 c1 c2)

/-- The amplitudes of `pwf.as_ccsd()` (mp2.py:96-99, ccsd.py:184-185, cisd.py:66-76). -/
def Wf.projectedCcsd {f o v : Type} [Fintype f] [Fintype o] (p : f → o → K) : Wf o v K → T1 f v K × T2 f o v v K
  | .mp2 t2 => (fun _ _ => 0, projectC2 p t2)
  | .ccsd t1 t2 => (projectC1 p t1, projectC2 p t2)
  | .cisd c0 c1 c2 =>
    let t := ccsdOfCisd c0 (projectC1 (tr p) (projectC1 p c1)) (symmetrizeC2 (projectC2 (tr p) (projectC2 p c2)))
    (projectC1 p t.1, projectC2 p t.2)

/-- A fragment of a restricted EWF calculation: fragment orbitals (`c_frag`, equal to `c_proj`: core/qemb/fragment.py:220-226),
active occupied and virtual cluster orbitals, the wave function, the option `sym_factor`, the number of fragments it stands for
(`symmetry_factor`), whether it has no symmetry parent, whether it contributes, the stored `results.e_corr`. -/
structure Frag (ι K : Type) where
  {f : Type}
  {co : Type}
  {cv : Type}
  [ff : Fintype f]
  [fo : Fintype co]
  [fv : Fintype cv]
  cFrag : ι → f → K
  cOcc : ι → co → K
  cVir : ι → cv → K
  wf : Wf co cv K
  symFactor : K
  symmetryFactor : Nat
  root : Bool
  contributes : Bool
  eCorr : Option K

attribute [instance] Frag.ff Frag.fo Frag.fv

/-- `get_overlap("proj|cluster-occ")`, the same as `"frag|cluster-occ"` (core/qemb/fragment.py:309-352): `c_frag.T S c_occ`. -/
def Frag.px (s : Sys ι o v K) (x : Frag ι K) : x.f → x.co → K := mm (tp x.cFrag) (mm s.ovlp x.cOcc)

/-- `fov = dot(c_active_occ.T, fock, c_active_vir)` (fragment.py:385). -/
def Frag.fov (s : Sys ι o v K) (x : Frag ι K) : x.co → x.cv → K := mm (tp x.cOcc) (mm s.fock x.cVir)

/-- `hamil.get_eris_bare(block="ovvo")` (fragment.py:397): the integrals over cluster orbitals. -/
def Frag.ovvo (s : Sys ι o v K) (x : Frag ι K) : x.co → x.cv → x.cv → x.co → K := fun i a b j =>
  ∑ p, ∑ q, ∑ r, ∑ t, x.cOcc p i * (x.cVir q a * (x.cVir r b * (x.cOcc t j * s.eri p q r t)))

/-- `get_fragment_energy(c1, c2, axis1="fragment")` (fragment.py:378-407) with `c1` given: `(e_singles, e_doubles, e_corr)`. -/
def Frag.energy (s : Sys ι o v K) (x : Frag ι K) (c1 : T1 x.f x.cv K) (c2 : T2 x.f x.co x.cv x.cv K) : K × K × K :=
  let e1 := 2 * ∑ i, ∑ a, ∑ y, x.fov s i a * x.px s y i * c1 y a
  let e2 := 2 * (∑ y, ∑ i, ∑ j, ∑ a, ∑ b, x.px s y i * c2 y j a b * x.ovvo s i a b j) -
    ∑ y, ∑ i, ∑ j, ∑ a, ∑ b, x.px s y i * c2 y j a b * x.ovvo s i b a j
  (x.symFactor * e1, x.symFactor * e2, x.symFactor * e1 + x.symFactor * e2)

/-- `get_fragment_energy(c1, c2, axis1="cluster")` (fragment.py:378-407). -/
def Frag.energyCluster (s : Sys ι o v K) (x : Frag ι K) (c1 : T1 x.co x.cv K) (c2 : T2 x.co x.co x.cv x.cv K) : K × K × K :=
  let e1 := 2 * ∑ i, ∑ a, x.fov s i a * c1 i a
  let e2 := 2 * (∑ i, ∑ j, ∑ a, ∑ b, c2 i j a b * x.ovvo s i a b j) - ∑ i, ∑ j, ∑ a, ∑ b, c2 i j a b * x.ovvo s i b a j
  (x.symFactor * e1, x.symFactor * e2, x.symFactor * e1 + x.symFactor * e2)

/-- The energy of the projected CISD coefficients of the fragment's wave function (fragment.py:295-298, ewf.py:342-345). -/
def Frag.wfEnergy (s : Sys ι o v K) (x : Frag ι K) : K :=
  (x.energy s (projectC1 (x.px s) x.wf.asCisd.1) (projectC2 (x.px s) x.wf.asCisd.2)).2.2

/-- The end of `Fragment.kernel` (fragment.py:281-301): `results.e_corr` is set if `opts.calc_e_wf_corr` is set. -/
def Frag.kernel (s : Sys ι o v K) (calcE : Bool) (x : Frag ι K) : Frag ι K :=
  { x with eCorr := if calcE then some (x.wfEnergy s) else none }

/-- `EWF.get_wf_corr_energy` (ewf.py:335-350) in one MPI process. -/
def wfCorrEnergy (s : Sys ι o v K) (l : List (Frag ι K)) : K :=
  ((l.filter fun x => x.contributes && x.root).map fun x =>
    (x.symmetryFactor : K) * (match x.eCorr with
      | some e => e
      | none => x.wfEnergy s)).sum / s.ncells

/-- What the assembly of global amplitudes reads from a fragment (amplitudes.py:20-40): overlaps of molecular and cluster
orbitals, and the projected wave function. -/
def Frag.toAmp (s : Sys ι o v K) (x : Frag ι K) : Amplitudes.Frag o v K where
  ro := mm (tp s.moOcc) (mm s.ovlp x.cOcc)
  rv := mm (tp s.moVir) (mm s.ovlp x.cVir)
  pwf := x.wf.project (x.px s)

/-- The loop body of `get_ccsd_corr_energy(full_wf=False)` (ewf.py:453-470). -/
def Frag.ccsdDoubles (s : Sys ι o v K) (t1 : T1 o v K) (x : Frag ι K) : K :=
  let pwf := x.wf.projectedCcsd (x.px s)
  let ro := mm (tp s.moOcc) (mm s.ovlp x.cOcc)
  let rv := mm (tp s.moVir) (mm s.ovlp x.cVir)
  let t1x := mm (tp ro) (mm t1 rv)
  let c2x : T2 x.f x.co x.cv x.cv K := fun i j a b => pwf.2 i j a b + outer pwf.1 t1x i j a b
  let g : x.f → x.cv → x.cv → x.co → K := fun y a b j => ∑ i, x.px s y i * x.ovvo s i a b j
  (x.symmetryFactor : K) * x.symFactor *
    (2 * (∑ i, ∑ j, ∑ a, ∑ b, c2x i j a b * g i a b j) - ∑ i, ∑ j, ∑ a, ∑ b, c2x i j a b * g i b a j)

/-- Integrals over molecular orbitals, `get_eris_array((occ, vir, vir, occ))` (ewf.py:448-449). -/
def Sys.ovvo (s : Sys ι o v K) : o → v → v → o → K := fun i a b j =>
  ∑ p, ∑ q, ∑ r, ∑ t, s.moOcc p i * (s.moVir q a * (s.moVir r b * (s.moOcc t j * s.eri p q r t)))

/-- `EWF.get_ccsd_corr_energy` (ewf.py:427-476) in one MPI process. `l` holds all fragments, symmetry children included. -/
def ccsdCorrEnergy (s : Sys ι o v K) (full : Bool) (l : List (Frag ι K)) : Except PyErr K := do
  let t1 ← globalT1 false ((l.filter fun x => x.contributes).map (Frag.toAmp s))
  let fov := mm (tp s.moOcc) (mm s.fockNoExx s.moVir)
  let e1 := 2 * ∑ i, ∑ a, fov i a * t1 i a
  let e2 ← (if full then do
      let t2 ← globalT2 false ((l.filter fun x => x.contributes).map (Frag.toAmp s))
      let c2 : T2 o o v v K := fun i j a b => t2 i j a b + outer t1 t1 i j a b
      pure (2 * (∑ i, ∑ j, ∑ a, ∑ b, c2 i j a b * s.ovvo i a b j) - ∑ i, ∑ j, ∑ a, ∑ b, c2 i j a b * s.ovvo i b a j)
    else pure ((l.filter fun x => x.contributes && x.root).map (Frag.ccsdDoubles s t1)).sum)
  pure ((e1 + e2) / s.ncells)

section Unrestricted

/-- Mean-field data of an unrestricted calculation. -/
structure USys (ι K : Type) where
  ovlp : ι → ι → K
  fock : (ι → ι → K) × (ι → ι → K)
  eri : ι → ι → ι → ι → K
  ncells : K

/-- An unprojected cluster wave function of the unrestricted code. -/
inductive UWf (oa ob va vb K : Type) where
  | mp2 (t2 : UC2 oa ob va vb K)
  | ccsd (w : UCcsd oa ob va vb K)
  | cisd (w : UCisd oa ob va vb K)

/-- `UMP2_WaveFunction.as_cisd` (mp2.py:173-186). -/
def ump2AsCisd {oa ob va vb : Type} (c0 : K) : UC2 oa ob va vb K → UCisd oa ob va vb K
  | .three t => ⟨c0, (fun _ _ => 0, fun _ _ => 0), .three ⟨fun i j a b => c0 * t.aa i j a b, fun i j a b => c0 * t.ab i j a b,
      fun i j a b => c0 * t.bb i j a b⟩⟩
  | .four t => ⟨c0, (fun _ _ => 0, fun _ _ => 0), .four ⟨fun i j a b => c0 * t.aa i j a b, fun i j a b => c0 * t.ab i j a b,
      fun i j a b => c0 * t.ba i j a b, fun i j a b => c0 * t.bb i j a b⟩⟩

/-- `wf.as_cisd(c0=1.0)` (mp2.py:173-186, ccsd.py:323-337, cisd.py:135-149). -/
def UWf.asCisd {oa ob va vb : Type} : UWf oa ob va vb K → UCisd oa ob va vb K
  | .mp2 t2 => ump2AsCisd 1 t2
  | .ccsd w => w.asCisd 1
  | .cisd w => w.asCisd (some 1)

/-- A fragment of an unrestricted EWF calculation. The number of occupied and virtual orbitals is given by types here, so the
"remove padding" slices (ufragment.py:68-71, 117-118) have no effect. -/
structure UFrag (ι K : Type) where
  {fa fb coa cob cva cvb : Type}
  [ffa : Fintype fa]
  [ffb : Fintype fb]
  [foa : Fintype coa]
  [fob : Fintype cob]
  [fva : Fintype cva]
  [fvb : Fintype cvb]
  cFrag : (ι → fa → K) × (ι → fb → K)
  cOcc : (ι → coa → K) × (ι → cob → K)
  cVir : (ι → cva → K) × (ι → cvb → K)
  wf : UWf coa cob cva cvb K
  symFactor : K
  symmetryFactor : Nat
  root : Bool
  contributes : Bool
  eCorr : Option K

attribute [instance] UFrag.ffa UFrag.ffb UFrag.foa UFrag.fob UFrag.fva UFrag.fvb

/-- Integrals `(ia|jb)` over given orbitals, blocks "ovov", "ovOV", "OVOV" of `get_eris_bare` (ufragment.py:52-54). -/
def ovov {i₁ a₁ i₂ a₂ : Type} (eri : ι → ι → ι → ι → K) (ca : ι → i₁ → K) (da : ι → a₁ → K) (cb : ι → i₂ → K) (db : ι → a₂ → K) :
    i₁ → a₁ → i₂ → a₂ → K := fun i a j b =>
  ∑ p, ∑ q, ∑ r, ∑ t, ca p i * (da q a * (cb r j * (db t b * eri p q r t)))

/-- `get_overlap("proj|cluster-occ")` for both spins. -/
def UFrag.px (s : USys ι K) (x : UFrag ι K) : (x.fa → x.coa → K) × (x.fb → x.cob → K) :=
  (mm (tp x.cFrag.1) (mm s.ovlp x.cOcc.1), mm (tp x.cFrag.2) (mm s.ovlp x.cOcc.2))

/-- One of the six terms of `e_doubles` (ufragment.py:77-83): `einsum("xi,xjab,iajb", p, c, g)`. -/
def term {f o o' v v' : Type} [Fintype f] [Fintype o] [Fintype o'] [Fintype v] [Fintype v'] (p : f → o → K) (c : T2 f o' v v' K)
    (g : o → o' → v → v' → K) : K := ∑ y, ∑ i, ∑ j, ∑ a, ∑ b, p y i * c y j a b * g i j a b

/-- `get_fragment_energy(c1, c2)` (ufragment.py:47-135) for `axis1="fragment"`, `c2ba_order="ba"`: `(e_singles, e_doubles, e_corr)`.
A block of the Fock matrix with a dimension of zero is skipped there, an empty sum here. -/
def UFrag.energy (s : USys ι K) (x : UFrag ι K) (c1 : T1 x.fa x.cva K × T1 x.fb x.cvb K) (c2 : U4 x.fa x.fb x.coa x.cob x.cva x.cvb K) :
    K × K × K :=
  let gaa := ovov s.eri x.cOcc.1 x.cVir.1 x.cOcc.1 x.cVir.1
  let gab := ovov s.eri x.cOcc.1 x.cVir.1 x.cOcc.2 x.cVir.2
  let gbb := ovov s.eri x.cOcc.2 x.cVir.2 x.cOcc.2 x.cVir.2
  let p := x.px s
  let e2 := term p.1 c2.aa (fun i j a b => gaa i a j b) / 4 - term p.1 c2.aa (fun i j a b => gaa i b j a) / 4 +
    term p.2 c2.bb (fun i j a b => gbb i a j b) / 4 - term p.2 c2.bb (fun i j a b => gbb i b j a) / 4 +
    term p.1 c2.ab (fun i j a b => gab i a j b) / 2 + term p.2 c2.ba (fun i j a b => gab j b i a) / 2
  let fa := mm (tp x.cOcc.1) (mm s.fock.1 x.cVir.1)
  let fb := mm (tp x.cOcc.2) (mm s.fock.2 x.cVir.2)
  let e1 := (∑ i, ∑ a, ∑ y, fa i a * p.1 y i * c1.1 y a) + ∑ i, ∑ a, ∑ y, fb i a * p.2 y i * c1.2 y a
  (x.symFactor * e1, x.symFactor * e2, x.symFactor * e1 + x.symFactor * e2)

/-- The energy of the projected CISD coefficients (fragment.py:295-298, ewf.py:342-345). -/
def UFrag.wfEnergy (s : USys ι K) (x : UFrag ι K) : K :=
  (x.energy s (x.wf.asCisd.project (x.px s)).c1 (x.wf.asCisd.project (x.px s)).c2).2.2

/-- The end of `Fragment.kernel` (fragment.py:281-301). -/
def UFrag.kernel (s : USys ι K) (calcE : Bool) (x : UFrag ι K) : UFrag ι K :=
  { x with eCorr := if calcE then some (x.wfEnergy s) else none }

/-- `EWF.get_wf_corr_energy` (ewf.py:335-350), which the unrestricted class inherits. -/
def uwfCorrEnergy (s : USys ι K) (l : List (UFrag ι K)) : K :=
  ((l.filter fun x => x.contributes && x.root).map fun x =>
    (x.symmetryFactor : K) * (match x.eCorr with
      | some e => e
      | none => x.wfEnergy s)).sum / s.ncells

end Unrestricted

end Vayesta.EwfEnergy
