import Verif.Model.EwfEnergy

/-! Specification for the projected energies: the correlation energy of a wave function as a functional of its singles and
doubles coefficients (intermediate normalisation), exact clusters, partitions of the occupied space, symmetry operations. -/

namespace Vayesta.EwfEnergy
open Vayesta.Amplitudes Vayesta.Tensor

variable {K : Type} [Field K] {ι o v : Type} [Fintype ι] [Fintype o] [Fintype v]

/-- Correlation energy `⟨Φ|H|Ψ⟩ - E(HF)` of a closed-shell wave function with reference coefficient 1, singles `c1` and doubles `c2`:
`2 Σ f_ia c_ia + Σ (2 (ia|bj) - (ib|aj)) c_ijab`. -/
def ciEnergy {O V : Type} [Fintype O] [Fintype V] (f : O → V → K) (g : O → V → V → O → K) (c1 : O → V → K) (c2 : O → O → V → V → K) : K :=
  2 * (∑ i, ∑ a, f i a * c1 i a) + ∑ i, ∑ j, ∑ a, ∑ b, (2 * g i a b j - g i b a j) * c2 i j a b

/-- The coefficients a fragment contributes to the wave function, in the AO basis: the coefficients of the cluster, with the first
occupied index projected onto the fragment. -/
def aoSingles (s : Sys ι o v K) (x : Frag ι K) : ι → ι → K := fun p q =>
  ∑ i, ∑ k, ∑ a, x.cOcc p i * (∑ y, x.px s y i * x.px s y k) * x.wf.asCisd.1 k a * x.cVir q a

/-- The same for doubles. -/
def aoDoubles (s : Sys ι o v K) (x : Frag ι K) : ι → ι → ι → ι → K := fun p q r t =>
  ∑ i, ∑ k, ∑ j, ∑ a, ∑ b, x.cOcc p i * (∑ y, x.px s y i * x.px s y k) * x.cOcc q j * x.cVir r a * x.cVir t b * x.wf.asCisd.2 k j a b

/-- The coefficients `(c1, c2)` of the whole system, in the orbitals of a cluster with overlaps `ro`, `rv`. -/
def restrict1 {co cv : Type} (ro : o → co → K) (rv : v → cv → K) (c : T1 o v K) : T1 co cv K :=
  fun k d => ∑ i, ∑ a, ro i k * rv a d * c i a

/-- The same for doubles. -/
def restrict2 {co cv : Type} (ro : o → co → K) (rv : v → cv → K) (c : T2 o o v v K) : T2 co co cv cv K :=
  fun k l d e => ∑ i, ∑ j, ∑ a, ∑ b, ro i k * ro j l * rv a d * rv b e * c i j a b

/-- The cluster orbitals span the occupied and the virtual space of the whole system. -/
structure FullCluster [DecidableEq o] [DecidableEq v] (s : Sys ι o v K) (x : Frag ι K) (ro : o → x.co → K) (rv : v → x.cv → K) : Prop where
  occ : x.cOcc = mm s.moOcc ro
  vir : x.cVir = mm s.moVir rv
  spanOcc : mm ro (tp ro) = delta
  spanVir : mm rv (tp rv) = delta

/-- The cluster spans the whole space and its wave function has the coefficients of the wave function of the whole system. -/
def ExactCluster [DecidableEq o] [DecidableEq v] (s : Sys ι o v K) (c1 : T1 o v K) (c2 : T2 o o v v K) (x : Frag ι K) : Prop :=
  ∃ ro rv, FullCluster s x ro rv ∧ x.wf.asCisd = (restrict1 ro rv c1, restrict2 ro rv c2)

/-- The (weighted) fragments partition the occupied space. -/
def PartitionsOcc [DecidableEq o] (s : Sys ι o v K) (l : List (Frag ι K)) : Prop := ∀ i j : o,
  (l.map fun x => x.symFactor * ∑ y, mm (tp x.cFrag) (mm s.ovlp s.moOcc) y i * mm (tp x.cFrag) (mm s.ovlp s.moOcc) y j).sum =
    if i = j then 1 else 0

/-- The image of a fragment under an operation on the AOs: rotated orbitals, same amplitudes. -/
def Frag.image (U : ι → ι → K) (x : Frag ι K) : Frag ι K :=
  { x with cFrag := mm U x.cFrag, cOcc := mm U x.cOcc, cVir := mm U x.cVir }

/-- The operation leaves overlap, Fock matrix and interaction unchanged. -/
structure Leaves (U : ι → ι → K) (s : Sys ι o v K) : Prop where
  ovlp : mm (tp U) (mm s.ovlp U) = s.ovlp
  fock : mm (tp U) (mm s.fock U) = s.fock
  eri : ∀ p q r t, ∑ p', ∑ q', ∑ r', ∑ t', U p' p * (U q' q * (U r' r * (U t' t * s.eri p' q' r' t'))) = s.eri p q r t

/-- The same cluster wave function with respect to other cluster orbitals. -/
def Wf.rotate {co cv co' cv' : Type} [Fintype co] [Fintype cv] (u : co → co' → K) (w : cv → cv' → K) : Wf co cv K → Wf co' cv' K
  | .mp2 t2 => .mp2 (restrict2 u w t2)
  | .ccsd t1 t2 => .ccsd (restrict1 u w t1) (restrict2 u w t2)
  | .cisd c0 c1 c2 => .cisd c0 (restrict1 u w c1) (restrict2 u w c2)

/-- A fragment with other cluster orbitals. -/
def Frag.rotate {co' cv' : Type} [Fintype co'] [Fintype cv'] (x : Frag ι K) (u : x.co → co' → K) (w : x.cv → cv' → K) : Frag ι K :=
  { f := x.f, co := co', cv := cv', cFrag := x.cFrag, cOcc := mm x.cOcc u, cVir := mm x.cVir w, wf := x.wf.rotate u w,
    symFactor := x.symFactor, symmetryFactor := x.symmetryFactor, root := x.root, contributes := x.contributes, eCorr := x.eCorr }

/-- Correlation energy of an unrestricted wave function: antisymmetrised integrals for equal spins. -/
def uciEnergy {Oa Ob Va Vb : Type} [Fintype Oa] [Fintype Ob] [Fintype Va] [Fintype Vb] (fa : Oa → Va → K) (fb : Ob → Vb → K)
    (gaa : Oa → Va → Oa → Va → K) (gab : Oa → Va → Ob → Vb → K) (gbb : Ob → Vb → Ob → Vb → K)
    (c1a : Oa → Va → K) (c1b : Ob → Vb → K) (c2aa : Oa → Oa → Va → Va → K) (c2ab : Oa → Ob → Va → Vb → K) (c2bb : Ob → Ob → Vb → Vb → K) : K :=
  (∑ i, ∑ a, fa i a * c1a i a) + (∑ i, ∑ a, fb i a * c1b i a) +
    (∑ i, ∑ j, ∑ a, ∑ b, (gaa i a j b - gaa i b j a) * c2aa i j a b) / 4 +
    (∑ i, ∑ j, ∑ a, ∑ b, (gbb i a j b - gbb i b j a) * c2bb i j a b) / 4 +
    ∑ i, ∑ j, ∑ a, ∑ b, gab i a j b * c2ab i j a b

/-- Unrestricted molecular orbitals: occupied and virtual, alpha and beta. -/
structure UMos (ι oa ob va vb K : Type) where
  occA : ι → oa → K
  occB : ι → ob → K
  virA : ι → va → K
  virB : ι → vb → K

section
variable {oa ob va vb : Type} [Fintype oa] [Fintype ob] [Fintype va] [Fintype vb]

/-- Mixed-spin doubles of the whole system in the orbitals of a cluster. -/
def restrictAB {coa cob cva cvb : Type} (ra : oa → coa → K) (rb : ob → cob → K) (wa : va → cva → K) (wb : vb → cvb → K) (c : T2 oa ob va vb K) :
    T2 coa cob cva cvb K := fun k l d e => ∑ i, ∑ j, ∑ a, ∑ b, ra i k * rb j l * wa a d * wb b e * c i j a b

/-- The doubles in whichever storage are the given spin blocks. -/
def HasBlocks (c : UC2 oa ob va vb K) (aa : T2 oa oa va va K) (ab : T2 oa ob va vb K) (bb : T2 ob ob vb vb K) : Prop :=
  match c with
  | .three c => c.aa = aa ∧ c.ab = ab ∧ c.bb = bb
  | .four c => c.aa = aa ∧ c.ab = ab ∧ (c.ba = fun j i b a => ab i j a b) ∧ c.bb = bb

/-- The unrestricted cluster spans the whole space and its wave function has the coefficients of the wave function of the whole system. -/
def UExactCluster [DecidableEq oa] [DecidableEq ob] [DecidableEq va] [DecidableEq vb] (m : UMos ι oa ob va vb K) (c1 : T1 oa va K × T1 ob vb K)
    (aa : T2 oa oa va va K) (ab : T2 oa ob va vb K) (bb : T2 ob ob vb vb K) (x : UFrag ι K) : Prop :=
  ∃ ra rb wa wb, x.cOcc = (mm m.occA ra, mm m.occB rb) ∧ x.cVir = (mm m.virA wa, mm m.virB wb) ∧
    mm ra (tp ra) = delta ∧ mm rb (tp rb) = delta ∧ mm wa (tp wa) = delta ∧ mm wb (tp wb) = delta ∧
    x.wf.asCisd.c1 = (restrict1 ra wa c1.1, restrict1 rb wb c1.2) ∧
    HasBlocks x.wf.asCisd.c2 (restrict2 ra wa aa) (restrictAB ra rb wa wb ab) (restrict2 rb wb bb)

/-- The (weighted) fragments partition the occupied space of each spin. -/
def UPartitionsOcc [DecidableEq oa] [DecidableEq ob] (s : USys ι K) (m : UMos ι oa ob va vb K) (l : List (UFrag ι K)) : Prop :=
  (∀ i j : oa, (l.map fun x => x.symFactor * ∑ y, mm (tp x.cFrag.1) (mm s.ovlp m.occA) y i * mm (tp x.cFrag.1) (mm s.ovlp m.occA) y j).sum =
    if i = j then 1 else 0) ∧
  ∀ i j : ob, (l.map fun x => x.symFactor * ∑ y, mm (tp x.cFrag.2) (mm s.ovlp m.occB) y i * mm (tp x.cFrag.2) (mm s.ovlp m.occB) y j).sum =
    if i = j then 1 else 0

end

/-- A closed-shell fragment seen as an unrestricted one: equal orbitals for both spins, antisymmetrised equal-spin coefficients. -/
def Frag.unrestricted (x : Frag ι K) : UFrag ι K where
  cFrag := (x.cFrag, x.cFrag)
  cOcc := (x.cOcc, x.cOcc)
  cVir := (x.cVir, x.cVir)
  wf := .cisd ⟨1, (x.wf.asCisd.1, x.wf.asCisd.1), .three ⟨fun i j a b => x.wf.asCisd.2 i j a b - x.wf.asCisd.2 i j b a, x.wf.asCisd.2,
    fun i j a b => x.wf.asCisd.2 i j a b - x.wf.asCisd.2 i j b a⟩⟩
  symFactor := x.symFactor
  symmetryFactor := x.symmetryFactor
  root := x.root
  contributes := x.contributes
  eCorr := x.eCorr

end Vayesta.EwfEnergy
