import Verif.Model.CcsdT

/-! Model of the perturbative triples energy of unrestricted EWF calculations: `vayesta/ewf/ccsd_t.py` 5-11, 183-262 and `vayesta/ewf/ewf.py` 351-363. -/

namespace Vayesta.CcsdT
open Vayesta.Amplitudes Vayesta.Tensor

variable {K : Type} [Field K] {ι oa ob va vb : Type} [Fintype ι] [Fintype oa] [Fintype ob] [Fintype va] [Fintype vb]

/-- Mean-field data of an unrestricted calculation: overlap, Fock matrices of both spins, bare two-electron integrals in the AO basis, molecular orbitals, number
of primitive cells. -/
structure USys (ι oa ob va vb K : Type) where
  ovlp : ι → ι → K
  focka : ι → ι → K
  fockb : ι → ι → K
  eri : ι → ι → ι → ι → K
  moOccA : ι → oa → K
  moOccB : ι → ob → K
  moVirA : ι → va → K
  moVirB : ι → vb → K
  ncells : K

/-- The blocks of Fock matrices and integrals read by `calc_fragment_uccsd_t_energy` (ccsd_t.py:228-262; solver/hamiltonian.py:676-714): upper-case letters in the
name of a block stand for beta orbitals. No external potential, no screened interaction; integrals are those of real orbitals, so that the stored block
"vvOV", read backwards, is the block "OVvv". -/
def USys.ham {coa cob cva cvb : Type} (s : USys ι oa ob va vb K) (cOccA : ι → coa → K) (cOccB : ι → cob → K) (cVirA : ι → cva → K) (cVirB : ι → cvb → K)
    (t1a : T1 coa cva K) (t1b : T1 cob cvb K) (t2aa : T2 coa coa cva cva K) (t2ab : T2 coa cob cva cvb K) (t2bb : T2 cob cob cvb cvb K) : UHam coa cob cva cvb K where
  t1a := t1a
  t1b := t1b
  t2aa := t2aa
  t2ab := t2ab
  t2bb := t2bb
  fvo := mm (tp cVirA) (mm s.focka cOccA)
  fVO := mm (tp cVirB) (mm s.fockb cOccB)
  eoa := fun i => mm (tp cOccA) (mm s.focka cOccA) i i
  eob := fun i => mm (tp cOccB) (mm s.fockb cOccB) i i
  eva := fun a => mm (tp cVirA) (mm s.focka cVirA) a a
  evb := fun a => mm (tp cVirB) (mm s.fockb cVirB) a a
  ovvv := trafo s.eri cOccA cVirA cVirA cVirA
  OVVV := trafo s.eri cOccB cVirB cVirB cVirB
  ovVV := trafo s.eri cOccA cVirA cVirB cVirB
  OVvv := trafo s.eri cOccB cVirB cVirA cVirA
  ovoo := trafo s.eri cOccA cVirA cOccA cOccA
  OVOO := trafo s.eri cOccB cVirB cOccB cOccB
  ovOO := trafo s.eri cOccA cVirA cOccB cOccB
  OVoo := trafo s.eri cOccB cVirB cOccA cOccA
  ovov := trafo s.eri cOccA cVirA cOccA cVirA
  OVOV := trafo s.eri cOccB cVirB cOccB cVirB
  ovOV := trafo s.eri cOccA cVirA cOccB cVirB

/-- A fragment of an unrestricted calculation: fragment and active cluster orbitals of both spins, the amplitudes of `results.wf.as_ccsd()`, the number of
fragments it stands for, whether it has no symmetry parent, whether it contributes. -/
structure UFrag (ι K : Type) where
  {fa : Type}
  {fb : Type}
  {coa : Type}
  {cob : Type}
  {cva : Type}
  {cvb : Type}
  [ffa : Fintype fa]
  [ffb : Fintype fb]
  [foa : Fintype coa]
  [fob : Fintype cob]
  [fva : Fintype cva]
  [fvb : Fintype cvb]
  cFragA : ι → fa → K
  cFragB : ι → fb → K
  cOccA : ι → coa → K
  cOccB : ι → cob → K
  cVirA : ι → cva → K
  cVirB : ι → cvb → K
  t1a : T1 coa cva K
  t1b : T1 cob cvb K
  t2aa : T2 coa coa cva cva K
  t2ab : T2 coa cob cva cvb K
  t2bb : T2 cob cob cvb cvb K
  symmetryFactor : Nat
  root : Bool
  contributes : Bool

attribute [instance] UFrag.ffa UFrag.ffb UFrag.foa UFrag.fob UFrag.fva UFrag.fvb

/-- `cfa @ cfa.T` (ccsd_t.py:201-202). -/
def UFrag.cfca (s : USys ι oa ob va vb K) (x : UFrag ι K) : x.coa → x.coa → K :=
  let cf := mm (tp x.cOccA) (mm s.ovlp x.cFragA)
  mm cf (tp cf)

/-- `cfb @ cfb.T` (ccsd_t.py:201-202). -/
def UFrag.cfcb (s : USys ι oa ob va vb K) (x : UFrag ι K) : x.cob → x.cob → K :=
  let cf := mm (tp x.cOccB) (mm s.ovlp x.cFragB)
  mm cf (tp cf)

/-- The energy of a fragment, as called by `get_ccsd_t_corr_energy` with `global_t1=False`. -/
def UFrag.ccsdT (s : USys ι oa ob va vb K) (x : UFrag ι K) (project : String) : Except PyErr K :=
  (s.ham x.cOccA x.cOccB x.cVirA x.cVirB x.t1a x.t1b x.t2aa x.t2ab x.t2bb).uccsdT (x.cfca s) (x.cfcb s) project false

/-- `EWF.get_ccsd_t_corr_energy` (ewf.py:351-363) of an unrestricted calculation in one MPI process, with `global_t1=False`. -/
def uccsdTCorrEnergy (s : USys ι oa ob va vb K) (project : String) (l : List (UFrag ι K)) : Except PyErr K := do
  let e ← EwfRdm.accumulate (fun x : UFrag ι K => do
    let e ← x.ccsdT s project
    pure ((x.symmetryFactor : K) * e)) (l.filter fun x => x.contributes && x.root)
  pure (e / s.ncells)

end Vayesta.CcsdT
