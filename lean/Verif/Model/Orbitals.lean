import Verif.Model.Blocks

/-! Column-index models: fragment and environment orbitals (`vayesta/core/fragmentation/fragmentation.py:460-470`) and cluster
bookkeeping (`vayesta/core/types/cluster.py`, `vayesta/core/types/orbitals.py`). A coefficient matrix is the list of its columns. -/

namespace Vayesta.Orbitals

variable {C : Type}

/-- A NumPy index along an axis of length `n`: negative indices count from the end; out of bounds raises IndexError. -/
def normIndex (n : Nat) (i : Int) : Except PyErr Nat :=
  if 0 ≤ i ∧ i < n then .ok i.toNat
  else if -(n : Int) ≤ i ∧ i < 0 then .ok (i + n).toNat
  else .error .indexError

/-- All indices of a fancy index. -/
def normIndices (n : Nat) (l : List Int) : Except PyErr (List Nat) := l.mapM (normIndex n)

/-- Fancy indexing of columns `coeff[:, indices]`. -/
def takeCols (coeff : List C) (indices : List Nat) : List C := indices.filterMap fun i => coeff[i]?

/-- `get_frag_coeff` (fragmentation.py:460-463). -/
def fragCoeff (coeff : List C) (indices : List Int) : Except PyErr (List C) :=
  (normIndices coeff.length indices).map (takeCols coeff)

/-- `get_env_coeff` (fragmentation.py:465-470): a mask of ones, cleared at `indices`, then used to select columns. -/
def envCoeff (coeff : List C) (indices : List Int) : Except PyErr (List C) :=
  (normIndices coeff.length indices).map fun idx =>
    let mask := idx.foldl (fun m i => m.set i false) (List.replicate coeff.length true)
    ((coeff.zip mask).filter (·.2)).map (·.1)

/-- `_create_fragment` (fragmentation.py:173-177): the empty fragment raises ValueError. -/
def createFragment (coeff : List C) (indices : List Int) : Except PyErr (List C × List C) :=
  if indices.length = 0 then .error .valueError
  else (fragCoeff coeff indices).bind fun f => (envCoeff coeff indices).map fun e => (f, e)

/-- `SpatialOrbitals` (orbitals.py:47-57) built with an integer `occ`: the occupations are `occ*[maxocc] + (norb-occ)*[0]`. -/
structure Orb (C : Type) where
  coeff : List C
  occ : List Nat

def Orb.make (coeff : List C) (nocc : Nat) (maxocc : Nat := 2) : Orb C :=
  ⟨coeff, List.replicate nocc maxocc ++ List.replicate (coeff.length - nocc) 0⟩

/-- `norb`, `nocc`, `nvir`, `coeff_occ`, `coeff_vir` (orbitals.py:63-92). -/
def Orb.norb (o : Orb C) : Nat := o.coeff.length
def Orb.nocc (o : Orb C) : Nat := (o.occ.filter (0 < ·)).length
def Orb.nvir (o : Orb C) : Nat := (o.occ.filter (· = 0)).length
def Orb.coeffOcc (o : Orb C) : List C := o.coeff.take o.nocc
def Orb.coeffVir (o : Orb C) : List C := o.coeff.drop o.nocc

/-- `Cluster` (cluster.py:12-16), one spin channel. -/
structure Cluster (C : Type) where
  active : Orb C
  frozen : Orb C

/-- `Cluster.from_coeffs` (cluster.py:18-33), one spin channel with maximal occupation `maxocc` (2 for RHF, 1 per channel for
UHF). -/
def Cluster.fromCoeffs (cActOcc cActVir cFroOcc cFroVir : List C) (maxocc : Nat := 2) : Cluster C :=
  ⟨Orb.make (cActOcc ++ cActVir) cActOcc.length maxocc, Orb.make (cFroOcc ++ cFroVir) cFroOcc.length maxocc⟩

variable (c : Cluster C)

/-- `norb_total`, `nocc_total`, `nvir_total` (cluster.py:94-104). -/
def Cluster.norbTotal : Nat := c.active.norb + c.frozen.norb
def Cluster.noccTotal : Nat := c.active.nocc + c.frozen.nocc
def Cluster.nvirTotal : Nat := c.active.nvir + c.frozen.nvir

/-- `c_total_occ`, `c_total_vir`, `c_total` (cluster.py:106-116). -/
def Cluster.cTotalOcc : List C := c.frozen.coeffOcc ++ c.active.coeffOcc
def Cluster.cTotalVir : List C := c.active.coeffVir ++ c.frozen.coeffVir
def Cluster.cTotal : List C := c.cTotalOcc ++ c.cTotalVir

/-- `get_active_slice` (cluster.py:144-145, 186-190): start and stop. -/
def Cluster.activeSlice : Nat × Nat := (c.frozen.nocc, c.frozen.nocc + c.active.norb)

/-- `get_active_indices` (cluster.py:147-148, 192-196): `list(range(start, stop))`. -/
def Cluster.activeIndices : List Nat := List.range' c.frozen.nocc (c.frozen.nocc + c.active.norb - c.frozen.nocc)

/-- `get_frozen_indices` (cluster.py:150-151, 198-204); `range(a, b)` for `a > b` is empty. `a` cannot be negative here. -/
def Cluster.frozenIndices : List Nat :=
  List.range c.frozen.nocc ++ List.range' (c.norbTotal - c.frozen.nvir) (c.norbTotal - (c.norbTotal - c.frozen.nvir))

end Vayesta.Orbitals
