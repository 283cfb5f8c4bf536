import Verif.Model.Blocks
import Mathlib.Data.Matrix.Mul
import Mathlib.Algebra.Field.Defs

/-! Model of cluster Hamiltonians (`vayesta/solver/hamiltonian.py`): Fock matrix, effective one-body Hamiltonian, interaction blocks,
the mean-field object for solvers and its padding with dummy orbitals, compression of density-fitting integrals. Arithmetic is exact.
Generation of screened interactions and the bosonic parts are not modelled here. -/

namespace Vayesta.ClusterHam

variable {K : Type} [Field K]

/-- An array with four axes, the first two of length `a`, the last two of length `b`. -/
abbrev Eri (a b : Nat) (K : Type) := Fin a → Fin a → Fin b → Fin b → K

/-- Sum over the slice `[:nocc]`. -/
def occSum {n : Nat} (nocc : Nat) (f : Fin n → K) : K := ∑ i : Fin n, if i.val < nocc then f i else 0

/-- State of a restricted Hamiltonian (hamiltonian.py:59-88): occupied orbitals, projected Fock matrix `c.T @ base.get_fock() @ c`, bare
and screened integrals, external potential, the options `screening` (given or not) and `match_fock`. -/
structure RHam (n : Nat) (K : Type) where
  nocc : Nat
  fock : Matrix (Fin n) (Fin n) K
  bare : Eri n n K
  seris : Option (Eri n n K)
  vext : Option (Matrix (Fin n) (Fin n) K)
  screening : Bool
  matchFock : Bool

variable {n : Nat}

/-- `2 * einsum("iipq->pq", eris[occ, occ]) - einsum("iqpi->pq", eris[occ, :, :, occ])` (hamiltonian.py:145-148, 160). -/
def vAct (nocc : Nat) (g : Eri n n K) : Matrix (Fin n) (Fin n) K := fun p q =>
  2 * occSum nocc (fun i => g i i p q) - occSum nocc (fun i => g i q p i)

/-- `v_ext` added if requested and present. -/
def addVext (withVext : Bool) (v : Option (Matrix (Fin n) (Fin n) K)) (m : Matrix (Fin n) (Fin n) K) : Matrix (Fin n) (Fin n) K :=
  if withVext then (match v with | some x => m + x | none => m) else m

/-- `get_fock` (hamiltonian.py:130-152). -/
def RHam.getFock (h : RHam n K) (withVext : Bool := true) (useSeris : Option Bool := none) : Matrix (Fin n) (Fin n) K :=
  let use := useSeris.getD (!h.matchFock)
  let fock := addVext withVext h.vext h.fock
  match h.seris with
  | some w => if use then fock + (vAct h.nocc w - vAct h.nocc h.bare) else fock
  | none => fock

/-- `get_eris_screened` (hamiltonian.py:167-177). -/
def RHam.getErisScreened (h : RHam n K) : Except PyErr (Eri n n K) :=
  if h.screening = false then .ok h.bare
  else match h.seris with
    | none => .error .runtimeError
    | some w => .ok w

/-- `get_heff` (hamiltonian.py:154-165); the argument `fock` is left at its default. -/
def RHam.getHeff (h : RHam n K) (eris : Option (Eri n n K) := none) (withVext : Bool := true) : Except PyErr (Matrix (Fin n) (Fin n) K) :=
  let g : Except PyErr (Eri n n K) := match eris with | some g => .ok g | none => h.getErisScreened
  g.map fun g =>
    addVext withVext h.vext (h.getFock false - vAct h.nocc g)

/-- `get_integrals` (hamiltonian.py:124-128). -/
def RHam.getIntegrals (h : RHam n K) (bareEris : Option (Eri n n K) := none) (withVext : Bool := true) :
    Except PyErr (Matrix (Fin n) (Fin n) K × Eri n n K) :=
  match h.getHeff bareEris withVext with
  | .error e => .error e
  | .ok heff => h.getErisScreened.map fun w => (heff, w)

/-- What a solver sees of the mean-field object: core Hamiltonian, integrals and Fock matrix. -/
structure MfObject (n : Nat) (K : Type) where
  hcore : Matrix (Fin n) (Fin n) K
  eri : Eri n n K
  fock : Matrix (Fin n) (Fin n) K

/-- Fock matrix which pyscf builds from core Hamiltonian and integrals for `nocc` doubly occupied orbitals:
`hcore + J - K / 2` with the density matrix `2` on the occupied diagonal. -/
def pyscfFock (nocc : Nat) (h : Matrix (Fin n) (Fin n) K) (g : Eri n n K) : Matrix (Fin n) (Fin n) K := fun p q =>
  h p q + ((∑ r, ∑ s, g p q r s * (if r = s ∧ r.val < nocc then 2 else 0)) - (∑ r, ∑ s, g p r s q * (if r = s ∧ r.val < nocc then 2 else 0)) / 2)

/-- Integrals selected by `force_bare_eris` (hamiltonian.py:346-350, 563). -/
def RHam.selectEris (h : RHam n K) (forceBare : Bool) : Except PyErr (Eri n n K) :=
  if forceBare then .ok h.bare else h.getErisScreened

/-- `to_pyscf_mf` without density fitting (hamiltonian.py:256-375), restricted (no padding). -/
def RHam.toPyscf (h : RHam n K) (forceBare overwriteFock : Bool) : Except PyErr (MfObject n K) :=
  match h.selectEris forceBare with
  | .error e => .error e
  | .ok eri => h.getHeff.map fun heff =>
    ⟨heff, eri, if overwriteFock then h.getFock true (some (!forceBare)) else pyscfFock h.nocc heff eri⟩

/-- Fock matrix of the integral object for energy functions, `get_dummy_eri_object` (hamiltonian.py:554-564), with the integrals. -/
def RHam.dummyEris (h : RHam n K) (forceBare withVext : Bool) : Except PyErr (Eri n n K × Matrix (Fin n) (Fin n) K) :=
  (h.selectEris forceBare).map fun g => (g, h.getFock withVext (some (!forceBare)))

/-- State of an unrestricted Hamiltonian; integrals are `(aa, ab, bb)`. -/
structure UEri (a b : Nat) (K : Type) where
  aa : Eri a a K
  ab : Eri a b K
  bb : Eri b b K

structure UHam (a b : Nat) (K : Type) where
  nocca : Nat
  noccb : Nat
  focka : Matrix (Fin a) (Fin a) K
  fockb : Matrix (Fin b) (Fin b) K
  bare : UEri a b K
  seris : Option (UEri a b K)
  vext : Option (Matrix (Fin a) (Fin a) K × Matrix (Fin b) (Fin b) K)
  screening : Bool
  matchFock : Bool

variable {a b : Nat}

/-- `einsum("iipq->pq", gaa[oa, oa]) + einsum("pqii->pq", gab[:, :, ob, ob]) - einsum("ipqi->pq", gaa[oa, :, :, oa])`
(hamiltonian.py:627-650, 661-670). -/
def vActA (na nb : Nat) (g : UEri a b K) : Matrix (Fin a) (Fin a) K := fun p q =>
  occSum na (fun i => g.aa i i p q) + occSum nb (fun i => g.ab p q i i) - occSum na (fun i => g.aa i p q i)
/-- `einsum("iipq->pq", gbb[ob, ob]) + einsum("iipq->pq", gab[oa, oa]) - einsum("ipqi->pq", gbb[ob, :, :, ob])`. -/
def vActB (na nb : Nat) (g : UEri a b K) : Matrix (Fin b) (Fin b) K := fun p q =>
  occSum nb (fun i => g.bb i i p q) + occSum na (fun i => g.ab i i p q) - occSum nb (fun i => g.bb i p q i)

/-- `UClusterHamiltonian.get_fock` (hamiltonian.py:615-651). -/
def UHam.getFock (h : UHam a b K) (withVext : Bool := true) (useSeris : Bool := true) : Matrix (Fin a) (Fin a) K × Matrix (Fin b) (Fin b) K :=
  let fa := addVext withVext (h.vext.map Prod.fst) h.focka
  let fb := addVext withVext (h.vext.map Prod.snd) h.fockb
  match h.seris with
  | some w =>
    if useSeris then (fa + (vActA h.nocca h.noccb w - vActA h.nocca h.noccb h.bare), fb + (vActB h.nocca h.noccb w - vActB h.nocca h.noccb h.bare))
    else (fa, fb)
  | none => (fa, fb)

/-- `UClusterHamiltonian.get_heff` (hamiltonian.py:653-678): the default integrals are the bare ones. -/
def UHam.getHeff (h : UHam a b K) (eris : Option (UEri a b K) := none) (withVext : Bool := true) : Matrix (Fin a) (Fin a) K × Matrix (Fin b) (Fin b) K :=
  let g := eris.getD h.bare
  let f := h.getFock false false
  (addVext withVext (h.vext.map Prod.fst) (f.1 - vActA h.nocca h.noccb g), addVext withVext (h.vext.map Prod.snd) (f.2 - vActB h.nocca h.noccb g))

/-- `get_eris_screened` for unrestricted Hamiltonians (hamiltonian.py:167-177). -/
def UHam.getErisScreened (h : UHam a b K) : Except PyErr (UEri a b K) :=
  if h.screening = false then .ok h.bare
  else match h.seris with
    | none => .error .runtimeError
    | some w => .ok w

/-- `pad_to_match` for matrices (hamiltonian.py:290-306): padded to `m` orbitals, `d` on the diagonal of the dummy orbitals. -/
def pad2 (m : Nat) (d : K) (x : Matrix (Fin n) (Fin n) K) : Matrix (Fin m) (Fin m) K := fun p q =>
  if h : p.val < n ∧ q.val < n then x ⟨p, h.1⟩ ⟨q, h.2⟩ else if p = q then d else 0
/-- `pad_to_match` for integrals: the diagonal value is always zero (hamiltonian.py:346-350). -/
def pad4 (m : Nat) (g : Eri a b K) : Eri m m K := fun p q r s =>
  if h : (p.val < a ∧ q.val < a) ∧ r.val < b ∧ s.val < b then g ⟨p, h.1.1⟩ ⟨q, h.1.2⟩ ⟨r, h.2.1⟩ ⟨s, h.2.2⟩ else 0
/-- All blocks. -/
def padEris (m : Nat) (g : UEri a b K) : UEri m m K := ⟨pad4 m g.aa, pad4 m g.ab, pad4 m g.bb⟩

/-! ### Blocks of integrals and their cache -/

/-- Four-index arrays as total functions; only indices within the slice are meaningful. -/
abbrev Arr (K : Type) := Nat → Nat → Nat → Nat → K

/-- Orbital coefficients, one column per orbital. -/
abbrev Cols (N : Nat) (K : Type) := Fin N → Nat → K

/-- `get_eris_array(coeffs)` (core/eris.py:117-160): transformation of the integrals `ao` with four sets of orbitals. -/
def eriArray {N : Nat} (ao : Fin N → Fin N → Fin N → Fin N → K) (c1 c2 c3 c4 : Cols N K) : Arr K := fun p q r s =>
  ∑ w, ∑ x, ∑ y, ∑ z, c1 w p * c2 x q * ao w x y z * c3 y r * c4 z s

/-- Active orbitals of one spin: occupied and virtual ones; `c_active = hstack(c_active_occ, c_active_vir)` (cluster.py, spaces). -/
structure Space (N : Nat) (K : Type) where
  nocc : Nat
  nvir : Nat
  occ : Cols N K
  vir : Cols N K

/-- `c_active`. -/
def Space.active {N : Nat} (s : Space N K) : Cols N K := fun m j => if j < s.nocc then s.occ m j else s.vir m (j - s.nocc)

/-- Orbitals for a letter of the block: `c_active_occ if i == "o" else c_active_vir`. -/
def Space.cols {N : Nat} (s : Space N K) (c : Char) : Cols N K := if c.toLower = 'o' then s.occ else s.vir
/-- Offset of the slice for a letter: `slice(nocc)` or `slice(nocc, norb)`. -/
def Space.offset {N : Nat} (s : Space N K) (c : Char) : Nat := if c.toLower = 'o' then 0 else s.nocc

/-- `len(block) == 4 and set(block.lower()).issubset(set("ov"))`. -/
def validBlock (block : List Char) : Bool := block.length == 4 && block.all fun c => c.toLower == 'o' || c.toLower == 'v'

/-- `_get_eris_block` (hamiltonian.py:201-207): slices of the cached array. -/
def rSlice {N : Nat} (s : Space N K) (g : Arr K) (block : List Char) : Except PyErr (Arr K) :=
  if validBlock block = false then .error .assertionError
  else match block with
    | [a, b, c, d] => .ok fun p q r t => g (s.offset a + p) (s.offset b + q) (s.offset c + r) (s.offset d + t)
    | _ => .error .assertionError

/-- `get_eris_bare(block)` (hamiltonian.py:180-199) with the cache `_eris`; `cacheOn` is `opts.cache_eris`. Returns the array and the new
cache. -/
def rEris {N : Nat} (ao : Fin N → Fin N → Fin N → Fin N → K) (s : Space N K) (cacheOn : Bool) (cache : Option (Arr K)) (block : Option (List Char)) :
    Except PyErr (Arr K) × Option (Arr K) :=
  match block, cache with
  | none, some g => (.ok g, cache)
  | none, none =>
    let g := eriArray ao s.active s.active s.active s.active
    (.ok g, if cacheOn then some g else none)
  | some bl, none =>
    if validBlock bl = false then (.error .assertionError, cache)
    else match bl with
      | [a, b, c, d] => (.ok (eriArray ao (s.cols a) (s.cols b) (s.cols c) (s.cols d)), cache)
      | _ => (.error .assertionError, cache)
  | some bl, some g => (rSlice s g bl, cache)

/-- A history of calls; the results in order. -/
def rCalls {N : Nat} (ao : Fin N → Fin N → Fin N → Fin N → K) (s : Space N K) (cacheOn : Bool) : Option (Arr K) → List (Option (List Char)) → List (Except PyErr (Arr K))
  | _, [] => []
  | cache, b :: bs => (rEris ao s cacheOn cache b).1 :: rCalls ao s cacheOn (rEris ao s cacheOn cache b).2 bs

/-- `int(i.upper() == i)`: upper case letters are beta orbitals. -/
def isBeta (c : Char) : Bool := c.toUpper == c

/-- Slices of the unrestricted arrays `(aa, ab, bb)` (hamiltonian.py:702-720); real arrays, so that conjugation is the identity. -/
def uSlice {N : Nat} (sa sb : Space N K) (g : Arr K × Arr K × Arr K) (block : List Char) : Except PyErr (Arr K) :=
  if validBlock block = false then .error .assertionError
  else
    let total := (block.filter isBeta).length
    let flip := total == 2 && (block.head?.map isBeta).getD false
    let bl := if flip then block.reverse else block
    match bl with
    | [a, b, c, d] =>
      let off := fun x => if isBeta x then sb.offset x else sa.offset x
      let arr := if total / 2 = 0 then g.1 else if total / 2 = 1 then g.2.1 else g.2.2
      let res : Arr K := fun p q r t => arr (off a + p) (off b + q) (off c + r) (off d + t)
      .ok (if flip then fun p q r t => res t r q p else res)
    | _ => .error .assertionError

/-- `UClusterHamiltonian.get_eris_bare(block)` without a cache (hamiltonian.py:688-696); other numbers of letters fail in the transformation. -/
def uDirect {N : Nat} (ao : Fin N → Fin N → Fin N → Fin N → K) (sa sb : Space N K) (block : List Char) : Except PyErr (Arr K) :=
  let col := fun x => if isBeta x then sb.cols x else sa.cols x
  match block with
  | [a, b, c, d] => .ok (eriArray ao (col a) (col b) (col c) (col d))
  | _ => .error .valueError

/-- `get_eris_array_uhf(c_active)`: `(aa, ab, bb)`. -/
def uFull {N : Nat} (ao : Fin N → Fin N → Fin N → Fin N → K) (sa sb : Space N K) : Arr K × Arr K × Arr K :=
  (eriArray ao sa.active sa.active sa.active sa.active, eriArray ao sa.active sa.active sb.active sb.active,
   eriArray ao sb.active sb.active sb.active sb.active)

/-- Density-fitting integrals `(L|pq)`. -/
structure Cderi (n : Nat) (K : Type) where
  naux : Nat
  val : Fin naux → Fin n → Fin n → K

/-- Integrals `sum_L (L|pq) (L|rs)`. -/
def Cderi.eri (x : Cderi a K) (y : Cderi b K) (h : y.naux = x.naux) : Eri a b K := fun p q r s =>
  ∑ l : Fin x.naux, x.val l p q * y.val (Fin.cast h.symm l) r s

/-- `get_cderi_bare(compress=True)` of unrestricted Hamiltonians (hamiltonian.py:740): `compress_cderi(cderi[0])` is used for both spins.
`compress` is the compression of one array. -/
def compressU (compress : Cderi n K → Cderi n K) (x : Cderi n K × Cderi n K) : Cderi n K × Cderi n K := (compress x.1, compress x.1)

/-- `get_cderi_bare(compress=False)`. -/
def uncompressedU (x : Cderi n K × Cderi n K) : Cderi n K × Cderi n K := x

end Vayesta.ClusterHam
