import Verif.Model.Blocks
import Mathlib.Algebra.Ring.Defs
import Mathlib.Algebra.BigOperators.Group.Finset.Basic

/-! Model of the Hubbard lattices of `vayesta/lattmod/latt.py`. Arrays are functions of their indices with the array size kept
separately; numbers are elements of an arbitrary commutative ring (exact arithmetic). Python's Unicode `upper`/`lower` are
modelled by Lean's, which change ASCII letters only; no other character maps onto a letter of the recognised words. -/

namespace Vayesta.Hubbard

/-- `str.upper`. -/
def upper (s : String) : String := String.ofList (s.toList.map Char.toUpper)

/-- `str.lower`. -/
def lower (s : String) : String := String.ofList (s.toList.map Char.toLower)

section Arrays
variable {K : Type}

/-- A two-index array. -/
abbrev Mat (K : Type) := Nat → Nat → K

/-- `m[i, j] = x`. -/
def Mat.set (m : Mat K) (i j : Nat) (x : K) : Mat K := fun a b => if a = i ∧ b = j then x else m a b

/-- `m[i, j] += x`. -/
def Mat.add [Add K] (m : Mat K) (i j : Nat) (x : K) : Mat K := fun a b => if a = i ∧ b = j then m a b + x else m a b

/-- `m[order][:, order]`. -/
def Mat.reorder (m : Mat K) (order : List Nat) : Mat K := fun a b => m (order.getD a 0) (order.getD b 0)

/-- A four-index array. -/
abbrev Ten (K : Type) := Nat → Nat → Nat → Nat → K

/-- `e[i, j, k, l] = x`. -/
def Ten.set (e : Ten K) (i j k l : Nat) (x : K) : Ten K :=
  fun a b c d => if a = i ∧ b = j ∧ c = k ∧ d = l then x else e a b c d

/-- `eri[order][:, order][:, :, order][:, :, :, order]`. -/
def Ten.reorder (e : Ten K) (order : List Nat) : Ten K :=
  fun a b c d => e (order.getD a 0) (order.getD b 0) (order.getD c 0) (order.getD d 0)

end Arrays

/-- Attributes set by the constructors: `nsite`, `nsites`, `boundary`, `bfac`, `order`, `h1e`, `hubbard_u`, `v_nn`.
`size` is the number of rows of `h1e` (the length of `order` if there is one). -/
structure HubbardLattice (K : Type) where
  nsite : Nat
  nsites : List Nat
  boundary : List String
  bfac : List Int
  order : Option (List Nat)
  size : Nat
  h1e : Mat K
  u : K
  vnn : K

section
variable {K : Type} [CommRing K]

/-- `if self.order is not None: h1e = h1e[self.order][:, self.order]` (latt.py:139-140, 254-255). A site number that does not
exist raises IndexError. Site numbers are natural numbers here (NumPy also accepts negative ones). -/
def applyOrder (n : Nat) (order : Option (List Nat)) (h : Mat K) : Except PyErr (Nat × Mat K) :=
  match order with
  | none => .ok (n, h)
  | some l => if ∀ x ∈ l, x < n then .ok (l.length, h.reorder l) else .error .indexError

/-- The boundary choice of `Hubbard1D` (latt.py:121-134): `boundary == "auto"` is compared exactly, then case-insensitively "PBC"
and "APBC". For any other word `bfac` stays unbound and line 134 raises UnboundLocalError, a NameError. -/
def boundary1D (nsite : Nat) (boundary : String) : Except PyErr (String × Int) :=
  let choose : Except PyErr String :=
    if boundary = "auto" then
      if nsite % 4 = 2 then .ok "PBC" else if nsite % 4 = 0 then .ok "APBC" else .error .valueError
    else .ok boundary
  match choose with
  | .error e => .error e
  | .ok b => if upper b = "PBC" then .ok (b, 1) else if upper b = "APBC" then .ok (b, -1) else .error .nameError

/-- The hopping matrix of `Hubbard1D` before reordering (latt.py:135-138). -/
def hop1D (nsite : Nat) (bfac : Int) (t : K) : Mat K :=
  let h : Mat K := fun _ _ => 0
  let h := (List.range (nsite - 1)).foldl (fun h i => (h.set i (i + 1) (-t)).set (i + 1) i (-t)) h
  (h.set (nsite - 1) 0 (bfac * -t)).set 0 (nsite - 1) (bfac * -t)

/-- `Hubbard1D.__init__` (latt.py:114-141). With no site at all line 138 raises IndexError. -/
def hubbard1D (nsite : Nat) (t u vnn : K) (boundary : String := "auto") (order : Option (List Nat) := none) :
    Except PyErr (HubbardLattice K) :=
  match boundary1D nsite boundary with
  | .error e => .error e
  | .ok (b, bfac) =>
    if nsite = 0 then .error .indexError
    else match applyOrder nsite order (hop1D nsite bfac t) with
      | .error e => .error e
      | .ok (m, h) => .ok ⟨nsite, [nsite], [b], [bfac], order, m, h, u, vnn⟩

/-- `Hubbard2D.get_tiles_order` (latt.py:308-326). -/
def tilesOrder (n0 n1 t0 t1 : Nat) : Except PyErr (List Nat) :=
  if t0 = 0 then .error .zeroDivisionError
  else if n0 % t0 ≠ 0 then .error .assertionError
  else if t1 = 0 then .error .zeroDivisionError
  else if n1 % t1 ≠ 0 then .error .assertionError
  else
    let ntiles0 := n0 / t0
    let tsize := t0 * t1
    .ok ((List.range (n0 * n1)).map fun site =>
      let tile := site / tsize
      let pos := site % tsize
      let ty := tile / ntiles0
      let tx := tile % ntiles0
      let py := pos / t0
      let px := pos % t0
      let x := tx * t0 + px
      let y := ty * t1 + py
      y * n0 + x)

/-- The `boundary` argument of `Hubbard2D`: one word or a pair. -/
inductive BoundaryArg
  | one (b : String)
  | two (b0 b1 : String)
  deriving DecidableEq

/-- The boundary choice of `Hubbard2D` (latt.py:208-228). `nelectron` is the argument as given by the caller, `none` if absent. -/
def boundary2D (n0 n1 : Nat) (nelectron : Option Nat) (boundary : BoundaryArg) : Except PyErr (String × String) :=
  match boundary with
  | .two b0 b1 => .ok (b0, b1)
  | .one b =>
    if lower b = "auto" then
      if nelectron = some (n0 * n1) then
        if n0 % 4 = 0 ∧ n1 % 4 = 0 then .ok ("PBC", "APBC")
        else if n0 % 4 = 0 ∧ n1 % 4 = 2 then .ok ("APBC", "APBC")
        else if n0 % 4 = 2 ∧ n1 % 4 = 0 then .ok ("APBC", "APBC")
        else if n0 % 4 = 2 ∧ n1 % 4 = 2 then .ok ("PBC", "APBC")
        else .error .notImplementedError
      else .error .notImplementedError
    else .ok (b, b)

/-- The boundary factor of one direction (latt.py:230-239). -/
def bfac2D (b : String) : Except PyErr Int :=
  if lower b = "open" then .ok 0
  else if lower b = "periodic" ∨ lower b = "pbc" then .ok 1
  else if lower b = "anti-periodic" ∨ lower b = "apbc" then .ok (-1)
  else .error .valueError

/-- `Hubbard2D.get_index` (latt.py:258-266). -/
def getIndex (n0 n1 : Nat) (b0 b1 : Int) (i j : Int) : Nat × Int :=
  let fac : Int := 1
  let fac := if i % n0 ≠ i then fac * b0 else fac
  let fac := if j % n1 ≠ j then fac * b1 else fac
  (((i % n0) * n1 + j % n1).toNat, fac)

/-- The body of the loops over sites (latt.py:245-253). -/
def hop2DStep (n0 n1 : Nat) (b0 b1 : Int) (t : K) (i j : Nat) (h : Mat K) : Mat K :=
  let idx := (getIndex n0 n1 b0 b1 i j).1
  let l := getIndex n0 n1 b0 b1 i (j - 1)
  let r := getIndex n0 n1 b0 b1 i (j + 1)
  let up := getIndex n0 n1 b0 b1 (i - 1) j
  let dn := getIndex n0 n1 b0 b1 (i + 1) j
  (((h.add idx l.1 (l.2 * -t)).add idx r.1 (r.2 * -t)).add idx up.1 (up.2 * -t)).add idx dn.1 (dn.2 * -t)

/-- The hopping matrix of `Hubbard2D` before reordering (latt.py:242-253). -/
def hop2D (n0 n1 : Nat) (b0 b1 : Int) (t : K) : Mat K :=
  (List.range n0).foldl (fun h i => (List.range n1).foldl (fun h j => hop2DStep n0 n1 b0 b1 t i j h) h) fun _ _ => 0

/-- `Hubbard2D.__init__` (latt.py:188-256). `v_nn` is passed on through `kwargs`. -/
def hubbard2D (n0 n1 : Nat) (t u vnn : K) (nelectron : Option Nat := none) (boundary : BoundaryArg := .one "auto")
    (tiles : Nat × Nat := (1, 1)) (order : Option (List Nat) := none) : Except PyErr (HubbardLattice K) :=
  let ord : Except PyErr (Option (List Nat)) :=
    if order = none ∧ tiles ≠ (1, 1) then (tilesOrder n0 n1 tiles.1 tiles.2).map some else .ok order
  match ord with
  | .error e => .error e
  | .ok ord =>
    match boundary2D n0 n1 nelectron boundary with
    | .error e => .error e
    | .ok (b0, b1) =>
      match bfac2D b0 with
      | .error e => .error e
      | .ok f0 =>
        match bfac2D b1 with
        | .error e => .error e
        | .ok f1 =>
          match applyOrder (n0 * n1) ord (hop2D n0 n1 f0 f1 t) with
          | .error e => .error e
          | .ok (m, h) => .ok ⟨n0 * n1, [n0, n1], [b0, b1], [f0, f1], ord, m, h, u, vnn⟩

/-- Site coordinates of `Hubbard2D.atom_coords` in units of the lattice spacing, before reordering (latt.py:291-305): the slice
`row * n0 : (row + 1) * n0` gets `x = 0, 1, ..., n0 - 1` and `y = row`, for `row < n1`. -/
def coords2D (n0 n1 : Nat) : List (Nat × Nat) :=
  (List.range n1).flatMap fun row => (List.range n0).map fun x => (x, row)

/-- `Hubbard1D.get_eri` (latt.py:143-160) with `hubbard_u` and `v_nn` already resolved against the attributes.
`self.order` is only applied if `v_nn` is non-zero. -/
def getEri1D [DecidableEq K] (lat : HubbardLattice K) (u vnn : K) : Ten K :=
  let n := lat.nsite
  let e : Ten K := fun a b c d => if a = b ∧ b = c ∧ c = d then u else 0
  if vnn ≠ 0 then
    let e := (List.range (n - 1)).foldl
      (fun e i => (e.set i i (i + 1) (i + 1) vnn).set (i + 1) (i + 1) i i vnn) e
    let e := (e.set (n - 1) (n - 1) 0 0 vnn).set 0 0 (n - 1) (n - 1) vnn
    match lat.order with
    | none => e
    | some order => e.reorder order
  else e

/-- `Hubbard2D.get_eri` (latt.py:268-279). -/
def getEri2D [DecidableEq K] (u vnn : K) : Except PyErr (Ten K) :=
  if vnn ≠ 0 then .error .notImplementedError
  else .ok fun a b c d => if a = b ∧ b = c ∧ c = d then u else 0

/-- `LatticeRHF.get_jk` (latt.py:382-391): `j = np.diag(np.diag(dm)) * mol.hubbard_u`, `k = j`. -/
def getJkRhf [DecidableEq K] (u vnn : K) (dm : Mat K) : Except PyErr (Mat K × Mat K) :=
  if vnn ≠ 0 then .error .notImplementedError
  else
    let j : Mat K := fun a b => if a = b then dm a a * u else 0
    .ok (j, j)

/-- `LatticeUHF.get_jk` (latt.py:426-437). -/
def getJkUhf [DecidableEq K] (u vnn : K) (dma dmb : Mat K) : Except PyErr ((Mat K × Mat K) × (Mat K × Mat K)) :=
  if vnn ≠ 0 then .error .notImplementedError
  else
    let ja : Mat K := fun a b => if a = b then dma a a * u else 0
    let jb : Mat K := fun a b => if a = b then dmb a a * u else 0
    .ok ((ja, jb), (ja, jb))

/-- `Hubbard.ao2mo` (latt.py:97-108) without `compact`, with four coefficient matrices (one matrix stands for four equal ones).
The result has two composite indices, `i * nj + j` and `k * nl + l`. -/
def ao2mo [DecidableEq K] (nsite : Nat) (u vnn : K) (compact : Bool) (nj nl : Nat) (c1 c2 c3 c4 : Mat K) :
    Except PyErr (Mat K) :=
  if compact then .error .notImplementedError
  else if vnn ≠ 0 then .error .notImplementedError
  else .ok fun p q =>
    u * ∑ a ∈ Finset.range nsite, c1 a (p / nj) * c2 a (p % nj) * c3 a (q / nl) * c4 a (q % nl)

/-- `pyscf.lib.pack_tril` of one symmetric `n x n` matrix: the entries with `a >= b`, row by row. -/
def packTril (n : Nat) (m : Mat K) : List K := (List.range n).flatMap fun a => (List.range (a + 1)).map fun b => m a b

/-- `HubbardDF.__init__` and the single block of `loop` (latt.py:330-349): one packed matrix per auxiliary index; `s` is
`np.sqrt(hubbard_u)`. -/
def dfLoop [DecidableEq K] (nsite : Nat) (s vnn : K) : Except PyErr (List (List K)) :=
  if vnn ≠ 0 then .error .notImplementedError
  else
    let j3c : Nat → Mat K := fun q a b => if q = a ∧ a = b then s else 0
    .ok ((List.range nsite).map fun q => packTril nsite (j3c q))

end

end Vayesta.Hubbard
