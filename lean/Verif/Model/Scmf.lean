import Verif.Model.Lowdin
import Mathlib.Data.Real.Basic

/-! Model of self-consistent mean-fields: `vayesta/core/scmf/scmf.py`, `pdmet.py` and `brueckner.py`. Exact arithmetic; eigensolvers and the
extrapolation by DIIS are parameters. -/

namespace Vayesta.Scmf

open Matrix Lowdin

/-! ## The loop -/

/-- Density matrices of the mean-field: one, or one for each spin. -/
inductive Dm (n : Nat) where
  | restricted (d : Matrix (Fin n) (Fin n) ℝ)
  | unrestricted (a b : Matrix (Fin n) (Fin n) ℝ)

/-- An embedding with its mean-field, as used by the loop: states `σ`, results `R`, and DIIS objects `D`. `run` is the original kernel, `update` is
`update_mo_coeff` followed by `update_mf`, `symmetric` tells that `check_fragment_symmetry` does not raise SymmetryError. -/
structure Emb (σ D R : Type) (n : Nat) where
  run : σ → Except PyErr (R × σ)
  reset : σ → σ
  eMf : σ → ℝ
  eCorr : σ → ℝ
  update : Option D → σ → Except PyErr (Option D × σ)
  dm : σ → Dm n
  symmetric : σ → Bool

/-- Options (scmf.py:12-20): a tolerance `None` is infinite. -/
structure Opts where
  etol : Option ℝ
  dtol : Option ℝ
  maxiter : Int
  damping : ℝ

/-- Attributes changed by the loop (scmf.py:21-28), with the state of the embedding. -/
structure State (σ : Type) where
  emb : σ
  iteration : Nat
  converged : Bool
  energies : List ℝ

/-- `x < tighten * tol`, where zero times infinity is not a number (scmf.py:15-16, 74). -/
def below (tol : Option ℝ) (tighten x : ℝ) : Prop :=
  match tol with
  | some t => x < tighten * t
  | none => 0 < tighten

/-- `ddm < tighten * dtol` (scmf.py:66-74), the maximum being below if all elements are. Without orbitals `max` raises ValueError, which is not
modelled. Matrices of different kind are not compared. -/
def dmBelow {n : Nat} (tol : Option ℝ) (tighten : ℝ) : Dm n → Dm n → Prop
  | .restricted d, .restricted d' => ∀ i j, below tol tighten (|d i j - d' i j| / 2)
  | .unrestricted a b, .unrestricted a' b' => ∀ i j, below tol tighten |a i j - a' i j| ∧ below tol tighten |b i j - b' i j|
  | _, _ => False

/-- `check_convergence` (scmf.py:58-76), the first result. In the first iteration the changes are infinite, and not below anything. -/
def checkConvergence {n : Nat} (o : Opts) (e : ℝ) (d : Dm n) : Option (ℝ × Dm n) → Prop
  | none => False
  | some last => below o.etol (1 - o.damping) |e - last.1| ∧ dmBelow o.dtol (1 - o.damping) d last.2

/-- What one pass of the loop does: it ends with an exception or a result, or the next pass gets the DIIS object, energy and density matrix. -/
inductive Pass (D R : Type) (n : Nat) where
  | raised (e : PyErr)
  | done (r : R)
  | next (r : R) (d : Option D) (last : ℝ × Dm n)

/-- `emb.reset()` in all passes but the first (scmf.py:100-101). -/
def resetIf {σ D R : Type} {n : Nat} (x : Emb σ D R n) (s : State σ) : State σ := if 1 < s.iteration then { s with emb := x.reset s.emb } else s

open Classical in
/-- The body of the loop (scmf.py:97-131), with `s.iteration` of the pass already set. -/
noncomputable def pass {σ D R : Type} {n : Nat} (x : Emb σ D R n) (o : Opts) (s : State σ) (d : Option D) (last : Option (ℝ × Dm n)) : State σ × Pass D R n :=
  let s := resetIf x s
  match x.run s.emb with
  | .error e => (s, .raised e)
  | .ok (r, emb) =>
    let e := x.eMf emb + x.eCorr emb
    let s := { s with emb := emb, energies := s.energies ++ [e] }
    match x.update d emb with
    | .error err => (s, .raised err)
    | .ok (d, emb) =>
      let s := { s with emb := emb }
      if x.symmetric emb = false then ({ s with converged := false }, .done r)
      else if checkConvergence o e (x.dm emb) last then ({ s with converged := true }, .done r)
      else (s, .next r d (e, x.dm emb))

/-- The loop (scmf.py:96-136): `fuel` passes are left, `res` is the result of the previous one; without any pass `res` is unbound. -/
noncomputable def loop {σ D R : Type} {n : Nat} (x : Emb σ D R n) (o : Opts) :
    Nat → Nat → State σ → Option D → Option (ℝ × Dm n) → Option R → State σ × Except PyErr R
  | 0, _, s, _, _, none => (s, .error .nameError)
  | 0, _, s, _, _, some r => (s, .ok r)
  | fuel + 1, k, s, d, last, _ =>
    match pass x o { s with iteration := k } d last with
    | (s, .raised e) => (s, .error e)
    | (s, .done r) => (s, .ok r)
    | (s, .next r d last) => loop x o fuel (k + 1) s d last r

/-- `kernel` (scmf.py:78-136), `diis` being the new DIIS object, or nothing. -/
noncomputable def kernel {σ D R : Type} {n : Nat} (x : Emb σ D R n) (o : Opts) (diis : Option D) (s : State σ) : State σ × Except PyErr R :=
  loop x o o.maxiter.toNat 1 s diis none none

/-- `e_tot` (scmf.py:38-40). -/
def eTot {σ : Type} (s : State σ) : Except PyErr ℝ := match s.energies.getLast? with | some e => .ok e | none => .error .indexError

/-- `e_tot_oneshot` (scmf.py:42-44). -/
def eTotOneshot {σ : Type} (s : State σ) : Except PyErr ℝ := match s.energies.head? with | some e => .ok e | none => .error .indexError

/-- `EWF.e_tot` (ewf.py:476-479, qemb.py:568-577): the energy of the mean-field is per cell, as the correlation energy. -/
noncomputable def embEnergy {σ D R : Type} {n : Nat} (x : Emb σ D R n) (ncells : Nat) (emb : σ) : ℝ := x.eMf emb / ncells + x.eCorr emb

/-! ## p-DMET -/

/-- The density matrix used (pdmet.py:12-23, 61-67): `full` and `demo` are the results of `make_rdm1` and `make_rdm1_demo`; only the restricted
class replaces a missing implementation. -/
def pdmetRdm1 {α : Type} (unrestricted : Bool) (dmType : String) (full demo : Except PyErr α) : Except PyErr α :=
  let t := dmType.toLower.toList
  if "default".toList.isPrefixOf t then
    match full with
    | .error e => if e = .notImplementedError ∧ unrestricted = false then demo else .error e
    | .ok d => .ok d
  else if "demo".toList.isPrefixOf t then demo
  else .error .notImplementedError

/-- The index `nocc - 1` (pdmet.py:43); minus one is the last orbital. -/
def homo {n nocc : Nat} (h : nocc < n) : Fin n := if nocc = 0 then ⟨n - 1, by omega⟩ else ⟨nocc - 1, by omega⟩

/-- `update_mo_coeff` of one spin (pdmet.py:30-54): `mo` and `orig` are the current and the original orbitals, `dm1` is in the basis of the current
ones. Eigenvalues from `eigh` ascend and are reversed. Without virtual orbitals the index is out of bounds. -/
noncomputable def pdmetUpdate {a n : Nat} (eigh : Matrix (Fin n) (Fin n) ℝ → Eig (Fin n) ℝ) (diis : Matrix (Fin n) (Fin n) ℝ → Matrix (Fin n) (Fin n) ℝ)
    (s : Matrix (Fin a) (Fin a) ℝ) (mo orig : Matrix (Fin a) (Fin n) ℝ) (nocc : Nat) (dm1 : Matrix (Fin n) (Fin n) ℝ) :
    Except PyErr (Matrix (Fin a) (Fin n) ℝ) :=
  let r := moᵀ * s * orig
  let g := eigh (diis (rᵀ * dm1 * r))
  if h : nocc < n then
    if |g.val (Fin.rev (homo h)) - g.val (Fin.rev ⟨nocc, h⟩)| < 1 / 10 ^ 8 then .error .runtimeError
    else .ok (fixSign (orig * g.vec.submatrix id Fin.rev))
  else .error .indexError

/-- `PDMET_UHF.update_mo_coeff` (pdmet.py:80-97). -/
noncomputable def pdmetUpdateU {a n m : Nat} (eigha : Matrix (Fin n) (Fin n) ℝ → Eig (Fin n) ℝ) (eighb : Matrix (Fin m) (Fin m) ℝ → Eig (Fin m) ℝ)
    (diisa : Matrix (Fin n) (Fin n) ℝ → Matrix (Fin n) (Fin n) ℝ) (diisb : Matrix (Fin m) (Fin m) ℝ → Matrix (Fin m) (Fin m) ℝ)
    (s : Matrix (Fin a) (Fin a) ℝ) (mo orig : Matrix (Fin a) (Fin n) ℝ × Matrix (Fin a) (Fin m) ℝ) (nocc : Nat × Nat)
    (dm1 : Matrix (Fin n) (Fin n) ℝ × Matrix (Fin m) (Fin m) ℝ) : Except PyErr (Matrix (Fin a) (Fin n) ℝ × Matrix (Fin a) (Fin m) ℝ) := do
  let ca ← pdmetUpdate eigha diisa s mo.1 orig.1 nocc.1 dm1.1
  let cb ← pdmetUpdate eighb diisb s mo.2 orig.2 nocc.2 dm1.2
  return (ca, cb)

/-! ## Brueckner orbitals -/

/-- `v[:, :m]`; the columns exist in all uses. -/
def headCols {r : Type} {n : Nat} (v : Matrix r (Fin n) ℝ) (m : Nat) : Matrix r (Fin m) ℝ := Matrix.of fun i j => if h : j.1 < n then v i ⟨j.1, h⟩ else 0

/-- `v[:, -m:]` for `0 < m`; the columns exist in all uses. -/
def tailCols {r : Type} {n : Nat} (v : Matrix r (Fin n) ℝ) (m : Nat) : Matrix r (Fin m) ℝ :=
  Matrix.of fun i j => if h : n - m + j.1 < n then v i ⟨n - m + j.1, h⟩ else 0

/-- What is extrapolated (brueckner.py:16-18, 42, 64). -/
inductive DiisObj where
  | t1
  | dm1
  | other
  deriving DecidableEq

/-- The extrapolation (`diis.update`) and what it is used for. -/
structure Diis (n : Nat) where
  obj : DiisObj
  update : Matrix (Fin n) (Fin n) ℝ → Matrix (Fin n) (Fin n) ℝ

/-- Amplitudes after extrapolation (brueckner.py:41-48). -/
def brT1 {a o w : Nat} (diis : Option (Diis (o + w))) (s : Matrix (Fin a) (Fin a) ℝ) (mo : Matrix (Fin a) (Fin o ⊕ Fin w) ℝ) (orig : Matrix (Fin a) (Fin (o + w)) ℝ)
    (t1 : Matrix (Fin o) (Fin w) ℝ) : Matrix (Fin o) (Fin w) ℝ :=
  match diis with
  | some ⟨.t1, update⟩ =>
    let ro := mo.toCols₁ᵀ * s * orig
    let rv := mo.toCols₂ᵀ * s * orig
    ro * update (roᵀ * t1 * rv) * rvᵀ
  | _ => t1

/-- New occupied orbitals before orthogonalisation (brueckner.py:50-52). -/
def brOcc {a o w : Nat} (damping : ℝ) (mo : Matrix (Fin a) (Fin o ⊕ Fin w) ℝ) (t1 : Matrix (Fin o) (Fin w) ℝ) : Matrix (Fin a) (Fin o) ℝ :=
  mo.toCols₁ + (1 - damping) • (mo.toCols₂ * t1ᵀ)

/-- Occupied orbitals (brueckner.py:54-69): `geigh` is `scipy.linalg.eigh` with `type=2`. -/
def brOrth {a o w : Nat} (geigh : Matrix (Fin a) (Fin a) ℝ → Matrix (Fin a) (Fin a) ℝ → Eig (Fin a) ℝ)
    (eigh : Matrix (Fin (o + w)) (Fin (o + w)) ℝ → Eig (Fin (o + w)) ℝ) (diis : Option (Diis (o + w))) (s : Matrix (Fin a) (Fin a) ℝ)
    (orig : Matrix (Fin a) (Fin (o + w)) ℝ) (b : Matrix (Fin a) (Fin o) ℝ) : Matrix (Fin a) (Fin o) ℝ :=
  let b := tailCols (geigh (b * bᵀ) s).vec o
  match diis with
  | some ⟨.dm1, update⟩ =>
    let r := s * orig
    tailCols (orig * (eigh (update (rᵀ * (b * bᵀ) * r))).vec) o
  | _ => b

open Classical in
/-- `update_mo_coeff` of one spin (brueckner.py:27-81). Without occupied orbitals `-nocc:` selects all columns; their projector is one, and the first
assertion fails (unless there are no orbitals at all). -/
noncomputable def bruecknerUpdate {a o w : Nat} (geigh : Matrix (Fin a) (Fin a) ℝ → Matrix (Fin a) (Fin a) ℝ → Eig (Fin a) ℝ)
    (eigh : Matrix (Fin (o + w)) (Fin (o + w)) ℝ → Eig (Fin (o + w)) ℝ) (diis : Option (Diis (o + w))) (damping : ℝ) (s : Matrix (Fin a) (Fin a) ℝ)
    (mo : Matrix (Fin a) (Fin o ⊕ Fin w) ℝ) (orig : Matrix (Fin a) (Fin (o + w)) ℝ) (t1 : Matrix (Fin o) (Fin w) ℝ) :
    Except PyErr (Matrix (Fin a) (Fin o ⊕ Fin w) ℝ) :=
  let b := brOrth geigh eigh diis s orig (brOcc damping mo (brT1 diis s mo orig t1))
  let c : Matrix (Fin a) (Fin (o + w)) ℝ := mo.submatrix id finSumFinEquiv.symm
  let r := cᵀ * s * b
  let g := eigh (r * rᵀ)
  if o = 0 then .error .assertionError
  else if ∀ k : Fin (o + w), k.1 < w → |g.val k| ≤ 1 / 10 ^ 8 then
    if ∀ k : Fin (o + w), w ≤ k.1 → |g.val k - 1| ≤ 1 / 10 ^ 8 + 1 / 10 ^ 5 then .ok (fixSign (fromCols b (headCols (c * g.vec) w)))
    else .error .assertionError
  else .error .assertionError

/-- `Brueckner_UHF.update_mo_coeff` (brueckner.py:90-107). -/
noncomputable def bruecknerUpdateU {a o w o' w' : Nat} (geigh : Matrix (Fin a) (Fin a) ℝ → Matrix (Fin a) (Fin a) ℝ → Eig (Fin a) ℝ)
    (eigha : Matrix (Fin (o + w)) (Fin (o + w)) ℝ → Eig (Fin (o + w)) ℝ) (eighb : Matrix (Fin (o' + w')) (Fin (o' + w')) ℝ → Eig (Fin (o' + w')) ℝ)
    (diisa : Option (Diis (o + w))) (diisb : Option (Diis (o' + w'))) (damping : ℝ) (s : Matrix (Fin a) (Fin a) ℝ)
    (mo : Matrix (Fin a) (Fin o ⊕ Fin w) ℝ × Matrix (Fin a) (Fin o' ⊕ Fin w') ℝ) (orig : Matrix (Fin a) (Fin (o + w)) ℝ × Matrix (Fin a) (Fin (o' + w')) ℝ)
    (t1 : Matrix (Fin o) (Fin w) ℝ × Matrix (Fin o') (Fin w') ℝ) : Except PyErr (Matrix (Fin a) (Fin o ⊕ Fin w) ℝ × Matrix (Fin a) (Fin o' ⊕ Fin w') ℝ) := do
  let ca ← bruecknerUpdate geigh eigha diisa damping s mo.1 orig.1 t1.1
  let cb ← bruecknerUpdate geigh eighb diisb damping s mo.2 orig.2 t1.2
  return (ca, cb)

end Vayesta.Scmf
