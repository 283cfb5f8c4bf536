import Verif.Model.DemoRdm

/-! Model of the density matrices of `RMP2_WaveFunction` (`vayesta/core/types/wf/mp2.py:19-61`). Arithmetic is exact. Only full
amplitudes are modelled; projected amplitudes have a first axis of another length. -/

namespace Vayesta.Mp2

open Vayesta.Rdm

variable {K : Type} [Field K] {no nv : Nat}

/-- Amplitudes `t2[i, j, a, b]`. -/
abbrev T2 (no nv : Nat) (K : Type) := Fin no → Fin no → Fin nv → Fin nv → K

/-- `doo` (mp2.py:26-29). -/
def doo (t2 : T2 no nv K) (withMf : Bool) : Matrix (Fin no) (Fin no) K := fun i j =>
  -(2 * (∑ k, ∑ a, ∑ b, t2 i k a b * t2 j k a b) - ∑ k, ∑ a, ∑ b, t2 i k a b * t2 k j a b) + if withMf = true ∧ i = j then 1 else 0

/-- `dvv` (mp2.py:27). -/
def dvv (t2 : T2 no nv K) : Matrix (Fin nv) (Fin nv) K := fun a b =>
  2 * (∑ i, ∑ j, ∑ c, t2 i j a c * t2 i j b c) - ∑ i, ∑ j, ∑ c, t2 i j a c * t2 i j c b

/-- `make_rdm1` in the orbital basis (mp2.py:24-33). -/
def makeRdm1 (t2 : T2 no nv K) (withMf : Bool) : Matrix (Fin (no + nv)) (Fin (no + nv)) K := fun p q =>
  Fin.addCases (fun i => Fin.addCases (fun j => doo t2 withMf i j + doo t2 withMf j i) (fun _ => 0) q)
    (fun a => Fin.addCases (fun _ => 0) (fun b => dvv t2 a b + dvv t2 b a) q) p

/-- `make_rdm1(ao_basis=True)` (mp2.py:34-35). -/
def makeRdm1Ao {nao : Nat} (coeff : Matrix (Fin nao) (Fin (no + nv)) K) (t2 : T2 no nv K) (withMf : Bool) : Matrix (Fin nao) (Fin nao) K :=
  coeff * makeRdm1 t2 withMf * coeff.transpose

/-- `dovov` (mp2.py:41). -/
def dovov (t2 : T2 no nv K) (i : Fin no) (a : Fin nv) (j : Fin no) (b : Fin nv) : K := 4 * t2 i j a b - 2 * t2 i j b a

/-- The two blocks written first (mp2.py:39-43). -/
def ovovBlocks (t2 : T2 no nv K) : Ten (no + nv) (no + nv) K := fun p q r s =>
  Fin.addCases
    (fun i => Fin.addCases (fun _ => 0) (fun a => Fin.addCases (fun j => Fin.addCases (fun _ => 0) (fun b => dovov t2 i a j b) s) (fun _ => 0) r) q)
    (fun a => Fin.addCases (fun i => Fin.addCases (fun _ => 0) (fun b => Fin.addCases (fun j => dovov t2 i a j b) (fun _ => 0) s) r) (fun _ => 0) q) p

/-- `make_rdm2` in the orbital basis (mp2.py:38-55); `approx` is `int(approx_cumulant)`. -/
def makeRdm2 (t2 : T2 no nv K) (withDm1 : Bool) (approx : Int) : Except PyErr (Ten (no + nv) (no + nv) K) :=
  if withDm1 then
    let dm1 := addDiag no 1 (makeRdm1 t2 false)
    .ok ((occ (no + nv) no).foldl (fun t i =>
      addIxxI i (-dm1) (addXiiX i (-dm1) (addXXii i ((2 : K) • dm1) (addIIxx i ((2 : K) • dm1) t)))) (ovovBlocks t2))
  else if approx ≠ 1 then .error .notImplementedError
  else .ok (ovovBlocks t2)

/-- The wave function as used by the embedding. -/
def clusterWf (t2 : T2 no nv K) : DemoRdm.ClusterWf (no + nv) K := ⟨makeRdm1 t2, makeRdm2 t2⟩

end Vayesta.Mp2
