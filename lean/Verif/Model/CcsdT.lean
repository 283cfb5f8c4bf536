import Verif.Model.EwfRdm
import Mathlib.Order.Defs.LinearOrder
import Mathlib.Data.Finset.Filter

/-! Model of the perturbative triples energy of EWF calculations: `vayesta/ewf/ccsd_t.py` and `vayesta/ewf/ewf.py` 351-363. Arrays are functions of
their indices over a field (exact, real arithmetic: `conj` does nothing). -/

namespace Vayesta.CcsdT
open Vayesta.Amplitudes Vayesta.Tensor

variable {K : Type} [Field K] {ι o v : Type} [Fintype ι] [Fintype o] [Fintype v]

/-- What the energy of a cluster needs: singles and doubles amplitudes, the virtual-occupied block of the Fock matrix, orbital energies (its diagonal), and the
blocks "ovvv", "ovoo" and "ovov" of the integrals (ccsd_t.py:26-56). -/
structure Ham (o v K : Type) where
  t1 : T1 o v K
  t2 : T2 o o v v K
  fvo : v → o → K
  eo : o → K
  ev : v → K
  ovvv : o → v → v → v → K
  ovoo : o → v → o → o → K
  ovov : o → v → o → v → K

/-- `get_w(a, b, c)` (ccsd_t.py:58-61), with the transposed arrays written in terms of the original ones: `eris_vvov[a,b,i,f]` is `ovvv[i,a,f,b]`,
`t2T[c,f,k,j]` is `t2[k,j,c,f]`, `eris_vooo[a,i,j,m]` is `ovoo[i,a,j,m]` (ccsd_t.py:39, 50-56). -/
def Ham.getW (h : Ham o v K) (a b c : v) (i j k : o) : K :=
  (∑ f, h.ovvv i a f b * h.t2 k j c f) - ∑ m, h.ovoo i a j m * h.t2 m k b c

/-- `get_v(a, b, c)` (ccsd_t.py:62-65). -/
def Ham.getV {o v : Type} (h : Ham o v K) (a b c : v) (i j k : o) : K :=
  h.ovov i a j b * h.t1 k c + h.t2 i j a b * h.fvo c k

/-- `r3` (ccsd_t.py:179-182): `w.transpose(1,2,0)[i,j,k]` is `w[k,i,j]`. -/
def r3 {o : Type} (w : o → o → o → K) (i j k : o) : K :=
  4 * w i j k + w k i j + w j k i - 2 * w k j i - 2 * w i k j - 2 * w j i k

/-- `sym_proj` (ccsd_t.py:67-76) with `cfc` given. -/
def symProj {o : Type} [Fintype o] (cfc : o → o → K) (w : o → o → o → K) (i j k : o) : K :=
  1 / 3 * ((∑ x, cfc i x * w x j k) + (∑ x, cfc j x * w i x k) + ∑ x, cfc k x * w i j x)

/-- The denominators `d3` before multiplication (ccsd_t.py:44, 82). -/
def Ham.d3 {o v : Type} (h : Ham o v K) (a b c : v) (i j k : o) : K := h.eo i + h.eo j + h.eo k - h.ev a - h.ev b - h.ev c

/-- The factor of the denominators (ccsd_t.py:83-86). -/
def mult {v : Type} [LinearOrder v] (a b c : v) : K := if a = c then 6 else if a = b ∨ b = c then 2 else 1

/-- Six of the 36 lines (ccsd_t.py:132-172): `ijk,ijk` of `wabc`, `ikj` of `wacb`, `jik` of `wbac`, `jki` of `wbca`, `kij` of `wcab`, `kji` of `wcba`, all
with `zabc`. The other five groups are the same with other letters. -/
def six {o v : Type} [Fintype o] (w : v → v → v → o → o → o → K) (z : o → o → o → K) (a b c : v) : K :=
  ∑ i, ∑ j, ∑ k, (w a b c i j k + w a c b i k j + w b a c j i k + w b c a j k i + w c a b k i j + w c b a k j i) * z i j k

/-- The argument `project`. -/
inductive Target where
  | w
  | z

/-- The body of the loop (ccsd_t.py:82-172). The denominators `d` are those of the loop indices. -/
def Ham.body (h : Ham o v K) (cfc : o → o → K) (p : Target) (d : o → o → o → K) (a b c : v) : K :=
  let z (a b c : v) : o → o → o → K := fun i j k => r3 (fun i j k => h.getW a b c i j k + 1 / 2 * h.getV a b c i j k) i j k / d i j k
  let w' : v → v → v → o → o → o → K := match p with
    | .w => fun a b c => symProj cfc (h.getW a b c)
    | .z => h.getW
  let z' : v → v → v → o → o → o → K := match p with
    | .w => z
    | .z => fun a b c => symProj cfc (z a b c)
  six w' (z' a b c) a b c + six w' (z' a c b) a c b + six w' (z' b a c) b a c + six w' (z' b c a) b c a + six w' (z' c a b) c a b +
    six w' (z' c b a) c b a

/-- The loop over `a >= b >= c` (ccsd_t.py:78-174). -/
def Ham.energy [LinearOrder v] (h : Ham o v K) (cfc : o → o → K) (p : Target) : K :=
  2 * ∑ a, ∑ b ∈ Finset.univ.filter (· ≤ a), ∑ c ∈ Finset.univ.filter (· ≤ b), h.body cfc p (fun i j k => h.d3 a b c i j k * mult a b c) a b c

/-- `calc_fragment_rccsd_t_energy` (ccsd_t.py:13-176) for given amplitudes and integrals. `t2Given` tells if the argument `t2` was passed: then `t2T` is never
set and the first use raises UnboundLocalError, a kind of NameError. Without virtual orbitals nothing is evaluated. -/
def Ham.rccsdT [LinearOrder v] (h : Ham o v K) (cfc : o → o → K) (project : String) (t2Given : Bool) : Except PyErr K :=
  if Fintype.card v = 0 then .ok (h.energy cfc .w)
  else if t2Given then .error .nameError
  else if project = "w" then .ok (h.energy cfc .w)
  else if project = "z" then .ok (h.energy cfc .z)
  else .error .notImplementedError

/-- Mean-field data: overlap, Fock matrix `get_fock(with_exxdiv=True)`, bare two-electron integrals in the AO basis, molecular orbitals, number of primitive
cells. -/
structure Sys (ι o v K : Type) where
  ovlp : ι → ι → K
  fock : ι → ι → K
  eri : ι → ι → ι → ι → K
  moOcc : ι → o → K
  moVir : ι → v → K
  ncells : K

/-- Integrals over four sets of orbitals, blocks of `get_eris_bare`. -/
def trafo {m n p q : Type} (g : ι → ι → ι → ι → K) (c₁ : ι → m → K) (c₂ : ι → n → K) (c₃ : ι → p → K) (c₄ : ι → q → K) : m → n → p → q → K :=
  L1 (tp c₁) (L2 (tp c₂) (L3 (tp c₃) (L4 (tp c₄) g)))

/-- The input of the energy for given occupied and virtual orbitals (ccsd_t.py:41-56; hamiltonian.py:130-152, 378-393). No external potential, no screened
interaction. -/
def Sys.ham {co cv : Type} (s : Sys ι o v K) (cOcc : ι → co → K) (cVir : ι → cv → K) (t1 : T1 co cv K) (t2 : T2 co co cv cv K) : Ham co cv K where
  t1 := t1
  t2 := t2
  fvo := mm (tp cVir) (mm s.fock cOcc)
  eo := fun i => mm (tp cOcc) (mm s.fock cOcc) i i
  ev := fun a => mm (tp cVir) (mm s.fock cVir) a a
  ovvv := trafo s.eri cOcc cVir cVir cVir
  ovoo := trafo s.eri cOcc cVir cOcc cOcc
  ovov := trafo s.eri cOcc cVir cOcc cVir

/-- A fragment: fragment and active cluster orbitals, the amplitudes of `results.wf.as_ccsd()`, the number of fragments it stands for
(`symmetry_factor`), whether it has no symmetry parent, whether it contributes. -/
structure Frag (ι K : Type) where
  {f : Type}
  {co : Type}
  {cv : Type}
  [ff : Fintype f]
  [fo : Fintype co]
  [fv : Fintype cv]
  [ord : LinearOrder cv]
  cFrag : ι → f → K
  cOcc : ι → co → K
  cVir : ι → cv → K
  t1 : T1 co cv K
  t2 : T2 co co cv cv K
  symmetryFactor : Nat
  root : Bool
  contributes : Bool

attribute [instance] Frag.ff Frag.fo Frag.fv Frag.ord

/-- `cf @ cf.T` with `cf = get_overlap('cluster[occ]|frag[occ]')` (ccsd_t.py:69-70); a key with "frag" gives the fragment orbitals
(core/qemb/fragment.py:331-333). -/
def Frag.cfc (s : Sys ι o v K) (x : Frag ι K) : x.co → x.co → K :=
  let cf := mm (tp x.cOcc) (mm s.ovlp x.cFrag)
  mm cf (tp cf)

/-- The singles (ccsd_t.py:25-33): those of the global wave function, in cluster orbitals, or those of the cluster. -/
def Frag.singles (s : Sys ι o v K) (x : Frag ι K) (t1 : Option (T1 o v K)) : T1 x.co x.cv K :=
  match t1 with
  | none => x.t1
  | some t1 => mm (tp (mm (tp s.moOcc) (mm s.ovlp x.cOcc))) (mm t1 (mm (tp s.moVir) (mm s.ovlp x.cVir)))

/-- The energy of a fragment, as called by `get_ccsd_t_corr_energy`. -/
def Frag.ccsdT (s : Sys ι o v K) (x : Frag ι K) (t1 : Option (T1 o v K)) (project : String) : Except PyErr K :=
  (s.ham x.cOcc x.cVir (x.singles s t1) x.t2).rccsdT (x.cfc s) project false

/-- What the assembly of global amplitudes reads from a fragment (amplitudes.py:20-40). -/
def Frag.toAmp (s : Sys ι o v K) (x : Frag ι K) : Amplitudes.Frag o v K where
  ro := mm (tp s.moOcc) (mm s.ovlp x.cOcc)
  rv := mm (tp s.moVir) (mm s.ovlp x.cVir)
  pwf := .ccsd (RCcsd.project (mm (tp x.cFrag) (mm s.ovlp x.cOcc)) x.t1 x.t2 none none)

/-- `EWF.get_ccsd_t_corr_energy` (ewf.py:351-363) in one MPI process; `globalT1` is the keyword argument `global_t1`. -/
def ccsdTCorrEnergy (s : Sys ι o v K) (project : String) (glob : Bool) (l : List (Frag ι K)) : Except PyErr K := do
  let e ← EwfRdm.accumulate (fun x : Frag ι K => do
    let t1 ← bif glob then (globalT1 false ((l.filter fun y => y.contributes).map (Frag.toAmp s))).map some else pure none
    let e ← x.ccsdT s t1 project
    pure ((x.symmetryFactor : K) * e)) (l.filter fun x => x.contributes && x.root)
  pure (e / s.ncells)

/-- The signature `calc_fragment_ccsd_t_energy(fragment, **kwargs)` (ccsd_t.py:5-11): with more than one positional argument Python raises TypeError. -/
def calcFragment (positional : Nat) (e : Except PyErr K) : Except PyErr K := if positional = 1 then e else .error .typeError

/-- The part of `Fragment.kernel` for the option `calc_e_ccsd_t_corr` (fragment.py:307-308): the call has three positional arguments. -/
def kernelTriples (option : Bool) (e : Except PyErr K) : Except PyErr (Option K) := if option then (calcFragment 3 e).map some else .ok none

/-! ## Unrestricted -/

/-- Input of the unrestricted energy (ccsd_t.py:216-262). Lower case for alpha, upper case for beta; `eia` and `eIA` are differences of orbital energies. -/
structure UHam (oa ob va vb K : Type) where
  t1a : T1 oa va K
  t1b : T1 ob vb K
  t2aa : T2 oa oa va va K
  t2ab : T2 oa ob va vb K
  t2bb : T2 ob ob vb vb K
  fvo : va → oa → K
  fVO : vb → ob → K
  eoa : oa → K
  eob : ob → K
  eva : va → K
  evb : vb → K
  ovvv : oa → va → va → va → K
  OVVV : ob → vb → vb → vb → K
  ovVV : oa → va → vb → vb → K
  OVvv : ob → vb → va → va → K
  ovoo : oa → va → oa → oa → K
  OVOO : ob → vb → ob → ob → K
  ovOO : oa → va → ob → ob → K
  OVoo : ob → vb → oa → oa → K
  ovov : oa → va → oa → va → K
  OVOV : ob → vb → ob → vb → K
  ovOV : oa → va → ob → vb → K

/-- Arrays with three occupied and three virtual axes. -/
abbrev T6 (o₁ o₂ o₃ v₁ v₂ v₃ K : Type) := o₁ → o₂ → o₃ → v₁ → v₂ → v₃ → K

/-- `p6` (ccsd_t.py:190-193): `t.transpose(1,2,0,4,5,3)[i,j,k,a,b,c]` is `t[k,i,j,c,a,b]`. -/
def p6 {o v : Type} (t : T6 o o o v v v K) : T6 o o o v v v K := fun i j k a b c =>
  t i j k a b c + t k i j c a b + t j k i b c a + t i k j a c b + t k j i c b a + t j i k b a c

/-- `r6` (ccsd_t.py:194-197). -/
def r6 {o v : Type} (w : T6 o o o v v v K) : T6 o o o v v v K := fun i j k a b c =>
  w i j k a b c + w j k i a b c + w k i j a b c - w k j i a b c - w i k j a b c - w j i k a b c

/-- `sym_proj` (ccsd_t.py:199-208) with the projectors of the three occupied axes. -/
def usymProj {o₁ o₂ o₃ v₁ v₂ v₃ : Type} [Fintype o₁] [Fintype o₂] [Fintype o₃] (p : o₁ → o₁ → K) (q : o₂ → o₂ → K) (r : o₃ → o₃ → K)
    (t : T6 o₁ o₂ o₃ v₁ v₂ v₃ K) : T6 o₁ o₂ o₃ v₁ v₂ v₃ K := fun i j k a b c =>
  1 / 3 * ((∑ x, p i x * t x j k a b c) + (∑ x, q j x * t i x k a b c) + ∑ x, r k x * t i j x a b c)

/-- `einsum('ijkabc,ijkabc', x, y)`. -/
def dot6 {o₁ o₂ o₃ v₁ v₂ v₃ : Type} [Fintype o₁] [Fintype o₂] [Fintype o₃] [Fintype v₁] [Fintype v₂] [Fintype v₃]
    (x y : T6 o₁ o₂ o₃ v₁ v₂ v₃ K) : K := ∑ i, ∑ j, ∑ k, ∑ a, ∑ b, ∑ c, x i j k a b c * y i j k a b c

/-- The argument `project` of the unrestricted function. -/
inductive UTarget where
  | w
  | r

section
variable {oa ob va vb : Type} [Fintype oa] [Fintype ob] [Fintype va] [Fintype vb]

/-- `einsum(x, y)` with one of both arrays projected (ccsd_t.py:275-280, 330-335). -/
def uPair {o₁ o₂ o₃ v₁ v₂ v₃ : Type} [Fintype o₁] [Fintype o₂] [Fintype o₃] [Fintype v₁] [Fintype v₂] [Fintype v₃] (u : UTarget)
    (p : o₁ → o₁ → K) (q : o₂ → o₂ → K) (r : o₃ → o₃ → K) (x y : T6 o₁ o₂ o₃ v₁ v₂ v₃ K) : K :=
  match u with
  | .w => dot6 (usymProj p q r x) y
  | .r => dot6 x (usymProj p q r y)

/-- The part "aaa" (ccsd_t.py:264-280). -/
def UHam.aaa (h : UHam oa ob va vb K) (u : UTarget) (p : oa → oa → K) : K :=
  let w : T6 oa oa oa va va va K := fun i j k a b c => (∑ e, h.t2aa i j a e * h.ovvv k c e b) - ∑ m, h.t2aa m k b c * h.ovoo i a j m
  let v : T6 oa oa oa va va va K := fun i j k a b c => h.ovov j b k c * h.t1a i a + h.t2aa j k b c * h.fvo a i * (1 / 2)
  let wvd : T6 oa oa oa va va va K := fun i j k a b c =>
    p6 (fun i j k a b c => w i j k a b c + v i j k a b c) i j k a b c / (h.eoa i - h.eva a + (h.eoa j - h.eva b) + (h.eoa k - h.eva c))
  uPair u p p p wvd (r6 w)

/-- The part "bbb" (ccsd_t.py:282-297). -/
def UHam.bbb (h : UHam oa ob va vb K) (u : UTarget) (p : ob → ob → K) : K :=
  let w : T6 ob ob ob vb vb vb K := fun i j k a b c => (∑ e, h.t2bb i j a e * h.OVVV k c e b) - ∑ m, h.t2bb i m a b * h.OVOO k c j m
  let v : T6 ob ob ob vb vb vb K := fun i j k a b c => h.OVOV j b k c * h.t1b i a + h.t2bb j k b c * h.fVO a i * (1 / 2)
  let wvd : T6 ob ob ob vb vb vb K := fun i j k a b c =>
    p6 (fun i j k a b c => w i j k a b c + v i j k a b c) i j k a b c / (h.eob i - h.evb a + (h.eob j - h.evb b) + (h.eob k - h.evb c))
  uPair u p p p wvd (r6 w)

/-- `r = w - w.transpose(0,2,1,3,4,5)`, `r = r + r.transpose(0,2,1,3,5,4)` (ccsd_t.py:306-307). -/
def r2 {o₁ o v₁ v : Type} (w : T6 o₁ o o v₁ v v K) : T6 o₁ o o v₁ v v K := fun i j k a b c =>
  (w i j k a b c - w i k j a b c) + (w i k j a c b - w i j k a c b)

/-- The part "baa" (ccsd_t.py:299-324). -/
def UHam.baa (h : UHam oa ob va vb K) (u : UTarget) (pa : oa → oa → K) (pb : ob → ob → K) : K :=
  let w : T6 ob oa oa vb va va K := fun I j k A b c =>
    (∑ e, h.t2ab j I e A * h.ovvv k c e b) * 2 + (∑ E, h.t2ab j I b E * h.ovVV k c E A) * 2 + (∑ e, h.t2aa j k b e * h.OVvv I A e c) -
    (∑ m, h.t2ab m I b A * h.ovoo k c j m) * 2 - (∑ M, h.t2ab j M b A * h.ovOO k c I M) * 2 - ∑ m, h.t2aa j m b c * h.OVoo I A k m
  let v : T6 ob oa oa vb va va K := fun I j k A b c =>
    h.ovov j b k c * h.t1b I A + h.ovOV k c I A * h.t1a j b + h.ovOV k c I A * h.t1a j b + h.t2aa j k b c * h.fVO A I * (1 / 2) +
    h.t2ab k I c A * h.fvo b j * 2
  let r : T6 ob oa oa vb va va K := fun I j k A b c => r2 w I j k A b c / (h.eob I - h.evb A + (h.eoa j - h.eva b) + (h.eoa k - h.eva c))
  uPair u pb pa pa (fun I j k A b c => w I j k A b c + v I j k A b c) r

/-- The part "bba" (ccsd_t.py:326-351), projected with `'abb'`. -/
def UHam.bba (h : UHam oa ob va vb K) (u : UTarget) (pa : oa → oa → K) (pb : ob → ob → K) : K :=
  let w : T6 oa ob ob va vb vb K := fun i j k a b c =>
    (∑ e, h.t2ab i j a e * h.OVVV k c e b) * 2 + (∑ e, h.t2ab i j e b * h.OVvv k c e a) * 2 + (∑ e, h.t2bb j k b e * h.ovVV i a e c) -
    (∑ m, h.t2ab i m a b * h.OVOO k c j m) * 2 - (∑ m, h.t2ab m j a b * h.OVoo k c i m) * 2 - ∑ m, h.t2bb j m b c * h.ovOO i a k m
  let v : T6 oa ob ob va vb vb K := fun i j k a b c =>
    h.OVOV j b k c * h.t1a i a + h.ovOV i a k c * h.t1b j b + h.ovOV i a k c * h.t1b j b + h.t2bb j k b c * h.fvo a i * (1 / 2) +
    h.t2ab i k a c * h.fVO b j * 2
  let r : T6 oa ob ob va vb vb K := fun i j k a b c => r2 w i j k a b c / (h.eoa i - h.eva a + (h.eob j - h.evb b) + (h.eob k - h.evb c))
  uPair u pa pb pb (fun i j k a b c => w i j k a b c + v i j k a b c) r

/-- The sum of the four parts (ccsd_t.py:353-354). -/
def UHam.energy (h : UHam oa ob va vb K) (u : UTarget) (pa : oa → oa → K) (pb : ob → ob → K) : K :=
  (h.aaa u pa + h.bbb u pb + h.baa u pa pb + h.bba u pa pb) * (1 / 4)

/-- `calc_fragment_uccsd_t_energy` (ccsd_t.py:185-354) for given amplitudes and integrals. `erisGiven` tells if the argument `eris` was passed: the module `numpy`
is only known as `np`, so NameError. -/
def UHam.uccsdT (h : UHam oa ob va vb K) (pa : oa → oa → K) (pb : ob → ob → K) (project : String) (erisGiven : Bool) : Except PyErr K :=
  if erisGiven then .error .nameError
  else if project = "w" then .ok (h.energy .w pa pb)
  else if project = "r" then .ok (h.energy .r pa pb)
  else .error .notImplementedError

end

end Vayesta.CcsdT
