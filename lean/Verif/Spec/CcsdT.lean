import Verif.Model.CcsdT
import Verif.Spec.EwfEnergy

/-! Specification of the perturbative triples energy: the closed-shell expression of Rendell, Lee and Komornicki (Chem. Phys. Lett. 178, 462 (1991)) and
the spin-orbital expression of Raghavachari et al.; clusters that span the whole space. -/

namespace Vayesta.CcsdT
open Vayesta.Amplitudes Vayesta.Tensor

variable {K : Type} [Field K] {ι o v : Type} [Fintype ι] [Fintype o] [Fintype v]

/-- Sum over the six permutations of the pairs `(i, a)`, `(j, b)`, `(k, c)`. -/
def pairSum {o v : Type} (t : T6 o o o v v v K) : T6 o o o v v v K := fun i j k a b c =>
  t i j k a b c + t i k j a c b + t j i k b a c + t j k i b c a + t k i j c a b + t k j i c b a

/-- Connected triples, times the denominator: `W_ijk^abc = P [ Σ_d (ia|bd) t_kj^cd - Σ_l (ia|jl) t_lk^bc ]`. -/
def Ham.conn (h : Ham o v K) : T6 o o o v v v K :=
  pairSum fun i j k a b c => (∑ d, h.ovvv i a b d * h.t2 k j c d) - ∑ l, h.ovoo i a j l * h.t2 l k b c

/-- Disconnected triples, times the denominator: `(ia|jb) t_k^c + (ia|kc) t_j^b + (jb|kc) t_i^a`, and the same with the Fock matrix. -/
def Ham.disc {o v : Type} (h : Ham o v K) : T6 o o o v v v K := fun i j k a b c =>
  h.ovov i a j b * h.t1 k c + h.ovov i a k c * h.t1 j b + h.ovov j b k c * h.t1 i a +
    (h.t2 i j a b * h.fvo c k + h.t2 i k a c * h.fvo b j + h.t2 j k b c * h.fvo a i)

/-- `E(T) = 1/3 Σ (4 W^abc + W^bca + W^cab) (V^abc - V^cba) / D` with `V = W + disconnected` and `D = e_i + e_j + e_k - e_a - e_b - e_c`. -/
def Ham.triplesEnergy (h : Ham o v K) : K :=
  1 / 3 * ∑ i, ∑ j, ∑ k, ∑ a, ∑ b, ∑ c,
    (4 * h.conn i j k a b c + h.conn i j k b c a + h.conn i j k c a b) *
      (h.conn i j k a b c + h.disc i j k a b c - (h.conn i j k c b a + h.disc i j k c b a)) /
      (h.eo i + h.eo j + h.eo k - h.ev a - h.ev b - h.ev c)

/-- The input of the triples energy of the whole system, in its molecular orbitals. -/
def Sys.mos (s : Sys ι o v K) (t1 : T1 o v K) (t2 : T2 o o v v K) : Ham o v K := s.ham s.moOcc s.moVir t1 t2

/-- Orbitals are canonical: the occupied and the virtual block of the Fock matrix are diagonal. -/
def Canonical {m : Type} (s : Sys ι o v K) (c : ι → m → K) : Prop := ∀ i j, i ≠ j → mm (tp c) (mm s.fock c) i j = 0

/-- The overlap is symmetric, the orbitals are orthonormal. -/
structure Orthonormal [DecidableEq o] [DecidableEq v] (s : Sys ι o v K) : Prop where
  symm : tp s.ovlp = s.ovlp
  occ : mm (tp s.moOcc) (mm s.ovlp s.moOcc) = delta
  vir : mm (tp s.moVir) (mm s.ovlp s.moVir) = delta

/-- The integrals of real orbitals. -/
structure RealIntegrals (g : ι → ι → ι → ι → K) : Prop where
  swap : ∀ p q r t, g r t p q = g p q r t
  real : ∀ p q r t, g p q t r = g p q r t

/-- The cluster orbitals are canonical and span the occupied and the virtual space of the whole system, and the amplitudes of the cluster are those of the whole
system. -/
structure Exact [DecidableEq o] [DecidableEq v] (s : Sys ι o v K) (t1 : T1 o v K) (t2 : T2 o o v v K) (x : Frag ι K) (ro : o → x.co → K) (rv : v → x.cv → K) :
    Prop where
  occ : x.cOcc = mm s.moOcc ro
  vir : x.cVir = mm s.moVir rv
  spanOcc : mm ro (tp ro) = delta
  spanVir : mm rv (tp rv) = delta
  canOcc : Canonical s x.cOcc
  canVir : Canonical s x.cVir
  t1 : x.t1 = EwfEnergy.restrict1 ro rv t1
  t2 : x.t2 = EwfEnergy.restrict2 ro rv t2

/-- The fragments partition the occupied space. -/
def Partitions (s : Sys ι o v K) (l : List (Frag ι K)) : Prop := ∀ i j : o,
  (i = j → (l.map fun x => ∑ y, mm (tp s.moOcc) (mm s.ovlp x.cFrag) i y * mm (tp s.moOcc) (mm s.ovlp x.cFrag) j y).sum = 1) ∧
  (i ≠ j → (l.map fun x => ∑ y, mm (tp s.moOcc) (mm s.ovlp x.cFrag) i y * mm (tp s.moOcc) (mm s.ovlp x.cFrag) j y).sum = 0)

/-- The image of a fragment under an operation on the AOs: rotated orbitals, same amplitudes. -/
def Frag.image (U : ι → ι → K) (x : Frag ι K) : Frag ι K :=
  { x with cFrag := mm U x.cFrag, cOcc := mm U x.cOcc, cVir := mm U x.cVir }

/-- The operation leaves overlap, Fock matrix and interaction unchanged. -/
structure Leaves (U : ι → ι → K) (s : Sys ι o v K) : Prop where
  ovlp : mm (tp U) (mm s.ovlp U) = s.ovlp
  fock : mm (tp U) (mm s.fock U) = s.fock
  eri : ∀ p q r t, ∑ p', ∑ q', ∑ r', ∑ t', U p' p * (U q' q * (U r' r * (U t' t * s.eri p' q' r' t'))) = s.eri p q r t

/-- Symmetries of the integrals and of the amplitudes. -/
structure Ham.Real {o v : Type} (h : Ham o v K) : Prop where
  ovvv : ∀ i a b c, h.ovvv i a c b = h.ovvv i a b c
  ovov : ∀ i a j b, h.ovov j b i a = h.ovov i a j b
  t2 : ∀ i j a b, h.t2 j i b a = h.t2 i j a b

/-- Rotation of an array with four axes. -/
def rot4 {M₁ M₂ M₃ M₄ m₁ m₂ m₃ m₄ : Type} [Fintype M₁] [Fintype M₂] [Fintype M₃] [Fintype M₄] (r₁ : M₁ → m₁ → K) (r₂ : M₂ → m₂ → K) (r₃ : M₃ → m₃ → K)
    (r₄ : M₄ → m₄ → K) (g : M₁ → M₂ → M₃ → M₄ → K) : m₁ → m₂ → m₃ → m₄ → K := L1 (tp r₁) (L2 (tp r₂) (L3 (tp r₃) (L4 (tp r₄) g)))

/-- Amplitudes and integrals in rotated orbitals, with unchanged orbital energies. -/
structure Rotated {O V o v : Type} [Fintype O] [Fintype V] (h : Ham O V K) (h' : Ham o v K) (ro : O → o → K) (rv : V → v → K) : Prop where
  t1 : ∀ i a, h'.t1 i a = ∑ I, ro I i * ∑ A, rv A a * h.t1 I A
  t2 : h'.t2 = rot4 ro ro rv rv h.t2
  fvo : ∀ a i, h'.fvo a i = ∑ A, rv A a * ∑ I, ro I i * h.fvo A I
  ovvv : h'.ovvv = rot4 ro rv rv rv h.ovvv
  ovoo : h'.ovoo = rot4 ro rv ro ro h.ovoo
  ovov : h'.ovov = rot4 ro rv ro rv h.ovov
  eo : ∀ I i, ro I i ≠ 0 → h.eo I = h'.eo i
  ev : ∀ A a, rv A a ≠ 0 → h.ev A = h'.ev a

end Vayesta.CcsdT
