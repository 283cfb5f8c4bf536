import Verif.Spec.CcsdT
import Verif.Model.CcsdTU
import Mathlib.Data.Fintype.Sum
import Mathlib.Algebra.BigOperators.Ring.Finset

/-! Specification of the unrestricted perturbative triples energy: the spin-orbital expression of Raghavachari et al. (Chem. Phys. Lett. 157, 479 (1989)) in the
notation of Crawford and Schaefer. -/

namespace Vayesta.CcsdT
open Vayesta.Amplitudes Vayesta.Tensor

variable {K : Type} [Field K] {oa ob va vb : Type}

/-- `P(i/jk) P(a/bc)`, where `P(i/jk) f(ijk) = f(ijk) - f(jik) - f(kji)`. -/
def antiPerm {o v : Type} (f : T6 o o o v v v K) : T6 o o o v v v K := fun i j k a b c =>
  f i j k a b c - f j i k a b c - f k j i a b c - (f i j k b a c - f j i k b a c - f k j i b a c) - (f i j k c b a - f j i k c b a - f k j i c b a)

/-- Connected triples of spin orbitals, times the denominator: `P(i/jk) P(a/bc) [ Σ_e t_jk^ae <ei||bc> - Σ_m t_im^bc <ma||jk> ]`. -/
def Ham.soConn {o v : Type} [Fintype o] [Fintype v] (h : Ham o v K) : T6 o o o v v v K :=
  antiPerm fun i j k a b c => (∑ e, h.t2 j k a e * (h.ovvv i c e b - h.ovvv i b e c)) - ∑ m, h.t2 i m b c * (h.ovoo k a m j - h.ovoo j a m k)

/-- Disconnected triples of spin orbitals, times the denominator: `P(i/jk) P(a/bc) [ t_i^a <jk||bc> + f_ai t_jk^bc ]`. -/
def Ham.soDisc {o v : Type} (h : Ham o v K) : T6 o o o v v v K :=
  antiPerm fun i j k a b c => h.t1 i a * (h.ovov j b k c - h.ovov j c k b) + h.fvo a i * h.t2 j k b c

/-- `E(T) = 1/36 Σ W (W + V) / D` over spin orbitals. -/
def Ham.soTriples {o v : Type} [Fintype o] [Fintype v] (h : Ham o v K) : K :=
  1 / 36 * ∑ i, ∑ j, ∑ k, ∑ a, ∑ b, ∑ c, h.soConn i j k a b c * (h.soConn i j k a b c + h.soDisc i j k a b c) /
    (h.eo i + h.eo j + h.eo k - h.ev a - h.ev b - h.ev c)

/-- A matrix over spin orbitals that does not mix spins. -/
def spin2 {m m' n n' : Type} (f : m → n → K) (g : m' → n' → K) : m ⊕ m' → n ⊕ n' → K
  | .inl i, .inl j => f i j
  | .inr i, .inr j => g i j
  | _, _ => 0

/-- Integrals over spin orbitals: the first two and the last two have the same spin. -/
def spin4 {m m' n n' p p' q q' : Type} (aa : m → n → p → q → K) (ab : m → n → p' → q' → K) (ba : m' → n' → p → q → K) (bb : m' → n' → p' → q' → K) :
    m ⊕ m' → n ⊕ n' → p ⊕ p' → q ⊕ q' → K
  | .inl i, .inl j, .inl k, .inl l => aa i j k l
  | .inl i, .inl j, .inr k, .inr l => ab i j k l
  | .inr i, .inr j, .inl k, .inl l => ba i j k l
  | .inr i, .inr j, .inr k, .inr l => bb i j k l
  | _, _, _, _ => 0

/-- Antisymmetric amplitudes over spin orbitals. -/
def spinT2 (aa : T2 oa oa va va K) (ab : T2 oa ob va vb K) (bb : T2 ob ob vb vb K) : T2 (oa ⊕ ob) (oa ⊕ ob) (va ⊕ vb) (va ⊕ vb) K
  | .inl i, .inl j, .inl a, .inl b => aa i j a b
  | .inl i, .inr j, .inl a, .inr b => ab i j a b
  | .inl i, .inr j, .inr b, .inl a => -ab i j a b
  | .inr j, .inl i, .inl a, .inr b => -ab i j a b
  | .inr j, .inl i, .inr b, .inl a => ab i j a b
  | .inr i, .inr j, .inr a, .inr b => bb i j a b
  | _, _, _, _ => 0

/-- The input in spin orbitals. -/
def UHam.so (h : UHam oa ob va vb K) : Ham (oa ⊕ ob) (va ⊕ vb) K where
  t1 := spin2 h.t1a h.t1b
  t2 := spinT2 h.t2aa h.t2ab h.t2bb
  fvo := spin2 h.fvo h.fVO
  eo := Sum.elim h.eoa h.eob
  ev := Sum.elim h.eva h.evb
  ovvv := spin4 h.ovvv h.ovVV h.OVvv h.OVVV
  ovoo := spin4 h.ovoo h.ovOO h.OVoo h.OVOO
  ovov := spin4 h.ovov h.ovOV (fun i a j b => h.ovOV j b i a) h.OVOV

/-- Symmetries of amplitudes and integrals. -/
structure UHam.Real (h : UHam oa ob va vb K) : Prop where
  aa : ∀ i j a b, h.t2aa j i a b = -h.t2aa i j a b ∧ h.t2aa i j b a = -h.t2aa i j a b
  bb : ∀ i j a b, h.t2bb j i a b = -h.t2bb i j a b ∧ h.t2bb i j b a = -h.t2bb i j a b
  ovov : ∀ i a j b, h.ovov j b i a = h.ovov i a j b
  OVOV : ∀ i a j b, h.OVOV j b i a = h.OVOV i a j b
  ovoo : ∀ i a j k, h.ovoo i a k j = h.ovoo i a j k
  OVOO : ∀ i a j k, h.OVOO i a k j = h.OVOO i a j k
  ovOO : ∀ i a j k, h.ovOO i a k j = h.ovOO i a j k
  OVoo : ∀ i a j k, h.OVoo i a k j = h.OVoo i a j k

/-- Amplitudes and integrals in rotated orbitals of each spin, with unchanged orbital energies. -/
structure URotated {Oa Ob Va Vb : Type} [Fintype Oa] [Fintype Ob] [Fintype Va] [Fintype Vb] (h : UHam Oa Ob Va Vb K) (h' : UHam oa ob va vb K)
    (roa : Oa → oa → K) (rob : Ob → ob → K) (rva : Va → va → K) (rvb : Vb → vb → K) : Prop where
  t1a : ∀ i a, h'.t1a i a = ∑ I, roa I i * ∑ A, rva A a * h.t1a I A
  t1b : ∀ i a, h'.t1b i a = ∑ I, rob I i * ∑ A, rvb A a * h.t1b I A
  t2aa : h'.t2aa = rot4 roa roa rva rva h.t2aa
  t2ab : h'.t2ab = rot4 roa rob rva rvb h.t2ab
  t2bb : h'.t2bb = rot4 rob rob rvb rvb h.t2bb
  fvo : ∀ a i, h'.fvo a i = ∑ A, rva A a * ∑ I, roa I i * h.fvo A I
  fVO : ∀ a i, h'.fVO a i = ∑ A, rvb A a * ∑ I, rob I i * h.fVO A I
  ovvv : h'.ovvv = rot4 roa rva rva rva h.ovvv
  OVVV : h'.OVVV = rot4 rob rvb rvb rvb h.OVVV
  ovVV : h'.ovVV = rot4 roa rva rvb rvb h.ovVV
  OVvv : h'.OVvv = rot4 rob rvb rva rva h.OVvv
  ovoo : h'.ovoo = rot4 roa rva roa roa h.ovoo
  OVOO : h'.OVOO = rot4 rob rvb rob rob h.OVOO
  ovOO : h'.ovOO = rot4 roa rva rob rob h.ovOO
  OVoo : h'.OVoo = rot4 rob rvb roa roa h.OVoo
  ovov : h'.ovov = rot4 roa rva roa rva h.ovov
  OVOV : h'.OVOV = rot4 rob rvb rob rvb h.OVOV
  ovOV : h'.ovOV = rot4 roa rva rob rvb h.ovOV
  eoa : ∀ I i, roa I i ≠ 0 → h.eoa I = h'.eoa i
  eob : ∀ I i, rob I i ≠ 0 → h.eob I = h'.eob i
  eva : ∀ A a, rva A a ≠ 0 → h.eva A = h'.eva a
  evb : ∀ A a, rvb A a ≠ 0 → h.evb A = h'.evb a

/-- The input of a closed-shell system, written for both spins. -/
def Ham.closedShell {o v : Type} (h : Ham o v K) : UHam o o v v K where
  t1a := h.t1
  t1b := h.t1
  t2aa := fun i j a b => h.t2 i j a b - h.t2 i j b a
  t2ab := h.t2
  t2bb := fun i j a b => h.t2 i j a b - h.t2 i j b a
  fvo := h.fvo
  fVO := h.fvo
  eoa := h.eo
  eob := h.eo
  eva := h.ev
  evb := h.ev
  ovvv := h.ovvv
  OVVV := h.ovvv
  ovVV := h.ovvv
  OVvv := h.ovvv
  ovoo := h.ovoo
  OVOO := h.ovoo
  ovOO := h.ovoo
  OVoo := h.ovoo
  ovov := h.ovov
  OVOV := h.ovov
  ovOV := h.ovov

/-! ## Systems and clusters -/

section
variable {ι : Type} [Fintype ι] [Fintype oa] [Fintype ob] [Fintype va] [Fintype vb]

/-- Amplitudes of the whole system. -/
structure UAmp (oa ob va vb K : Type) where
  t1a : T1 oa va K
  t1b : T1 ob vb K
  t2aa : T2 oa oa va va K
  t2ab : T2 oa ob va vb K
  t2bb : T2 ob ob vb vb K

/-- The input of the triples energy of the whole system, in its molecular orbitals. -/
def USys.mos (s : USys ι oa ob va vb K) (t : UAmp oa ob va vb K) : UHam oa ob va vb K :=
  s.ham s.moOccA s.moOccB s.moVirA s.moVirB t.t1a t.t1b t.t2aa t.t2ab t.t2bb

/-- The Fock matrix is diagonal in the given orbitals. -/
def Diagonal {m : Type} (f : ι → ι → K) (c : ι → m → K) : Prop := ∀ i j, i ≠ j → mm (tp c) (mm f c) i j = 0

/-- The molecular orbitals of both spins are canonical. -/
structure UCanonical {oa ob va vb : Type} (s : USys ι oa ob va vb K) : Prop where
  occA : Diagonal s.focka s.moOccA
  occB : Diagonal s.fockb s.moOccB
  virA : Diagonal s.focka s.moVirA
  virB : Diagonal s.fockb s.moVirB

/-- The cluster orbitals are canonical and span the occupied and the virtual space of both spins of the whole system, and the amplitudes of the cluster are those
of the whole system. -/
structure UExact [DecidableEq oa] [DecidableEq ob] [DecidableEq va] [DecidableEq vb] (s : USys ι oa ob va vb K) (t : UAmp oa ob va vb K) (x : UFrag ι K)
    (roa : oa → x.coa → K) (rob : ob → x.cob → K) (rva : va → x.cva → K) (rvb : vb → x.cvb → K) : Prop where
  occA : x.cOccA = mm s.moOccA roa
  occB : x.cOccB = mm s.moOccB rob
  virA : x.cVirA = mm s.moVirA rva
  virB : x.cVirB = mm s.moVirB rvb
  spanOccA : mm roa (tp roa) = delta
  spanOccB : mm rob (tp rob) = delta
  spanVirA : mm rva (tp rva) = delta
  spanVirB : mm rvb (tp rvb) = delta
  canOccA : Diagonal s.focka x.cOccA
  canOccB : Diagonal s.fockb x.cOccB
  canVirA : Diagonal s.focka x.cVirA
  canVirB : Diagonal s.fockb x.cVirB
  t1a : x.t1a = EwfEnergy.restrict1 roa rva t.t1a
  t1b : x.t1b = EwfEnergy.restrict1 rob rvb t.t1b
  t2aa : ∀ i j a b, x.t2aa i j a b = ∑ I, ∑ J, ∑ A, ∑ B, roa I i * roa J j * rva A a * rva B b * t.t2aa I J A B
  t2ab : ∀ i j a b, x.t2ab i j a b = ∑ I, ∑ J, ∑ A, ∑ B, roa I i * rob J j * rva A a * rvb B b * t.t2ab I J A B
  t2bb : ∀ i j a b, x.t2bb i j a b = ∑ I, ∑ J, ∑ A, ∑ B, rob I i * rob J j * rvb A a * rvb B b * t.t2bb I J A B

/-- A list of sets of orbitals partitions the space of given orbitals. -/
def PartitionsOf {X : Type*} {m : Type} (c : ι → m → K) (ovlp : ι → ι → K) (n : X → Type) [∀ x, Fintype (n x)] (d : ∀ x, ι → n x → K) (l : List X) : Prop := ∀ i j : m,
  (i = j → (l.map fun x => ∑ y, mm (tp c) (mm ovlp (d x)) i y * mm (tp c) (mm ovlp (d x)) j y).sum = 1) ∧
  (i ≠ j → (l.map fun x => ∑ y, mm (tp c) (mm ovlp (d x)) i y * mm (tp c) (mm ovlp (d x)) j y).sum = 0)

/-- The image of a fragment under an operation on the AOs: rotated orbitals, same amplitudes. -/
def UFrag.image (U : ι → ι → K) (x : UFrag ι K) : UFrag ι K :=
  { x with cFragA := mm U x.cFragA, cFragB := mm U x.cFragB, cOccA := mm U x.cOccA, cOccB := mm U x.cOccB, cVirA := mm U x.cVirA, cVirB := mm U x.cVirB }

/-- The operation leaves overlap, Fock matrices and interaction unchanged. -/
structure ULeaves (U : ι → ι → K) (s : USys ι oa ob va vb K) : Prop where
  ovlp : mm (tp U) (mm s.ovlp U) = s.ovlp
  focka : mm (tp U) (mm s.focka U) = s.focka
  fockb : mm (tp U) (mm s.fockb U) = s.fockb
  eri : ∀ p q r t, ∑ p', ∑ q', ∑ r', ∑ t', U p' p * (U q' q * (U r' r * (U t' t * s.eri p' q' r' t'))) = s.eri p q r t

/-- Antisymmetric amplitudes of equal spins. -/
structure UAmp.Anti {oa ob va vb : Type} (t : UAmp oa ob va vb K) : Prop where
  aa : ∀ i j a b, t.t2aa j i a b = -t.t2aa i j a b ∧ t.t2aa i j b a = -t.t2aa i j a b
  bb : ∀ i j a b, t.t2bb j i a b = -t.t2bb i j a b ∧ t.t2bb i j b a = -t.t2bb i j a b

end

end Vayesta.CcsdT
