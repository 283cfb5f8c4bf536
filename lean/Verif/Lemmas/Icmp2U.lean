import Verif.Lemmas.Icmp2Image
import Verif.Model.Icmp2U

/-! An unrestricted calculation as a restricted one in spin orbitals. -/

set_option linter.unusedSectionVars false

namespace Vayesta.Icmp2
open Vayesta.Tensor

variable {K : Type} [Field K] {ι L N o v o' v' : Type} [Fintype ι] [Fintype L] [Fintype N] [Fintype o] [Fintype v] [Fintype o'] [Fintype v']

/-- A matrix with blocks for both spins. -/
def blocks {a b a' b' : Type} (A : a → b → K) (B : a' → b' → K) : a ⊕ a' → b ⊕ b' → K
  | .inl i, .inl j => A i j
  | .inr i, .inr j => B i j
  | _, _ => 0

theorem mm_blocks {a b c a' b' c' : Type} [Fintype b] [Fintype b'] (A : a → b → K) (A' : a' → b' → K) (B : b → c → K) (B' : b' → c' → K) :
    mm (blocks A A') (blocks B B') = blocks (mm A B) (mm A' B') := by
  funext i j
  cases i <;> cases j <;> simp [mm, blocks, Fintype.sum_sum_type]

theorem tp_blocks {a b a' b' : Type} (A : a → b → K) (A' : a' → b' → K) : tp (blocks A A') = blocks (tp A) (tp A') := by
  funext i j
  cases i <;> cases j <;> rfl

theorem delta_blocks {a a' : Type} [DecidableEq a] [DecidableEq a'] : (delta : a ⊕ a' → a ⊕ a' → K) = blocks delta delta := by
  funext i j
  cases i <;> cases j <;> simp [delta, blocks]

theorem outside_blocks {a b a' b' : Type} [Fintype a] [Fintype a'] [DecidableEq b] [DecidableEq b'] (A : a → b → K) (A' : a' → b' → K) :
    outside (blocks A A') = blocks (outside A) (outside A') := by
  funext i j
  cases i <;> cases j <;> simp [outside, blocks, Fintype.sum_sum_type, delta]

/-- The system in spin orbitals. -/
def Sys.spin (s : Sys ι L N K) : Sys (ι ⊕ ι) L N K := ⟨blocks s.ovlp s.ovlp, fun l => blocks (s.cderi l) (s.cderi l), none, s.ncells, s.hasDf⟩

/-- Orbitals of both spins as spin orbitals. -/
def Chan.spin (x x' : Chan ι K) : Chan (ι ⊕ ι) K where
  f := x.f ⊕ x'.f
  o := x.o ⊕ x'.o
  v := x.v ⊕ x'.v
  a := x.a ⊕ x'.a
  av := x.av ⊕ x'.av
  cProj := blocks x.cProj x'.cProj
  cOcc := blocks x.cOcc x'.cOcc
  cVir := blocks x.cVir x'.cVir
  cActive := blocks x.cActive x'.cActive
  cActiveVir := blocks x.cActiveVir x'.cActiveVir

/-- The other fragment of a pair in spin orbitals. -/
def UPartner.spin (y : UPartner ι L N K) : Partner (ι ⊕ ι) L N K where
  f := y.alpha.f ⊕ y.beta.f
  o := y.alpha.o ⊕ y.beta.o
  v := y.alpha.v ⊕ y.beta.v
  tag := y.alpha.tag
  cProj := blocks y.alpha.cProj y.beta.cProj
  cl := ⟨blocks y.alpha.cl.pFrag y.beta.cl.pFrag, Sum.elim y.alpha.cl.eOcc y.beta.cl.eOcc, Sum.elim y.alpha.cl.eVir y.beta.cl.eVir,
    blocks y.alpha.cl.cVir y.beta.cl.cVir, fun l => blocks (y.alpha.cl.cderi l) (y.beta.cl.cderi l), none⟩

theorem moEnergy_blocks {m m' : Type} (f f' : ι → ι → K) (c : ι → m → K) (c' : ι → m' → K) :
    moEnergy (blocks f f') (blocks c c') = Sum.elim (moEnergy f c) (moEnergy f' c') := by
  funext i
  unfold moEnergy
  rw [tp_blocks, mm_blocks, mm_blocks]
  cases i <;> rfl

/-- Entries of a fragment in spin orbitals. -/
theorem own_spin (s : Sys ι L N K) (f f' : ι → ι → K) (x x' : Chan ι K) :
    (x.spin x').own s.spin (blocks f f') = ⟨blocks (x.own s f).pFrag (x'.own s f').pFrag, Sum.elim (x.own s f).eOcc (x'.own s f').eOcc,
      Sum.elim (x.own s f).eVir (x'.own s f').eVir, blocks (x.own s f).cVir (x'.own s f').cVir, fun l => blocks ((x.own s f).cderi l) ((x'.own s f').cderi l), none⟩ := by
  unfold Chan.own
  congr 1
  · show mm (tp (blocks x.cProj x'.cProj)) (mm (blocks s.ovlp s.ovlp) (blocks x.cOcc x'.cOcc)) = _
    rw [tp_blocks, mm_blocks, mm_blocks]
  · exact moEnergy_blocks f f' x.cOcc x'.cOcc
  · exact moEnergy_blocks f f' x.cVir x'.cVir
  · funext l
    show mm (tp (blocks x.cOcc x'.cOcc)) (mm (blocks (s.cderi l) (s.cderi l)) (blocks x.cVir x'.cVir)) = _
    rw [tp_blocks, mm_blocks, mm_blocks]

/-- Four-index tensor of spin orbitals from its spin blocks. -/
def blocks4 {a b c d a' b' c' d' : Type} (aa : a → b → c → d → K) (ab : a → b' → c → d' → K) (ba : a' → b → c' → d → K) (bb : a' → b' → c' → d' → K) :
    a ⊕ a' → b ⊕ b' → c ⊕ c' → d ⊕ d' → K
  | .inl i, .inl j, .inl k, .inl l => aa i j k l
  | .inl i, .inr j, .inl k, .inr l => ab i j k l
  | .inr i, .inl j, .inr k, .inl l => ba i j k l
  | .inr i, .inr j, .inr k, .inr l => bb i j k l
  | _, _, _, _ => 0

section
variable {p q r t p' q' r' t' : Type} {f g f' g' : Type} [Fintype p] [Fintype q] [Fintype r] [Fintype t] [Fintype p'] [Fintype q'] [Fintype r'] [Fintype t'] [Fintype f] [Fintype g]
  [Fintype f'] [Fintype g']

theorem contract_blocks (x : L → p → r → K) (x' : L → p' → r' → K) (y : L → q → t → K) (y' : L → q' → t' → K) :
    contract (fun l => blocks (x l) (x' l)) (fun l => blocks (y l) (y' l)) = blocks4 (contract x y) (contract x y') (contract x' y) (contract x' y') := by
  funext i j a b
  cases i <;> cases j <;> cases a <;> cases b <;> simp [contract, blocks, blocks4]

/-- A cluster from those of both spins. -/
def Cl.spin (x : Cl ι L N f p r K) (x' : Cl ι L N f' p' r' K) : Cl (ι ⊕ ι) L N (f ⊕ f') (p ⊕ p') (r ⊕ r') K :=
  ⟨blocks x.pFrag x'.pFrag, Sum.elim x.eOcc x'.eOcc, Sum.elim x.eVir x'.eVir, blocks x.cVir x'.cVir, fun l => blocks (x.cderi l) (x'.cderi l), none⟩

theorem divide_blocks (x : Cl ι L N f p r K) (x' : Cl ι L N f' p' r' K) (y : Cl ι L N g q t K) (y' : Cl ι L N g' q' t' K) (aa : p → q → r → t → K) (ab : p → q' → r → t' → K)
    (ba : p' → q → r' → t → K) (bb : p' → q' → r' → t' → K) :
    divide (x.spin x') (y.spin y') (blocks4 aa ab ba bb) = blocks4 (divide x y aa) (divide x y' ab) (divide x' y ba) (divide x' y' bb) := by
  funext i j a b
  cases i <;> cases j <;> cases a <;> cases b <;> simp [divide, blocks4, Cl.spin]

theorem project_blocks (x : Cl ι L N f p r K) (x' : Cl ι L N f' p' r' K) (y : Cl ι L N g q t K) (y' : Cl ι L N g' q' t' K) (aa : p → q → r → t → K) (ab : p → q' → r → t' → K)
    (ba : p' → q → r' → t → K) (bb : p' → q' → r' → t' → K) :
    project (x.spin x') (y.spin y') (blocks4 aa ab ba bb) = blocks4 (project x y aa) (project x y' ab) (project x' y ba) (project x' y' bb) := by
  funext i j a b
  cases i <;> cases j <;> cases a <;> cases b <;>
    simp only [project, blocks4, blocks, Cl.spin, Fintype.sum_sum_type, zero_mul, mul_zero, Finset.sum_const_zero, add_zero, zero_add]

theorem direct_blocks (taa : f → g → r → t → K) (tab : f → g' → r → t' → K) (tba : f' → g → r' → t → K) (tbb : f' → g' → r' → t' → K)
    (aa : f → g → r → t → K) (ab : f → g' → r → t' → K) (ba : f' → g → r' → t → K) (bb : f' → g' → r' → t' → K) (po : g ⊕ g' → g ⊕ g' → K) (pv : t → t → K) (pv' : t' → t' → K)
    (s : r ⊕ r' → t ⊕ t' → K) :
    direct .vir 1 (blocks4 taa tab tba tbb) (blocks4 aa ab ba bb) po (blocks pv pv') s =
      2 * ((∑ i, ∑ j, ∑ a, ∑ b, ∑ b', taa i j a b * aa i j a b' * pv b b') + (∑ i, ∑ j, ∑ a, ∑ b, ∑ b', tab i j a b * ab i j a b' * pv' b b') +
        (∑ i, ∑ j, ∑ a, ∑ b, ∑ b', tba i j a b * ba i j a b' * pv b b') + (∑ i, ∑ j, ∑ a, ∑ b, ∑ b', tbb i j a b * bb i j a b' * pv' b b')) := by
  unfold direct
  dsimp only
  rw [if_pos rfl]
  congr 1
  simp only [Fintype.sum_sum_type, blocks4, blocks, zero_mul, mul_zero, Finset.sum_const_zero, add_zero, zero_add, Finset.sum_add_distrib]
  ring

theorem L4_blocks {u u' : Type} [Fintype u] [Fintype u'] (A : u → t → K) (A' : u' → t' → K) (aa : f → g → r → t → K) (ab : f → g' → r → t' → K) (ba : f' → g → r' → t → K)
    (bb : f' → g' → r' → t' → K) : L4 (blocks A A') (blocks4 aa ab ba bb) = blocks4 (L4 A aa) (L4 A' ab) (L4 A ba) (L4 A' bb) := by
  funext i j a b
  cases i <;> cases j <;> cases a <;> cases b <;>
    simp only [L4, blocks4, blocks, Fintype.sum_sum_type, zero_mul, mul_zero, Finset.sum_const_zero, add_zero, zero_add]

theorem L3_blocks {u u' : Type} [Fintype u] [Fintype u'] (A : u → r → K) (A' : u' → r' → K) (aa : f → g → r → t → K) (ab : f → g' → r → t' → K) (ba : f' → g → r' → t → K)
    (bb : f' → g' → r' → t' → K) : L3 (blocks A A') (blocks4 aa ab ba bb) = blocks4 (L3 A aa) (L3 A ab) (L3 A' ba) (L3 A' bb) := by
  funext i j a b
  cases i <;> cases j <;> cases a <;> cases b <;>
    simp only [L3, blocks4, blocks, Fintype.sum_sum_type, zero_mul, mul_zero, Finset.sum_const_zero, add_zero, zero_add]

theorem dot4_sw_blocks (taa : f → g → r → t → K) (tab : f → g' → r → t' → K) (tba : f' → g → r' → t → K) (tbb : f' → g' → r' → t' → K)
    (aa : f → g → t → r → K) (ab : f → g' → t → r' → K) (ba : f' → g → t' → r → K) (bb : f' → g' → t' → r' → K) :
    dot4 (blocks4 taa tab tba tbb) (sw (blocks4 aa ab ba bb)) = dot4 taa (sw aa) + dot4 tbb (sw bb) := by
  simp only [dot4, sw, Fintype.sum_sum_type, blocks4, zero_mul, mul_zero, Finset.sum_const_zero, add_zero, zero_add]

theorem exchange_blocks [DecidableEq g] [DecidableEq g'] [DecidableEq t] [DecidableEq t'] (taa : f → g → r → t → K) (tab : f → g' → r → t' → K) (tba : f' → g → r' → t → K)
    (tbb : f' → g' → r' → t' → K) (aa : f → g → r → t → K) (ab : f → g' → r → t' → K) (ba : f' → g → r' → t → K) (bb : f' → g' → r' → t' → K) (po : g ⊕ g' → g ⊕ g' → K)
    (pv : t → t → K) (pv' : t' → t' → K) (s : r → t → K) (s' : r' → t' → K) :
    exchange .vir (blocks4 taa tab tba tbb) (blocks4 aa ab ba bb) po (blocks pv pv') (blocks s s') =
      exchange .vir taa aa delta pv s + exchange .vir tbb bb delta pv' s' := by
  rw [exchange_eq, exchange_eq, exchange_eq]
  dsimp only [Dc.selOcc, Dc.selVir]
  rw [tp_blocks, tp_blocks, mm_blocks, L4_blocks, L3_blocks, L2_delta, L2_delta, L2_delta, dot4_sw_blocks]
  ring

/-- `pair` for given clusters. -/
def pairCl {a av : Type} [Fintype a] [Fintype av] [DecidableEq g] [DecidableEq t] (s : Sys ι L N K) (dc : Dc) (vers : Int) (cx : Cl ι L N f p r K) (cAct : ι → a → K) (cActVir : ι → av → K)
    (cP : ι → g → K) (cy : Cl ι L N g q t K) : K × K :=
  (direct dc vers (project cx cy (divide cx cy (eris cx cy))) (project cx cy (eris cx cy)) (outside (mm (mm (tp cAct) s.ovlp) cP)) (outside (mm (mm (tp cActVir) s.ovlp) cy.cVir))
    (mm (mm (tp cx.cVir) s.ovlp) cy.cVir),
   exchange dc (project cx cy (divide cx cy (eris cx cy))) (project cx cy (eris cx cy)) (outside (mm (mm (tp cAct) s.ovlp) cP)) (outside (mm (mm (tp cActVir) s.ovlp) cy.cVir))
    (mm (mm (tp cx.cVir) s.ovlp) cy.cVir))

/-- Direct energy of one pair of spins, for given clusters. -/
def directCl {av : Type} [Fintype av] [DecidableEq t] (s : Sys ι L N K) (cx : Cl ι L N f p r K) (cActVir : ι → av → K) (cy : Cl ι L N g q t K) : K :=
  ∑ i, ∑ j, ∑ a, ∑ b, ∑ b', project cx cy (divide cx cy (contract cx.cderi cy.cderi)) i j a b * project cx cy (contract cx.cderi cy.cderi) i j a b' *
    outside (mm (mm (tp cActVir) s.ovlp) cy.cVir) b b'

/-- Exchange energy of one spin, for given clusters. -/
def exchangeCl {av : Type} [Fintype av] [DecidableEq g] [DecidableEq t] (s : Sys ι L N K) (cx : Cl ι L N f p r K) (cActVir : ι → av → K) (cy : Cl ι L N g q t K) : K :=
  exchange .vir (project cx cy (divide cx cy (contract cx.cderi cy.cderi))) (project cx cy (contract cx.cderi cy.cderi)) delta (outside (mm (mm (tp cActVir) s.ovlp) cy.cVir))
    (mm (mm (tp cx.cVir) s.ovlp) cy.cVir)

theorem pairCl_spin {a av a' av' : Type} [Fintype a] [Fintype av] [Fintype a'] [Fintype av'] [DecidableEq g] [DecidableEq t] [DecidableEq g'] [DecidableEq t'] (s : Sys ι L N K)
    (x : Cl ι L N f p r K) (x' : Cl ι L N f' p' r' K) (cA : ι → a → K) (cA' : ι → a' → K) (cV : ι → av → K) (cV' : ι → av' → K) (cP : ι → g → K) (cP' : ι → g' → K)
    (y : Cl ι L N g q t K) (y' : Cl ι L N g' q' t' K) :
    pairCl s.spin .vir 1 (x.spin x') (blocks cA cA') (blocks cV cV') (blocks cP cP') (y.spin y') =
      (2 * (directCl s x cV y + directCl s x cV' y' + directCl s x' cV y + directCl s x' cV' y'), exchangeCl s x cV y + exchangeCl s x' cV' y') := by
  have e2 : eris (x.spin x') (y.spin y') =
      blocks4 (contract x.cderi y.cderi) (contract x.cderi y'.cderi) (contract x'.cderi y.cderi) (contract x'.cderi y'.cderi) := by
    rw [← contract_blocks]
    funext i j a b
    show _ - (0 : K) = _
    rw [sub_zero]
    rfl
  have e3 : outside (mm (mm (tp (blocks cV cV')) s.spin.ovlp) (y.spin y').cVir) =
      blocks (outside (mm (mm (tp cV) s.ovlp) y.cVir)) (outside (mm (mm (tp cV') s.ovlp) y'.cVir)) := by
    show outside (mm (mm (tp (blocks cV cV')) (blocks s.ovlp s.ovlp)) (blocks y.cVir y'.cVir)) = _
    rw [tp_blocks, mm_blocks, mm_blocks, outside_blocks]
  have e4 : mm (mm (tp (x.spin x').cVir) s.spin.ovlp) (y.spin y').cVir = blocks (mm (mm (tp x.cVir) s.ovlp) y.cVir) (mm (mm (tp x'.cVir) s.ovlp) y'.cVir) := by
    show mm (mm (tp (blocks x.cVir x'.cVir)) (blocks s.ovlp s.ovlp)) (blocks y.cVir y'.cVir) = _
    rw [tp_blocks, mm_blocks, mm_blocks]
  unfold pairCl
  rw [e2, e3, e4, divide_blocks, project_blocks, project_blocks, direct_blocks, exchange_blocks]
  rfl

end

/-- Energies of a pair of an unrestricted calculation from those in spin orbitals. -/
theorem pair_spin (h2 : (2 : K) ≠ 0) (s : Sys ι L N K) (fA fB : ι → ι → K) (x : URoot ι L K) (y : UPartner ι L N K) :
    pair s.spin (blocks fA fB) .vir 1 (x.alpha.spin x.beta) y.spin = (4 * (pairU s fA fB x y).1, 2 * (pairU s fA fB x y).2) := by
  have h1 := pairCl_spin s (x.alpha.own s fA) (x.beta.own s fB) x.alpha.cActive x.beta.cActive x.alpha.cActiveVir x.beta.cActiveVir y.alpha.cProj y.beta.cProj y.alpha.cl y.beta.cl
  have h0 : ((x.alpha.spin x.beta).own s.spin (blocks fA fB)) = (x.alpha.own s fA).spin (x.beta.own s fB) := own_spin s fA fB x.alpha x.beta
  have h3 : pair s.spin (blocks fA fB) .vir 1 (x.alpha.spin x.beta) y.spin =
      pairCl s.spin .vir 1 ((x.alpha.own s fA).spin (x.beta.own s fB)) (blocks x.alpha.cActive x.beta.cActive) (blocks x.alpha.cActiveVir x.beta.cActiveVir)
        (blocks y.alpha.cProj y.beta.cProj) (y.alpha.cl.spin y.beta.cl) := by
    rw [← h0]
    rfl
  rw [h3, h1]
  have d : ∀ (fA : ι → ι → K) (x x' : Chan ι K) (y : Partner ι L N K), directU s fA x x' y = directCl s (x.own s fA) x'.cActiveVir y.cl / 2 := fun _ _ _ _ => rfl
  have e : ∀ (fA : ι → ι → K) (x : Chan ι K) (y : Partner ι L N K), exchangeU s fA x y = exchangeCl s (x.own s fA) x.cActiveVir y.cl / 2 := fun _ _ _ => rfl
  unfold pairU
  simp only [d, e]
  refine Prod.ext ?_ ?_
  · dsimp only
    field_simp
    ring
  · dsimp only
    field_simp

end Vayesta.Icmp2
