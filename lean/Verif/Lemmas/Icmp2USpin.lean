import Verif.Lemmas.Icmp2U
import Verif.Spec.Icmp2U

/-! The specifications for spin orbitals, from those for both spins. -/

set_option linter.unusedSectionVars false

namespace Vayesta.Icmp2
open Vayesta.Tensor

variable {K : Type} [Field K] {ι L N o v o' v' : Type} [Fintype ι] [Fintype L] [Fintype N] [Fintype o] [Fintype v] [Fintype o'] [Fintype v']

/-- The mean-field in spin orbitals. -/
def Mf.spin (m : Mf ι o v K) (m' : Mf ι o' v' K) : Mf (ι ⊕ ι) (o ⊕ o') (v ⊕ v') K := ⟨blocks m.fock m'.fock, blocks m.moOcc m'.moOcc, blocks m.moVir m'.moVir⟩

/-- An operation on spin orbitals. -/
def Op.spin (u : Op ι L K) : Op (ι ⊕ ι) L K := ⟨u.translation, blocks u.ao u.ao, u.aux⟩

/-- A region of spin orbitals. -/
def Region.spin (x x' : Region ι K) : Region (ι ⊕ ι) K := ⟨blocks x.frag x'.frag, blocks x.clus x'.clus, blocks x.clusVir x'.clusVir⟩

theorem canonical_spin [DecidableEq o] [DecidableEq v] [DecidableEq o'] [DecidableEq v'] {s : Sys ι L N K} {m : Mf ι o v K} {m' : Mf ι o' v' K} (h : Canonical s m) (h' : Canonical s m') :
    Canonical s.spin (m.spin m') where
  symm := by
    show tp (blocks s.ovlp s.ovlp) = blocks s.ovlp s.ovlp
    rw [tp_blocks, h.symm]
  occ := by
    show mm (tp (blocks m.moOcc m'.moOcc)) (mm (blocks s.ovlp s.ovlp) (blocks m.moOcc m'.moOcc)) = _
    rw [tp_blocks, mm_blocks, mm_blocks, h.occ, h'.occ, delta_blocks]
  vir := by
    show mm (tp (blocks m.moVir m'.moVir)) (mm (blocks s.ovlp s.ovlp) (blocks m.moVir m'.moVir)) = _
    rw [tp_blocks, mm_blocks, mm_blocks, h.vir, h'.vir, delta_blocks]
  fockOcc := by
    intro i j hij
    show mm (tp (blocks m.moOcc m'.moOcc)) (mm (blocks m.fock m'.fock) (blocks m.moOcc m'.moOcc)) i j = 0
    rw [tp_blocks, mm_blocks, mm_blocks]
    cases i <;> cases j
    · exact h.fockOcc _ _ fun e => hij (by rw [e])
    · rfl
    · rfl
    · exact h'.fockOcc _ _ fun e => hij (by rw [e])
  fockVir := by
    intro i j hij
    show mm (tp (blocks m.moVir m'.moVir)) (mm (blocks m.fock m'.fock) (blocks m.moVir m'.moVir)) i j = 0
    rw [tp_blocks, mm_blocks, mm_blocks]
    cases i <;> cases j
    · exact h.fockVir _ _ fun e => hij (by rw [e])
    · rfl
    · rfl
    · exact h'.fockVir _ _ fun e => hij (by rw [e])

theorem eo_spin (s : Sys ι L N K) (m : Mf ι o v K) (m' : Mf ι o' v' K) : ((m.spin m').whole s.spin).eo = Sum.elim (m.whole s).eo (m'.whole s).eo := by
  funext i
  show mm (tp (blocks m.moOcc m'.moOcc)) (mm (blocks m.fock m'.fock) (blocks m.moOcc m'.moOcc)) i i = _
  rw [tp_blocks, mm_blocks, mm_blocks]
  cases i <;> rfl

theorem ev_spin (s : Sys ι L N K) (m : Mf ι o v K) (m' : Mf ι o' v' K) : ((m.spin m').whole s.spin).ev = Sum.elim (m.whole s).ev (m'.whole s).ev := by
  funext i
  show mm (tp (blocks m.moVir m'.moVir)) (mm (blocks m.fock m'.fock) (blocks m.moVir m'.moVir)) i i = _
  rw [tp_blocks, mm_blocks, mm_blocks]
  cases i <;> rfl

theorem eigen_spin {M M' n n' : Type} [Fintype M] [Fintype M'] {e : M → K} {e' : M' → K} {r : M → n → K} {r' : M' → n' → K} (h : Eigen e r) (h' : Eigen e' r') :
    Eigen (Sum.elim e e') (blocks r r') where
  norm := by
    intro i
    cases i with
    | inl i => simpa [Fintype.sum_sum_type, blocks] using h.norm i
    | inr i => simpa [Fintype.sum_sum_type, blocks] using h'.norm i
  eig := by
    obtain ⟨a, ha⟩ := h.eig
    obtain ⟨a', ha'⟩ := h'.eig
    refine ⟨Sum.elim a a', fun I i => ?_⟩
    cases I <;> cases i <;> simp [blocks, ha, ha']

theorem exact_spin [DecidableEq v] [DecidableEq v'] {s : Sys ι L N K} {m : Mf ι o v K} {m' : Mf ι o' v' K} {x x' : Chan ι K} {ro : o → x.o → K} {rv : v → x.v → K}
    {ro' : o' → x'.o → K} {rv' : v' → x'.v → K} (h : Exact s m x ro rv) (h' : Exact s m' x' ro' rv') : Exact s.spin (m.spin m') (x.spin x') (blocks ro ro') (blocks rv rv') where
  occ := by
    show blocks x.cOcc x'.cOcc = mm (blocks m.moOcc m'.moOcc) (blocks ro ro')
    rw [mm_blocks, h.occ, h'.occ]
  vir := by
    show blocks x.cVir x'.cVir = mm (blocks m.moVir m'.moVir) (blocks rv rv')
    rw [mm_blocks, h.vir, h'.vir]
  eigOcc := by
    rw [eo_spin]
    exact eigen_spin h.eigOcc h'.eigOcc
  eigVir := by
    rw [ev_spin]
    exact eigen_spin h.eigVir h'.eigVir
  covers := by
    show mm (mm (tp (blocks x.cProj x'.cProj)) (mm (blocks s.ovlp s.ovlp) (blocks m.moOcc m'.moOcc))) (mm (blocks ro ro') (tp (blocks ro ro'))) =
      mm (tp (blocks x.cProj x'.cProj)) (mm (blocks s.ovlp s.ovlp) (blocks m.moOcc m'.moOcc))
    rw [tp_blocks, mm_blocks, mm_blocks, tp_blocks, mm_blocks, mm_blocks, h.covers, h'.covers]
  spans := by
    have : mm (blocks rv rv') (tp (blocks rv rv')) = delta := by rw [tp_blocks, mm_blocks, h.spans, h'.spans, delta_blocks]
    exact this

theorem leaves_spin [DecidableEq L] {s : Sys ι L N K} {m : Mf ι o v K} {m' : Mf ι o' v' K} {u : Op ι L K} (h : Leaves s m u) (h' : Leaves s m' u) : Leaves s.spin (m.spin m') u.spin where
  trans := h.trans
  aux := h.aux
  ovlp := by
    show mm (tp (blocks u.ao u.ao)) (mm (blocks s.ovlp s.ovlp) (blocks u.ao u.ao)) = blocks s.ovlp s.ovlp
    rw [tp_blocks, mm_blocks, mm_blocks, h.ovlp]
  fock := by
    show mm (tp (blocks u.ao u.ao)) (mm (blocks m.fock m'.fock) (blocks u.ao u.ao)) = blocks m.fock m'.fock
    rw [tp_blocks, mm_blocks, mm_blocks, h.fock, h'.fock]
  cderi := by
    intro l
    show mm (tp (blocks u.ao u.ao)) (mm (blocks (s.cderi l) (s.cderi l)) (blocks u.ao u.ao)) = fun p q => ∑ l', u.aux l l' * blocks (s.cderi l') (s.cderi l') p q
    rw [tp_blocks, mm_blocks, mm_blocks, h.cderi]
    funext p q
    cases p <;> cases q <;> simp [blocks]
  neg := by intro g hg; cases hg
  occ := by
    obtain ⟨r, hr⟩ := h.occ
    obtain ⟨r', hr'⟩ := h'.occ
    refine ⟨blocks r r', ?_⟩
    show mm (blocks u.ao u.ao) (blocks m.moOcc m'.moOcc) = mm (blocks m.moOcc m'.moOcc) (blocks r r')
    rw [mm_blocks, mm_blocks, hr, hr']
  vir := by
    obtain ⟨r, hr⟩ := h.vir
    obtain ⟨r', hr'⟩ := h'.vir
    refine ⟨blocks r r', ?_⟩
    show mm (blocks u.ao u.ao) (blocks m.moVir m'.moVir) = mm (blocks m.moVir m'.moVir) (blocks r r')
    rw [mm_blocks, mm_blocks, hr, hr']

theorem region_spin (x x' : Chan ι K) : (x.spin x').region = x.region.spin x'.region := by
  unfold Chan.region Region.spin
  dsimp only
  congr 1
  · show mm (blocks x.cProj x'.cProj) (tp (blocks x.cProj x'.cProj)) = _
    rw [tp_blocks, mm_blocks]
  · show mm (blocks x.cActive x'.cActive) (tp (blocks x.cActive x'.cActive)) = _
    rw [tp_blocks, mm_blocks]
  · show mm (blocks x.cActiveVir x'.cActiveVir) (tp (blocks x.cActiveVir x'.cActiveVir)) = _
    rw [tp_blocks, mm_blocks]

theorem image_spin (x x' : Region ι K) (U : ι → ι → K) : (x.spin x').image (blocks U U) = (x.image U).spin (x'.image U) := by
  unfold Region.image Region.spin
  dsimp only
  rw [tp_blocks, mm_blocks, mm_blocks, mm_blocks, mm_blocks, mm_blocks, mm_blocks]

theorem related_spin (s : Sys ι L N K) (f f' : ι → ι → K) (x x' : Chan ι K) (u : Op ι L K) :
    (x.spin x').related s.spin (blocks f f') u.spin = (x.related s f u).spin (x'.related s f' u) := by
  unfold Chan.related
  rw [own_spin]
  unfold Cl.spin
  dsimp only
  congr 1
  · show mm (blocks u.ao u.ao) (blocks x.cVir x'.cVir) = _
    rw [mm_blocks]
  · funext l i a
    show ∑ l', u.aux l l' * blocks ((x.own s f).cderi l') ((x'.own s f').cderi l') i a = _
    cases i <;> cases a <;> simp [blocks]

section
variable [DecidableEq v] [DecidableEq v'] (s : Sys ι L N K) (m : Mf ι o v K) (m' : Mf ι o' v' K)

theorem three_spin (l : L) : (m.spin m').three s.spin.cderi l = blocks (m.three s.cderi l) (m'.three s.cderi l) := by
  show mm (tp (blocks m.moOcc m'.moOcc)) (mm (blocks (s.cderi l) (s.cderi l)) (blocks m.moVir m'.moVir)) = _
  rw [tp_blocks, mm_blocks, mm_blocks]
  rfl

/-- The integrals in the order of the amplitudes. -/
theorem g_spin : (fun i j a b => ((m.spin m').whole s.spin).g i a j b) =
    blocks4 (fun i j a b => spinEri s m m i a j b) (fun i j a b => spinEri s m m' i a j b) (fun i j a b => spinEri s m' m i a j b) (fun i j a b => spinEri s m' m' i a j b) := by
  funext i j a b
  show (∑ l, (m.spin m').three s.spin.cderi l i a * (m.spin m').three s.spin.cderi l j b) - 0 = _
  rw [sub_zero]
  simp only [three_spin]
  cases i <;> cases j <;> cases a <;> cases b <;> simp [blocks, blocks4, spinEri]

theorem t_spin : ((m.spin m').whole s.spin).t = blocks4 (spinT s m m) (spinT s m m') (spinT s m' m) (spinT s m' m') := by
  funext i j a b
  have hg : ((m.spin m').whole s.spin).g i a j b = _ := congrFun (congrFun (congrFun (congrFun (g_spin s m m') i) j) a) b
  unfold Whole.t
  rw [hg, eo_spin, ev_spin]
  cases i <;> cases j <;> cases a <;> cases b <;> simp [blocks4, spinT]

/-- The projected integrals, in the order of the amplitudes. -/
def spinProj (P : o → o → K) (W : o' → o' → K) (Q : v' → v' → K) (i : o) (j : o') (a : v) (b : v') : K :=
  ∑ i', P i i' * ∑ j', W j j' * ∑ b', Q b b' * spinEri s m m' i' a j' b'

theorem proj_spin (P : o → o → K) (P' : o' → o' → K) (W : o → o → K) (W' : o' → o' → K) (Q : v → v → K) (Q' : v' → v' → K) :
    (fun i j a b => ∑ i', blocks P P' i i' * ∑ j', blocks W W' j j' * ∑ b', blocks Q Q' b b' * ((m.spin m').whole s.spin).g i' a j' b') =
      blocks4 (spinProj s m m P W Q) (spinProj s m m' P W' Q') (spinProj s m' m P' W Q) (spinProj s m' m' P' W' Q') := by
  have hg : ∀ i a j b, ((m.spin m').whole s.spin).g i a j b = _ := fun i a j b => congrFun (congrFun (congrFun (congrFun (g_spin s m m') i) j) a) b
  funext i j a b
  simp only [hg]
  cases i <;> cases j <;> cases a <;> cases b <;>
    simp only [spinProj, blocks4, blocks, Fintype.sum_sum_type, zero_mul, mul_zero, Finset.sum_const_zero, add_zero, zero_add]

theorem dot4_blocks4 (aa : o → o → v → v → K) (ab : o → o' → v → v' → K) (ba : o' → o → v' → v → K) (bb : o' → o' → v' → v' → K)
    (aa' : o → o → v → v → K) (ab' : o → o' → v → v' → K) (ba' : o' → o → v' → v → K) (bb' : o' → o' → v' → v' → K) :
    (∑ i, ∑ j, ∑ a, ∑ b, blocks4 aa ab ba bb i j a b * blocks4 aa' ab' ba' bb' i j a b) =
      (∑ i, ∑ j, ∑ a, ∑ b, aa i j a b * aa' i j a b) + (∑ i, ∑ j, ∑ a, ∑ b, ab i j a b * ab' i j a b) + (∑ i, ∑ j, ∑ a, ∑ b, ba i j a b * ba' i j a b) +
        ∑ i, ∑ j, ∑ a, ∑ b, bb i j a b * bb' i j a b := by
  simp only [Fintype.sum_sum_type, blocks4, zero_mul, mul_zero, Finset.sum_const_zero, add_zero, zero_add, Finset.sum_add_distrib]
  ring

theorem dot4_blocks4_swap (aa : o → o → v → v → K) (ab : o → o' → v → v' → K) (ba : o' → o → v' → v → K) (bb : o' → o' → v' → v' → K)
    (aa' : o → o → v → v → K) (ab' : o → o' → v → v' → K) (ba' : o' → o → v' → v → K) (bb' : o' → o' → v' → v' → K) :
    (∑ i, ∑ j, ∑ a, ∑ b, blocks4 aa ab ba bb i j b a * blocks4 aa' ab' ba' bb' i j a b) =
      (∑ i, ∑ j, ∑ a, ∑ b, aa i j b a * aa' i j a b) + ∑ i, ∑ j, ∑ a, ∑ b, bb i j b a * bb' i j a b := by
  simp only [Fintype.sum_sum_type, blocks4, zero_mul, mul_zero, Finset.sum_const_zero, add_zero, zero_add]

theorem partSpin_direct (h2 : (2 : K) ≠ 0) (P : o → o → K) (P' : o' → o' → K) (W : o → o → K) (W' : o' → o' → K) (Q : v → v → K) (Q' : v' → v' → K) :
    ((m.spin m').whole s.spin).part true false (blocks P P') (blocks W W') (blocks Q Q') =
      4 * (spinDirect s m m P W Q + spinDirect s m m' P W' Q' + spinDirect s m' m P' W Q + spinDirect s m' m' P' W' Q') := by
  have hp : ∀ i j a b, (∑ i', blocks P P' i i' * ∑ j', blocks W W' j j' * ∑ b', blocks Q Q' b b' * ((m.spin m').whole s.spin).g i' a j' b') = _ :=
    fun i j a b => congrFun (congrFun (congrFun (congrFun (proj_spin s m m' P P' W W' Q Q') i) j) a) b
  have ha : ∀ i j a b, ((m.spin m').whole s.spin).amp true false i j a b = 2 * blocks4 (spinT s m m) (spinT s m m') (spinT s m' m) (spinT s m' m') i j a b := by
    intro i j a b
    unfold Whole.amp
    rw [t_spin]
    simp
  unfold Whole.part
  simp only [hp, ha, mul_assoc, ← Finset.mul_sum]
  rw [dot4_blocks4]
  unfold spinDirect
  show 2 * (_ + _ + _ + _) = 4 * (_ / 2 + _ / 2 + _ / 2 + _ / 2)
  field_simp
  ring_nf
  rfl

theorem partSpin_exchange (h2 : (2 : K) ≠ 0) (P : o → o → K) (P' : o' → o' → K) (W : o → o → K) (W' : o' → o' → K) (Q : v → v → K) (Q' : v' → v' → K) :
    ((m.spin m').whole s.spin).part false true (blocks P P') (blocks W W') (blocks Q Q') = 2 * (spinExchange s m P W Q + spinExchange s m' P' W' Q') := by
  have hp : ∀ i j a b, (∑ i', blocks P P' i i' * ∑ j', blocks W W' j j' * ∑ b', blocks Q Q' b b' * ((m.spin m').whole s.spin).g i' a j' b') = _ :=
    fun i j a b => congrFun (congrFun (congrFun (congrFun (proj_spin s m m' P P' W W' Q Q') i) j) a) b
  have ha : ∀ i j a b, ((m.spin m').whole s.spin).amp false true i j a b = -blocks4 (spinT s m m) (spinT s m m') (spinT s m' m) (spinT s m' m') i j b a := by
    intro i j a b
    unfold Whole.amp
    rw [t_spin]
    simp
  unfold Whole.part
  simp only [hp, ha, neg_mul, Finset.sum_neg_distrib]
  rw [dot4_blocks4_swap]
  unfold spinExchange
  show -(_ + _) = 2 * (-_ / 2 + -_ / 2)
  field_simp
  ring_nf
  rfl

theorem inOcc_spin (D D' : ι → ι → K) : (m.spin m').inOcc s.spin (blocks D D') = blocks (m.inOcc s D) (m'.inOcc s D') := by
  show mm (tp (mm (blocks s.ovlp s.ovlp) (blocks m.moOcc m'.moOcc))) (mm (blocks D D') (mm (blocks s.ovlp s.ovlp) (blocks m.moOcc m'.moOcc))) = _
  rw [mm_blocks, tp_blocks, mm_blocks, mm_blocks]
  rfl

theorem inVir_spin (D D' : ι → ι → K) : (m.spin m').inVir s.spin (blocks D D') = blocks (m.inVir s D) (m'.inVir s D') := by
  show mm (tp (mm (blocks s.ovlp s.ovlp) (blocks m.moVir m'.moVir))) (mm (blocks D D') (mm (blocks s.ovlp s.ovlp) (blocks m.moVir m'.moVir))) = _
  rw [mm_blocks, tp_blocks, mm_blocks, mm_blocks]
  rfl

theorem onVir_spin (x x' : Region ι K) : Dc.vir.onVir s.spin (m.spin m') (x.spin x') = blocks (Dc.vir.onVir s m x) (Dc.vir.onVir s m' x') := by
  funext a b
  show delta a b - (m.spin m').inVir s.spin (blocks x.clusVir x'.clusVir) a b = _
  rw [inVir_spin, delta_blocks]
  cases a <;> cases b <;> simp [blocks, Dc.onVir]

theorem pairEnergy_direct (h2 : (2 : K) ≠ 0) (x x' y y' : Region ι K) :
    pairEnergy s.spin (m.spin m') true false .vir (x.spin x') (y.spin y') = 4 * spinPair s m m' true false (x, x') (y, y') := by
  unfold pairEnergy
  rw [onVir_spin]
  show ((m.spin m').whole s.spin).part true false ((m.spin m').inOcc s.spin (blocks x.frag x'.frag)) ((m.spin m').inOcc s.spin (blocks y.frag y'.frag)) _ = _
  rw [inOcc_spin, inOcc_spin, partSpin_direct s m m' h2]
  unfold spinPair
  simp

theorem pairEnergy_exchange (h2 : (2 : K) ≠ 0) (x x' y y' : Region ι K) :
    pairEnergy s.spin (m.spin m') false true .vir (x.spin x') (y.spin y') = 2 * spinPair s m m' false true (x, x') (y, y') := by
  unfold pairEnergy
  rw [onVir_spin]
  show ((m.spin m').whole s.spin).part false true ((m.spin m').inOcc s.spin (blocks x.frag x'.frag)) ((m.spin m').inOcc s.spin (blocks y.frag y'.frag)) _ = _
  rw [inOcc_spin, inOcc_spin, partSpin_exchange s m m' h2]
  unfold spinPair
  simp

end

end Vayesta.Icmp2
