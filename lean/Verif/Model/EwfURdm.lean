import Verif.Model.EwfRdm

/-! Model of the global amplitudes and of the one-body density matrices of unrestricted EWF calculations: `vayesta/ewf/amplitudes.py` 95-175,
`vayesta/ewf/urdm.py` 12-722, `vayesta/ewf/uewf.py` 77-93 and `vayesta/core/vpyscf/uccsd_rdm.py` 28-82, 398-424. Arrays are functions of their
indices over a field (exact arithmetic), one MPI process. Quantities that exist for both spins are functions of the spin; the statements for the two
spins in the code are the same up to the exchange of the spins, so that one definition stands for both. Contractions are written as in
`Verif/Model/EwfRdm.lean`. -/

namespace Vayesta.EwfURdm
open Vayesta.Amplitudes Vayesta.Tensor Vayesta.EwfRdm

/-- The two spins. -/
inductive Spin
  | a
  | b
  deriving DecidableEq

/-- The other spin. -/
def Spin.other : Spin → Spin
  | .a => .b
  | .b => .a

variable {K : Type} [Field K] {ι : Type} {o v : Spin → Type} [Fintype ι] [∀ σ, Fintype (o σ)] [∀ σ, Fintype (v σ)]

/-- Singles of both spins and the stored blocks `(aa, ab, bb)` of doubles. -/
abbrev U1 (o v : Spin → Type) (K : Type) := ∀ σ, T1 (o σ) (v σ) K
abbrev UT (o v : Spin → Type) (K : Type) := T2 (o .a) (o .a) (v .a) (v .a) K × T2 (o .a) (o .b) (v .a) (v .b) K × T2 (o .b) (o .b) (v .b) (v .b) K

instance : AddMonoid (UT o v K) := @Prod.instAddMonoid _ _ inferInstance (@Prod.instAddMonoid _ _ inferInstance inferInstance)

/-- The block of two spins of stored doubles: the last one is `ab.transpose(1, 0, 3, 2)` (ccsd.py:252-256, 284-288). -/
def block (t : UT o v K) : ∀ σ τ, T2 (o σ) (o τ) (v σ) (v τ) K
  | .a, .a => t.1
  | .a, .b => t.2.1
  | .b, .b => t.2.2
  | .b, .a => transp t.2.1

/-! ## Density matrix of given amplitudes -/

/-- `_gamma1_intermediates` (uccsd_rdm.py:28-82) for one spin: `s` is the spin itself, `r` the other one. -/
def gammaU {o v o' v' : Type} [Fintype o] [Fintype v] [Fintype o'] [Fintype v'] (t1 l1 : T1 o v K) (l1' : T1 o' v' K) (tss lss : T2 o o v v K)
    (tsr lsr : T2 o o' v v' K) : Gamma1 o v K :=
  let tmpO : o → o → K := fun i j => (∑ m, ∑ e, ∑ f, lsr i m e f * tsr j m e f) + (∑ m, ∑ e, ∑ f, lss i m e f * tss j m e f) * (1 / 2)
  let tmpV : v → v → K := fun a b => (∑ m, ∑ n, ∑ e, tsr m n a e * lsr m n b e) + (∑ m, ∑ n, ∑ e, tss m n a e * lss m n b e) * (1 / 2)
  let xt2 : v → v → K := fun a e => tmpV a e + ∑ m, t1 m a * l1 m e
  { doo := fun i j => -(∑ e, l1 i e * t1 j e) - tmpO i j
    dov := l1
    dvo := fun a i => (∑ m, ∑ e, tss i m a e * l1 m e) + (∑ m, ∑ e, tsr i m a e * l1' m e) - (∑ m, tmpO m i * t1 m a) - (∑ e, t1 i e * xt2 a e) + t1 i a
    dvv := fun a b => (∑ m, t1 m a * l1 m b) + tmpV a b }

/-- `make_rdm1` with `with_mf=False`, real numbers, no frozen orbitals (uccsd_rdm.py:398-424). The blocks of the other spin in the first position are
those of `ab` with exchanged axes (uccsd_rdm.py:38-46, 69-73). -/
def makeRdm1U (t1 l1 : U1 o v K) (t2 l2 : UT o v K) (σ : Spin) : o σ ⊕ v σ → o σ ⊕ v σ → K :=
  let g := gammaU (t1 σ) (l1 σ) (l1 σ.other) (block t2 σ σ) (block l2 σ σ) (block t2 σ σ.other) (block l2 σ σ.other)
  fun p q => makeRdm1 g p q * (1 / 2)

/-- `dm1[np.diag_indices(nocc)] += 1` (urdm.py:165-167, uewf.py:83-85). -/
def addMfU {o v : Type} [DecidableEq o] (d : o ⊕ v → o ⊕ v → K) : o ⊕ v → o ⊕ v → K
  | .inl i, .inl j => d (.inl i) (.inl j) + if i = j then 1 else 0
  | p, q => d p q

/-! ## Fragments -/

/-- Overlap matrix and molecular orbitals of both spins. -/
structure UMf (ι : Type) (o v : Spin → Type) (K : Type) where
  ovlp : ι → ι → K
  moOcc : ∀ σ, ι → o σ → K
  moVir : ∀ σ, ι → v σ → K

/-- Orbitals of one spin. -/
def UMf.spin (s : UMf ι o v K) (σ : Spin) : Mf ι (o σ) (v σ) K := ⟨s.ovlp, s.moOcc σ, s.moVir σ⟩

/-- A contributing fragment of an unrestricted calculation: orbitals of both spins, the amplitudes of `results.pwf.as_ccsd()` with the four blocks of
doubles `t2 σ τ`, whose first axis is the fragment space of spin `σ`; an MP2 wave function is converted with `t1 = l1 = 0` and `l2 = t2` (mp2.py:186-190). -/
structure UFrag (ι K : Type) where
  {f : Spin → Type}
  {c : Spin → Type}
  {d : Spin → Type}
  [ff : ∀ σ, Fintype (f σ)]
  [fc : ∀ σ, Fintype (c σ)]
  [fd : ∀ σ, Fintype (d σ)]
  cFrag : ∀ σ, ι → f σ → K
  cOcc : ∀ σ, ι → c σ → K
  cVir : ∀ σ, ι → d σ → K
  t1 : ∀ σ, T1 (f σ) (d σ) K
  t2 : ∀ σ τ, T2 (f σ) (c τ) (d σ) (d τ) K
  l1 : Option (∀ σ, T1 (f σ) (d σ) K)
  l2 : Option (∀ σ τ, T2 (f σ) (c τ) (d σ) (d τ) K)
  mp2 : Bool
  tAsLambda : Bool
  ops : List (ι → ι → K)

attribute [instance] UFrag.ff UFrag.fc UFrag.fd

/-- The symmetry child of a fragment (core/qemb/fragment.py:359-373). -/
def UFrag.image (x : UFrag ι K) (u : ι → ι → K) : UFrag ι K :=
  { x with cFrag := fun σ => mm u (x.cFrag σ), cOcc := fun σ => mm u (x.cOcc σ), cVir := fun σ => mm u (x.cVir σ), ops := [] }

/-- A fragment and its symmetry children. -/
def UFrag.family (x : UFrag ι K) : List (UFrag ι K) := { x with ops := [] } :: x.ops.map x.image

/-- `get_overlap("mo[occ]|cluster[occ]")`, `("mo[vir]|cluster[vir]")`, `("mo[occ]|frag")`, `("cluster[occ]|frag")` and `("frag|cluster-occ")` for one
spin (core/qemb/ufragment.py, core/qemb/fragment.py:309-352). -/
def UFrag.mco (s : UMf ι o v K) (x : UFrag ι K) (σ : Spin) : o σ → x.c σ → K := mm (tp (s.moOcc σ)) (mm s.ovlp (x.cOcc σ))
def UFrag.mcv (s : UMf ι o v K) (x : UFrag ι K) (σ : Spin) : v σ → x.d σ → K := mm (tp (s.moVir σ)) (mm s.ovlp (x.cVir σ))
def UFrag.mf (s : UMf ι o v K) (x : UFrag ι K) (σ : Spin) : o σ → x.f σ → K := mm (tp (s.moOcc σ)) (mm s.ovlp (x.cFrag σ))
def UFrag.cf (s : UMf ι o v K) (x : UFrag ι K) (σ : Spin) : x.c σ → x.f σ → K := mm (tp (x.cOcc σ)) (mm s.ovlp (x.cFrag σ))
def UFrag.px (s : UMf ι o v K) (x : UFrag ι K) (σ : Spin) : x.f σ → x.c σ → K := mm (tp (x.cFrag σ)) (mm s.ovlp (x.cOcc σ))

/-- Doubles of `restore()`: blocks `(aa, ab, bb)` (ccsd.py:307-318, project.py:31-62). -/
def restoredU {f c d : Spin → Type} [∀ σ, Fintype (f σ)] [∀ σ, Fintype (c σ)] (p : ∀ σ, f σ → c σ → K) (t : ∀ σ τ, T2 (f σ) (c τ) (d σ) (d τ) K) : UT c d K :=
  let r := symmetrizeUC2 (.four (unprojectUC2 (p .a, p .b) ⟨t .a .a, t .a .b, t .b .a, t .b .b⟩))
  (r.aa, r.ab, r.bb)

/-! ## Global amplitudes -/

/-- `einsum("ijab,Ii,Jj,Aa,Bb->IJAB", t2x, ro, ro', rv, rv')` (amplitudes.py:163-165). -/
def backU {o v o' v' c d c' d' : Type} [Fintype c] [Fintype d] [Fintype c'] [Fintype d'] (ro : o → c → K) (ro' : o' → c' → K) (rv : v → d → K)
    (rv' : v' → d' → K) (t : T2 c c' d d' K) : T2 o o' v v' K :=
  fun i j a b => ∑ k, ∑ l, ∑ x, ∑ y, t k l x y * ro i k * ro' j l * rv a x * rv' b y

/-- The loop body of `get_global_t1_uhf` (amplitudes.py:116-124). Without lambda amplitudes the pair is unpacked from None: TypeError. -/
def UFrag.t1Contrib (s : UMf ι o v K) (lam : Bool) (x : UFrag ι K) : Except PyErr (U1 o v K) :=
  match (if lam && !x.tAsLambda then x.l1 else some x.t1) with
  | none => .error .typeError
  | some t => .ok fun σ i a => ∑ k, ∑ e, projectC1 (tr (x.px s σ)) (t σ) k e * x.mco s σ i k * x.mcv s σ a e

/-- The loop body of `get_global_t2_uhf` (amplitudes.py:156-165). -/
def UFrag.t2Contrib (s : UMf ι o v K) (lam : Bool) (x : UFrag ι K) : Except PyErr (UT o v K) :=
  match (if lam && !x.tAsLambda then x.l2 else some x.t2) with
  | none => .error .typeError
  | some t =>
    let r := restoredU (x.px s) t
    let ro := x.mco s
    let rv := x.mcv s
    .ok (backU (ro .a) (ro .a) (rv .a) (rv .a) r.1, backU (ro .a) (ro .b) (rv .a) (rv .b) r.2.1, backU (ro .b) (ro .b) (rv .b) (rv .b) r.2.2)

/-- `get_global_t1_uhf` (amplitudes.py:95-131) with `ao_basis=False`; `l` holds the symmetry parents. -/
def globT1 (s : UMf ι o v K) (lam : Bool) (l : List (UFrag ι K)) : Except PyErr (U1 o v K) :=
  accumulate (UFrag.t1Contrib s lam) (l.flatMap UFrag.family)

/-- `get_global_t2_uhf` (amplitudes.py:134-175) with `ao_basis=False`. -/
def globT2 (s : UMf ι o v K) (lam : Bool) (l : List (UFrag ι K)) : Except PyErr (UT o v K) :=
  accumulate (UFrag.t2Contrib s lam) (l.flatMap UFrag.family)

/-! ## make_rdm1_ccsd_global_wf -/

/-- The algorithm `slow=True` (urdm.py:207-218). -/
def slowU (s : UMf ι o v K) (tAsLambda withT1 : Bool) (l : List (UFrag ι K)) : Except PyErr (∀ σ, o σ ⊕ v σ → o σ ⊕ v σ → K) := do
  let t1 ← globT1 s false l
  let t2 ← globT2 s false l
  let l1 ← bif tAsLambda then pure t1 else globT1 s true l
  let l2 ← bif tAsLambda then pure t2 else globT2 s true l
  pure (if withT1 then makeRdm1U t1 l1 t2 l2 else makeRdm1U 0 0 t2 l2)

/-- Amplitudes of the second fragment (urdm.py:348-355): without lambda amplitudes None is unpacked before the check that follows. -/
def UFrag.lam (tAsLambda : Bool) (y : UFrag ι K) : Except PyErr (∀ σ τ, T2 (y.f σ) (y.c τ) (y.d σ) (y.d τ) K) :=
  if tAsLambda || y.tAsLambda || y.mp2 then .ok y.t2 else
    match y.l2 with
    | some l2 => .ok l2
    | none => .error .typeError

section Pair
variable {c d c' d' e g e' g' : Type} [Fintype c] [Fintype d] [Fintype c'] [Fintype d'] [Fintype e] [Fintype g] [Fintype e'] [Fintype g']

/-- `tlaa`, `tlbb`, `tlab1`, `tlab2` of a pair of fragments (urdm.py:374-378, 395-406): `ro'`, `rv'` are overlaps of the second spin. -/
def tlEarly (svd : Option (∀ m n : Type, (m → n → K) → Factors m n K)) (t2 : T2 c c' d d' K) (l2 : T2 e e' g g' K) (ro' : c' → e' → K)
    (rv' : d' → g' → K) : c → e → d → g → K :=
  match svd with
  | none => fun i I a A => ∑ J, ∑ B, L2 (tp ro') (L4 (tp rv') t2) i J a B * l2 I J A B
  | some f =>
    let o := f c' e' ro'
    let w := f d' g' rv'
    fun i I a A => ∑ X, ∑ Y, L2 (tp o.u) (L4 (tp w.u) t2) i X a Y * L2 o.w (L4 w.w l2) I X A Y

variable {O V : Type}

/-- Contributions to `doox`, `dvvx` of one spin from one of the arrays `tl` (urdm.py:408-418). -/
def fromTl (tl : c → e → d → g → K) (ro : c → e → K) (rv : d → g → K) (cyo : O → e → K) (cyv : V → g → K) : (c → O → K) × (d → V → K) :=
  (fun i q => -∑ I, (∑ a, ∑ A, tl i I a A * rv a A) * cyo q I, fun a q => ∑ A, (∑ i, ∑ I, tl i I a A * ro i I) * cyv q A)

end Pair

section Late
variable {f g c d e h f' g' c' d' e' h' k k' O V : Type} [Fintype f] [Fintype g] [Fintype c] [Fintype d] [Fintype e] [Fintype h] [Fintype f'] [Fintype g']
  [Fintype c'] [Fintype d'] [Fintype e'] [Fintype h'] [Fintype k] [Fintype k']

/-- The sums of three terms of the occupied part for given transformed amplitudes (urdm.py:474-498), without their prefactor: "T2 * L2.T", "T2.T * L2"
and "T2.T * L2.T". `ov` holds the overlaps `cfxy_occ`, `cfyx_occ`, `ffxy` of the second spin, `t`, `l` the blocks with the spin itself in front, `tr`, `lr`
those with the second spin in front. -/
def occSums (ov : (c' → g' → K) × (e' → f' → K) × (f' → g' → K)) (t : T2 f c' k k' K) (tr : T2 f' c k' k K) (l : T2 g e' k k' K) (lr : T2 g' e k' k K) :
    (f → e → K) × (c → g → K) × (c → e → K) :=
  (fun x I => ∑ Y, ∑ A, ∑ B, L2 (tp ov.1) t x Y A B * lr Y I B A,
    fun i Y => ∑ x, ∑ A, ∑ B, tr x i B A * L2 (tp ov.2.1) l Y x A B,
    fun i I => ∑ x, ∑ Y, ∑ A, ∑ B, tr x i B A * ov.2.2 x Y * lr Y I B A)

/-- The sums of all four terms of the occupied part for a pair of spins (urdm.py:421-498). -/
def occRaw (svd : Option (∀ m n : Type, (m → n → K) → Factors m n K)) (t : T2 f c' d d' K) (tr : T2 f' c d' d K) (l : T2 g e' h h' K) (lr : T2 g' e h' h K)
    (ro' : c' → e' → K) (rv : d → h → K) (rv' : d' → h' → K) (cfx' : c' → f' → K) (cfy' : e' → g' → K) :
    (f → g → K) × (f → e → K) × (c → g → K) × (c → e → K) :=
  let ov := overlapsLate svd ro' cfx' cfy'
  match svd with
  | none =>
    let t2tmp := L3 (tp rv) (L4 (tp rv') t)
    let t2rtmp := L3 (tp rv') (L4 (tp rv) tr)
    (fun x Y => ∑ J, ∑ A, ∑ B, L2 (tp ro') t2tmp x J A B * l Y J A B, occSums ov t2tmp t2rtmp l lr)
  | some q =>
    let w := q d h rv
    let w' := q d' h' rv'
    let o' := q c' e' ro'
    let t2tmp := L3 (tp w.u) (L4 (tp w'.u) t)
    let t2rtmp := L3 (tp w'.u) (L4 (tp w.u) tr)
    let l2tmp := L3 w.w (L4 w'.w l)
    let l2rtmp := L3 w'.w (L4 w.w lr)
    (fun x Y => ∑ S, ∑ A, ∑ B, L2 (tp o'.u) t2tmp x S A B * L2 o'.w l2tmp Y S A B, occSums ov t2tmp t2rtmp l2tmp l2rtmp)

/-- The sums of the four terms of the virtual part for a pair of spins (urdm.py:500-569). The prefactor common to the four terms is left to the caller. -/
def virRaw (svd : Option (∀ m n : Type, (m → n → K) → Factors m n K)) (t : T2 f c' d d' K) (tr : T2 f' c d' d K) (l : T2 g e' h h' K) (lr : T2 g' e h' h K)
    (ro : c → e → K) (ro' : c' → e' → K) (rv' : d' → h' → K) (cfx : c → f → K) (cfx' : c' → f' → K) (cfy : e → g → K) (cfy' : e' → g' → K) : d → h → K :=
  let ov := overlapsLate svd ro cfx cfy
  let ov' := overlapsLate svd ro' cfx' cfy'
  match svd with
  | none =>
    let ta := L1 (tp ov.2.2) (L2 (tp ro') t)
    let tra := L1 (tp ov'.2.2) (L2 (tp ro) tr)
    let tb := L2 (tp ov'.1) t
    let trb := L2 (tp ov.1) tr
    let lb := L2 (tp ov'.2.1) l
    let lrb := L2 (tp ov.2.1) lr
    fun b B => (∑ Y, ∑ J, ∑ A, L3 (tp rv') tra Y J A b * lr Y J A B) + (∑ Y, ∑ I, ∑ A, L4 (tp rv') ta Y I b A * l Y I B A) +
      (∑ x, ∑ Y, ∑ A, L3 (tp rv') trb x Y A b * lb Y x B A) + ∑ x, ∑ Y, ∑ A, L4 (tp rv') tb x Y b A * lrb Y x A B
  | some q =>
    let o := q c e ro
    let o' := q c' e' ro'
    let w' := q d' h' rv'
    let ta := L2 (tp o'.u) t
    let tra := L2 (tp o.u) tr
    let la := L1 ov.2.2 (L2 o'.w l)
    let lra := L1 ov'.2.2 (L2 o.w lr)
    let tb := L2 (tp ov'.1) t
    let trb := L2 (tp ov.1) tr
    let lb := L2 (tp ov'.2.1) l
    let lrb := L2 (tp ov.2.1) lr
    fun b B => (∑ x, ∑ S, ∑ P, L3 (tp w'.u) tra x S P b * L3 w'.w lra x S P B) + (∑ x, ∑ S, ∑ P, L4 (tp w'.u) ta x S b P * L4 w'.w la x S B P) +
      (∑ x, ∑ Y, ∑ S, L3 (tp w'.u) trb x Y S b * L4 w'.w lb Y x B S) + ∑ x, ∑ Y, ∑ S, L4 (tp w'.u) tb x Y b S * L3 w'.w lrb Y x S B

/-- Contribution to `doox` of one spin from the sums of equal spins `p` and of different spins `q` (urdm.py:462-498). -/
def occJoin (p q : (f → g → K) × (f → e → K) × (c → g → K) × (c → e → K)) (cfx : c → f → K) (mfy : O → g → K) (cyo : O → e → K) : c → O → K :=
  mm cfx (mm (fun x Y => -(p.1 x Y) / 8 + -(q.1 x Y) / 4) (tp mfy)) + mm cfx (mm (fun x I => -(p.2.1 x I) / 8 + -(q.2.1 x I) / 4) (tp cyo)) +
    mm (fun i Y => -(p.2.2.1 i Y) / 8 + -(q.2.2.1 i Y) / 4) (tp mfy) + mm (fun i I => -(p.2.2.2 i I) / 8 + -(q.2.2.2 i I) / 4) (tp cyo)

end Late

/-- If the pair is skipped (urdm.py:329-346): the larger one of the norms of the two spins is too small, for occupied or for virtual orbitals. -/
def skippedU {c d e h : Spin → Type} (small : Option (∀ m n : Type, (m → n → K) → Bool)) (ro : ∀ σ, c σ → e σ → K) (rv : ∀ σ, d σ → h σ → K) : Bool :=
  match small with
  | none => false
  | some g => (g _ _ (ro .a) && g _ _ (ro .b)) || (g _ _ (rv .a) && g _ _ (rv .b))

/-- The body of the inner loop (urdm.py:274-571): contributions of the pair `x`, `y` to `doox` and `dvvx` of both spins. -/
def pairTermU (s : UMf ι o v K) (w : Opts K) (x y : UFrag ι K) : Except PyErr (∀ σ, (x.c σ → o σ → K) × (x.d σ → v σ → K)) :=
  let cyo := y.mco s
  let cyv := y.mcv s
  let ro : ∀ σ, x.c σ → y.c σ → K := fun σ => mm (tp (x.mco s σ)) (cyo σ)
  let rv : ∀ σ, x.d σ → y.d σ → K := fun σ => mm (tp (x.mcv s σ)) (cyv σ)
  if skippedU w.small ro rv then .ok 0
  else do
    let l2 ← y.lam w.tAsLambda
    if w.late then
      pure fun σ =>
        let τ := σ.other
        (occJoin (occRaw w.svd (x.t2 σ σ) (x.t2 σ σ) (l2 σ σ) (l2 σ σ) (ro σ) (rv σ) (rv σ) (x.cf s σ) (y.cf s σ))
            (occRaw w.svd (x.t2 σ τ) (x.t2 τ σ) (l2 σ τ) (l2 τ σ) (ro τ) (rv σ) (rv τ) (x.cf s τ) (y.cf s τ)) (x.cf s σ) (y.mf s σ) (cyo σ),
          mm (fun b B => virRaw w.svd (x.t2 σ σ) (x.t2 σ σ) (l2 σ σ) (l2 σ σ) (ro σ) (ro σ) (rv σ) (x.cf s σ) (x.cf s σ) (y.cf s σ) (y.cf s σ) b B / 8 +
            virRaw w.svd (x.t2 σ τ) (x.t2 τ σ) (l2 σ τ) (l2 τ σ) (ro σ) (ro τ) (rv τ) (x.cf s σ) (x.cf s τ) (y.cf s σ) (y.cf s τ) b B / 4) (tp (cyv σ)))
    else
      pure fun σ =>
        let t := block (restoredU (x.px s) x.t2)
        let l := block (restoredU (y.px s) l2)
        let τ := σ.other
        let p := fromTl (tlEarly w.svd (t σ σ) (l σ σ) (ro σ) (rv σ)) (ro σ) (rv σ) (cyo σ) (cyv σ)
        let q := fromTl (tlEarly w.svd (t σ τ) (l σ τ) (ro τ) (rv τ)) (ro σ) (rv σ) (cyo σ) (cyv σ)
        (fun i j => p.1 i j * (1 / 2) + q.1 i j, fun a b => p.2 a b * (1 / 2) + q.2 a b)

/-- `loop_symmetry_children` and the fragment itself; without symmetry the fragment only (urdm.py:255, 577-608, 636-667). -/
def UFrag.copies (useSym : Bool) (x : UFrag ι K) : List (Option (ι → ι → K)) := none :: if useSym then x.ops.map some else []

/-- `D[vir,occ] <- T2 * L1` of fragment `x` for one of its copies and one spin (urdm.py:610-667), transposed. -/
def ovTermU (s : UMf ι o v K) (w : Opts K) (l1 : U1 o v K) (x : UFrag ι K) (u : Option (ι → ι → K)) (σ : Spin) : o σ → v σ → K :=
  let l1x : ∀ σ, x.c σ → x.d σ → K := fun σ => mm (tp (x.mco s σ)) (mm (l1 σ) (x.mcv s σ))
  let τ := σ.other
  let cs := mm (tp (s.moOcc σ)) s.ovlp
  let cxo : o σ → x.c σ → K := mm cs (act u (x.cOcc σ))
  let cxv : v σ → x.d σ → K := mm (mm (tp (s.moVir σ)) s.ovlp) (act u (x.cVir σ))
  if w.late then
    let dov1 : x.f σ → x.d σ → K := fun z a => (∑ j, ∑ b, x.t2 σ σ z j a b * l1x σ j b) / 2 + (∑ j, ∑ b, x.t2 σ τ z j a b * l1x τ j b) / 2
    let dov2 : x.c σ → x.d σ → K := fun i a =>
      (∑ z, ∑ b, x.t2 σ σ z i b a * mm (tp (x.cf s σ)) (l1x σ) z b) / 2 + (∑ z, ∑ b, x.t2 τ σ z i b a * mm (tp (x.cf s τ)) (l1x τ) z b) / 2
    let cxf : o σ → x.f σ → K := match u with
      | none => mm (x.mco s σ) (x.cf s σ)
      | some u => mm cs (mm u (x.cFrag σ))
    mm cxf (mm dov1 (tp cxv)) + mm cxo (mm dov2 (tp cxv))
  else
    let t := block (restoredU (x.px s) x.t2)
    let dov : x.c σ → x.d σ → K := fun i a => (∑ j, ∑ b, t σ σ i j a b * l1x σ j b) + ∑ j, ∑ b, t σ τ i j a b * l1x τ j b
    mm cxo (mm dov (tp cxv))

/-- The body of the outer loop (urdm.py:255-667): contributions to `doo`, `dvv` and `dov` of both spins. `all` are all fragments. -/
def xTermU (s : UMf ι o v K) (w : Opts K) (all : List (UFrag ι K)) (l1 : U1 o v K) (x : UFrag ι K) :
    Except PyErr (∀ σ, (o σ → o σ → K) × (v σ → v σ → K) × (o σ → v σ → K)) := do
  let d ← accumulate (pairTermU s w x) all
  let image (σ : Spin) (u : ι → ι → K) : (o σ → o σ → K) × (v σ → v σ → K) :=
    let cso := mm (tp (s.moOcc σ)) s.ovlp
    let csv := mm (tp (s.moVir σ)) s.ovlp
    (mm cso (mm (mm u (x.cOcc σ)) (mm (mm (mm (d σ).1 (tp (s.moOcc σ))) (tp u)) (tp cso))),
      mm csv (mm (mm u (x.cVir σ)) (mm (mm (mm (d σ).2 (tp (s.moVir σ))) (tp u)) (tp csv))))
  pure fun σ =>
    let sym := ((if w.useSym then x.ops else []).map (image σ)).sum
    (mm (x.mco s σ) (d σ).1 + sym.1, mm (x.mcv s σ) (d σ).2 + sym.2,
      if w.withT1 then ((x.copies w.useSym).map fun u => ovTermU s w l1 x u σ).sum else 0)

/-- The end of the function for one spin (urdm.py:678-716). -/
def combineU {o v : Type} [Fintype o] [Fintype v] (withT1 : Bool) (t1 l1 : T1 o v K) (d : (o → o → K) × (v → v → K) × (o → v → K)) : o ⊕ v → o ⊕ v → K :=
  let m : o ⊕ v → o ⊕ v → K :=
    if withT1 then
      let xt1 : o → o → K := fun m i => -(d.1 i m)
      let xt2 : v → v → K := fun a e => d.2.1 a e + ∑ m, t1 m a * l1 m e
      let doo : o → o → K := fun i j => d.1 i j - ∑ e, l1 i e * t1 j e
      let dvv : v → v → K := fun a b => d.2.1 a b + ∑ m, t1 m a * l1 m b
      let dov : o → v → K := fun i a => d.2.2 i a - (∑ m, xt1 m i * t1 m a) - (∑ e, t1 i e * xt2 a e) + (t1 i a + l1 i a)
      blocks (fun i j => doo i j + doo j i) dov (fun a b => dvv a b + dvv b a)
    else blocks (fun i j => d.1 i j + d.1 j i) 0 (fun a b => d.2.1 a b + d.2.1 b a)
  fun p q => (m p q + m q p) / 4

/-- `make_rdm1_ccsd_global_wf(slow=False)` (urdm.py:220-722). `l` holds the symmetry parents. The outer loop runs over the parents if symmetry is used and
over all fragments otherwise, the inner one always over all fragments. -/
def fastU (s : UMf ι o v K) (w : Opts K) (l : List (UFrag ι K)) : Except PyErr (∀ σ, o σ ⊕ v σ → o σ ⊕ v σ → K) := do
  let t1 ← bif w.withT1 then globT1 s false l else pure 0
  let l1 ← bif w.withT1 then (bif w.tAsLambda then pure t1 else globT1 s true l) else pure 0
  let all := l.flatMap UFrag.family
  let d ← accumulate (xTermU s w all l1) (if w.useSym then l else all)
  pure fun σ => combineU w.withT1 (t1 σ) (l1 σ) (d σ)

/-- `UEWF._make_rdm1_ccsd_global_wf` (uewf.py:80-89) with the result of the function above. -/
def finishU {o v : Spin → Type} [∀ σ, DecidableEq (o σ)] (withMf : Bool) (d : ∀ σ, o σ ⊕ v σ → o σ ⊕ v σ → K) (σ : Spin) : o σ ⊕ v σ → o σ ⊕ v σ → K :=
  if withMf then addMfU (d σ) else d σ

/-! ## make_rdm1_ccsd -/

/-- The rest of the loop body (urdm.py:67-115) for one spin: contributions of a fragment to `doo`, `dvv`, `dov`, with `ba_order="ba"`. -/
def fragBlocksU (s : UMf ι o v K) (symmetrize mp2 : Bool) (l1 : U1 o v K) (x : UFrag ι K) (l2 : ∀ σ τ, T2 (x.f σ) (x.c τ) (x.d σ) (x.d τ) K) (σ : Spin) :
    (o σ → o σ → K) × (v σ → v σ → K) × (o σ → v σ → K) :=
  let τ := σ.other
  let co := x.mco s
  let cv := x.mcv s
  let fo := x.mf s
  let oo (τ : Spin) : o σ → o σ → K := fun I J => ∑ k, ∑ i, ∑ j, ∑ a, ∑ b, l2 τ σ k i a b * x.t2 τ σ k j a b * co σ I i * co σ J j
  let vv1 : v σ → v σ → K := fun A B => ∑ i, ∑ j, ∑ a, ∑ b, ∑ c, x.t2 σ σ i j a c * l2 σ σ i j b c * cv σ A a * cv σ B b
  let vv2 : v σ → v σ → K := fun A B => ∑ i, ∑ j, ∑ a, ∑ b, ∑ c, x.t2 τ σ i j c a * l2 τ σ i j c b * cv σ A a * cv σ B b
  let ov1 (τ : Spin) : o σ → v σ → K := fun I A => ∑ i, ∑ j, ∑ a, ∑ b, x.t2 σ τ i j a b * fo σ I i * cv σ A a * mm (tp (co τ)) (mm (l1 τ) (cv τ)) j b
  let ov2 (τ : Spin) : o σ → v σ → K := fun I A => ∑ j, ∑ i, ∑ b, ∑ a, x.t2 τ σ j i b a * co σ I i * cv σ A a * mm (tp (fo τ)) (mm (l1 τ) (cv τ)) j b
  (fun I J => -(oo σ I J) / 2 - oo τ I J, fun A B => vv1 A B / 2 + vv2 A B,
    if mp2 then 0
    else if symmetrize then fun I A => ov1 σ I A / 2 + ov2 σ I A / 2 + (ov1 τ I A / 2 + ov2 τ I A / 2)
    else fun I A => ov1 σ I A + ov1 τ I A)

/-- The loop body (urdm.py:59-115). The option `t_as_lambda` of the fragment is not looked at; None is unpacked if there are no lambda amplitudes. -/
def fragTermU (s : UMf ι o v K) (tAsLambda symmetrize mp2 : Bool) (l1 : U1 o v K) (x : UFrag ι K) :
    Except PyErr (∀ σ, (o σ → o σ → K) × (v σ → v σ → K) × (o σ → v σ → K)) :=
  match (if tAsLambda then some x.t2 else x.l2) with
  | none => .error .typeError
  | some l2 => .ok (fragBlocksU s symmetrize mp2 l1 x l2)

/-- The end of the function for one spin (urdm.py:126-163). -/
def combineF {o v : Type} [Fintype o] [Fintype v] (mp2 : Bool) (t1 l1 : T1 o v K) (d : (o → o → K) × (v → v → K) × (o → v → K)) : o ⊕ v → o ⊕ v → K :=
  let m : o ⊕ v → o ⊕ v → K :=
    if mp2 then blocks (fun i j => d.1 i j + d.1 j i) 0 (fun a b => d.2.1 a b + d.2.1 b a)
    else
      let doo : o → o → K := fun I J => d.1 I J - ∑ A, l1 I A * t1 J A
      let dvv : v → v → K := fun A B => d.2.1 A B + ∑ I, t1 I A * l1 I B
      let dov : o → v → K := fun J A => d.2.2 J A + (∑ I, d.1 I J * t1 I A) - (∑ B, t1 J B * dvv A B) + (t1 J A + l1 J A)
      blocks (fun i j => doo i j + doo j i) dov (fun a b => dvv a b + dvv b a)
  fun p q => m p q / 2

/-- `make_rdm1_ccsd` (urdm.py:12-172) with `with_mf=False`, `ao_basis=False`. -/
def rdm1CcsdU (s : UMf ι o v K) (tAsLambda symmetrize mp2 : Bool) (l : List (UFrag ι K)) : Except PyErr (∀ σ, o σ ⊕ v σ → o σ ⊕ v σ → K) := do
  let tl := tAsLambda || mp2
  let t1 ← bif mp2 then pure 0 else globT1 s false l
  let l1 ← bif mp2 then pure 0 else bif tl then pure t1 else globT1 s true l
  let d ← accumulate (fragTermU s tl symmetrize mp2 l1) (l.flatMap UFrag.family)
  pure fun σ => combineF mp2 (t1 σ) (l1 σ) (d σ)

end Vayesta.EwfURdm
