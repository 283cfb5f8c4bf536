import Mathlib.Algebra.BigOperators.Ring.Finset
import Mathlib.Algebra.BigOperators.Group.Finset.Sigma
import Mathlib.Algebra.Field.Basic
import Mathlib.Data.Fintype.Sum

/-! Spin-traced one- and two-body density matrices of restricted coupled cluster (`vayesta/core/vpyscf/ccsd_rdm.py`).

Simplified throughout: numbers are real (`conj` is the identity) and exact; occupied and virtual orbitals are two finite types and the array of all orbitals is indexed by
their disjoint union; work in blocks of virtual orbitals, the HDF5 files, time measurement, `compress_vvvv = True`, frozen orbitals and `ao_repr` are not modelled. Every
intermediate is a function of the amplitudes it is built from; in-place updates of one array become one sum in the order of the updates. -/

namespace Vayesta.CcRdm2

variable {o v K : Type} [Fintype o] [Fintype v] [Field K]

/-- Amplitudes `t1, t2` and multipliers `l1, l2` (arguments of ccsd_rdm.py `make_rdm1` and `make_rdm2`, lines 230 and 245). -/
structure Amps (o v K : Type) where
  t1 : o → v → K
  t2 : o → o → v → v → K
  l1 : o → v → K
  l2 : o → o → v → v → K

variable (x : Amps o v K)

/-- ccsd_rdm.py line 38 (and 79): `theta = t2 * 2 - t2.transpose(0, 1, 3, 2)`. -/
def theta (i j : o) (a b : v) : K := x.t2 i j a b * 2 - x.t2 i j b a

/-! ## `_gamma1_intermediates` (ccsd_rdm.py lines 32-47) -/

/-- ccsd_rdm.py lines 34 and 39. -/
def doo (i j : o) : K := -(∑ a, x.t1 j a * x.l1 i a) - ∑ k, ∑ a, ∑ b, theta x j k a b * x.l2 i k a b

/-- ccsd_rdm.py lines 35 and 40. -/
def dvv (a b : v) : K := ∑ i, x.t1 i a * x.l1 i b + ∑ j, ∑ i, ∑ c, theta x j i c a * x.l2 j i c b

/-- ccsd_rdm.py line 36. -/
def xtv (i m : o) : K := ∑ e, x.t1 i e * x.l1 m e

/-- ccsd_rdm.py line 41. -/
def xt1 (m i : o) : K := ∑ n, ∑ e, ∑ f, x.l2 m n e f * theta x i n e f

/-- ccsd_rdm.py line 42. -/
def xt2 (e a : v) : K := ∑ m, ∑ n, ∑ f, x.l2 m n a f * theta x m n e f

/-- ccsd_rdm.py lines 37, 43, 44, 45. -/
def dvo (a : v) (i : o) : K :=
  x.t1 i a - ∑ m, xtv x i m * x.t1 m a + ∑ m, ∑ e, theta x i m a e * x.l1 m e - ∑ m, xt1 x m i * x.t1 m a - ∑ e, x.t1 i e * xt2 x a e

/-- ccsd_rdm.py line 46. -/
def dov (i : o) (a : v) : K := x.l1 i a

/-! ## `_gamma2_outcore` (ccsd_rdm.py lines 58-227) -/

/-- ccsd_rdm.py line 71. -/
def pvOOv (a : v) (i j : o) (b : v) : K := ∑ k, ∑ c, x.l2 i k c a * x.t2 j k c b

/-- ccsd_rdm.py lines 78 and 80. -/
def pvoOV (a : v) (i j : o) (b : v) : K := -(∑ k, ∑ c, x.l2 i k c a * x.t2 j k b c) + ∑ k, ∑ c, x.l2 i k a c * theta x j k b c

/-- ccsd_rdm.py lines 72 and 81. -/
def moo (j l : o) : K := (∑ d, pvOOv x d l j d) * 2 + ∑ d, pvoOV x d l j d

/-- ccsd_rdm.py lines 73 and 82. -/
def mvv (d b : v) : K := (∑ l, pvOOv x b l l d) * 2 + ∑ l, pvoOV x b l l d

/-- ccsd_rdm.py line 87. -/
def mia (i : o) (a : v) : K := (∑ k, ∑ c, x.l1 k c * x.t2 i k a c) * 2 - ∑ k, ∑ c, x.l1 k c * x.t2 i k c a

/-- ccsd_rdm.py line 88. -/
def mab (c b : v) : K := ∑ k, x.l1 k c * x.t1 k b

/-- ccsd_rdm.py line 89. -/
def mij (j k : o) : K := ∑ c, x.l1 k c * x.t1 j c + moo x j k / 2

/-- ccsd_rdm.py lines 91-92 (and 118-119). -/
def tau (i j : o) (a b : v) : K := x.t1 i a * x.t1 j b + x.t2 i j a b

/-- ccsd_rdm.py line 93. -/
def goooo (i j k l : o) : K := (∑ a, ∑ b, tau x i j a b * x.l2 k l a b) / 2

/-- ccsd_rdm.py line 94. -/
def doooo (i k j l : o) : K := goooo x i j k l * 2 - goooo x i j l k

/-- ccsd_rdm.py lines 74, 83, 96-98, 100. -/
def gooov (j k i : o) (a : v) : K :=
  ∑ c, x.t1 k c * pvOOv x c i j a - ∑ c, x.t1 j c * pvoOV x c i k a + -(moo x j i / 2) * x.t1 k a + ∑ l, 2 * x.t1 l a * goooo x j k i l
    - ∑ b, x.l1 i b * tau x j k b a - ∑ b, x.l2 j k b a * x.t1 i b

/-- ccsd_rdm.py line 101. -/
def dooov (j i k : o) (a : v) : K := gooov x j k i a * 2 - gooov x k j i a

/-- ccsd_rdm.py lines 131-132. -/
def gOvvO (i : o) (a b : v) (j : o) : K := ∑ k, ∑ c, x.l2 k i a c * x.t1 j c * x.t1 k b + pvOOv x a i j b

/-- ccsd_rdm.py lines 133-135. -/
def govVO (i : o) (a b : v) (j : o) : K := x.l1 i a * x.t1 j b - ∑ k, ∑ c, x.l2 i k a c * x.t1 j c * x.t1 k b + pvoOV x a i j b

/-- ccsd_rdm.py line 136. -/
def dovvo (i : o) (a b : v) (j : o) : K := 2 * govVO x i a b j + gOvvO x i a b j

/-- ccsd_rdm.py line 137. -/
def doovv (j i : o) (a b : v) : K := -(2 * gOvvO x i a b j) - govVO x i a b j

/-- ccsd_rdm.py line 140: `tau` less half of `t2`. -/
def tau' (i j : o) (a b : v) : K := tau x i j a b - x.t2 i j a b / 2

/-- ccsd_rdm.py lines 120-126. -/
def tmpoovv (i j : o) (a b : v) : K :=
  ∑ k, ∑ l, goooo x i j k l * tau x k l a b - ∑ k, mij x j k * tau x i k a b - ∑ c, mab x c b * x.t2 i j a c - ∑ d, mvv x b d / 2 * tau x i j a d
    + tau x i j a b / 2 + x.l2 i j a b / 2

/-- ccsd_rdm.py lines 105, 127, 142-145; sums over the blocks of the contracted virtual orbital are one sum. -/
def goovv (i j : o) (a b : v) : K :=
  mia x i a * x.t1 j b + tmpoovv x i j a b + ∑ d, ∑ l, pvOOv x d l i b * tau' x j l d a - ∑ d, ∑ l, pvoOV x d l i a * tau' x j l d b
    + ∑ d, ∑ l, (pvoOV x d l i a + pvOOv x d l i a / 2) * x.t2 j l b d

/-- ccsd_rdm.py line 148. -/
def dovov (i : o) (a : v) (j : o) (b : v) : K := goovv x i j a b * 2 - goovv x j i a b

/-- ccsd_rdm.py lines 164-166. -/
def gvvvv (a b c d : v) : K := ∑ i, ∑ j, x.l2 i j a b * x.t2 i j c d + ∑ j, (∑ i, x.l2 i j a b * x.t1 i c) * x.t1 j d

/-- ccsd_rdm.py lines 197-198. -/
def dvvvv (a c b d : v) : K := gvvvv x a b c d - gvvvv x a b d c / 2

/-- ccsd_rdm.py lines 200-210. -/
def gvovv (a : v) (i : o) (b c : v) : K :=
  ∑ d, gvvvv x a d b c * -x.t1 i d + ∑ k, pvoOV x a k i c * x.t1 k b - ∑ k, pvOOv x a k i b * x.t1 k c + ∑ j, x.l1 j a * x.t2 j i b c
    + ∑ j, x.l1 j a * x.t1 j b * x.t1 i c + mvv x b a / 2 * x.t1 i c + ∑ j, x.t1 j a * x.l2 j i b c

/-- ccsd_rdm.py line 212. -/
def dovvv (i : o) (c a b : v) : K := gvovv x a i b c * 2 - gvovv x a i c b

/-! ## `_make_rdm1` and `_make_rdm2` (ccsd_rdm.py lines 260-390) -/

/-- ccsd_rdm.py line 47: the tuple returned by `_gamma1_intermediates`. -/
structure D1 (o v K : Type) where
  doo : o → o → K
  dov : o → v → K
  dvo : v → o → K
  dvv : v → v → K

/-- ccsd_rdm.py lines 32-47. -/
def gamma1 : D1 o v K := ⟨doo x, dov x, dvo x, dvv x⟩

/-- ccsd_rdm.py lines 218-227: the tuple returned by `_gamma2_outcore`, without `dvvov`, which is `None`. -/
structure D2 (o v K : Type) where
  dovov : o → v → o → v → K
  dvvvv : v → v → v → v → K
  doooo : o → o → o → o → K
  doovv : o → o → v → v → K
  dovvo : o → v → v → o → K
  dovvv : o → v → v → v → K
  dooov : o → o → o → v → K

/-- ccsd_rdm.py lines 51-227. -/
def gamma2 : D2 o v K := ⟨dovov x, dvvvv x, doooo x, doovv x, dovvo x, dovvv x, dooov x⟩

/-- ccsd_rdm.py lines 260-276 (`_make_rdm1`), `with_mf` as given. -/
def rdm1Of [DecidableEq o] (d : D1 o v K) (mf : Bool) : o ⊕ v → o ⊕ v → K
  | .inl i, .inl j => d.doo i j + d.doo j i + (if mf ∧ i = j then 2 else 0)
  | .inl i, .inr a => d.dov i a + d.dvo a i
  | .inr a, .inl i => d.dov i a + d.dvo a i
  | .inr a, .inr b => d.dvv a b + d.dvv b a

/-- ccsd_rdm.py lines 230-242 (`make_rdm1`). -/
def makeRdm1 [DecidableEq o] (mf : Bool) : o ⊕ v → o ⊕ v → K := rdm1Of (gamma1 x) mf

/-- ccsd_rdm.py lines 307-356 (`_make_rdm2`): the array `dm2` before the part of the one-body density matrix is added. -/
def rdm2Of (d : D2 o v K) : o ⊕ v → o ⊕ v → o ⊕ v → o ⊕ v → K
  | .inl i, .inr a, .inl j, .inr b => d.dovov i a j b + d.dovov j b i a
  | .inr a, .inl i, .inr b, .inl j => d.dovov i a j b + d.dovov j b i a
  | .inl i, .inl j, .inr a, .inr b => d.doovv i j a b + d.doovv j i b a
  | .inr a, .inr b, .inl i, .inl j => d.doovv i j a b + d.doovv j i b a
  | .inl i, .inr a, .inr b, .inl j => d.dovvo i a b j + d.dovvo j b a i
  | .inr a, .inl i, .inl j, .inr b => d.dovvo i a b j + d.dovvo j b a i
  | .inr a, .inr b, .inr c, .inr e => (d.dvvvv a b c e + d.dvvvv b a e c) * 2
  | .inl i, .inl j, .inl k, .inl l => (d.doooo i j k l + d.doooo j i l k) * 2
  | .inl i, .inr a, .inr b, .inr c => d.dovvv i a b c
  | .inr a, .inr b, .inl i, .inr c => d.dovvv i c a b
  | .inr a, .inr b, .inr c, .inl i => d.dovvv i c b a
  | .inr a, .inl i, .inr b, .inr c => d.dovvv i a c b
  | .inl i, .inl j, .inl k, .inr a => d.dooov i j k a
  | .inl i, .inr a, .inl j, .inl k => d.dooov j k i a
  | .inl i, .inl j, .inr a, .inl k => d.dooov j i k a
  | .inr a, .inl i, .inl j, .inl k => d.dooov k j i a

/-- ccsd_rdm.py lines 307-356, for the intermediates of lines 51-227. -/
def blocks2 : o ⊕ v → o ⊕ v → o ⊕ v → o ⊕ v → K := rdm2Of (gamma2 x)

/-- Occupied and equal, as a number: the indices touched by the loops of ccsd_rdm.py lines 371-380. -/
def occEq [DecidableEq o] : o ⊕ v → o ⊕ v → K
  | .inl i, .inl j => if i = j then 1 else 0
  | _, _ => 0

/-- ccsd_rdm.py lines 367-386: addition of the one-body part, and the transposition at the end. The loops over `i` (and `j`) add to the entries whose two indices are both `i`. -/
def makeRdm2 [DecidableEq o] (dm1 : Bool) (p q r s : o ⊕ v) : K :=
  let full (p q r s : o ⊕ v) : K :=
    bif dm1 then
      blocks2 x p q r s + occEq p q * (makeRdm1 x false r s * 2) + occEq r s * (makeRdm1 x false p q * 2) - occEq q r * makeRdm1 x false p s
        - occEq p s * makeRdm1 x false r q + occEq p q * occEq r s * 4 - occEq p s * occEq q r * 2
    else blocks2 x p q r s
  full q p s r

end Vayesta.CcRdm2
