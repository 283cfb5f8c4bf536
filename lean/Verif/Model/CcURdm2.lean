import Verif.Model.CcRdm2

/-! Density matrices of unrestricted coupled cluster, vayesta/core/vpyscf/uccsd_rdm.py. Real numbers (`conj` is the identity), no frozen orbitals, molecular-orbital basis,
`compress_vvvv=False`. A variable of the code that is assigned again gets a number; statements `x += ...` are further terms of the definition of `x`. Arrays are functions of their indices;
lower case letters in names of arrays are alpha, upper case letters beta, as in the code. -/

namespace Vayesta.CcURdm2
open scoped BigOperators

/-- The arguments `t1, t2, l1, l2` of the functions of uccsd_rdm.py (lines 31-34, 89-92). -/
structure UAmps (oa ob va vb K : Type) where
  t1a : oa → va → K
  t1b : ob → vb → K
  t2aa : oa → oa → va → va → K
  t2ab : oa → ob → va → vb → K
  t2bb : ob → ob → vb → vb → K
  l1a : oa → va → K
  l1b : ob → vb → K
  l2aa : oa → oa → va → va → K
  l2ab : oa → ob → va → vb → K
  l2bb : ob → ob → vb → vb → K

variable {oa ob va vb K : Type} [Fintype oa] [Fintype ob] [Fintype va] [Fintype vb] [Field K]
variable (x : UAmps oa ob va vb K)

/-- uccsd_rdm.py lines 38-39. -/
def tmpA (p : oa) (q : oa) : K :=
  (∑ m : ob, ∑ n : va, ∑ e : vb, x.l2ab p m n e * x.t2ab q m n e) + (∑ m : oa, ∑ n : va, ∑ e : va, x.l2aa p m n e * x.t2aa q m n e) / 2

/-- uccsd_rdm.py lines 41-42. -/
def tmpB (p : ob) (q : ob) : K :=
  (∑ m : oa, ∑ n : va, ∑ e : vb, x.l2ab m p n e * x.t2ab m q n e) + (∑ m : ob, ∑ n : vb, ∑ e : vb, x.l2bb p m n e * x.t2bb q m n e) / 2

/-- uccsd_rdm.py lines 44-45. -/
def tmpC (p : va) (q : va) : K :=
  (∑ m : oa, ∑ n : ob, ∑ e : vb, x.t2ab m n p e * x.l2ab m n q e) + (∑ m : oa, ∑ n : oa, ∑ e : va, x.t2aa m n p e * x.l2aa m n q e) / 2

/-- uccsd_rdm.py lines 47-48. -/
def tmpD (p : vb) (q : vb) : K :=
  (∑ m : oa, ∑ n : ob, ∑ e : va, x.t2ab m n e p * x.l2ab m n e q) + (∑ m : ob, ∑ n : ob, ∑ e : vb, x.t2bb m n p e * x.l2bb m n q e) / 2

/-- uccsd_rdm.py lines 50-51. -/
def dooa (p : oa) (q : oa) : K :=
  -((∑ m : va, x.l1a p m * x.t1a q m)) - tmpA x p q

/-- uccsd_rdm.py lines 52-53. -/
def doob (p : ob) (q : ob) : K :=
  -((∑ m : vb, x.l1b p m * x.t1b q m)) - tmpB x p q

/-- uccsd_rdm.py lines 55-56. -/
def dvva (p : va) (q : va) : K :=
  (∑ m : oa, x.t1a m p * x.l1a m q) + tmpC x p q

/-- uccsd_rdm.py lines 57-58. -/
def dvvb (p : vb) (q : vb) : K :=
  (∑ m : ob, x.t1b m p * x.l1b m q) + tmpD x p q

/-- uccsd_rdm.py line 60. -/
def xt1a (p : oa) (q : oa) : K :=
  tmpA x p q

/-- uccsd_rdm.py lines 61-62. -/
def xt2a (p : va) (q : va) : K :=
  tmpC x p q + (∑ m : oa, x.t1a m p * x.l1a m q)

/-- uccsd_rdm.py line 64. -/
def xt1b (p : ob) (q : ob) : K :=
  tmpB x p q

/-- uccsd_rdm.py lines 65-66. -/
def xt2b (p : vb) (q : vb) : K :=
  tmpD x p q + (∑ m : ob, x.t1b m p * x.l1b m q)

/-- uccsd_rdm.py lines 68-72. -/
def dvoa (p : va) (q : oa) : K :=
  (∑ m : oa, ∑ n : va, x.t2aa q m p n * x.l1a m n)
    + (∑ m : ob, ∑ n : vb, x.t2ab q m p n * x.l1b m n)
    - (∑ m : oa, xt1a x m q * x.t1a m p)
    - (∑ m : va, x.t1a q m * xt2a x p m) + x.t1a q p

/-- uccsd_rdm.py lines 74-78. -/
def dvob (p : vb) (q : ob) : K :=
  (∑ m : ob, ∑ n : vb, x.t2bb q m p n * x.l1b m n)
    + (∑ m : oa, ∑ n : va, x.t2ab m q n p * x.l1a m n)
    - (∑ m : ob, xt1b x m q * x.t1b m p)
    - (∑ m : vb, x.t1b q m * xt2b x p m) + x.t1b q p

/-- uccsd_rdm.py line 80. -/
def dova (p : oa) (q : va) : K :=
  x.l1a p q

/-- uccsd_rdm.py line 81. -/
def dovb (p : ob) (q : vb) : K :=
  x.l1b p q

/-- uccsd_rdm.py line 94. -/
def tauaa (p : oa) (q : oa) (r : va) (s : va) : K :=
  x.t2aa p q r s + x.t1a p r * x.t1a q s * 2

/-- uccsd_rdm.py line 95. -/
def tauab (p : oa) (q : ob) (r : va) (s : vb) : K :=
  x.t2ab p q r s + x.t1a p r * x.t1b q s

/-- uccsd_rdm.py line 96. -/
def taubb (p : ob) (q : ob) (r : vb) (s : vb) : K :=
  x.t2bb p q r s + x.t1b p r * x.t1b q s * 2

/-- uccsd_rdm.py lines 97-98. -/
def miajb (p : oa) (q : va) (r : oa) (s : va) : K :=
  (∑ m : oa, ∑ n : va, x.l2aa p m q n * x.t2aa m r n s) + (∑ m : ob, ∑ n : vb, x.l2ab p m q n * x.t2ab r m s n)

/-- uccsd_rdm.py lines 99-100. -/
def miaJB (p : oa) (q : va) (r : ob) (s : vb) : K :=
  (∑ m : oa, ∑ n : va, x.l2aa p m q n * x.t2ab m r n s) + (∑ m : ob, ∑ n : vb, x.l2ab p m q n * x.t2bb m r n s)

/-- uccsd_rdm.py lines 101-102. -/
def mIAjb (p : ob) (q : vb) (r : oa) (s : va) : K :=
  (∑ m : ob, ∑ n : vb, x.l2bb m p n q * x.t2ab r m s n) + (∑ m : oa, ∑ n : va, x.l2ab m p n q * x.t2aa m r n s)

/-- uccsd_rdm.py lines 103-104. -/
def mIAJB (p : ob) (q : vb) (r : ob) (s : vb) : K :=
  (∑ m : ob, ∑ n : vb, x.l2bb p m q n * x.t2bb m r n s) + (∑ m : oa, ∑ n : va, x.l2ab m p n q * x.t2ab m r n s)

/-- uccsd_rdm.py line 105. -/
def miAjB (p : oa) (q : vb) (r : oa) (s : vb) : K :=
  (∑ m : ob, ∑ n : va, x.l2ab p m n q * x.t2ab r m n s)

/-- uccsd_rdm.py line 106. -/
def mIaJb (p : ob) (q : va) (r : ob) (s : va) : K :=
  (∑ m : oa, ∑ n : vb, x.l2ab m p q n * x.t2ab m r s n)

/-- uccsd_rdm.py lines 112-113. -/
def tmpa (p : oa) (q : va) : K :=
  (∑ m : oa, ∑ n : va, x.l1a m n * x.t2aa m p n q) + (∑ m : ob, ∑ n : vb, x.l1b m n * x.t2ab p m q n)

/-- uccsd_rdm.py lines 114-115. -/
def tmpb (p : ob) (q : vb) : K :=
  (∑ m : ob, ∑ n : vb, x.l1b m n * x.t2bb m p n q) + (∑ m : oa, ∑ n : va, x.l1a m n * x.t2ab m p n q)

/-- uccsd_rdm.py line 121. -/
def tmpa_2 (p : va) (q : va) : K :=
  (∑ m : oa, x.l1a m p * x.t1a m q)

/-- uccsd_rdm.py line 122. -/
def tmpb_2 (p : vb) (q : vb) : K :=
  (∑ m : ob, x.l1b m p * x.t1b m q)

/-- uccsd_rdm.py line 127. -/
def tmpa_3 (p : oa) (q : oa) : K :=
  (∑ m : va, x.l1a p m * x.t1a q m)

/-- uccsd_rdm.py line 128. -/
def tmpb_3 (p : ob) (q : ob) : K :=
  (∑ m : vb, x.l1b p m * x.t1b q m)

/-- uccsd_rdm.py lines 134-135. -/
def tmpa_4 (p : oa) (q : oa) : K :=
  (∑ m : va, miajb x p m q m) + (∑ m : vb, miAjB x p m q m)

/-- uccsd_rdm.py lines 136-137. -/
def tmpb_4 (p : ob) (q : ob) : K :=
  (∑ m : vb, mIAJB x p m q m) + (∑ m : va, mIaJb x p m q m)

/-- uccsd_rdm.py lines 142-143. -/
def tmpa_5 (p : va) (q : va) : K :=
  (∑ m : oa, miajb x m p m q) + (∑ m : ob, mIaJb x m p m q)

/-- uccsd_rdm.py lines 144-145. -/
def tmpb_5 (p : vb) (q : vb) : K :=
  (∑ m : ob, mIAJB x m p m q) + (∑ m : oa, miAjB x m p m q)

/-- uccsd_rdm.py line 162. -/
def tmpaa (p : oa) (q : oa) (r : oa) (s : oa) : K :=
  (∑ m : va, ∑ n : va, x.l2aa r s m n * tauaa x p q m n) / 16

/-- uccsd_rdm.py line 163. -/
def tmpbb (p : ob) (q : ob) (r : ob) (s : ob) : K :=
  (∑ m : vb, ∑ n : vb, x.l2bb r s m n * taubb x p q m n) / 16

/-- uccsd_rdm.py line 164. -/
def tmpabab (p : oa) (q : ob) (r : oa) (s : ob) : K :=
  (∑ m : va, ∑ n : vb, x.l2ab r s m n * tauab x p q m n) / 2

/-- uccsd_rdm.py lines 108, 116, 123, 129, 138, 146, 151-152, 165. -/
def goovv (p : oa) (q : oa) (r : va) (s : va) : K :=
  x.l2aa p q r s / 4 + tauaa x p q r s / 4 + tmpa x p r * x.t1a q s
    + (∑ m : va, tmpa_2 x m s * x.t2aa p q m r) / 2
    + (∑ m : oa, tauaa x m p r s * tmpa_3 x m q) / 2
    - (∑ m : oa, tmpa_4 x m q * tauaa x m p s r) / 4
    - (∑ m : va, tmpa_5 x m s * tauaa x q p m r) / 4
    - (∑ m : oa, ∑ n : va, miajb x m n p r * tauaa x m q s n) / 2
    + (∑ m : ob, ∑ n : vb, mIAjb x m n p r * x.t2ab q m s n) / 2
    + (∑ m : oa, ∑ n : oa, tmpaa x p q m n * tauaa x m n r s)

/-- uccsd_rdm.py lines 109, 117-118, 124-125, 130-131, 139-140, 147-148, 155-160, 166. -/
def goOvV (p : oa) (q : ob) (r : va) (s : vb) : K :=
  x.l2ab p q r s / 2 + tauab x p q r s / 2 + tmpa x p r * x.t1b q s / 2 + tmpb x q s * x.t1a p r / 2
    - (∑ m : vb, tmpb_2 x m s * x.t2ab p q r m) / 2
    - (∑ m : va, tmpa_2 x m r * x.t2ab p q m s) / 2
    - (∑ m : ob, tauab x p m r s * tmpb_3 x m q) / 2
    - (∑ m : oa, tauab x m q r s * tmpa_3 x m p) / 2
    - (∑ m : ob, tmpb_4 x m q * tauab x p m r s) / 4
    - (∑ m : oa, tmpa_4 x m p * tauab x m q r s) / 4
    - (∑ m : vb, tmpb_5 x m s * tauab x p q r m) / 4
    - (∑ m : va, tmpa_5 x m r * tauab x p q m s) / 4
    - (∑ m : ob, ∑ n : vb, mIAjb x m n p r * taubb x m q s n) / 4
    + (∑ m : oa, ∑ n : va, miajb x m n p r * x.t2ab m q n s) / 4
    - (∑ m : oa, ∑ n : va, miaJB x m n q s * tauaa x m p r n) / 4
    + (∑ m : ob, ∑ n : vb, mIAJB x m n q s * x.t2ab p m r n) / 4
    + (∑ m : oa, ∑ n : vb, miAjB x m n p s * tauab x m q r n) / 2
    + (∑ m : ob, ∑ n : va, mIaJb x m n q r * x.t1a p n * x.t1b m s) / 2
    + (∑ m : oa, ∑ n : ob, tmpabab x p q m n * tauab x m n r s)

/-- uccsd_rdm.py lines 110, 119, 126, 132, 141, 149, 153-154, 167. -/
def gOOVV (p : ob) (q : ob) (r : vb) (s : vb) : K :=
  x.l2bb p q r s / 4 + taubb x p q r s / 4 + tmpb x p r * x.t1b q s
    + (∑ m : vb, tmpb_2 x m s * x.t2bb p q m r) / 2
    + (∑ m : ob, taubb x m p r s * tmpb_3 x m q) / 2
    - (∑ m : ob, tmpb_4 x m q * taubb x m p s r) / 4
    - (∑ m : vb, tmpb_5 x m s * taubb x q p m r) / 4
    - (∑ m : ob, ∑ n : vb, mIAJB x m n p r * taubb x m q s n) / 2
    + (∑ m : oa, ∑ n : va, miaJB x m n p r * x.t2ab m q n s) / 2
    + (∑ m : ob, ∑ n : ob, tmpbb x p q m n * taubb x m n r s)

/-- uccsd_rdm.py line 172. -/
def gvvvv (p : va) (q : va) (r : va) (s : va) : K :=
  (∑ m : oa, ∑ n : oa, tauaa x m n p q * x.l2aa m n r s) / 8

/-- uccsd_rdm.py line 173. -/
def gvVvV (p : va) (q : vb) (r : va) (s : vb) : K :=
  (∑ m : oa, ∑ n : ob, tauab x m n p q * x.l2ab m n r s) / 4

/-- uccsd_rdm.py line 174. -/
def gVVVV (p : vb) (q : vb) (r : vb) (s : vb) : K :=
  (∑ m : ob, ∑ n : ob, taubb x m n p q * x.l2bb m n r s) / 8

/-- uccsd_rdm.py line 176. -/
def goooo (p : oa) (q : oa) (r : oa) (s : oa) : K :=
  (∑ m : va, ∑ n : va, x.l2aa p q m n * tauaa x r s m n) / 8

/-- uccsd_rdm.py line 177. -/
def goOoO (p : oa) (q : ob) (r : oa) (s : ob) : K :=
  (∑ m : va, ∑ n : vb, x.l2ab p q m n * tauab x r s m n) / 4

/-- uccsd_rdm.py line 178. -/
def gOOOO (p : ob) (q : ob) (r : ob) (s : ob) : K :=
  (∑ m : vb, ∑ n : vb, x.l2bb p q m n * taubb x r s m n) / 8

/-- uccsd_rdm.py lines 190-191. -/
def tmpa_6 (p : oa) (q : oa) : K :=
  (∑ m : va, miajb x p m q m) / 4 + (∑ m : vb, miAjB x p m q m) / 4

/-- uccsd_rdm.py lines 192-193. -/
def tmpb_6 (p : ob) (q : ob) : K :=
  (∑ m : vb, mIAJB x p m q m) / 4 + (∑ m : va, mIaJb x p m q m) / 4

/-- uccsd_rdm.py lines 180, 185, 194, 199, 210. -/
def gooov (p : oa) (q : oa) (r : oa) (s : va) : K :=
  -((∑ m : va, tauaa x p q m s * x.l1a r m) / 4)
    + (∑ m : oa, goooo x r m p q * x.t1a m s) - tmpa_6 x r p * x.t1a q s
    + (∑ m : va, miajb x r m p s * x.t1a q m) / 2
    + (∑ m : va, x.l2aa p q s m * x.t1a r m) / 4

/-- uccsd_rdm.py lines 181, 186, 195, 200-201, 211. -/
def goOoV (p : oa) (q : ob) (r : oa) (s : vb) : K :=
  -((∑ m : va, tauab x p q m s * x.l1a r m) / 2)
    + (∑ m : ob, goOoO x r m p q * x.t1b m s) * 2 - tmpa_6 x r p * x.t1b q s
    + (∑ m : vb, miAjB x r m p s * x.t1b q m) / 2
    - (∑ m : va, miaJB x r m q s * x.t1a p m) / 2
    - (∑ m : va, x.l2ab p q m s * x.t1a r m) / 2

/-- uccsd_rdm.py lines 182, 187, 196, 202-203, 212. -/
def gOoOv (p : ob) (q : oa) (r : ob) (s : va) : K :=
  -((∑ m : vb, tauab x q p s m * x.l1b r m) / 2)
    + (∑ m : oa, goOoO x m r q p * x.t1a m s) * 2 - tmpb_6 x r p * x.t1a q s
    + (∑ m : va, mIaJb x r m p s * x.t1a q m) / 2
    - (∑ m : vb, mIAjb x r m q s * x.t1b p m) / 2
    - (∑ m : vb, x.l2ab q p s m * x.t1b r m) / 2

/-- uccsd_rdm.py lines 183, 188, 197, 204, 213. -/
def gOOOV (p : ob) (q : ob) (r : ob) (s : vb) : K :=
  -((∑ m : vb, taubb x p q m s * x.l1b r m) / 4)
    + (∑ m : ob, gOOOO x r m p q * x.t1b m s) - tmpb_6 x r p * x.t1b q s
    + (∑ m : vb, mIAJB x r m p s * x.t1b q m) / 2
    + (∑ m : vb, x.l2bb p q s m * x.t1b r m) / 4

/-- uccsd_rdm.py lines 225-226. -/
def tmpa_7 (p : va) (q : va) : K :=
  (∑ m : oa, miajb x m p m q) / 4 + (∑ m : ob, mIaJb x m p m q) / 4

/-- uccsd_rdm.py lines 227-228. -/
def tmpb_7 (p : vb) (q : vb) : K :=
  (∑ m : ob, mIAJB x m p m q) / 4 + (∑ m : oa, miAjB x m p m q) / 4

/-- uccsd_rdm.py lines 215, 220, 229, 234, 244. -/
def govvv (p : oa) (q : va) (r : va) (s : va) : K :=
  (∑ m : oa, x.l1a m q * tauaa x p m r s) / 4
    + (∑ m : va, gvvvv x r s q m * x.t1a p m) + tmpa_7 x q s * x.t1a p r
    + (∑ m : oa, miajb x m q p r * x.t1a m s) / 2
    + (∑ m : oa, x.l2aa p m r s * x.t1a m q) / 4

/-- uccsd_rdm.py lines 216, 221, 230, 235-236, 245. -/
def goVvV (p : oa) (q : vb) (r : va) (s : vb) : K :=
  (∑ m : ob, x.l1b m q * tauab x p m r s) / 2
    - (∑ m : va, gvVvV x r s m q * x.t1a p m) * 2 + tmpb_7 x q s * x.t1a p r
    + (∑ m : ob, mIAjb x m q p r * x.t1b m s) / 2
    - (∑ m : oa, miAjB x m q p s * x.t1a m r) / 2
    + (∑ m : ob, x.l2ab p m r s * x.t1b m q) / 2

/-- uccsd_rdm.py lines 217, 222, 231, 237-238, 246. -/
def gOvVv (p : ob) (q : va) (r : vb) (s : va) : K :=
  (∑ m : oa, x.l1a m q * tauab x m p s r) / 2
    - (∑ m : vb, gvVvV x s r q m * x.t1b p m) * 2 + tmpa_7 x q s * x.t1b p r
    + (∑ m : oa, miaJB x m q p r * x.t1a m s) / 2
    - (∑ m : ob, mIaJb x m q p s * x.t1b m r) / 2
    + (∑ m : oa, x.l2ab m p s r * x.t1a m q) / 2

/-- uccsd_rdm.py lines 218, 223, 232, 239, 247. -/
def gOVVV (p : ob) (q : vb) (r : vb) (s : vb) : K :=
  (∑ m : ob, x.l1b m q * taubb x p m r s) / 4
    + (∑ m : vb, gVVVV x r s q m * x.t1b p m) + tmpb_7 x q s * x.t1b p r
    + (∑ m : ob, mIAJB x m q p r * x.t1b m s) / 2
    + (∑ m : ob, x.l2bb p m r s * x.t1b m q) / 4

/-- uccsd_rdm.py lines 249, 254, 261. -/
def govvo (p : oa) (q : va) (r : va) (s : oa) : K :=
  x.l1a p r * x.t1a s q + miajb x p r s q - (∑ m : oa, ∑ n : va, x.l2aa p m r n * x.t1a s n * x.t1a m q)

/-- uccsd_rdm.py lines 250, 255, 262. -/
def goVvO (p : oa) (q : vb) (r : va) (s : ob) : K :=
  x.l1a p r * x.t1b s q + miaJB x p r s q - (∑ m : ob, ∑ n : vb, x.l2ab p m r n * x.t1b s n * x.t1b m q)

/-- uccsd_rdm.py lines 251, 256, 263. -/
def gOvVo (p : ob) (q : va) (r : vb) (s : oa) : K :=
  x.l1b p r * x.t1a s q + mIAjb x p r s q - (∑ m : oa, ∑ n : va, x.l2ab m p n r * x.t1a s n * x.t1a m q)

/-- uccsd_rdm.py lines 252, 257, 264. -/
def gOVVO (p : ob) (q : vb) (r : vb) (s : ob) : K :=
  x.l1b p r * x.t1b s q + mIAJB x p r s q - (∑ m : ob, ∑ n : vb, x.l2bb p m r n * x.t1b s n * x.t1b m q)

/-- uccsd_rdm.py lines 258, 265. -/
def goVoV (p : oa) (q : vb) (r : oa) (s : vb) : K :=
  miAjB x p s r q + (∑ m : ob, ∑ n : va, x.l2ab p m n s * x.t1a r n * x.t1b m q)

/-- uccsd_rdm.py lines 259, 266. -/
def gOvOv (p : ob) (q : va) (r : ob) (s : va) : K :=
  mIaJb x p s r q + (∑ m : oa, ∑ n : vb, x.l2ab m p s n * x.t1b r n * x.t1a m q)

/-- uccsd_rdm.py line 268. -/
def dovov (p : oa) (q : va) (r : oa) (s : va) : K :=
  goovv x p r q s - goovv x p r s q

/-- uccsd_rdm.py line 269. -/
def dvvvv (p : va) (q : va) (r : va) (s : va) : K :=
  gvvvv x p r q s - gvvvv x p r s q

/-- uccsd_rdm.py line 270. -/
def doooo (p : oa) (q : oa) (r : oa) (s : oa) : K :=
  goooo x p r q s - goooo x p r s q

/-- uccsd_rdm.py line 271. -/
def dovvv (p : oa) (q : va) (r : va) (s : va) : K :=
  govvv x p r q s - govvv x p r s q

/-- uccsd_rdm.py line 272. -/
def dooov (p : oa) (q : oa) (r : oa) (s : va) : K :=
  gooov x p r q s - gooov x r p q s

/-- uccsd_rdm.py line 273. -/
def dovvo (p : oa) (q : va) (r : va) (s : oa) : K :=
  govvo x p r q s

/-- uccsd_rdm.py line 274. -/
def dovov_2 (p : oa) (q : va) (r : oa) (s : va) : K :=
  dovov x p q r s / 2 + dovov x r s p q / 2

/-- uccsd_rdm.py line 275. -/
def dvvvv_2 (p : va) (q : va) (r : va) (s : va) : K :=
  dvvvv x p q r s + dvvvv x q p s r

/-- uccsd_rdm.py line 276. -/
def doooo_2 (p : oa) (q : oa) (r : oa) (s : oa) : K :=
  doooo x p q r s + doooo x q p s r

/-- uccsd_rdm.py line 277. -/
def dovvo_2 (p : oa) (q : va) (r : va) (s : oa) : K :=
  dovvo x p q r s / 2 + dovvo x s r q p / 2

/-- uccsd_rdm.py line 278. -/
def doovv (p : oa) (q : oa) (r : va) (s : va) : K :=
  -(dovvo_2 x p s r q)

/-- uccsd_rdm.py line 281. -/
def dOVOV (p : ob) (q : vb) (r : ob) (s : vb) : K :=
  gOOVV x p r q s - gOOVV x p r s q

/-- uccsd_rdm.py line 282. -/
def dVVVV (p : vb) (q : vb) (r : vb) (s : vb) : K :=
  gVVVV x p r q s - gVVVV x p r s q

/-- uccsd_rdm.py line 283. -/
def dOOOO (p : ob) (q : ob) (r : ob) (s : ob) : K :=
  gOOOO x p r q s - gOOOO x p r s q

/-- uccsd_rdm.py line 284. -/
def dOVVV (p : ob) (q : vb) (r : vb) (s : vb) : K :=
  gOVVV x p r q s - gOVVV x p r s q

/-- uccsd_rdm.py line 285. -/
def dOOOV (p : ob) (q : ob) (r : ob) (s : vb) : K :=
  gOOOV x p r q s - gOOOV x r p q s

/-- uccsd_rdm.py line 286. -/
def dOVVO (p : ob) (q : vb) (r : vb) (s : ob) : K :=
  gOVVO x p r q s

/-- uccsd_rdm.py line 287. -/
def dOVOV_2 (p : ob) (q : vb) (r : ob) (s : vb) : K :=
  dOVOV x p q r s / 2 + dOVOV x r s p q / 2

/-- uccsd_rdm.py line 288. -/
def dVVVV_2 (p : vb) (q : vb) (r : vb) (s : vb) : K :=
  dVVVV x p q r s + dVVVV x q p s r

/-- uccsd_rdm.py line 289. -/
def dOOOO_2 (p : ob) (q : ob) (r : ob) (s : ob) : K :=
  dOOOO x p q r s + dOOOO x q p s r

/-- uccsd_rdm.py line 290. -/
def dOVVO_2 (p : ob) (q : vb) (r : vb) (s : ob) : K :=
  dOVVO x p q r s / 2 + dOVVO x s r q p / 2

/-- uccsd_rdm.py line 291. -/
def dOOVV (p : ob) (q : ob) (r : vb) (s : vb) : K :=
  -(dOVVO_2 x p s r q)

/-- uccsd_rdm.py line 294. -/
def dovOV (p : oa) (q : va) (r : ob) (s : vb) : K :=
  goOvV x p r q s

/-- uccsd_rdm.py line 295. -/
def dvvVV (p : va) (q : va) (r : vb) (s : vb) : K :=
  gvVvV x p r q s * 2

/-- uccsd_rdm.py line 296. -/
def dooOO (p : oa) (q : oa) (r : ob) (s : ob) : K :=
  goOoO x p r q s * 2

/-- uccsd_rdm.py line 297. -/
def dovVV (p : oa) (q : va) (r : vb) (s : vb) : K :=
  goVvV x p r q s

/-- uccsd_rdm.py line 298. -/
def dooOV (p : oa) (q : oa) (r : ob) (s : vb) : K :=
  goOoV x p r q s

/-- uccsd_rdm.py line 299. -/
def dovVO (p : oa) (q : va) (r : vb) (s : ob) : K :=
  goVvO x p r q s

/-- uccsd_rdm.py line 301. -/
def dOVvv (p : ob) (q : vb) (r : va) (s : va) : K :=
  gOvVv x p r q s

/-- uccsd_rdm.py line 302. -/
def dOOov (p : ob) (q : ob) (r : oa) (s : va) : K :=
  gOoOv x p r q s

/-- uccsd_rdm.py line 303. -/
def dOVvo (p : ob) (q : vb) (r : va) (s : oa) : K :=
  gOvVo x p r q s

/-- uccsd_rdm.py line 304. -/
def dooVV (p : oa) (q : oa) (r : vb) (s : vb) : K :=
  goVoV x p r q s

/-- uccsd_rdm.py line 305. -/
def dOOvv (p : ob) (q : ob) (r : va) (s : va) : K :=
  gOvOv x p r q s

/-- uccsd_rdm.py line 307. -/
def dvvVV_2 (p : va) (q : va) (r : vb) (s : vb) : K :=
  dvvVV x p q r s + dvvVV x q p s r

/-- uccsd_rdm.py line 308. -/
def dooOO_2 (p : oa) (q : oa) (r : ob) (s : ob) : K :=
  dooOO x p q r s + dooOO x q p s r

/-- uccsd_rdm.py line 309. -/
def dovVO_2 (p : oa) (q : va) (r : vb) (s : ob) : K :=
  dovVO x p q r s / 2 + dOVvo x s r q p / 2

/-- uccsd_rdm.py line 310. -/
def dooVV_2 (p : oa) (q : oa) (r : vb) (s : vb) : K :=
  -(dooVV x p q r s / 2) - dooVV x q p s r / 2

/-- uccsd_rdm.py line 316. -/
def dOVvo_2 (p : ob) (q : vb) (r : va) (s : oa) : K :=
  dovVO_2 x s r q p

/-- uccsd_rdm.py line 317. -/
def dOOvv_2 (p : ob) (q : ob) (r : va) (s : va) : K :=
  -(dOOvv x p q r s / 2) - dOOvv x q p s r / 2

/-! ## `_make_rdm1` and `_make_rdm2` -/

/-- uccsd_rdm.py lines 408-413, 421-422 (415-421, 423 for beta): the blocks of one spin. -/
def place1 {o v : Type} [DecidableEq o] (mf : Bool) (doo : o → o → K) (dov : o → v → K) (dvo : v → o → K) (dvv : v → v → K) : o ⊕ v → o ⊕ v → K
  | .inl i, .inl j => (doo i j + doo j i) / 2 + (if mf ∧ i = j then 1 else 0)
  | .inl i, .inr a => (dov i a + dvo a i) / 2
  | .inr a, .inl i => (dov i a + dvo a i) / 2
  | .inr a, .inr b => (dvv a b + dvv b a) / 2

/-- uccsd_rdm.py lines 398-423: `dm1a`. -/
def rdm1a [DecidableEq oa] (mf : Bool) : oa ⊕ va → oa ⊕ va → K := place1 mf (dooa x) (dova x) (dvoa x) (dvva x)

/-- uccsd_rdm.py lines 398-423: `dm1b`. -/
def rdm1b [DecidableEq ob] (mf : Bool) : ob ⊕ vb → ob ⊕ vb → K := place1 mf (doob x) (dovb x) (dvob x) (dvvb x)

/-- uccsd_rdm.py lines 467-498 (500-530 for beta): the blocks of equal spins. -/
def place {o v : Type} (dovov : o → v → o → v → K) (dvvvv : v → v → v → v → K) (doooo : o → o → o → o → K) (dovvo : o → v → v → o → K) (dovvv : o → v → v → v → K)
    (dooov : o → o → o → v → K) : o ⊕ v → o ⊕ v → o ⊕ v → o ⊕ v → K
  | .inl i, .inr a, .inl j, .inr b => dovov i a j b
  | .inr a, .inl i, .inr b, .inl j => dovov i a j b
  | .inl i, .inl j, .inr a, .inr b => -dovvo i b a j
  | .inr a, .inr b, .inl i, .inl j => -dovvo i b a j
  | .inl i, .inr a, .inr b, .inl j => dovvo i a b j
  | .inr a, .inl i, .inl j, .inr b => dovvo i a b j
  | .inr a, .inr b, .inr c, .inr e => dvvvv a b c e
  | .inl i, .inl j, .inl k, .inl l => doooo i j k l
  | .inl i, .inr a, .inr b, .inr c => dovvv i a b c
  | .inr a, .inr b, .inl i, .inr c => dovvv i c a b
  | .inr a, .inr b, .inr c, .inl i => dovvv i c b a
  | .inr a, .inl i, .inr b, .inr c => dovvv i a c b
  | .inl i, .inl j, .inl k, .inr a => dooov i j k a
  | .inl i, .inr a, .inl j, .inl k => dooov j k i a
  | .inl i, .inl j, .inr a, .inl k => dooov j i k a
  | .inr a, .inl i, .inl j, .inl k => dooov k j i a

/-- uccsd_rdm.py lines 467-498: `dm2aa` without the one-body part. -/
def blocksAA : oa ⊕ va → oa ⊕ va → oa ⊕ va → oa ⊕ va → K := place (dovov_2 x) (dvvvv_2 x) (doooo_2 x) (dovvo_2 x) (dovvv x) (dooov x)

/-- uccsd_rdm.py lines 500-530: `dm2bb` without the one-body part. -/
def blocksBB : ob ⊕ vb → ob ⊕ vb → ob ⊕ vb → ob ⊕ vb → K := place (dOVOV_2 x) (dVVVV_2 x) (dOOOO_2 x) (dOVVO_2 x) (dOVVV x) (dOOOV x)

/-- uccsd_rdm.py lines 532-567: `dm2ab` without the one-body part. -/
def blocksAB : oa ⊕ va → oa ⊕ va → ob ⊕ vb → ob ⊕ vb → K
  | .inl i, .inr a, .inl j, .inr b => dovOV x i a j b
  | .inr a, .inl i, .inr b, .inl j => dovOV x i a j b
  | .inl i, .inl j, .inr a, .inr b => dooVV_2 x i j a b
  | .inr a, .inr b, .inl i, .inl j => dOOvv_2 x i j a b
  | .inl i, .inr a, .inr b, .inl j => dovVO_2 x i a b j
  | .inr a, .inl i, .inl j, .inr b => dovVO_2 x i a b j
  | .inr a, .inr b, .inr c, .inr e => dvvVV_2 x a b c e
  | .inl i, .inl j, .inl k, .inl l => dooOO_2 x i j k l
  | .inl i, .inr a, .inr b, .inr c => dovVV x i a b c
  | .inr a, .inr b, .inl i, .inr c => dOVvv x i c a b
  | .inr a, .inr b, .inr c, .inl i => dOVvv x i c b a
  | .inr a, .inl i, .inr b, .inr c => dovVV x i a c b
  | .inl i, .inl j, .inl k, .inr a => dooOV x i j k a
  | .inl i, .inr a, .inl j, .inl k => dOOov x j k i a
  | .inl i, .inl j, .inr a, .inl k => dooOV x j i k a
  | .inr a, .inl i, .inl j, .inl k => dOOov x k j i a

/-- uccsd_rdm.py lines 590-599, 608-611, 620 (590-593, 601-605, 612-615, 622 for beta): one-body part of equal spins, and the final transposition. `dm1` is without the mean field (lines 591-593). -/
def withDm1 {o v : Type} [DecidableEq o] (dm1 : o ⊕ v → o ⊕ v → K) (d : o ⊕ v → o ⊕ v → o ⊕ v → o ⊕ v → K) (b : Bool) (p q r s : o ⊕ v) : K :=
  let full (p q r s : o ⊕ v) : K :=
    bif b then
      d p q r s + CcRdm2.occEq p q * dm1 r s + CcRdm2.occEq r s * dm1 p q - CcRdm2.occEq q r * dm1 p s - CcRdm2.occEq p s * dm1 r q
        + CcRdm2.occEq p q * CcRdm2.occEq r s - CcRdm2.occEq p s * CcRdm2.occEq q r
    else d p q r s
  full q p s r

/-- uccsd_rdm.py lines 371-395: `dm2aa`. -/
def rdm2aa [DecidableEq oa] : Bool → oa ⊕ va → oa ⊕ va → oa ⊕ va → oa ⊕ va → K := withDm1 (rdm1a x false) (blocksAA x)

/-- uccsd_rdm.py lines 371-395: `dm2bb`. -/
def rdm2bb [DecidableEq ob] : Bool → ob ⊕ vb → ob ⊕ vb → ob ⊕ vb → ob ⊕ vb → K := withDm1 (rdm1b x false) (blocksBB x)

/-- uccsd_rdm.py lines 590-621: `dm2ab`. -/
def rdm2ab [DecidableEq oa] [DecidableEq ob] (b : Bool) (p q : oa ⊕ va) (r s : ob ⊕ vb) : K :=
  let full (p q : oa ⊕ va) (r s : ob ⊕ vb) : K :=
    bif b then blocksAB x p q r s + CcRdm2.occEq p q * rdm1b x false r s + CcRdm2.occEq r s * rdm1a x false p q + CcRdm2.occEq p q * CcRdm2.occEq r s
    else blocksAB x p q r s
  full q p s r

end Vayesta.CcURdm2
