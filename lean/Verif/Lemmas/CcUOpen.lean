import Verif.Model.CcURdm2
import Verif.Lemmas.DiagramTactic

/-! Partial traces of the unrestricted two-body density matrices, block by block. -/

namespace Vayesta.CcURdm2
open Vayesta.Diagram

set_option linter.unusedSectionVars false
set_option linter.unusedSimpArgs false

variable {oa ob va vb K : Type} [Fintype oa] [Fintype ob] [Fintype va] [Fintype vb] [Field K] [CharZero K]

/-- Amplitudes of an open shell, those of equal spins antisymmetrised. -/
def bare (t1a : oa → va → K) (t1b : ob → vb → K) (taa : oa → oa → va → va → K) (tab : oa → ob → va → vb → K) (tbb : ob → ob → vb → vb → K) (l1a : oa → va → K)
    (l1b : ob → vb → K) (laa : oa → oa → va → va → K) (lab : oa → ob → va → vb → K) (lbb : ob → ob → vb → vb → K) : UAmps oa ob va vb K where
  t1a := t1a
  t1b := t1b
  t2aa i j a b := taa i j a b - taa i j b a
  t2ab := tab
  t2bb i j a b := tbb i j a b - tbb i j b a
  l1a := l1a
  l1b := l1b
  l2aa i j a b := laa i j a b - laa i j b a
  l2ab := lab
  l2bb i j a b := lbb i j a b - lbb i j b a

variable (t1a : oa → va → K) (t1b : ob → vb → K) (taa : oa → oa → va → va → K) (tab : oa → ob → va → vb → K) (tbb : ob → ob → vb → vb → K) (l1a : oa → va → K)
  (l1b : ob → vb → K) (laa : oa → oa → va → va → K) (lab : oa → ob → va → vb → K) (lbb : ob → ob → vb → vb → K)

theorem op_trA (h1 : ∀ i j a b, taa j i b a = taa i j a b) (h2 : ∀ i j a b, tbb j i b a = tbb i j a b) (h3 : ∀ i j a b, laa j i b a = laa i j a b) (h4 : ∀ i j a b, lbb j i b a = lbb i j a b)  :
    ∑ i, dooa (bare t1a t1b taa tab tbb l1a l1b laa lab lbb) i i + ∑ a, dvva (bare t1a t1b taa tab tbb l1a l1b laa lab lbb) a a = 0 := by
  simp only [dvva, tmpC, dooa, tmpA, bare]
  diagram [h1, h2, h3, h4]

theorem op_trB (h1 : ∀ i j a b, taa j i b a = taa i j a b) (h2 : ∀ i j a b, tbb j i b a = tbb i j a b) (h3 : ∀ i j a b, laa j i b a = laa i j a b) (h4 : ∀ i j a b, lbb j i b a = lbb i j a b)  :
    ∑ i, doob (bare t1a t1b taa tab tbb l1a l1b laa lab lbb) i i + ∑ a, dvvb (bare t1a t1b taa tab tbb l1a l1b laa lab lbb) a a = 0 := by
  simp only [dvvb, tmpD, doob, tmpB, bare]
  diagram [h1, h2, h3, h4]

theorem op_ab_oo (h1 : ∀ i j a b, taa j i b a = taa i j a b) (h2 : ∀ i j a b, tbb j i b a = tbb i j a b) (h3 : ∀ i j a b, laa j i b a = laa i j a b) (h4 : ∀ i j a b, lbb j i b a = lbb i j a b) (i j : oa) :
    ∑ k, dooOO_2 (bare t1a t1b taa tab tbb l1a l1b laa lab lbb) i j k k + ∑ c, dooVV_2 (bare t1a t1b taa tab tbb l1a l1b laa lab lbb) i j c c = 0 := by
  simp only [dooVV_2, dooVV, goVoV, miAjB, dooOO_2, dooOO, goOoO, tauab, bare]
  diagram [h1, h2, h3, h4]

theorem op_ab_vv (h1 : ∀ i j a b, taa j i b a = taa i j a b) (h2 : ∀ i j a b, tbb j i b a = tbb i j a b) (h3 : ∀ i j a b, laa j i b a = laa i j a b) (h4 : ∀ i j a b, lbb j i b a = lbb i j a b) (a b : va) :
    ∑ k, dOOvv_2 (bare t1a t1b taa tab tbb l1a l1b laa lab lbb) k k a b + ∑ c, dvvVV_2 (bare t1a t1b taa tab tbb l1a l1b laa lab lbb) a b c c = 0 := by
  simp only [dvvVV_2, dvvVV, gvVvV, tauab, dOOvv_2, dOOvv, gOvOv, mIaJb, bare]
  diagram [h1, h2, h3, h4]

theorem op_ab_ov (h1 : ∀ i j a b, taa j i b a = taa i j a b) (h2 : ∀ i j a b, tbb j i b a = tbb i j a b) (h3 : ∀ i j a b, laa j i b a = laa i j a b) (h4 : ∀ i j a b, lbb j i b a = lbb i j a b) (i : oa) (a : va) :
    ∑ k, dOOov (bare t1a t1b taa tab tbb l1a l1b laa lab lbb) k k i a + ∑ c, dovVV (bare t1a t1b taa tab tbb l1a l1b laa lab lbb) i a c c = 0 := by
  simp only [dovVV, goVvV, miAjB, mIAjb, tmpb_7, mIAJB, gvVvV, tauab, dOOov, gOoOv, mIaJb, tmpb_6, goOoO, bare]
  diagram [h1, h2, h3, h4]

theorem op_ba_oo (h1 : ∀ i j a b, taa j i b a = taa i j a b) (h2 : ∀ i j a b, tbb j i b a = tbb i j a b) (h3 : ∀ i j a b, laa j i b a = laa i j a b) (h4 : ∀ i j a b, lbb j i b a = lbb i j a b) (i j : ob) :
    ∑ k, dooOO_2 (bare t1a t1b taa tab tbb l1a l1b laa lab lbb) k k i j + ∑ c, dOOvv_2 (bare t1a t1b taa tab tbb l1a l1b laa lab lbb) i j c c = 0 := by
  simp only [dOOvv_2, dOOvv, gOvOv, mIaJb, dooOO_2, dooOO, goOoO, tauab, bare]
  diagram [h1, h2, h3, h4]

theorem op_ba_vv (h1 : ∀ i j a b, taa j i b a = taa i j a b) (h2 : ∀ i j a b, tbb j i b a = tbb i j a b) (h3 : ∀ i j a b, laa j i b a = laa i j a b) (h4 : ∀ i j a b, lbb j i b a = lbb i j a b) (a b : vb) :
    ∑ k, dooVV_2 (bare t1a t1b taa tab tbb l1a l1b laa lab lbb) k k a b + ∑ c, dvvVV_2 (bare t1a t1b taa tab tbb l1a l1b laa lab lbb) c c a b = 0 := by
  simp only [dvvVV_2, dvvVV, gvVvV, tauab, dooVV_2, dooVV, goVoV, miAjB, bare]
  diagram [h1, h2, h3, h4]

theorem op_ba_ov (h1 : ∀ i j a b, taa j i b a = taa i j a b) (h2 : ∀ i j a b, tbb j i b a = tbb i j a b) (h3 : ∀ i j a b, laa j i b a = laa i j a b) (h4 : ∀ i j a b, lbb j i b a = lbb i j a b) (i : ob) (a : vb) :
    ∑ k, dooOV (bare t1a t1b taa tab tbb l1a l1b laa lab lbb) k k i a + ∑ c, dOVvv (bare t1a t1b taa tab tbb l1a l1b laa lab lbb) i a c c = 0 := by
  simp only [dOVvv, gOvVv, mIaJb, miaJB, tmpa_7, miajb, gvVvV, tauab, dooOV, goOoV, miAjB, tmpa_6, goOoO, bare]
  diagram [h1, h2, h3, h4]

theorem op_aa_oo (h1 : ∀ i j a b, taa j i b a = taa i j a b) (h2 : ∀ i j a b, tbb j i b a = tbb i j a b) (h3 : ∀ i j a b, laa j i b a = laa i j a b) (h4 : ∀ i j a b, lbb j i b a = lbb i j a b) (i j : oa) :
    ∑ k, doooo_2 (bare t1a t1b taa tab tbb l1a l1b laa lab lbb) i j k k - ∑ c, dovvo_2 (bare t1a t1b taa tab tbb l1a l1b laa lab lbb) i c c j = (dooa (bare t1a t1b taa tab tbb l1a l1b laa lab lbb) i j + dooa (bare t1a t1b taa tab tbb l1a l1b laa lab lbb) j i) / 2 := by
  simp only [dooa, tmpA, dovvo_2, dovvo, govvo, miajb, doooo_2, doooo, goooo, tauaa, bare]
  diagram [h1, h2, h3, h4]

theorem op_aa_vv (h1 : ∀ i j a b, taa j i b a = taa i j a b) (h2 : ∀ i j a b, tbb j i b a = tbb i j a b) (h3 : ∀ i j a b, laa j i b a = laa i j a b) (h4 : ∀ i j a b, lbb j i b a = lbb i j a b) (a b : va) :
    -∑ k, dovvo_2 (bare t1a t1b taa tab tbb l1a l1b laa lab lbb) k b a k + ∑ c, dvvvv_2 (bare t1a t1b taa tab tbb l1a l1b laa lab lbb) a b c c = -((dvva (bare t1a t1b taa tab tbb l1a l1b laa lab lbb) a b + dvva (bare t1a t1b taa tab tbb l1a l1b laa lab lbb) b a) / 2) := by
  simp only [dvva, tmpC, dvvvv_2, dvvvv, gvvvv, tauaa, dovvo_2, dovvo, govvo, miajb, bare]
  diagram [h1, h2, h3, h4]

theorem op_aa_ov (h1 : ∀ i j a b, taa j i b a = taa i j a b) (h2 : ∀ i j a b, tbb j i b a = tbb i j a b) (h3 : ∀ i j a b, laa j i b a = laa i j a b) (h4 : ∀ i j a b, lbb j i b a = lbb i j a b) (i : oa) (a : va) :
    ∑ k, dooov (bare t1a t1b taa tab tbb l1a l1b laa lab lbb) k k i a + ∑ c, dovvv (bare t1a t1b taa tab tbb l1a l1b laa lab lbb) i a c c = 0 := by
  simp only [dovvv, govvv, miajb, tmpa_7, mIaJb, gvvvv, tauaa, dooov, gooov, tmpa_6, miAjB, goooo, bare]
  diagram [h1, h2, h3, h4]

theorem op_bb_oo (h1 : ∀ i j a b, taa j i b a = taa i j a b) (h2 : ∀ i j a b, tbb j i b a = tbb i j a b) (h3 : ∀ i j a b, laa j i b a = laa i j a b) (h4 : ∀ i j a b, lbb j i b a = lbb i j a b) (i j : ob) :
    ∑ k, dOOOO_2 (bare t1a t1b taa tab tbb l1a l1b laa lab lbb) i j k k - ∑ c, dOVVO_2 (bare t1a t1b taa tab tbb l1a l1b laa lab lbb) i c c j = (doob (bare t1a t1b taa tab tbb l1a l1b laa lab lbb) i j + doob (bare t1a t1b taa tab tbb l1a l1b laa lab lbb) j i) / 2 := by
  simp only [doob, tmpB, dOVVO_2, dOVVO, gOVVO, mIAJB, dOOOO_2, dOOOO, gOOOO, taubb, bare]
  diagram [h1, h2, h3, h4]

theorem op_bb_vv (h1 : ∀ i j a b, taa j i b a = taa i j a b) (h2 : ∀ i j a b, tbb j i b a = tbb i j a b) (h3 : ∀ i j a b, laa j i b a = laa i j a b) (h4 : ∀ i j a b, lbb j i b a = lbb i j a b) (a b : vb) :
    -∑ k, dOVVO_2 (bare t1a t1b taa tab tbb l1a l1b laa lab lbb) k b a k + ∑ c, dVVVV_2 (bare t1a t1b taa tab tbb l1a l1b laa lab lbb) a b c c = -((dvvb (bare t1a t1b taa tab tbb l1a l1b laa lab lbb) a b + dvvb (bare t1a t1b taa tab tbb l1a l1b laa lab lbb) b a) / 2) := by
  simp only [dvvb, tmpD, dVVVV_2, dVVVV, gVVVV, taubb, dOVVO_2, dOVVO, gOVVO, mIAJB, bare]
  diagram [h1, h2, h3, h4]

theorem op_bb_ov (h1 : ∀ i j a b, taa j i b a = taa i j a b) (h2 : ∀ i j a b, tbb j i b a = tbb i j a b) (h3 : ∀ i j a b, laa j i b a = laa i j a b) (h4 : ∀ i j a b, lbb j i b a = lbb i j a b) (i : ob) (a : vb) :
    ∑ k, dOOOV (bare t1a t1b taa tab tbb l1a l1b laa lab lbb) k k i a + ∑ c, dOVVV (bare t1a t1b taa tab tbb l1a l1b laa lab lbb) i a c c = 0 := by
  simp only [dOVVV, gOVVV, mIAJB, tmpb_7, miAjB, gVVVV, taubb, dOOOV, gOOOV, tmpb_6, mIaJb, gOOOO, bare]
  diagram [h1, h2, h3, h4]

theorem op_aa_oooo (h1 : ∀ i j a b, taa j i b a = taa i j a b) (h2 : ∀ i j a b, tbb j i b a = tbb i j a b) (h3 : ∀ i j a b, laa j i b a = laa i j a b) (h4 : ∀ i j a b, lbb j i b a = lbb i j a b) (i j k l : oa) :
    doooo_2 (bare t1a t1b taa tab tbb l1a l1b laa lab lbb) i l k j = -doooo_2 (bare t1a t1b taa tab tbb l1a l1b laa lab lbb) i j k l := by
  simp only [doooo_2, doooo, goooo, tauaa, bare]
  diagram [h1, h2, h3, h4]

theorem op_aa_oooo_sym (h1 : ∀ i j a b, taa j i b a = taa i j a b) (h2 : ∀ i j a b, tbb j i b a = tbb i j a b) (h3 : ∀ i j a b, laa j i b a = laa i j a b) (h4 : ∀ i j a b, lbb j i b a = lbb i j a b) (i j k l : oa) :
    doooo_2 (bare t1a t1b taa tab tbb l1a l1b laa lab lbb) k l i j = doooo_2 (bare t1a t1b taa tab tbb l1a l1b laa lab lbb) i j k l := by
  simp only [doooo_2, doooo, goooo, tauaa, bare]
  diagram [h1, h2, h3, h4]

theorem op_aa_vvvv (h1 : ∀ i j a b, taa j i b a = taa i j a b) (h2 : ∀ i j a b, tbb j i b a = tbb i j a b) (h3 : ∀ i j a b, laa j i b a = laa i j a b) (h4 : ∀ i j a b, lbb j i b a = lbb i j a b) (a b c e : va) :
    dvvvv_2 (bare t1a t1b taa tab tbb l1a l1b laa lab lbb) a e c b = -dvvvv_2 (bare t1a t1b taa tab tbb l1a l1b laa lab lbb) a b c e := by
  simp only [dvvvv_2, dvvvv, gvvvv, tauaa, bare]
  diagram [h1, h2, h3, h4]

theorem op_aa_vvvv_sym (h1 : ∀ i j a b, taa j i b a = taa i j a b) (h2 : ∀ i j a b, tbb j i b a = tbb i j a b) (h3 : ∀ i j a b, laa j i b a = laa i j a b) (h4 : ∀ i j a b, lbb j i b a = lbb i j a b) (a b c e : va) :
    dvvvv_2 (bare t1a t1b taa tab tbb l1a l1b laa lab lbb) c e a b = dvvvv_2 (bare t1a t1b taa tab tbb l1a l1b laa lab lbb) a b c e := by
  simp only [dvvvv_2, dvvvv, gvvvv, tauaa, bare]
  diagram [h1, h2, h3, h4]

theorem op_bb_oooo (h1 : ∀ i j a b, taa j i b a = taa i j a b) (h2 : ∀ i j a b, tbb j i b a = tbb i j a b) (h3 : ∀ i j a b, laa j i b a = laa i j a b) (h4 : ∀ i j a b, lbb j i b a = lbb i j a b) (i j k l : ob) :
    dOOOO_2 (bare t1a t1b taa tab tbb l1a l1b laa lab lbb) i l k j = -dOOOO_2 (bare t1a t1b taa tab tbb l1a l1b laa lab lbb) i j k l := by
  simp only [dOOOO_2, dOOOO, gOOOO, taubb, bare]
  diagram [h1, h2, h3, h4]

theorem op_bb_oooo_sym (h1 : ∀ i j a b, taa j i b a = taa i j a b) (h2 : ∀ i j a b, tbb j i b a = tbb i j a b) (h3 : ∀ i j a b, laa j i b a = laa i j a b) (h4 : ∀ i j a b, lbb j i b a = lbb i j a b) (i j k l : ob) :
    dOOOO_2 (bare t1a t1b taa tab tbb l1a l1b laa lab lbb) k l i j = dOOOO_2 (bare t1a t1b taa tab tbb l1a l1b laa lab lbb) i j k l := by
  simp only [dOOOO_2, dOOOO, gOOOO, taubb, bare]
  diagram [h1, h2, h3, h4]

theorem op_bb_vvvv (h1 : ∀ i j a b, taa j i b a = taa i j a b) (h2 : ∀ i j a b, tbb j i b a = tbb i j a b) (h3 : ∀ i j a b, laa j i b a = laa i j a b) (h4 : ∀ i j a b, lbb j i b a = lbb i j a b) (a b c e : vb) :
    dVVVV_2 (bare t1a t1b taa tab tbb l1a l1b laa lab lbb) a e c b = -dVVVV_2 (bare t1a t1b taa tab tbb l1a l1b laa lab lbb) a b c e := by
  simp only [dVVVV_2, dVVVV, gVVVV, taubb, bare]
  diagram [h1, h2, h3, h4]

theorem op_bb_vvvv_sym (h1 : ∀ i j a b, taa j i b a = taa i j a b) (h2 : ∀ i j a b, tbb j i b a = tbb i j a b) (h3 : ∀ i j a b, laa j i b a = laa i j a b) (h4 : ∀ i j a b, lbb j i b a = lbb i j a b) (a b c e : vb) :
    dVVVV_2 (bare t1a t1b taa tab tbb l1a l1b laa lab lbb) c e a b = dVVVV_2 (bare t1a t1b taa tab tbb l1a l1b laa lab lbb) a b c e := by
  simp only [dVVVV_2, dVVVV, gVVVV, taubb, bare]
  diagram [h1, h2, h3, h4]

end Vayesta.CcURdm2
