import Verif.Lemmas.CcUShut

namespace Vayesta.CcURdm2
open Vayesta.Diagram

set_option linter.unusedSectionVars false

variable {o v K : Type} [Fintype o] [Fintype v] [Field K] [CharZero K]
variable (t1 : o → v → K) (t2 : o → o → v → v → K) (l1 : o → v → K) (l2 : o → o → v → v → K)

theorem cs_oooo (ht : ∀ i j a b, t2 j i b a = t2 i j a b) (hl : ∀ i j a b, l2 j i b a = l2 i j a b) (i j k l : o) :
    (CcRdm2.doooo ⟨t1, t2, l1, l2⟩ i j k l + CcRdm2.doooo ⟨t1, t2, l1, l2⟩ j i l k) * 2 = 4 * dooOO_2 (shut t1 t2 l1 l2) i j k l - 2 * dooOO_2 (shut t1 t2 l1 l2) i l k j := by
  simp only [dooOO_2, dooOO, goOoO, tauab, shut, CcRdm2.doooo, CcRdm2.goooo, CcRdm2.tau]
  diagram [ht, hl]

theorem cs_oooo_aa (ht : ∀ i j a b, t2 j i b a = t2 i j a b) (hl : ∀ i j a b, l2 j i b a = l2 i j a b) (i j k l : o) :
    doooo_2 (shut t1 t2 l1 l2) i j k l = dooOO_2 (shut t1 t2 l1 l2) i j k l - dooOO_2 (shut t1 t2 l1 l2) i l k j := by
  simp only [doooo_2, doooo, goooo, tauaa, dooOO_2, dooOO, goOoO, tauab, shut]
  diagram [ht, hl]

theorem cs_oooo_bb (ht : ∀ i j a b, t2 j i b a = t2 i j a b) (hl : ∀ i j a b, l2 j i b a = l2 i j a b) (i j k l : o) :
    dOOOO_2 (shut t1 t2 l1 l2) i j k l = dooOO_2 (shut t1 t2 l1 l2) i j k l - dooOO_2 (shut t1 t2 l1 l2) i l k j := by
  simp only [dOOOO_2, dOOOO, gOOOO, taubb, dooOO_2, dooOO, goOoO, tauab, shut]
  diagram [ht, hl]

theorem cs_oooo_sym (ht : ∀ i j a b, t2 j i b a = t2 i j a b) (hl : ∀ i j a b, l2 j i b a = l2 i j a b) (i j k l : o) :
    dooOO_2 (shut t1 t2 l1 l2) k l i j = dooOO_2 (shut t1 t2 l1 l2) i j k l := by
  simp only [dooOO_2, dooOO, goOoO, tauab, shut]
  diagram [ht, hl]

theorem cs_vvvv (ht : ∀ i j a b, t2 j i b a = t2 i j a b) (hl : ∀ i j a b, l2 j i b a = l2 i j a b) (a b c d : v) :
    (CcRdm2.dvvvv ⟨t1, t2, l1, l2⟩ a b c d + CcRdm2.dvvvv ⟨t1, t2, l1, l2⟩ b a d c) * 2 = 4 * dvvVV_2 (shut t1 t2 l1 l2) a b c d - 2 * dvvVV_2 (shut t1 t2 l1 l2) a d c b := by
  simp only [dvvVV_2, dvvVV, gvVvV, tauab, shut, CcRdm2.dvvvv, CcRdm2.gvvvv]
  diagram [ht, hl]

theorem cs_vvvv_aa (ht : ∀ i j a b, t2 j i b a = t2 i j a b) (hl : ∀ i j a b, l2 j i b a = l2 i j a b) (a b c d : v) :
    dvvvv_2 (shut t1 t2 l1 l2) a b c d = dvvVV_2 (shut t1 t2 l1 l2) a b c d - dvvVV_2 (shut t1 t2 l1 l2) a d c b := by
  simp only [dvvvv_2, dvvvv, gvvvv, tauaa, dvvVV_2, dvvVV, gvVvV, tauab, shut]
  diagram [ht, hl]

theorem cs_vvvv_bb (ht : ∀ i j a b, t2 j i b a = t2 i j a b) (hl : ∀ i j a b, l2 j i b a = l2 i j a b) (a b c d : v) :
    dVVVV_2 (shut t1 t2 l1 l2) a b c d = dvvVV_2 (shut t1 t2 l1 l2) a b c d - dvvVV_2 (shut t1 t2 l1 l2) a d c b := by
  simp only [dVVVV_2, dVVVV, gVVVV, taubb, dvvVV_2, dvvVV, gvVvV, tauab, shut]
  diagram [ht, hl]

theorem cs_vvvv_sym (ht : ∀ i j a b, t2 j i b a = t2 i j a b) (hl : ∀ i j a b, l2 j i b a = l2 i j a b) (a b c d : v) :
    dvvVV_2 (shut t1 t2 l1 l2) c d a b = dvvVV_2 (shut t1 t2 l1 l2) a b c d := by
  simp only [dvvVV_2, dvvVV, gvVvV, tauab, shut]
  diagram [ht, hl]

theorem cs_oovv (ht : ∀ i j a b, t2 j i b a = t2 i j a b) (hl : ∀ i j a b, l2 j i b a = l2 i j a b) (i j : o) (a b : v) :
    CcRdm2.doovv ⟨t1, t2, l1, l2⟩ i j a b + CcRdm2.doovv ⟨t1, t2, l1, l2⟩ j i b a = 4 * dooVV_2 (shut t1 t2 l1 l2) i j a b - 2 * dovVO_2 (shut t1 t2 l1 l2) i b a j := by
  simp only [dooVV_2, dooVV, goVoV, dOOvv_2, dOOvv, gOvOv, dovVO_2, dovVO, goVvO, dOVvo, gOvVo, miajb, miaJB, mIAjb, mIAJB, miAjB, mIaJb, tauaa, tauab, taubb, shut, CcRdm2.doovv, CcRdm2.dovvo, CcRdm2.gOvvO, CcRdm2.govVO, CcRdm2.pvOOv, CcRdm2.pvoOV, CcRdm2.tau, CcRdm2.theta]
  diagram [ht, hl]

theorem cs_ovvo (ht : ∀ i j a b, t2 j i b a = t2 i j a b) (hl : ∀ i j a b, l2 j i b a = l2 i j a b) (i j : o) (a b : v) :
    CcRdm2.dovvo ⟨t1, t2, l1, l2⟩ i a b j + CcRdm2.dovvo ⟨t1, t2, l1, l2⟩ j b a i = 4 * dovVO_2 (shut t1 t2 l1 l2) i a b j - 2 * dooVV_2 (shut t1 t2 l1 l2) i j b a := by
  simp only [dooVV_2, dooVV, goVoV, dOOvv_2, dOOvv, gOvOv, dovVO_2, dovVO, goVvO, dOVvo, gOvVo, miajb, miaJB, mIAjb, mIAJB, miAjB, mIaJb, tauaa, tauab, taubb, shut, CcRdm2.doovv, CcRdm2.dovvo, CcRdm2.gOvvO, CcRdm2.govVO, CcRdm2.pvOOv, CcRdm2.pvoOV, CcRdm2.tau, CcRdm2.theta]
  diagram [ht, hl]

theorem cs_oovv_sym (ht : ∀ i j a b, t2 j i b a = t2 i j a b) (hl : ∀ i j a b, l2 j i b a = l2 i j a b) (i j : o) (a b : v) :
    dOOvv_2 (shut t1 t2 l1 l2) i j a b = dooVV_2 (shut t1 t2 l1 l2) i j a b := by
  simp only [dooVV_2, dooVV, goVoV, dOOvv_2, dOOvv, gOvOv, dovVO_2, dovVO, goVvO, dOVvo, gOvVo, miajb, miaJB, mIAjb, mIAJB, miAjB, mIaJb, tauaa, tauab, taubb, shut]
  diagram [ht, hl]

theorem cs_ovvo_sym (ht : ∀ i j a b, t2 j i b a = t2 i j a b) (hl : ∀ i j a b, l2 j i b a = l2 i j a b) (i j : o) (a b : v) :
    dovVO_2 (shut t1 t2 l1 l2) j b a i = dovVO_2 (shut t1 t2 l1 l2) i a b j := by
  simp only [dooVV_2, dooVV, goVoV, dOOvv_2, dOOvv, gOvOv, dovVO_2, dovVO, goVvO, dOVvo, gOvVo, miajb, miaJB, mIAjb, mIAJB, miAjB, mIaJb, tauaa, tauab, taubb, shut]
  diagram [ht, hl]

theorem cs_ovvo_aa (ht : ∀ i j a b, t2 j i b a = t2 i j a b) (hl : ∀ i j a b, l2 j i b a = l2 i j a b) (i j : o) (a b : v) :
    dovvo_2 (shut t1 t2 l1 l2) i a b j = dovVO_2 (shut t1 t2 l1 l2) i a b j - dooVV_2 (shut t1 t2 l1 l2) i j b a := by
  simp only [dovvo_2, dovvo, govvo, dooVV_2, dooVV, goVoV, dOOvv_2, dOOvv, gOvOv, dovVO_2, dovVO, goVvO, dOVvo, gOvVo, miajb, miaJB, mIAjb, mIAJB, miAjB, mIaJb, tauaa, tauab, taubb, shut]
  diagram [ht, hl]

theorem cs_ovvo_bb (ht : ∀ i j a b, t2 j i b a = t2 i j a b) (hl : ∀ i j a b, l2 j i b a = l2 i j a b) (i j : o) (a b : v) :
    dOVVO_2 (shut t1 t2 l1 l2) i a b j = dovVO_2 (shut t1 t2 l1 l2) i a b j - dooVV_2 (shut t1 t2 l1 l2) i j b a := by
  simp only [dOVVO_2, dOVVO, gOVVO, dooVV_2, dooVV, goVoV, dOOvv_2, dOOvv, gOvOv, dovVO_2, dovVO, goVvO, dOVvo, gOvVo, miajb, miaJB, mIAjb, mIAJB, miAjB, mIaJb, tauaa, tauab, taubb, shut]
  diagram [ht, hl]

theorem cs_ovvv (ht : ∀ i j a b, t2 j i b a = t2 i j a b) (hl : ∀ i j a b, l2 j i b a = l2 i j a b) (i : o) (a b c : v) :
    CcRdm2.dovvv ⟨t1, t2, l1, l2⟩ i a b c = 4 * dovVV (shut t1 t2 l1 l2) i a b c - 2 * dovVV (shut t1 t2 l1 l2) i c b a := by
  simp only [dovVV, goVvV, dOVvv, gOvVv, gvVvV, tmpa_7, tmpb_7, miajb, miaJB, mIAjb, mIAJB, miAjB, mIaJb, tauaa, tauab, taubb, shut, CcRdm2.dovvv, CcRdm2.gvovv, CcRdm2.gvvvv, CcRdm2.mvv, CcRdm2.pvOOv, CcRdm2.pvoOV, CcRdm2.tau, CcRdm2.theta]
  diagram [ht, hl]

theorem cs_ovvv_aa (ht : ∀ i j a b, t2 j i b a = t2 i j a b) (hl : ∀ i j a b, l2 j i b a = l2 i j a b) (i : o) (a b c : v) :
    dovvv (shut t1 t2 l1 l2) i a b c = dovVV (shut t1 t2 l1 l2) i a b c - dovVV (shut t1 t2 l1 l2) i c b a := by
  simp only [dovvv, govvv, gvvvv, dovVV, goVvV, dOVvv, gOvVv, gvVvV, tmpa_7, tmpb_7, miajb, miaJB, mIAjb, mIAJB, miAjB, mIaJb, tauaa, tauab, taubb, shut]
  diagram [ht, hl]

theorem cs_ovvv_bb (ht : ∀ i j a b, t2 j i b a = t2 i j a b) (hl : ∀ i j a b, l2 j i b a = l2 i j a b) (i : o) (a b c : v) :
    dOVVV (shut t1 t2 l1 l2) i a b c = dovVV (shut t1 t2 l1 l2) i a b c - dovVV (shut t1 t2 l1 l2) i c b a := by
  simp only [dOVVV, gOVVV, gVVVV, dovVV, goVvV, dOVvv, gOvVv, gvVvV, tmpa_7, tmpb_7, miajb, miaJB, mIAjb, mIAJB, miAjB, mIaJb, tauaa, tauab, taubb, shut]
  diagram [ht, hl]

theorem cs_ovvv_sym (ht : ∀ i j a b, t2 j i b a = t2 i j a b) (hl : ∀ i j a b, l2 j i b a = l2 i j a b) (i : o) (a b c : v) :
    dOVvv (shut t1 t2 l1 l2) i a b c = dovVV (shut t1 t2 l1 l2) i a b c := by
  simp only [dovVV, goVvV, dOVvv, gOvVv, gvVvV, tmpa_7, tmpb_7, miajb, miaJB, mIAjb, mIAJB, miAjB, mIaJb, tauaa, tauab, taubb, shut]
  diagram [ht, hl]

theorem cs_ooov (ht : ∀ i j a b, t2 j i b a = t2 i j a b) (hl : ∀ i j a b, l2 j i b a = l2 i j a b) (i j k : o) (a : v) :
    CcRdm2.dooov ⟨t1, t2, l1, l2⟩ i j k a = 4 * dooOV (shut t1 t2 l1 l2) i j k a - 2 * dooOV (shut t1 t2 l1 l2) k j i a := by
  simp only [dooOV, goOoV, dOOov, gOoOv, goOoO, tmpa_6, tmpb_6, miajb, miaJB, mIAjb, mIAJB, miAjB, mIaJb, tauaa, tauab, taubb, shut, CcRdm2.dooov, CcRdm2.gooov, CcRdm2.goooo, CcRdm2.moo, CcRdm2.pvOOv, CcRdm2.pvoOV, CcRdm2.tau, CcRdm2.theta]
  diagram [ht, hl]

theorem cs_ooov_aa (ht : ∀ i j a b, t2 j i b a = t2 i j a b) (hl : ∀ i j a b, l2 j i b a = l2 i j a b) (i j k : o) (a : v) :
    dooov (shut t1 t2 l1 l2) i j k a = dooOV (shut t1 t2 l1 l2) i j k a - dooOV (shut t1 t2 l1 l2) k j i a := by
  simp only [dooov, gooov, goooo, dooOV, goOoV, dOOov, gOoOv, goOoO, tmpa_6, tmpb_6, miajb, miaJB, mIAjb, mIAJB, miAjB, mIaJb, tauaa, tauab, taubb, shut]
  diagram [ht, hl]

theorem cs_ooov_bb (ht : ∀ i j a b, t2 j i b a = t2 i j a b) (hl : ∀ i j a b, l2 j i b a = l2 i j a b) (i j k : o) (a : v) :
    dOOOV (shut t1 t2 l1 l2) i j k a = dooOV (shut t1 t2 l1 l2) i j k a - dooOV (shut t1 t2 l1 l2) k j i a := by
  simp only [dOOOV, gOOOV, gOOOO, dooOV, goOoV, dOOov, gOoOv, goOoO, tmpa_6, tmpb_6, miajb, miaJB, mIAjb, mIAJB, miAjB, mIaJb, tauaa, tauab, taubb, shut]
  diagram [ht, hl]

theorem cs_ooov_sym (ht : ∀ i j a b, t2 j i b a = t2 i j a b) (hl : ∀ i j a b, l2 j i b a = l2 i j a b) (i j k : o) (a : v) :
    dOOov (shut t1 t2 l1 l2) i j k a = dooOV (shut t1 t2 l1 l2) i j k a := by
  simp only [dooOV, goOoV, dOOov, gOoOv, goOoO, tmpa_6, tmpb_6, miajb, miaJB, mIAjb, mIAJB, miAjB, mIaJb, tauaa, tauab, taubb, shut]
  diagram [ht, hl]

theorem cs_oo (ht : ∀ i j a b, t2 j i b a = t2 i j a b) (hl : ∀ i j a b, l2 j i b a = l2 i j a b) (i j : o) :
    dooa (shut t1 t2 l1 l2) i j = CcRdm2.doo ⟨t1, t2, l1, l2⟩ i j ∧ doob (shut t1 t2 l1 l2) i j = CcRdm2.doo ⟨t1, t2, l1, l2⟩ i j := by
  simp only [dooa, doob, tmpA, tmpB, tmpC, tmpD, xt1a, xt1b, xt2a, xt2b, shut, CcRdm2.doo, CcRdm2.dvv, CcRdm2.dov, CcRdm2.dvo, CcRdm2.xtv, CcRdm2.xt1, CcRdm2.xt2, CcRdm2.theta]
  constructor <;> diagram [ht, hl]

theorem cs_vv (ht : ∀ i j a b, t2 j i b a = t2 i j a b) (hl : ∀ i j a b, l2 j i b a = l2 i j a b) (a b : v) :
    dvva (shut t1 t2 l1 l2) a b = CcRdm2.dvv ⟨t1, t2, l1, l2⟩ a b ∧ dvvb (shut t1 t2 l1 l2) a b = CcRdm2.dvv ⟨t1, t2, l1, l2⟩ a b := by
  simp only [dvva, dvvb, tmpA, tmpB, tmpC, tmpD, xt1a, xt1b, xt2a, xt2b, shut, CcRdm2.doo, CcRdm2.dvv, CcRdm2.dov, CcRdm2.dvo, CcRdm2.xtv, CcRdm2.xt1, CcRdm2.xt2, CcRdm2.theta]
  constructor <;> diagram [ht, hl]

theorem cs_ov (ht : ∀ i j a b, t2 j i b a = t2 i j a b) (hl : ∀ i j a b, l2 j i b a = l2 i j a b) (i : o) (a : v) :
    dova (shut t1 t2 l1 l2) i a + dvoa (shut t1 t2 l1 l2) a i = CcRdm2.dov ⟨t1, t2, l1, l2⟩ i a + CcRdm2.dvo ⟨t1, t2, l1, l2⟩ a i ∧ dovb (shut t1 t2 l1 l2) i a + dvob (shut t1 t2 l1 l2) a i = CcRdm2.dov ⟨t1, t2, l1, l2⟩ i a + CcRdm2.dvo ⟨t1, t2, l1, l2⟩ a i := by
  simp only [dova, dovb, dvoa, dvob, tmpA, tmpB, tmpC, tmpD, xt1a, xt1b, xt2a, xt2b, shut, CcRdm2.doo, CcRdm2.dvv, CcRdm2.dov, CcRdm2.dvo, CcRdm2.xtv, CcRdm2.xt1, CcRdm2.xt2, CcRdm2.theta]
  constructor <;> diagram [ht, hl]

end Vayesta.CcURdm2
