import Verif.Lemmas.CcUShut

namespace Vayesta.CcURdm2
open Vayesta.Diagram

set_option linter.unusedSectionVars false

variable {o v K : Type} [Fintype o] [Fintype v] [Field K] [CharZero K]
variable (t1 : o → v → K) (t2 : o → o → v → v → K) (l1 : o → v → K) (l2 : o → o → v → v → K)

theorem cs_t1_a (ht : ∀ i j a b, t2 j i b a = t2 i j a b) (hl : ∀ i j a b, l2 j i b a = l2 i j a b) (i : o) (a : v) :
    tmpa (shut t1 t2 l1 l2) i a = CcRdm2.mia ⟨t1, t2, l1, l2⟩ i a := by
  simp only [tmpa, CcRdm2.mia, shut]
  diagram [ht, hl]

theorem cs_t1_b (ht : ∀ i j a b, t2 j i b a = t2 i j a b) (hl : ∀ i j a b, l2 j i b a = l2 i j a b) (i : o) (a : v) :
    tmpb (shut t1 t2 l1 l2) i a = CcRdm2.mia ⟨t1, t2, l1, l2⟩ i a := by
  simp only [tmpb, CcRdm2.mia, shut]
  diagram [ht, hl]

theorem cs_t2_a (ht : ∀ i j a b, t2 j i b a = t2 i j a b) (hl : ∀ i j a b, l2 j i b a = l2 i j a b) (a b : v) :
    tmpa_2 (shut t1 t2 l1 l2) a b = CcRdm2.mab ⟨t1, t2, l1, l2⟩ a b := by
  simp only [tmpa_2, CcRdm2.mab, shut]

theorem cs_t2_b (ht : ∀ i j a b, t2 j i b a = t2 i j a b) (hl : ∀ i j a b, l2 j i b a = l2 i j a b) (a b : v) :
    tmpb_2 (shut t1 t2 l1 l2) a b = CcRdm2.mab ⟨t1, t2, l1, l2⟩ a b := by
  simp only [tmpb_2, CcRdm2.mab, shut]

theorem cs_t4_a (ht : ∀ i j a b, t2 j i b a = t2 i j a b) (hl : ∀ i j a b, l2 j i b a = l2 i j a b) (i j : o) :
    tmpa_4 (shut t1 t2 l1 l2) i j = CcRdm2.moo ⟨t1, t2, l1, l2⟩ j i := by
  simp only [tmpa_4, CcRdm2.moo, miajb, mIAJB, miAjB, mIaJb, CcRdm2.pvOOv, CcRdm2.pvoOV, CcRdm2.theta, shut]
  diagram [ht, hl]

theorem cs_t4_b (ht : ∀ i j a b, t2 j i b a = t2 i j a b) (hl : ∀ i j a b, l2 j i b a = l2 i j a b) (i j : o) :
    tmpb_4 (shut t1 t2 l1 l2) i j = CcRdm2.moo ⟨t1, t2, l1, l2⟩ j i := by
  simp only [tmpb_4, CcRdm2.moo, miajb, mIAJB, miAjB, mIaJb, CcRdm2.pvOOv, CcRdm2.pvoOV, CcRdm2.theta, shut]
  diagram [ht, hl]

theorem cs_t5_a (ht : ∀ i j a b, t2 j i b a = t2 i j a b) (hl : ∀ i j a b, l2 j i b a = l2 i j a b) (a b : v) :
    tmpa_5 (shut t1 t2 l1 l2) a b = CcRdm2.mvv ⟨t1, t2, l1, l2⟩ b a := by
  simp only [tmpa_5, CcRdm2.mvv, miajb, mIAJB, miAjB, mIaJb, CcRdm2.pvOOv, CcRdm2.pvoOV, CcRdm2.theta, shut]
  diagram [ht, hl]

theorem cs_t5_b (ht : ∀ i j a b, t2 j i b a = t2 i j a b) (hl : ∀ i j a b, l2 j i b a = l2 i j a b) (a b : v) :
    tmpb_5 (shut t1 t2 l1 l2) a b = CcRdm2.mvv ⟨t1, t2, l1, l2⟩ b a := by
  simp only [tmpb_5, CcRdm2.mvv, miajb, mIAJB, miAjB, mIaJb, CcRdm2.pvOOv, CcRdm2.pvoOV, CcRdm2.theta, shut]
  diagram [ht, hl]

theorem cs_tab (ht : ∀ i j a b, t2 j i b a = t2 i j a b) (hl : ∀ i j a b, l2 j i b a = l2 i j a b) (i j k l : o) :
    tmpabab (shut t1 t2 l1 l2) i j k l = CcRdm2.goooo ⟨t1, t2, l1, l2⟩ i j k l := by
  simp only [tmpabab, tauab, CcRdm2.goooo, CcRdm2.tau, shut]
  diagram [ht, hl]

theorem cs_taa (ht : ∀ i j a b, t2 j i b a = t2 i j a b) (hl : ∀ i j a b, l2 j i b a = l2 i j a b) (i j k l : o) :
    tmpaa (shut t1 t2 l1 l2) i j k l = (CcRdm2.goooo ⟨t1, t2, l1, l2⟩ i j k l - CcRdm2.goooo ⟨t1, t2, l1, l2⟩ i j l k) / 4 := by
  simp only [tmpaa, tauaa, CcRdm2.goooo, CcRdm2.tau, shut]
  diagram [ht, hl]

theorem cs_tbb (ht : ∀ i j a b, t2 j i b a = t2 i j a b) (hl : ∀ i j a b, l2 j i b a = l2 i j a b) (i j k l : o) :
    tmpbb (shut t1 t2 l1 l2) i j k l = (CcRdm2.goooo ⟨t1, t2, l1, l2⟩ i j k l - CcRdm2.goooo ⟨t1, t2, l1, l2⟩ i j l k) / 4 := by
  simp only [tmpbb, taubb, CcRdm2.goooo, CcRdm2.tau, shut]
  diagram [ht, hl]

theorem cs_goooo (ht : ∀ i j a b, t2 j i b a = t2 i j a b) (hl : ∀ i j a b, l2 j i b a = l2 i j a b) (i j k l : o) :
    CcRdm2.goooo ⟨t1, t2, l1, l2⟩ j i l k = CcRdm2.goooo ⟨t1, t2, l1, l2⟩ i j k l := by
  simp only [CcRdm2.goooo, CcRdm2.tau]
  diagram [ht, hl]

theorem cs_ovov (ht : ∀ i j a b, t2 j i b a = t2 i j a b) (hl : ∀ i j a b, l2 j i b a = l2 i j a b) (i j : o) (a b : v) :
    CcRdm2.dovov ⟨t1, t2, l1, l2⟩ i a j b + CcRdm2.dovov ⟨t1, t2, l1, l2⟩ j b i a = 4 * dovOV (shut t1 t2 l1 l2) i a j b - 2 * dovOV (shut t1 t2 l1 l2) i b j a := by
  have hg := cs_goooo t1 t2 l1 l2 ht hl
  simp only [dovOV, goOvV, cs_t1_a t1 t2 l1 l2 ht hl, cs_t1_b t1 t2 l1 l2 ht hl, cs_t2_a t1 t2 l1 l2 ht hl, cs_t2_b t1 t2 l1 l2 ht hl, cs_t4_a t1 t2 l1 l2 ht hl, cs_t4_b t1 t2 l1 l2 ht hl, cs_t5_a t1 t2 l1 l2 ht hl, cs_t5_b t1 t2 l1 l2 ht hl, cs_tab t1 t2 l1 l2 ht hl, cs_taa t1 t2 l1 l2 ht hl, cs_tbb t1 t2 l1 l2 ht hl]
  simp only [miajb, mIAJB, miAjB, mIaJb, miaJB, mIAjb, tmpa_3, tmpb_3, tauaa, taubb, tauab, shut, CcRdm2.dovov, CcRdm2.goovv, CcRdm2.tmpoovv, CcRdm2.tau', CcRdm2.mij, CcRdm2.tau, CcRdm2.pvOOv, CcRdm2.pvoOV, CcRdm2.theta]
  diagram [ht, hl, hg]

theorem cs_ovov_sym (ht : ∀ i j a b, t2 j i b a = t2 i j a b) (hl : ∀ i j a b, l2 j i b a = l2 i j a b) (i j : o) (a b : v) :
    dovOV (shut t1 t2 l1 l2) j b i a = dovOV (shut t1 t2 l1 l2) i a j b := by
  have hg := cs_goooo t1 t2 l1 l2 ht hl
  simp only [dovOV, goOvV, cs_t1_a t1 t2 l1 l2 ht hl, cs_t1_b t1 t2 l1 l2 ht hl, cs_t2_a t1 t2 l1 l2 ht hl, cs_t2_b t1 t2 l1 l2 ht hl, cs_t4_a t1 t2 l1 l2 ht hl, cs_t4_b t1 t2 l1 l2 ht hl, cs_t5_a t1 t2 l1 l2 ht hl, cs_t5_b t1 t2 l1 l2 ht hl, cs_tab t1 t2 l1 l2 ht hl, cs_taa t1 t2 l1 l2 ht hl, cs_tbb t1 t2 l1 l2 ht hl]
  simp only [miajb, mIAJB, miAjB, mIaJb, miaJB, mIAjb, tmpa_3, tmpb_3, tauaa, taubb, tauab, shut]
  diagram [ht, hl, hg]

theorem cs_ovov_aa (ht : ∀ i j a b, t2 j i b a = t2 i j a b) (hl : ∀ i j a b, l2 j i b a = l2 i j a b) (i j : o) (a b : v) :
    dovov_2 (shut t1 t2 l1 l2) i a j b = dovOV (shut t1 t2 l1 l2) i a j b - dovOV (shut t1 t2 l1 l2) i b j a := by
  have hg := cs_goooo t1 t2 l1 l2 ht hl
  simp only [dovov_2, dovov, goovv, dovOV, goOvV, cs_t1_a t1 t2 l1 l2 ht hl, cs_t1_b t1 t2 l1 l2 ht hl, cs_t2_a t1 t2 l1 l2 ht hl, cs_t2_b t1 t2 l1 l2 ht hl, cs_t4_a t1 t2 l1 l2 ht hl, cs_t4_b t1 t2 l1 l2 ht hl, cs_t5_a t1 t2 l1 l2 ht hl, cs_t5_b t1 t2 l1 l2 ht hl, cs_tab t1 t2 l1 l2 ht hl, cs_taa t1 t2 l1 l2 ht hl, cs_tbb t1 t2 l1 l2 ht hl]
  simp only [miajb, mIAJB, miAjB, mIaJb, miaJB, mIAjb, tmpa_3, tmpb_3, tauaa, taubb, tauab, shut]
  diagram [ht, hl, hg]

theorem cs_ovov_bb (ht : ∀ i j a b, t2 j i b a = t2 i j a b) (hl : ∀ i j a b, l2 j i b a = l2 i j a b) (i j : o) (a b : v) :
    dOVOV_2 (shut t1 t2 l1 l2) i a j b = dovOV (shut t1 t2 l1 l2) i a j b - dovOV (shut t1 t2 l1 l2) i b j a := by
  have hg := cs_goooo t1 t2 l1 l2 ht hl
  simp only [dOVOV_2, dOVOV, gOOVV, dovOV, goOvV, cs_t1_a t1 t2 l1 l2 ht hl, cs_t1_b t1 t2 l1 l2 ht hl, cs_t2_a t1 t2 l1 l2 ht hl, cs_t2_b t1 t2 l1 l2 ht hl, cs_t4_a t1 t2 l1 l2 ht hl, cs_t4_b t1 t2 l1 l2 ht hl, cs_t5_a t1 t2 l1 l2 ht hl, cs_t5_b t1 t2 l1 l2 ht hl, cs_tab t1 t2 l1 l2 ht hl, cs_taa t1 t2 l1 l2 ht hl, cs_tbb t1 t2 l1 l2 ht hl]
  simp only [miajb, mIAJB, miAjB, mIaJb, miaJB, mIAjb, tmpa_3, tmpb_3, tauaa, taubb, tauab, shut]
  diagram [ht, hl, hg]

end Vayesta.CcURdm2
