import Verif.Model.CcRdm2
import Verif.Lemmas.DiagramTactic

namespace Vayesta.CcRdm2
open Vayesta.Diagram

set_option linter.unusedSectionVars false

variable {o v K : Type} [Fintype o] [Fintype v] [Field K] [CharZero K]
variable (t1 : o → v → K) (t2 : o → o → v → v → K) (l1 : o → v → K) (l2 : o → o → v → v → K)

theorem trace_oo (ht : ∀ i j a b, t2 j i b a = t2 i j a b) (hl : ∀ i j a b, l2 j i b a = l2 i j a b) (i j : o) :
    (∑ k, (doooo ⟨t1, t2, l1, l2⟩ i j k k + doooo ⟨t1, t2, l1, l2⟩ j i k k) * 2) + ∑ a, (doovv ⟨t1, t2, l1, l2⟩ i j a a + doovv ⟨t1, t2, l1, l2⟩ j i a a)
      = doo ⟨t1, t2, l1, l2⟩ i j + doo ⟨t1, t2, l1, l2⟩ j i := by
  simp only [doooo, doovv, doo, goooo, gOvvO, govVO, pvOOv, pvoOV, tau, theta]
  diagram [ht, hl]

theorem trace_vv (ht : ∀ i j a b, t2 j i b a = t2 i j a b) (hl : ∀ i j a b, l2 j i b a = l2 i j a b) (a b : v) :
    ∑ i, (doovv ⟨t1, t2, l1, l2⟩ i i a b + doovv ⟨t1, t2, l1, l2⟩ i i b a) + (∑ c, (dvvvv ⟨t1, t2, l1, l2⟩ a b c c + dvvvv ⟨t1, t2, l1, l2⟩ b a c c) * 2)
      = -(dvv ⟨t1, t2, l1, l2⟩ a b + dvv ⟨t1, t2, l1, l2⟩ b a) := by
  simp only [dvvvv, doovv, dvv, gvvvv, gOvvO, govVO, pvOOv, pvoOV, tau, theta]
  diagram [ht, hl]

theorem trace_ov (ht : ∀ i j a b, t2 j i b a = t2 i j a b) (hl : ∀ i j a b, l2 j i b a = l2 i j a b) (i : o) (a : v) :
    ∑ k, dooov ⟨t1, t2, l1, l2⟩ k k i a + ∑ c, dovvv ⟨t1, t2, l1, l2⟩ i a c c = 0 := by
  simp only [dooov, gooov, moo, goooo, dovvv, gvovv, mvv, gvvvv, pvOOv, pvoOV, tau, theta]
  diagram [ht, hl]

theorem sym_doooo (ht : ∀ i j a b, t2 j i b a = t2 i j a b) (hl : ∀ i j a b, l2 j i b a = l2 i j a b) (i j k l : o) :
    doooo ⟨t1, t2, l1, l2⟩ k l i j = doooo ⟨t1, t2, l1, l2⟩ i j k l := by
  simp only [doooo, goooo, tau]
  diagram [ht, hl]

theorem sym_dvvvv (ht : ∀ i j a b, t2 j i b a = t2 i j a b) (hl : ∀ i j a b, l2 j i b a = l2 i j a b) (a b c d : v) :
    dvvvv ⟨t1, t2, l1, l2⟩ c d a b = dvvvv ⟨t1, t2, l1, l2⟩ a b c d := by
  simp only [dvvvv, gvvvv]
  diagram [ht, hl]

theorem exch_oo (ht : ∀ i j a b, t2 j i b a = t2 i j a b) (hl : ∀ i j a b, l2 j i b a = l2 i j a b) (i j : o) :
    (∑ k, (doooo ⟨t1, t2, l1, l2⟩ k i j k + doooo ⟨t1, t2, l1, l2⟩ i k k j) * 2) + ∑ a, (dovvo ⟨t1, t2, l1, l2⟩ i a a j + dovvo ⟨t1, t2, l1, l2⟩ j a a i)
      = -2 * (doo ⟨t1, t2, l1, l2⟩ i j + doo ⟨t1, t2, l1, l2⟩ j i) := by
  simp only [doooo, dovvo, doo, goooo, gOvvO, govVO, pvOOv, pvoOV, tau, theta]
  diagram [ht, hl]

theorem exch_vv (ht : ∀ i j a b, t2 j i b a = t2 i j a b) (hl : ∀ i j a b, l2 j i b a = l2 i j a b) (a b : v) :
    ∑ i, (dovvo ⟨t1, t2, l1, l2⟩ i a b i + dovvo ⟨t1, t2, l1, l2⟩ i b a i) + (∑ c, (dvvvv ⟨t1, t2, l1, l2⟩ c a b c + dvvvv ⟨t1, t2, l1, l2⟩ a c c b) * 2)
      = 2 * (dvv ⟨t1, t2, l1, l2⟩ a b + dvv ⟨t1, t2, l1, l2⟩ b a) := by
  simp only [dvvvv, dovvo, dvv, gvvvv, gOvvO, govVO, pvOOv, pvoOV, tau, theta]
  diagram [ht, hl]

theorem exch_ov (ht : ∀ i j a b, t2 j i b a = t2 i j a b) (hl : ∀ i j a b, l2 j i b a = l2 i j a b) (i : o) (a : v) :
    ∑ k, dooov ⟨t1, t2, l1, l2⟩ i k k a + ∑ c, dovvv ⟨t1, t2, l1, l2⟩ i c c a = 0 := by
  simp only [dooov, gooov, moo, goooo, dovvv, gvovv, mvv, gvvvv, pvOOv, pvoOV, tau, theta]
  diagram [ht, hl]

theorem trace_dm1 (ht : ∀ i j a b, t2 j i b a = t2 i j a b) (hl : ∀ i j a b, l2 j i b a = l2 i j a b) :
    ∑ i, (doo ⟨t1, t2, l1, l2⟩ i i + doo ⟨t1, t2, l1, l2⟩ i i) + ∑ a, (dvv ⟨t1, t2, l1, l2⟩ a a + dvv ⟨t1, t2, l1, l2⟩ a a) = 0 := by
  simp only [doo, dvv, theta]
  diagram [ht, hl]

end Vayesta.CcRdm2
