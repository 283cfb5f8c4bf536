import Verif.Model.Blocks
import Mathlib.Algebra.Field.Defs

/-! Model of the conversion of CI coefficients to cluster amplitudes up to quadruple excitations: `vayesta/core/types/wf/t_to_c.py`,
`RCISDTQ_WaveFunction.as_ccsdtq`, `UCISDTQ_WaveFunction.as_ccsdtq` (`vayesta/core/types/wf/cisdtq.py:14-64`). Tensors are functions of their indices:
`O`, `V` occupied and virtual orbitals of alpha spin, `P`, `W` those of beta spin. Each term of the code is one term here, in the same order. The
functions for two alpha and two beta spins are the same text in the code and are one definition here. -/

namespace Vayesta.TtoC

variable {O P V W K : Type} [Field K]

/-- `t1_rhf` (t_to_c.py:23-24), `t1_uhf` (lines 14-17). -/
def t1Same (c1 : O → V → K) : O → V → K :=
  fun i a =>
    c1 i a

/-- `t2_uhf`, both spins equal (t_to_c.py:33-36, 40-43). -/
def t2Same (t1 : O → V → K) (c2 : O → O → V → V → K) : O → O → V → V → K :=
  fun i j a b =>
    c2 i j a b + t1 i b * t1 j a - t1 i a * t1 j b

/-- `t2_uhf`, `t2_rhf`, different spins (t_to_c.py:37-39, 49-51). -/
def t2Mixed (t1a : O → V → K) (t1b : P → W → K) (c2 : O → P → V → W → K) : O → P → V → W → K :=
  fun i j a b =>
    c2 i j a b - t1a i a * t1b j b

/-- `t3_uhf`, all spins equal (t_to_c.py:61-75, 98-112). -/
def t3Same (t1 : O → V → K) (t2 : O → O → V → V → K) (c3 : O → O → O → V → V → V → K) :
    O → O → O → V → V → V → K :=
  let x0 := fun i j a b =>
    t2 i j a b - t1 i b * t1 j a + t1 i a * t1 j b
  fun i j k a b c =>
    c3 i j k a b c - t1 i a * t2 j k b c - t1 i c * t2 j k a b + t1 j a * t2 i k b c + t1 j c * t2 i k a b - t1 k a * t2 i j b c
      - t1 k c * t2 i j a b + t1 i b * x0 k j c a + t1 k b * x0 j i c a - t1 j b * x0 k i c a

/-- `t3_uhf`, spins alpha, beta, alpha (t_to_c.py:76-86). -/
def t3Aba (t1a : O → V → K) (t1b : P → W → K) (t2aa : O → O → V → V → K) (t2ab : O → P → V → W → K)
    (c3 : O → P → O → V → W → V → K) : O → P → O → V → W → V → K :=
  let x0 := fun i j a b =>
    t2aa i j a b - t1a i b * t1a j a + t1a i a * t1a j b
  fun i j k a b c =>
    c3 i j k a b c - t1a i a * t2ab k j c b + t1a i c * t2ab k j a b + t1a k a * t2ab i j c b - t1a k c * t2ab i j a b
      - t1b j b * x0 k i c a

/-- `t3_uhf`, spins beta, alpha, beta (t_to_c.py:87-97). -/
def t3Bab (t1a : O → V → K) (t1b : P → W → K) (t2ab : O → P → V → W → K) (t2bb : P → P → W → W → K)
    (c3 : P → O → P → W → V → W → K) : P → O → P → W → V → W → K :=
  let x0 := fun i j a b =>
    t2bb i j a b - t1b i b * t1b j a + t1b i a * t1b j b
  fun i j k a b c =>
    c3 i j k a b c - t1b i a * t2ab j k b c + t1b i c * t2ab j k b a + t1b k a * t2ab j i b c - t1b k c * t2ab j i b a
      - t1a j b * x0 k i c a

/-- `t3_rhf`, spins alpha, beta, alpha (t_to_c.py:118-129). -/
def t3Rhf (t1 : O → V → K) (t2 : O → O → V → V → K) (c3 : O → O → O → V → V → V → K) :
    O → O → O → V → V → V → K :=
  let x0 := fun i j a b =>
    -(t2 i j a b) + t2 i j b a + t1 i b * t1 j a - t1 i a * t1 j b
  fun i j k a b c =>
    c3 i j k a b c - t1 i a * t2 k j c b + t1 i c * t2 k j a b + t1 k a * t2 i j c b - t1 k c * t2 i j a b - t1 j b * x0 i k c a

/-- `t4_uhf`, all spins equal (t_to_c.py:140-203, 321-384). -/
def t4Same (t1 : O → V → K) (t2 : O → O → V → V → K) (t3 : O → O → O → V → V → V → K)
    (c4 : O → O → O → O → V → V → V → V → K) : O → O → O → O → V → V → V → V → K :=
  let x0 := fun i j a b =>
    t2 i j a b - t1 i b * t1 j a + t1 i a * t1 j b
  let x1 := fun i j k a b c =>
    t3 i j k a b c - t1 j a * t2 i k b c + t1 j b * t2 i k a c - t1 j c * t2 i k a b + t1 k a * t2 i j b c - t1 k b * t2 i j a c
      + t1 k c * t2 i j a b + t1 i a * x0 k j c b + t1 i c * x0 k j b a - t1 i b * x0 k j c a
  let x2 := fun i j k a b c =>
    t3 i j k a b c + t1 i a * t2 j k b c - t1 i b * t2 j k a c + t1 i c * t2 j k a b + t1 k a * t2 i j b c - t1 k b * t2 i j a c
      + t1 k c * t2 i j a b
  let x3 := fun i j k a b c =>
    t3 i j k a b c + t1 i a * t2 j k b c - t1 i b * t2 j k a c + t1 i c * t2 j k a b
  fun i j k l a b c d =>
    c4 i j k l a b c d + t1 l a * t3 i j k b c d - t1 l b * t3 i j k a c d + t1 l c * t3 i j k a b d - t1 l d * t3 i j k a b c
      - t2 i l c d * t2 j k a b + t2 i l b d * t2 j k a c - t2 i l a d * t2 j k b c - t2 i l b c * t2 j k a d + t2 i l a c * t2 j k b d
      - t2 i l a b * t2 j k c d + t2 i k c d * t2 j l a b - t2 i k b d * t2 j l a c + t2 i k a d * t2 j l b c + t2 i k b c * t2 j l a d
      - t2 i k a c * t2 j l b d + t2 i k a b * t2 j l c d - t2 i j c d * t2 k l a b + t2 i j b d * t2 k l a c - t2 i j a d * t2 k l b c
      - t2 i j b c * t2 k l a d + t2 i j a c * t2 k l b d - t2 i j a b * t2 k l c d + t1 i b * x1 l j k d a c + t1 i d * x1 l j k c a b
      - t1 i a * x1 l j k d b c - t1 i c * x1 l j k d a b + t1 j a * x2 l i k d b c + t1 j c * x2 l i k d a b - t1 j b * x2 l i k d a c
      - t1 j d * x2 l i k c a b + t1 k b * x3 l i j d a c + t1 k d * x3 l i j c a b - t1 k a * x3 l i j d b c - t1 k c * x3 l i j d a b

/-- `t4_uhf`, spins alpha, alpha, alpha, beta (t_to_c.py:204-245). -/
def t4Aaab (t1a : O → V → K) (t1b : P → W → K) (t2aa : O → O → V → V → K) (t2ab : O → P → V → W → K)
    (t3aaa : O → O → O → V → V → V → K) (t3aba : O → P → O → V → W → V → K) (c4 : O → O → O → P → V → V → V → W → K) :
    O → O → O → P → V → V → V → W → K :=
  let x0 := fun i j a b =>
    t2aa i j a b - t1a i b * t1a j a + t1a i a * t1a j b
  let x1 := fun i j k a b c =>
    t3aaa i j k a b c - t1a j a * t2aa i k b c + t1a j b * t2aa i k a c - t1a j c * t2aa i k a b + t1a k a * t2aa i j b c
      - t1a k b * t2aa i j a c + t1a k c * t2aa i j a b + t1a i a * x0 k j c b + t1a i c * x0 k j b a - t1a i b * x0 k j c a
  let x2 := fun i a j k b c =>
    t3aba j i k b a c + t1a j b * t2ab k i c a - t1a j c * t2ab k i b a - t1a k b * t2ab j i c a + t1a k c * t2ab j i b a
  fun i j k l a b c d =>
    c4 i j k l a b c d - t1a i a * t3aba j l k b d c - t1a i c * t3aba j l k a d b + t1a j a * t3aba i l k b d c
      + t1a j c * t3aba i l k a d b - t1a k a * t3aba i l j b d c - t1a k c * t3aba i l j a d b - t2ab k l c d * t2aa i j a b
      - t2ab k l a d * t2aa i j b c + t2ab j l c d * t2aa i k a b + t2ab j l a d * t2aa i k b c - t2ab i l c d * t2aa j k a b
      - t2ab i l a d * t2aa j k b c + t2ab i l b d * x0 k j c a + t2ab k l b d * x0 j i c a - t2ab j l b d * x0 k i c a
      - t1b l d * x1 k i j c a b + t1a i b * x2 l d k j c a + t1a k b * x2 l d j i c a - t1a j b * x2 l d k i c a

/-- `t4_uhf`, alternating spins (t_to_c.py:246-278). -/
def t4Abab (t1a : O → V → K) (t1b : P → W → K) (t2aa : O → O → V → V → K) (t2ab : O → P → V → W → K)
    (t2bb : P → P → W → W → K) (t3aba : O → P → O → V → W → V → K) (t3bab : P → O → P → W → V → W → K)
    (c4 : O → P → O → P → V → W → V → W → K) : O → P → O → P → V → W → V → W → K :=
  let x0 := fun i j a b =>
    t2aa i j a b - t1a i b * t1a j a + t1a i a * t1a j b
  let x1 := fun i j a b =>
    t2bb i j a b - t1b i b * t1b j a + t1b i a * t1b j b
  let x2 := fun i a j k b c =>
    t3aba j i k b a c + t1a j b * t2ab k i c a - t1a j c * t2ab k i b a - t1a k b * t2ab j i c a + t1a k c * t2ab j i b a
  fun i j k l a b c d =>
    c4 i j k l a b c d - t1a i a * t3bab j k l b c d + t1a i c * t3bab j k l b a d + t1a k a * t3bab j i l b c d
      - t1a k c * t3bab j i l b a d + t2ab i l a b * t2ab k j c d - t2ab i l c b * t2ab k j a d - t2ab i j c d * t2ab k l a b
      + t2ab i j a d * t2ab k l c b - t2ab i l a d * t2ab k j c b + t2ab i l c d * t2ab k j a b + t2ab i j c b * t2ab k l a d
      - t2ab i j a b * t2ab k l c d - x0 k i c a * x1 l j d b + t1b j d * x2 l b k i c a + t1b l b * x2 j d k i c a
      - t1b j b * x2 l d k i c a - t1b l d * x2 j b k i c a

/-- `t4_uhf`, spins alpha, beta, beta, beta (t_to_c.py:279-320). -/
def t4Abbb (t1a : O → V → K) (t1b : P → W → K) (t2ab : O → P → V → W → K) (t2bb : P → P → W → W → K)
    (t3bab : P → O → P → W → V → W → K) (t3bbb : P → P → P → W → W → W → K) (c4 : O → P → P → P → V → W → W → W → K) :
    O → P → P → P → V → W → W → W → K :=
  let x0 := fun i j a b =>
    t2bb i j a b - t1b i b * t1b j a + t1b i a * t1b j b
  let x1 := fun i j k a b c =>
    t3bbb i j k a b c - t1b j a * t2bb i k b c + t1b j b * t2bb i k a c - t1b j c * t2bb i k a b + t1b k a * t2bb i j b c
      - t1b k b * t2bb i j a c + t1b k c * t2bb i j a b + t1b i a * x0 k j c b + t1b i c * x0 k j b a - t1b i b * x0 k j c a
  let x2 := fun i j a b k c =>
    t3bab i k j a c b + t1b i a * t2ab k j c b - t1b i b * t2ab k j c a - t1b j a * t2ab k i c b + t1b j b * t2ab k i c a
  fun i j k l a b c d =>
    c4 i j k l a b c d - t1b j b * t3bab k i l c a d - t1b j d * t3bab k i l b a c + t1b k b * t3bab j i l c a d
      + t1b k d * t3bab j i l b a c - t1b l b * t3bab j i k c a d - t1b l d * t3bab j i k b a c - t2ab i l a d * t2bb j k b c
      - t2ab i l a b * t2bb j k c d + t2ab i k a d * t2bb j l b c + t2ab i k a b * t2bb j l c d - t2ab i j a d * t2bb k l b c
      - t2ab i j a b * t2bb k l c d + t2ab i l a c * x0 k j d b + t2ab i j a c * x0 l k d b - t2ab i k a c * x0 l j d b
      - t1a i a * x1 l j k d b c + t1b j c * x2 l k d b i a + t1b l c * x2 k j d b i a - t1b k c * x2 l j d b i a

/-- `t4_rhf`, alternating spins (t_to_c.py:391-420). -/
def t4RhfAbab (t1 : O → V → K) (t2 : O → O → V → V → K) (t3 : O → O → O → V → V → V → K)
    (c4 : O → O → O → O → V → V → V → V → K) : O → O → O → O → V → V → V → V → K :=
  let x0 := fun i j a b =>
    -(t2 i j a b) + t2 i j b a + t1 i b * t1 j a - t1 i a * t1 j b
  let x1 := fun i j k a b c =>
    t3 i j k a b c + t1 i a * t2 j k b c - t1 i c * t2 j k b a - t1 k a * t2 j i b c + t1 k c * t2 j i b a
  fun i j k l a b c d =>
    c4 i j k l a b c d - t1 j b * t3 i l k a d c + t1 j d * t3 i l k a b c + t1 l b * t3 i j k a d c - t1 l d * t3 i j k a b c
      - t2 i j a b * t2 k l c d + t2 i j a d * t2 k l c b + t2 i j c b * t2 k l a d - t2 i j c d * t2 k l a b + t2 i l a b * t2 k j c d
      - t2 i l a d * t2 k j c b - t2 i l c b * t2 k j a d + t2 i l c d * t2 k j a b + x0 i k a c * x0 j l d b + t1 i c * x1 j k l b a d
      + t1 k a * x1 j i l b c d - t1 i a * x1 j k l b c d - t1 k c * x1 j i l b a d

/-- `t4_rhf`, spins alpha, beta, alpha, alpha (t_to_c.py:421-483). -/
def t4RhfAbaa (t1 : O → V → K) (t2 : O → O → V → V → K) (t3 : O → O → O → V → V → V → K)
    (c4 : O → O → O → O → V → V → V → V → K) : O → O → O → O → V → V → V → V → K :=
  let x0 := fun i j a b =>
    -(t2 i j a b) + t2 i j b a + t1 i b * t1 j a - t1 i a * t1 j b
  let x1 := fun i j a b =>
    t2 i j a b - t2 i j b a - t1 i b * t1 j a + t1 i a * t1 j b
  let x2 := fun i j k a b c =>
    -(t3 i j k a b c) + t3 i j k a c b + t3 i j k b a c + t1 j a * t2 i k b c - t1 j a * t2 i k c b - t1 j b * t2 i k a c
      + t1 j b * t2 i k c a + t1 j c * t2 i k a b - t1 j c * t2 i k b a - t1 k a * t2 i j b c + t1 k a * t2 i j c b + t1 k b * t2 i j a c
      - t1 k b * t2 i j c a - t1 k c * t2 i j a b + t1 k c * t2 i j b a - t1 i a * x0 j k c b - t1 i b * x1 j k c a - t1 i c * x1 j k a b
  let x3 := fun i j k a b c =>
    t3 i j k a b c + t1 i a * t2 k j c b - t1 i c * t2 k j a b - t1 k a * t2 i j c b + t1 k c * t2 i j a b
  fun i j k l a b c d =>
    c4 i j k l a b c d - t1 i a * t3 k j l c b d - t1 i d * t3 k j l a b c + t1 k a * t3 i j l c b d + t1 k d * t3 i j l a b c
      - t1 l a * t3 i j k c b d - t1 l d * t3 i j k a b c - t2 i j a b * t2 k l c d + t2 i j a b * t2 k l d c - t2 i j d b * t2 k l a c
      + t2 i j d b * t2 k l c a + t2 i l a c * t2 k j d b + t2 i l c d * t2 k j a b - t2 i l c a * t2 k j d b - t2 i l d c * t2 k j a b
      - t2 i k a c * t2 l j d b - t2 i k c d * t2 l j a b + t2 i k c a * t2 l j d b + t2 i k d c * t2 l j a b - t2 k j c b * x0 i l d a
      - t2 i j c b * x1 k l d a - t2 l j c b * x1 i k d a + t1 j b * x2 i k l a c d + t1 i c * x3 k j l a b d + t1 l c * x3 i j k a b d
      - t1 k c * x3 i j l a b d

/-- Coefficients of a restricted wave function (cisdtq.py:14-25, ccsdtq.py:13-26): reference, singles, doubles (alpha, beta), triples (alpha, beta, alpha)
and quadruples (alpha, beta, alpha, alpha and alternating). The check of the number of quadruples is the type. -/
structure RCoeffs (O V K : Type) where
  one : O → V → K
  two : O → O → V → V → K
  three : O → O → O → V → V → V → K
  abaa : O → O → O → O → V → V → V → V → K
  abab : O → O → O → O → V → V → V → V → K

/-- Coefficients of an unrestricted wave function (cisdtq.py:42-56, ccsdtq.py:38-46). -/
structure UCoeffs (O P V W K : Type) where
  a : O → V → K
  b : P → W → K
  aa : O → O → V → V → K
  ab : O → P → V → W → K
  bb : P → P → W → W → K
  aaa : O → O → O → V → V → V → K
  aba : O → P → O → V → W → V → K
  bab : P → O → P → W → V → W → K
  bbb : P → P → P → W → W → W → K
  aaaa : O → O → O → O → V → V → V → V → K
  aaab : O → O → O → P → V → V → V → W → K
  abab : O → P → O → P → V → W → V → W → K
  abbb : O → P → P → P → V → W → W → W → K
  bbbb : P → P → P → P → W → W → W → W → K

/-- `RCISDTQ_WaveFunction.as_ccsdtq` (cisdtq.py:25-37). Division by a reference coefficient of zero gives infinities in the code and is outside the
model. -/
def rAsCcsdtq (c0 : K) (c : RCoeffs O V K) : RCoeffs O V K :=
  let c1 := fun i a => c.one i a / c0
  let c2 := fun i j a b => c.two i j a b / c0
  let c3 := fun i j k a b d => c.three i j k a b d / c0
  let t1 := t1Same c1
  let t2 := t2Mixed t1 t1 c2
  let t3 := t3Rhf t1 t2 c3
  ⟨t1, t2, t3, t4RhfAbaa t1 t2 t3 (fun i j k l a b d e => c.abaa i j k l a b d e / c0),
    t4RhfAbab t1 t2 t3 (fun i j k l a b d e => c.abab i j k l a b d e / c0)⟩

/-- `UCISDTQ_WaveFunction.as_ccsdtq` (cisdtq.py:56-64). -/
def uAsCcsdtq (c0 : K) (c : UCoeffs O P V W K) : UCoeffs O P V W K :=
  let t1a := t1Same (fun i a => c.a i a / c0)
  let t1b := t1Same (fun i a => c.b i a / c0)
  let t2aa := t2Same t1a (fun i j a b => c.aa i j a b / c0)
  let t2ab := t2Mixed t1a t1b (fun i j a b => c.ab i j a b / c0)
  let t2bb := t2Same t1b (fun i j a b => c.bb i j a b / c0)
  let t3aaa := t3Same t1a t2aa (fun i j k a b d => c.aaa i j k a b d / c0)
  let t3aba := t3Aba t1a t1b t2aa t2ab (fun i j k a b d => c.aba i j k a b d / c0)
  let t3bab := t3Bab t1a t1b t2ab t2bb (fun i j k a b d => c.bab i j k a b d / c0)
  let t3bbb := t3Same t1b t2bb (fun i j k a b d => c.bbb i j k a b d / c0)
  ⟨t1a, t1b, t2aa, t2ab, t2bb, t3aaa, t3aba, t3bab, t3bbb,
    t4Same t1a t2aa t3aaa (fun i j k l a b d e => c.aaaa i j k l a b d e / c0),
    t4Aaab t1a t1b t2aa t2ab t3aaa t3aba (fun i j k l a b d e => c.aaab i j k l a b d e / c0),
    t4Abab t1a t1b t2aa t2ab t2bb t3aba t3bab (fun i j k l a b d e => c.abab i j k l a b d e / c0),
    t4Abbb t1a t1b t2ab t2bb t3bab t3bbb (fun i j k l a b d e => c.abbb i j k l a b d e / c0),
    t4Same t1b t2bb t3bbb (fun i j k l a b d e => c.bbbb i j k l a b d e / c0)⟩

end Vayesta.TtoC
