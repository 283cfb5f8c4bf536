import Verif.Model.Decompress
import Mathlib.GroupTheory.Perm.Sign
import Mathlib.Data.List.Forall2

/-! Specification used in the statements of C03. -/

namespace Vayesta.Spec

open Equiv

/-- Index in range: one tuple per group, of the right length, with entries below the axis size. -/
def InRange (gs : List AxisGroup) (ts : List (List Nat)) : Prop :=
  List.Forall₂ (fun (g : AxisGroup) t => t.length = g.k ∧ ∀ x ∈ t, x < g.n) gs ts

/-- Specification: `t'` is `t` rearranged by a permutation of its positions, with sign `s`
(the parity if the group is antisymmetric, 1 if it is symmetric). -/
def Rearranged (anti : Bool) (t t' : List Nat) (s : Int) : Prop :=
  ∃ (k : Nat) (f : Fin k → Nat) (σ : Perm (Fin k)),
    t = List.ofFn f ∧ t' = List.ofFn (fun i => f (σ i)) ∧ s = if anti then (Perm.sign σ : Int) else 1

/-- Specification: rearrangement group by group. -/
inductive RearrangedAll : List AxisGroup → List (List Nat) → List (List Nat) → List Int → Prop
  | nil : RearrangedAll [] [] [] []
  | cons {g t t' s gs ts ts' ss} : Rearranged g.anti t t' s → RearrangedAll gs ts ts' ss →
      RearrangedAll (g :: gs) (t :: ts) (t' :: ts') (s :: ss)

/-- Specification: an array (a function of one index tuple per group) has the packing symmetry of the groups. -/
structure HasPackingSymmetry {R : Type} [CommRing R] (gs : List AxisGroup) (A : List (List Nat) → R) : Prop where
  permute : ∀ ts ts' ss, InRange gs ts → RearrangedAll gs ts ts' ss → A ts' = A ts * ((ss.prod : Int) : R)
  repeated : ∀ ts, InRange gs ts → (∃ t ∈ ts, ¬ t.Nodup) → A ts = 0

/-- Specification of packing: `A[tril_indices_ndim(...)]` in every group. -/
def compress {R : Type} (gs : List AxisGroup) (A : List (List Nat) → R) (pos : List Nat) : R :=
  A (List.zipWith (fun g r => (trilIndices g.n g.k false).map fun c => c.getD r 0) gs pos)

/-- Packed positions in range. -/
def PosInRange (gs : List AxisGroup) (pos : List Nat) : Prop :=
  List.Forall₂ (fun (g : AxisGroup) r => r < (((trilIndices g.n g.k false).head?).getD []).length) gs pos

end Vayesta.Spec
