import Verif.Model.TtoC
import Verif.Lemmas.ExpT
import Mathlib.Tactic.Ring
import Mathlib.Tactic.NormNum
import Mathlib.Algebra.Field.Rat
import Mathlib.Tactic.LinearCombination

/-! C27: conversion of CI coefficients to cluster amplitudes. -/

namespace Vayesta.Props

open Vayesta.TtoC Vayesta.ExpT

variable {O P V W K : Type} [Field K]

section Ranks

variable (t : List O → List V → K)

private theorem exp1 (i : O) (a : V) : expCoeff t [i] [a] = t [i] [a] := by
  simp [expCoeff, expRank, expStep, splits]

private theorem exp2 (i j : O) (a b : V) : expCoeff t [i, j] [a, b] = t [i, j] [a, b] + t [i] [a] * t [j] [b] - t [i] [b] * t [j] [a] := by
  simp [expCoeff, expRank, expStep, splits]
  ring

private theorem exp3 (i j k : O) (a b c : V) : expCoeff t [i, j, k] [a, b, c] = t [i, j, k] [a, b, c] +
    t [i] [a] * expCoeff t [j, k] [b, c] - t [i] [b] * expCoeff t [j, k] [a, c] + t [i] [c] * expCoeff t [j, k] [a, b] +
    t [i, j] [a, b] * t [k] [c] - t [i, j] [a, c] * t [k] [b] + t [i, j] [b, c] * t [k] [a] -
    t [i, k] [a, b] * t [j] [c] + t [i, k] [a, c] * t [j] [b] - t [i, k] [b, c] * t [j] [a] := by
  simp only [exp2]
  simp [expCoeff, expRank, expStep, splits]
  ring

private theorem exp4 (i j k l : O) (a b c d : V) : expCoeff t [i, j, k, l] [a, b, c, d] = t [i, j, k, l] [a, b, c, d] +
    t [i] [a] * expCoeff t [j, k, l] [b, c, d] - t [i] [b] * expCoeff t [j, k, l] [a, c, d] + t [i] [c] * expCoeff t [j, k, l] [a, b, d] -
    t [i] [d] * expCoeff t [j, k, l] [a, b, c] +
    t [i, j] [a, b] * expCoeff t [k, l] [c, d] - t [i, j] [a, c] * expCoeff t [k, l] [b, d] + t [i, j] [a, d] * expCoeff t [k, l] [b, c] +
    t [i, j] [b, c] * expCoeff t [k, l] [a, d] - t [i, j] [b, d] * expCoeff t [k, l] [a, c] + t [i, j] [c, d] * expCoeff t [k, l] [a, b] -
    t [i, k] [a, b] * expCoeff t [j, l] [c, d] + t [i, k] [a, c] * expCoeff t [j, l] [b, d] - t [i, k] [a, d] * expCoeff t [j, l] [b, c] -
    t [i, k] [b, c] * expCoeff t [j, l] [a, d] + t [i, k] [b, d] * expCoeff t [j, l] [a, c] - t [i, k] [c, d] * expCoeff t [j, l] [a, b] +
    t [i, l] [a, b] * expCoeff t [j, k] [c, d] - t [i, l] [a, c] * expCoeff t [j, k] [b, d] + t [i, l] [a, d] * expCoeff t [j, k] [b, c] +
    t [i, l] [b, c] * expCoeff t [j, k] [a, d] - t [i, l] [b, d] * expCoeff t [j, k] [a, c] + t [i, l] [c, d] * expCoeff t [j, k] [a, b] +
    t [i, j, k] [a, b, c] * t [l] [d] - t [i, j, k] [a, b, d] * t [l] [c] + t [i, j, k] [a, c, d] * t [l] [b] - t [i, j, k] [b, c, d] * t [l] [a] -
    t [i, j, l] [a, b, c] * t [k] [d] + t [i, j, l] [a, b, d] * t [k] [c] - t [i, j, l] [a, c, d] * t [k] [b] + t [i, j, l] [b, c, d] * t [k] [a] +
    t [i, k, l] [a, b, c] * t [j] [d] - t [i, k, l] [a, b, d] * t [j] [c] + t [i, k, l] [a, c, d] * t [j] [b] - t [i, k, l] [b, c, d] * t [j] [a] := by
  have h : ∀ (n : Nat) (l : List O) (a : List V), l.length = n → expRank t n l a = expCoeff t l a := by
    intro n l a h
    subst h
    rfl
  have e1 : ∀ i a, expRank t 3 [i] [a] = t [i] [a] := by
    intro i a; simp [expRank, expStep, splits]
  have e2 : ∀ i j a b, expRank t 3 [i, j] [a, b] = expCoeff t [i, j] [a, b] := by
    intro i j a b
    rw [exp2]
    simp [expRank, expStep, splits]
    ring
  show expStep t (expRank t 3) i [j, k, l] [a, b, c, d] = _
  simp [expStep, splits, e1, e2, h 3, show expRank t 3 [] [] = 1 from rfl]
  ring

end Ranks

section Swaps

variable {t : List O → List V → K}

private theorem swapO (h : Antisymmetric t) (x y : O) : (∀ a, t [y, x] a = -t [x, y] a) ∧ (∀ z a, t [y, x, z] a = -t [x, y, z] a) ∧
    ∀ z a, t [z, y, x] a = -t [z, x, y] a :=
  ⟨fun a => h.occ [] y x [] a, fun z a => h.occ [] y x [z] a, fun z a => h.occ [z] y x [] a⟩

private theorem swapV (h : Antisymmetric t) (x y : V) : (∀ l, t l [y, x] = -t l [x, y]) ∧ (∀ l z, t l [y, x, z] = -t l [x, y, z]) ∧
    ∀ l z, t l [z, y, x] = -t l [z, x, y] :=
  ⟨fun l => h.vir l [] y x [], fun l z => h.vir l [] y x [z], fun l z => h.vir l [z] y x []⟩

/-- Bring the indices of all amplitudes in order. -/
local macro "order3" h:term:max i:ident j:ident k:ident a:ident b:ident c:ident : tactic => `(tactic|
  simp only [(swapO $h $i $j).1, (swapO $h $i $k).1, (swapO $h $j $k).1, (swapO $h $i $j).2.1, (swapO $h $i $k).2.1, (swapO $h $j $k).2.1,
    (swapO $h $i $j).2.2, (swapO $h $i $k).2.2, (swapO $h $j $k).2.2, (swapV $h $a $b).1, (swapV $h $a $c).1, (swapV $h $b $c).1,
    (swapV $h $a $b).2.1, (swapV $h $a $c).2.1, (swapV $h $b $c).2.1, (swapV $h $a $b).2.2, (swapV $h $a $c).2.2, (swapV $h $b $c).2.2, neg_neg])

local macro "order4" h:term:max i:ident j:ident k:ident l:ident a:ident b:ident c:ident d:ident : tactic => `(tactic|
  simp only [(swapO $h $i $j).1, (swapO $h $i $k).1, (swapO $h $j $k).1, (swapO $h $i $j).2.1, (swapO $h $i $k).2.1, (swapO $h $j $k).2.1,
    (swapO $h $i $j).2.2, (swapO $h $i $k).2.2, (swapO $h $j $k).2.2, (swapV $h $a $b).1, (swapV $h $a $c).1, (swapV $h $b $c).1,
    (swapV $h $a $b).2.1, (swapV $h $a $c).2.1, (swapV $h $b $c).2.1, (swapV $h $a $b).2.2, (swapV $h $a $c).2.2, (swapV $h $b $c).2.2,
    (swapO $h $i $l).1, (swapO $h $j $l).1, (swapO $h $k $l).1, (swapO $h $i $l).2.1, (swapO $h $j $l).2.1, (swapO $h $k $l).2.1,
    (swapO $h $i $l).2.2, (swapO $h $j $l).2.2, (swapO $h $k $l).2.2, (swapV $h $a $d).1, (swapV $h $b $d).1, (swapV $h $c $d).1,
    (swapV $h $a $d).2.1, (swapV $h $b $d).2.1, (swapV $h $c $d).2.1, (swapV $h $a $d).2.2, (swapV $h $b $d).2.2, (swapV $h $c $d).2.2, neg_neg])

private theorem same2 (i j : O) (a b : V) :
    t2Same (fun i a => t [i] [a]) (fun i j a b => expCoeff t [i, j] [a, b]) i j a b = t [i, j] [a, b] := by
  simp only [t2Same, exp2]
  ring

private theorem same3 (h : Antisymmetric t) (i j k : O) (a b c : V) : t3Same (fun i a => t [i] [a]) (fun i j a b => t [i, j] [a, b])
    (fun i j k a b c => expCoeff t [i, j, k] [a, b, c]) i j k a b c = t [i, j, k] [a, b, c] := by
  simp only [t3Same, exp3, exp2]
  order3 h i j k a b c
  ring

private theorem same4 (h : Antisymmetric t) (i j k l : O) (a b c d : V) : t4Same (fun i a => t [i] [a]) (fun i j a b => t [i, j] [a, b])
    (fun i j k a b c => t [i, j, k] [a, b, c]) (fun i j k l a b c d => expCoeff t [i, j, k, l] [a, b, c, d]) i j k l a b c d =
    t [i, j, k, l] [a, b, c, d] := by
  simp only [t4Same, exp4, exp3, exp2]
  order4 h i j k l a b c d
  ring


variable {t : List (O ⊕ P) → List (V ⊕ W) → K}

private theorem z_a_b (hc : ConservesSpin t) (i : O) (a : W) : t [.inl i] [.inr a] = 0 :=
  hc _ _ rfl (show (1 : Nat) ≠ 0 by decide)
private theorem z_b_a (hc : ConservesSpin t) (i : P) (a : V) : t [.inr i] [.inl a] = 0 :=
  hc _ _ rfl (show (0 : Nat) ≠ 1 by decide)
private theorem z_aa_ab (hc : ConservesSpin t) (i : O) (j : O) (a : V) (b : W) : t [.inl i, .inl j] [.inl a, .inr b] = 0 :=
  hc _ _ rfl (show (2 : Nat) ≠ 1 by decide)
private theorem z_aa_ba (hc : ConservesSpin t) (i : O) (j : O) (a : W) (b : V) : t [.inl i, .inl j] [.inr a, .inl b] = 0 :=
  hc _ _ rfl (show (2 : Nat) ≠ 1 by decide)
private theorem z_aa_bb (hc : ConservesSpin t) (i : O) (j : O) (a : W) (b : W) : t [.inl i, .inl j] [.inr a, .inr b] = 0 :=
  hc _ _ rfl (show (2 : Nat) ≠ 0 by decide)
private theorem z_ab_aa (hc : ConservesSpin t) (i : O) (j : P) (a : V) (b : V) : t [.inl i, .inr j] [.inl a, .inl b] = 0 :=
  hc _ _ rfl (show (1 : Nat) ≠ 2 by decide)
private theorem z_ab_bb (hc : ConservesSpin t) (i : O) (j : P) (a : W) (b : W) : t [.inl i, .inr j] [.inr a, .inr b] = 0 :=
  hc _ _ rfl (show (1 : Nat) ≠ 0 by decide)
private theorem z_ba_aa (hc : ConservesSpin t) (i : P) (j : O) (a : V) (b : V) : t [.inr i, .inl j] [.inl a, .inl b] = 0 :=
  hc _ _ rfl (show (1 : Nat) ≠ 2 by decide)
private theorem z_ba_bb (hc : ConservesSpin t) (i : P) (j : O) (a : W) (b : W) : t [.inr i, .inl j] [.inr a, .inr b] = 0 :=
  hc _ _ rfl (show (1 : Nat) ≠ 0 by decide)
private theorem z_bb_aa (hc : ConservesSpin t) (i : P) (j : P) (a : V) (b : V) : t [.inr i, .inr j] [.inl a, .inl b] = 0 :=
  hc _ _ rfl (show (0 : Nat) ≠ 2 by decide)
private theorem z_bb_ab (hc : ConservesSpin t) (i : P) (j : P) (a : V) (b : W) : t [.inr i, .inr j] [.inl a, .inr b] = 0 :=
  hc _ _ rfl (show (0 : Nat) ≠ 1 by decide)
private theorem z_bb_ba (hc : ConservesSpin t) (i : P) (j : P) (a : W) (b : V) : t [.inr i, .inr j] [.inr a, .inl b] = 0 :=
  hc _ _ rfl (show (0 : Nat) ≠ 1 by decide)
private theorem z_aaa_aab (hc : ConservesSpin t) (i : O) (j : O) (k : O) (a : V) (b : V) (c : W) : t [.inl i, .inl j, .inl k] [.inl a, .inl b, .inr c] = 0 :=
  hc _ _ rfl (show (3 : Nat) ≠ 2 by decide)
private theorem z_aaa_aba (hc : ConservesSpin t) (i : O) (j : O) (k : O) (a : V) (b : W) (c : V) : t [.inl i, .inl j, .inl k] [.inl a, .inr b, .inl c] = 0 :=
  hc _ _ rfl (show (3 : Nat) ≠ 2 by decide)
private theorem z_aaa_abb (hc : ConservesSpin t) (i : O) (j : O) (k : O) (a : V) (b : W) (c : W) : t [.inl i, .inl j, .inl k] [.inl a, .inr b, .inr c] = 0 :=
  hc _ _ rfl (show (3 : Nat) ≠ 1 by decide)
private theorem z_aaa_baa (hc : ConservesSpin t) (i : O) (j : O) (k : O) (a : W) (b : V) (c : V) : t [.inl i, .inl j, .inl k] [.inr a, .inl b, .inl c] = 0 :=
  hc _ _ rfl (show (3 : Nat) ≠ 2 by decide)
private theorem z_aaa_bab (hc : ConservesSpin t) (i : O) (j : O) (k : O) (a : W) (b : V) (c : W) : t [.inl i, .inl j, .inl k] [.inr a, .inl b, .inr c] = 0 :=
  hc _ _ rfl (show (3 : Nat) ≠ 1 by decide)
private theorem z_aaa_bba (hc : ConservesSpin t) (i : O) (j : O) (k : O) (a : W) (b : W) (c : V) : t [.inl i, .inl j, .inl k] [.inr a, .inr b, .inl c] = 0 :=
  hc _ _ rfl (show (3 : Nat) ≠ 1 by decide)
private theorem z_aaa_bbb (hc : ConservesSpin t) (i : O) (j : O) (k : O) (a : W) (b : W) (c : W) : t [.inl i, .inl j, .inl k] [.inr a, .inr b, .inr c] = 0 :=
  hc _ _ rfl (show (3 : Nat) ≠ 0 by decide)
private theorem z_aab_aaa (hc : ConservesSpin t) (i : O) (j : O) (k : P) (a : V) (b : V) (c : V) : t [.inl i, .inl j, .inr k] [.inl a, .inl b, .inl c] = 0 :=
  hc _ _ rfl (show (2 : Nat) ≠ 3 by decide)
private theorem z_aab_abb (hc : ConservesSpin t) (i : O) (j : O) (k : P) (a : V) (b : W) (c : W) : t [.inl i, .inl j, .inr k] [.inl a, .inr b, .inr c] = 0 :=
  hc _ _ rfl (show (2 : Nat) ≠ 1 by decide)
private theorem z_aab_bab (hc : ConservesSpin t) (i : O) (j : O) (k : P) (a : W) (b : V) (c : W) : t [.inl i, .inl j, .inr k] [.inr a, .inl b, .inr c] = 0 :=
  hc _ _ rfl (show (2 : Nat) ≠ 1 by decide)
private theorem z_aab_bba (hc : ConservesSpin t) (i : O) (j : O) (k : P) (a : W) (b : W) (c : V) : t [.inl i, .inl j, .inr k] [.inr a, .inr b, .inl c] = 0 :=
  hc _ _ rfl (show (2 : Nat) ≠ 1 by decide)
private theorem z_aab_bbb (hc : ConservesSpin t) (i : O) (j : O) (k : P) (a : W) (b : W) (c : W) : t [.inl i, .inl j, .inr k] [.inr a, .inr b, .inr c] = 0 :=
  hc _ _ rfl (show (2 : Nat) ≠ 0 by decide)
private theorem z_aba_aaa (hc : ConservesSpin t) (i : O) (j : P) (k : O) (a : V) (b : V) (c : V) : t [.inl i, .inr j, .inl k] [.inl a, .inl b, .inl c] = 0 :=
  hc _ _ rfl (show (2 : Nat) ≠ 3 by decide)
private theorem z_aba_abb (hc : ConservesSpin t) (i : O) (j : P) (k : O) (a : V) (b : W) (c : W) : t [.inl i, .inr j, .inl k] [.inl a, .inr b, .inr c] = 0 :=
  hc _ _ rfl (show (2 : Nat) ≠ 1 by decide)
private theorem z_aba_bab (hc : ConservesSpin t) (i : O) (j : P) (k : O) (a : W) (b : V) (c : W) : t [.inl i, .inr j, .inl k] [.inr a, .inl b, .inr c] = 0 :=
  hc _ _ rfl (show (2 : Nat) ≠ 1 by decide)
private theorem z_aba_bba (hc : ConservesSpin t) (i : O) (j : P) (k : O) (a : W) (b : W) (c : V) : t [.inl i, .inr j, .inl k] [.inr a, .inr b, .inl c] = 0 :=
  hc _ _ rfl (show (2 : Nat) ≠ 1 by decide)
private theorem z_aba_bbb (hc : ConservesSpin t) (i : O) (j : P) (k : O) (a : W) (b : W) (c : W) : t [.inl i, .inr j, .inl k] [.inr a, .inr b, .inr c] = 0 :=
  hc _ _ rfl (show (2 : Nat) ≠ 0 by decide)
private theorem z_abb_aaa (hc : ConservesSpin t) (i : O) (j : P) (k : P) (a : V) (b : V) (c : V) : t [.inl i, .inr j, .inr k] [.inl a, .inl b, .inl c] = 0 :=
  hc _ _ rfl (show (1 : Nat) ≠ 3 by decide)
private theorem z_abb_aab (hc : ConservesSpin t) (i : O) (j : P) (k : P) (a : V) (b : V) (c : W) : t [.inl i, .inr j, .inr k] [.inl a, .inl b, .inr c] = 0 :=
  hc _ _ rfl (show (1 : Nat) ≠ 2 by decide)
private theorem z_abb_aba (hc : ConservesSpin t) (i : O) (j : P) (k : P) (a : V) (b : W) (c : V) : t [.inl i, .inr j, .inr k] [.inl a, .inr b, .inl c] = 0 :=
  hc _ _ rfl (show (1 : Nat) ≠ 2 by decide)
private theorem z_abb_baa (hc : ConservesSpin t) (i : O) (j : P) (k : P) (a : W) (b : V) (c : V) : t [.inl i, .inr j, .inr k] [.inr a, .inl b, .inl c] = 0 :=
  hc _ _ rfl (show (1 : Nat) ≠ 2 by decide)
private theorem z_abb_bbb (hc : ConservesSpin t) (i : O) (j : P) (k : P) (a : W) (b : W) (c : W) : t [.inl i, .inr j, .inr k] [.inr a, .inr b, .inr c] = 0 :=
  hc _ _ rfl (show (1 : Nat) ≠ 0 by decide)
private theorem z_baa_aaa (hc : ConservesSpin t) (i : P) (j : O) (k : O) (a : V) (b : V) (c : V) : t [.inr i, .inl j, .inl k] [.inl a, .inl b, .inl c] = 0 :=
  hc _ _ rfl (show (2 : Nat) ≠ 3 by decide)
private theorem z_baa_abb (hc : ConservesSpin t) (i : P) (j : O) (k : O) (a : V) (b : W) (c : W) : t [.inr i, .inl j, .inl k] [.inl a, .inr b, .inr c] = 0 :=
  hc _ _ rfl (show (2 : Nat) ≠ 1 by decide)
private theorem z_baa_bab (hc : ConservesSpin t) (i : P) (j : O) (k : O) (a : W) (b : V) (c : W) : t [.inr i, .inl j, .inl k] [.inr a, .inl b, .inr c] = 0 :=
  hc _ _ rfl (show (2 : Nat) ≠ 1 by decide)
private theorem z_baa_bba (hc : ConservesSpin t) (i : P) (j : O) (k : O) (a : W) (b : W) (c : V) : t [.inr i, .inl j, .inl k] [.inr a, .inr b, .inl c] = 0 :=
  hc _ _ rfl (show (2 : Nat) ≠ 1 by decide)
private theorem z_baa_bbb (hc : ConservesSpin t) (i : P) (j : O) (k : O) (a : W) (b : W) (c : W) : t [.inr i, .inl j, .inl k] [.inr a, .inr b, .inr c] = 0 :=
  hc _ _ rfl (show (2 : Nat) ≠ 0 by decide)
private theorem z_bab_aaa (hc : ConservesSpin t) (i : P) (j : O) (k : P) (a : V) (b : V) (c : V) : t [.inr i, .inl j, .inr k] [.inl a, .inl b, .inl c] = 0 :=
  hc _ _ rfl (show (1 : Nat) ≠ 3 by decide)
private theorem z_bab_aab (hc : ConservesSpin t) (i : P) (j : O) (k : P) (a : V) (b : V) (c : W) : t [.inr i, .inl j, .inr k] [.inl a, .inl b, .inr c] = 0 :=
  hc _ _ rfl (show (1 : Nat) ≠ 2 by decide)
private theorem z_bab_aba (hc : ConservesSpin t) (i : P) (j : O) (k : P) (a : V) (b : W) (c : V) : t [.inr i, .inl j, .inr k] [.inl a, .inr b, .inl c] = 0 :=
  hc _ _ rfl (show (1 : Nat) ≠ 2 by decide)
private theorem z_bab_baa (hc : ConservesSpin t) (i : P) (j : O) (k : P) (a : W) (b : V) (c : V) : t [.inr i, .inl j, .inr k] [.inr a, .inl b, .inl c] = 0 :=
  hc _ _ rfl (show (1 : Nat) ≠ 2 by decide)
private theorem z_bab_bbb (hc : ConservesSpin t) (i : P) (j : O) (k : P) (a : W) (b : W) (c : W) : t [.inr i, .inl j, .inr k] [.inr a, .inr b, .inr c] = 0 :=
  hc _ _ rfl (show (1 : Nat) ≠ 0 by decide)
private theorem z_bba_aaa (hc : ConservesSpin t) (i : P) (j : P) (k : O) (a : V) (b : V) (c : V) : t [.inr i, .inr j, .inl k] [.inl a, .inl b, .inl c] = 0 :=
  hc _ _ rfl (show (1 : Nat) ≠ 3 by decide)
private theorem z_bba_aab (hc : ConservesSpin t) (i : P) (j : P) (k : O) (a : V) (b : V) (c : W) : t [.inr i, .inr j, .inl k] [.inl a, .inl b, .inr c] = 0 :=
  hc _ _ rfl (show (1 : Nat) ≠ 2 by decide)
private theorem z_bba_aba (hc : ConservesSpin t) (i : P) (j : P) (k : O) (a : V) (b : W) (c : V) : t [.inr i, .inr j, .inl k] [.inl a, .inr b, .inl c] = 0 :=
  hc _ _ rfl (show (1 : Nat) ≠ 2 by decide)
private theorem z_bba_baa (hc : ConservesSpin t) (i : P) (j : P) (k : O) (a : W) (b : V) (c : V) : t [.inr i, .inr j, .inl k] [.inr a, .inl b, .inl c] = 0 :=
  hc _ _ rfl (show (1 : Nat) ≠ 2 by decide)
private theorem z_bba_bbb (hc : ConservesSpin t) (i : P) (j : P) (k : O) (a : W) (b : W) (c : W) : t [.inr i, .inr j, .inl k] [.inr a, .inr b, .inr c] = 0 :=
  hc _ _ rfl (show (1 : Nat) ≠ 0 by decide)
private theorem z_bbb_aaa (hc : ConservesSpin t) (i : P) (j : P) (k : P) (a : V) (b : V) (c : V) : t [.inr i, .inr j, .inr k] [.inl a, .inl b, .inl c] = 0 :=
  hc _ _ rfl (show (0 : Nat) ≠ 3 by decide)
private theorem z_bbb_aab (hc : ConservesSpin t) (i : P) (j : P) (k : P) (a : V) (b : V) (c : W) : t [.inr i, .inr j, .inr k] [.inl a, .inl b, .inr c] = 0 :=
  hc _ _ rfl (show (0 : Nat) ≠ 2 by decide)
private theorem z_bbb_aba (hc : ConservesSpin t) (i : P) (j : P) (k : P) (a : V) (b : W) (c : V) : t [.inr i, .inr j, .inr k] [.inl a, .inr b, .inl c] = 0 :=
  hc _ _ rfl (show (0 : Nat) ≠ 2 by decide)
private theorem z_bbb_abb (hc : ConservesSpin t) (i : P) (j : P) (k : P) (a : V) (b : W) (c : W) : t [.inr i, .inr j, .inr k] [.inl a, .inr b, .inr c] = 0 :=
  hc _ _ rfl (show (0 : Nat) ≠ 1 by decide)
private theorem z_bbb_baa (hc : ConservesSpin t) (i : P) (j : P) (k : P) (a : W) (b : V) (c : V) : t [.inr i, .inr j, .inr k] [.inr a, .inl b, .inl c] = 0 :=
  hc _ _ rfl (show (0 : Nat) ≠ 2 by decide)
private theorem z_bbb_bab (hc : ConservesSpin t) (i : P) (j : P) (k : P) (a : W) (b : V) (c : W) : t [.inr i, .inr j, .inr k] [.inr a, .inl b, .inr c] = 0 :=
  hc _ _ rfl (show (0 : Nat) ≠ 1 by decide)
private theorem z_bbb_bba (hc : ConservesSpin t) (i : P) (j : P) (k : P) (a : W) (b : W) (c : V) : t [.inr i, .inr j, .inr k] [.inr a, .inr b, .inl c] = 0 :=
  hc _ _ rfl (show (0 : Nat) ≠ 1 by decide)

/-- Remove the amplitudes which do not conserve spin. -/
local macro "zeros" h:term:max : tactic => `(tactic|
    simp only [z_a_b $h, z_b_a $h, z_aa_ab $h, z_aa_ba $h, z_aa_bb $h, z_ab_aa $h, z_ab_bb $h, z_ba_aa $h, z_ba_bb $h, z_bb_aa $h, z_bb_ab $h,
    z_bb_ba $h, z_aaa_aab $h, z_aaa_aba $h, z_aaa_abb $h, z_aaa_baa $h, z_aaa_bab $h, z_aaa_bba $h, z_aaa_bbb $h, z_aab_aaa $h, z_aab_abb $h,
    z_aab_bab $h, z_aab_bba $h, z_aab_bbb $h, z_aba_aaa $h, z_aba_abb $h, z_aba_bab $h, z_aba_bba $h, z_aba_bbb $h, z_abb_aaa $h, z_abb_aab $h,
    z_abb_aba $h, z_abb_baa $h, z_abb_bbb $h, z_baa_aaa $h, z_baa_abb $h, z_baa_bab $h, z_baa_bba $h, z_baa_bbb $h, z_bab_aaa $h, z_bab_aab $h,
    z_bab_aba $h, z_bab_baa $h, z_bab_bbb $h, z_bba_aaa $h, z_bba_aab $h, z_bba_aba $h, z_bba_baa $h, z_bba_bbb $h, z_bbb_aaa $h, z_bbb_aab $h,
    z_bbb_aba $h, z_bbb_abb $h, z_bbb_baa $h, z_bbb_bab $h, z_bbb_bba $h])

private theorem mixed2 (hc : ConservesSpin t) (i : O) (j : P) (a : V) (b : W) :
    t2Mixed (fun i a => t [.inl i] [.inl a]) (fun i a => t [.inr i] [.inr a]) (fun i j a b => expCoeff t [.inl i, .inr j] [.inl a, .inr b]) i j a b =
    t [.inl i, .inr j] [.inl a, .inr b] := by
  simp only [t2Mixed, exp2]
  zeros hc
  ring

private theorem aba3 (h : Antisymmetric t) (hc : ConservesSpin t) (i : O) (j : P) (k : O) (a : V) (b : W) (c : V) :
    t3Aba (fun i a => t [.inl i] [.inl a]) (fun i a => t [.inr i] [.inr a]) (fun i j a b => t [.inl i, .inl j] [.inl a, .inl b])
    (fun i j a b => t [.inl i, .inr j] [.inl a, .inr b])
    (fun i j k a b c => expCoeff t [.inl i, .inr j, .inl k] [.inl a, .inr b, .inl c]) i j k a b c =
    t [.inl i, .inr j, .inl k] [.inl a, .inr b, .inl c] := by
  simp only [t3Aba, exp3, exp2]
  zeros hc
  generalize (Sum.inl i : O ⊕ P) = i, (Sum.inr j : O ⊕ P) = j, (Sum.inl k : O ⊕ P) = k, (Sum.inl a : V ⊕ W) = a, (Sum.inr b : V ⊕ W) = b,
    (Sum.inl c : V ⊕ W) = c
  order3 h i j k a b c
  ring

private theorem bab3 (h : Antisymmetric t) (hc : ConservesSpin t) (i : P) (j : O) (k : P) (a : W) (b : V) (c : W) :
    t3Bab (fun i a => t [.inl i] [.inl a]) (fun i a => t [.inr i] [.inr a]) (fun i j a b => t [.inl i, .inr j] [.inl a, .inr b])
    (fun i j a b => t [.inr i, .inr j] [.inr a, .inr b])
    (fun i j k a b c => expCoeff t [.inr i, .inl j, .inr k] [.inr a, .inl b, .inr c]) i j k a b c =
    t [.inr i, .inl j, .inr k] [.inr a, .inl b, .inr c] := by
  simp only [t3Bab, exp3, exp2]
  zeros hc
  generalize (Sum.inr i : O ⊕ P) = i, (Sum.inl j : O ⊕ P) = j, (Sum.inr k : O ⊕ P) = k, (Sum.inr a : V ⊕ W) = a, (Sum.inl b : V ⊕ W) = b,
    (Sum.inr c : V ⊕ W) = c
  order3 h i j k a b c
  ring

private theorem aaab4 (h : Antisymmetric t) (hc : ConservesSpin t) (i j k : O) (l : P) (a b c : V) (d : W) :
    t4Aaab (fun i a => t [.inl i] [.inl a]) (fun i a => t [.inr i] [.inr a]) (fun i j a b => t [.inl i, .inl j] [.inl a, .inl b])
    (fun i j a b => t [.inl i, .inr j] [.inl a, .inr b]) (fun i j k a b c => t [.inl i, .inl j, .inl k] [.inl a, .inl b, .inl c])
    (fun i j k a b c => t [.inl i, .inr j, .inl k] [.inl a, .inr b, .inl c])
    (fun i j k l a b c d => expCoeff t [.inl i, .inl j, .inl k, .inr l] [.inl a, .inl b, .inl c, .inr d]) i j k l a b c d =
    t [.inl i, .inl j, .inl k, .inr l] [.inl a, .inl b, .inl c, .inr d] := by
  simp only [t4Aaab, exp4, exp3, exp2]
  zeros hc
  generalize (Sum.inl i : O ⊕ P) = i, (Sum.inl j : O ⊕ P) = j, (Sum.inl k : O ⊕ P) = k, (Sum.inr l : O ⊕ P) = l, (Sum.inl a : V ⊕ W) = a,
    (Sum.inl b : V ⊕ W) = b, (Sum.inl c : V ⊕ W) = c, (Sum.inr d : V ⊕ W) = d
  order4 h i j k l a b c d
  ring

private theorem abab4 (h : Antisymmetric t) (hc : ConservesSpin t) (i : O) (j : P) (k : O) (l : P) (a : V) (b : W) (c : V) (d : W) :
    t4Abab (fun i a => t [.inl i] [.inl a]) (fun i a => t [.inr i] [.inr a]) (fun i j a b => t [.inl i, .inl j] [.inl a, .inl b])
    (fun i j a b => t [.inl i, .inr j] [.inl a, .inr b]) (fun i j a b => t [.inr i, .inr j] [.inr a, .inr b])
    (fun i j k a b c => t [.inl i, .inr j, .inl k] [.inl a, .inr b, .inl c])
    (fun i j k a b c => t [.inr i, .inl j, .inr k] [.inr a, .inl b, .inr c])
    (fun i j k l a b c d => expCoeff t [.inl i, .inr j, .inl k, .inr l] [.inl a, .inr b, .inl c, .inr d]) i j k l a b c d =
    t [.inl i, .inr j, .inl k, .inr l] [.inl a, .inr b, .inl c, .inr d] := by
  simp only [t4Abab, exp4, exp3, exp2]
  zeros hc
  generalize (Sum.inl i : O ⊕ P) = i, (Sum.inr j : O ⊕ P) = j, (Sum.inl k : O ⊕ P) = k, (Sum.inr l : O ⊕ P) = l, (Sum.inl a : V ⊕ W) = a,
    (Sum.inr b : V ⊕ W) = b, (Sum.inl c : V ⊕ W) = c, (Sum.inr d : V ⊕ W) = d
  order4 h i j k l a b c d
  ring

private theorem abbb4 (h : Antisymmetric t) (hc : ConservesSpin t) (i : O) (j k l : P) (a : V) (b c d : W) :
    t4Abbb (fun i a => t [.inl i] [.inl a]) (fun i a => t [.inr i] [.inr a])
    (fun i j a b => t [.inl i, .inr j] [.inl a, .inr b]) (fun i j a b => t [.inr i, .inr j] [.inr a, .inr b])
    (fun i j k a b c => t [.inr i, .inl j, .inr k] [.inr a, .inl b, .inr c])
    (fun i j k a b c => t [.inr i, .inr j, .inr k] [.inr a, .inr b, .inr c])
    (fun i j k l a b c d => expCoeff t [.inl i, .inr j, .inr k, .inr l] [.inl a, .inr b, .inr c, .inr d]) i j k l a b c d =
    t [.inl i, .inr j, .inr k, .inr l] [.inl a, .inr b, .inr c, .inr d] := by
  simp only [t4Abbb, exp4, exp3, exp2]
  zeros hc
  generalize (Sum.inl i : O ⊕ P) = i, (Sum.inr j : O ⊕ P) = j, (Sum.inr k : O ⊕ P) = k, (Sum.inr l : O ⊕ P) = l, (Sum.inl a : V ⊕ W) = a,
    (Sum.inr b : V ⊕ W) = b, (Sum.inr c : V ⊕ W) = c, (Sum.inr d : V ⊕ W) = d
  order4 h i j k l a b c d
  ring

section Restricted

variable {t : List (O ⊕ O) → List (V ⊕ V) → K}

private theorem r1 (hs : ClosedShell t) (i : O) (a : V) : t [.inr i] [.inr a] = t [.inl i] [.inl a] := hs.flip [.inl i] [.inl a]

private theorem r_ba_ba (hs : ClosedShell t) (i j : O) (a b : V) : t [.inr i, .inl j] [.inr a, .inl b] = t [.inl i, .inr j] [.inl a, .inr b] :=
  hs.flip [.inl i, .inr j] [.inl a, .inr b]

private theorem r_ab_ba (h : Antisymmetric t) (i j : O) (a b : V) : t [.inl i, .inr j] [.inr a, .inl b] = -t [.inl i, .inr j] [.inl b, .inr a] :=
  (swapV h (.inl b) (.inr a)).1 _

private theorem r_ba_ab (h : Antisymmetric t) (i j : O) (a b : V) : t [.inr i, .inl j] [.inl a, .inr b] = -t [.inl j, .inr i] [.inl a, .inr b] :=
  (swapO h (.inl j) (.inr i)).1 _

private theorem r_aa (hs : ClosedShell t) (h : Antisymmetric t) (i j : O) (a b : V) : t [.inl i, .inl j] [.inl a, .inl b] =
    t [.inl i, .inr j] [.inl a, .inr b] - t [.inl i, .inr j] [.inl b, .inr a] := by
  have := hs.spin [.inl i, .inr j] [.inl a, .inl b] rfl
  simp only [lowered, raised, List.map_cons, List.map_nil, List.sum_cons, List.sum_nil, add_zero, r_ab_ba h] at this
  rw [← this]
  ring

private theorem r_bb (hs : ClosedShell t) (h : Antisymmetric t) (i j : O) (a b : V) : t [.inr i, .inr j] [.inr a, .inr b] =
    t [.inl i, .inr j] [.inl a, .inr b] - t [.inl i, .inr j] [.inl b, .inr a] := by
  rw [← r_aa hs h]
  exact hs.flip [.inl i, .inl j] [.inl a, .inl b]

private theorem r_aab_aab (h : Antisymmetric t) (hs : ClosedShell t) (i j k : O) (a b c : V) : t [.inl i, .inl j, .inr k] [.inl a, .inl b, .inr c] = t [.inl i, .inr k, .inl j] [.inl a, .inr c, .inl b] := by
  rw [(swapO h (.inr k) (.inl j)).2.2, (swapV h (.inr c) (.inl b)).2.2, neg_neg]
private theorem r_aab_aba (h : Antisymmetric t) (hs : ClosedShell t) (i j k : O) (a b c : V) : t [.inl i, .inl j, .inr k] [.inl a, .inr b, .inl c] = -t [.inl i, .inr k, .inl j] [.inl a, .inr b, .inl c] := by
  rw [(swapO h (.inr k) (.inl j)).2.2]
private theorem r_aab_baa (h : Antisymmetric t) (hs : ClosedShell t) (i j k : O) (a b c : V) : t [.inl i, .inl j, .inr k] [.inr a, .inl b, .inl c] = t [.inl i, .inr k, .inl j] [.inl b, .inr a, .inl c] := by
  rw [(swapO h (.inr k) (.inl j)).2.2, (swapV h (.inl b) (.inr a)).2.1, neg_neg]
private theorem r_aba_aab (h : Antisymmetric t) (hs : ClosedShell t) (i j k : O) (a b c : V) : t [.inl i, .inr j, .inl k] [.inl a, .inl b, .inr c] = -t [.inl i, .inr j, .inl k] [.inl a, .inr c, .inl b] := by
  rw [(swapV h (.inr c) (.inl b)).2.2]
private theorem r_aba_baa (h : Antisymmetric t) (hs : ClosedShell t) (i j k : O) (a b c : V) : t [.inl i, .inr j, .inl k] [.inr a, .inl b, .inl c] = -t [.inl i, .inr j, .inl k] [.inl b, .inr a, .inl c] := by
  rw [(swapV h (.inl b) (.inr a)).2.1]
private theorem r_abb_abb (h : Antisymmetric t) (hs : ClosedShell t) (i j k : O) (a b c : V) : t [.inl i, .inr j, .inr k] [.inl a, .inr b, .inr c] = t [.inl j, .inr i, .inl k] [.inl b, .inr a, .inl c] := by
  simp only [← hs.flip [.inl i, .inr j, .inr k] [.inl a, .inr b, .inr c], List.map_cons, List.map_nil, Sum.swap_inl, Sum.swap_inr]
  rw [(swapO h (.inl j) (.inr i)).2.1, (swapV h (.inl b) (.inr a)).2.1, neg_neg]
private theorem r_abb_bab (h : Antisymmetric t) (hs : ClosedShell t) (i j k : O) (a b c : V) : t [.inl i, .inr j, .inr k] [.inr a, .inl b, .inr c] = -t [.inl j, .inr i, .inl k] [.inl a, .inr b, .inl c] := by
  simp only [← hs.flip [.inl i, .inr j, .inr k] [.inr a, .inl b, .inr c], List.map_cons, List.map_nil, Sum.swap_inl, Sum.swap_inr]
  rw [(swapO h (.inl j) (.inr i)).2.1]
private theorem r_abb_bba (h : Antisymmetric t) (hs : ClosedShell t) (i j k : O) (a b c : V) : t [.inl i, .inr j, .inr k] [.inr a, .inr b, .inl c] = t [.inl j, .inr i, .inl k] [.inl a, .inr c, .inl b] := by
  simp only [← hs.flip [.inl i, .inr j, .inr k] [.inr a, .inr b, .inl c], List.map_cons, List.map_nil, Sum.swap_inl, Sum.swap_inr]
  rw [(swapO h (.inl j) (.inr i)).2.1, (swapV h (.inr c) (.inl b)).2.2, neg_neg]
private theorem r_baa_aab (h : Antisymmetric t) (hs : ClosedShell t) (i j k : O) (a b c : V) : t [.inr i, .inl j, .inl k] [.inl a, .inl b, .inr c] = t [.inl j, .inr i, .inl k] [.inl a, .inr c, .inl b] := by
  rw [(swapO h (.inl j) (.inr i)).2.1, (swapV h (.inr c) (.inl b)).2.2, neg_neg]
private theorem r_baa_aba (h : Antisymmetric t) (hs : ClosedShell t) (i j k : O) (a b c : V) : t [.inr i, .inl j, .inl k] [.inl a, .inr b, .inl c] = -t [.inl j, .inr i, .inl k] [.inl a, .inr b, .inl c] := by
  rw [(swapO h (.inl j) (.inr i)).2.1]
private theorem r_baa_baa (h : Antisymmetric t) (hs : ClosedShell t) (i j k : O) (a b c : V) : t [.inr i, .inl j, .inl k] [.inr a, .inl b, .inl c] = t [.inl j, .inr i, .inl k] [.inl b, .inr a, .inl c] := by
  rw [(swapO h (.inl j) (.inr i)).2.1, (swapV h (.inl b) (.inr a)).2.1, neg_neg]
private theorem r_bab_abb (h : Antisymmetric t) (hs : ClosedShell t) (i j k : O) (a b c : V) : t [.inr i, .inl j, .inr k] [.inl a, .inr b, .inr c] = -t [.inl i, .inr j, .inl k] [.inl b, .inr a, .inl c] := by
  simp only [← hs.flip [.inr i, .inl j, .inr k] [.inl a, .inr b, .inr c], List.map_cons, List.map_nil, Sum.swap_inl, Sum.swap_inr]
  rw [(swapV h (.inl b) (.inr a)).2.1]
private theorem r_bab_bab (h : Antisymmetric t) (hs : ClosedShell t) (i j k : O) (a b c : V) : t [.inr i, .inl j, .inr k] [.inr a, .inl b, .inr c] = t [.inl i, .inr j, .inl k] [.inl a, .inr b, .inl c] := by
  simp only [← hs.flip [.inr i, .inl j, .inr k] [.inr a, .inl b, .inr c], List.map_cons, List.map_nil, Sum.swap_inl, Sum.swap_inr]
private theorem r_bab_bba (h : Antisymmetric t) (hs : ClosedShell t) (i j k : O) (a b c : V) : t [.inr i, .inl j, .inr k] [.inr a, .inr b, .inl c] = -t [.inl i, .inr j, .inl k] [.inl a, .inr c, .inl b] := by
  simp only [← hs.flip [.inr i, .inl j, .inr k] [.inr a, .inr b, .inl c], List.map_cons, List.map_nil, Sum.swap_inl, Sum.swap_inr]
  rw [(swapV h (.inr c) (.inl b)).2.2]
private theorem r_bba_abb (h : Antisymmetric t) (hs : ClosedShell t) (i j k : O) (a b c : V) : t [.inr i, .inr j, .inl k] [.inl a, .inr b, .inr c] = t [.inl i, .inr k, .inl j] [.inl b, .inr a, .inl c] := by
  simp only [← hs.flip [.inr i, .inr j, .inl k] [.inl a, .inr b, .inr c], List.map_cons, List.map_nil, Sum.swap_inl, Sum.swap_inr]
  rw [(swapO h (.inr k) (.inl j)).2.2, (swapV h (.inl b) (.inr a)).2.1, neg_neg]
private theorem r_bba_bab (h : Antisymmetric t) (hs : ClosedShell t) (i j k : O) (a b c : V) : t [.inr i, .inr j, .inl k] [.inr a, .inl b, .inr c] = -t [.inl i, .inr k, .inl j] [.inl a, .inr b, .inl c] := by
  simp only [← hs.flip [.inr i, .inr j, .inl k] [.inr a, .inl b, .inr c], List.map_cons, List.map_nil, Sum.swap_inl, Sum.swap_inr]
  rw [(swapO h (.inr k) (.inl j)).2.2]
private theorem r_bba_bba (h : Antisymmetric t) (hs : ClosedShell t) (i j k : O) (a b c : V) : t [.inr i, .inr j, .inl k] [.inr a, .inr b, .inl c] = t [.inl i, .inr k, .inl j] [.inl a, .inr c, .inl b] := by
  simp only [← hs.flip [.inr i, .inr j, .inl k] [.inr a, .inr b, .inl c], List.map_cons, List.map_nil, Sum.swap_inl, Sum.swap_inr]
  rw [(swapO h (.inr k) (.inl j)).2.2, (swapV h (.inr c) (.inl b)).2.2, neg_neg]

private theorem r_aaa (hs : ClosedShell t) (h : Antisymmetric t) (i j k : O) (a b c : V) : t [.inl i, .inl j, .inl k] [.inl a, .inl b, .inl c] =
    t [.inl i, .inr j, .inl k] [.inl a, .inr b, .inl c] - t [.inl i, .inr j, .inl k] [.inl b, .inr a, .inl c] -
    t [.inl i, .inr j, .inl k] [.inl a, .inr c, .inl b] := by
  have := hs.spin [.inl i, .inr j, .inl k] [.inl a, .inl b, .inl c] rfl
  simp only [lowered, raised, List.map_cons, List.map_nil, List.sum_cons, List.sum_nil, add_zero, r_aba_baa h hs, r_aba_aab h hs] at this
  rw [← this]
  ring

private theorem sym2 (h : Antisymmetric t) (hs : ClosedShell t) (i j : O) (a b : V) :
    t [.inl j, .inr i] [.inl a, .inr b] = t [.inl i, .inr j] [.inl b, .inr a] := by
  rw [← r_ba_ba hs, (swapO h (.inl i) (.inr j)).1, (swapV h (.inl b) (.inr a)).1, neg_neg]

private theorem sym3o (h : Antisymmetric t) (i k : O) (j : O) (a : List (V ⊕ V)) : t [.inl k, .inr j, .inl i] a = -t [.inl i, .inr j, .inl k] a := by
  rw [(swapO h (.inr j) (.inl k)).2.1, (swapO h (.inl i) (.inl k)).2.2, (swapO h (.inl i) (.inr j)).2.1]
  ring

private theorem sym3v (h : Antisymmetric t) (a c : V) (b : V) (l : List (O ⊕ O)) : t l [.inl c, .inr b, .inl a] = -t l [.inl a, .inr b, .inl c] := by
  rw [(swapV h (.inr b) (.inl c)).2.1, (swapV h (.inl a) (.inl c)).2.2, (swapV h (.inl a) (.inr b)).2.1]
  ring

/-- Write all amplitudes in terms of those of spins alpha, alpha and beta, and alpha, beta and alpha. -/
local macro "spinFree" h:term:max hs:term:max : tactic => `(tactic|
  simp only [r_aab_aab $h $hs, r_aab_aba $h $hs, r_aab_baa $h $hs, r_aba_aab $h $hs, r_aba_baa $h $hs, r_abb_abb $h $hs, r_abb_bab $h $hs,
    r_abb_bba $h $hs, r_baa_aab $h $hs, r_baa_aba $h $hs, r_baa_baa $h $hs, r_bab_abb $h $hs, r_bab_bab $h $hs, r_bab_bba $h $hs, r_bba_abb $h
    $hs, r_bba_bab $h $hs, r_bba_bba $h $hs, r1 $hs, r_aa $hs $h, r_bb $hs $h, r_ba_ba $hs, r_ab_ba $h, r_ba_ab $h, r_aaa $hs $h])

private theorem rhf3 (h : Antisymmetric t) (hc : ConservesSpin t) (hs : ClosedShell t) (i j k : O) (a b c : V) :
    t3Rhf (fun i a => t [.inl i] [.inl a]) (fun i j a b => t [.inl i, .inr j] [.inl a, .inr b])
    (fun i j k a b c => expCoeff t [.inl i, .inr j, .inl k] [.inl a, .inr b, .inl c]) i j k a b c =
    t [.inl i, .inr j, .inl k] [.inl a, .inr b, .inl c] := by
  simp only [t3Rhf, exp3, exp2]
  zeros hc
  spinFree h hs
  simp only [sym2 h hs i j, sym2 h hs i k, sym2 h hs j k]
  ring

private theorem rhfAbab (h : Antisymmetric t) (hc : ConservesSpin t) (hs : ClosedShell t) (i j k l : O) (a b c d : V) :
    t4RhfAbab (fun i a => t [.inl i] [.inl a]) (fun i j a b => t [.inl i, .inr j] [.inl a, .inr b])
    (fun i j k a b c => t [.inl i, .inr j, .inl k] [.inl a, .inr b, .inl c])
    (fun i j k l a b c d => expCoeff t [.inl i, .inr j, .inl k, .inr l] [.inl a, .inr b, .inl c, .inr d]) i j k l a b c d =
    t [.inl i, .inr j, .inl k, .inr l] [.inl a, .inr b, .inl c, .inr d] := by
  simp only [t4RhfAbab, exp4, exp3, exp2]
  zeros hc
  spinFree h hs
  simp only [sym2 h hs i j, sym2 h hs i k, sym2 h hs j k, sym2 h hs i l, sym2 h hs j l, sym2 h hs k l, sym3o h i j, sym3o h i k, sym3o h j k,
    sym3o h i l, sym3o h j l, sym3o h k l, sym3v h a b, sym3v h a c, sym3v h b c, sym3v h a d, sym3v h b d, sym3v h c d]
  ring

private theorem rhfAbaa (h : Antisymmetric t) (hc : ConservesSpin t) (hs : ClosedShell t) (i j k l : O) (a b c d : V) :
    t4RhfAbaa (fun i a => t [.inl i] [.inl a]) (fun i j a b => t [.inl i, .inr j] [.inl a, .inr b])
    (fun i j k a b c => t [.inl i, .inr j, .inl k] [.inl a, .inr b, .inl c])
    (fun i j k l a b c d => expCoeff t [.inl i, .inr j, .inl k, .inl l] [.inl a, .inr b, .inl c, .inl d]) i j k l a b c d =
    t [.inl i, .inr j, .inl k, .inl l] [.inl a, .inr b, .inl c, .inl d] := by
  simp only [t4RhfAbaa, exp4, exp3, exp2]
  zeros hc
  spinFree h hs
  simp only [sym2 h hs i j, sym2 h hs i k, sym2 h hs j k, sym2 h hs i l, sym2 h hs j l, sym2 h hs k l, sym3o h i j, sym3o h i k, sym3o h j k,
    sym3o h i l, sym3o h j l, sym3o h k l, sym3v h a b, sym3v h a c, sym3v h b c, sym3v h a d, sym3v h b d, sym3v h c d]
  ring

end Restricted

end Swaps

private theorem expCoeff_map {O' V' : Type} (g : O → O') (h : V → V') (t : List O' → List V' → K) (l : List O) (a : List V) :
    expCoeff t (l.map g) (a.map h) = expCoeff (fun l a => t (l.map g) (a.map h)) l a := by
  have e : ∀ (n : Nat) (l : List O) (a : List V), expRank t n (l.map g) (a.map h) = expRank (fun l a => t (l.map g) (a.map h)) n l a := by
    intro n
    induction n with
    | zero => intro l a; cases l <;> simp [expRank]
    | succ n ih =>
      intro l a
      cases l with
      | nil => simp [expRank]
      | cons i l =>
        rw [List.map_cons, expRank, expRank, expStep_map]
        congr 1
        funext l a
        exact ih l a
  unfold expCoeff
  rw [List.length_map, e]

private theorem antisymmetric_map {O' V' : Type} (g : O → O') (h : V → V') {t : List O' → List V' → K} (ht : Antisymmetric t) :
    Antisymmetric fun l a => t (l.map g) (a.map h) := by
  constructor
  · intro l i j m a
    simp only [List.map_append, List.map_cons]
    exact ht.occ _ _ _ _ _
  · intro l a i j b
    simp only [List.map_append, List.map_cons]
    exact ht.vir _ _ _ _ _

/-- The spin blocks stored for an unrestricted wave function, from the coefficients of spin-orbital excitations. -/
def uBlocks (x : List (O ⊕ P) → List (V ⊕ W) → K) : UCoeffs O P V W K where
  a i a := x [.inl i] [.inl a]
  b i a := x [.inr i] [.inr a]
  aa i j a b := x [.inl i, .inl j] [.inl a, .inl b]
  ab i j a b := x [.inl i, .inr j] [.inl a, .inr b]
  bb i j a b := x [.inr i, .inr j] [.inr a, .inr b]
  aaa i j k a b c := x [.inl i, .inl j, .inl k] [.inl a, .inl b, .inl c]
  aba i j k a b c := x [.inl i, .inr j, .inl k] [.inl a, .inr b, .inl c]
  bab i j k a b c := x [.inr i, .inl j, .inr k] [.inr a, .inl b, .inr c]
  bbb i j k a b c := x [.inr i, .inr j, .inr k] [.inr a, .inr b, .inr c]
  aaaa i j k l a b c d := x [.inl i, .inl j, .inl k, .inl l] [.inl a, .inl b, .inl c, .inl d]
  aaab i j k l a b c d := x [.inl i, .inl j, .inl k, .inr l] [.inl a, .inl b, .inl c, .inr d]
  abab i j k l a b c d := x [.inl i, .inr j, .inl k, .inr l] [.inl a, .inr b, .inl c, .inr d]
  abbb i j k l a b c d := x [.inl i, .inr j, .inr k, .inr l] [.inl a, .inr b, .inr c, .inr d]
  bbbb i j k l a b c d := x [.inr i, .inr j, .inr k, .inr l] [.inr a, .inr b, .inr c, .inr d]

/-- The spin blocks stored for a restricted wave function, from the coefficients of spin-orbital excitations. -/
def rBlocks (x : List (O ⊕ O) → List (V ⊕ V) → K) : RCoeffs O V K where
  one i a := x [.inl i] [.inl a]
  two i j a b := x [.inl i, .inr j] [.inl a, .inr b]
  three i j k a b c := x [.inl i, .inr j, .inl k] [.inl a, .inr b, .inl c]
  abaa i j k l a b c d := x [.inl i, .inr j, .inl k, .inl l] [.inl a, .inr b, .inl c, .inl d]
  abab i j k l a b c d := x [.inl i, .inr j, .inl k, .inr l] [.inl a, .inr b, .inl c, .inr d]

private theorem t1Same_eq (c : O → V → K) : t1Same c = c := rfl

/-- C27: the conversion of an unrestricted CI wave function c0·exp(T) gives T, in every spin block of singles to quadruples. -/
theorem ccsdtq_unrestricted (t : List (O ⊕ P) → List (V ⊕ W) → K) (c0 : K) (h0 : c0 ≠ 0) (h : Antisymmetric t) (hc : ConservesSpin t) :
    uAsCcsdtq c0 (uBlocks fun l a => c0 * expCoeff t l a) = uBlocks t := by
  have ha := antisymmetric_map (Sum.inl : O → O ⊕ P) (Sum.inl : V → V ⊕ W) h
  have hb := antisymmetric_map (Sum.inr : P → O ⊕ P) (Sum.inr : W → V ⊕ W) h
  have e_aa : t2Same (fun i a => t [.inl i] [.inl a]) (fun i j a b => expCoeff t [.inl i, .inl j] [.inl a, .inl b]) =
      fun (i : O) (j : O) (a : V) (b : V) => t [.inl i, .inl j] [.inl a, .inl b] := by
    funext i j a b
    have := same2 (t := fun l a => t (l.map Sum.inl) (a.map Sum.inl)) i j a b
    simp only [← expCoeff_map] at this
    exact this
  have e_bb : t2Same (fun i a => t [.inr i] [.inr a]) (fun i j a b => expCoeff t [.inr i, .inr j] [.inr a, .inr b]) =
      fun (i : P) (j : P) (a : W) (b : W) => t [.inr i, .inr j] [.inr a, .inr b] := by
    funext i j a b
    have := same2 (t := fun l a => t (l.map Sum.inr) (a.map Sum.inr)) i j a b
    simp only [← expCoeff_map] at this
    exact this
  have e_ab : t2Mixed (fun i a => t [.inl i] [.inl a]) (fun i a => t [.inr i] [.inr a]) (fun i j a b => expCoeff t [.inl i, .inr j] [.inl a, .inr b]) =
      fun (i : O) (j : P) (a : V) (b : W) => t [.inl i, .inr j] [.inl a, .inr b] := by
    funext i j a b
    exact mixed2 hc i j a b
  have e_aaa : t3Same (fun i a => t [.inl i] [.inl a]) (fun i j a b => t [.inl i, .inl j] [.inl a, .inl b]) (fun i j k a b c => expCoeff t [.inl i, .inl j, .inl k] [.inl a, .inl b, .inl c]) =
      fun (i : O) (j : O) (k : O) (a : V) (b : V) (c : V) => t [.inl i, .inl j, .inl k] [.inl a, .inl b, .inl c] := by
    funext i j k a b c
    have := same3 (t := fun l a => t (l.map Sum.inl) (a.map Sum.inl)) ha i j k a b c
    simp only [← expCoeff_map] at this
    exact this
  have e_bbb : t3Same (fun i a => t [.inr i] [.inr a]) (fun i j a b => t [.inr i, .inr j] [.inr a, .inr b]) (fun i j k a b c => expCoeff t [.inr i, .inr j, .inr k] [.inr a, .inr b, .inr c]) =
      fun (i : P) (j : P) (k : P) (a : W) (b : W) (c : W) => t [.inr i, .inr j, .inr k] [.inr a, .inr b, .inr c] := by
    funext i j k a b c
    have := same3 (t := fun l a => t (l.map Sum.inr) (a.map Sum.inr)) hb i j k a b c
    simp only [← expCoeff_map] at this
    exact this
  have e_aba : t3Aba (fun i a => t [.inl i] [.inl a]) (fun i a => t [.inr i] [.inr a]) (fun i j a b => t [.inl i, .inl j] [.inl a, .inl b]) (fun i j a b => t [.inl i, .inr j] [.inl a, .inr b]) (fun i j k a b c => expCoeff t [.inl i, .inr j, .inl k] [.inl a, .inr b, .inl c]) =
      fun (i : O) (j : P) (k : O) (a : V) (b : W) (c : V) => t [.inl i, .inr j, .inl k] [.inl a, .inr b, .inl c] := by
    funext i j k a b c
    exact aba3 h hc i j k a b c
  have e_bab : t3Bab (fun i a => t [.inl i] [.inl a]) (fun i a => t [.inr i] [.inr a]) (fun i j a b => t [.inl i, .inr j] [.inl a, .inr b]) (fun i j a b => t [.inr i, .inr j] [.inr a, .inr b]) (fun i j k a b c => expCoeff t [.inr i, .inl j, .inr k] [.inr a, .inl b, .inr c]) =
      fun (i : P) (j : O) (k : P) (a : W) (b : V) (c : W) => t [.inr i, .inl j, .inr k] [.inr a, .inl b, .inr c] := by
    funext i j k a b c
    exact bab3 h hc i j k a b c
  have e_aaaa : t4Same (fun i a => t [.inl i] [.inl a]) (fun i j a b => t [.inl i, .inl j] [.inl a, .inl b]) (fun i j k a b c => t [.inl i, .inl j, .inl k] [.inl a, .inl b, .inl c]) (fun i j k l a b c d => expCoeff t [.inl i, .inl j, .inl k, .inl l] [.inl a, .inl b, .inl c, .inl d]) =
      fun (i : O) (j : O) (k : O) (l : O) (a : V) (b : V) (c : V) (d : V) => t [.inl i, .inl j, .inl k, .inl l] [.inl a, .inl b, .inl c, .inl d] := by
    funext i j k l a b c d
    have := same4 (t := fun l a => t (l.map Sum.inl) (a.map Sum.inl)) ha i j k l a b c d
    simp only [← expCoeff_map] at this
    exact this
  have e_bbbb : t4Same (fun i a => t [.inr i] [.inr a]) (fun i j a b => t [.inr i, .inr j] [.inr a, .inr b]) (fun i j k a b c => t [.inr i, .inr j, .inr k] [.inr a, .inr b, .inr c]) (fun i j k l a b c d => expCoeff t [.inr i, .inr j, .inr k, .inr l] [.inr a, .inr b, .inr c, .inr d]) =
      fun (i : P) (j : P) (k : P) (l : P) (a : W) (b : W) (c : W) (d : W) => t [.inr i, .inr j, .inr k, .inr l] [.inr a, .inr b, .inr c, .inr d] := by
    funext i j k l a b c d
    have := same4 (t := fun l a => t (l.map Sum.inr) (a.map Sum.inr)) hb i j k l a b c d
    simp only [← expCoeff_map] at this
    exact this
  have e_aaab : t4Aaab (fun i a => t [.inl i] [.inl a]) (fun i a => t [.inr i] [.inr a]) (fun i j a b => t [.inl i, .inl j] [.inl a, .inl b]) (fun i j a b => t [.inl i, .inr j] [.inl a, .inr b]) (fun i j k a b c => t [.inl i, .inl j, .inl k] [.inl a, .inl b, .inl c]) (fun i j k a b c => t [.inl i, .inr j, .inl k] [.inl a, .inr b, .inl c]) (fun i j k l a b c d => expCoeff t [.inl i, .inl j, .inl k, .inr l] [.inl a, .inl b, .inl c, .inr d]) =
      fun (i : O) (j : O) (k : O) (l : P) (a : V) (b : V) (c : V) (d : W) => t [.inl i, .inl j, .inl k, .inr l] [.inl a, .inl b, .inl c, .inr d] := by
    funext i j k l a b c d
    exact aaab4 h hc i j k l a b c d
  have e_abab : t4Abab (fun i a => t [.inl i] [.inl a]) (fun i a => t [.inr i] [.inr a]) (fun i j a b => t [.inl i, .inl j] [.inl a, .inl b]) (fun i j a b => t [.inl i, .inr j] [.inl a, .inr b]) (fun i j a b => t [.inr i, .inr j] [.inr a, .inr b]) (fun i j k a b c => t [.inl i, .inr j, .inl k] [.inl a, .inr b, .inl c]) (fun i j k a b c => t [.inr i, .inl j, .inr k] [.inr a, .inl b, .inr c]) (fun i j k l a b c d => expCoeff t [.inl i, .inr j, .inl k, .inr l] [.inl a, .inr b, .inl c, .inr d]) =
      fun (i : O) (j : P) (k : O) (l : P) (a : V) (b : W) (c : V) (d : W) => t [.inl i, .inr j, .inl k, .inr l] [.inl a, .inr b, .inl c, .inr d] := by
    funext i j k l a b c d
    exact abab4 h hc i j k l a b c d
  have e_abbb : t4Abbb (fun i a => t [.inl i] [.inl a]) (fun i a => t [.inr i] [.inr a]) (fun i j a b => t [.inl i, .inr j] [.inl a, .inr b]) (fun i j a b => t [.inr i, .inr j] [.inr a, .inr b]) (fun i j k a b c => t [.inr i, .inl j, .inr k] [.inr a, .inl b, .inr c]) (fun i j k a b c => t [.inr i, .inr j, .inr k] [.inr a, .inr b, .inr c]) (fun i j k l a b c d => expCoeff t [.inl i, .inr j, .inr k, .inr l] [.inl a, .inr b, .inr c, .inr d]) =
      fun (i : O) (j : P) (k : P) (l : P) (a : V) (b : W) (c : W) (d : W) => t [.inl i, .inr j, .inr k, .inr l] [.inl a, .inr b, .inr c, .inr d] := by
    funext i j k l a b c d
    exact abbb4 h hc i j k l a b c d
  simp only [uAsCcsdtq, uBlocks, mul_div_cancel_left₀ _ h0, t1Same_eq, exp1, e_aa, e_bb, e_ab, e_aaa, e_bbb, e_aba, e_bab, e_aaaa, e_bbbb, e_aaab, e_abab, e_abbb]

/-- C27: the conversion of a restricted CI wave function c0·exp(T) of a closed-shell state gives T, in every spin block stored. -/
theorem ccsdtq_restricted (t : List (O ⊕ O) → List (V ⊕ V) → K) (c0 : K) (h0 : c0 ≠ 0) (h : Antisymmetric t) (hc : ConservesSpin t)
    (hs : ClosedShell t) : rAsCcsdtq c0 (rBlocks fun l a => c0 * expCoeff t l a) = rBlocks t := by
  have e_ab : t2Mixed (fun i a => t [.inl i] [.inl a]) (fun i a => t [.inl i] [.inl a]) (fun i j a b => expCoeff t [.inl i, .inr j] [.inl a, .inr b]) =
      fun (i : O) (j : O) (a : V) (b : V) => t [.inl i, .inr j] [.inl a, .inr b] := by
    funext i j a b
    have := mixed2 hc i j a b
    simp only [r1 hs] at this
    exact this
  have e_aba : t3Rhf (fun i a => t [.inl i] [.inl a]) (fun i j a b => t [.inl i, .inr j] [.inl a, .inr b]) (fun i j k a b c => expCoeff t [.inl i, .inr j, .inl k] [.inl a, .inr b, .inl c]) =
      fun (i : O) (j : O) (k : O) (a : V) (b : V) (c : V) => t [.inl i, .inr j, .inl k] [.inl a, .inr b, .inl c] := by
    funext i j k a b c
    exact rhf3 h hc hs i j k a b c
  have e_abaa : t4RhfAbaa (fun i a => t [.inl i] [.inl a]) (fun i j a b => t [.inl i, .inr j] [.inl a, .inr b]) (fun i j k a b c => t [.inl i, .inr j, .inl k] [.inl a, .inr b, .inl c]) (fun i j k l a b c d => expCoeff t [.inl i, .inr j, .inl k, .inl l] [.inl a, .inr b, .inl c, .inl d]) =
      fun (i : O) (j : O) (k : O) (l : O) (a : V) (b : V) (c : V) (d : V) => t [.inl i, .inr j, .inl k, .inl l] [.inl a, .inr b, .inl c, .inl d] := by
    funext i j k l a b c d
    exact rhfAbaa h hc hs i j k l a b c d
  have e_abab : t4RhfAbab (fun i a => t [.inl i] [.inl a]) (fun i j a b => t [.inl i, .inr j] [.inl a, .inr b]) (fun i j k a b c => t [.inl i, .inr j, .inl k] [.inl a, .inr b, .inl c]) (fun i j k l a b c d => expCoeff t [.inl i, .inr j, .inl k, .inr l] [.inl a, .inr b, .inl c, .inr d]) =
      fun (i : O) (j : O) (k : O) (l : O) (a : V) (b : V) (c : V) (d : V) => t [.inl i, .inr j, .inl k, .inr l] [.inl a, .inr b, .inl c, .inr d] := by
    funext i j k l a b c d
    exact rhfAbab h hc hs i j k l a b c d
  simp only [rAsCcsdtq, rBlocks, mul_div_cancel_left₀ _ h0, t1Same_eq, exp1, e_ab, e_aba, e_abaa, e_abab]

/-- Coefficients relative to that of the reference. -/
private theorem scaled_antisymmetric {c : List O → List V → K} (h : Antisymmetric c) (k : K) : Antisymmetric fun l a => c l a / k := by
  constructor
  · intro l i j m a
    simp only [h.occ l i j m a, neg_div]
  · intro l a i j b
    simp only [h.vir l a i j b, neg_div]

private theorem scaled_conserves {c : List (O ⊕ P) → List (V ⊕ W) → K} (h : ConservesSpin c) (k : K) : ConservesSpin fun l a => c l a / k := by
  intro l a hl ha
  simp only [h l a hl ha, zero_div]

private theorem scaled_closedShell {c : List (O ⊕ O) → List (V ⊕ V) → K} (h : ClosedShell c) (k : K) : ClosedShell fun l a => c l a / k := by
  constructor
  · intro l a hl
    have := h.spin l a hl
    simp only [div_eq_mul_inv, mul_comm _ k⁻¹, list_sum_mul, this]
  · intro l a
    simp only [h.flip l a]

private theorem uBlocks_congr {x y : List (O ⊕ P) → List (V ⊕ W) → K} (h : ∀ l a, l.length = a.length → x l a = y l a) : uBlocks x = uBlocks y := by
  simp only [uBlocks, UCoeffs.mk.injEq]
  refine ⟨?_, ?_, ?_, ?_, ?_, ?_, ?_, ?_, ?_, ?_, ?_, ?_, ?_, ?_⟩ <;> funext <;> exact h _ _ rfl

private theorem rBlocks_congr {x y : List (O ⊕ O) → List (V ⊕ V) → K} (h : ∀ l a, l.length = a.length → x l a = y l a) : rBlocks x = rBlocks y := by
  simp only [rBlocks, RCoeffs.mk.injEq]
  refine ⟨?_, ?_, ?_, ?_, ?_⟩ <;> funext <;> exact h _ _ rfl

/-- C27: every CI wave function is c0·exp(T) for some amplitudes T of all ranks, and the blocks of T up to quadruples are what the conversion returns. -/
theorem ccsdtq_unrestricted_every_ci (c : List (O ⊕ P) → List (V ⊕ W) → K) (h0 : c [] [] ≠ 0) (h : Antisymmetric c) (hc : ConservesSpin c) :
    ∃ t : List (O ⊕ P) → List (V ⊕ W) → K, Antisymmetric t ∧ ConservesSpin t ∧ (∀ l a, l.length = a.length → c l a = c [] [] * expCoeff t l a) ∧
      uAsCcsdtq (c [] []) (uBlocks c) = uBlocks t := by
  have n1 : (fun l a => c l a / c [] []) [] [] = 1 := div_self h0
  have ha := logAmp_antisymmetric _ n1 (scaled_antisymmetric h (c [] []))
  have hs := logAmp_conserves _ n1 (scaled_conserves hc (c [] []))
  have he : ∀ l a, l.length = a.length → c l a = c [] [] * expCoeff (logAmp fun l a => c l a / c [] []) l a := by
    intro l a hl
    rw [expCoeff_log _ n1 l a hl, mul_div_cancel₀ _ h0]
  refine ⟨_, ha, hs, he, ?_⟩
  rw [uBlocks_congr he]
  exact ccsdtq_unrestricted _ _ h0 ha hs

/-- C27: every CI wave function of a closed-shell state is c0·exp(T) for some closed-shell amplitudes T of all ranks, and the blocks of T stored for
restricted wave functions are what the conversion returns. -/
theorem ccsdtq_restricted_every_ci (c : List (O ⊕ O) → List (V ⊕ V) → K) (h0 : c [] [] ≠ 0) (h : Antisymmetric c) (hc : ConservesSpin c)
    (hs : ClosedShell c) : ∃ t : List (O ⊕ O) → List (V ⊕ V) → K, Antisymmetric t ∧ ConservesSpin t ∧ ClosedShell t ∧
      (∀ l a, l.length = a.length → c l a = c [] [] * expCoeff t l a) ∧ rAsCcsdtq (c [] []) (rBlocks c) = rBlocks t := by
  have n1 : (fun l a => c l a / c [] []) [] [] = 1 := div_self h0
  have ha := logAmp_antisymmetric _ n1 (scaled_antisymmetric h (c [] []))
  have hd := logAmp_conserves _ n1 (scaled_conserves hc (c [] []))
  have ht := logAmp_closedShell _ n1 (scaled_closedShell hs (c [] []))
  have he : ∀ l a, l.length = a.length → c l a = c [] [] * expCoeff (logAmp fun l a => c l a / c [] []) l a := by
    intro l a hl
    rw [expCoeff_log _ n1 l a hl, mul_div_cancel₀ _ h0]
  refine ⟨_, ha, hd, ht, he, ?_⟩
  rw [rBlocks_congr he]
  exact ccsdtq_restricted _ _ h0 ha hd ht

/-- C27: the restricted conversion agrees with the unrestricted one in all blocks both store; the block alpha, beta, alpha, alpha is that of alpha,
alpha, alpha, beta with the orbitals exchanged. -/
theorem ccsdtq_restricted_unrestricted (c : List (O ⊕ O) → List (V ⊕ V) → K) (h0 : c [] [] ≠ 0) (h : Antisymmetric c) (hc : ConservesSpin c)
    (hs : ClosedShell c) :
    let r := rAsCcsdtq (c [] []) (rBlocks c)
    let u := uAsCcsdtq (c [] []) (uBlocks c)
    r.one = u.a ∧ r.one = u.b ∧ r.two = u.ab ∧ r.three = u.aba ∧ r.three = u.bab ∧ r.abab = u.abab ∧
      ∀ i j k l a b d e, r.abaa i j k l a b d e = u.aaab i l k j a e d b := by
  obtain ⟨t, ha, hd, ht, he, hr⟩ := ccsdtq_restricted_every_ci c h0 h hc hs
  have hu : uAsCcsdtq (c [] []) (uBlocks c) = uBlocks t := by
    rw [uBlocks_congr he]
    exact ccsdtq_unrestricted _ _ h0 ha hd
  simp only [hr, hu]
  refine ⟨rfl, ?_, rfl, rfl, ?_, rfl, ?_⟩
  · funext i a
    exact (r1 ht i a).symm
  · funext i j k a b d
    exact (ht.flip [.inl i, .inr j, .inl k] [.inl a, .inr b, .inl d]).symm
  · intro i j k l a b d e
    show t [.inl i, .inr j, .inl k, .inl l] [.inl a, .inr b, .inl d, .inl e] = t [.inl i, .inl l, .inl k, .inr j] [.inl a, .inl e, .inl d, .inr b]
    have o1 := fun m => ha.occ [.inl i] (.inr j) (.inl k) [.inl l] m
    have o2 := fun m => ha.occ [.inl i, .inl k] (.inr j) (.inl l) [] m
    have o3 := fun m => ha.occ [.inl i] (.inl k) (.inl l) [.inr j] m
    have v1 := fun m => ha.vir m [.inl a] (.inr b) (.inl d) [.inl e]
    have v2 := fun m => ha.vir m [.inl a, .inl d] (.inr b) (.inl e) []
    have v3 := fun m => ha.vir m [.inl a] (.inl d) (.inl e) [.inr b]
    simp only [List.cons_append, List.nil_append] at o1 o2 o3 v1 v2 v3
    rw [o1, o2, o3, v1, v2, v3]
    ring

/-- Single excitations only. -/
private def singles (k x : K) : List (O ⊕ O) → List (V ⊕ V) → K
  | [], [] => k
  | [.inl _], [.inl _] => x
  | [.inr _], [.inr _] => x
  | _, _ => 0

private theorem singles_good (k x : K) : Antisymmetric (singles k x : List (O ⊕ O) → List (V ⊕ V) → K) ∧
    ConservesSpin (singles k x : List (O ⊕ O) → List (V ⊕ V) → K) ∧ ClosedShell (singles k x : List (O ⊕ O) → List (V ⊕ V) → K) := by
  have zo : ∀ (l : List (O ⊕ O)) (a : List (V ⊕ V)), 2 ≤ l.length → singles k x l a = 0 := by
    intro l a h
    rcases l with _ | ⟨p, _ | ⟨q, l⟩⟩ <;> simp at h
    rcases p with p | p <;> simp [singles]
  have zv : ∀ (l : List (O ⊕ O)) (a : List (V ⊕ V)), 2 ≤ a.length → singles k x l a = 0 := by
    intro l a h
    rcases a with _ | ⟨p, _ | ⟨q, a⟩⟩ <;> simp at h
    rcases l with _ | ⟨r | r, l⟩ <;> rcases p with p | p <;> simp [singles]
  refine ⟨⟨?_, ?_⟩, ?_, ?_, ?_⟩
  · intro l i j m a
    rw [zo _ _ (by simp only [List.length_append, List.length_cons]; omega), zo _ _ (by simp only [List.length_append, List.length_cons]; omega), neg_zero]
  · intro l a i j b
    rw [zv _ _ (by simp only [List.length_append, List.length_cons]; omega), zv _ _ (by simp only [List.length_append, List.length_cons]; omega), neg_zero]
  · intro l a hl ha
    rcases l with _ | ⟨p | p, _ | ⟨q, l⟩⟩ <;> rcases a with _ | ⟨r | r, _ | ⟨s, a⟩⟩ <;> first | exact absurd rfl ha | simp [singles]
  · intro l a hl
    rcases l with _ | ⟨p, _ | ⟨q, l⟩⟩
    · rcases a with _ | ⟨r, a⟩
      · rfl
      · simp at hl
    · rcases a with _ | ⟨r, _ | ⟨s, a⟩⟩
      · simp at hl
      · rcases p with p | p <;> rcases r with r | r <;> simp [lowered, raised, singles]
      · simp at hl
    · rw [lowered_eq, raised_eq]
      show sumC _ _ _ = sumC _ _ _
      rw [sumC_congr _ _ _ (fun _ => 0) fun m _ => zo _ _ (by simp), sumC_congr _ _ _ (fun _ => 0) fun m hm => zo _ _ (by simp [hm]), sumC_zero, sumC_zero]
  · intro l a
    rcases l with _ | ⟨p | p, _ | ⟨q, l⟩⟩ <;> rcases a with _ | ⟨r | r, _ | ⟨s, a⟩⟩ <;> simp [singles]

/-- The hypotheses of the conversion theorems are met by a CI wave function with single excitations; its double amplitudes are not zero. -/
example : ∃ c : List (Bool ⊕ Bool) → List (Bool ⊕ Bool) → ℚ, c [] [] ≠ 0 ∧ Antisymmetric c ∧ ConservesSpin c ∧ ClosedShell c ∧
    (rAsCcsdtq (c [] []) (rBlocks c)).two true true true true ≠ 0 :=
  ⟨singles 2 1, by norm_num [singles], (singles_good 2 1).1, (singles_good 2 1).2.1, (singles_good 2 1).2.2, by
    norm_num [rAsCcsdtq, rBlocks, singles, t2Mixed, t1Same]⟩

/-- The hypotheses are met by amplitudes with single excitations; the coefficient of a double excitation is not zero. -/
example : ∃ t : List (Bool ⊕ Bool) → List (Bool ⊕ Bool) → ℚ, Antisymmetric t ∧ ConservesSpin t ∧ ClosedShell t ∧
    (rBlocks fun l a => 2 * expCoeff t l a).two true true true true ≠ 0 :=
  ⟨singles 0 1, (singles_good 0 1).1, (singles_good 0 1).2.1, (singles_good 0 1).2.2, by
    simp only [rBlocks, exp2]
    norm_num [singles]⟩

end Vayesta.Props
