import Verif.Lemmas.Diagram

/-! The tactic `diagram [h, ...]`, which proves equalities between sums of products of tensors with the procedure of `Verif/Lemmas/Diagram.lean`. Expressions are
translated together with a proof that their value is the expression; all proofs are checked by the kernel. -/

namespace Vayesta.Diagram

set_option linter.unusedSectionVars false

variable {S : Nat → Type} [∀ k, Fintype (S k)] {K : Type} [Field K]

/-- Up to four types of indices. -/
def Sorts (A B C D : Type) : Nat → Type
  | 0 => A
  | 1 => B
  | 2 => C
  | _ + 3 => D

instance instSorts (A B C D : Type) [a : Fintype A] [b : Fintype B] [c : Fintype C] [d : Fintype D] : ∀ k, Fintype (Sorts A B C D k)
  | 0 => a
  | 1 => b
  | 2 => c
  | _ + 3 => d

def extEnv (l : List (Option (Σ k, S k))) : Env S := fun n => l.getD n none

def mkAtoms (l : List (List (Option (Σ k, S k)) → K)) : Atoms S K := fun r => l.getD r fun _ => 0

def at0 (S : Nat → Type) (f : K) : List (Option (Σ k, S k)) → K
  | [] => f
  | _ => 0

def at1 (k1 : Nat) (f : S k1 → K) : List (Option (Σ k, S k)) → K
  | [some x] => if h : x.1 = k1 then f (h ▸ x.2) else 0
  | _ => 0

def at2 (k1 k2 : Nat) (f : S k1 → S k2 → K) : List (Option (Σ k, S k)) → K
  | [some x, some y] => if h : x.1 = k1 ∧ y.1 = k2 then f (h.1 ▸ x.2) (h.2 ▸ y.2) else 0
  | _ => 0

def at3 (k1 k2 k3 : Nat) (f : S k1 → S k2 → S k3 → K) : List (Option (Σ k, S k)) → K
  | [some x, some y, some z] => if h : x.1 = k1 ∧ y.1 = k2 ∧ z.1 = k3 then f (h.1 ▸ x.2) (h.2.1 ▸ y.2) (h.2.2 ▸ z.2) else 0
  | _ => 0

def at4 (k1 k2 k3 k4 : Nat) (f : S k1 → S k2 → S k3 → S k4 → K) : List (Option (Σ k, S k)) → K
  | [some x, some y, some z, some w] =>
    if h : x.1 = k1 ∧ y.1 = k2 ∧ z.1 = k3 ∧ w.1 = k4 then f (h.1 ▸ x.2) (h.2.1 ▸ y.2) (h.2.2.1 ▸ z.2) (h.2.2.2 ▸ w.2) else 0
  | _ => 0

section Links
variable {A : Atoms S K} {ρ : Env S}

theorem atom0_link (r : Nat) (f : K) (hA : A r = at0 S f) : eval A (.atom r []) ρ = f := by
  show A r [] = f
  rw [hA]; rfl

theorem atom1_link (r l1 k1 : Nat) (f : S k1 → K) (x1 : S k1) (hA : A r = at1 k1 f) (h1 : ρ l1 = some ⟨k1, x1⟩) : eval A (.atom r [l1]) ρ = f x1 := by
  show A r [ρ l1] = _
  rw [hA, h1]; unfold at1; simp

theorem atom2_link (r l1 l2 k1 k2 : Nat) (f : S k1 → S k2 → K) (x1 : S k1) (x2 : S k2) (hA : A r = at2 k1 k2 f) (h1 : ρ l1 = some ⟨k1, x1⟩)
    (h2 : ρ l2 = some ⟨k2, x2⟩) : eval A (.atom r [l1, l2]) ρ = f x1 x2 := by
  show A r [ρ l1, ρ l2] = _
  rw [hA, h1, h2]; unfold at2; simp

theorem atom3_link (r l1 l2 l3 k1 k2 k3 : Nat) (f : S k1 → S k2 → S k3 → K) (x1 : S k1) (x2 : S k2) (x3 : S k3) (hA : A r = at3 k1 k2 k3 f)
    (h1 : ρ l1 = some ⟨k1, x1⟩) (h2 : ρ l2 = some ⟨k2, x2⟩) (h3 : ρ l3 = some ⟨k3, x3⟩) : eval A (.atom r [l1, l2, l3]) ρ = f x1 x2 x3 := by
  show A r [ρ l1, ρ l2, ρ l3] = _
  rw [hA, h1, h2, h3]; unfold at3; simp

theorem atom4_link (r l1 l2 l3 l4 k1 k2 k3 k4 : Nat) (f : S k1 → S k2 → S k3 → S k4 → K) (x1 : S k1) (x2 : S k2) (x3 : S k3) (x4 : S k4)
    (hA : A r = at4 k1 k2 k3 k4 f) (h1 : ρ l1 = some ⟨k1, x1⟩) (h2 : ρ l2 = some ⟨k2, x2⟩) (h3 : ρ l3 = some ⟨k3, x3⟩) (h4 : ρ l4 = some ⟨k4, x4⟩) :
    eval A (.atom r [l1, l2, l3, l4]) ρ = f x1 x2 x3 x4 := by
  show A r [ρ l1, ρ l2, ρ l3, ρ l4] = _
  rw [hA, h1, h2, h3, h4]; unfold at4; simp

theorem zero_link : eval A (.nat 0) ρ = 0 := Nat.cast_zero
theorem one_link : eval A (.nat 1) ρ = 1 := Nat.cast_one
theorem nat_link (n : Nat) [n.AtLeastTwo] : eval A (.nat n) ρ = OfNat.ofNat n := Nat.cast_ofNat
theorem add_link {a b : E} {x y : K} (ha : eval A a ρ = x) (hb : eval A b ρ = y) : eval A (.add a b) ρ = x + y := by rw [← ha, ← hb]; rfl
theorem sub_link {a b : E} {x y : K} (ha : eval A a ρ = x) (hb : eval A b ρ = y) : eval A (.sub a b) ρ = x - y := by rw [← ha, ← hb]; rfl
theorem mul_link {a b : E} {x y : K} (ha : eval A a ρ = x) (hb : eval A b ρ = y) : eval A (.mul a b) ρ = x * y := by rw [← ha, ← hb]; rfl
theorem neg_link {a : E} {x : K} (ha : eval A a ρ = x) : eval A (.neg a) ρ = -x := by rw [← ha]; rfl
theorem div_link (n : Nat) [n.AtLeastTwo] {a : E} {x : K} (ha : eval A a ρ = x) : eval A (.div a n) ρ = x / OfNat.ofNat n := by
  rw [← ha]; show _ / ((n : Nat) : K) = _; rw [← Nat.cast_ofNat (R := K) (n := n)]; rfl
theorem sum_link (l : Nat) {a : E} {g : S (l % 4) → K} (h : ∀ x, eval A a (upd ρ l ⟨l % 4, x⟩) = g x) : eval A (.sum l a) ρ = ∑ x, g x :=
  Finset.sum_congr rfl fun x _ => h x

theorem final [CharZero K] (sym : List (Nat × List Nat)) (h : SymOk A sym) (a b : E) (hc : check sym a b = true) {x y : K} (hx : eval A a ρ = x) (hy : eval A b ρ = y) :
    x = y := hx.symm.trans ((check_sound A sym h a b hc ρ).trans hy)

theorem symOk_nil : SymOk A [] := fun _ h => by cases h

theorem symOk_cons {s : Nat × List Nat} {l : List (Nat × List Nat)}
    (h : ∀ (args : List Nat), args.length = s.2.length → ∀ ρ : Env S, A s.1 ((permute s.2 args).map ρ) = A s.1 (args.map ρ)) (hl : SymOk A l) : SymOk A (s :: l) := by
  intro t ht
  rcases List.mem_cons.1 ht with rfl | ht
  · exact h
  · exact hl t ht

theorem sym1032 (r k k' : Nat) (f : S k → S k → S k' → S k' → K) (hA : A r = at4 k k k' k' f) (h : ∀ i j a b, f j i b a = f i j a b) (args : List Nat)
    (hl : args.length = 4) (ρ : Env S) : A r ((permute [1, 0, 3, 2] args).map ρ) = A r (args.map ρ) := by
  obtain ⟨i, j, a, b, rfl⟩ : ∃ i j a b, args = [i, j, a, b] := by
    match args, hl with
    | [i, j, a, b], _ => exact ⟨i, j, a, b, rfl⟩
  show A r [ρ j, ρ i, ρ b, ρ a] = A r [ρ i, ρ j, ρ a, ρ b]
  rw [hA]
  cases ρ i with
  | none => cases ρ j <;> rfl
  | some x =>
    cases ρ j with
    | none => rfl
    | some y =>
      cases ρ a with
      | none => cases ρ b <;> rfl
      | some z =>
        cases ρ b with
        | none => rfl
        | some w =>
          obtain ⟨x1, x⟩ := x
          obtain ⟨y1, y⟩ := y
          obtain ⟨z1, z⟩ := z
          obtain ⟨w1, w⟩ := w
          unfold at4
          by_cases hc : x1 = k ∧ y1 = k ∧ z1 = k' ∧ w1 = k'
          · obtain ⟨rfl, rfl, rfl, rfl⟩ := hc
            simp [h]
          · have hc' : ¬(y1 = k ∧ x1 = k ∧ w1 = k' ∧ z1 = k') := fun ⟨h1, h2, h3, h4⟩ => hc ⟨h2, h1, h4, h3⟩
            show dite _ _ _ = dite _ _ _
            rw [dif_neg hc, dif_neg hc']

theorem sym10 (r k : Nat) (f : S k → S k → K) (hA : A r = at2 k k f) (h : ∀ i j, f j i = f i j) (args : List Nat) (hl : args.length = 2) (ρ : Env S) :
    A r ((permute [1, 0] args).map ρ) = A r (args.map ρ) := by
  obtain ⟨i, j, rfl⟩ : ∃ i j, args = [i, j] := by
    match args, hl with
    | [i, j], _ => exact ⟨i, j, rfl⟩
  show A r [ρ j, ρ i] = A r [ρ i, ρ j]
  rw [hA]
  cases ρ i with
  | none => cases ρ j <;> rfl
  | some x =>
    cases ρ j with
    | none => rfl
    | some y =>
      obtain ⟨x1, x⟩ := x
      obtain ⟨y1, y⟩ := y
      unfold at2
      by_cases hc : x1 = k ∧ y1 = k
      · obtain ⟨rfl, rfl⟩ := hc
        simp [h]
      · have hc' : ¬(y1 = k ∧ x1 = k) := fun ⟨h1, h2⟩ => hc ⟨h2, h1⟩
        show dite _ _ _ = dite _ _ _
        rw [dif_neg hc, dif_neg hc']

end Links

/-! ## The tactic -/

open Lean Meta Elab Tactic

structure TacState where
  atoms : Array (Expr × Array Nat) := #[]
  sorts : Array Expr := #[]
  exts : Array (Expr × Nat) := #[]
  next : Nat := 0

abbrev DM := StateRefT TacState MetaM

def sortOf (ty : Expr) : DM Nat := do
  let s ← get
  match s.sorts.findIdx? (· == ty) with
  | some k => return k
  | none =>
    if s.sorts.size ≥ 4 then throwError "diagram: more than four types of indices"
    set { s with sorts := s.sorts.push ty }
    return s.sorts.size

/-- Function and indices of a tensor. -/
def splitAtom (K : Expr) (e : Expr) : MetaM (Expr × Array Expr) := do
  let args := e.getAppArgs
  let mut n := args.size
  let mut go := true
  while go && n > 0 do
    let a := args[n-1]!
    if a.isFVar then
      let ty ← instantiateMVars (← inferType a)
      let ty' ← whnfR ty
      if ty == K || ty'.isForall || ty'.isSort then go := false
      else
        let tty ← inferType ty
        if (← whnfR tty).isProp then go := false else n := n - 1
    else go := false
  return (mkAppN e.getAppFn (args.extract 0 n), args.extract n args.size)

inductive View
  | add (a b : Expr) | sub (a b : Expr) | mul (a b : Expr) | neg (a : Expr) | div (a : Expr) (n : Nat) (inst : Expr)
  | zero | one | nat (n : Nat) (inst : Expr) | sum (ty : Expr) (f : Expr) | atom

def viewOf (e : Expr) : MetaM View := do
  match e.getAppFnArgs with
  | (``HAdd.hAdd, #[_, _, _, _, a, b]) => return .add a b
  | (``HSub.hSub, #[_, _, _, _, a, b]) => return .sub a b
  | (``HMul.hMul, #[_, _, _, _, a, b]) => return .mul a b
  | (``Neg.neg, #[_, _, a]) => return .neg a
  | (``HDiv.hDiv, #[_, _, _, _, a, b]) =>
    match b.getAppFnArgs with
    | (``OfNat.ofNat, #[_, .lit (.natVal n), _]) =>
      let inst ← synthInstance (mkApp (mkConst ``Nat.AtLeastTwo) (mkRawNatLit n))
      return .div a n inst
    | _ => throwError "diagram: division by {b}"
  | (``OfNat.ofNat, #[_, .lit (.natVal n), _]) =>
    if n = 0 then return .zero
    if n = 1 then return .one
    let inst ← synthInstance (mkApp (mkConst ``Nat.AtLeastTwo) (mkRawNatLit n))
    return .nat n inst
  | (``Finset.sum, #[ty, _, _, _, f]) => return .sum ty f
  | _ => return .atom

/-- First pass: types of indices, tensors, free indices. -/
def collect (K : Expr) : Nat → List Expr → Expr → DM Unit
| 0, _, _ => throwError "diagram: expression too deep"
| n + 1, bound, e => do
  match ← viewOf e with
  | .add a b | .sub a b | .mul a b => collect K n bound a; collect K n bound b
  | .neg a | .div a _ _ => collect K n bound a
  | .zero | .one | .nat _ _ => return
  | .sum ty f =>
    let _ ← sortOf ty
    withLocalDeclD `x ty fun x => collect K n (x :: bound) (mkApp f x).headBeta
  | .atom =>
    let (f, args) ← splitAtom K e
    if args.size > 4 then throwError "diagram: tensor with more than four indices {e}"
    let mut ks := #[]
    for a in args do
      let k ← sortOf (← instantiateMVars (← inferType a))
      ks := ks.push k
      unless bound.contains a do
        unless (← get).exts.any (·.1 == a) do
          modify fun s => { s with exts := s.exts.push (a, k) }
    unless (← get).atoms.any (·.1 == f) do
      modify fun s => { s with atoms := s.atoms.push (f, ks) }

structure Setup where
  S : Expr
  instS : Expr
  K : Expr
  fld : Expr
  A : Expr

def Setup.ap (u : Setup) (n : Name) (ρ : Expr) (args : Array Expr) : Expr := mkAppN (mkConst n) (#[u.S, u.instS, u.K, u.fld, u.A, ρ] ++ args)

/-- Second pass: expression and proof that its value is the given one. -/
def build (u : Setup) : Nat → List (Expr × Nat) → Expr → Expr → DM (Expr × Expr)
| 0, _, _, _ => throwError "diagram: expression too deep"
| fuel + 1, bound, ρ, e => do
  let nat (n : Nat) := mkRawNatLit n
  let c (n : Name) (args : Array Expr) := mkAppN (mkConst n) args
  match ← viewOf e with
  | .add a b =>
    let (x, p) ← build u fuel bound ρ a
    let (y, q) ← build u fuel bound ρ b
    return (c ``E.add #[x, y], u.ap ``add_link ρ #[x, y, a, b, p, q])
  | .sub a b =>
    let (x, p) ← build u fuel bound ρ a
    let (y, q) ← build u fuel bound ρ b
    return (c ``E.sub #[x, y], u.ap ``sub_link ρ #[x, y, a, b, p, q])
  | .mul a b =>
    let (x, p) ← build u fuel bound ρ a
    let (y, q) ← build u fuel bound ρ b
    return (c ``E.mul #[x, y], u.ap ``mul_link ρ #[x, y, a, b, p, q])
  | .neg a =>
    let (x, p) ← build u fuel bound ρ a
    return (c ``E.neg #[x], u.ap ``neg_link ρ #[x, a, p])
  | .div a n inst =>
    let (x, p) ← build u fuel bound ρ a
    return (c ``E.div #[x, nat n], u.ap ``div_link ρ #[nat n, inst, x, a, p])
  | .zero => return (c ``E.nat #[nat 0], u.ap ``zero_link ρ #[])
  | .one => return (c ``E.nat #[nat 1], u.ap ``one_link ρ #[])
  | .nat n inst => return (c ``E.nat #[nat n], u.ap ``nat_link ρ #[nat n, inst])
  | .sum ty f =>
    let k ← sortOf ty
    let l := 4 * (1000 + (← get).next) + k
    modify fun s => { s with next := s.next + 1 }
    withLocalDeclD `x ty fun x => do
      let sg := mkApp4 (mkConst ``Sigma.mk [Level.zero, Level.zero]) (mkConst ``Nat) u.S (← mkAppM ``HMod.hMod #[nat l, nat 4]) x
      let ρ' := mkAppN (mkConst ``upd) #[u.S, ρ, nat l, sg]
      let (y, p) ← build u fuel ((x, l) :: bound) ρ' (mkApp f x).headBeta
      return (c ``E.sum #[nat l, y], u.ap ``sum_link ρ #[nat l, y, f, ← mkLambdaFVars #[x] p])
  | .atom =>
    let (f, args) ← splitAtom u.K e
    let s ← get
    let some r := s.atoms.findIdx? (·.1 == f) | throwError "diagram: lost tensor"
    let ks := s.atoms[r]!.2
    let mut ls := #[]
    let mut hs := #[]
    for i in [0:args.size] do
      let a := args[i]!
      let l ← match bound.find? (·.1 == a) with
        | some (_, l) => pure l
        | none =>
          let some j := s.exts.findIdx? (·.1 == a) | throwError "diagram: lost index"
          pure (4 * j + s.exts[j]!.2)
      ls := ls.push l
      let sg := mkApp4 (mkConst ``Sigma.mk [Level.zero, Level.zero]) (mkConst ``Nat) u.S (nat ks[i]!) a
      let o := mkApp2 (mkConst ``Option.some [Level.zero]) (← mkAppM ``Sigma #[u.S]) sg
      hs := hs.push (← mkEqRefl o)
    let L ← mkListLit (mkConst ``Nat) (ls.map nat).toList
    let hA ← mkEqRefl (mkApp u.A (nat r))
    let n := [``atom0_link, ``atom1_link, ``atom2_link, ``atom3_link, ``atom4_link][args.size]!
    return (c ``E.atom #[nat r, L], u.ap n ρ (#[nat r] ++ ls.map nat ++ ks.map nat ++ #[f] ++ args ++ #[hA] ++ hs))

/-- Equality of sums of products, up to the symmetries listed. -/
syntax (name := diagramStx) "diagram" (" [" term,* "]")? : tactic

elab_rules : tactic
| `(tactic| diagram $[[$hs,*]]?) => withMainContext do
  let g ← getMainGoal
  let ty ← instantiateMVars (← g.getType)
  let some (K, lhs, rhs) := ty.consumeMData.eq? | throwError "diagram: not an equality"
  let lhs ← Core.betaReduce lhs
  let rhs ← Core.betaReduce rhs
  let hyps ← match hs with
    | some ts => ts.getElems.mapM fun t => elabTerm t none
    | none => pure #[]
  let run : DM Expr := do
    collect K 10000 [] lhs
    collect K 10000 [] rhs
    let s ← get
    let srt (i : Nat) : Expr := (s.sorts[i]?).getD (mkConst ``Empty)
    let four := #[srt 0, srt 1, srt 2, srt 3]
    let S := mkAppN (mkConst ``Sorts) four
    let insts ← four.mapM fun t => do synthInstance (← mkAppM ``Fintype #[t])
    let instS := mkAppN (mkConst ``instSorts) (four ++ insts)
    let fld ← synthInstance (← mkAppM ``Field #[K])
    let sigT ← mkAppM ``Sigma #[S]
    let optT ← mkAppM ``Option #[sigT]
    let nat (n : Nat) := mkRawNatLit n
    let argT ← mkAppM ``List #[optT]
    let atT ← mkArrow argT K
    let mkAt (a : Expr × Array Nat) : DM Expr := do
      if a.2.size = 0 then return mkAppN (mkConst ``at0) #[K, fld, S, a.1]
      let n := [``at0, ``at1, ``at2, ``at3, ``at4][a.2.size]!
      return mkAppN (mkConst n) (#[S, K, fld] ++ a.2.map nat ++ #[a.1])
    let ats ← s.atoms.mapM mkAt
    let A := mkAppN (mkConst ``mkAtoms) #[S, K, fld, ← mkListLit atT ats.toList]
    let none' := mkApp (mkConst ``Option.none [Level.zero]) sigT
    let mut env : Array Expr := Array.replicate (4 * s.exts.size) none'
    for j in [0:s.exts.size] do
      let (x, k) := s.exts[j]!
      let sg := mkApp4 (mkConst ``Sigma.mk [Level.zero, Level.zero]) (mkConst ``Nat) S (nat k) x
      env := env.set! (4 * j + k) (mkApp2 (mkConst ``Option.some [Level.zero]) sigT sg)
    let ρ := mkAppN (mkConst ``extEnv) #[S, ← mkListLit optT env.toList]
    let u : Setup := ⟨S, instS, K, fld, A⟩
    let (a, pa) ← build u 10000 [] ρ lhs
    let (b, pb) ← build u 10000 [] ρ rhs
    -- symmetries
    let natL := mkApp (mkConst ``List [Level.zero]) (mkConst ``Nat)
    let pairT ← mkAppM ``Prod #[mkConst ``Nat, natL]
    let mut sym : Expr ← mkListLit pairT []
    let mut hsym : Expr := mkAppN (mkConst ``symOk_nil) #[S, instS, K, fld, A]
    let inst3 := #[S, instS, K, fld, A]
    for h in hyps do
      let hty ← instantiateMVars (← inferType h)
      let found ← forallTelescope hty fun xs body => do
        let some (_, l, r) := body.eq? | throwError "diagram: symmetry {hty}"
        let n := xs.size
        let f := mkAppN r.getAppFn (r.getAppArgs.extract 0 (r.getAppNumArgs - n))
        let la := l.getAppArgs.extract (l.getAppNumArgs - n) l.getAppNumArgs
        let ra := r.getAppArgs.extract (r.getAppNumArgs - n) r.getAppNumArgs
        let p := la.map fun x => (ra.findIdx? (· == x)).getD 0
        return (f, p.toList)
      let f ← instantiateMVars found.1
      let some rI := s.atoms.findIdx? (·.1 == f) | continue
      let ks := s.atoms[rI]!.2
      let pr ← if found.2 == [1, 0, 3, 2] then
          pure (mkAppN (mkConst ``sym1032) (inst3 ++ #[nat rI, nat ks[0]!, nat ks[2]!, found.1, ← mkEqRefl (mkApp A (nat rI)), h]))
        else if found.2 == [1, 0] then
          pure (mkAppN (mkConst ``sym10) (inst3 ++ #[nat rI, nat ks[0]!, found.1, ← mkEqRefl (mkApp A (nat rI)), h]))
        else throwError "diagram: unknown symmetry {hty}"
      let sE := mkApp4 (mkConst ``Prod.mk [Level.zero, Level.zero]) (mkConst ``Nat) natL (nat rI) (← mkListLit (mkConst ``Nat) (found.2.map nat))
      hsym := mkAppN (mkConst ``symOk_cons) #[S, instS, K, fld, A, sE, sym, pr, hsym]
      sym ← mkAppM ``List.cons #[sE, sym]
    let chk := mkApp3 (mkConst ``check) sym a b
    let hc ← mkExpectedTypeHint (← mkEqRefl (mkConst ``Bool.true)) (← mkEq chk (mkConst ``Bool.true))
    let cz ← synthInstance (← mkAppOptM ``CharZero #[K, none])
    return mkAppN (mkConst ``final) #[S, instS, K, fld, A, ρ, cz, sym, hsym, a, b, hc, lhs, rhs, pa, pb]
  let (pf, _) ← run.run {}
  g.assign (← mkExpectedTypeHint pf ty)

end Vayesta.Diagram
