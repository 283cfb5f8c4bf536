import Verif.Model.Blocks
import Mathlib.Order.Defs.LinearOrder

/-! Model of the self-consistency loop of `DMET.kernel` (`vayesta/dmet/dmet.py:83-222`).

The mean field, the embedding calculation on it, the fit of the correlation potential and the updater are parameters; the loop, its
exits and the state kept between calls are modelled. Exceptions raised by the parameters are not modelled. -/

namespace Vayesta.DmetLoop

/-- The parts the loop calls.
* `fockOf` – `self.get_fock()` of the current mean field (dmet.py:98, 130)
* `diag` – new mean field from `mf.eig(fock + vcorr)` (dmet.py:126-127)
* `solve` – dmet.py:131-201 and 248: bath, clusters and chemical-potential search from the previous chemical potential; yields the
  correlation energy, the fragment density matrices and the new chemical potential, or `none` if no bracket was found (dmet.py:178-180)
* `upd0`, `upd` – a new updater (dmet.py:114-117) and its `update` (dmet.py:206)
* `fit` – `update_vcorr` (dmet.py:208, 254-263)
* `zero` – the zero potential (dmet.py:100)
* `dist` – the norm of the difference (dmet.py:209) -/
structure Parts (M F V R U E K : Type) where
  fockOf : M → F
  diag : F → V → M
  solve : M → K → Option (E × R × K)
  upd0 : U
  upd : U → R → R × U
  fit : F → R → V
  zero : V
  cpt0 : K
  dist : V → V → K

/-- Options of the calculation (dmet.py:19-29) read by `kernel`. -/
structure Opts (K : Type) where
  maxiter : Nat
  chargeConsistent : Bool
  convTol : K
  oneshot : Bool
  mixingVariable : String
  bathtype : String

/-- State of the calculation object kept between calls of `kernel`. -/
structure Obj (M V E : Type) where
  nfrag : Nat
  mf : M
  vcorr : Option V
  eCorr : Option E
  converged : Bool
  iteration : Nat

/-- Variables of the loop. -/
structure Vars (M F V R U E K : Type) where
  mf : M
  fock : F
  vcorr : V
  cpt : K
  upd : U
  eCorr : Option E
  converged : Bool
  iteration : Nat

section
variable {M F V R U E K : Type} [LinearOrder K]

/-- The loop `for iteration in range(1, maxiter + 1)` (dmet.py:119-217); `todo` iterations remain and `n` were made. The state at the
exit is returned. -/
def loop (P : Parts M F V R U E K) (o : Opts K) : Nat → Nat → Vars M F V R U E K → Vars M F V R U E K
  | 0, _, s => s
  | todo + 1, n, s =>
    let it := n + 1
    -- dmet.py:123-130
    let mf := if it > 1 then P.diag s.fock s.vcorr else s.mf
    let fock := if it > 1 ∧ o.chargeConsistent = true then P.fockOf mf else s.fock
    let eReset := if it > 1 then none else s.eCorr
    match P.solve mf s.cpt with
    | none => { s with mf := mf, fock := fock, eCorr := eReset, converged := false, iteration := it }
    | some (e, rdms, cpt) =>
      if o.oneshot then { s with mf := mf, fock := fock, cpt := cpt, eCorr := some e, converged := false, iteration := it }
      else
        let u := P.upd s.upd rdms
        let vnew := P.fit fock u.1
        let s' : Vars M F V R U E K :=
          { s with mf := mf, fock := fock, cpt := cpt, upd := u.2, eCorr := some e, converged := false, iteration := it }
        if P.dist vnew s.vcorr < o.convTol then { s' with converged := true }
        else loop P o todo it { s' with vcorr := vnew }

/-- `DMET.kernel` (dmet.py:83-222): the new object and an exception, if any. Without an energy the final report raises TypeError
(`self.e_mf + self.e_corr` with `e_corr = None`, dmet.py:75, 281). -/
def kernel (P : Parts M F V R U E K) (o : Opts K) (x : Obj M V E) : Obj M V E × Option PyErr :=
  if x.nfrag = 0 then (x, some .valueError)
  else if o.bathtype = "mp2" ∧ o.maxiter > 1 then (x, some .notImplementedError)
  else
    let v := match x.vcorr with
      | none => P.zero
      | some v => v
    let x := { x with vcorr := some v }
    if o.mixingVariable ≠ "hl rdm" then (x, some .valueError)
    else
      let s := loop P o o.maxiter 0
        ⟨x.mf, P.fockOf x.mf, v, P.cpt0, P.upd0, x.eCorr, false, x.iteration⟩
      ({ x with mf := s.mf, vcorr := some s.vcorr, eCorr := s.eCorr, converged := s.converged, iteration := s.iteration },
        if s.eCorr.isNone then some .typeError else none)

end

end Vayesta.DmetLoop
