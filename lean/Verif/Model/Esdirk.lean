import Verif.Model.Driver
import Mathlib.Algebra.Module.LinearMap.Defs
import Mathlib.Algebra.BigOperators.Fin

/-!
# The ESDIRK family

Models `ESDIRK._step_impl`, `_preemptive_lu_and_jac`, `_assess_error_and_stepsize`,
`_reassess_stepsize`, `_solve_implicit_stage` (`common.py:2008-2232`) and scipy's `OdeSolver.step` on top.

Simplifications: exact arithmetic; a non-finite value of `fun` is `none`; norms inside the Newton iteration
are numbers (an overflow of the norm of finite numbers is not modelled), the error norm of a step may be
`inf` or `nan`. LU factors are represented by the step size and the Jacobian they were made from, the
matrix `Sc` by the step size it was made for; solving with them is a parameter (`lin`).
-/

namespace Extensisq
open Finset

/-- Ways in which an ESDIRK step can end: success, the message of `OdeSolver.TOO_SMALL_STEP`, or an
exception: `assertErr` is the assertion of `common.py:2207`, `typeErr` arithmetic on `None` or the call of a
missing Jacobian function, `nanErr` the error raised by the LU routines after a step size of nan,
`runtimeErr` scipy's error for a solver that is not running. -/
inductive EExc where
  | assertErr | typeErr | nanErr | runtimeErr
  deriving DecidableEq, Repr

inductive EOut where
  | ok
  | tooSmall
  | exc (e : EExc)
  deriving DecidableEq, Repr

/-- LU factors: the signed step size and the Jacobian from which they were computed
(`common.py:2035, 2043`). -/
structure Fact (K V : Type*) [Semiring K] [AddCommMonoid V] [Module K V] where
  h : K
  J : V →ₗ[K] V

/-- Coefficients of an ESDIRK method (`common.py:1626-1658`), `n` is `n_stages`. -/
structure ETab (K : Type*) where
  n : ℕ
  d : K
  A : ℕ → ℕ → K
  Az : ℕ → ℕ → K
  B : ℕ → K
  C : ℕ → K
  E : ℕ → K
  kappa : K
  filter : Bool

/-- Fields of an ESDIRK solver that do not change after construction (`common.py:1922-2006`).
* `fn t y`: `self.fun`, `none` if the value is not finite;
* `jac k t y`: the `k`-th call of `self.jac` (a numerical Jacobian keeps internal state), `none` in linear
  mode;
* `M`: the mass matrix; `dae`: `self.isDAE`;
* `lin sc F b`: `self.solve_lu(LU, Sc @ b)` with factors `F` and the scaling made for step `sc`
  (`none`: identity);
* `dzNorm y yPredict v`, `errNorm y yNew v`: `norm(v/calculate_scale(atol, rtol, y, ...))`. -/
structure ECfg (K V : Type*) [Semiring K] [AddCommMonoid V] [Module K V] where
  T : ETab K
  fn : K → V → Option V
  jac : Option (ℕ → K → V → (V →ₗ[K] V))
  jacEach : Bool
  M : V →ₗ[K] V
  dae : Bool
  lin : Option K → Fact K V → V → V
  dzNorm : V → V → V → K
  errNorm : V → V → V → ENorm K
  tb : Option K
  dir : K
  maxStep : Option K
  hMinA : K
  hMinB : K
  tinyErr : K
  minFactor : K
  errExp : K
  minbeta1 : K
  minbeta2 : K
  minalpha : K
  safety : K
  safetySc : K
  pw : K → K → K

/-- Mutable fields. `rate = none` is `-inf`. `yp` is the derivative at `(t, y)` (`K[-1]` of the last
step), `nfi`, `nfs` the global counters. -/
structure ESt (K V : Type*) [Semiring K] [AddCommMonoid V] [Module K V] where
  t : K
  y : V
  yp : V
  hAbs : K
  maxFactor : K
  stdSc : Bool
  hPrev : Option K
  errOld : Option K
  yOld : Option V
  Ks : ℕ → V
  J : V →ₗ[K] V
  curJ : Bool
  LU : Option (Fact K V)
  hLU : Option K
  sc : Option K
  rate : Option K
  niter : ℕ
  nfs : ℕ
  nfi : ℕ
  nfev : ℕ
  njev : ℕ
  nlu : ℕ

section
variable {K V : Type*} [Field K] [LinearOrder K] [AddCommGroup V] [Module K V]

/-- `self.linear` (`common.py:1969`). -/
def ECfg.linear (c : ECfg K V) : Bool := c.jac.isNone

/-- `min_step` (`common.py:2170`). -/
def eMinStep (c : ECfg K V) (t h0 : K) : K := max (c.hMinA * (|t| + h0)) c.hMinB

/-- Is the step limited by `min_step` or `max_step` (`common.py:2171`)? -/
def eClips (c : ECfg K V) (t h0 : K) : Bool := decide (h0 < eMinStep c t h0) || overMax c.maxStep h0

/-- The step after these limits (`common.py:2171-2173`). -/
def eClip (c : ECfg K V) (t h0 : K) : K :=
  if eClips c t h0 then capMax c.maxStep (max (eMinStep c t h0) h0) else h0

/-- The end of the interval is hit exactly when the step is within one percent of the rest of the interval,
or longer (`common.py:2175-2179`). -/
def eFit (tb : Option K) (t h1 : K) : K :=
  match tb with
  | none => h1
  | some b => if |(|b - t|) / h1 - 1| < 1 / 100 ∨ |b - t| < h1 then |b - t| else h1

/-- `ESDIRK._reassess_stepsize` (`common.py:2168-2181`): `h_abs`, `min_step`, `standard_sc`. -/
def eReassess (c : ECfg K V) (t h0 : K) (std : Bool) : K × K × Bool :=
  (eFit c.tb t (eClip c t h0), eMinStep c t h0, if eClips c t h0 then true else std)

/-- `max(a, b)` on rates, `none` being `-inf`. -/
def rmax (a b : Option K) : Option K :=
  match a, b with
  | none, b => b
  | a, none => a
  | some x, some y => some (max x y)

/-- Result of `_solve_implicit_stage`; `evals` is the number of calls of `fun`. -/
structure NewtonOut (K V : Type*) where
  converged : Bool
  z : V
  rate : Option K
  niter : ℕ
  evals : ℕ

/-- What the Newton iteration of a stage reads: the time, the signed step, `psi`, `y`, the factors and
scaling in use, `self.current_J` and `self.h_LU`. -/
structure StageIn (K V : Type*) [Semiring K] [AddCommMonoid V] [Module K V] where
  t : K
  h : K
  psi : V
  y : V
  F : Fact K V
  sc : Option K
  curJ : Bool
  hLU : Option K

/-- The rate after an update with norm `dz` (`common.py:2219-2220`). -/
def newRate (c : ECfg K V) (rate : Option K) (dzOld dz : K) : K :=
  match rate with
  | none => dz / dzOld
  | some r => if r < 0 ∨ c.T.kappa < dzOld then max r (dz / dzOld) else r

/-- The loop of `_solve_implicit_stage` (`common.py:2188-2231`): first argument the iterations left, then
`k`. `none` is the failing assertion. `NEWTON_MAXITER = 5`. -/
def newton (c : ECfg K V) (i : StageIn K V) : ℕ → ℕ → V → K → Option K → Option (NewtonOut K V)
  | 0, k, z, _, rate => some ⟨false, z, rate, k, k⟩
  | n + 1, k, z, dzOld, rate =>
    let yP := i.psi + c.T.d • z
    match c.fn i.t yP with
    | none => some ⟨false, z, rate, k + 1, k + 1⟩
    | some f =>
      let upd := c.lin i.sc i.F (i.h • f - c.M z)
      let z' := z + upd
      let dz := c.dzNorm i.y yP upd
      if c.linear then
        if i.curJ ∧ i.hLU = some i.h then some ⟨true, z', rate, 1, k + 1⟩ else none
      else if dz ≤ c.tinyErr then some ⟨true, z', rate, k + 1, k + 1⟩
      else if k = 0 then newton c i n (k + 1) z' dz rate
      else
        let r := newRate c rate dzOld dz
        if 1 ≤ r ∨ c.T.kappa * (1 - r) ≤ dz * r ^ (5 - k) then some ⟨false, z', some r, k + 1, k + 1⟩
        else if dz * r < c.T.kappa * (1 - r) then some ⟨true, z', some r, k + 1, k + 1⟩
        else newton c i n (k + 1) z' dz (some r)

/-- `_solve_implicit_stage` (`common.py:2183-2232`). -/
def solveStage (c : ECfg K V) (i : StageIn K V) (zPredict : V) : Option (NewtonOut K V) :=
  newton c i 5 0 zPredict 0 none

/-- Result of the stages of one attempt. `psi`, `z`: last values (`common.py:2051-2052`). -/
structure Stages (K V : Type*) where
  converged : Bool
  psi : V
  z : V
  Ks : ℕ → V
  rate : Option K
  niter : ℕ
  evals : ℕ

/-- `psi` of stage `s` (`common.py:2051`). -/
def ePsi (T : ETab K) (y : V) (h : K) (Ks : ℕ → V) (s : ℕ) : V := y + h • ∑ j ∈ range s, T.A s j • Ks j

/-- `z_predict` of stage `s` (`common.py:2052`). -/
def ePredict (T : ETab K) (h : K) (Ks : ℕ → V) (s : ℕ) : V := h • ∑ j ∈ range s, T.Az s j • Ks j

/-- The loop `for s in range(1, n_stages)` (`common.py:2049-2063`); first argument the stages left. -/
def stages (c : ECfg K V) (t : K) (y : V) (h : K) (F : Fact K V) (sc : Option K) (curJ : Bool)
    (hLU : Option K) : ℕ → ℕ → Stages K V → Option (Stages K V)
  | 0, _, a => some a
  | m + 1, s, a =>
    let psi := ePsi c.T y h a.Ks s
    match solveStage c ⟨t + c.T.C s * h, h, psi, y, F, sc, curJ, hLU⟩ (ePredict c.T h a.Ks s) with
    | none => none
    | some o =>
      let a' : Stages K V := { converged := o.converged, psi := psi, z := o.z, Ks := a.Ks,
                               rate := rmax a.rate o.rate, niter := max a.niter o.niter,
                               evals := a.evals + o.evals }
      if o.converged then
        stages c t y h F sc curJ hLU m (s + 1) { a' with Ks := Function.update a.Ks s (h⁻¹ • o.z) }
      else some a'

/-- All stages of an attempt (`common.py:2047-2063`); `K[0]` has been set before (`common.py:2015`). -/
def attempt (c : ECfg K V) (t : K) (y : V) (h : K) (F : Fact K V) (sc : Option K) (curJ : Bool)
    (hLU : Option K) (Ks : ℕ → V) : Option (Stages K V) :=
  stages c t y h F sc curJ hLU (c.T.n - 1) 1
    { converged := true, psi := y, z := 0, Ks := Ks, rate := none, niter := 0, evals := 0 }

/-- Factor for the step size after a failed iteration (`common.py:2073-2074`):
`max(MIN_FACTOR, min(MAX_RATE/Rate, MAX_FACTOR_NRF))`; a rate of `-inf` gives `-0.0`, a rate of zero
`inf`. -/
def newtonFactor (rate : Option K) : K :=
  match rate with
  | none => 1 / 5
  | some r => if r = 0 then 1 / 2 else max (1 / 5) (min ((1 / 5) / r) (1 / 2))

/-- `_assess_error_and_stepsize` for an accepted step (`common.py:2131-2153`), before the limits of
lines 2150-2152: the factor and `standard_sc`; `none` if an undefined attribute would be read. -/
def eAcceptFactor (c : ECfg K V) (s : ESt K V) (hAbs x : K) : Option (K × Bool) :=
  if x < c.tinyErr then some (s.maxFactor, true)
  else if s.stdSc then
    some (min (c.safety * c.pw x c.errExp) s.maxFactor, if s.maxFactor = MAX_FACTOR then false else s.stdSc)
  else
    match s.hPrev, s.errOld with
    | some hp, some eo =>
      let hRatio := hAbs * c.dir / hp
      let factor := c.safetySc * (c.pw x c.minbeta1 * c.pw eo c.minbeta2 * c.pw hRatio c.minalpha)
      some (max c.minFactor (min factor s.maxFactor), s.stdSc)
    | _, _ => none

/-- Factor of a rejected step (`common.py:2154-2158`); `inf ** negative` is zero. (`nan` is treated
separately.) -/
def eRejectFactor (c : ECfg K V) : ENorm K → K
  | .num x => max (c.safety * c.pw x c.errExp) c.minFactor
  | .inf => max 0 c.minFactor
  | .nan => c.minFactor

/-- `if factor < MAX_FACTOR: self.max_factor = MAX_FACTOR` (`common.py:2160-2162`). -/
def newMaxFactor (s : ESt K V) (factor : K) : K := if factor < MAX_FACTOR then MAX_FACTOR else s.maxFactor

/-- Local variables of the `while` loop (`common.py:2019-2025`). -/
structure LSt (K V : Type*) [Semiring K] [AddCommMonoid V] [Module K V] where
  s : ESt K V
  hAbs : K
  LU : Option (Fact K V)
  sc : Option K
  rej : Bool

/-- One pass of the loop: the step ends, or the loop is continued. -/
inductive Iter (K V : Type*) [Semiring K] [AddCommMonoid V] [Module K V] where
  | done (o : EOut) (s : ESt K V)
  | again (l : LSt K V)

/-- Are new LU factors made (`common.py:2031-2032`)? -/
def refactor (c : ECfg K V) (l : LSt K V) (h : K) : Bool :=
  l.LU.isNone || c.jacEach || (c.linear && decide (l.s.hLU ≠ some h))

/-- The factors, the scaling and the solver after `common.py:2031-2044`. -/
def factors (c : ECfg K V) (l : LSt K V) (h : K) : Fact K V × Option K × ESt K V :=
  if refactor c l h then
    (⟨h, l.s.J⟩, if c.dae then some h else l.sc, { l.s with hLU := some h, nlu := l.s.nlu + 1 })
  else (l.LU.getD ⟨h, l.s.J⟩, l.sc, l.s)

/-- The branch taken when an iteration has not converged (`common.py:2065-2080`). -/
def afterFailure (c : ECfg K V) (l : LSt K V) (sc : Option K) (s : ESt K V) : Iter K V :=
  if s.curJ = false then
    match c.jac with
    | none => .done (.exc .typeErr) s
    | some jac =>
      .again { s := { s with J := jac s.njev s.t s.y, curJ := true, njev := s.njev + 1 },
               hAbs := l.hAbs, LU := none, sc := sc, rej := l.rej }
  else
    .again { s := { s with stdSc := true }, hAbs := l.hAbs * newtonFactor s.rate, LU := none, sc := sc,
             rej := true }

/-- The error estimate (`common.py:2087-2089`). -/
def eError (c : ECfg K V) (h : K) (F : Fact K V) (sc : Option K) (Ks : ℕ → V) : V :=
  let err := h • ∑ j ∈ range c.T.n, c.T.E j • Ks j
  if c.T.filter then c.M (c.lin sc F err) else err

/-- The state after an accepted step (`common.py:2096-2111`). -/
def eAccept (c : ECfg K V) (s : ESt K V) (h hNext x : K) (yNew : V) (F : Fact K V) (sc : Option K) : ESt K V :=
  { s with yOld := some s.y, yp := s.Ks (c.T.n - 1), errOld := some x, hPrev := some h, hAbs := hNext,
           LU := some F, sc := sc, curJ := c.linear, t := s.t + h, y := yNew }

/-- An accepted step: `common.py:2131-2153, 2160-2166` and `common.py:2096-2111`. -/
def eAccepted (c : ECfg K V) (l : LSt K V) (h : K) (F : Fact K V) (sc : Option K) (s : ESt K V) (yNew : V)
    (x : K) : Iter K V :=
  match eAcceptFactor c s l.hAbs x with
  | none => .done (.exc .typeErr) s
  | some (f0, std) =>
    let factor := if l.rej then min 1 f0 else f0
    let s' := { s with stdSc := if l.rej then true else std, maxFactor := newMaxFactor s factor }
    .done .ok (eAccept c s' h (l.hAbs * factor) x yNew F sc)

/-- A rejected step: `common.py:2090-2094, 2154-2166`. -/
def eRejected (c : ECfg K V) (l : LSt K V) (F : Fact K V) (sc : Option K) (s : ESt K V) (e : ENorm K) :
    Iter K V :=
  .again { s := { s with nfs := s.nfs + 1, stdSc := true, maxFactor := newMaxFactor s (eRejectFactor c e) },
           hAbs := l.hAbs * eRejectFactor c e, LU := some F, sc := sc, rej := true }

/-- The branch taken when all iterations have converged (`common.py:2082-2111, 2129-2166`). -/
def afterStages (c : ECfg K V) (l : LSt K V) (h : K) (F : Fact K V) (sc : Option K) (s : ESt K V) (yNew : V) :
    Iter K V :=
  match c.errNorm s.y yNew (eError c h F sc s.Ks) with
  | .nan => .done (.exc .nanErr) { s with nfs := s.nfs + 1, stdSc := true }
  | .inf => eRejected c l F sc s .inf
  | .num x => if x < 1 then eAccepted c l h F sc s yNew x else eRejected c l F sc s (.num x)

/-- One pass of the `while` loop (`common.py:2025-2094`). -/
def eIter (c : ECfg K V) (minStep : K) (l : LSt K V) : Iter K V :=
  if l.hAbs < minStep then .done .tooSmall l.s
  else
    let h := l.hAbs * c.dir
    let F := (factors c l h).1
    let sc := (factors c l h).2.1
    let s1 := (factors c l h).2.2
    match attempt c s1.t s1.y h F sc s1.curJ s1.hLU s1.Ks with
    | none => .done (.exc .assertErr) s1
    | some a =>
      let s2 := { s1 with Ks := a.Ks, rate := a.rate, niter := a.niter, nfev := s1.nfev + a.evals }
      if a.converged then afterStages c l h F sc s2 (a.psi + c.T.d • a.z)
      else afterFailure c l sc { s2 with nfi := s2.nfi + 1 }

/-- The loop, with fuel: `none` is still running. -/
def eLoop (c : ECfg K V) (minStep : K) : ℕ → LSt K V → Option (EOut × ESt K V)
  | 0, _ => none
  | n + 1, l =>
    match eIter c minStep l with
    | .done o s => some (o, s)
    | .again l' => eLoop c minStep n l'

/-- The branch `Rate > 0` of `_preemptive_lu_and_jac` (`common.py:2117-2127`). -/
def preemptRate (c : ECfg K V) (s : ESt K V) (hAbs r hp hl : K) : Option (ESt K V) :=
  let h := hAbs * c.dir
  let ratePredict := r * (h / hp)
  let ratePredictLU := |h / hl - 1|
  let ratePredictJAC := ratePredict - ratePredictLU
  if 2 < s.niter ∧ 1 / 5 < ratePredictJAC then
    match c.jac with
    | none => none
    | some jac => some { s with J := jac s.njev s.t s.y, njev := s.njev + 1, LU := none }
  else if 1 / 5 < ratePredictLU then some { s with LU := none }
  else some s

/-- `_preemptive_lu_and_jac` (`common.py:2110-2127`); `none` is arithmetic on `None` or a call of a missing
Jacobian function. -/
def preemptive (c : ECfg K V) (s : ESt K V) (hAbs : K) : Option (ESt K V) :=
  if c.jacEach ∧ s.curJ = false then
    match c.jac with
    | none => none
    | some jac => some { s with J := jac s.njev s.t s.y, njev := s.njev + 1, curJ := true, LU := none }
  else
    match s.rate with
    | none => some s
    | some r =>
      if 0 < r then
        match s.hPrev, s.hLU with
        | some hp, some hl => preemptRate c s hAbs r hp hl
        | _, _ => none
      else some s

/-- `ESDIRK._step_impl` (`common.py:2008-2111`). -/
def eStepImpl (c : ECfg K V) (fuel : ℕ) (s : ESt K V) : Option (EOut × ESt K V) :=
  let r := eReassess c s.t s.hAbs s.stdSc
  let s1 := { s with stdSc := r.2.2, Ks := Function.update s.Ks 0 s.yp }
  match preemptive c s1 r.1 with
  | none => some (.exc .typeErr, s1)
  | some s2 => eLoop c r.2.1 fuel { s := s2, hAbs := r.1, LU := s2.LU, sc := s2.sc, rej := false }

/-- An ESDIRK solver object. -/
structure ESolver (K V : Type*) [Semiring K] [AddCommMonoid V] [Module K V] where
  status : Status
  tOld : Option K
  st : ESt K V

/-- `direction * (t - t_bound) >= 0`. -/
def eReached (c : ECfg K V) (t : K) : Bool :=
  match c.tb with
  | none => false
  | some b => decide (0 ≤ c.dir * (t - b))

/-- scipy's `OdeSolver.step` (as for the explicit family). -/
def eStep (c : ECfg K V) (fuel : ℕ) (v : ESolver K V) : Option (EOut × ESolver K V) :=
  match v.status with
  | .running =>
    if c.tb = some v.st.t then some (.ok, { v with tOld := some v.st.t, status := .finished })
    else
      match eStepImpl c fuel v.st with
      | none => none
      | some (.ok, s') =>
        some (.ok, { status := if eReached c s'.t then .finished else .running,
                     tOld := some v.st.t, st := s' })
      | some (.tooSmall, s') => some (.tooSmall, { v with status := .failed, st := s' })
      | some (.exc e, s') => some (.exc e, { v with st := s' })
  | _ => some (.exc .runtimeErr, v)

/-- Reachable by any number of returning `step()` calls, where the program does not continue after the
linear algebra has raised an error for a step size of nan. -/
inductive EReach (c : ECfg K V) (v0 : ESolver K V) : ESolver K V → Prop
  | refl : EReach c v0 v0
  | tail {v v' : ESolver K V} {o : EOut} {fuel : ℕ} :
      EReach c v0 v → eStep c fuel v = some (o, v') → o ≠ .exc .nanErr → EReach c v0 v'

/-- A new solver (`common.py:1922-2006`): `y0`, `yp0`, `J0` after the (external) initialisation, first step
`h0`. -/
def newESolver (t0 : K) (y0 yp0 : V) (J0 : V →ₗ[K] V) (h0 : K) (Ks0 : ℕ → V) (nfev njev : ℕ) :
    ESolver K V where
  status := .running
  tOld := none
  st := { t := t0, y := y0, yp := yp0, hAbs := h0, maxFactor := MAX_FACTOR0, stdSc := true, hPrev := none,
          errOld := none, yOld := none, Ks := Ks0, J := J0, curJ := true, LU := none, hLU := none,
          sc := none, rate := none, niter := 0, nfs := 0, nfi := 0, nfev := nfev, njev := njev, nlu := 0 }

end
end Extensisq
