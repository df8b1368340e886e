import Verif.Model.Num
import Mathlib.Algebra.Module.Defs
import Mathlib.Algebra.BigOperators.Group.Finset.Basic

/-!
# The driver of the explicit Runge-Kutta family

Models `RungeKutta._step_impl`, `RungeKutta._reassess_stepsize`, `RungeKutta._diagnose_stiffness`
(book-keeping part) of `/repo/extensisq/common.py`, and scipy's `OdeSolver.step` on top of it.

`K` are the numbers, `V` the solution vectors, `W` the rows of the stage array `self.K`
(`W = V` for Runge-Kutta, accelerations only for Nystrom methods).
-/

namespace Extensisq

/-- Ways in which a step can raise or fail.
`tooSmall` is scipy's `OdeSolver.TOO_SMALL_STEP` message, `overflow` the message of `common.py:288`.
`zeroDiv` is Python's `ZeroDivisionError`, `typeErr` the error of arithmetic on `None` / a missing
attribute. -/
inductive Msg where
  | tooSmall
  | overflow
  deriving DecidableEq, Repr

inductive Exc where
  | zeroDiv
  | typeErr
  | runtimeErr
  deriving DecidableEq, Repr

/-- Outcome of `_step_impl`: `(True, None)`, `(False, message)` or a raised exception. -/
inductive Out where
  | ok
  | fail (m : Msg)
  | exc (e : Exc)
  deriving DecidableEq, Repr

/-- What one attempt of a step computes (`common.py:241-247`): the stage array, the proposed
solution and the error norm. `pre` is the preliminary error norm of `BS5` and `CFMR7osc`
(`bogacki.py:263`, `calvo.py:175`), zero for the other methods, and `preStages` the stage array at
that moment. -/
structure Trial (K V W : Type*) where
  stages : ℕ → W
  yNew : V
  err : ENorm K
  pre : ENorm K
  preStages : ℕ → W

/-- The method dependent part of the driver.
* `nStages`, `fsal`: `self.n_stages`, `self.FSAL` (`common.py:217`);
* `trial t y f h Ks`: stages, solution and error norm of an attempt with signed step `h`
  starting from the stage array `Ks` (`common.py:241-247`);
* `rhs t y`: `self.fun`;
* `costPre`: evaluations of an attempt rejected by the preliminary error norm;
* `nfsOverflow`: is an attempt with non-finite error norm counted as failed (1, `common.py:283-288`,
  `calvo.py:230-234`) or not (0, `bogacki.py:313-322`). -/
structure Method (K V W : Type*) where
  nStages : ℕ
  fsal : Bool
  costPre : ℕ
  nfsOverflow : ℕ
  rhs : K → V → W
  trial : K → V → W → K → (ℕ → W) → Trial K V W

/-- Fields of a solver object which do not change after construction (`common.py:187-220`).
`tb = none` is an infinite `t_bound`, `maxStep = none` is `max_step = inf`. -/
structure Cfg (K V W : Type*) where
  m : Method K V W
  tb : Option K
  dir : K
  maxStep : Option K
  hMinA : K
  hMinB : K
  tinyErr : K
  minFactor : K
  errExp : K
  minbeta1 : K
  minbeta2 : K
  minalpha : K
  safety : K
  safetySc : K
  pw : K → K → K
  /-- `self.nfev_stiff_detect` after `_init_stiffness_detection` (0 = disabled) -/
  nfevStiff : ℕ
  /-- number of evaluations of `fun` by the stiffness test (`stiff_a`), when it is run in a state -/
  stiffEvals : K → V → ℕ := fun _ _ => 0

/-- Mutable fields of a solver object used by the driver. `tOld`, `hPrev`, `errOld`, `fOld`,
`yOld` are `none` before the first successful step (`common.py:218-219`; `f_old` and
`error_norm_old` do not exist then). `nfs` is the global counter `NFS` (`common.py:14`). -/
structure St (K V W : Type*) where
  t : K
  y : V
  f : W
  hAbs : K
  maxFactor : K
  stdSc : Bool
  hPrev : Option K
  errOld : Option K
  yOld : Option V
  fOld : Option W
  Ks : ℕ → W
  nfev : ℕ
  nfevTest : ℕ
  nfs : ℕ
  jflstp : ℕ
  okstp : ℕ
  havg : K

section
variable {K V W : Type*} [Field K] [LinearOrder K]

/-- `MAX_FACTOR` (`common.py:19`) and `MAX_FACTOR0` (`common.py:20`). -/
def MAX_FACTOR : K := 4
def MAX_FACTOR0 : K := 10

/-- `min(self.max_step, x)` with `max_step` possibly infinite. -/
def capMax (m : Option K) (x : K) : K :=
  match m with
  | none => x
  | some b => min b x

/-- `x > self.max_step` with `max_step` possibly infinite. -/
def overMax (m : Option K) (x : K) : Bool :=
  match m with
  | none => false
  | some b => decide (b < x)

/-- `min_step` (`common.py:313`). -/
def minStepOf (c : Cfg K V W) (t h : K) : K := max (c.hMinA * (|t| + h)) c.hMinB

/-- `RungeKutta._reassess_stepsize` (`common.py:310-331`): returns `h_abs`, `min_step` and the new
value of `self.standard_sc`. -/
def reassess (c : Cfg K V W) (s : St K V W) : K × K × Bool :=
  let h0 := s.hAbs
  let minStep := minStepOf c s.t h0
  let clip := decide (h0 < minStep) || overMax c.maxStep h0
  let h1 := if clip then capMax c.maxStep (max minStep h0) else h0
  let std1 := if clip then true else s.stdSc
  match c.tb with
  | none => (h1, minStep, std1)            -- d = inf
  | some b =>
    let d := |b - s.t|
    if d < 2 * h1 then
      if d > h1 then (max (d / 2) minStep, minStep, true)
      else (d, minStep, std1)
    else (h1, minStep, std1)

/-- The step size factor after an accepted attempt (`common.py:254-272`): returns the factor
(before the `step_rejected` limit) and the new `self.standard_sc`; `none` if an undefined
attribute would be read. `x` is the error norm, `h` the signed step. -/
def acceptFactor (c : Cfg K V W) (s : St K V W) (h x : K) : Option (K × Bool) :=
  if x < c.tinyErr then some (s.maxFactor, true)
  else if s.stdSc then some (c.safety * c.pw x c.errExp, false)
  else
    match s.hPrev, s.errOld with
    | some hp, some eo =>
      let hRatio := h / hp
      let factor := c.safetySc * (c.pw x c.minbeta1 * c.pw eo c.minbeta2 * c.pw hRatio c.minalpha)
      some (min s.maxFactor (max c.minFactor factor), false)
    | _, _ => none

/-- Factor of a retry, `max(min_factor, safety * error_norm ** error_exponent)` (`common.py:280-281`,
`bogacki.py:268-270`); `inf ** negative` is zero. (`nan` does not occur here.) -/
def retryFactor (c : Cfg K V W) : ENorm K → K
  | .num x => max c.minFactor (c.safety * c.pw x c.errExp)
  | .inf => max c.minFactor 0
  | .nan => c.minFactor

/-- Book-keeping of `_diagnose_stiffness` (`common.py:381-407`, same code `common.py:1334-1360`):
`none` is the `ZeroDivisionError` of `okstp % many_steps` with `many_steps = 0`. The stiffness test
itself (`stiff_a`, warnings) is represented only by the flag telling whether it is run and the
evaluations it makes. -/
def diagnose (c : Cfg K V W) (s : St K V W) : Option (St K V W × Bool) :=
  if c.nfevStiff = 0 then some (s, false)
  else
    let ok := s.okstp + 1
    let h := s.hPrev.getD 0
    let havg1 := (9 / 10) * s.havg + (1 / 10) * h
    let havg2 := if ok = 20 then h else havg1
    let jfl1 := if ok = 20 then 0 else s.jflstp
    let lotsfl := decide (ok % 40 = 39) && decide (10 ≤ jfl1)
    let jfl2 := if ok % 40 = 39 then 0 else jfl1
    let many := c.nfevStiff / c.m.nStages
    if many = 0 then none
    else
      let toomch := decide (ok % many = many - 1)
      some ({ s with okstp := ok, havg := havg2, jflstp := jfl2,
                     nfevTest := s.nfevTest + if toomch || lotsfl then c.stiffEvals s.t s.y else 0 },
        toomch || lotsfl)

/-- State when the `ZeroDivisionError` of `diagnose` is raised: counters already updated. -/
def diagnoseRaise (s : St K V W) : St K V W :=
  let ok := s.okstp + 1
  let h := s.hPrev.getD 0
  let havg1 := (9 / 10) * s.havg + (1 / 10) * h
  let havg2 := if ok = 20 then h else havg1
  let jfl1 := if ok = 20 then 0 else s.jflstp
  let jfl2 := if ok % 40 = 39 then 0 else jfl1
  { s with okstp := ok, havg := havg2, jflstp := jfl2 }

/-- Number of evaluations of `fun` in one attempt (`common.py:242-247, 346-348`). -/
def Method.cost (m : Method K V W) : ℕ := (m.nStages - 1) + (if m.fsal then 1 else 0)

/-- State after an accepted attempt, before stiffness detection (`common.py:290-305`).
`tr` is the attempt, `h` the signed step, `hNext` the new `h_abs`, `x` the error norm. -/
def acceptState (c : Cfg K V W) (s : St K V W) (tr : Trial K V W) (h hNext x factor : K)
    (std : Bool) : St K V W :=
  let tNew := s.t + h
  let Ks := if c.m.fsal then tr.stages
            else Function.update tr.stages c.m.nStages (c.m.rhs (s.t + h) tr.yNew)
  { s with
    t := tNew, y := tr.yNew, f := Ks c.m.nStages, hAbs := hNext,
    maxFactor := if factor < MAX_FACTOR then MAX_FACTOR else s.maxFactor,
    stdSc := std, hPrev := some h, errOld := some x, yOld := some s.y, fOld := some s.f,
    Ks := Ks, nfev := s.nfev + c.m.cost + (if c.m.fsal then 0 else 1) }

/-- The `while not step_accepted` loop of `RungeKutta._step_impl` (`common.py:231-288`) followed
by the final part of the method (`common.py:290-308`), with the preliminary rejection of
`BS5._step_impl` (`bogacki.py:238-337`) and `CFMR7osc._step_impl` (`calvo.py:152-253`), which is never
taken by the other methods.  `none`: fuel exhausted (still looping). -/
def loop (c : Cfg K V W) : ℕ → St K V W → K → K → Bool → Option (Out × St K V W)
  | 0, _, _, _, _ => none
  | n + 1, s, hAbs, minStep, rej =>
    if hAbs < minStep then some (.fail .tooSmall, s)
    else
      let h := hAbs * c.dir
      let tr := c.m.trial s.t s.y s.f h s.Ks
      if tr.pre.gt 1 then
        loop c n { s with Ks := tr.preStages, nfev := s.nfev + c.m.costPre, nfs := s.nfs + 1,
                          jflstp := s.jflstp + (if c.nfevStiff = 0 then 0 else 1) }
          (hAbs * retryFactor c tr.pre) minStep true
      else
      match tr.err with
      | .num x =>
        if x < 1 then
          match acceptFactor c s h x with
          | none => some (.exc .typeErr, { s with Ks := tr.stages, nfev := s.nfev + c.m.cost })
          | some (f0, std) =>
            let factor := if rej then min 1 f0 else f0
            let s1 := acceptState c s tr h (hAbs * factor) x factor std
            match diagnose c s1 with
            | none => some (.exc .zeroDiv, diagnoseRaise s1)
            | some (s2, _) => some (.ok, s2)
        else
          loop c n { s with Ks := tr.stages, nfev := s.nfev + c.m.cost, nfs := s.nfs + 1,
                            jflstp := s.jflstp + 1 }
            (hAbs * retryFactor c (.num x)) minStep true
      | _ =>      -- inf or nan: rejected and reported
        some (.fail .overflow, { s with Ks := tr.stages, nfev := s.nfev + c.m.cost,
                                        nfs := s.nfs + c.m.nfsOverflow,
                                        jflstp := s.jflstp + c.m.nfsOverflow })

/-- `RungeKutta._step_impl` (`common.py:222-308`). -/
def stepImpl (c : Cfg K V W) (fuel : ℕ) (s : St K V W) : Option (Out × St K V W) :=
  loop c fuel { s with stdSc := (reassess c s).2.2 } (reassess c s).1 (reassess c s).2.1 false

end

/-! ### scipy's `OdeSolver.step` (external, from its documented contract) -/

inductive Status where
  | running | finished | failed
  deriving DecidableEq, Repr

/-- A solver object: status, the `t_old` attribute and the driver state. -/
structure Solver (K V W : Type*) where
  status : Status
  tOld : Option K
  st : St K V W

section
variable {K V W : Type*} [Field K] [LinearOrder K]

/-- `direction * (t - t_bound) >= 0`; never true for an infinite `t_bound`. -/
def reached (c : Cfg K V W) (t : K) : Bool :=
  match c.tb with
  | none => false
  | some b => decide (0 ≤ c.dir * (t - b))

/-- scipy `OdeSolver.step` with `_step_impl` of the Runge-Kutta family (`n > 0`):
* not running: `RuntimeError`, nothing changes;
* `t == t_bound`: finished at once, without a step;
* otherwise `_step_impl`; failure sets `failed`; success sets `t_old` and possibly `finished`;
* an exception leaves the status.
`none`: the call did not return within the fuel. -/
def step (c : Cfg K V W) (fuel : ℕ) (v : Solver K V W) : Option (Out × Solver K V W) :=
  match v.status with
  | .running =>
    if c.tb = some v.st.t then
      some (.ok, { v with tOld := some v.st.t, status := .finished })
    else
      match stepImpl c fuel v.st with
      | none => none
      | some (.ok, s') =>
        some (.ok, { status := if reached c s'.t then .finished else .running,
                     tOld := some v.st.t, st := s' })
      | some (.fail m, s') => some (.fail m, { v with status := .failed, st := s' })
      | some (.exc e, s') => some (.exc e, { v with st := s' })
  | _ => some (.exc .runtimeErr, v)

/-- Reachable by any number of returning `step()` calls. -/
inductive Reach (c : Cfg K V W) (v0 : Solver K V W) : Solver K V W → Prop
  | refl : Reach c v0 v0
  | tail {v v' : Solver K V W} {o : Out} {fuel : ℕ} :
      Reach c v0 v → step c fuel v = some (o, v') → Reach c v0 v'

end
end Extensisq
