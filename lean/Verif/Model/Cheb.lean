import Verif.Model.Num
import Mathlib.Algebra.Module.Defs
import Mathlib.Algebra.Order.Floor.Defs
import Mathlib.Data.Nat.Sqrt
import Mathlib.Analysis.SpecialFunctions.Trigonometric.Deriv
import Mathlib.Analysis.SpecialFunctions.Log.Basic

/-!
# SSV2stab: the stabilised Runge-Kutta-Chebyshev method

Models `/repo/extensisq/sommeijer.py`: the driver `SSV2stab._step_impl`, the initial step size, the
stages `SSV2stab._stages` and the spectral radius estimator `SSV2stab._rho`.
-/

namespace Extensisq

/-- Failure messages and exceptions of `SSV2stab._step_impl`:
`rhoFailed` (`sommeijer.py:179-182`), `overflow` (`:228`), `tooSmall` (`:232`);
`domain` is Python's `math domain error` (square root of a negative number, `:192`),
`attribute` reading an attribute that does not exist yet, `notRunning` scipy's `RuntimeError`. -/
inductive ChebOut where
  | ok
  | rhoFailed
  | overflow
  | tooSmall
  | domain
  | attribute
  | notRunning
  deriving DecidableEq, Repr

/-- Result of one spectral radius estimation: `spr = none` is a convergence failure. `evals` counts the
evaluations of `fun_single`, `vec` is the stored eigenvector approximation `self.V` afterwards. -/
structure RhoOut (K V : Type*) where
  spr : Option K
  evals : ℕ
  vec : Option V

/-- Fields of a solver which do not change after construction (`sommeijer.py:93-145`).
* `rhs`: `self.fun`;
* `stg t yn fn h m`: the result of `_stages` (see `rkcStages`);
* `tb = none`: infinite `t_bound`; `maxStep`: `self.max_step` after `sommeijer.py:140-141` (always finite);
* `hmin0`: `self.hmin` (`sommeijer.py:142-145`);
* `errNorm est y yn`: the norm of the scaled error estimate (`sommeijer.py:218-220`);
* `est0 x yn`: `norm(x / (atol + rtol*|yn|))` (`sommeijer.py:154-155`);
* `rhoJac`: the user's function, `none` if not given; `rho t yn fn V`: `_rho` (see `rhoEst`). -/
structure ChebCfg (K V : Type*) where
  rhs : K → V → V
  stg : K → V → V → K → ℕ → V
  tb : Option K
  dir : K
  maxStep : K
  hmin0 : K
  sqrtmin : K
  uround : K
  mmax : ℕ
  constJac : Bool
  rhoJac : Option (K → V → K)
  rho : K → V → V → Option V → RhoOut K V
  errNorm : V → V → V → ENorm K
  est0 : V → V → ENorm K
  pw : K → K → K
  sqrt : K → K

/-- Ghost record of one call of `_stages`: the arguments, the spectral radius used, the minimal step of
the attempt, the point where that spectral radius was estimated and the number of steps accepted since. -/
structure StageCall (K V : Type*) where
  t : K
  y : V
  h : K
  m : ℕ
  sprad : K
  hmin : K
  estT : K
  estY : V
  age : ℕ

/-- Mutable fields (`sommeijer.py:93-145`): `yn`, `fn` are the rows 0 and 1 of `self.W`, `prev` the rows 2
and 3 (previous solution and derivative; `none` while they hold scratch data). `nrej`, `nfesig`, `maxm`
are the global counters. `sprad`, `errold` do not exist before they are first assigned.
Ghost fields, which nothing reads: `calls` (the calls of `_stages`, latest first), `est` (where
`sprad` was last estimated), `age` (accepted steps since), `nest` (number of estimations), `rhos` (the
arguments of the calls of `_rho`, latest first), `warned` (number of stiffness warnings). -/
structure ChebSt (K V : Type*) where
  t : K
  yn : V
  fn : V
  prev : Option (V × V)
  absh : Option K
  hold : Option K
  errold : Option K
  sprad : Option K
  vec : Option V
  newspc : Bool
  jacatt : Bool
  nstsig : ℕ
  mlim : ℕ
  nrej : ℕ
  nfesig : ℕ
  maxm : ℕ
  nfev : ℕ
  calls : List (StageCall K V)
  est : Option (K × V)
  age : ℕ
  nest : ℕ
  rhos : List (K × V × V × Option V)
  warned : ℕ

section
variable {K V : Type*} [Field K] [LinearOrder K] [FloorSemiring K] [AddCommGroup V] [Module K V]

/-- `m = 1 + int(sqrt(1.54 * absh * self.sprad + 1.0))` (`sommeijer.py:192`); the integer part of the
square root is `Nat.sqrt` of the integer part (`chebM_real`). -/
def chebM (absh sprad : K) : ℕ := 1 + Nat.sqrt ⌊77 / 50 * absh * sprad + 1⌋₊

/-- `_init_step_size` (`sommeijer.py:147-160`). The evaluation is made at `t + absh` whatever the
direction of integration. -/
def chebInit (c : ChebCfg K V) (t : K) (yn fn : V) (sprad : K) : K :=
  let a0 := c.maxStep
  let a1 := if sprad * a0 > 1 then 1 / sprad else a0
  let a2 := max a1 c.hmin0
  match c.est0 (a2 • (c.rhs (t + a2) (yn + a2 • fn) - fn)) yn with
  | .num e => if 1 / 10 * a2 < c.maxStep * c.sqrt e then max (1 / 10 * a2 / c.sqrt e) c.hmin0
              else c.maxStep
  | .inf => c.hmin0                 -- `0.1*absh/inf` is zero
  | .nan => c.maxStep               -- the comparison is false

/-- Last step onto `t_bound` (`sommeijer.py:190-191`). -/
def chebFit (tb : Option K) (t absh : K) : K :=
  match tb with
  | none => absh
  | some b => if 11 / 10 * absh ≥ |b - t| then |b - t| else absh

/-- Step size and number of stages (`sommeijer.py:192-197`). -/
def chebChoose (mmax : ℕ) (absh sprad : K) : K × ℕ :=
  if mmax < chebM absh sprad then (((mmax : K) ^ 2 - 1) / (77 / 50 * sprad), mmax)
  else (absh, chebM absh sprad)

/-- The minimal step of an attempt (`sommeijer.py:211-212`). -/
def chebHmin (c : ChebCfg K V) (t absh : K) (m : ℕ) : K :=
  max c.sqrtmin (133 / 10 * c.uround * (|t| + absh) * ((m : K) ^ 2 - 1))

/-- Estimation of the spectral radius if `self.newspc` (`sommeijer.py:174-183`). -/
def chebSpectral (c : ChebCfg K V) (s : ChebSt K V) : Option (ChebSt K V) :=
  if s.newspc then
    match c.rhoJac with
    | some r => some { s with sprad := some (r s.t s.yn), jacatt := true, est := some (s.t, s.yn),
                              age := 0, nest := s.nest + 1 }
    | none =>
      match (c.rho s.t s.yn s.fn s.vec).spr with
      | none => none
      | some x => some { s with
          sprad := some x, jacatt := true, vec := (c.rho s.t s.yn s.fn s.vec).vec,
          nfesig := s.nfesig + (c.rho s.t s.yn s.fn s.vec).evals, est := some (s.t, s.yn),
          age := 0, nest := s.nest + 1, rhos := (s.t, s.yn, s.fn, s.vec) :: s.rhos }
  else some s

/-- The state after a failed estimation (`sommeijer.py:179-182`): the evaluations are counted, `self.V` may have
been initialised, and the rows 2 and 3 of `self.W` hold scratch data. -/
def chebRhoFailed (c : ChebCfg K V) (s : ChebSt K V) : ChebSt K V :=
  { s with prev := none, vec := (c.rho s.t s.yn s.fn s.vec).vec,
           nfesig := s.nfesig + (c.rho s.t s.yn s.fn s.vec).evals,
           rhos := (s.t, s.yn, s.fn, s.vec) :: s.rhos }

/-- The factor for the next step (`sommeijer.py:252-262`), before `max(0.1, fac)`; `none` if an undefined
attribute is read. `absh` is the size of the accepted step, `x` its error norm. -/
def chebFac (c : ChebCfg K V) (s : ChebSt K V) (absh x : K) : Option K :=
  match s.hold with
  | none => some (if 4 / 5 < 10 * c.pw x (1 / 3) then 4 / 5 / c.pw x (1 / 3) else 10)
  | some hp =>
    match s.errold with
    | none => none
    | some eo => some (
        if 4 / 5 * absh * c.pw eo (1 / 3) < 10 * (|hp| * c.pw x (2 / 3)) then
          4 / 5 * absh * c.pw eo (1 / 3) / (|hp| * c.pw x (2 / 3))
        else 10)

/-- After an accepted step (`sommeijer.py:237-270`): `h` the signed step, `absh` its size, `y`, `fy` the
new solution and its derivative, `x` the error norm, `fac` the factor of `chebFac`. -/
def chebAccept (c : ChebCfg K V) (s : ChebSt K V) (h absh hmin : K) (y fy : V) (x fac : K) : ChebSt K V :=
  { s with
    t := s.t + h, yn := y, fn := fy, prev := some (s.yn, s.fn),
    jacatt := c.constJac, nstsig := (s.nstsig + 1) % 25,
    newspc := (c.rhoJac.isSome || decide ((s.nstsig + 1) % 25 = 0)) && !c.constJac,
    absh := some (max hmin (min c.maxStep (max (1 / 10) fac * absh))),
    errold := some x, hold := some h, age := s.age + 1 }

/-- Result of one pass through the loop of `_step_impl`. -/
inductive ChebIter (K V : Type*) where
  | retry (s : ChebSt K V) (absh : K)
  | done (o : ChebOut) (s : ChebSt K V)

/-- The attempt of one pass, with given step and number of stages (`sommeijer.py:204-235`). -/
def chebAttempt (c : ChebCfg K V) (s : ChebSt K V) (absh sprad : K) (m : ℕ) : ChebIter K V :=
  let h := c.dir * absh
  let hmin := chebHmin c s.t absh m
  let y := c.stg s.t s.yn s.fn h m
  let fy := c.rhs (s.t + h) y
  let s1 := { s with
    maxm := max m s.maxm, nfev := s.nfev + m, prev := none,
    calls := ⟨s.t, s.yn, h, m, sprad, hmin, (s.est.map (·.1)).getD s.t, (s.est.map (·.2)).getD s.yn,
              s.age⟩ :: s.calls }
  match c.errNorm ((4 / 5 : K) • (s.yn - y) + (2 / 5 * h) • (s.fn + fy)) y s.yn with
  | .num x =>
    if x < 1 then
      match chebFac c s absh x with
      | none => .done .attribute s1
      | some fac => .done .ok (chebAccept c s1 h absh hmin y fy x fac)
    else if 4 / 5 * absh / c.pw x (1 / 3) < hmin then .done .tooSmall { s1 with nrej := s1.nrej + 1 }
    else .retry { s1 with nrej := s1.nrej + 1, newspc := !s1.jacatt,
                          absh := some (4 / 5 * absh / c.pw x (1 / 3)) } (4 / 5 * absh / c.pw x (1 / 3))
  | _ => .done .overflow s1

/-- Step size, number of stages, stiffness warning and attempt (`sommeijer.py:189-235`), the spectral
radius and a tentative step size being known. -/
def chebTry (c : ChebCfg K V) (s : ChebSt K V) (absh sprad : K) : ChebIter K V :=
  let a1 := chebFit c.tb s.t absh
  if 77 / 50 * a1 * sprad + 1 < 0 then .done .domain s
  else
    let cut := decide (c.mmax < chebM a1 sprad)
    let mlim := if cut then s.mlim + 1 else 0
    chebAttempt c { s with mlim := mlim, warned := s.warned + if cut && decide (mlim = 15) then 1 else 0 }
      (chebChoose c.mmax a1 sprad).1 sprad (chebChoose c.mmax a1 sprad).2

/-- One pass through the loop of `_step_impl` (`sommeijer.py:172-235`), including what follows the loop
after an accepted step. `absh = none`: Python's `None`. -/
def chebIter (c : ChebCfg K V) (s : ChebSt K V) (absh : Option K) : ChebIter K V :=
  match chebSpectral c s with
  | none => .done .rhoFailed (chebRhoFailed c s)
  | some s1 =>
    match s1.sprad with
    | none => .done .attribute s1
    | some sp =>
      match absh with
      | some a => chebTry c s1 a sp
      | none => chebTry c { s1 with nfev := s1.nfev + 1 } (chebInit c s1.t s1.yn s1.fn sp) sp

/-- The loop. `none`: still running. -/
def chebLoop (c : ChebCfg K V) : ℕ → ChebSt K V → Option K → Option (ChebOut × ChebSt K V)
  | 0, _, _ => none
  | n + 1, s, absh =>
    match chebIter c s absh with
    | .done o s' => some (o, s')
    | .retry s' a => chebLoop c n s' (some a)

/-- `SSV2stab._step_impl` (`sommeijer.py:162-271`). -/
def chebStepImpl (c : ChebCfg K V) (fuel : ℕ) (s : ChebSt K V) : Option (ChebOut × ChebSt K V) :=
  chebLoop c fuel s s.absh

/-- `status` of scipy's `OdeSolver`. -/
inductive ChebStatus where
  | running | finished | failed
  deriving DecidableEq, Repr

/-- A solver object. -/
structure ChebSolver (K V : Type*) where
  status : ChebStatus
  tOld : Option K
  st : ChebSt K V

/-- scipy `OdeSolver.step` (external, see `Driver.step`). -/
def chebStep (c : ChebCfg K V) (fuel : ℕ) (v : ChebSolver K V) : Option (ChebOut × ChebSolver K V) :=
  match v.status with
  | .running =>
    if c.tb = some v.st.t then some (.ok, { v with tOld := some v.st.t, status := .finished })
    else
      match chebStepImpl c fuel v.st with
      | none => none
      | some (o, s') =>
        match o with
        | .ok => some (.ok, {
            status := match c.tb with
              | none => .running
              | some b => if 0 ≤ c.dir * (s'.t - b) then .finished else .running,
            tOld := some v.st.t, st := s' })
        | .rhoFailed => some (.rhoFailed, { v with status := .failed, st := s' })
        | .overflow => some (.overflow, { v with status := .failed, st := s' })
        | .tooSmall => some (.tooSmall, { v with status := .failed, st := s' })
        | o => some (o, { v with st := s' })
  | _ => some (.notRunning, v)

/-- Reachable by any number of returning `step()` calls. -/
inductive ChebReach (c : ChebCfg K V) (v0 : ChebSolver K V) : ChebSolver K V → Prop
  | refl : ChebReach c v0 v0
  | tail {v v' : ChebSolver K V} {o : ChebOut} {fuel : ℕ} :
      ChebReach c v0 v → chebStep c fuel v = some (o, v') → ChebReach c v0 v'

/-- A new solver (`sommeijer.py:93-145`): `first` is `first_step`. -/
def newCheb (c : ChebCfg K V) (t0 : K) (y0 : V) (first : Option K) : ChebSolver K V where
  status := .running
  tOld := none
  st := {
    t := t0, yn := y0, fn := c.rhs t0 y0, prev := none, absh := first, hold := none, errold := none,
    sprad := none, vec := none, newspc := true, jacatt := false, nstsig := 0, mlim := 0, nrej := 0,
    nfesig := 0, maxm := 0, nfev := 1, calls := [], est := none, age := 0, nest := 0, rhos := [], warned := 0 }

end

/-! ### The stages -/

section
variable {K V : Type*} [Field K] [AddCommGroup V] [Module K V]

/-- The variables of the stage loop of `_stages` (`sommeijer.py:273-329`). `thj`, `y` are the values
computed last (`yjm1`, `thjm1` before the first pass). -/
structure RkcSt (K V : Type*) where
  yjm1 : V
  yjm2 : V
  thjm1 : K
  thjm2 : K
  bjm1 : K
  bjm2 : K
  zjm1 : K
  zjm2 : K
  dzjm1 : K
  dzjm2 : K
  d2zjm1 : K
  d2zjm2 : K

/-- Before the loop (`sommeijer.py:283-297`). -/
def rkcInit (w0 w1 : K) (yn fn : V) (h : K) : RkcSt K V where
  yjm1 := yn + (h * (w1 * (1 / (2 * w0) ^ 2))) • fn
  yjm2 := yn
  thjm1 := w1 * (1 / (2 * w0) ^ 2)
  thjm2 := 0
  bjm1 := 1 / (2 * w0) ^ 2
  bjm2 := 1 / (2 * w0) ^ 2
  zjm1 := w0
  zjm2 := 1
  dzjm1 := 1
  dzjm2 := 0
  d2zjm1 := 0
  d2zjm2 := 0

/-- One pass of the loop (`sommeijer.py:300-329`). The shift of the data is also made in the last pass
(where the code skips it because nothing reads the data afterwards): the result `y` is `yjm1`. -/
def rkcNext (f : K → V → V) (w0 w1 : K) (t : K) (yn fn : V) (h : K) (s : RkcSt K V) : RkcSt K V :=
  let zj := 2 * w0 * s.zjm1 - s.zjm2
  let dzj := 2 * w0 * s.dzjm1 - s.dzjm2 + 2 * s.zjm1
  let d2zj := 2 * w0 * s.d2zjm1 - s.d2zjm2 + 4 * s.dzjm1
  let bj := d2zj / dzj ^ 2
  let ajm1 := 1 - s.zjm1 * s.bjm1
  let mu := 2 * w0 * bj / s.bjm1
  let nu := -bj / s.bjm2
  let mus := mu * w1 / w0
  { yjm1 := mu • s.yjm1 + nu • s.yjm2 + (1 - mu - nu) • yn
              + (h * mus) • (f (t + h * s.thjm1) s.yjm1 - ajm1 • fn)
    yjm2 := s.yjm1
    thjm1 := mu * s.thjm1 + nu * s.thjm2 + mus * (1 - ajm1)
    thjm2 := s.thjm1
    bjm1 := bj
    bjm2 := s.bjm1
    zjm1 := zj
    zjm2 := s.zjm1
    dzjm1 := dzj
    dzjm2 := s.dzjm1
    d2zjm1 := d2zj
    d2zjm2 := s.d2zjm1 }

/-- The loop variables after stage `k + 1` (`k` passes, `j = 2, …, k+1`). -/
def rkcRun (f : K → V → V) (w0 w1 : K) (t : K) (yn fn : V) (h : K) : ℕ → RkcSt K V
  | 0 => rkcInit w0 w1 yn fn h
  | k + 1 => rkcNext f w0 w1 t yn fn h (rkcRun f w0 w1 t yn fn h k)

/-- The points at which `_stages` evaluates `fun` (`sommeijer.py:311`), in order: `m - 1` of them. -/
def rkcEvals (f : K → V → V) (w0 w1 : K) (t : K) (yn fn : V) (h : K) (m : ℕ) : List (K × V) :=
  (List.range (m - 1)).map fun k =>
    (t + h * (rkcRun f w0 w1 t yn fn h k).thjm1, (rkcRun f w0 w1 t yn fn h k).yjm1)

end

/-- `w0` (`sommeijer.py:278`). -/
noncomputable def rkcW0 (m : ℕ) : ℝ := 1 + 2 / (13 * (m : ℝ) ^ 2)

/-- `w1` (`sommeijer.py:279-282`). -/
noncomputable def rkcW1 (m : ℕ) : ℝ :=
  let temp1 := rkcW0 m ^ 2 - 1
  let temp2 := √temp1
  let arg := m * Real.log (rkcW0 m + temp2)
  Real.sinh arg * temp1 / (Real.cosh arg * m * temp2 - rkcW0 m * Real.sinh arg)

/-- `SSV2stab._stages` (`sommeijer.py:273-329`) for `m ≥ 2`: the solution at `t + h`. With `m ≤ 1` the
code leaves `y` as it was (`self.y` in the first attempt of a step): `yn` here. -/
noncomputable def rkcStages {V : Type*} [AddCommGroup V] [Module ℝ V] (f : ℝ → V → V) (t : ℝ) (yn fn : V)
    (h : ℝ) (m : ℕ) : V :=
  if m ≤ 1 then yn else (rkcRun f (rkcW0 m) (rkcW1 m) t yn fn h (m - 1)).yjm1

/-! ### The spectral radius estimator -/

section
variable {V : Type*} [NormedAddCommGroup V] [NormedSpace ℝ V]

/-- Arguments and constants of `_rho`: `fs` is `fun_single(t, ·)`, `flip i v` changes the sign of
component `i mod n` of `v`, `one` is the vector of ones, `small = 1/max_step`. The Euclidean norm is the
norm of `V`. -/
structure RhoIn (V : Type*) where
  fs : V → V
  yn : V
  fn : V
  small : ℝ
  sqrtu : ℝ
  uround : ℝ
  flip : ℕ → V → V
  one : V

/-- Start of the power method (`sommeijer.py:347-363`): `dynrm` and the first `v`. -/
noncomputable def rhoStart (p : RhoIn V) (vec : V) : ℝ × V :=
  if ‖p.yn‖ ≠ 0 ∧ ‖vec‖ ≠ 0 then
    (‖p.yn‖ * p.sqrtu, p.yn + (‖p.yn‖ * p.sqrtu / ‖vec‖) • vec)
  else if ‖p.yn‖ ≠ 0 then (‖p.yn‖ * p.sqrtu, (1 + p.sqrtu) • vec)
  else if ‖vec‖ ≠ 0 then (p.uround, (p.uround / ‖vec‖) • vec)
  else (p.uround, p.uround • p.one)

/-- One iteration's next vector (`sommeijer.py:386-395`). -/
noncomputable def rhoNext (p : RhoIn V) (dynrm : ℝ) (iter : ℕ) (v : V) : V :=
  if ‖p.fs v - p.fn‖ ≠ 0 then p.yn + (dynrm / ‖p.fs v - p.fn‖) • (p.fs v - p.fn) else p.flip iter v

/-- The power iteration (`sommeijer.py:365-398`), `left` iterations left; returns the estimate, the number of
evaluations and `self.V`. -/
noncomputable def rhoLoop (p : RhoIn V) (dynrm : ℝ) (vec0 : V) :
    ℕ → ℕ → V → ℝ → RhoOut ℝ V
  | 0, iter, _, _ => ⟨none, iter, some vec0⟩
  | left + 1, iter, v, sigmal =>
    let sigma := ‖p.fs v - p.fn‖ / dynrm
    if iter ≠ 0 ∧ |sigma - sigmal| ≤ max sigma p.small * (1 / 100) then
      ⟨some (6 / 5 * sigma), iter + 1, some (v - p.yn)⟩
    else rhoLoop p dynrm vec0 left (iter + 1) (rhoNext p dynrm iter v) sigma

/-- `SSV2stab._rho` (`sommeijer.py:331-398`); `vec = none`: `self.V is None`. -/
noncomputable def rhoEst (p : RhoIn V) (vec : Option V) : RhoOut ℝ V :=
  rhoLoop p (rhoStart p (vec.getD p.fn)).1 (vec.getD p.fn) 50 0 (rhoStart p (vec.getD p.fn)).2 0

end
end Extensisq
