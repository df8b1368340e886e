import Verif.Model.Driver
import Mathlib.Algebra.BigOperators.Fin
import Mathlib.Order.Interval.Finset.Nat

/-!
# SWAG: the variable order Adams method

Models `/repo/extensisq/shampine.py`: `SWAG.__init__` (the fields), `SWAG._step_impl`,
`SWAG._dense_output_impl`, `SwagDenseOutput`, `LinearDenseOutput`, and scipy's `OdeSolver.step` on top.

Arrays are functions on `ℕ`; that all indices are within the arrays is a separate theorem (`C45`).
`phi j` is the column `phi[:, j]`. Exact arithmetic. Norms may be `inf` or `nan`.
-/

namespace Extensisq
open Finset

namespace ENorm
variable {K : Type*} [Field K] [LinearOrder K]

/-- `c * x` for a finite `c`; a factor of zero turns `inf` into `nan`. (Negative factors do not occur,
see `C77_coefficients`.) -/
def scale (c : K) : ENorm K → ENorm K
  | num x => num (c * x)
  | inf => if 0 < c then inf else nan
  | nan => nan

/-- Python `a < b`. -/
def ltE : ENorm K → ENorm K → Bool
  | num x, num y => decide (x < y)
  | num _, inf => true
  | _, _ => false

/-- Python `a <= b`. -/
def leE : ENorm K → ENorm K → Bool
  | num x, num y => decide (x ≤ y)
  | num _, inf => true
  | inf, inf => true
  | _, _ => false

/-- Python `max(a, b)`: the first argument unless the second is larger. -/
def pyMax (a b : ENorm K) : ENorm K := if ltE a b then b else a

/-- Python `min(a, b)`: the first argument unless the second is smaller. -/
def pyMin (a b : ENorm K) : ENorm K := if ltE b a then b else a

end ENorm

/-- The coefficient arrays and their book-keeping (`shampine.py:138-146, 171-175`). -/
structure Coef (K : Type*) where
  psi : ℕ → K
  alpha : ℕ → K
  beta : ℕ → K
  sig : ℕ → K
  v : ℕ → K
  w : ℕ → K
  g : ℕ → K
  gi : ℕ → K
  iv : ℕ → ℕ
  ivc : ℕ
  kgi : ℕ
  kprev : ℕ

section
variable {K V : Type*} [Field K]

/-- `self.iqq[q]` (`shampine.py:130-131`). -/
def iqq (q : ℕ) : K := 1 / (((q : K) + 1) * ((q : K) + 2))

/-- `w[:lim] -= a * w[1:lim+1]` (`shampine.py:301, 315`). -/
def subShift (a : K) (lim : ℕ) (w : ℕ → K) : ℕ → K := fun q => if q < lim then w q - a * w (q + 1) else w q

/-- The components of `psi`, `alpha`, `beta`, `sig` which are changed (`shampine.py:261-269`). -/
def stepSizes (h : K) (k ns : ℕ) (a : Coef K) : Coef K :=
  let psi := fun i => if i = ns - 1 then h * ns else if ns ≤ i ∧ i < k then h + a.psi (i - 1) else a.psi i
  let alpha := fun i => if i = ns - 1 then 1 / (ns : K) else if ns ≤ i ∧ i < k then h / psi i else a.alpha i
  let beta := fun i => if i = ns - 1 then 1 else
    if ns ≤ i ∧ i < k then ∏ l ∈ Ico (ns - 1) i, psi l / a.psi l else a.beta i
  let sig := fun i => if ns ≤ i ∧ i ≤ k then ∏ l ∈ Ico (ns - 1) i, ((l : K) + 1) * alpha l else a.sig i
  { a with psi := psi, alpha := alpha, beta := beta, sig := sig }

/-- `ns == 1`: initialise `v` and `w` (`shampine.py:274-279`). -/
def vInit (k : ℕ) (a : Coef K) : Coef K :=
  let v := fun q => if q < k then iqq q else a.v q
  let w := fun q => if q < k then iqq q else a.w q
  { a with v := v, w := w, ivc := 0, kgi := if k ≠ 1 then 1 else 0,
           gi := if k ≠ 1 then Function.update a.gi 0 (w 1) else a.gi }

/-- `for j, alp in enumerate(alpha[jv:nsm1], start=jv)` (`shampine.py:292-295`): first argument the passes
left, then `j`. -/
def diagLoop (alpha : ℕ → K) (k : ℕ) : ℕ → ℕ → (ℕ → K) × (ℕ → K) → (ℕ → K) × (ℕ → K)
  | 0, _, vw => vw
  | n + 1, j, (v, w) =>
    let i := k - 1 - j
    let x := v i - alpha j * v (i + 1)
    diagLoop alpha k n (j + 1) (Function.update v i x, Function.update w i x)

/-- `jv` (`shampine.py:283-287`). -/
def jvOf (k : ℕ) (a : Coef K) : ℕ := if a.ivc ≠ 0 then k + 1 - a.iv (a.ivc - 1) else 1

/-- The order was raised: the branch `k > kprev` before its loop (`shampine.py:283-291`). -/
def vRaise1 (k : ℕ) (a : Coef K) : Coef K :=
  if a.ivc ≠ 0 then { a with ivc := a.ivc - 1 }
  else
    let v := Function.update a.v (k - 1) (iqq (k - 1))
    let w := Function.update a.w (k - 1) (iqq (k - 1))
    { a with v := v, w := w, kgi := if k = 2 then 1 else a.kgi,
             gi := if k = 2 then Function.update a.gi 0 (w 1) else a.gi }

/-- The whole branch `k > kprev` (`shampine.py:282-298`). -/
def vRaise (k ns : ℕ) (a : Coef K) : Coef K :=
  let jv := jvOf k a
  let a1 := vRaise1 k a
  let vw := diagLoop a1.alpha k (ns - 1 - jv) jv (a1.v, a1.w)
  let upd := k = ns ∧ jv < ns - 1
  { a1 with v := vw.1, w := vw.2, kgi := if upd then ns - 1 else a1.kgi,
            gi := if upd then Function.update a1.gi (ns - 1 - 1) (vw.2 1) else a1.gi }

/-- Update `v` and set `w` (`shampine.py:299-309`). -/
def vUpdate (k ns kold : ℕ) (a : Coef K) : Coef K :=
  let limit1 := k + 1 - ns
  let v := subShift (a.alpha (ns - 1)) limit1 a.v
  let w := fun q => if q < limit1 + 1 then v q else a.w q
  { a with v := v, w := w, g := Function.update a.g ns (w 0),
           kgi := if limit1 ≠ 1 then ns else a.kgi,
           gi := if limit1 ≠ 1 then Function.update a.gi (ns - 1) (w 1) else a.gi,
           iv := if k < kold then Function.update a.iv a.ivc (limit1 + 2) else a.iv,
           ivc := if k < kold then a.ivc + 1 else a.ivc }

/-- `for i, alp in enumerate(alpha[ns:k], start=ns)` (`shampine.py:313-316`): first argument the passes
left, then `i`. -/
def gLoop (alpha : ℕ → K) (k : ℕ) : ℕ → ℕ → (ℕ → K) × (ℕ → K) → (ℕ → K) × (ℕ → K)
  | 0, _, wg => wg
  | n + 1, i, (w, g) =>
    let w' := subShift (alpha i) (k - i) w
    gLoop alpha k n (i + 1) (w', Function.update g (i + 1) (w' 0))

/-- `shampine.py:312-316`. -/
def gFinish (k ns : ℕ) (a : Coef K) : Coef K :=
  let wg := gLoop a.alpha k (k - ns) ns (a.w, a.g)
  { a with kprev := k, w := wg.1, g := wg.2 }

/-- `shampine.py:271-309`. -/
def vPart (k ns kold : ℕ) (a : Coef K) : Coef K :=
  if ns = 1 then vInit k a else vUpdate k ns kold (if a.kprev < k then vRaise k ns a else a)

/-- Block 1 without the update of `ns` (`shampine.py:258-316`). -/
def coefs (h : K) (k ns kold : ℕ) (a : Coef K) : Coef K :=
  if ns ≤ k then gFinish k ns (vPart k ns kold (stepSizes h k ns a)) else a

/-- The new `ns` (`shampine.py:253-256`). -/
def newNs [DecidableEq K] (h hold : K) (ns kold : ℕ) : ℕ :=
  let n0 := if h ≠ hold then 0 else ns
  if n0 ≤ kold then n0 + 1 else n0

end

/-- Fields of a SWAG solver that do not change after construction (`shampine.py:99-149`).
* `fn`: `self.fun`; `tb = none`: infinite `t_bound`; `maxStep = none`: `max_step = inf`;
* `scale p y x`: `norm(x / calculate_scale(atol, rtol, p, y, _mean=True))`;
* `gstr i`, `kMax`, `twou`, `fouru`: `self.gstr[i]`, `self.k_max`, `self.twou`, `self.fouru`.
`eps = 1`, `p5eps = 0.5` (`shampine.py:133-134`) and `two[k] = 2**(k+1)` (`shampine.py:126-127`) are
written out. -/
structure SwCfg (K V : Type*) where
  fn : K → V → V
  tb : Option K
  dir : K
  maxStep : Option K
  fouru : K
  twou : K
  kMax : ℕ
  gstr : ℕ → K
  scale : V → V → V → ENorm K
  sqrt : K → K
  pw : K → K → K

/-- Mutable fields. `wt x` is `norm(x / self.wt)`. Ghost fields, which nothing reads: `hist`, the accepted
points with the derivative stored for them, latest first; `warned`, the number of stiffness warnings. -/
structure SwSt (K V : Type*) where
  t : K
  y : V
  yp : V
  h : K
  hold : K
  k : ℕ
  kold : ℕ
  ns : ℕ
  phase1 : Bool
  phi : ℕ → V
  co : Coef K
  wt : V → ENorm K
  kle4 : ℕ
  yOld : V
  nfev : ℕ
  nfs : ℕ
  hist : List (K × V)
  warned : ℕ

/-- Ways in which a SWAG step can end: success, `OdeSolver.TOO_SMALL_STEP`, the message
"tolerance too tight", scipy's `RuntimeError` for a solver which is not running. -/
inductive SwOut where
  | ok
  | tooSmall
  | tooTight
  | notRunning
  deriving DecidableEq, Repr

/-- What one attempt (`shampine.py:246-359`) computes: the coefficients, `ns`, the predicted differences,
the prediction `p`, the derivative `fp` there, the weights, `err`, `erk`, `erkm1` and `knew`. -/
structure SwTry (K V : Type*) where
  co : Coef K
  ns : ℕ
  phi : ℕ → V
  p : V
  fp : V
  wt : V → ENorm K
  err : ENorm K
  erk : ENorm K
  erkm1 : ENorm K
  knew : ℕ

/-- Local variables of the `while` loop which change from one attempt to the next. -/
structure SwLoc (K V : Type*) where
  h : K
  k : ℕ
  ns : ℕ
  phase1 : Bool
  phi : ℕ → V
  co : Coef K
  wt : V → ENorm K
  yp : V
  ifail : ℕ
  nfev : ℕ
  nfs : ℕ

section
variable {K V : Type*} [Field K] [LinearOrder K] [AddCommGroup V] [Module K V]

/-- `phi` changed to phi star (`shampine.py:326`). -/
def phiStar (beta : ℕ → K) (k ns : ℕ) (phi : ℕ → V) : ℕ → V :=
  fun j => if ns ≤ j ∧ j < k then beta j • phi j else phi j

/-- The predicted solution (`shampine.py:331`). -/
def swPredict (h : K) (g : ℕ → K) (k : ℕ) (ps : ℕ → V) (y : V) : V := h • (∑ j ∈ range k, g j • ps j) + y

/-- The predicted differences (`shampine.py:329-330, 332`). -/
def phiPredict (k : ℕ) (ps : ℕ → V) : ℕ → V := fun j =>
  if j < k then ∑ i ∈ Ico j k, ps i else if j = k then 0 else if j = k + 1 then ps k else ps j

/-- `knew` (`shampine.py:354-359`). -/
def lowerOrder (k : ℕ) (erk erkm1 erkm2 : ENorm K) : ℕ :=
  if 2 < k ∧ ENorm.ltE (ENorm.pyMax erkm1 erkm2) erk = true then k - 1
  else if k = 2 ∧ ENorm.ltE erkm1 (ENorm.scale (1 / 2) erk) = true then k - 1
  else k

/-- One attempt (`shampine.py:247-359`). `erkm1`, `erkm2` are not assigned for small `k`; they are then not
read either. -/
def swTry (c : SwCfg K V) (t : K) (y : V) (hold : K) (kold : ℕ) (l : SwLoc K V) : SwTry K V :=
  let k := l.k
  let h := l.h
  let ns := newNs h hold l.ns kold
  let co := coefs h k ns kold l.co
  let ps := phiStar co.beta k ns l.phi
  let p := swPredict h co.g k ps y
  let phi := phiPredict k ps
  let fp := c.fn (t + h) p
  let wt := c.scale p y
  let temp4 := fp - phi 0
  let erkm2 := ENorm.scale (co.sig (k - 2) * c.gstr (k - 2 - 1)) (ENorm.scale |h| (wt (phi (k - 2) + temp4)))
  let erkm1 := ENorm.scale (co.sig (k - 1) * c.gstr (k - 2)) (ENorm.scale |h| (wt (phi (k - 1) + temp4)))
  let erk0 := ENorm.scale |h| (wt temp4)
  let erk := ENorm.scale (co.sig k * c.gstr (k - 1)) erk0
  { co := co, ns := ns, phi := phi, p := p, fp := fp, wt := wt,
    err := ENorm.scale (co.g (k - 1) - co.g k) erk0, erk := erk, erkm1 := erkm1,
    knew := lowerOrder k erk erkm1 erkm2 }

/-- Restore `phi` (`shampine.py:379-380`). -/
def phiRestore (beta : ℕ → K) (k : ℕ) (phi : ℕ → V) : ℕ → V :=
  fun j => if j < k then (beta j)⁻¹ • (phi j - phi (j + 1)) else phi j

/-- Restore `psi` (`shampine.py:381`). -/
def psiRestore (h : K) (k : ℕ) (psi : ℕ → K) : ℕ → K := fun i => if i < k - 1 then psi (i + 1) - h else psi i

/-- The factor for the step size after a failure (`shampine.py:386-389`), `ifail` already increased;
`p5eps / inf` is zero. -/
def failFactor (c : SwCfg K V) (ifail : ℕ) (erk : ENorm K) : K :=
  match erk with
  | .num x => if 4 ≤ ifail ∧ 1 / 2 < 1 / 4 * x then c.sqrt (1 / 2 / x) else 1 / 2
  | .inf => if 4 ≤ ifail then c.sqrt 0 else 1 / 2
  | .nan => 1 / 2

/-- Block 3 (`shampine.py:376-394`). -/
def swFail (c : SwCfg K V) (l : SwLoc K V) (r : SwTry K V) : SwLoc K V :=
  { h := l.h * failFactor c (l.ifail + 1) r.erk
    k := if 3 ≤ l.ifail + 1 then 1 else r.knew
    ns := 0
    phase1 := false
    phi := phiRestore r.co.beta l.k r.phi
    co := { r.co with psi := psiRestore l.h l.k r.co.psi }
    wt := r.wt
    yp := r.fp
    ifail := l.ifail + 1
    nfev := l.nfev + 1
    nfs := l.nfs + 1 }

/-- Differences after the correction (`shampine.py:416-418`). -/
def phiCorrect (k : ℕ) (phi : ℕ → V) (yp : V) : ℕ → V :=
  let d := yp - phi 0
  fun j => if j < k then phi j + d else if j = k then d else if j = k + 1 then d - phi (k + 1) else phi j

/-- Order and error estimate for the next step (`shampine.py:424-455`), `phase1` already updated. -/
def nextOrder (c : SwCfg K V) (k knew ns : ℕ) (phase1 : Bool) (erk erkm1 erkp1 : ENorm K) : ℕ × ENorm K :=
  if phase1 then (k + 1, .num 0)
  else if knew + 1 = k then (k - 1, erkm1)
  else if k < ns then
    if k = 1 then
      if ENorm.ltE erkp1 (ENorm.scale (1 / 2) erk) = true ∧ k < c.kMax then (k + 1, erkp1) else (k, erk)
    else if ENorm.leE erkm1 (ENorm.pyMin erk erkp1) = true then (k - 1, erkm1)
    else if ENorm.ltE erk erkp1 = true ∨ k = c.kMax then (k, erk)
    else (k + 1, erkp1)
  else (k, erk)

/-- `copysign(a, h)` for a non-negative `a`. -/
def copySign (a h : K) : K := if h < 0 then -a else a

/-- The step size for the next step (`shampine.py:458-468`); `k`, `erk` those of the next step. -/
def nextH (c : SwCfg K V) (minStep h : K) (k : ℕ) (phase1 : Bool) (erk : ENorm K) : K :=
  if phase1 = true ∨ ENorm.leE (ENorm.scale (2 ^ (k + 1)) erk) (.num (1 / 2)) = true then h + h
  else if ENorm.leE erk (.num (1 / 2)) = true then h
  else
    let r := match erk with
      | .num x => min (9 / 10) (c.pw (1 / 2 / x) (1 / ((k : K) + 1)))
      | .inf => 0                    -- `0.0 ** (1/(k+1))`
      | .nan => 9 / 10               -- `min(0.9, nan)`
    copySign (max (|h| * max (1 / 2) r) minStep) h

/-- Block 4 (`shampine.py:400-480`): the state after an accepted attempt. -/
def swAccept (c : SwCfg K V) (minStep : K) (s : SwSt K V) (l : SwLoc K V) (r : SwTry K V) : SwSt K V :=
  let k := l.k
  let h := l.h
  let y := (h * r.co.g k) • (r.fp - r.phi 0) + r.p
  let yp := c.fn (s.t + h) y
  let phi := phiCorrect k r.phi yp
  let phase1 := if r.knew + 1 = k ∨ k = c.kMax then false else l.phase1
  let erkp1 := ENorm.scale (c.gstr k * |h|) (r.wt (phi (k + 1)))
  let o := nextOrder c k r.knew r.ns phase1 r.erk r.erkm1 erkp1
  { s with
    t := s.t + h, y := y, yp := yp, h := nextH c minStep h o.1 phase1 o.2, hold := h, k := o.1, kold := k,
    ns := r.ns, phase1 := phase1, phi := phi, co := r.co, wt := r.wt, nfev := l.nfev + 2, nfs := l.nfs,
    hist := (s.t + h, yp) :: s.hist }

/-- The state left behind when the step size becomes too small inside the loop (`shampine.py:395-396`): the
arrays have been changed in place, the scalars not. -/
def swAbort (s : SwSt K V) (l : SwLoc K V) : SwSt K V :=
  { s with phi := l.phi, co := { l.co with ivc := s.co.ivc, kgi := s.co.kgi, kprev := s.co.kprev },
           wt := l.wt, yp := l.yp, nfev := l.nfev, nfs := l.nfs }

/-- The `while` loop (`shampine.py:246-396`) with fuel: `none` is still running. -/
def swLoop (c : SwCfg K V) (minStep : K) (s : SwSt K V) : ℕ → SwLoc K V → Option (SwOut × SwSt K V)
  | 0, _ => none
  | n + 1, l =>
    let r := swTry c s.t s.y s.hold s.kold l
    if ENorm.leE r.err (.num 1) = true then some (.ok, swAccept c minStep s l r)
    else
      let l' := swFail c l r
      if |l'.h| < minStep then some (.tooSmall, swAbort s l') else swLoop c minStep s n l'

/-- `min_step` (`shampine.py:197`). -/
def swMinStep (c : SwCfg K V) (t : K) : K := c.fouru * |t|

/-- Stiffness detection (`shampine.py:199-207`); also `y_old` (`shampine.py:185`). -/
def swStiff (c : SwCfg K V) (s : SwSt K V) : SwSt K V :=
  if 4 < s.kold then { s with yOld := s.y, kle4 := 0 }
  else if 50 < s.kle4 + 1 ∧ 4 < c.kMax then { s with yOld := s.y, kle4 := 0, warned := s.warned + 1 }
  else { s with yOld := s.y, kle4 := s.kle4 + 1 }

/-- The step size limited by `t_bound` (`shampine.py:219-222`). -/
def swLimit1 (c : SwCfg K V) (t h : K) : K :=
  match c.tb with
  | none => h
  | some b => if 0 < c.dir * (h - (b - t)) then b - t else h

/-- The step size limited by `t_bound` and `max_step` (`shampine.py:219-226`). -/
def swLimit (c : SwCfg K V) (t h : K) : K :=
  match c.maxStep with
  | none => swLimit1 c t h
  | some m => copySign (min m |swLimit1 c t h|) c.dir

/-- Is the end of the interval so close that the solution is extrapolated (`shampine.py:210-211`)? -/
def swNear (c : SwCfg K V) (t : K) : Bool :=
  match c.tb with
  | none => false
  | some b => decide (|b - t| ≤ swMinStep c t)

/-- The extrapolated last step (`shampine.py:212-217`). -/
def swExtrapolate (b : K) (s : SwSt K V) : SwSt K V := { s with kold := 0, y := s.y + (b - s.t) • s.yp, t := b }

/-- The local variables at the start of the loop (`shampine.py:187-193, 240`). -/
def swStart (s : SwSt K V) (h : K) : SwLoc K V :=
  { h := h, k := s.k, ns := s.ns, phase1 := s.phase1, phi := s.phi, co := s.co, wt := s.wt, yp := s.yp,
    ifail := 0, nfev := s.nfev, nfs := s.nfs }

/-- `SWAG._step_impl` (`shampine.py:180-480`). -/
def swStepImpl (c : SwCfg K V) (fuel : ℕ) (s0 : SwSt K V) : Option (SwOut × SwSt K V) :=
  let s := swStiff c s0
  if swNear c s.t = true then some (.ok, swExtrapolate (c.tb.getD s.t) s)
  else
    let h := swLimit c s.t s.h
    if |h| < swMinStep c s.t then some (.tooSmall, s)
    else if ENorm.gt (ENorm.scale c.twou (s.wt s.y)) (1 / 2) = true then some (.tooTight, s)
    else swLoop c (swMinStep c s.t) s fuel (swStart s h)

/-- A SWAG solver object. -/
structure SwSolver (K V : Type*) where
  status : Status
  tOld : Option K
  st : SwSt K V

/-- `direction * (t - t_bound) >= 0`. -/
def swReached (c : SwCfg K V) (t : K) : Bool :=
  match c.tb with
  | none => false
  | some b => decide (0 ≤ c.dir * (t - b))

/-- scipy's `OdeSolver.step` (as for the explicit family). -/
def swStep (c : SwCfg K V) (fuel : ℕ) (v : SwSolver K V) : Option (SwOut × SwSolver K V) :=
  match v.status with
  | .running =>
    if c.tb = some v.st.t then some (.ok, { v with tOld := some v.st.t, status := .finished })
    else
      match swStepImpl c fuel v.st with
      | none => none
      | some (.ok, s') =>
        some (.ok, { status := if swReached c s'.t then .finished else .running,
                     tOld := some v.st.t, st := s' })
      | some (o, s') => some (o, { v with status := .failed, st := s' })
  | _ => some (.notRunning, v)

/-- Reachable by any number of returning `step()` calls. -/
inductive SwReach (c : SwCfg K V) (v0 : SwSolver K V) : SwSolver K V → Prop
  | refl : SwReach c v0 v0
  | tail {v v' : SwSolver K V} {o : SwOut} {fuel : ℕ} :
      SwReach c v0 v → swStep c fuel v = some (o, v') → SwReach c v0 v'

/-- A new solver (`shampine.py:99-178`): the first derivative `yp0`, the signed first step `h0`; `phi0`,
`co0` are the contents of the arrays allocated by `np.empty`, `iv0` is zero. -/
def newSwag (t0 : K) (y0 yp0 : V) (h0 : K) (wt0 : V → ENorm K) (phi0 : ℕ → V) (co0 : Coef K) (nfev : ℕ) :
    SwSolver K V where
  status := .running
  tOld := none
  st := { t := t0, y := y0, yp := yp0, h := h0, hold := 0, k := 1, kold := 0, ns := 0, phase1 := true,
          phi := Function.update (Function.update phi0 0 yp0) 1 0,
          co := { co0 with sig := Function.update co0.sig 0 1,
                           g := Function.update (Function.update co0.g 0 1) 1 (1 / 2),
                           iv := fun _ => 0, ivc := 0, kgi := 0, kprev := 0 },
          wt := wt0, kle4 := 0, yOld := y0, nfev := nfev, nfs := 0, hist := [(t0, yp0)], warned := 0 }

/-! ## Dense output -/

/-- `for i in range(m, kold)` of the constructor (`shampine.py:514-516`): first argument the passes left,
then `i`. -/
def gdiLoop (alpha w : ℕ → K) (kold : ℕ) : ℕ → ℕ → K → K
  | 0, _, x => x
  | n + 1, i, x => gdiLoop alpha w kold n (i + 1) (x * -alpha i + w (kold - i))

/-- `gdi` (`shampine.py:504-516`). -/
def swGdi (co : Coef K) (kold : ℕ) : K :=
  if kold ≤ co.kgi then co.gi (kold - 1)
  else if co.ivc = 0 then gdiLoop co.alpha co.w kold (kold - 1) 1 (iqq kold)
  else
    let iw := co.iv (co.ivc - 1)
    let m := kold + 2 - iw
    gdiLoop co.alpha co.w kold (kold - m) m (co.w (iw - 1))

/-- `np.diff(a, prepend=0.0)` (`shampine.py:518, 571`). -/
def diffP (a : ℕ → K) : ℕ → K := fun i => if i = 0 then a 0 else a i - a (i - 1)

/-- `for i, alp in enumerate(alpha)` of `_call_impl` (`shampine.py:559-564`): first argument the passes
left, then `i`; the array `alpha` of that object starts with `alpha[1]`. -/
def wLoop (alpha : ℕ → K) (kold : ℕ) (xi : K) : ℕ → ℕ → (ℕ → K) × (ℕ → K) → (ℕ → K) × (ℕ → K)
  | 0, _, wg => wg
  | n + 1, i, (w, g) =>
    let alp := alpha (i + 1)
    let gamma := 1 + (xi - 1) * alp
    let w' := fun q => if q < kold - i then gamma * w q - alp * w (q + 1) else w q
    wLoop alpha kold xi n (i + 1) (w', Function.update g (i + 2) (w' 0))

/-- `w` and `g` of `_call_impl` (`shampine.py:550-564`); `np.cumprod(np.full(kold+1, xi))[q]` is
`xi ** (q+1)`. -/
def denseWG (alpha : ℕ → K) (kold : ℕ) (xi : K) : (ℕ → K) × (ℕ → K) :=
  wLoop alpha kold xi (kold - 1) 0
    (fun q => xi * (xi ^ (q + 1) * iqq q), fun i => if i = 0 then xi else 1 / 2 * xi * xi)

/-- `sigma` (`shampine.py:567`). -/
def swSigma (alpha : ℕ → K) (kold : ℕ) (gdi xi : K) : K :=
  ((denseWG alpha kold xi).1 1 - (xi - 1) * (denseWG alpha kold xi).1 0) / gdi

/-- `SwagDenseOutput._call_impl` at one point (`shampine.py:525-576`); `h = x - ox`. -/
def swDense (co : Coef K) (phi : ℕ → V) (kold : ℕ) (ox x : K) (oy y : V) (t : K) : V :=
  let h := x - ox
  let xi := (t - ox) / h
  let sigma := swSigma co.alpha kold (swGdi co kold) xi
  let g := diffP (denseWG co.alpha kold xi).2
  let gdif := diffP co.g
  h • (∑ j ∈ range (kold + 1), (g j - sigma * gdif j) • phi j) + (sigma • y + (1 - sigma) • oy)

/-- `LinearDenseOutput._call_impl` (`shampine.py:596-609`). -/
def linDense (ox x : K) (oy y : V) (t : K) : V := ((t - ox) / (x - ox)) • (y - oy) + oy

/-- `SWAG._dense_output_impl` after a step from `ox` (`shampine.py:482-495`). -/
def swOutput (ox : K) (s : SwSt K V) (t : K) : V :=
  if s.kold ≠ 0 then swDense s.co s.phi s.kold ox s.t s.yOld s.y t else linDense ox s.t s.yOld s.y t

end
end Extensisq
