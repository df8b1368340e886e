import Verif.Model.Dense

/-!
# `CKdisc`: the variable order Cash-Karp method for non-smooth problems

Models the class `CKdisc` (`cash.py:115-416`): class tables, constructor, `_step_impl`, `_dense_output_impl`.
-/

namespace Extensisq
open Finset

/-- Coefficients of `CKdisc` (`cash.py:186-245`): `n_stages`, orders, `A`, `B`, `C`, `E`, `P`. -/
def CKdiscTab : RKTable where
  s := 6
  order := 5
  orderSec := 4
  A := [[0, 0, 0, 0, 0, 0],
        [1/5, 0, 0, 0, 0, 0],
        [3/40, 9/40, 0, 0, 0, 0],
        [3/10, -9/10, 6/5, 0, 0, 0],
        [-11/54, 5/2, -70/27, 35/27, 0, 0],
        [1631/55296, 175/512, 575/13824, 44275/110592, 253/4096, 0]]
  B := [37/378, 0, 250/621, 125/594, 0, 512/1771]
  C := [0, 1/5, 3/10, 3/5, 1, 7/8]
  E := [37/378 - 2825/27648, 0, 250/621 - 18575/48384, 125/594 - 13525/55296, 0 - 277/14336,
        512/1771 - 1/4, 0]
  P := [[1, -10405/3843, 32357/11529, -855/854],
        [0, 0, 0, 0],
        [0, 308500/88389, -1424000/265167, 67250/29463],
        [0, 5875/24156, 12875/36234, -3125/8052],
        [0, 235/1708, -235/854, 235/1708],
        [0, -287744/108031, 700416/108031, -381440/108031],
        [0, 3/2, -4, 5/2]]

/-- `B_assess` (`cash.py:206-223`): rows of order 2 and 3 of `B_all`. -/
def ckBassess0 : List ℚ := [-3/2, 5/2, 0, 0, 0, 0]
def ckBassess1 : List ℚ := [19/54, 0, -10/27, 55/54, 0, 0]

/-- `E_assess` (`cash.py:224-226`): differences of the rows of order 2 and 1, 3 and 2 of `B_all`. -/
def ckEassess0 : List ℚ := [-3/2 - 1, 5/2 - 0, 0, 0, 0, 0]
def ckEassess1 : List ℚ := [19/54 + 3/2, 0 - 5/2, -10/27, 55/54, 0, 0]

/-- `C_fallback = C[[1, 3]]` (`cash.py:229`). -/
def ckCfall0 : ℚ := 1/5
def ckCfall1 : ℚ := 3/5

/-- `B_fallback` (`cash.py:230-232`). -/
def ckBfall0 : List ℚ := [1/10, 1/10, 0, 0, 0, 0]
def ckBfall1 : List ℚ := [1/10, 0, 2/5, 1/10, 0, 0]

/-- `E_fallback` (`cash.py:233-235`). -/
def ckEfall0 : List ℚ := [-1/10, 1/10, 0, 0, 0, 0]
def ckEfall1 : List ℚ := [1/10, 0, -2/10, 1/10, 0, 0]

/-- Mutable state of a `CKdisc` object: the attributes of the Runge-Kutta base class, `self.twiddle`,
`self.quit` (`cash.py:252-253`) and `self.order_accepted` (`none` before the first accepted step). -/
structure CkSt (K V : Type*) where
  st : St K V V
  tw0 : K
  tw1 : K
  q0 : K
  q1 : K
  orderAcc : Option ℕ

/-- What one pass of the `while` loop (`cash.py:266-376`) does. -/
inductive CkRes (K V : Type*) where
  /-- `break`: error order, solution, length of this step, `h_abs` for the next step -/
  | accept (order : ℕ) (yNew : V) (hStep hNext : K) (σ : CkSt K V)
  /-- `return False, "Overflow or underflow encountered."` -/
  | overflow (σ : CkSt K V)
  /-- `continue` with a new `h_abs` -/
  | retry (hNext : K) (σ : CkSt K V)

section
variable {K V : Type*} [Field K] [LinearOrder K] [AddCommGroup V] [Module K V]

/-- The fixed data of a `CKdisc` object: the configuration of the base class (`c.m` holds the main
method), the norm `norm(err/calculate_scale(atol, rtol, y, sol))` and the replacement `1e-160` of a zero
error measure (`cash.py:301`). -/
structure CkCfg (K V : Type*) where
  c : Cfg K V V
  rhs : K → V → V
  errNorm : V → V → V → ENorm K
  tiny4 : K

/-- `SAFETY` (`cash.py:6`), `max_factor`, `min_factor` of the class (`cash.py:190-191`). -/
def ckSafety : K := 9 / 10
def ckMaxFactor : K := 5
def ckMinFactor : K := 1 / 5

/-- `norm ** (1/n)`; `inf` and `nan` are preserved. -/
def ENorm.root (pw : K → K → K) (e : K) : ENorm K → ENorm K
  | .num x => .num (pw x e)
  | .inf => .inf
  | .nan => .nan

/-- `_comp_sol_err_tol` (`cash.py:396-406`) with the first `i` stages: the solution ... -/
def ckSol (y : V) (h : K) (b : List ℚ) (i : ℕ) (Ks : ℕ → V) : V :=
  h • (∑ j ∈ range i, ((b.getD j 0 : ℚ) : K) • Ks j) + y

/-- ... and `norm(err / tol)`. -/
def ckNorm (a : CkCfg K V) (y : V) (h : K) (b e : List ℚ) (i : ℕ) (Ks : ℕ → V) : ENorm K :=
  a.errNorm y (ckSol y h b i Ks) (h • ∑ j ∈ range i, ((e.getD j 0 : ℚ) : K) • Ks j)

/-- `self._rk_stage(h, i)` storing into the work array. -/
def ckStage (a : CkCfg K V) (s : St K V V) (h : K) (Ks : ℕ → V) (i : ℕ) : ℕ → V :=
  Function.update Ks i (rkStage (CKdiscTab.tab K) a.rhs s.t s.y h Ks i)

/-- `max(self.min_factor, SAFETY/esttol)` (`cash.py:373`); `SAFETY/inf = 0`, and Python's `max` returns its
first argument when the second is `nan`. -/
def ckRetryFactor : ENorm K → K
  | .num x => max ckMinFactor (ckSafety / x)
  | .inf => max ckMinFactor 0
  | .nan => ckMinFactor

/-- `E / q` for a finite `q`. -/
def ENorm.divBy (q : K) : ENorm K → ENorm K
  | .num x => .num (x / q)
  | .inf => .inf
  | .nan => .nan

/-- New value of a quit factor (`cash.py:317-323`); `r` is `E_j/E4`. -/
def ckQuit (quit r : K) : K :=
  let q := if r > quit then min r (10 * quit) else max r (2 / 3 * quit)
  max 1 (min 10000 q)

/-- New value of a twiddle factor (`cash.py:332-336`). -/
def ckTwiddle (tw quit e : K) : K :=
  let eq := e / quit
  if eq < tw then max (11 / 10) eq else tw

/-- `E4 or 1e-160` (`cash.py:301`). -/
def ckNonzero (tiny : K) : ENorm K → ENorm K
  | .num x => .num (if x = 0 then tiny else x)
  | .inf => .inf
  | .nan => .nan

/-- The second order fallback and the final retry (`cash.py:352-376`), entered with `E1`, the array `Ks`,
the current factors in `σ` and `esttol`. -/
def ckFallback2 (a : CkCfg K V) (σ : CkSt K V) (hAbs : K) (e1 esttol : ENorm K) : CkRes K V :=
  let s := σ.st
  let h := hAbs * a.c.dir
  if e1.lt 1 then
    if (ckNorm a s.y h ckBfall0 ckEfall0 2 s.Ks).lt 1 then
      .accept 1 (ckSol s.y h ckBfall0 2 s.Ks) (hAbs * (ckCfall0 : K)) (hAbs * (ckCfall0 : K)) σ
    else
      .retry (hAbs * (ckCfall0 : K)) { σ with st := { s with nfs := s.nfs + 1 } }
  else
    .retry (hAbs * ckRetryFactor esttol) { σ with st := { s with nfs := s.nfs + 1 } }

/-- The work array after stages `0, 1` (`cash.py:274-275`), after stages `2, 3` (`cash.py:286-287`) and
after stages `4, 5` (`cash.py:298-299`). -/
def ckK1 (a : CkCfg K V) (s : St K V V) (hAbs : K) : ℕ → V :=
  ckStage a s (hAbs * a.c.dir) (Function.update s.Ks 0 s.f) 1
def ckK3 (a : CkCfg K V) (s : St K V V) (hAbs : K) : ℕ → V :=
  ckStage a s (hAbs * a.c.dir) (ckStage a s (hAbs * a.c.dir) (ckK1 a s hAbs) 2) 3
def ckK5 (a : CkCfg K V) (s : St K V V) (hAbs : K) : ℕ → V :=
  ckStage a s (hAbs * a.c.dir) (ckStage a s (hAbs * a.c.dir) (ckK3 a s hAbs) 4) 5

/-- `E1` (`cash.py:278-280`), `E2` (`cash.py:290-292`), `E4` (`cash.py:302-304`). -/
def ckE1 (a : CkCfg K V) (s : St K V V) (hAbs : K) : ENorm K :=
  (ckNorm a s.y (hAbs * a.c.dir) ckBassess0 ckEassess0 2 (ckK1 a s hAbs)).root a.c.pw (1 / 2)
def ckE2 (a : CkCfg K V) (s : St K V V) (hAbs : K) : ENorm K :=
  (ckNorm a s.y (hAbs * a.c.dir) ckBassess1 ckEassess1 4 (ckK3 a s hAbs)).root a.c.pw (1 / 3)
def ckE4 (a : CkCfg K V) (s : St K V V) (hAbs : K) : ENorm K :=
  ckNonzero a.tiny4
    ((ckNorm a s.y (hAbs * a.c.dir) CKdiscTab.B CKdiscTab.E 6 (ckK5 a s hAbs)).root a.c.pw (1 / 5))

/-- `x` of a finite error measure (only used where finiteness has been tested). -/
def ENorm.val : ENorm K → K
  | .num x => x
  | _ => 0

/-- One pass of the loop (`cash.py:269-376`) with step size `hAbs`; `rej` is `step_rejected`. -/
def ckTry (a : CkCfg K V) (σ : CkSt K V) (hAbs : K) (rej : Bool) : CkRes K V :=
  let s := σ.st
  let h := hAbs * a.c.dir
  let e1 := ckE1 a s hAbs
  let s1 := { s with Ks := ckK1 a s hAbs, nfev := s.nfev + 1 }
  if e1.lt (σ.tw0 * σ.q0) then
    let e2 := ckE2 a s hAbs
    let s3 := { s with Ks := ckK3 a s hAbs, nfev := s.nfev + 3 }
    if e2.lt (σ.tw1 * σ.q1) then
      let e4 := ckE4 a s hAbs
      let s5 := { s with Ks := ckK5 a s hAbs, nfev := s.nfev + 5 }
      if e4.lt 1 then
        let f0 := min ckMaxFactor (ckSafety / e4.val)
        let factor := if rej then min 1 f0 else f0
        .accept 4 (ckSol s.y h CKdiscTab.B 6 s5.Ks) hAbs (hAbs * factor)
          { σ with st := s5, q0 := ckQuit σ.q0 (e1.val / e4.val), q1 := ckQuit σ.q1 (e2.val / e4.val) }
      else
        match e4 with
        | .num _ =>
          let σ' := { σ with st := s5, tw0 := ckTwiddle σ.tw0 σ.q0 e1.val,
                             tw1 := ckTwiddle σ.tw1 σ.q1 e2.val }
          if e2.lt 1 && (ckNorm a s.y h ckBfall1 ckEfall1 4 s5.Ks).lt 1 then
            .accept 2 (ckSol s.y h ckBfall1 4 s5.Ks) (hAbs * (ckCfall1 : K)) (hAbs * (ckCfall1 : K)) σ'
          else ckFallback2 a σ' hAbs e1 e4
        | _ => .overflow { σ with st := s5 }
    else ckFallback2 a { σ with st := s3 } hAbs e1 (e2.divBy σ.q1)
  else .retry (hAbs * ckRetryFactor (e1.divBy σ.q0)) { σ with st := { s1 with nfs := s1.nfs + 1 } }

/-- The end of `_step_impl` (`cash.py:380-398`). -/
def ckFinish (a : CkCfg K V) (σ : CkSt K V) (order : ℕ) (yNew : V) (hStep hNext : K) : CkSt K V :=
  let h := hStep * a.c.dir
  let s := σ.st
  let fNew := a.rhs (s.t + h) yNew
  { σ with
    orderAcc := some order
    st := { s with
      Ks := Function.update s.Ks 6 fNew, nfev := s.nfev + 1, hPrev := some h, yOld := some s.y,
      hAbs := hNext, f := fNew, t := s.t + h, y := yNew } }

/-- The loop of `CKdisc._step_impl` (`cash.py:266-398`). `none`: fuel exhausted. -/
def ckLoop (a : CkCfg K V) : ℕ → CkSt K V → K → K → Bool → Option (Out × CkSt K V)
  | 0, _, _, _, _ => none
  | n + 1, σ, hAbs, minStep, rej =>
    if hAbs < minStep then some (.fail .tooSmall, σ)
    else
      match ckTry a σ hAbs rej with
      | .accept o yNew hStep hNext σ' => some (.ok, ckFinish a σ' o yNew hStep hNext)
      | .overflow σ' => some (.fail .overflow, σ')
      | .retry hNext σ' => ckLoop a n σ' hNext minStep true

/-- `CKdisc._step_impl` (`cash.py:255-398`); `_reassess_stepsize` is inherited. -/
def ckStepImpl (a : CkCfg K V) (fuel : ℕ) (σ : CkSt K V) : Option (Out × CkSt K V) :=
  ckLoop a fuel { σ with st := { σ.st with stdSc := (reassess a.c σ.st).2.2 } }
    (reassess a.c σ.st).1 (reassess a.c σ.st).2.1 false

/-- A `CKdisc` solver object. -/
structure CkSolver (K V : Type*) where
  status : Status
  tOld : Option K
  σ : CkSt K V

/-- scipy's `OdeSolver.step` on top of it (same contract as `step`). -/
def ckStep (a : CkCfg K V) (fuel : ℕ) (v : CkSolver K V) : Option (Out × CkSolver K V) :=
  match v.status with
  | .running =>
    if a.c.tb = some v.σ.st.t then
      some (.ok, { v with tOld := some v.σ.st.t, status := .finished })
    else
      match ckStepImpl a fuel v.σ with
      | none => none
      | some (.ok, s') =>
        some (.ok, { status := if reached a.c s'.st.t then .finished else .running,
                     tOld := some v.σ.st.t, σ := s' })
      | some (.fail m, s') => some (.fail m, { v with status := .failed, σ := s' })
      | some (.exc e, s') => some (.exc e, { v with σ := s' })
  | _ => some (.exc .runtimeErr, v)

/-- Reachable by any number of returning `step()` calls. -/
inductive CkReach (a : CkCfg K V) (v0 : CkSolver K V) : CkSolver K V → Prop
  | refl : CkReach a v0 v0
  | tail {v v' : CkSolver K V} {o : Out} {fuel : ℕ} :
      CkReach a v0 v → ckStep a fuel v = some (o, v') → CkReach a v0 v'

/-- `CKdisc.__init__` (`cash.py:247-253`): the base class constructor, then the starting values of the
factors. -/
def ckNew (a : CkCfg K V) (t0 : K) (y0 : V) (h0 : K) (e0 : ℕ) (Ks0 : ℕ → V) : CkSolver K V where
  status := .running
  tOld := none
  σ := { st := { (newSolver a.c t0 y0 h0 e0 Ks0).st with f := a.rhs t0 y0, maxFactor := ckMaxFactor },
         tw0 := 3 / 2, tw1 := 11 / 10, q0 := 100, q1 := 100, orderAcc := none }

/-- `CKdisc._dense_output_impl` (`cash.py:408-416`) as a function of time. `none`: no step was made. -/
def ckDense (v : CkSolver K V) : Option (K → V) :=
  match v.tOld, v.σ.st.yOld with
  | some tOld, some yOld =>
    if v.σ.st.t = tOld then some fun _ => v.σ.st.y
    else if v.σ.orderAcc = some 4 then
      some (horner tOld v.σ.st.t yOld (denseQ K CKdiscTab.P 7 v.σ.st.Ks))
    else some (cubic tOld v.σ.st.t yOld v.σ.st.y (v.σ.st.Ks 0) (v.σ.st.Ks 6))
  | some tOld, none => if v.σ.st.t = tOld then some fun _ => v.σ.st.y else none
  | _, _ => none

end
end Extensisq
