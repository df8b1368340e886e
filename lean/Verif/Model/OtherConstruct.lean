import Verif.Model.Construct
import Verif.Model.Cheb
import Verif.Model.Swag

/-!
# Construction of `SSV2stab` and `SWAG`

Models `SSV2stab.__init__` (`sommeijer.py:93-145`) and `SWAG.__init__` (`shampine.py:99-186`), as
`Model/Construct.lean` does for the explicit Runge-Kutta methods.
-/

namespace Extensisq

/-- Exceptions of the two constructors. -/
inductive OInitErr where
  | firstNonpos
  | firstTooLong
  | maxStep
  | tol (e : TolError)
  /-- `TypeError`: `const_jac` (`sommeijer.py:104-105`) -/
  | constJac
  /-- `TypeError`s: `rho_jac` is not callable (`sommeijer.py:107-110`), does not return a float (`sommeijer.py:111-112`) -/
  | rhoCallable
  | rhoFloat
  /-- `ValueError`: `rho_jac` is not positive (`sommeijer.py:113-114`) -/
  | rhoPositive
  /-- `ValueError` of `int(round(nan))` (`sommeijer.py:134`) -/
  | mmax
  /-- `ValueError`: `k_max` (`shampine.py:102-103`) -/
  | kMax
  deriving DecidableEq

/-- The `rho_jac` argument; `none` as a value of the function: not a float. (Values inf and nan are not modelled.) -/
inductive RhoArg (K V : Type*) where
  | none
  | notCallable
  | call (f : K → V → Option K)

section
variable {K V : Type*} [Field K] [LinearOrder K]

/-- `validate_first_step` with the exceptions of this file. -/
def oFirstStep (x t0 : K) (b : Bound K) : Except OInitErr K :=
  match validateFirstStep x t0 b with
  | .ok h => .ok h
  | .error .firstNonpos => .error .firstNonpos
  | .error _ => .error .firstTooLong

/-- The check of `rho_jac` (`sommeijer.py:106-116`). -/
def checkRho (t0 : K) (y0 : V) : RhoArg K V → Except OInitErr (Option (K → V → K))
  | .none => .ok none
  | .notCallable => .error .rhoCallable
  | .call f =>
    match f t0 y0 with
    | none => .error .rhoFloat
    | some x => if x ≤ 0 then .error .rhoPositive else .ok (some fun t y => (f t y).getD 0)

/-- Arguments of `SSV2stab`; `constJac = none`: not a `bool`. -/
structure CArgs (K V : Type*) where
  t0 : K
  y0 : V
  n : ℕ
  tb : Bound K
  maxStep : Option K
  rtol : RtolArg K
  atol : AtolArg K
  firstStep : Option K
  constJac : Option Bool
  rhoJac : RhoArg K V

/-- Constants of the machine: `epsneg`, `sqrt(tiny)`, `uround`, `sqrt(max)`; square root, power, and the rounding to an integer. -/
structure CMachine (K : Type*) where
  epsneg : K
  sqrtTiny : K
  uround : K
  sqrtMax : K
  sqrt : K → K
  pw : K → K → K
  rnd : K → ℕ

/-- External parts: the right-hand side, `_stages`, `_rho`, the norms as functions of the tolerances. -/
structure CExt (K V : Type*) where
  rhs : K → V → V
  stg : K → V → V → K → ℕ → V
  rho : K → V → V → Option V → RhoOut K V
  errNorm : PyFloat K → AtolArg K → V → V → V → ENorm K
  est0 : PyFloat K → AtolArg K → V → V → ENorm K

/-- `self.max_step` (`sommeijer.py:140-141`). -/
def chebMaxStep (M : CMachine K) (a : CArgs K V) : K :=
  match minInf a.maxStep (a.tb.dist a.t0) with
  | some d => min d M.sqrtMax
  | none => M.sqrtMax

/-- `self.hmin` (`sommeijer.py:142-145`). The test is `t_bound != np.inf`. -/
def chebHmin0 (M : CMachine K) (a : CArgs K V) : K :=
  let hm := match a.tb with
    | .posInf => |a.t0|
    | _ => max |a.t0| |chebMaxStep M a|
  max M.sqrtTiny (10 * M.uround * hm)

/-- The solver's constants after the constructor; `r`: the number `rtol`. -/
def chebInitCfg (M : CMachine K) (X : CExt K V) (a : CArgs K V) (cj : Bool) (rho : Option (K → V → K)) (rtol : PyFloat K)
    (atol : AtolArg K) (r : K) : ChebCfg K V where
  rhs := X.rhs
  stg := X.stg
  tb := a.tb.tb
  dir := a.tb.dir a.t0
  maxStep := chebMaxStep M a
  hmin0 := chebHmin0 M a
  sqrtmin := M.sqrtTiny
  uround := M.uround
  mmax := max (M.rnd (M.sqrt (r / (10 * M.uround)))) 2
  constJac := cj
  rhoJac := rho
  rho := X.rho
  errNorm := X.errNorm rtol atol
  est0 := X.est0 rtol atol
  pw := M.pw
  sqrt := M.sqrt

/-- `first_step` (`sommeijer.py:99-102`). -/
def chebFirst (a : CArgs K V) : Except OInitErr (Option K) :=
  match a.firstStep with
  | none => .ok none
  | some x => (oFirstStep x a.t0 a.tb).map some

/-- `SSV2stab.__init__` (`sommeijer.py:93-145`). -/
def chebNew (M : CMachine K) (X : CExt K V) (a : CArgs K V) : Except OInitErr (ChebCfg K V × ChebSolver K V) :=
  match chebFirst a with
  | .error e => .error e
  | .ok first =>
    match a.constJac with
    | none => .error .constJac
    | some cj =>
      match checkRho a.t0 a.y0 a.rhoJac with
      | .error e => .error e
      | .ok rho =>
        if a.maxStep.any (fun m => decide (m ≤ 0)) then .error .maxStep
        else
          match validateTol M.epsneg M.sqrtTiny a.n a.rtol a.atol with
          | .error e => .error (.tol e)
          | .ok (rtol, atol) =>
            match rtol with
            | .num r =>
              let c := chebInitCfg M X a cj rho rtol atol r
              .ok (c, newCheb c a.t0 a.y0 first)
            | _ => .error .mmax

/-- Arguments of `SWAG`; `kMax`: an `int` or another object. -/
structure SArgs (K V : Type*) where
  t0 : K
  y0 : V
  n : ℕ
  tb : Bound K
  maxStep : Option K
  rtol : RtolArg K
  atol : AtolArg K
  firstStep : Option K
  kMax : StiffArg

/-- Machine constants: `small = nextafter(epsneg, 1)` (`shampine.py:122`). -/
structure SMachine (K : Type*) where
  epsneg : K
  sqrtTiny : K
  small : K
  sqrt : K → K
  pw : K → K → K

/-- External parts: right-hand side, scale with `_mean=True` (steps), the initial weight (`shampine.py:149-150`), `h_start` (signed, with its
number of evaluations), uninitialised arrays. -/
structure SExt (K V : Type*) where
  rhs : K → V → V
  gstr : ℕ → K
  scale : PyFloat K → AtolArg K → V → V → V → ENorm K
  wt0 : PyFloat K → AtolArg K → V → V → V → ENorm K
  hs : PyFloat K → AtolArg K → Option K → K × ℕ
  phi0 : ℕ → V
  co0 : Coef K

/-- The end point handed to `h_start` (`shampine.py:113-114`). -/
def swHStartEnd (a : SArgs K V) : Option K :=
  (minInf (a.tb.dist a.t0) a.maxStep).map fun d => a.t0 + copySign d (a.tb.dir a.t0)

/-- The signed first step and its evaluations (`shampine.py:111-119`). -/
def swFirstStep (hs : Option K → K × ℕ) (a : SArgs K V) : Except OInitErr (K × ℕ) :=
  match a.firstStep with
  | none => .ok (hs (swHStartEnd a))
  | some x => (oFirstStep x a.t0 a.tb).map fun h => (copySign h (a.tb.dir a.t0), 0)

/-- The solver's constants (`shampine.py:121-134`). -/
def swInitCfg (M : SMachine K) (X : SExt K V) (a : SArgs K V) (k : ℕ) (rtol : PyFloat K) (atol : AtolArg K) : SwCfg K V where
  fn := X.rhs
  tb := a.tb.tb
  dir := a.tb.dir a.t0
  maxStep := a.maxStep
  fouru := 4 * M.small
  twou := 2 * M.small
  kMax := k
  gstr := X.gstr
  scale := X.scale rtol atol
  sqrt := M.sqrt
  pw := M.pw

/-- `SWAG.__init__` (`shampine.py:99-186`). The warning about rounding (`shampine.py:154-162`) is not modelled. -/
def swNew [AddCommGroup V] [Module K V] (M : SMachine K) (X : SExt K V) (a : SArgs K V) :
    Except OInitErr (SwCfg K V × SwSolver K V) :=
  match a.kMax with
  | .other => .error .kMax
  | .int z =>
    if z ≤ 0 ∨ 13 ≤ z then .error .kMax
    else if a.maxStep.any (fun m => decide (m ≤ 0)) then .error .maxStep
    else
      match validateTol M.epsneg M.sqrtTiny a.n a.rtol a.atol with
      | .error e => .error (.tol e)
      | .ok (rtol, atol) =>
        match swFirstStep (X.hs rtol atol) a with
        | .error e => .error e
        | .ok (h, e0) =>
          let yp := X.rhs a.t0 a.y0
          .ok (swInitCfg M X a z.toNat rtol atol,
            newSwag a.t0 a.y0 yp h (X.wt0 rtol atol a.y0 (a.y0 - h • yp)) X.phi0 X.co0 (1 + e0))

end
end Extensisq
