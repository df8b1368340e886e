import Verif.Model.Validate
import Verif.Model.Methods
import Verif.Model.Nystrom
import Verif.Model.NystromTables

/-!
# Construction of explicit solvers

Models `RungeKutta.__init__` (`common.py:187-220`) with `_init_stiffness_detection` (`common.py:150-164`),
`CKdisc.__init__` (`cash.py:246-251`) and `RungeKuttaNystrom.__init__` (`common.py:1241-1287`): from the arguments of the user
to the solver object or an exception.

scipy's `OdeSolver.__init__` is modelled by its contract (`direction`, `t`, `y`), so are `validate_max_step` and
`validate_first_step` (`scipy/integrate/_ivp/common.py`). Its checks of `y0` (one-dimensional, finite, complex only
if supported) and `warn_extraneous` are not modelled. `h_start` is a parameter here (`Model/HStart.lean`), so is the norm
of the scaled error as a function of the validated tolerances.
-/

namespace Extensisq

/-- `t_bound`: a number or an infinity. -/
inductive Bound (K : Type*) where
  | num (b : K)
  | posInf
  | negInf

/-- The argument `nfev_stiff_detect`: a Python `int` or something else. -/
inductive StiffArg where
  | int (z : ℤ)
  | other

/-- Exceptions of the constructors, in the order in which they are checked. -/
inductive InitErr where
  /-- `ValueError` of scipy's `validate_max_step` -/
  | maxStep
  /-- `validate_tol` -/
  | tol (e : TolError)
  /-- `TypeError` (`common.py:196-197`) -/
  | dtype
  /-- `ValueError` (`common.py:151-153`) -/
  | stiff
  /-- `ValueError` (`common.py:179-180`) -/
  | sc
  /-- the two `ValueError`s of scipy's `validate_first_step` -/
  | firstNonpos
  | firstTooLong
  /-- `AssertionError` of the Nystrom methods (`common.py:1253-1272`) -/
  | structure2
  deriving DecidableEq

section
variable {K : Type*} [Field K] [LinearOrder K]

/-- The finite part of a bound. -/
def Bound.tb : Bound K → Option K
  | .num b => some b
  | _ => none

/-- `self.direction` of scipy: `np.sign(t_bound - t0) if t_bound != t0 else 1`. -/
def Bound.dir (t0 : K) : Bound K → K
  | .num b => if b < t0 then -1 else 1
  | .posInf => 1
  | .negInf => -1

/-- `abs(t_bound - t0)`, `none` if infinite. -/
def Bound.dist (t0 : K) : Bound K → Option K
  | .num b => some |b - t0|
  | _ => none

/-- `min(a, b)` of possibly infinite numbers. -/
def minInf : Option K → Option K → Option K
  | none, b => b
  | a, none => a
  | some a, some b => some (min a b)

/-- scipy's `validate_first_step`. -/
def validateFirstStep (x : K) (t0 : K) (b : Bound K) : Except InitErr K :=
  if x ≤ 0 then .error .firstNonpos
  else
    match b.dist t0 with
    | some d => if d < x then .error .firstTooLong else .ok x
    | none => .ok x

/-- `_init_stiffness_detection` (`common.py:150-160`, `1225-1235`): `self.nfev_stiff_detect`. `impl`: does the
class define the constants of the test? -/
def initStiff (impl : Bool) : StiffArg → Except InitErr ℕ
  | .int z => if z < 0 then .error .stiff else .ok (if impl then z.toNat else 0)
  | .other => .error .stiff

/-- The warning of `common.py:156-159`. -/
def stiffWarns (impl : Bool) : StiffArg → Bool
  | .int z => !impl && decide (z ≠ 5000) && decide (z ≠ 0)
  | .other => false

end

/-- Class attributes read by the constructor: `order`, `order_secondary`, `C`, `sc_params`, and whether `stbrad` and `tanang`
(`stbre`, `stbim`, `tanang`) are defined. -/
structure ClassData (K : Type*) where
  order : ℕ
  orderSec : ℕ
  C : List K
  sc : ScArg K
  stiff : Bool

/-- Machine constants of the dtype of `y` and the power operator. -/
structure Machine (K : Type*) where
  epsneg : K
  sqrtTiny : K
  pw : K → K → K

/-- Arguments of the user; `n` is the size of `y0`. `dtypeOK`: has `fun(t0, y0)` the dtype of `y0`? -/
structure InitArgs (K V : Type*) where
  t0 : K
  y0 : V
  n : ℕ
  tb : Bound K
  maxStep : Option K
  rtol : RtolArg K
  atol : AtolArg K
  firstStep : Option K
  stiff : StiffArg
  sc : ScArg K
  dtypeOK : Bool

section
variable {K V W : Type*} [Field K] [LinearOrder K]

/-- The end point handed to `h_start`: `self.t + self.direction * min(abs(self.t_bound - self.t), self.max_step)`
(`common.py:208-209`); `none` if infinite. -/
def hStartEnd (a : InitArgs K V) : Option K :=
  (minInf (a.tb.dist a.t0) a.maxStep).map fun d => a.t0 + a.tb.dir a.t0 * d

/-- The size of the first step (`common.py:206-214`) and the number of evaluations for it. `hs b`: the value and the number of
evaluations of `h_start` with end point `b`. -/
def firstStepOf (hs : Option K → K × ℕ) (a : InitArgs K V) : Except InitErr (K × ℕ) :=
  match a.firstStep with
  | none => .ok (|(hs (hStartEnd a)).1|, (hs (hStartEnd a)).2)
  | some x => (validateFirstStep x a.t0 a.tb).map fun h => (h, 0)

/-- `self.error_exponent` (`common.py:198-199`). -/
def errExpOf (d : ClassData K) : K := -1 / ((min d.orderSec d.order : ℕ) + 1)

/-- The solver's constants after the constructor. -/
def initCfg (M : Machine K) (d : ClassData K) (m : Method K V W) (ev : K → V → ℕ) (a : InitArgs K V) (nst : ℕ)
    (p : ScParams K) : Cfg K V W where
  m := m
  tb := a.tb.tb
  dir := a.tb.dir a.t0
  maxStep := a.maxStep
  hMinA := hMinAOf M.epsneg d.C
  hMinB := M.sqrtTiny
  tinyErr := M.sqrtTiny
  minFactor := 1 / 5
  errExp := errExpOf d
  minbeta1 := p.minbeta1
  minbeta2 := p.minbeta2
  minalpha := p.minalpha
  safety := p.safety
  safetySc := p.safetySc
  pw := M.pw
  nfevStiff := nst
  stiffEvals := ev

/-- `RungeKutta.__init__` (`common.py:187-220`). `meth rtol atol`: the method with the norm made from the validated
tolerances; `ev`: evaluations of the stiffness test; `hs rtol atol b`: `h_start`; `Ks0`: the uninitialised array `self.K`. -/
def rkInit (M : Machine K) (d : ClassData K) (meth : PyFloat K → AtolArg K → Method K V W) (ev : K → V → ℕ)
    (hs : PyFloat K → AtolArg K → Option K → K × ℕ) (Ks0 : ℕ → W) (a : InitArgs K V) :
    Except InitErr (Cfg K V W × Solver K V W) :=
  if a.maxStep.any (fun m => decide (m ≤ 0)) then .error .maxStep
  else
    match validateTol M.epsneg M.sqrtTiny a.n a.rtol a.atol with
    | .error e => .error (.tol e)
    | .ok (rtol, atol) =>
      if !a.dtypeOK then .error .dtype
      else
        match initStiff d.stiff a.stiff with
        | .error e => .error e
        | .ok nst =>
          match initScControl coefsRK M.pw (errExpOf d) d.sc a.sc with
          | none => .error .sc
          | some p =>
            match firstStepOf (hs rtol atol) a with
            | .error e => .error e
            | .ok (h0, e0) =>
              let c := initCfg M d (meth rtol atol) ev a nst p
              .ok (c, newSolver c a.t0 a.y0 h0 (1 + e0) Ks0)

/-- `CKdisc.__init__` (`cash.py:246-251`): `nfev_stiff_detect = 0` is handed to `RungeKutta.__init__` in addition to the arguments
of the user, so an argument `nfev_stiff_detect` (`given`) is Python's `TypeError` (multiple values), here `none`. -/
def ckInit (M : Machine K) (d : ClassData K) (meth : PyFloat K → AtolArg K → Method K V W) (ev : K → V → ℕ)
    (hs : PyFloat K → AtolArg K → Option K → K × ℕ) (Ks0 : ℕ → W) (given : Bool) (a : InitArgs K V) :
    Option (Except InitErr (Cfg K V W × Solver K V W)) :=
  if given then none else some (rkInit M d meth ev hs Ks0 { a with stiff := .int 0 })

end

section
variable {K X : Type*} [Field K] [LinearOrder K]

/-- `RungeKuttaNystrom.__init__` (`common.py:1241-1287`). First `RungeKutta.__init__` runs with the default
`nfev_stiff_detect = 5000` on the first order problem, then the argument of the user is checked, then the structure of `fun`
(`ok2`, see `nyAccepts`). The derivative is replaced by the acceleration (`common.py:1276`), which `newSolver` does with the right-hand side of the method. -/
def nyInit (M : Machine K) (d : ClassData K) (meth : PyFloat K → AtolArg K → Method K (X × X) X) (ev : K → X × X → ℕ)
    (hs : PyFloat K → AtolArg K → Option K → K × ℕ) (Ks0 : ℕ → X) (ok2 : Bool) (a : InitArgs K (X × X)) :
    Except InitErr (Cfg K (X × X) X × Solver K (X × X) X) :=
  match rkInit M d meth ev hs Ks0 { a with stiff := .int 5000 } with
  | .error e => .error e
  | .ok (c, v) =>
    match initStiff d.stiff a.stiff with
    | .error e => .error e
    | .ok nst =>
      if ok2 then
        .ok ({ c with nfevStiff := nst }, newSolver { c with nfevStiff := nst } v.st.t v.st.y v.st.hAbs v.st.nfev Ks0)
      else .error .structure2

end

/-! ## Class data of the shipped methods -/

section
variable (K : Type*) [Field K]

/-- Data of an explicit Runge-Kutta class. -/
def RKTable.classData (R : RKTable) (sc : String) : ClassData K where
  order := R.order
  orderSec := R.orderSec
  C := R.C.map fun c : ℚ => (c : K)
  sc := .str sc
  stiff := true

/-- The controller names of the classes: `merson.py:122`, `cash.py:87`, `bogacki.py:109`, `calvo.py:94`, `tsitouras.py:88`,
`prince.py:84`, `prince.py:210`, `prince.py:454`. All of them define `stbrad` and `tanang`. -/
def shippedRK : List (RKTable × String) :=
  [(Me4, "G"), (CK5, "G"), (BS5, "standard"), (CFMR7osc, "G"), (Ts5, "G"), (Pr7, "S"), (Pr8, "G"), (Pr9, "standard")]

end
end Extensisq
