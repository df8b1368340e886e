import Verif.Model.Construct
import Verif.Model.Esdirk
import Verif.Model.EsdirkInit
import Verif.Model.EsdirkTables
import Mathlib.LinearAlgebra.Matrix.ToLin

/-!
# Construction of ESDIRK solvers

Models `ESDIRK.__init__` (`common.py:1922-2006`) with `_validate_jac` (`common.py:1706-1755`) and `_handle_M`
(`common.py:1778-1821`).

Parameters: the numerical Jacobian (scipy's `num_jac`), the singular values (numpy's `svd`), the linear solver, the norms as
functions of the validated tolerances, `_consistent_ICs` (`Model/EsdirkInit.lean`), the solution `yp0` of `M yp0 = f0` and
`h_start`. Sparse and dense storage are not distinguished: the code converts `M` to a dense array, and `J` to an array
of the same values. `lu_factor` warnings for a singular `M` that is not found to be a DAE are not modelled. The four assertions about
the class constants (`common.py:1951-1956`) are statements on the tables (`ETabOK`, C38).
-/

namespace Extensisq

/-- Arguments that become numpy arrays, by dimension. -/
inductive Arr (K : Type*) where
  | scalar (x : K)
  | vec (m : ℕ) (v : Fin m → K)
  | mat (r c : ℕ) (a : Matrix (Fin r) (Fin c) K)
  | higher

/-- Exceptions of the constructor. -/
inductive EInitErr where
  /-- scipy's `validate_max_step` -/
  | maxStep
  /-- `validate_tol` -/
  | tol (e : TolError)
  /-- `TypeError` (`common.py:1931-1932`) -/
  | dtype
  /-- `_init_sc_control` (`common.py:1695-1697`) -/
  | sc
  /-- shape of `jac` (`common.py:1741-1744`, `1750-1753`) -/
  | jacShape
  /-- dimension and shape of `M` (`common.py:1792-1796`) -/
  | massDim
  | massShape
  /-- `_consistent_ICs`: index (`common.py:1848-1851`), no solution (`common.py:1878-1881`) -/
  | highIndex
  | noConsistent
  /-- scipy's `validate_first_step` -/
  | firstNonpos
  | firstTooLong
  /-- `h_start` of a DAE with an array `atol` (see C88) -/
  | hStart
  deriving DecidableEq

section
variable {K : Type*}

/-- An array of shape `(n, n)`, `none` for other shapes. -/
def Arr.square (n : ℕ) : Arr K → Option (Matrix (Fin n) (Fin n) K)
  | .mat r c a => if h : n = r ∧ n = c then some (a.submatrix (Fin.cast h.1) (Fin.cast h.2)) else none
  | _ => none

/-- The `jac` argument; a callable is given by its `k`-th call at `(t, y)`. -/
inductive JacArg (K : Type*) (n : ℕ) where
  | none
  | call (jac : ℕ → K → (Fin n → K) → Arr K)
  | arr (a : Arr K)

/-- `_validate_jac` (`common.py:1706-1755`): the function `self.jac` (`none` in linear mode), the first Jacobian and
`self.njev`. Results of later calls are taken to have the shape of the first (zero otherwise; the code does not check). -/
def validateJac {n : ℕ} [Zero K] (num : ℕ → K → (Fin n → K) → Matrix (Fin n) (Fin n) K) (t0 : K) (y0 : Fin n → K) :
    JacArg K n → Except EInitErr (Option (ℕ → K → (Fin n → K) → Matrix (Fin n) (Fin n) K) × Matrix (Fin n) (Fin n) K × ℕ)
  | .none => .ok (some num, num 0 t0 y0, 1)
  | .call jac =>
    match (jac 0 t0 y0).square n with
    | some J => .ok (some fun k t y => ((jac k t y).square n).getD 0, J, 1)
    | none => .error .jacShape
  | .arr a =>
    match a.square n with
    | some J => .ok (none, J, 0)
    | none => .error .jacShape

variable [Field K] [LinearOrder K]

/-- The two-dimensional `M` (`common.py:1789-1799`). -/
def massMatrix (n : ℕ) : Arr K → Except EInitErr (Matrix (Fin n) (Fin n) K)
  | .vec m v => if h : n = m then .ok (Matrix.diagonal fun i => v (Fin.cast h i)) else .error .massShape
  | .mat r c a => if h : n = r ∧ n = c then .ok (a.submatrix (Fin.cast h.1) (Fin.cast h.2)) else .error .massShape
  | .scalar _ => .error .massDim
  | .higher => .error .massDim

/-- `_handle_M` (`common.py:1778-1821`): the matrix and `isDAE`; `svd`: singular values. The storage format (`ndim`) has no
influence on the values. -/
def handleM {n : ℕ} (svd : Matrix (Fin (n + 1)) (Fin (n + 1)) K → Fin (n + 1) → K) (eps : K) :
    Option (Arr K) → Except EInitErr (Matrix (Fin (n + 1)) (Fin (n + 1)) K × Bool)
  | none => .ok (1, false)
  | some a => (massMatrix (n + 1) a).map fun M => (M, isDAE (svd M) eps)

end

/-- Machine constants of the dtype of `y`. -/
structure EMachine (K : Type*) extends Machine K where
  eps : K

/-- Class attributes. -/
structure EClassData (K : Type*) where
  T : ETab K
  order : ℕ
  orderSec : ℕ
  C : List K
  sc : ScArg K

/-- Arguments of the user; `n + 1` is the size of `y0`. -/
structure EArgs (K : Type*) (n : ℕ) where
  t0 : K
  y0 : Fin (n + 1) → K
  tb : Bound K
  maxStep : Option K
  rtol : RtolArg K
  atol : AtolArg K
  jac : JacArg K (n + 1)
  M : Option (Arr K)
  firstStep : Option K
  sc : ScArg K
  jacEach : Bool
  dtypeOK : Bool

/-- External parts of the constructor.
* `fn`: the right-hand side, `none` if not finite; `num`: `num_jac`; `svd`: singular values of `M`;
* `lin`, `dzNorm`, `errNorm`: see `ECfg`, as functions of `M`, `isDAE` and the tolerances;
* `ics M J`: `_consistent_ICs`: `y`, `yp0`, `J`; `solveM M`: `yp0` of an ODE;
* `hs dae rtol atol M b`: `h_start` up to `b`, `none` if it raises. -/
structure EExt (K : Type*) [Field K] (n : ℕ) where
  fn : K → (Fin (n + 1) → K) → Option (Fin (n + 1) → K)
  num : ℕ → K → (Fin (n + 1) → K) → Matrix (Fin (n + 1)) (Fin (n + 1)) K
  svd : Matrix (Fin (n + 1)) (Fin (n + 1)) K → Fin (n + 1) → K
  lin : Matrix (Fin (n + 1)) (Fin (n + 1)) K → Bool → Option K → Fact K (Fin (n + 1) → K) → (Fin (n + 1) → K) → Fin (n + 1) → K
  dzNorm : PyFloat K → AtolArg K → (Fin (n + 1) → K) → (Fin (n + 1) → K) → (Fin (n + 1) → K) → K
  errNorm : PyFloat K → AtolArg K → (Fin (n + 1) → K) → (Fin (n + 1) → K) → (Fin (n + 1) → K) → ENorm K
  ics : Matrix (Fin (n + 1)) (Fin (n + 1)) K → Matrix (Fin (n + 1)) (Fin (n + 1)) K →
    Except EInitErr ((Fin (n + 1) → K) × (Fin (n + 1) → K) × Matrix (Fin (n + 1)) (Fin (n + 1)) K)
  solveM : Matrix (Fin (n + 1)) (Fin (n + 1)) K → Fin (n + 1) → K
  hs : Bool → PyFloat K → AtolArg K → Matrix (Fin (n + 1)) (Fin (n + 1)) K → Option K → Option K
  Ks0 : ℕ → Fin (n + 1) → K

section
variable {K : Type*} [Field K] [LinearOrder K] {n : ℕ}

/-- The end point handed to `h_start` (`common.py:1987-1988`), as for the explicit methods. -/
def eHStartEnd (a : EArgs K n) : Option K :=
  (minInf (a.tb.dist a.t0) a.maxStep).map fun d => a.t0 + a.tb.dir a.t0 * d

/-- The size of the first step (`common.py:1983-2006`). -/
def eFirstStep (hs : Option K → Option K) (a : EArgs K n) : Except EInitErr K :=
  match a.firstStep with
  | none =>
    match hs (eHStartEnd a) with
    | some h => .ok |h|
    | none => .error .hStart
  | some x =>
    match validateFirstStep x a.t0 a.tb with
    | .ok h => .ok h
    | .error .firstNonpos => .error .firstNonpos
    | .error _ => .error .firstTooLong

/-- `self.error_exponent` (`common.py:1935-1936`). -/
def eErrExpOf (d : EClassData K) : K := -1 / ((min d.orderSec d.order : ℕ) + 1)

/-- `self.tiny_err` (`common.py:1934`). -/
def eTinyErr (Mc : EMachine K) (n : ℕ) : K := Mc.pw ((n + 1 : ℕ) : K) (1 / 2) * Mc.pw Mc.eps (4 / 5)

/-- The solver's constants after the constructor. -/
def eInitCfg (Mc : EMachine K) (d : EClassData K) (X : EExt K n) (a : EArgs K n) (rtol : PyFloat K) (atol : AtolArg K)
    (p : ScParams K) (jac : Option (ℕ → K → (Fin (n + 1) → K) → Matrix (Fin (n + 1)) (Fin (n + 1)) K))
    (M : Matrix (Fin (n + 1)) (Fin (n + 1)) K) (dae : Bool) : ECfg K (Fin (n + 1) → K) where
  T := d.T
  fn := X.fn
  jac := jac.map fun j k t y => (j k t y).mulVecLin
  jacEach := a.jacEach
  M := M.mulVecLin
  dae := dae
  lin := X.lin M dae
  dzNorm := X.dzNorm rtol atol
  errNorm := X.errNorm rtol atol
  tb := a.tb.tb
  dir := a.tb.dir a.t0
  maxStep := a.maxStep
  hMinA := hMinAOf Mc.epsneg d.C
  hMinB := Mc.sqrtTiny
  tinyErr := eTinyErr Mc n
  minFactor := 1 / 5
  errExp := eErrExpOf d
  minbeta1 := p.minbeta1
  minbeta2 := p.minbeta2
  minalpha := p.minalpha
  safety := p.safety
  safetySc := p.safetySc
  pw := Mc.pw

/-- Initial values and derivative, and the Jacobian kept (`common.py:1973-1981`). -/
def eInitialValues (X : EExt K n) (a : EArgs K n) (M : Matrix (Fin (n + 1)) (Fin (n + 1)) K) (dae : Bool)
    (J : Matrix (Fin (n + 1)) (Fin (n + 1)) K) :
    Except EInitErr ((Fin (n + 1) → K) × (Fin (n + 1) → K) × Matrix (Fin (n + 1)) (Fin (n + 1)) K) :=
  if dae then X.ics M J else .ok (a.y0, X.solveM M, J)

/-- `ESDIRK.__init__` (`common.py:1922-2006`). `nfev` is one: all other evaluations use `fun_single` or `fun_vectorized`;
the evaluations of `jac` in `_consistent_ICs` are not counted (`common.py:1873, 1886`). -/
def eInit (Mc : EMachine K) (d : EClassData K) (X : EExt K n) (a : EArgs K n) :
    Except EInitErr (ECfg K (Fin (n + 1) → K) × ESolver K (Fin (n + 1) → K)) :=
  if a.maxStep.any (fun m => decide (m ≤ 0)) then .error .maxStep
  else
    match validateTol Mc.epsneg Mc.sqrtTiny (n + 1) a.rtol a.atol with
    | .error e => .error (.tol e)
    | .ok (rtol, atol) =>
      if !a.dtypeOK then .error .dtype
      else
        match initScControl coefsESDIRK Mc.pw (eErrExpOf d) d.sc a.sc with
        | none => .error .sc
        | some p =>
          match validateJac X.num a.t0 a.y0 a.jac with
          | .error e => .error e
          | .ok (jac, J0, njev) =>
            match handleM X.svd Mc.eps a.M with
            | .error e => .error e
            | .ok (M, dae) =>
              match eInitialValues X a M dae J0 with
              | .error e => .error e
              | .ok (y, yp, J) =>
                match eFirstStep (X.hs dae rtol atol M) a with
                | .error e => .error e
                | .ok h0 =>
                  .ok (eInitCfg Mc d X a rtol atol p jac M dae, newESolver a.t0 y yp J.mulVecLin h0 X.Ks0 1 njev)

end

/-- Data of an ESDIRK class over a field with a square root `r` of two; all use the controller "G" (`common.py:1651`, `hosea.py:360` is
test code). -/
def ESTable.classData {K : Type*} [DivisionRing K] (R : ESTable) (r : K) : EClassData K where
  T := R.tab K r
  order := R.order
  orderSec := R.orderSec
  C := R.C.map fun c => c.val r
  sc := .str "G"

end Extensisq
