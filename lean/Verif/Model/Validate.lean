import Verif.Model.RK
import Mathlib.Data.Fintype.Pi
import Mathlib.Data.Fin.VecNotation

/-!
# Validation of constructor arguments

`validate_tol`, `_init_sc_control` (explicit and ESDIRK), `_init_min_step_parameters`.
-/

namespace Extensisq

/-- A Python float: a finite number, an infinity or nan. -/
inductive PyFloat (K : Type*) where
  | num (x : K)
  | pinf
  | ninf
  | nan
  deriving DecidableEq, Repr

namespace PyFloat
variable {K : Type*} [LinearOrder K]

/-- Python `x < c` for a finite `c`. -/
def ltNum : PyFloat K → K → Bool
  | num x, c => decide (x < c)
  | pinf, _ => false
  | ninf, _ => true
  | nan, _ => false

/-- `np.maximum(x, c)` for a finite `c` (nan propagates). -/
def maxNum : PyFloat K → K → PyFloat K
  | num x, c => num (max x c)
  | pinf, _ => pinf
  | ninf, c => num c
  | nan, _ => nan

/-- `np.minimum(x, c)` for a finite `c` (nan propagates). -/
def minNum : PyFloat K → K → PyFloat K
  | num x, c => num (min x c)
  | pinf, c => num c
  | ninf, _ => ninf
  | nan, _ => nan

end PyFloat

/-- The `atol` argument after `np.asarray`: a scalar, a vector, or an array of higher dimension
(only its entries matter, since its shape is wrong). -/
inductive AtolArg (K : Type*) where
  | scalar (x : PyFloat K)
  | vector (l : List (PyFloat K))
  | higher (l : List (PyFloat K))

/-- The `rtol` argument: a float, or an object of another type (e.g. an `int`). -/
inductive RtolArg (K : Type*) where
  | float (x : PyFloat K)
  | other

/-- The four messages of `validate_tol`. -/
inductive TolError where
  | atolShape
  | atolNegative
  | rtolType
  | rtolNegative
  deriving DecidableEq, Repr

def AtolArg.entries {K : Type*} : AtolArg K → List (PyFloat K)
  | .scalar x => [x]
  | .vector l => l
  | .higher l => l

/-- `atol.ndim > 0 and atol.shape != (y.size,)` negated (`common.py:36`). -/
def AtolArg.shapeOK {K : Type*} (n : ℕ) : AtolArg K → Bool
  | .scalar _ => true
  | .vector l => decide (l.length = n)
  | .higher _ => false

/-- `np.maximum(atol, sqrt(tiny))` (`common.py:48`). -/
def AtolArg.clip {K : Type*} [LinearOrder K] (sqrtTiny : K) : AtolArg K → AtolArg K
  | .scalar x => .scalar (x.maxNum sqrtTiny)
  | .vector l => .vector (l.map fun x => x.maxNum sqrtTiny)
  | .higher l => .higher (l.map fun x => x.maxNum sqrtTiny)

section
variable {K : Type*} [Field K] [LinearOrder K]

/-- `validate_tol` (`common.py:30-54`); `n = y.size`, `epsneg` and `sqrtTiny = sqrt(tiny)` belong to the
dtype of `y`. The result is `(rtol, atol)`. -/
def validateTol (epsneg sqrtTiny : K) (n : ℕ) (rtol : RtolArg K) (atol : AtolArg K) :
    Except TolError (PyFloat K × AtolArg K) :=
  if !atol.shapeOK n then .error .atolShape
  else if atol.entries.any (fun x => x.ltNum 0) then .error .atolNegative
  else
    match rtol with
    | .other => .error .rtolType
    | .float r =>
      if r.ltNum 0 then .error .rtolNegative
      else
        .ok ((r.maxNum (10 * epsneg)).minNum (1 / 10), atol.clip sqrtTiny)

/-! ### Controller parameters -/

/-- The `sc_params` argument: `None` (or another falsy object), a string, a tuple, or something else
that is truthy. -/
inductive ScArg (K : Type*) where
  | falsy
  | str (s : String)
  | tuple (l : List K)
  | other

/-- Python truth value. -/
def ScArg.truthy : ScArg K → Bool
  | .falsy => false
  | .str s => s != ""
  | .tuple l => !l.isEmpty
  | .other => true

/-- The predefined controllers `coefs`; explicit family (`common.py:167-169`). -/
def coefsRK : String → Option (K × K × K × K)
  | "G" => some (7 / 10, -4 / 10, 0, 9 / 10)
  | "S" => some (6 / 10, -2 / 10, 0, 9 / 10)
  | "standard" => some (1, 0, 0, 9 / 10)
  | _ => none

/-- ESDIRK family (`common.py:1686-1688`). -/
def coefsESDIRK : String → Option (K × K × K × K)
  | "G" => some (2, -1, -1, 8 / 10)
  | "S" => some (11 / 10, -7 / 10, -1, 8 / 10)
  | "standard" => some (1, 0, 0, 8 / 10)
  | _ => none

/-- Parameters set by `_init_sc_control`. -/
structure ScParams (K : Type*) where
  minbeta1 : K
  minbeta2 : K
  minalpha : K
  safety : K
  safetySc : K

/-- Selection of the four coefficients (`common.py:172-178`). -/
def scSelect (coefs : String → Option (K × K × K × K)) : ScArg K → Option (K × K × K × K)
  | .str s => coefs s
  | .tuple [p, q, r, g] => some (p, q, r, g)
  | _ => none

/-- `_init_sc_control` (`common.py:166-185`); `default` is the class attribute `sc_params`, `pw` the
power operator. `none` is the `ValueError`. -/
def initScControl (coefs : String → Option (K × K × K × K)) (pw : K → K → K) (errExp : K)
    (default : ScArg K) (arg : ScArg K) : Option (ScParams K) :=
  let a := if arg.truthy then arg else default
  (scSelect coefs a).map fun (kb1, kb2, a, g) =>
    { minbeta1 := kb1 * errExp, minbeta2 := kb2 * errExp, minalpha := -a, safety := g,
      safetySc := pw g (kb1 + kb2) }

/-! ### Minimal step -/

/-- Minimal distance of distinct nodes, at most one, before clipping (`common.py:130-135`). -/
def cdiffRaw (C : List K) : K :=
  C.foldl (fun m c1 => C.foldl (fun m c2 => if |c1 - c2| ≠ 0 then min m |c1 - c2| else m) m) 1

/-- After clipping at `1e-3` (`common.py:136-137`). -/
def cdiff (C : List K) : K := if cdiffRaw C < 1 / 1000 then 1 / 1000 else cdiffRaw C

/-- `h_min_a` (`common.py:146`). -/
def hMinAOf (epsneg : K) (C : List K) : K := 10 * epsneg / cdiff C

end
end Extensisq
