import Mathlib.Data.List.Basic
import Mathlib.Tactic.Linarith

/-!
# Argument checks of the sensitivity functions

`_test_functions` (`sensitivity.py:16-57`) and the checks at the beginning of `sens_forward`
(`sensitivity.py:134-172`), `sens_adjoint_end` and `sens_adjoint_int` (`sensitivity.py:297-341`, `sensitivity.py:463-507`;
the same text). An array argument is represented by what the checks read: its shape (after `np.asarray`) and
whether its dtype is `float64`. A function argument by whether it is callable, whether it has a `__name__` (which the error
messages read) and the shape of what it returns when called with `(t0, y0, *p)` (`none` if it raises).
-/

namespace Extensisq

/-- Kinds of exceptions. -/
inductive PyErr
  | assertion | value | type | attribute
  deriving DecidableEq, Repr

/-- An array argument. -/
structure ArrArg where
  shape : List ℕ
  float64 : Bool

/-- `a.size`. -/
def ArrArg.size (a : ArrArg) : ℕ := a.shape.prod

/-- A function argument. -/
structure FnArg where
  callable : Bool
  named : Bool
  call : Option (List ℕ)

/-- Raising an error of which the message reads `fun.__name__` (`sensitivity.py:20, 39, 45, 54`). -/
def raiseNamed (f : FnArg) (e : PyErr) : Except PyErr Unit := .error (if f.named then e else .attribute)

/-- `expected_shape` (`sensitivity.py:48-50`). -/
def expectedShape (n ndim : ℕ) (Np : Option ℕ) : List ℕ :=
  match Np with
  | none => List.replicate ndim n
  | some m => (List.replicate ndim n).dropLast ++ [m]

/-- `_test_functions(fun, t0, y0, ndim, args=p, Np)` (`sensitivity.py:16-57`); `iter`: is `p` iterable (not 0-d)? -/
def testFunctions (f : FnArg) (iter : Bool) (n ndim : ℕ) (Np : Option ℕ) : Except PyErr Unit :=
  if f.callable = false then raiseNamed f .assertion
  else if iter = false then .error .type
  else
    match f.call with
    | none => raiseNamed f .assertion
    | some s =>
      if s.length ≠ ndim then raiseNamed f .value
      else if (s.zip (expectedShape n ndim Np)).any (fun q => q.1 != q.2) then raiseNamed f .value
      else .ok ()

/-- `atol` of `sens_forward`: a float, an int (or another scalar that is not a Python float), a list or tuple, an array. -/
inductive SensAtol
  | float | int | list (len : ℕ) | array (len : ℕ)

/-- `isinstance(atol, float) or len(atol) == Ny` (`sensitivity.py:163`); `len` of an int raises `TypeError`. -/
def atolCheck (Ny : ℕ) : SensAtol → Except PyErr Unit
  | .float => .ok ()
  | .int => .error .type
  | .list k => if k = Ny then .ok () else .error .assertion
  | .array k => if k = Ny then .ok () else .error .assertion

/-- `atol/factor` (`sensitivity.py:170`), made for every parameter: `factor` is a numpy number, by which a list can be
divided (the result is an array), except for a parameter that is zero: then it is the Python float `1.`
(`sensitivity.py:169`) and the division of a list raises `TypeError`. -/
def atolDivide (zeroP : Bool) : SensAtol → Except PyErr Unit
  | .list _ => if zeroP then .error .type else .ok ()
  | _ => .ok ()

/-- What the checks of `sens_forward` read. `tEvalEnd`: `t_eval` is `None` or its last entry is `tf`;
`zeroP`: a parameter is zero. -/
structure FwdArgs where
  y0 : ArrArg
  p : ArrArg
  dy0dp : ArrArg
  tEvalEnd : Bool
  fn : FnArg
  dfdp : FnArg
  jac : FnArg
  rtolFloat : Bool
  atol : SensAtol
  zeroP : Bool

/-- `assert`. -/
def pyAssert (b : Bool) : Except PyErr Unit := if b then .ok () else .error .assertion

/-- `if not b: raise ValueError`. -/
def pyRequire (b : Bool) : Except PyErr Unit := if b then .ok () else .error .value

/-- The checks of `sens_forward` (`sensitivity.py:134-171`). Simplification: a parameter array of two or more dimensions
is treated like its flattened form (the code does not test `p.ndim`). -/
def fwdChecks (x : FwdArgs) : Except PyErr Unit := do
  pyRequire x.y0.float64
  pyAssert (x.y0.shape.length == 1)
  pyAssert (x.dy0dp.shape.length == 2)
  pyAssert ([x.y0.size, x.p.size] == x.dy0dp.shape)
  pyAssert x.tEvalEnd
  testFunctions x.fn (x.p.shape.length != 0) x.y0.size 1 none
  testFunctions x.dfdp (x.p.shape.length != 0) x.y0.size 2 (some x.p.size)
  testFunctions x.jac (x.p.shape.length != 0) x.y0.size 2 none
  pyAssert x.rtolFloat
  atolCheck x.y0.size x.atol
  atolDivide x.zeroP x.atol

/-- What the checks of the adjoint methods read. `solY`: `none` if `sol_y` is not given, otherwise whether it has a dense
output. -/
structure AdjArgs where
  y0 : ArrArg
  p : ArrArg
  dy0dp : ArrArg
  fn : FnArg
  dfdp : FnArg
  jac : FnArg
  g : FnArg
  dgdy : FnArg
  dgdp : FnArg
  solY : Option Bool

/-- The checks of `sens_adjoint_end` and `sens_adjoint_int` before the first integration (`sensitivity.py:297-329`,
`sensitivity.py:463-495`). -/
def adjChecks (x : AdjArgs) : Except PyErr Unit := do
  pyRequire (x.y0.shape.length == 1)
  pyRequire x.y0.float64
  pyRequire (x.p.shape.length == 1)
  pyRequire x.p.float64
  pyRequire (x.dy0dp.shape.length == 2)
  pyRequire (x.dy0dp.shape == [x.y0.size, x.p.size])
  testFunctions x.fn (x.p.shape.length != 0) x.y0.size 1 none
  testFunctions x.dfdp (x.p.shape.length != 0) x.y0.size 2 (some x.p.size)
  testFunctions x.jac (x.p.shape.length != 0) x.y0.size 2 none
  testFunctions x.dgdy (x.p.shape.length != 0) x.y0.size 1 none
  testFunctions x.dgdp (x.p.shape.length != 0) x.y0.size 1 (some x.p.size)
  testFunctions x.g (x.p.shape.length != 0) x.y0.size 1 (some 1)
  pyRequire (x.solY != some false)

end Extensisq
