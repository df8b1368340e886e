import Verif.Model.FloatTime
import Verif.Model.Swag
import Verif.Model.Cheb

/-!
# The time arithmetic of SWAG and SSV2stab in floating point

As in `Model/FloatTime.lean` the operations on the time, the step size and the minimal step are rounded, operation by operation in the order of the code, and
what the step does to the solution is an arbitrary input: the factors after rejected attempts, the choice of the next step size, the number of stages.

Not modelled here: the failures for other reasons (`shampine.py:234-238`: tolerance too tight; `sommeijer.py:179-183, 227`: no spectral radius, overflow).
-/

namespace Extensisq
noncomputable section

/-! ## SWAG -/

/-- Rounding, and what the time arithmetic reads of a `SWAG` object: `t_bound`, `direction`, `max_step`, `fouru` (`shampine.py:122-124`). -/
structure FlSwag where
  fl : ℝ → ℝ
  tb : Option ℝ
  dir : ℝ
  maxStep : Option ℝ
  fouru : ℝ

/-- `min_step = self.fouru * abs(x)` (`shampine.py:197`). -/
def fswMin (c : FlSwag) (x : ℝ) : ℝ := c.fl (c.fouru * |x|)

/-- Is `t_bound` so close that the solution is extrapolated (`shampine.py:210-211`)? -/
def fswNear (c : FlSwag) (x : ℝ) : Bool :=
  match c.tb with
  | none => false
  | some b => decide (|c.fl (b - x)| ≤ fswMin c x)

/-- "don't allow to step over t_bound" (`shampine.py:219-221`). -/
def fswLimit1 (c : FlSwag) (x h : ℝ) : ℝ :=
  match c.tb with
  | none => h
  | some b => if 0 < c.dir * c.fl (h - c.fl (b - x)) then c.fl (b - x) else h

/-- "limit h to max_step" (`shampine.py:223-226`): the step size of the first attempt. -/
def fswLimit (c : FlSwag) (x h : ℝ) : ℝ :=
  match c.maxStep with
  | none => fswLimit1 c x h
  | some m => copySign (min m |fswLimit1 c x h|) c.dir

/-- The loop over the attempts (`shampine.py:246-396`): the list contains the factor `temp2` of every rejected attempt (`shampine.py:386-393`). The result is the
step size of the accepted attempt, `none` is `return False, self.TOO_SMALL_STEP`. -/
def fswLoop (c : FlSwag) (m : ℝ) : List ℝ → ℝ → Option ℝ
  | [], h => some h
  | φ :: l, h => if |c.fl (h * φ)| < m then none else fswLoop c m l (c.fl (h * φ))

/-- The three choices of the next step size (`shampine.py:458-468`); `r` is the value of the power. -/
inductive SwagAfter where
  | double
  | keep
  | reduce (r : ℝ)

/-- The step size for the next step (`shampine.py:458-468`). -/
def fswNext (c : FlSwag) (m h : ℝ) : SwagAfter → ℝ
  | .double => c.fl (h + h)
  | .keep => h
  | .reduce r => copySign (max (c.fl (|h| * max (1 / 2) (min (c.fl (9 / 10)) r))) m) h

/-- The time arithmetic of `SWAG._step_impl` (`shampine.py:180-480`): the new `t` and `self.h`; `none` is the failure with a too small step. -/
def fswStep (c : FlSwag) (x h : ℝ) (rej : List ℝ) (acc : SwagAfter) : Option (ℝ × ℝ) :=
  if fswNear c x = true then some (c.tb.getD x, h)
  else if |fswLimit c x h| < fswMin c x then none
  else (fswLoop c (fswMin c x) rej (fswLimit c x h)).map fun h' => (c.fl (x + h'), fswNext c (fswMin c x) h' acc)

/-! ## SSV2stab -/

/-- Rounding, and what the time arithmetic reads of an `SSV2stab` object (`sommeijer.py:119-145`). -/
structure FlCheb where
  fl : ℝ → ℝ
  tb : Option ℝ
  dir : ℝ
  maxStep : ℝ
  uround : ℝ
  sqrtmin : ℝ

/-- The last step (`sommeijer.py:190-191`). -/
def fcFit (c : FlCheb) (t absh : ℝ) : ℝ :=
  match c.tb with
  | none => absh
  | some b => if |c.fl (b - t)| ≤ c.fl (c.fl (11 / 10) * absh) then |c.fl (b - t)| else absh

/-- The minimal step of an attempt (`sommeijer.py:211-212`). -/
def fcHmin (c : FlCheb) (t absh : ℝ) (m : ℕ) : ℝ :=
  max c.sqrtmin (c.fl (c.fl (c.fl (c.fl (133 / 10) * c.uround) * c.fl (|t| + absh)) * c.fl ((m : ℝ) ^ 2 - 1)))

/-- An attempt: the number of stages, and the step size if it is limited by the number of stages (`sommeijer.py:192-197`). -/
structure ChebTry where
  m : ℕ
  lim : Option ℝ

/-- The step size of an attempt (`sommeijer.py:190-197`). -/
def fcSize (c : FlCheb) (t absh : ℝ) (a : ChebTry) : ℝ := a.lim.getD (fcFit c t absh)

/-- The loop over the attempts (`sommeijer.py:172-235`): the list contains the rejected attempts, each with the reduced step size `0.8 * absh / err**one3rd`; the
result is the `absh` with which the accepted attempt begins, `none` is `return False, self.TOO_SMALL_STEP`. -/
def fcLoop (c : FlCheb) (t : ℝ) : List (ChebTry × ℝ) → ℝ → Option ℝ
  | [], absh => some absh
  | (a, new) :: l, absh => if new < fcHmin c t (fcSize c t absh a) a.m then none else fcLoop c t l new

/-- The time arithmetic of `SSV2stab._step_impl` (`sommeijer.py:162-270`): the new `t` and `self.absh`; `last` is the accepted attempt, `next` the value of
`max(0.1, fac) * absh`. -/
def fcStep (c : FlCheb) (t absh : ℝ) (rej : List (ChebTry × ℝ)) (last : ChebTry) (next : ℝ) : Option (ℝ × ℝ) :=
  (fcLoop c t rej absh).map fun a => (c.fl (t + c.dir * fcSize c t a last),
    max (fcHmin c t (fcSize c t a last) last.m) (min c.maxStep next))

end
end Extensisq
