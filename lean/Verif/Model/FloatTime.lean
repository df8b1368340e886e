import Mathlib.Algebra.Order.Archimedean.Real.Basic
import Verif.Spec.Float
import Verif.Model.Driver

/-!
# The time arithmetic of a step in floating point

The rest of the model computes in a field, without rounding. Here the operations on the time, the step size and
the minimal step are rounded, operation by operation in the order of the code: `_init_min_step_parameters`
(`common.py:123-147`), `_reassess_stepsize` (`common.py:310-331`, `common.py:2168-2181`), the loop of
`_step_impl` (`common.py:222-308`) and the time of a stage (`common.py:356`). What the loop does to the
solution is not modelled here: the factors with which the step size is multiplied after each attempt
(`common.py:272`, `common.py:280-281`) are arbitrary inputs, one list entry for each rejected attempt and one
number for the accepted one. So the statements hold whatever the problem and the error estimates are.

Simplifications: no overflow (`Spec/Float.lean`); `direction` is `±1.0`, so that `h_abs * direction` is exact.
-/

namespace Extensisq
noncomputable section

/-- Rounding of the operations, and what the time arithmetic reads of the solver: `t_bound`, `direction`,
`max_step`, `h_min_a`, `h_min_b`. -/
structure FlTime where
  fl : ℝ → ℝ
  tb : Option ℝ
  dir : ℝ
  maxStep : Option ℝ
  hMinA : ℝ
  hMinB : ℝ

/-- The smallest distance of distinct nodes, before clipping (`common.py:129-135`). -/
def flCdiffRaw (fl : ℝ → ℝ) (C : List ℝ) : ℝ :=
  C.foldl (fun m c1 => C.foldl (fun m c2 => if |fl (c1 - c2)| ≠ 0 then min m |fl (c1 - c2)| else m) m) 1

/-- After clipping at the float `1e-3` (`common.py:136-137`). -/
def flCdiff (fl : ℝ → ℝ) (C : List ℝ) : ℝ :=
  if flCdiffRaw fl C < fl (1 / 1000) then fl (1 / 1000) else flCdiffRaw fl C

/-- `h_min_a = 10 * epsneg / cdiff` (`common.py:146`), with `epsneg` the unit roundoff `2^-p`. -/
def flHMinA (fl : ℝ → ℝ) (epsneg : ℝ) (C : List ℝ) : ℝ := fl (fl (10 * epsneg) / flCdiff fl C)

/-- `min_step` (`common.py:313`, `common.py:2170`). -/
def flMinStep (c : FlTime) (t h0 : ℝ) : ℝ := max (c.fl (c.hMinA * c.fl (|t| + h0))) c.hMinB

/-- The limits of the step size (`common.py:314-316`, `common.py:2171-2173`). -/
def flClip (c : FlTime) (t h0 : ℝ) : ℝ :=
  if h0 < flMinStep c t h0 ∨ overMax c.maxStep h0 = true then capMax c.maxStep (max (flMinStep c t h0) h0) else h0

/-- The rest of the interval `d = abs(self.t_bound - t)` (`common.py:319`, `common.py:2176`). -/
def flRest (c : FlTime) (b t : ℝ) : ℝ := |c.fl (b - t)|

/-- The final steps (`common.py:319-330`): `h_abs` of the first attempt. -/
def flFit (c : FlTime) (t h1 m : ℝ) : ℝ :=
  match c.tb with
  | none => h1
  | some b =>
    if flRest c b t < c.fl (2 * h1) then
      if flRest c b t > h1 then max (c.fl (flRest c b t / 2)) m else flRest c b t
    else h1

/-- `RungeKutta._reassess_stepsize` (`common.py:310-331`): `h_abs` of the first attempt. -/
def flReassess (c : FlTime) (t h0 : ℝ) : ℝ := flFit c t (flClip c t h0) (flMinStep c t h0)

/-- The final step of an ESDIRK method (`common.py:2176-2179`). -/
def flFitE (c : FlTime) (t h1 : ℝ) : ℝ :=
  match c.tb with
  | none => h1
  | some b =>
    if |c.fl (c.fl (flRest c b t / h1) - 1)| < c.fl (1 / 100) ∨ flRest c b t < h1 then flRest c b t else h1

/-- `ESDIRK._reassess_stepsize` (`common.py:2168-2181`): `h_abs` of the first attempt. -/
def flReassessE (c : FlTime) (t h0 : ℝ) : ℝ := flFitE c t (flClip c t h0)

/-- The loop over the attempts (`common.py:232-288`; `common.py:2026-2105` for ESDIRK): the list contains the
factor of every rejected attempt. The result is `h_abs` of the accepted attempt, `none` is
`return False, self.TOO_SMALL_STEP`. -/
def flLoop (c : FlTime) (m : ℝ) : List ℝ → ℝ → Option ℝ
  | [], h => if h < m then none else some h
  | φ :: l, h => if h < m then none else flLoop c m l (c.fl (h * φ))

/-- A step from `t` with first attempt `h` and minimal step `m`: the new time `t + h * direction`
(`common.py:236-237`) and the new `h_abs` (`common.py:272`). -/
def flAdvance (c : FlTime) (t h m : ℝ) (rej : List ℝ) (acc : ℝ) : Option (ℝ × ℝ) :=
  (flLoop c m rej h).map fun h' => (c.fl (t + h' * c.dir), c.fl (h' * acc))

/-- The time arithmetic of `RungeKutta._step_impl` (`common.py:222-308`). -/
def flStep (c : FlTime) (t h0 : ℝ) (rej : List ℝ) (acc : ℝ) : Option (ℝ × ℝ) :=
  flAdvance c t (flReassess c t h0) (flMinStep c t h0) rej acc

/-- The time arithmetic of `ESDIRK._step_impl`. -/
def flStepE (c : FlTime) (t h0 : ℝ) (rej : List ℝ) (acc : ℝ) : Option (ℝ × ℝ) :=
  flAdvance c t (flReassessE c t h0) (flMinStep c t h0) rej acc

/-- The time at which a stage with node `ν` is evaluated (`common.py:356`, `common.py:1283-1287`). -/
def flStageTime (fl : ℝ → ℝ) (t h ν : ℝ) : ℝ := fl (t + fl (ν * h))

/-- Repeated steps: the state is the time and `h_abs`; every step has its own factors. -/
inductive FlReach (c : FlTime) : ℝ × ℝ → ℝ × ℝ → Prop
  | refl (s : ℝ × ℝ) : FlReach c s s
  | step {s s' s'' : ℝ × ℝ} (rej : List ℝ) (acc : ℝ) (hrej : ∀ φ ∈ rej, 0 < φ) (hacc : 0 < acc)
      (hr : FlReach c s s') (h : flStep c s'.1 s'.2 rej acc = some s'') : FlReach c s s''

end
end Extensisq
