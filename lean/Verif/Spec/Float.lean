import Mathlib.Data.Int.Log
import Mathlib.Algebra.Order.Round
import Mathlib.Algebra.Order.Archimedean.Real.Basic
import Mathlib.Tactic.Linarith
import Mathlib.Tactic.Positivity
import Mathlib.Tactic.FieldSimp
import Mathlib.Tactic.Ring

/-!
# Binary floating-point numbers and rounding to nearest

The standard definition (IEEE 754), without an upper limit of the exponent: there is no overflow. `p` is the
precision (53 for `float64`), `emin` the exponent of the smallest subnormal number (-1074). The unit
roundoff `2 ^ (-p)` is numpy's `finfo.epsneg`.
-/

namespace Extensisq

/-- A floating-point number: an integer of fewer than `p` bits times a power of two. -/
def IsFloat (p : ℕ) (emin : ℤ) (x : ℝ) : Prop :=
  ∃ m e : ℤ, |m| < 2 ^ p ∧ emin ≤ e ∧ x = m * (2 : ℝ) ^ e

/-- `fl` rounds every real number to a nearest floating-point number (whatever the rule for ties). -/
def RoundsToNearest (p : ℕ) (emin : ℤ) (fl : ℝ → ℝ) : Prop :=
  ∀ x, IsFloat p emin (fl x) ∧ ∀ y, IsFloat p emin y → |fl x - x| ≤ |y - x|

/-- The unit roundoff. -/
noncomputable def unitRoundoff (p : ℕ) : ℝ := ((2 : ℝ) ^ p)⁻¹

end Extensisq
