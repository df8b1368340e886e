import Mathlib.Algebra.Order.Field.Basic
import Mathlib.Algebra.Order.Ring.Abs
import Mathlib.Tactic.Linarith
import Mathlib.Tactic.Positivity
import Mathlib.Analysis.SpecialFunctions.Pow.Real

/-!
# Numbers as seen by the Python code

Finite numbers are elements of an ordered field `K` (exact arithmetic).  Error norms can also be
`inf` or `nan`; comparisons with them follow Python / IEEE rules.
-/

namespace Extensisq

/-- Result of `norm(error/scale)` (`common.py:64-66, 338-339`): a finite number, `inf` or `nan`.
The sign of an infinite norm is irrelevant (a root mean square is never negative). -/
inductive ENorm (K : Type*) where
  | num (x : K)
  | inf
  | nan
  deriving DecidableEq, Repr

namespace ENorm
variable {K : Type*} [LinearOrder K]

/-- Python `x < c` for a finite `c`: false for `inf` and for `nan`. -/
def lt (e : ENorm K) (c : K) : Bool :=
  match e with
  | num x => decide (x < c)
  | inf => false
  | nan => false

/-- Python `x > c` for a finite `c`: true for `inf`, false for `nan`. -/
def gt (e : ENorm K) (c : K) : Bool :=
  match e with
  | num x => decide (c < x)
  | inf => true
  | nan => false

end ENorm

/-- What is used of the power operator `x ** e` on positive numbers. -/
structure PowOK {K : Type*} [Field K] [LinearOrder K] (pw : K → K → K) : Prop where
  /-- a power of a positive number is positive -/
  pos : ∀ x e : K, 0 < x → 0 < pw x e
  /-- a number of at least one to a non-positive exponent is at most one -/
  le_one : ∀ x e : K, 1 ≤ x → e ≤ 0 → pw x e ≤ 1
  /-- a number of at most one to a non-positive exponent is at least one -/
  one_le : ∀ x e : K, 0 < x → x ≤ 1 → e ≤ 0 → 1 ≤ pw x e

/-- The real power function satisfies `PowOK`: the hypothesis is met by the code's arithmetic. -/
theorem PowOK.rpow : PowOK (K := ℝ) (fun x e => x ^ e) where
  pos _ e hx := Real.rpow_pos_of_pos hx e
  le_one _ _ hx he := Real.rpow_le_one_of_one_le_of_nonpos hx he
  one_le _ _ hx hx1 he := Real.one_le_rpow_of_pos_of_le_one_of_nonpos hx hx1 he

/-- A computable power-like function used only in executed examples (`x ** e` with `e = -1`). -/
def pwInv (x e : ℚ) : ℚ := if e = 0 then 1 else if e < 0 then 1 / x else x

theorem PowOK.inv : PowOK pwInv where
  pos x e hx := by unfold pwInv; split_ifs <;> positivity
  le_one x e hx he := by
    unfold pwInv
    split_ifs with h1 h2
    · exact le_refl _
    · rw [div_le_one (by linarith)]; exact hx
    · exfalso; exact h1 (le_antisymm he (not_lt.mp h2))
  one_le x e hx hx1 he := by
    unfold pwInv
    split_ifs with h1 h2
    · exact le_refl _
    · rw [one_le_div hx]; exact hx1
    · exfalso; exact h1 (le_antisymm he (not_lt.mp h2))

end Extensisq
