import Mathlib.RingTheory.Polynomial.Chebyshev
import Mathlib.Analysis.SpecialFunctions.Trigonometric.Chebyshev.Basic
import Mathlib.Analysis.SpecialFunctions.Trigonometric.DerivHyp
import Mathlib.Analysis.SpecialFunctions.Arcosh
import Mathlib.Analysis.Calculus.Deriv.MeanValue
import Mathlib.Tactic.LinearCombination
import Mathlib.Tactic.FieldSimp

/-!
# Chebyshev polynomials beyond 1, and hyperbolic inequalities
-/

set_option linter.unusedSectionVars false

namespace Extensisq
open Polynomial Polynomial.Chebyshev

/-- `T_j`, `T_j'`, `T_j''` at `w`. -/
noncomputable def zT (w : ℝ) (j : ℕ) : ℝ := (T ℝ j).eval w
noncomputable def dT (w : ℝ) (j : ℕ) : ℝ := (derivative (T ℝ j)).eval w
noncomputable def d2T (w : ℝ) (j : ℕ) : ℝ := (derivative (derivative (T ℝ j))).eval w

theorem T_succ_succ (j : ℕ) : T ℝ ((j + 2 : ℕ) : ℤ) = 2 * X * T ℝ ((j + 1 : ℕ) : ℤ) - T ℝ (j : ℤ) := by
  have := T_add_two ℝ (j : ℤ)
  push_cast
  exact this

theorem zT_zero (w : ℝ) : zT w 0 = 1 := by simp [zT]
theorem zT_one (w : ℝ) : zT w 1 = w := by simp [zT]
theorem dT_zero (w : ℝ) : dT w 0 = 0 := by simp [dT]
theorem dT_one (w : ℝ) : dT w 1 = 1 := by simp [dT]
theorem d2T_zero (w : ℝ) : d2T w 0 = 0 := by simp [d2T]
theorem d2T_one (w : ℝ) : d2T w 1 = 0 := by simp [d2T]

theorem zT_succ (w : ℝ) (j : ℕ) : zT w (j + 2) = 2 * w * zT w (j + 1) - zT w j := by
  unfold zT
  rw [T_succ_succ]
  simp

theorem dT_succ (w : ℝ) (j : ℕ) : dT w (j + 2) = 2 * w * dT w (j + 1) - dT w j + 2 * zT w (j + 1) := by
  unfold dT zT
  rw [T_succ_succ]
  simp only [derivative_sub, derivative_mul, derivative_X, derivative_ofNat, eval_sub, eval_add, eval_mul,
    eval_X, eval_ofNat, eval_one, zero_mul, zero_add, eval_zero]
  ring

theorem d2T_succ (w : ℝ) (j : ℕ) : d2T w (j + 2) = 2 * w * d2T w (j + 1) - d2T w j + 4 * dT w (j + 1) := by
  unfold dT d2T
  rw [T_succ_succ]
  simp only [derivative_sub, derivative_add, derivative_mul, derivative_X, derivative_ofNat, derivative_one, eval_sub, eval_add, eval_mul,
    eval_X, eval_ofNat, eval_one, zero_mul, zero_add, mul_zero, add_zero, eval_zero, derivative_zero]
  ring

theorem zT_mono {w : ℝ} (hw : 1 ≤ w) (j : ℕ) : 1 ≤ zT w j ∧ zT w j ≤ zT w (j + 1) := by
  induction j with
  | zero => rw [zT_zero, zT_one]; exact ⟨le_rfl, hw⟩
  | succ j ih =>
    refine ⟨ih.1.trans ih.2, ?_⟩
    rw [zT_succ]
    nlinarith [ih.1, ih.2]

theorem dT_mono {w : ℝ} (hw : 1 ≤ w) (j : ℕ) : 0 ≤ dT w j ∧ dT w j + 1 ≤ dT w (j + 1) := by
  induction j with
  | zero => rw [dT_zero, dT_one]; norm_num
  | succ j ih =>
    have hz := (zT_mono hw (j + 1)).1
    refine ⟨by linarith, ?_⟩
    rw [dT_succ]
    nlinarith [ih.1, ih.2]

theorem dT_pos {w : ℝ} (hw : 1 ≤ w) {j : ℕ} (hj : 1 ≤ j) : 0 < dT w j := by
  obtain ⟨k, rfl⟩ : ∃ k, j = k + 1 := ⟨j - 1, by omega⟩
  have := dT_mono hw k
  linarith

theorem d2T_mono {w : ℝ} (hw : 1 ≤ w) (j : ℕ) : 0 ≤ d2T w j ∧ d2T w j ≤ d2T w (j + 1) := by
  induction j with
  | zero => rw [d2T_zero, d2T_one]; norm_num
  | succ j ih =>
    have hd := (dT_mono hw (j + 1)).1
    refine ⟨by linarith, ?_⟩
    rw [d2T_succ]
    nlinarith [ih.1, ih.2]

theorem d2T_pos {w : ℝ} (hw : 1 ≤ w) {j : ℕ} (hj : 2 ≤ j) : 0 < d2T w j := by
  obtain ⟨k, rfl⟩ : ∃ k, j = k + 2 := ⟨j - 2, by omega⟩
  have h1 := d2T_mono hw k
  have h2 := dT_pos hw (j := k + 1) (by omega)
  rw [d2T_succ]
  nlinarith

/-! ### Hyperbolic form -/

theorem zT_cosh (s : ℝ) (j : ℕ) : zT (Real.cosh s) j = Real.cosh (j * s) := by
  unfold zT
  rw [T_real_cosh]
  push_cast
  rfl

theorem dT_cosh (s : ℝ) (j : ℕ) : dT (Real.cosh s) j * Real.sinh s = j * Real.sinh (j * s) := by
  unfold dT
  rw [T_derivative_eq_U]
  have := U_real_cosh s ((j : ℤ) - 1)
  push_cast at this
  rw [sub_add_cancel] at this
  rw [eval_mul, mul_assoc, this]
  simp

theorem d2T_cosh (s : ℝ) (j : ℕ) : d2T (Real.cosh s) j * Real.sinh s ^ 2 =
    (j : ℝ) ^ 2 * Real.cosh (j * s) - Real.cosh s * dT (Real.cosh s) j := by
  have h := one_sub_X_sq_mul_derivative_derivative_T_eq_poly_in_T (R := ℝ) (j : ℤ)
  have h2 := congrArg (eval (Real.cosh s)) h
  simp only [eval_mul, eval_sub, eval_one, eval_pow, eval_X, Function.iterate_succ, Function.iterate_zero,
    Function.comp_apply, id] at h2
  have h3 := zT_cosh s j
  unfold zT at h3
  have e : Real.sinh s ^ 2 = Real.cosh s ^ 2 - 1 := Real.sinh_sq s
  unfold d2T dT
  rw [e]
  simp only [Int.cast_natCast, eval_natCast, h3] at h2
  linear_combination -h2

/-! ### Inequalities -/

theorem nonneg_of_deriv {g g' : ℝ → ℝ} (h0 : g 0 = 0) (hd : ∀ x, HasDerivAt g (g' x) x)
    (hp : ∀ x, 0 ≤ x → 0 ≤ g' x) {x : ℝ} (hx : 0 ≤ x) : 0 ≤ g x := by
  have : MonotoneOn g (Set.Ici 0) := by
    apply monotoneOn_of_deriv_nonneg (convex_Ici 0)
    · exact fun x _ => (hd x).continuousAt.continuousWithinAt
    · exact fun x _ => (hd x).differentiableAt.differentiableWithinAt
    · intro x hx'
      rw [interior_Ici] at hx'
      rw [(hd x).deriv]
      exact hp x (le_of_lt hx')
  have := this (Set.mem_Ici.mpr le_rfl) (Set.mem_Ici.mpr hx) hx
  rwa [h0] at this

theorem sinh_nonneg {x : ℝ} (hx : 0 ≤ x) : 0 ≤ Real.sinh x := Real.sinh_nonneg_iff.mpr hx

theorem x_cosh_ge_sinh {x : ℝ} (hx : 0 ≤ x) : Real.sinh x ≤ x * Real.cosh x := by
  have := nonneg_of_deriv (g := fun x => x * Real.cosh x - Real.sinh x) (g' := fun x => x * Real.sinh x)
    (by simp) (fun x => by
      have := ((hasDerivAt_id x).mul (Real.hasDerivAt_cosh x)).sub (Real.hasDerivAt_sinh x)
      exact this.congr_deriv (by simp))
    (fun x hx => mul_nonneg hx (sinh_nonneg hx)) hx
  linarith

theorem x_cosh_le {x : ℝ} (hx : 0 ≤ x) : x * Real.cosh x ≤ (1 + x ^ 2 / 3) * Real.sinh x := by
  have := nonneg_of_deriv (g := fun x => (1 + x ^ 2 / 3) * Real.sinh x - x * Real.cosh x)
    (g' := fun x => x / 3 * (x * Real.cosh x - Real.sinh x)) (by simp) (fun x => by
      have h1 : HasDerivAt (fun x : ℝ => 1 + x ^ 2 / 3) (2 * x / 3) x := by
        have := ((hasDerivAt_pow 2 x).div_const 3).const_add 1
        exact this.congr_deriv (by simp)
      have := (h1.mul (Real.hasDerivAt_sinh x)).sub ((hasDerivAt_id x).mul (Real.hasDerivAt_cosh x))
      exact this.congr_deriv (by simp; ring))
    (fun x hx => mul_nonneg (by positivity) (by linarith [x_cosh_ge_sinh hx])) hx
  linarith

theorem x_cosh_ge {x : ℝ} (hx : 0 ≤ x) :
    (1 + x ^ 2 / 3 - x ^ 4 / 45) * Real.sinh x ≤ x * Real.cosh x := by
  have hI : ∀ x : ℝ, 0 ≤ x → 0 ≤ (1 + 4 * x ^ 2 / 15) * Real.sinh x - (x - x ^ 3 / 15) * Real.cosh x := by
    intro x hx
    exact nonneg_of_deriv (g := fun x => (1 + 4 * x ^ 2 / 15) * Real.sinh x - (x - x ^ 3 / 15) * Real.cosh x)
      (g' := fun x => x / 15 * (7 * (x * Real.cosh x - Real.sinh x) + x ^ 2 * Real.sinh x)) (by simp) (fun x => by
        have h1 : HasDerivAt (fun x : ℝ => 1 + 4 * x ^ 2 / 15) (8 * x / 15) x := by
          have := (((hasDerivAt_pow 2 x).const_mul 4).div_const 15).const_add 1
          exact this.congr_deriv (by simp; ring)
        have h2 : HasDerivAt (fun x : ℝ => x - x ^ 3 / 15) (1 - 3 * x ^ 2 / 15) x := by
          have := (hasDerivAt_id x).sub ((hasDerivAt_pow 3 x).div_const 15)
          exact this.congr_deriv (by norm_num)
        have := (h1.mul (Real.hasDerivAt_sinh x)).sub (h2.mul (Real.hasDerivAt_cosh x))
        exact this.congr_deriv (by ring))
      (fun x hx => by
        have h1 := x_cosh_ge_sinh hx
        have h2 := sinh_nonneg hx
        have h3 : 0 ≤ x * Real.cosh x - Real.sinh x := by linarith
        positivity) hx
  have := nonneg_of_deriv (g := fun x => x * Real.cosh x - (1 + x ^ 2 / 3 - x ^ 4 / 45) * Real.sinh x)
    (g' := fun x => x / 3 * ((1 + 4 * x ^ 2 / 15) * Real.sinh x - (x - x ^ 3 / 15) * Real.cosh x)) (by simp) (fun x => by
      have h1 : HasDerivAt (fun x : ℝ => 1 + x ^ 2 / 3 - x ^ 4 / 45) (2 * x / 3 - 4 * x ^ 3 / 45) x := by
        have := (((hasDerivAt_pow 2 x).div_const 3).const_add 1).sub ((hasDerivAt_pow 4 x).div_const 45)
        exact this.congr_deriv (by simp)
      have := ((hasDerivAt_id x).mul (Real.hasDerivAt_cosh x)).sub (h1.mul (Real.hasDerivAt_sinh x))
      exact this.congr_deriv (by simp; ring))
    (fun x hx => mul_nonneg (by positivity) (hI x hx)) hx
  linarith

/-- `x coth x` increases: `x cosh x sinh y ≤ y cosh y sinh x` for `0 ≤ x ≤ y`. -/
theorem coth_mono {x y : ℝ} (hx : 0 < x) (hxy : x ≤ y) :
    x * Real.cosh x * Real.sinh y ≤ y * Real.cosh y * Real.sinh x := by
  have hm : MonotoneOn (fun x => x * Real.cosh x / Real.sinh x) (Set.Ioi 0) := by
    have hd : ∀ x : ℝ, 0 < x → HasDerivAt (fun x => x * Real.cosh x / Real.sinh x)
        (((1 * Real.cosh x + x * Real.sinh x) * Real.sinh x - x * Real.cosh x * Real.cosh x) / Real.sinh x ^ 2) x := by
      intro x hx
      exact ((hasDerivAt_id x).mul (Real.hasDerivAt_cosh x)).div (Real.hasDerivAt_sinh x)
        (Real.sinh_pos_iff.mpr hx).ne'
    apply monotoneOn_of_deriv_nonneg (convex_Ioi 0)
    · exact fun x hx => (hd x hx).continuousAt.continuousWithinAt
    · intro x hx'
      rw [interior_Ioi] at hx'
      exact (hd x hx').differentiableAt.differentiableWithinAt
    · intro x hx'
      rw [interior_Ioi] at hx'
      rw [(hd x hx').deriv]
      apply div_nonneg _ (sq_nonneg _)
      have hx0 : 0 < x := hx'
      have h1 : x ≤ Real.sinh x := Real.self_le_sinh_iff.mpr hx0.le
      have h2 := Real.one_le_cosh x
      have h3 := Real.cosh_sq x
      have : Real.sinh x ≤ Real.cosh x * Real.sinh x := by nlinarith
      nlinarith
  have := hm (Set.mem_Ioi.mpr hx) (Set.mem_Ioi.mpr (hx.trans_le hxy)) hxy
  have hs := Real.sinh_pos_iff.mpr hx
  have hs' := Real.sinh_pos_iff.mpr (hx.trans_le hxy)
  dsimp only at this
  rw [div_le_div_iff₀ hs hs'] at this
  exact this

end Extensisq
