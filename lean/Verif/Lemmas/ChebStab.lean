import Verif.Model.Cheb
import Verif.Lemmas.ChebPoly
import Mathlib.Analysis.SpecialFunctions.Trigonometric.Series

/-!
# The parameters `w0`, `w1` of the Runge-Kutta-Chebyshev method and its interval of stability
-/

set_option linter.unusedSectionVars false

namespace Extensisq
open Polynomial Polynomial.Chebyshev

theorem rkcW0_gt (m : ℕ) (hm : 1 ≤ m) : 1 < rkcW0 m := by
  unfold rkcW0
  have : (0 : ℝ) < m := by exact_mod_cast hm
  have : 0 < 2 / (13 * (m : ℝ) ^ 2) := by positivity
  linarith

/-- `s = log(w0 + sqrt(w0^2 - 1))`, so that `w0 = cosh s`. -/
noncomputable def rkcS (m : ℕ) : ℝ := Real.arcosh (rkcW0 m)

theorem rkcS_pos {m : ℕ} (hm : 1 ≤ m) : 0 < rkcS m := Real.arcosh_pos (rkcW0_gt m hm)

theorem cosh_rkcS {m : ℕ} (hm : 1 ≤ m) : Real.cosh (rkcS m) = rkcW0 m := Real.cosh_arcosh (rkcW0_gt m hm).le

theorem sinh_rkcS_pos {m : ℕ} (hm : 1 ≤ m) : 0 < Real.sinh (rkcS m) := Real.sinh_pos_iff.mpr (rkcS_pos hm)

/-- `s^2 ≤ 4 / (13 m^2)`. -/
theorem rkcS_sq {m : ℕ} (hm : 1 ≤ m) : rkcS m ^ 2 ≤ 4 / (13 * (m : ℝ) ^ 2) := by
  have h := cosh_rkcS hm
  have h2 : Real.cosh (2 * (rkcS m / 2)) = Real.cosh (rkcS m / 2) ^ 2 + Real.sinh (rkcS m / 2) ^ 2 :=
    Real.cosh_two_mul _
  rw [show 2 * (rkcS m / 2) = rkcS m by ring, h, Real.cosh_sq] at h2
  have h3 : rkcS m / 2 ≤ Real.sinh (rkcS m / 2) := Real.self_le_sinh_iff.mpr (by linarith [rkcS_pos hm])
  have h4 : (rkcS m / 2) ^ 2 ≤ Real.sinh (rkcS m / 2) ^ 2 := by
    apply pow_le_pow_left₀ (by linarith [rkcS_pos hm]) h3
  unfold rkcW0 at h2
  have e : 4 / (13 * (m : ℝ) ^ 2) = 2 * (2 / (13 * (m : ℝ) ^ 2)) := by ring
  rw [e]
  linarith

theorem rkc_ms_sq {m : ℕ} (hm : 1 ≤ m) : ((m : ℝ) * rkcS m) ^ 2 ≤ 4 / 13 := by
  have h := rkcS_sq hm
  have hm' : (0 : ℝ) < m := by exact_mod_cast hm
  rw [le_div_iff₀ (by positivity)] at h
  rw [mul_pow]
  linarith

/-- `w1 = T_m'(w0) / T_m''(w0)`. -/
theorem rkcW1_eq {m : ℕ} (hm : 2 ≤ m) : rkcW1 m = dT (rkcW0 m) m / d2T (rkcW0 m) m := by
  have hm1 : 1 ≤ m := by omega
  have hs := sinh_rkcS_pos hm1
  have hm' : (0 : ℝ) < m := by exact_mod_cast hm1
  have h2 : Real.sinh (rkcS m) = √(rkcW0 m ^ 2 - 1) := Real.sinh_arcosh (rkcW0_gt m hm1).le
  have h3 : Real.sinh (rkcS m) ^ 2 = rkcW0 m ^ 2 - 1 := by rw [Real.sinh_sq, cosh_rkcS hm1]
  have h4 : Real.log (rkcW0 m + √(rkcW0 m ^ 2 - 1)) = rkcS m := rfl
  unfold rkcW1
  dsimp only
  rw [h4, ← h2, ← h3]
  have hd := dT_cosh (rkcS m) m
  have hd2 := d2T_cosh (rkcS m) m
  have hp := d2T_pos (rkcW0_gt m hm1).le hm
  rw [cosh_rkcS hm1] at hd hd2
  generalize hS : Real.sinh (rkcS m) = S at *
  generalize Real.sinh (m * rkcS m) = A at *
  generalize Real.cosh (m * rkcS m) = B at *
  generalize dT (rkcW0 m) m = D at *
  generalize d2T (rkcW0 m) m = E at *
  generalize rkcW0 m = w at *
  have hden : B * m * S - w * A = E * S ^ 3 / m := by
    rw [eq_div_iff hm'.ne']
    linear_combination (-S) * hd2 + w * hd
  rw [hden, div_eq_div_iff (by positivity) hp.ne']
  have : A = D * S / m := by rw [eq_div_iff hm'.ne']; linarith
  rw [this]
  field_simp

/-- `T''/T'` in hyperbolic form: `(m coth(ms) - coth s) / sinh s`. -/
theorem ratio_cosh {s : ℝ} (hs : 0 < s) {m : ℕ} (hm : 1 ≤ m) :
    d2T (Real.cosh s) m / dT (Real.cosh s) m =
      (m * Real.cosh (m * s) / Real.sinh (m * s) - Real.cosh s / Real.sinh s) / Real.sinh s := by
  have hS : 0 < Real.sinh s := Real.sinh_pos_iff.mpr hs
  have hm' : (0 : ℝ) < m := by exact_mod_cast hm
  have hA : 0 < Real.sinh (m * s) := Real.sinh_pos_iff.mpr (by positivity)
  have hd := dT_cosh s m
  have hd2 := d2T_cosh s m
  have hD := dT_pos (Real.one_le_cosh s) hm
  generalize Real.sinh s = S at *
  generalize Real.sinh (m * s) = A at *
  generalize Real.cosh (m * s) = B at *
  generalize dT (Real.cosh s) m = D at *
  generalize d2T (Real.cosh s) m = E at *
  generalize Real.cosh s = w at *
  have e1 : A = D * S / m := by rw [eq_div_iff hm'.ne']; linarith
  have e2 : E = (m ^ 2 * B - w * D) / S ^ 2 := by rw [eq_div_iff (by positivity)]; exact hd2
  rw [e1, e2]
  field_simp

/-- The ratio `T_j''/T_j'` grows with `j`. -/
theorem ratio_mono {w : ℝ} (hw : 1 < w) {j k : ℕ} (hj : 1 ≤ j) (hjk : j ≤ k) :
    d2T w j / dT w j ≤ d2T w k / dT w k := by
  obtain ⟨s, hs, rfl⟩ : ∃ s, 0 < s ∧ w = Real.cosh s := ⟨_, Real.arcosh_pos hw, (Real.cosh_arcosh hw.le).symm⟩
  rw [ratio_cosh hs hj, ratio_cosh hs (hj.trans hjk)]
  have hS : 0 < Real.sinh s := Real.sinh_pos_iff.mpr hs
  have hj' : (0 : ℝ) < j := by exact_mod_cast hj
  have hjk' : (j : ℝ) ≤ k := by exact_mod_cast hjk
  have hA : 0 < Real.sinh (j * s) := Real.sinh_pos_iff.mpr (by positivity)
  have hB : 0 < Real.sinh (k * s) := Real.sinh_pos_iff.mpr (mul_pos (by linarith) hs)
  apply div_le_div_of_nonneg_right _ hS.le
  apply sub_le_sub_right
  rw [div_le_div_iff₀ hA hB]
  have := coth_mono (x := j * s) (y := k * s) (by positivity) (mul_le_mul_of_nonneg_right hjk' hs.le)
  have h2 : s * (↑j * Real.cosh (↑j * s) * Real.sinh (↑k * s)) ≤ s * (↑k * Real.cosh (↑k * s) * Real.sinh (↑j * s)) := by
    linarith
  exact le_of_mul_le_mul_left h2 hs

/-- Lower and upper bound of `m coth(ms) - coth s`. -/
theorem coth_diff {s : ℝ} (hs : 0 < s) {m : ℕ} (hm : 1 ≤ m) :
    s * (((m : ℝ) ^ 2 - 1) / 3 - (m : ℝ) ^ 4 * s ^ 2 / 45) ≤
        m * Real.cosh (m * s) / Real.sinh (m * s) - Real.cosh s / Real.sinh s ∧
    m * Real.cosh (m * s) / Real.sinh (m * s) - Real.cosh s / Real.sinh s ≤ (m : ℝ) ^ 2 * s / 3 := by
  have hS : 0 < Real.sinh s := Real.sinh_pos_iff.mpr hs
  have hm' : (0 : ℝ) < m := by exact_mod_cast hm
  have hx : 0 < m * s := by positivity
  have hA : 0 < Real.sinh (m * s) := Real.sinh_pos_iff.mpr hx
  have h1 : 1 + (m * s) ^ 2 / 3 - (m * s) ^ 4 / 45 ≤ m * s * Real.cosh (m * s) / Real.sinh (m * s) := by
    rw [le_div_iff₀ hA]; exact x_cosh_ge hx.le
  have h2 : m * s * Real.cosh (m * s) / Real.sinh (m * s) ≤ 1 + (m * s) ^ 2 / 3 := by
    rw [div_le_iff₀ hA]; exact x_cosh_le hx.le
  have h3 : s * Real.cosh s / Real.sinh s ≤ 1 + s ^ 2 / 3 := by
    rw [div_le_iff₀ hS]; exact x_cosh_le hs.le
  have h4 : 1 ≤ s * Real.cosh s / Real.sinh s := by
    rw [le_div_iff₀ hS, one_mul]; exact x_cosh_ge_sinh hs.le
  have e1 : m * Real.cosh (m * s) / Real.sinh (m * s) = (m * s * Real.cosh (m * s) / Real.sinh (m * s)) / s := by
    field_simp
  have e2 : Real.cosh s / Real.sinh s = (s * Real.cosh s / Real.sinh s) / s := by field_simp
  rw [e1, e2, ← sub_div]
  constructor
  · rw [le_div_iff₀ hs]
    nlinarith
  · rw [div_le_iff₀ hs]
    nlinarith

/-- The interval of stability: `(1 + w0) / w1 ≥ (m^2 - 1) / 1.54` for every number of stages `m ≥ 2`. -/
theorem rkc_beta {m : ℕ} (hm : 2 ≤ m) :
    ((m : ℝ) ^ 2 - 1) / (77 / 50) * rkcW1 m ≤ 1 + rkcW0 m := by
  have hm1 : 1 ≤ m := by omega
  have hw := rkcW0_gt m hm1
  have hD := dT_pos hw.le hm1
  have hE := d2T_pos hw.le hm
  rw [rkcW1_eq hm]
  have hkey : ((m : ℝ) ^ 2 - 1) / (77 / 50) ≤ (1 + rkcW0 m) * (d2T (rkcW0 m) m / dT (rkcW0 m) m) := by
    rcases Nat.lt_or_ge m 3 with h3 | h3
    · obtain rfl : m = 2 := by omega
      have e1 : dT (rkcW0 2) 2 = 4 * rkcW0 2 := by
        have := dT_succ (rkcW0 2) 0
        simp only [zero_add, dT_zero, dT_one, zT_one] at this
        rw [this]; ring
      have e2 : d2T (rkcW0 2) 2 = 4 := by
        have := d2T_succ (rkcW0 2) 0
        simp only [zero_add, d2T_zero, d2T_one, dT_one] at this
        rw [this]; ring
      rw [e1, e2]
      unfold rkcW0
      norm_num
    · set s := rkcS m with hsdef
      have hs : 0 < s := rkcS_pos hm1
      have hc : Real.cosh s = rkcW0 m := cosh_rkcS hm1
      rw [← hc, ratio_cosh hs hm1]
      have hS : 0 < Real.sinh s := Real.sinh_pos_iff.mpr hs
      have hm' : (3 : ℝ) ≤ m := by exact_mod_cast h3
      have hsq : (m : ℝ) ^ 2 * s ^ 2 ≤ 4 / 13 := by rw [← mul_pow]; exact rkc_ms_sq hm1
      obtain ⟨hlo, -⟩ := coth_diff hs hm1
      -- coth (s/2) ≥ 2/s
      have hh : 2 / s ≤ (1 + Real.cosh s) / Real.sinh s := by
        have hp : 0 < s / 2 := by positivity
        have h1 := x_cosh_ge_sinh hp.le
        have h2 : Real.sinh s = 2 * Real.sinh (s / 2) * Real.cosh (s / 2) := by
          rw [← Real.sinh_two_mul]; congr 1; ring
        have h3 : Real.cosh s = 2 * Real.cosh (s / 2) ^ 2 - 1 := by
          have := Real.cosh_two_mul (s / 2)
          rw [show 2 * (s / 2) = s by ring] at this
          rw [this, Real.sinh_sq]; ring
        have hc0 : 0 < Real.cosh (s / 2) := Real.cosh_pos _
        rw [div_le_div_iff₀ hs hS, h2, h3]
        nlinarith
      have hb : 0 ≤ ((m : ℝ) ^ 2 - 1) / 3 - (m : ℝ) ^ 4 * s ^ 2 / 45 := by nlinarith
      calc ((m : ℝ) ^ 2 - 1) / (77 / 50)
          ≤ 2 * (((m : ℝ) ^ 2 - 1) / 3 - (m : ℝ) ^ 4 * s ^ 2 / 45) := by nlinarith
        _ = 2 / s * (s * (((m : ℝ) ^ 2 - 1) / 3 - (m : ℝ) ^ 4 * s ^ 2 / 45)) := by field_simp
        _ ≤ (1 + Real.cosh s) / Real.sinh s *
            (m * Real.cosh (m * s) / Real.sinh (m * s) - Real.cosh s / Real.sinh s) := by
          apply mul_le_mul hh hlo (by positivity)
          exact le_trans (by positivity) hh
        _ = _ := by rw [div_mul_eq_mul_div, mul_div_assoc]
  calc ((m : ℝ) ^ 2 - 1) / (77 / 50) * (dT (rkcW0 m) m / d2T (rkcW0 m) m)
      ≤ (1 + rkcW0 m) * (d2T (rkcW0 m) m / dT (rkcW0 m) m) * (dT (rkcW0 m) m / d2T (rkcW0 m) m) :=
        mul_le_mul_of_nonneg_right hkey (by positivity)
    _ = 1 + rkcW0 m := by field_simp

theorem rkcW1_pos {m : ℕ} (hm : 2 ≤ m) : 0 < rkcW1 m := by
  rw [rkcW1_eq hm]
  exact div_pos (dT_pos (rkcW0_gt m (by omega)).le (by omega)) (d2T_pos (rkcW0_gt m (by omega)).le hm)

/-- `T_m''(w0) (T_m(w0) + 1) ≤ T_m'(w0)^2`. -/
theorem rkc_lower {m : ℕ} (hm : 2 ≤ m) :
    d2T (rkcW0 m) m * (zT (rkcW0 m) m + 1) ≤ dT (rkcW0 m) m ^ 2 := by
  have hm1 : 1 ≤ m := by omega
  have hw := rkcW0_gt m hm1
  set s := rkcS m with hsdef
  have hs : 0 < s := rkcS_pos hm1
  have hc : Real.cosh s = rkcW0 m := cosh_rkcS hm1
  rw [← hc]
  have hD := dT_pos (Real.one_le_cosh s) hm1
  have hS : 0 < Real.sinh s := Real.sinh_pos_iff.mpr hs
  have hm' : (0 : ℝ) < m := by exact_mod_cast hm1
  have hx : 0 < m * s := by positivity
  have hr := ratio_cosh hs hm1
  obtain ⟨-, hup⟩ := coth_diff hs hm1
  have hz := zT_cosh s m
  have hsq : (m * s) ^ 2 ≤ 4 / 13 := rkc_ms_sq hm1
  have hcosh : Real.cosh (m * s) ≤ 13 / 11 := by
    refine (Real.cosh_le_exp_half_sq _).trans ?_
    have h1 : Real.exp ((m * s) ^ 2 / 2) ≤ Real.exp (2 / 13) := Real.exp_le_exp.mpr (by linarith)
    refine h1.trans ?_
    have h2 := Real.one_sub_le_exp_neg (2 / 13 : ℝ)
    rw [Real.exp_neg] at h2
    have h3 : Real.exp (2 / 13) ≤ (1 - 2 / 13 : ℝ)⁻¹ := by
      rw [le_inv_comm₀ (Real.exp_pos _) (by norm_num)]; exact h2
    exact h3.trans (by norm_num)
  have hsinh : m * s ≤ Real.sinh (m * s) := Real.self_le_sinh_iff.mpr hx.le
  have hd := dT_cosh s m
  have hrat : d2T (Real.cosh s) m / dT (Real.cosh s) m * Real.sinh s ≤ (m : ℝ) ^ 2 * s / 3 := by
    rw [hr, div_mul_cancel₀ _ hS.ne']; exact hup
  rw [hz]
  rw [div_mul_eq_mul_div, div_le_iff₀ hD] at hrat
  -- multiply by sinh s
  have : d2T (Real.cosh s) m * (Real.cosh (m * s) + 1) * Real.sinh s ≤ dT (Real.cosh s) m ^ 2 * Real.sinh s := by
    have h1 : d2T (Real.cosh s) m * Real.sinh s * (Real.cosh (m * s) + 1) ≤
        (m : ℝ) ^ 2 * s / 3 * dT (Real.cosh s) m * (13 / 11 + 1) :=
      mul_le_mul hrat (by linarith) (by positivity) (by positivity)
    have h2 : (m : ℝ) * (m * s) ≤ dT (Real.cosh s) m * Real.sinh s := by
      rw [hd]; exact mul_le_mul_of_nonneg_left hsinh hm'.le
    nlinarith
  exact le_of_mul_le_mul_right this hS

/-- `T_m` on `[-1, w0]`, `w0 ≥ 1`. -/
theorem zT_range {w : ℝ} (hw : 1 ≤ w) (m : ℕ) {x : ℝ} (h1 : -1 ≤ x) (h2 : x ≤ w) :
    -1 ≤ zT x m ∧ zT x m ≤ zT w m := by
  rcases le_or_gt x 1 with h | h
  · have e : zT x m = Real.cos (m * Real.arccos x) := by
      unfold zT
      conv_lhs => rw [← Real.cos_arccos h1 h]
      rw [T_real_cos]; push_cast; rfl
    rw [e]
    exact ⟨Real.neg_one_le_cos _, (Real.cos_le_one _).trans (zT_mono hw m).1⟩
  · refine ⟨by linarith [(zT_mono h.le m).1], ?_⟩
    have e1 : x = Real.cosh (Real.arcosh x) := (Real.cosh_arcosh h.le).symm
    have e2 : w = Real.cosh (Real.arcosh w) := (Real.cosh_arcosh hw).symm
    rw [e1, e2, zT_cosh, zT_cosh, Real.cosh_le_cosh]
    have h3 : Real.arcosh x ≤ Real.arcosh w := (Real.arcosh_le_arcosh (by linarith) (by linarith)).mpr h2
    have h4 := Real.arcosh_nonneg h.le
    have hm : (0 : ℝ) ≤ m := Nat.cast_nonneg m
    rw [abs_of_nonneg (by positivity), abs_of_nonneg (mul_nonneg hm (h4.trans h3))]
    exact mul_le_mul_of_nonneg_left h3 hm

end Extensisq
