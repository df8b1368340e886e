import Verif.Lemmas.ChebStab
import Verif.Lemmas.BSeriesRK
import Mathlib.Tactic.Module

/-!
# The stages of the Runge-Kutta-Chebyshev method as a Runge-Kutta method
-/

set_option linter.unusedSectionVars false

namespace Extensisq
open Finset

/-- `b_j`. -/
noncomputable def bT (w : ℝ) (j : ℕ) : ℝ := if j < 2 then 1 / (2 * w) ^ 2 else d2T w j / dT w j ^ 2

theorem bT_pos {w : ℝ} (hw : 1 ≤ w) (j : ℕ) : 0 < bT w j := by
  unfold bT
  split_ifs with h
  · positivity
  · have := dT_pos hw (j := j) (by omega)
    have := d2T_pos hw (j := j) (by omega)
    positivity

/-- `θ_j`: stage `j` is at `t + θ_j h`. -/
noncomputable def thT (w w1 : ℝ) (j : ℕ) : ℝ := w1 * bT w j * dT w j

noncomputable def muT (w : ℝ) (j : ℕ) : ℝ := 2 * w * bT w (j + 2) / bT w (j + 1)
noncomputable def nuT (w : ℝ) (j : ℕ) : ℝ := -bT w (j + 2) / bT w j
noncomputable def musT (w w1 : ℝ) (j : ℕ) : ℝ := muT w j * w1 / w
noncomputable def ajT (w : ℝ) (j : ℕ) : ℝ := 1 - zT w (j + 1) * bT w (j + 1)

theorem thT_zero (w w1 : ℝ) : thT w w1 0 = 0 := by simp [thT, dT_zero]

theorem musT_eq {w : ℝ} (hw : 1 ≤ w) (w1 : ℝ) (j : ℕ) :
    musT w w1 j = 2 * bT w (j + 2) * w1 / bT w (j + 1) := by
  have := bT_pos hw (j + 1)
  unfold musT muT
  field_simp

theorem thT_succ {w : ℝ} (hw : 1 ≤ w) (w1 : ℝ) (j : ℕ) : thT w w1 (j + 2) =
    muT w j * thT w w1 (j + 1) + nuT w j * thT w w1 j + musT w w1 j * (1 - ajT w j) := by
  have h1 := bT_pos hw (j + 1)
  have h0 := bT_pos hw j
  rw [musT_eq hw]
  unfold thT muT nuT ajT
  rw [dT_succ]
  field_simp
  ring

section
variable {V : Type*} [AddCommGroup V] [Module ℝ V]

/-- The stage values `y_0 = y_n, y_1, y_2, …`. -/
noncomputable def rkcY (f : ℝ → V → V) (w0 w1 t : ℝ) (yn fn : V) (h : ℝ) : ℕ → V
  | 0 => yn
  | k + 1 => (rkcRun f w0 w1 t yn fn h k).yjm1

/-- The loop variables are the Chebyshev polynomials and their derivatives at `w0`. -/
theorem rkcRun_coef (f : ℝ → V → V) {w0 : ℝ} (hw : 1 ≤ w0) (w1 t : ℝ) (yn fn : V) (h : ℝ) (k : ℕ) :
    (rkcRun f w0 w1 t yn fn h k).zjm1 = zT w0 (k + 1) ∧ (rkcRun f w0 w1 t yn fn h k).zjm2 = zT w0 k ∧
    (rkcRun f w0 w1 t yn fn h k).dzjm1 = dT w0 (k + 1) ∧ (rkcRun f w0 w1 t yn fn h k).dzjm2 = dT w0 k ∧
    (rkcRun f w0 w1 t yn fn h k).d2zjm1 = d2T w0 (k + 1) ∧ (rkcRun f w0 w1 t yn fn h k).d2zjm2 = d2T w0 k ∧
    (rkcRun f w0 w1 t yn fn h k).bjm1 = bT w0 (k + 1) ∧ (rkcRun f w0 w1 t yn fn h k).bjm2 = bT w0 k ∧
    (rkcRun f w0 w1 t yn fn h k).thjm1 = thT w0 w1 (k + 1) ∧ (rkcRun f w0 w1 t yn fn h k).thjm2 = thT w0 w1 k ∧
    (rkcRun f w0 w1 t yn fn h k).yjm2 = rkcY f w0 w1 t yn fn h k := by
  induction k with
  | zero =>
    simp [rkcRun, rkcInit, zT_zero, zT_one, dT_zero, dT_one, d2T_zero, d2T_one, bT, thT, rkcY]
  | succ k ih =>
    obtain ⟨h1, h2, h3, h4, h5, h6, h7, h8, h9, h10, h11⟩ := ih
    have hb : d2T w0 (k + 2) / dT w0 (k + 2) ^ 2 = bT w0 (k + 2) := by unfold bT; rw [if_neg (by omega)]
    simp only [rkcRun, rkcNext, h1, h2, h3, h4, h5, h6, h7, h8, h9, h10]
    rw [← zT_succ, ← dT_succ, ← d2T_succ, hb]
    refine ⟨rfl, trivial, rfl, trivial, rfl, trivial, rfl, trivial, ?_, trivial, rfl⟩
    rw [thT_succ hw]
    rfl

/-- The recursion of the stage values. -/
theorem rkcY_succ (f : ℝ → V → V) {w0 : ℝ} (hw : 1 ≤ w0) (w1 t : ℝ) (yn fn : V) (h : ℝ) (j : ℕ) :
    rkcY f w0 w1 t yn fn h (j + 2) =
      muT w0 j • rkcY f w0 w1 t yn fn h (j + 1) + nuT w0 j • rkcY f w0 w1 t yn fn h j
        + (1 - muT w0 j - nuT w0 j) • yn
        + (h * musT w0 w1 j) • (f (t + h * thT w0 w1 (j + 1)) (rkcY f w0 w1 t yn fn h (j + 1)) - ajT w0 j • fn) := by
  obtain ⟨h1, h2, h3, h4, h5, h6, h7, h8, h9, h10, h11⟩ := rkcRun_coef f hw w1 t yn fn h j
  have hb : d2T w0 (j + 2) / dT w0 (j + 2) ^ 2 = bT w0 (j + 2) := by unfold bT; rw [if_neg (by omega)]
  show (rkcNext f w0 w1 t yn fn h (rkcRun f w0 w1 t yn fn h j)).yjm1 = _
  simp only [rkcNext, h1, h2, h3, h4, h5, h6, h7, h8, h9, h11]
  rw [← dT_succ, ← d2T_succ, hb]
  rfl

theorem rkcY_one (f : ℝ → V → V) (w0 w1 t : ℝ) (yn fn : V) (h : ℝ) :
    rkcY f w0 w1 t yn fn h 1 = yn + (h * thT w0 w1 1) • fn := by
  simp [rkcY, rkcRun, rkcInit, thT, bT, dT_one]

theorem rkcStages_eq (f : ℝ → V → V) (t : ℝ) (yn fn : V) (h : ℝ) {m : ℕ} (hm : 2 ≤ m) :
    rkcStages f t yn fn h m = rkcY f (rkcW0 m) (rkcW1 m) t yn fn h m := by
  obtain ⟨k, rfl⟩ : ∃ k, m = k + 1 := ⟨m - 1, by omega⟩
  unfold rkcStages
  rw [if_neg (by omega)]
  rfl

end

/-! ### The tableau -/

/-- Row `j` of the tableau. -/
noncomputable def rkcRow (w w1 : ℝ) : ℕ → ℕ → ℝ
  | 0 => fun _ => 0
  | 1 => fun i => if i = 0 then thT w w1 1 else 0
  | j + 2 => fun i => muT w j * rkcRow w w1 (j + 1) i + nuT w j * rkcRow w w1 j i
      + musT w w1 j * ((if i = j + 1 then 1 else 0) - ajT w j * if i = 0 then 1 else 0)

theorem rkcRow_lower (w w1 : ℝ) : ∀ j i, j ≤ i → rkcRow w w1 j i = 0
  | 0, _, _ => rfl
  | 1, i, h => by simp only [rkcRow]; rw [if_neg (by omega)]
  | j + 2, i, h => by
    simp only [rkcRow]
    rw [rkcRow_lower w w1 (j + 1) i (by omega), rkcRow_lower w w1 j i (by omega), if_neg (by omega),
      if_neg (by omega)]
    ring

section
variable {V : Type*} [AddCommGroup V] [Module ℝ V]

theorem rkcRow_one_sum (w w1 : ℝ) (g : ℕ → V) {n : ℕ} (hn : 1 ≤ n) :
    ∑ i ∈ range n, rkcRow w w1 1 i • g i = thT w w1 1 • g 0 := by
  simp only [rkcRow, ite_smul, zero_smul]
  rw [sum_ite_eq' (range n) 0]
  rw [if_pos (mem_range.mpr (by omega))]

theorem rkcRow_succ_sum (w w1 : ℝ) (g : ℕ → V) {n j : ℕ} (hn : j + 2 ≤ n) :
    ∑ i ∈ range n, rkcRow w w1 (j + 2) i • g i =
      muT w j • ∑ i ∈ range n, rkcRow w w1 (j + 1) i • g i + nuT w j • ∑ i ∈ range n, rkcRow w w1 j i • g i
        + musT w w1 j • (g (j + 1) - ajT w j • g 0) := by
  have h1 : ∑ i ∈ range n, (if i = j + 1 then (1 : ℝ) else 0) • g i = g (j + 1) := by
    simp only [ite_smul, zero_smul, one_smul]
    rw [sum_ite_eq' (range n) (j + 1), if_pos (mem_range.mpr (by omega))]
  have h2 : ∑ i ∈ range n, (if i = 0 then (1 : ℝ) else 0) • g i = g 0 := by
    simp only [ite_smul, zero_smul, one_smul]
    rw [sum_ite_eq' (range n) 0, if_pos (mem_range.mpr (by omega))]
  simp only [rkcRow, add_smul, mul_smul, sub_smul, sum_add_distrib, ← smul_sum, smul_sub, sum_sub_distrib, h1, h2]

/-- The stage values are those of a Runge-Kutta method. -/
theorem rkcY_rk (f : ℝ → V → V) {w0 : ℝ} (hw : 1 ≤ w0) (w1 t : ℝ) (yn fn : V) (h : ℝ) {n : ℕ}
    (hfn : fn = f t yn) (j : ℕ) (hj : j ≤ n) (hn : 1 ≤ n) :
    rkcY f w0 w1 t yn fn h j = yn + h • ∑ i ∈ range n, rkcRow w0 w1 j i •
      f (t + h * thT w0 w1 i) (rkcY f w0 w1 t yn fn h i) := by
  induction j using Nat.strong_induction_on with
  | _ j ih =>
    match j, ih, hj with
    | 0, _, _ => simp [rkcRow, rkcY]
    | 1, _, _ =>
      rw [rkcY_one, rkcRow_one_sum w0 w1 _ hn, thT_zero, mul_zero, add_zero, smul_smul, hfn]
      rfl
    | j + 2, ih, hj =>
      rw [rkcRow_succ_sum w0 w1 _ hj, rkcY_succ f hw, thT_zero, mul_zero, add_zero]
      have h1 := ih (j + 1) (by omega) (by omega)
      have h0 := ih j (by omega) (by omega)
      generalize f (t + h * thT w0 w1 (j + 1)) (rkcY f w0 w1 t yn fn h (j + 1)) = F at *
      rw [h1, h0, hfn]
      show _ = yn + h • (_ + _ + musT w0 w1 j • (F - ajT w0 j • f t yn))
      module

end

/-- Row sums. -/
theorem rkcRow_sum {w : ℝ} (hw : 1 ≤ w) (w1 : ℝ) {n : ℕ} (hn : 1 ≤ n) (j : ℕ) (hj : j ≤ n) :
    ∑ i ∈ range n, rkcRow w w1 j i = thT w w1 j := by
  have key : ∑ i ∈ range n, rkcRow w w1 j i • (1 : ℝ) = thT w w1 j := by
    induction j using Nat.strong_induction_on with
    | _ j ih =>
      match j, ih, hj with
      | 0, _, _ => simp [rkcRow, thT_zero]
      | 1, _, _ => rw [rkcRow_one_sum w w1 _ hn]; simp
      | j + 2, ih, hj =>
        rw [rkcRow_succ_sum w w1 _ hj, ih (j + 1) (by omega) (by omega), ih j (by omega) (by omega), thT_succ hw]
        simp
  simpa using key

/-- Second moments. -/
theorem rkcRow_moment {w : ℝ} (hw : 1 ≤ w) (w1 : ℝ) {n : ℕ} (hn : 1 ≤ n) (j : ℕ) (hj : j ≤ n) :
    ∑ i ∈ range n, rkcRow w w1 j i * thT w w1 i = bT w j * w1 ^ 2 * d2T w j / 2 := by
  have key : ∑ i ∈ range n, rkcRow w w1 j i • thT w w1 i = bT w j * w1 ^ 2 * d2T w j / 2 := by
    induction j using Nat.strong_induction_on with
    | _ j ih =>
      match j, ih, hj with
      | 0, _, _ => simp [rkcRow, d2T_zero]
      | 1, _, _ => rw [rkcRow_one_sum w w1 _ hn]; simp [d2T_one, thT_zero]
      | j + 2, ih, hj =>
        rw [rkcRow_succ_sum w w1 _ hj, ih (j + 1) (by omega) (by omega), ih j (by omega) (by omega), musT_eq hw,
          d2T_succ, thT_zero]
        have h1 := bT_pos hw (j + 1)
        have h0 := bT_pos hw j
        simp only [smul_eq_mul, mul_zero, sub_zero]
        unfold muT nuT thT
        field_simp
        ring
  simpa using key

/-! ### With the coefficients of the code -/

theorem thT_last {m : ℕ} (hm : 2 ≤ m) : thT (rkcW0 m) (rkcW1 m) m = 1 := by
  have hw := rkcW0_gt m (by omega)
  have h1 := dT_pos hw.le (j := m) (by omega)
  have h2 := d2T_pos hw.le hm
  unfold thT bT
  rw [rkcW1_eq hm, if_neg (by omega)]
  field_simp

theorem moment_last {m : ℕ} (hm : 2 ≤ m) :
    bT (rkcW0 m) m * rkcW1 m ^ 2 * d2T (rkcW0 m) m / 2 = 1 / 2 := by
  have hw := rkcW0_gt m (by omega)
  have h1 := dT_pos hw.le (j := m) (by omega)
  have h2 := d2T_pos hw.le hm
  unfold bT
  rw [rkcW1_eq hm, if_neg (by omega)]
  field_simp

theorem thT_pos {m : ℕ} (hm : 2 ≤ m) {j : ℕ} (hj : 1 ≤ j) : 0 < thT (rkcW0 m) (rkcW1 m) j := by
  have hw := rkcW0_gt m (by omega)
  exact mul_pos (mul_pos (rkcW1_pos hm) (bT_pos hw.le j)) (dT_pos hw.le hj)

theorem thT_ge2 {w w1 : ℝ} (hw : 1 ≤ w) {j : ℕ} (hj : 2 ≤ j) : thT w w1 j = w1 * (d2T w j / dT w j) := by
  have h1 := dT_pos hw (j := j) (by omega)
  unfold thT bT
  rw [if_neg (by omega)]
  field_simp

/-- The stage times increase to the end of the step. -/
theorem thT_mono {m : ℕ} (hm : 2 ≤ m) {j k : ℕ} (hjk : j ≤ k) :
    thT (rkcW0 m) (rkcW1 m) j ≤ thT (rkcW0 m) (rkcW1 m) k := by
  have hw := rkcW0_gt m (by omega)
  have hw1 := rkcW1_pos hm
  have h12 : thT (rkcW0 m) (rkcW1 m) 1 ≤ thT (rkcW0 m) (rkcW1 m) 2 := by
    have e2 : dT (rkcW0 m) 2 = 4 * rkcW0 m := by
      have := dT_succ (rkcW0 m) 0
      simp only [zero_add, dT_zero, dT_one, zT_one] at this
      rw [this]; ring
    have e3 : d2T (rkcW0 m) 2 = 4 := by
      have := d2T_succ (rkcW0 m) 0
      simp only [zero_add, d2T_zero, d2T_one, dT_one] at this
      rw [this]; ring
    rw [thT_ge2 hw.le (le_refl 2), e2, e3]
    unfold thT bT
    rw [if_pos (by norm_num), dT_one, mul_one]
    apply mul_le_mul_of_nonneg_left _ hw1.le
    rw [div_le_div_iff₀ (by positivity) (by positivity)]
    nlinarith
  have h2 : ∀ {j k : ℕ}, 2 ≤ j → j ≤ k → thT (rkcW0 m) (rkcW1 m) j ≤ thT (rkcW0 m) (rkcW1 m) k := by
    intro j k h2 hjk
    rw [thT_ge2 hw.le h2, thT_ge2 hw.le (h2.trans hjk)]
    exact mul_le_mul_of_nonneg_left (ratio_mono hw (by omega) hjk) hw1.le
  rcases Nat.eq_zero_or_pos j with rfl | hj
  · rcases Nat.eq_zero_or_pos k with rfl | hk
    · exact le_refl _
    · rw [thT_zero]; exact (thT_pos hm hk).le
  · rcases Nat.lt_or_ge j 2 with hj2 | hj2
    · obtain rfl : j = 1 := by omega
      rcases Nat.lt_or_ge k 2 with hk2 | hk2
      · obtain rfl : k = 1 := by omega
        exact le_refl _
      · exact h12.trans (h2 (le_refl 2) hk2)
    · exact h2 hj2 hjk

end Extensisq
