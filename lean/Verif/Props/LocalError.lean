import Verif.Lemmas.BSeriesRK
import Verif.Props.Order
import Mathlib.Analysis.SpecialFunctions.ExpDeriv

/-!
# C59: the local error has the advertised order

For every smooth right-hand side, the result of one attempt of a shipped rational method differs from
the exact solution through the starting point by `O(h^(order+1))`, and its error estimate is
`O(h^(order_secondary+1))`.
-/

set_option linter.unusedSectionVars false

namespace Extensisq
open scoped ContDiff
open Finset Asymptotics Filter Topology

variable {E : Type*} [NormedAddCommGroup E] [NormedSpace ℝ E]

theorem sum_full {T : Tableau ℝ} (i : ℕ) (hi : i ≤ T.s) (k : ℕ → E) :
    ∑ j ∈ range (T.s + 1), T.full i j • k j =
      if i < T.s then ∑ j ∈ range i, T.A i j • k j else ∑ j ∈ range T.s, T.B j • k j := by
  have hsub : range i ⊆ range (T.s + 1) := by
    intro j hj; rw [mem_range] at *; omega
  rw [← sum_subset hsub]
  · split_ifs with h
    · apply sum_congr rfl
      intro j hj
      unfold Tableau.full
      rw [if_pos (mem_range.mp hj), if_pos h]
    · obtain rfl : i = T.s := by omega
      apply sum_congr rfl
      intro j hj
      unfold Tableau.full
      rw [if_pos (mem_range.mp hj), if_neg h, if_pos rfl]
  · intro j _ hj
    rw [mem_range] at hj
    unfold Tableau.full
    rw [if_neg hj, zero_smul]

/-- The stages of an explicit step, with the derivative at the new point as last stage, satisfy the stage
equations of the extended matrix. -/
theorem full_stage {T : Tableau ℝ} {f : ℝ → E → E} {t0 h : ℝ} {y0 yNew : E} {k : ℕ → E}
    (hk : IsRKStep T f t0 y0 h k yNew) (i : ℕ) (hi : i < T.s + 1) :
    k i = f (t0 + (if i < T.s then T.C i else 1) * h)
      (y0 + h • ∑ j ∈ range (T.s + 1), T.full i j • k j) := by
  rw [sum_full i (by omega)]
  split_ifs with hs
  · exact hk.stage i hs
  · obtain rfl : i = T.s := by omega
    rw [← hk.sol, one_mul]; exact hk.last

theorem full_rows {T : Tableau ℝ} (hA : ∀ i, i < T.s → ∑ j ∈ range i, T.A i j = T.C i)
    (hB : ∑ i ∈ range T.s, T.B i = 1) (i : ℕ) (hi : i < T.s + 1) :
    ∑ j ∈ range (T.s + 1), T.full i j = if i < T.s then T.C i else 1 := by
  have := sum_full (T := T) i (by omega) (fun _ => (1 : ℝ))
  simp only [smul_eq_mul, mul_one] at this
  rw [this]
  split_ifs with h
  · exact hA i h
  · exact hB

/-- Local error and error estimate for `y' = f(t, y)`. -/
theorem local_error {T : Tableau ℝ} (hA : ∀ i, i < T.s → ∑ j ∈ range i, T.A i j = T.C i)
    (hB : ∑ i ∈ range T.s, T.B i = 1) {f : ℝ → E → E} {t0 : ℝ} {y0 : E}
    (hf : ContDiffAt ℝ ∞ (fun z : ℝ × E => f z.1 z.2) (t0, y0)) {k : ℝ → ℕ → E} {yNew : ℝ → E}
    (hk : ∀ h, IsRKStep T f t0 y0 h (k h) (yNew h)) :
    (∀ (b : ℕ → ℝ) (θ : ℝ) (q : ℕ), 1 ≤ q →
      (∀ τ : OTree, τ.size ≤ q →
        ∑ i ∈ range (T.s + 1), b i * τ.weight (T.s + 1) T.full i = θ ^ τ.size / (τ.dens : ℝ)) →
      ∀ y : ℝ → E, y t0 = y0 → (∀ᶠ t in 𝓝 t0, HasDerivAt y (f t (y t)) t) →
      (fun h => y0 + h • ∑ i ∈ range (T.s + 1), b i • k h i - y (t0 + θ * h))
        =O[𝓝 0] fun h : ℝ => h ^ (q + 1)) ∧
    (∀ (e : ℕ → ℝ) (q : ℕ), ErrorCond (T.s + 1) T.full e q →
      (fun h => h • ∑ i ∈ range (T.s + 1), e i • k h i) =O[𝓝 0] fun h : ℝ => h ^ (q + 1)) := by
  have hk' : ∀ i, i < T.s + 1 → ∀ᶠ h in 𝓝 (0 : ℝ), k h i =
      f (t0 + (if i < T.s then T.C i else 1) * h)
        (y0 + h • ∑ j ∈ range (T.s + 1), T.full i j • k h j) :=
    fun i hi => Eventually.of_forall fun h => full_stage (hk h) i hi
  have hA0 : ∀ i, i < T.s + 1 → ∀ j, j < T.s + 1 → i ≤ j → T.full i j = 0 := by
    intro i _ j _ hj
    unfold Tableau.full
    rw [if_neg (by omega)]
  exact local_error_rk (full_rows hA hB) hf hk' (explicit_bounded_rk hA0 hf.continuousAt hk')

/-- Row sums of the shipped tables. -/
theorem rationalRK_rows (R : RKTable) (hR : R ∈ rationalRK) :
    (∀ i, i < (R.tab ℝ).s → ∑ j ∈ range i, (R.tab ℝ).A i j = (R.tab ℝ).C i) ∧
      ∑ i ∈ range (R.tab ℝ).s, (R.tab ℝ).B i = 1 ∧ (R.tab ℝ).C 0 = 0 ∧ 0 < (R.tab ℝ).s := by
  have key : ∀ R ∈ rationalRK, (∀ i, i < R.s → ∑ j ∈ range i, (R.tab ℚ).A i j = (R.tab ℚ).C i) ∧
      ∑ i ∈ range R.s, (R.tab ℚ).B i = 1 ∧ (R.tab ℚ).C 0 = 0 ∧ 0 < R.s := by decide +kernel
  obtain ⟨h1, h2, h3, h4⟩ := key R hR
  refine ⟨?_, ?_, ?_, h4⟩
  · intro i hi
    have := congrArg (fun q : ℚ => (q : ℝ)) (h1 i hi)
    push_cast at this
    simpa [RKTable.tab] using this
  · have := congrArg (fun q : ℚ => (q : ℝ)) h2
    push_cast at this
    simpa [RKTable.tab] using this
  · have := congrArg (fun q : ℚ => (q : ℝ)) h3
    simpa [RKTable.tab] using this

/-- **C59**. Let `f` be smooth at `(t0, y0)` and `y` a solution of `y' = f(t, y)` through that point. The
value computed by an attempt of a shipped rational method with step `h` differs from `y(t0 + h)` by
`O(h^(order+1))` as `h → 0` (in both directions), and the error estimate is `O(h^(order_secondary+1))`. -/
theorem C59_local_error_order (R : RKTable) (hR : R ∈ rationalRK) {f : ℝ → E → E} {t0 : ℝ} {y0 : E}
    (hf : ContDiffAt ℝ ∞ (fun z : ℝ × E => f z.1 z.2) (t0, y0)) {k : ℝ → ℕ → E} {yNew : ℝ → E}
    (hk : ∀ h, IsRKStep (R.tab ℝ) f t0 y0 h (k h) (yNew h)) :
    (∀ y : ℝ → E, y t0 = y0 → (∀ᶠ t in 𝓝 t0, HasDerivAt y (f t (y t)) t) →
      (fun h => yNew h - y (t0 + h)) =O[𝓝 0] fun h : ℝ => h ^ (R.order + 1)) ∧
    (fun h => errorEstimate (R.tab ℝ) h (k h)) =O[𝓝 0] fun h : ℝ => h ^ (R.orderSec + 1) := by
  obtain ⟨h1, h2, _, _⟩ := rationalRK_rows R hR
  obtain ⟨h3, h4⟩ := local_error h1 h2 hf hk
  refine ⟨?_, h4 _ _ (C22_error_order ℝ R hR)⟩
  intro y hy0 hy
  have ho : ∀ R ∈ rationalRK, 1 ≤ R.order := by decide +kernel
  have := h3 (R.tab ℝ).main 1 R.order (ho R hR) (by
    intro τ hτ
    rw [one_pow]
    exact C22_main_order ℝ R hR τ hτ) y hy0 hy
  refine this.congr_left ?_
  intro h
  rw [(hk h).sol, sum_range_succ, one_mul]
  simp only [Tableau.main, lt_irrefl, if_false, zero_smul, add_zero]
  congr 3
  apply sum_congr rfl
  intro j hj
  rw [if_pos (mem_range.mp hj)]

/-- **C59** for the attempt made by the driver (`RungeKutta._step_impl` with the stored derivative
`f = fun(t, y)`), whatever is left in the stage array. -/
theorem C59_attempt (R : RKTable) (hR : R ∈ rationalRK) {f : ℝ → E → E} {t0 : ℝ} {y0 : E}
    (hf : ContDiffAt ℝ ∞ (fun z : ℝ × E => f z.1 z.2) (t0, y0)) (errNorm : E → E → E → ENorm ℝ)
    (Ks : ℝ → ℕ → E) (y : ℝ → E) (hy0 : y t0 = y0)
    (hy : ∀ᶠ t in 𝓝 t0, HasDerivAt y (f t (y t)) t) :
    (fun h => (rkTrial (R.tab ℝ) f errNorm t0 y0 (f t0 y0) h (Ks h)).yNew - y (t0 + h))
      =O[𝓝 0] fun h : ℝ => h ^ (R.order + 1) := by
  obtain ⟨_, _, h3, h4⟩ := rationalRK_rows R hR
  exact (C59_local_error_order R hR hf
    (fun h => (rkTrial_isRKStep (R.tab ℝ) f errNorm t0 y0 h (Ks h) h3 h4).1)).1 y hy0 hy

/-- C59: the hypotheses are met by `y' = y` on `ℝ`, with the exponential as solution. -/
example : ContDiffAt ℝ ∞ (fun z : ℝ × ℝ => z.2) (0, 1) ∧ Real.exp 0 = 1 ∧
    ∀ᶠ t in 𝓝 (0 : ℝ), HasDerivAt Real.exp (Real.exp t) t :=
  ⟨contDiffAt_snd, Real.exp_zero, Eventually.of_forall Real.hasDerivAt_exp⟩

end Extensisq
