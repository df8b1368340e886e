import Mathlib.Analysis.Analytic.Basic
import Mathlib.Analysis.Calculus.ContDiff.Basic
import Mathlib.Analysis.Calculus.ContDiff.FTaylorSeries
import Mathlib.Analysis.Calculus.MeanValue
import Mathlib.Analysis.Calculus.Deriv.Pow
import Mathlib.Analysis.Calculus.Deriv.Mul
import Mathlib.Analysis.Calculus.TaylorIntegral

/-!
# Taylor expansions

`TaylorAt f p x0`: the partial sums of the formal series `p` approximate `f` near `x0` to every order. Convergence of the
series is not asked for; every infinitely often differentiable function has such an expansion.
-/

namespace Extensisq
open Finset Asymptotics Filter Topology
open scoped ContDiff

variable {G F : Type*} [NormedAddCommGroup G] [NormedSpace ℝ G] [NormedAddCommGroup F] [NormedSpace ℝ F]

/-- The partial sums of `p` approximate `f` near `x0` to every order. -/
def TaylorAt (f : G → F) (p : FormalMultilinearSeries ℝ G F) (x0 : G) : Prop :=
  ∀ n, (fun v => f (x0 + v) - p.partialSum n v) =O[𝓝 0] fun v => ‖v‖ ^ n

theorem TaylorAt.isBigO_sub_partialSum_pow {f : G → F} {p : FormalMultilinearSeries ℝ G F} {x0 : G}
    (h : TaylorAt f p x0) (n : ℕ) : (fun v => f (x0 + v) - p.partialSum n v) =O[𝓝 0] fun v => ‖v‖ ^ n := h n

/-- The Taylor series of a function. -/
noncomputable def taylorSeries (f : G → F) (x : G) : FormalMultilinearSeries ℝ G F :=
  fun k => ((k.factorial : ℝ)⁻¹) • iteratedFDeriv ℝ k f x

theorem taylor_along {f : G → F} {x v : G} {n : ℕ} {s : ℝ} (hf : ContDiffAt ℝ (n + 1) f (x + s • v)) :
    HasDerivAt (fun s : ℝ => ∑ k ∈ range (n + 1), ((1 - s) ^ k * (k.factorial : ℝ)⁻¹) • iteratedFDeriv ℝ k f (x + s • v) fun _ => v)
      (((1 - s) ^ n * (n.factorial : ℝ)⁻¹) • iteratedFDeriv ℝ (n + 1) f (x + s • v) fun _ => v) s := by
  induction n with
  | zero =>
    have hd : HasDerivAt (fun s : ℝ => iteratedFDeriv ℝ 0 f (x + s • v) fun _ => v)
        (iteratedFDeriv ℝ 1 f (x + s • v) fun _ => v) s := by
      have := (hf.deriv_fderiv_add_smul (n := 0) : deriv (fun s : ℝ => iteratedFDeriv ℝ 0 f (x + s • v) fun _ => v) s = _)
      rw [← this]
      apply DifferentiableAt.hasDerivAt
      have h1 : DifferentiableAt ℝ (iteratedFDeriv ℝ 0 f) (x + s • v) :=
        hf.differentiableAt_iteratedFDeriv (by norm_cast)
      fun_prop
    simpa using hd
  | succ n ih =>
    have hf' : ContDiffAt ℝ (n + 1) f (x + s • v) := hf.of_le (by norm_cast; omega)
    have hd : HasDerivAt (fun s : ℝ => iteratedFDeriv ℝ (n + 1) f (x + s • v) fun _ => v)
        (iteratedFDeriv ℝ (n + 1 + 1) f (x + s • v) fun _ => v) s := by
      have := (hf.deriv_fderiv_add_smul (n := n + 1) : deriv (fun s : ℝ => iteratedFDeriv ℝ (n + 1) f (x + s • v) fun _ => v) s = _)
      rw [← this]
      apply DifferentiableAt.hasDerivAt
      have h1 : DifferentiableAt ℝ (iteratedFDeriv ℝ (n + 1) f) (x + s • v) :=
        hf.differentiableAt_iteratedFDeriv (by norm_cast; omega)
      fun_prop
    have hp : HasDerivAt (fun s : ℝ => (1 - s) ^ (n + 1) * ((n + 1).factorial : ℝ)⁻¹)
        (-((1 - s) ^ n * (n.factorial : ℝ)⁻¹)) s := by
      have h1 := (((hasDerivAt_id s).const_sub 1).pow (n + 1)).mul_const ((n + 1).factorial : ℝ)⁻¹
      refine h1.congr_deriv ?_
      rw [Nat.factorial_succ]
      have : (n.factorial : ℝ) ≠ 0 := by exact_mod_cast n.factorial_ne_zero
      have h3 : ((n : ℝ) + 1) ≠ 0 := by positivity
      push_cast
      field_simp
      simp
    have h3 := (ih hf').add (hp.smul hd)
    simp only [sum_range_succ _ (n + 1)]
    refine h3.congr_deriv ?_
    rw [neg_smul]
    abel

/-- The remainder of the Taylor polynomial with `n + 1` terms. -/
theorem taylor_remainder {f : G → F} {x : G} {n : ℕ} (hf : ContDiffAt ℝ (n + 1) f x) :
    (fun v => f (x + v) - (taylorSeries f x).partialSum (n + 1) v) =O[𝓝 0] fun v => ‖v‖ ^ (n + 1) := by
  have h1 : ∀ᶠ z in 𝓝 x, ContDiffAt ℝ (n + 1) f z := hf.eventually (by exact_mod_cast WithTop.coe_ne_top)
  have h2 : ContinuousAt (fun z => iteratedFDeriv ℝ (n + 1) f z) x :=
    (hf.iteratedFDeriv_right (i := n + 1) (m := 0) (by simp)).continuousAt
  have h3 : ∀ᶠ z in 𝓝 x, ‖iteratedFDeriv ℝ (n + 1) f z‖ ≤ ‖iteratedFDeriv ℝ (n + 1) f x‖ + 1 := by
    filter_upwards [h2.norm.eventually (gt_mem_nhds (lt_add_one _))] with z hz
    exact hz.le
  obtain ⟨ε, hε, hb⟩ := Metric.eventually_nhds_iff_ball.mp (h1.and h3)
  set C := ‖iteratedFDeriv ℝ (n + 1) f x‖ + 1 with hC
  have hC0 : 0 ≤ C := by positivity
  apply IsBigO.of_bound C
  rw [Metric.eventually_nhds_iff_ball]
  refine ⟨ε, hε, fun v hv => ?_⟩
  have hv' : ‖v‖ < ε := by simpa using hv
  have hmem : ∀ s ∈ Set.Icc (0 : ℝ) 1, x + s • v ∈ Metric.ball x ε := by
    intro s hs
    rw [Metric.mem_ball, dist_eq_norm, add_sub_cancel_left, norm_smul, Real.norm_eq_abs, abs_of_nonneg hs.1]
    exact lt_of_le_of_lt (mul_le_of_le_one_left (norm_nonneg _) hs.2) hv'
  have hd : ∀ s ∈ Set.Icc (0 : ℝ) 1, HasDerivWithinAt (fun s : ℝ => ∑ k ∈ range (n + 1), ((1 - s) ^ k * (k.factorial : ℝ)⁻¹) •
      iteratedFDeriv ℝ k f (x + s • v) fun _ => v)
      (((1 - s) ^ n * (n.factorial : ℝ)⁻¹) • iteratedFDeriv ℝ (n + 1) f (x + s • v) fun _ => v) (Set.Icc 0 1) s :=
    fun s hs => (taylor_along (hb _ (hmem s hs)).1).hasDerivWithinAt
  have hbd : ∀ s ∈ Set.Icc (0 : ℝ) 1, ‖((1 - s) ^ n * (n.factorial : ℝ)⁻¹) • iteratedFDeriv ℝ (n + 1) f (x + s • v) fun _ => v‖ ≤
      C * ‖v‖ ^ (n + 1) := by
    intro s hs
    have a0 : (0 : ℝ) ≤ 1 - s := by linarith [hs.2]
    have a1 : (1 - s) ^ n ≤ 1 := pow_le_one₀ a0 (by linarith [hs.1])
    have a2 : (n.factorial : ℝ)⁻¹ ≤ 1 := inv_le_one_of_one_le₀ (by exact_mod_cast n.factorial_pos)
    have a3 : (0 : ℝ) ≤ (n.factorial : ℝ)⁻¹ := by positivity
    have a4 : (1 - s) ^ n * (n.factorial : ℝ)⁻¹ ≤ 1 := mul_le_one₀ a1 a3 a2
    have a5 : 0 ≤ (1 - s) ^ n * (n.factorial : ℝ)⁻¹ := mul_nonneg (pow_nonneg a0 _) a3
    rw [norm_smul, Real.norm_eq_abs, abs_of_nonneg a5]
    have a6 : ‖iteratedFDeriv ℝ (n + 1) f (x + s • v) fun _ => v‖ ≤ C * ‖v‖ ^ (n + 1) := by
      refine ((iteratedFDeriv ℝ (n + 1) f (x + s • v)).le_opNorm _).trans ?_
      rw [prod_const, card_univ, Fintype.card_fin]
      exact mul_le_mul_of_nonneg_right (hb _ (hmem s hs)).2 (by positivity)
    exact (mul_le_of_le_one_left (norm_nonneg _) a4).trans a6
  have hfin := Convex.norm_image_sub_le_of_norm_hasDerivWithin_le hd hbd (convex_Icc (0 : ℝ) 1)
    (Set.left_mem_Icc.mpr zero_le_one) (Set.right_mem_Icc.mpr zero_le_one)
  have e1 : (∑ k ∈ range (n + 1), ((1 - (1 : ℝ)) ^ k * (k.factorial : ℝ)⁻¹) • iteratedFDeriv ℝ k f (x + (1 : ℝ) • v) fun _ => v) =
      f (x + v) := by
    rw [sum_range_succ']
    simp
  have e0 : (∑ k ∈ range (n + 1), ((1 - (0 : ℝ)) ^ k * (k.factorial : ℝ)⁻¹) • iteratedFDeriv ℝ k f (x + (0 : ℝ) • v) fun _ => v) =
      (taylorSeries f x).partialSum (n + 1) v := by
    unfold FormalMultilinearSeries.partialSum taylorSeries
    apply sum_congr rfl
    intro k _
    simp
  rw [e1, e0] at hfin
  rw [norm_pow, norm_norm]
  simpa using hfin

/-- Every infinitely often differentiable function has a Taylor expansion. -/
theorem taylorAt_of_contDiffAt {f : G → F} {x : G} (hf : ContDiffAt ℝ ∞ f x) : TaylorAt f (taylorSeries f x) x := by
  intro n
  cases n with
  | zero =>
    have h1 : ContinuousAt (fun v => f (x + v)) 0 := by
      have h2 : ContinuousAt f (x + 0) := by rw [add_zero]; exact hf.continuousAt
      exact ContinuousAt.comp (f := fun v => x + v) h2 (by fun_prop)
    simp only [FormalMultilinearSeries.partialSum, range_zero, sum_empty, sub_zero, pow_zero]
    exact h1.tendsto.isBigO_one ℝ
  | succ n => exact taylor_remainder (hf.of_le (by exact_mod_cast le_top))

theorem smooth_nat {f : G → F} {x : G} (hf : ContDiffAt ℝ ∞ f x) (n : ℕ) : ContDiffAt ℝ n f x :=
  hf.of_le (by exact_mod_cast le_top)

theorem exists_taylorAt {f : G → F} {x : G} (hf : ContDiffAt ℝ ∞ f x) : ∃ p, TaylorAt f p x :=
  ⟨_, taylorAt_of_contDiffAt hf⟩

theorem TaylorAt.compContinuousLinearMap {G' : Type*} [NormedAddCommGroup G'] [NormedSpace ℝ G'] {f : G → F}
    {p : FormalMultilinearSeries ℝ G F} {L : G' →L[ℝ] G} {x : G'} (h : TaylorAt f p (L x)) :
    TaylorAt (f ∘ L) (p.compContinuousLinearMap L) x := by
  intro n
  have h1 : Tendsto L (𝓝 0) (𝓝 0) := by simpa using L.continuous.tendsto 0
  have h2 := (h n).comp_tendsto h1
  have h3 : (fun v => ‖L v‖ ^ n) =O[𝓝 0] fun v : G' => ‖v‖ ^ n := by
    have := (L.isBigO_id (𝓝 0)).norm_norm.pow n
    exact this
  refine (h2.trans h3).congr_left fun v => ?_
  simp only [Function.comp, map_add]
  congr 1

/-- Near a point where `f` is smooth, the Taylor series have coefficients with a common bound. -/
theorem taylor_bound {f : G → F} {x0 : G} (hf : ContDiffAt ℝ ∞ f x0) (q : ℕ) :
    ∃ B : ℝ, 1 ≤ B ∧ ∀ᶠ x in 𝓝 x0, ∀ n, n < q → ‖taylorSeries f x n‖ ≤ B := by
  have hcont : ∀ n, ∃ C, ∀ᶠ z in 𝓝 x0, ‖taylorSeries f z n‖ ≤ C := by
    intro n
    have h1 : ContinuousAt (fun z => taylorSeries f z n) x0 := by
      have : ContinuousAt (iteratedFDeriv ℝ n f) x0 :=
        (ContDiffAt.iteratedFDeriv_right (i := n) (m := 0) (n := ∞) hf (by simp; exact_mod_cast le_top)).continuousAt
      exact ContinuousAt.const_smul (g := iteratedFDeriv ℝ n f) this ((n.factorial : ℝ)⁻¹)
    refine ⟨‖taylorSeries f x0 n‖ + 1, ?_⟩
    filter_upwards [h1.norm.eventually (gt_mem_nhds (lt_add_one _))] with z hz
    exact hz.le
  choose C hC using hcont
  refine ⟨1 + ∑ n ∈ range q, |C n|, by linarith [sum_nonneg fun n (_ : n ∈ range q) => abs_nonneg (C n)], ?_⟩
  have hall : ∀ᶠ z in 𝓝 x0, ∀ n ∈ range q, ‖taylorSeries f z n‖ ≤ C n :=
    (Finset.eventually_all (range q)).mpr fun n _ => hC n
  filter_upwards [hall] with x h1 n hn
  refine (h1 n (mem_range.mpr hn)).trans ?_
  have : |C n| ≤ ∑ n ∈ range q, |C n| := single_le_sum (f := fun n => |C n|) (fun _ _ => abs_nonneg _) (mem_range.mpr hn)
  linarith [le_abs_self (C n)]

end Extensisq
