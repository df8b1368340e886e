import Mathlib.Analysis.Calculus.ContDiff.Basic
import Mathlib.Analysis.Calculus.ContDiff.RCLike
import Mathlib.Analysis.Calculus.ContDiff.Operations
import Mathlib.Analysis.Calculus.MeanValue
import Mathlib.Analysis.Calculus.Deriv.Pow
import Mathlib.Analysis.Calculus.Deriv.Add
import Mathlib.Analysis.Calculus.Deriv.Mul
import Mathlib.Analysis.Calculus.Deriv.Prod
import Verif.Lemmas.BSeries

/-!
# Order of smallness, uniformly in a parameter

If `g(t, h)` is `n` times continuously differentiable and `O(h^n)` for every single `t`, then it is `O(h^n)` uniformly.
-/

set_option linter.unusedSectionVars false

namespace Extensisq
open Finset Asymptotics Filter Topology

variable {E : Type*} [NormedAddCommGroup E] [NormedSpace ℝ E]

/-- Mean value bound near zero. -/
theorem isBigO_of_hasDerivAt {ψ ψ' : ℝ → E} {n : ℕ} (hd : ∀ᶠ h in 𝓝 (0 : ℝ), HasDerivAt ψ (ψ' h) h)
    (hO : ψ' =O[𝓝 0] fun h : ℝ => h ^ n) (h0 : ψ 0 = 0) : ψ =O[𝓝 0] fun h : ℝ => h ^ (n + 1) := by
  obtain ⟨C, hC0, hC'⟩ := hO.exists_pos
  have hC := hC'.bound
  obtain ⟨r, hr, hball⟩ := Metric.eventually_nhds_iff.mp (hd.and hC)
  refine IsBigO.of_bound C (Metric.eventually_nhds_iff.mpr ⟨r, hr, fun h hh => ?_⟩)
  have hin : ∀ x ∈ Metric.closedBall (0 : ℝ) |h|, dist x 0 < r := by
    intro x hx
    rw [Real.dist_eq, sub_zero] at hh
    exact lt_of_le_of_lt (Metric.mem_closedBall.mp hx) hh
  have hCpos : ∀ x ∈ Metric.closedBall (0 : ℝ) |h|, ‖ψ' x‖ ≤ C * |h| ^ n := by
    intro x hx
    have h1 := (hball (hin x hx)).2
    rw [norm_pow, Real.norm_eq_abs] at h1
    have hx' : |x| ≤ |h| := by simpa using hx
    refine h1.trans ?_
    gcongr
  have := (convex_closedBall (0 : ℝ) |h|).norm_image_sub_le_of_norm_hasDerivWithin_le
    (f := ψ) (f' := ψ') (C := C * |h| ^ n) (fun x hx => (hball (hin x hx)).1.hasDerivWithinAt) hCpos
    (x := 0) (y := h) (by simp) (by simp)
  rw [h0, sub_zero, sub_zero, Real.norm_eq_abs] at this
  rw [norm_pow, Real.norm_eq_abs, pow_succ, ← mul_assoc]
  exact this

/-- Expansion of a smooth function. -/
theorem exists_expansion : ∀ (n : ℕ) {φ : ℝ → E}, ContDiffAt ℝ n φ 0 →
    ∃ a : ℕ → E, (fun h => φ h - ∑ m ∈ range n, h ^ m • a m) =O[𝓝 0] fun h : ℝ => h ^ n := by
  intro n
  induction n with
  | zero =>
    intro φ hφ
    refine ⟨fun _ => 0, ?_⟩
    simp only [range_zero, sum_empty, sub_zero, pow_zero]
    exact hφ.continuousAt.isBigO_one ℝ
  | succ n ih =>
    intro φ hφ
    obtain ⟨f', ⟨u, hu, hd⟩, hf'⟩ := (contDiffAt_succ_iff_hasFDerivAt (n := n)).mp (by exact_mod_cast hφ)
    obtain ⟨b, hb⟩ := ih (φ := fun h => f' h 1) (hf'.clm_apply contDiffAt_const)
    refine ⟨fun m => if m = 0 then φ 0 else (1 / (m : ℝ)) • b (m - 1), ?_⟩
    refine isBigO_of_hasDerivAt ?_ hb ?_
    · filter_upwards [hu] with h hh
      refine (hd h hh).hasDerivAt.sub ?_
      simp only [sum_range_succ' _ n]
      rw [← add_zero (∑ m ∈ range n, h ^ m • b m)]
      refine HasDerivAt.add ?_ ?_
      · apply HasDerivAt.fun_sum
        intro m _
        have h1 := ((hasDerivAt_pow (m + 1) h).smul_const ((1 / ((m + 1 : ℕ) : ℝ)) • b m))
        refine h1.congr_deriv ?_
        rw [smul_smul, Nat.add_sub_cancel]
        congr 1
        have : ((m + 1 : ℕ) : ℝ) ≠ 0 := by positivity
        field_simp
      · simp only [pow_zero, if_true]
        exact hasDerivAt_const _ _
    · rw [sum_range_succ', sum_eq_zero]
      · simp
      · intro m _
        rw [zero_pow (by omega), zero_smul]

/-- A polynomial of degree below `n` that is `O(h^n)` vanishes. -/
theorem poly_zero : ∀ (n : ℕ) (a : ℕ → E),
    (fun h : ℝ => ∑ m ∈ range n, h ^ m • a m) =O[𝓝[≠] 0] (fun h : ℝ => h ^ n) → ∀ m, m < n → a m = 0 := by
  intro n
  induction n with
  | zero => intro a _ m hm; omega
  | succ n ih =>
    intro a h
    have hcont : Tendsto (fun h : ℝ => ∑ m ∈ range (n + 1), h ^ m • a m) (𝓝[≠] 0) (𝓝 (a 0)) := by
      have h1 : Continuous fun h : ℝ => ∑ m ∈ range (n + 1), h ^ m • a m := by fun_prop
      have h2 : Tendsto (fun h : ℝ => ∑ m ∈ range (n + 1), h ^ m • a m) (𝓝 0) (𝓝 (∑ m ∈ range (n + 1), (0 : ℝ) ^ m • a m)) :=
        h1.tendsto 0
      have h3 : ∑ m ∈ range (n + 1), (0 : ℝ) ^ m • a m = a 0 := by
        rw [sum_range_succ', sum_eq_zero]
        · simp
        · intro m _
          rw [zero_pow (by omega), zero_smul]
      rw [h3] at h2
      exact h2.mono_left nhdsWithin_le_nhds
    have hz : Tendsto (fun h : ℝ => h ^ (n + 1)) (𝓝[≠] 0) (𝓝 0) := by
      have h1 : Tendsto (fun h : ℝ => h ^ (n + 1)) (𝓝 0) (𝓝 ((0 : ℝ) ^ (n + 1))) := (continuous_pow (n + 1)).tendsto 0
      rw [zero_pow (by omega)] at h1
      exact h1.mono_left nhdsWithin_le_nhds
    have h0 : a 0 = 0 := tendsto_nhds_unique hcont (h.trans_tendsto hz)
    have h1 : (fun h : ℝ => ∑ m ∈ range n, h ^ m • a (m + 1)) =O[𝓝[≠] 0] fun h : ℝ => h ^ n := by
      obtain ⟨C, hC⟩ := h.bound
      refine IsBigO.of_bound C ?_
      filter_upwards [hC, self_mem_nhdsWithin] with x hx hx0
      rw [sum_range_succ', h0, smul_zero, add_zero] at hx
      have e : ∑ m ∈ range n, x ^ (m + 1) • a (m + 1) = x • ∑ m ∈ range n, x ^ m • a (m + 1) := by
        rw [smul_sum]
        apply sum_congr rfl
        intro m _
        rw [smul_smul, pow_succ, mul_comm]
      rw [e, norm_smul, pow_succ, norm_mul] at hx
      have hpos : 0 < ‖x‖ := norm_pos_iff.mpr hx0
      have h2 : ‖∑ m ∈ range n, x ^ m • a (m + 1)‖ * ‖x‖ ≤ C * ‖x ^ n‖ * ‖x‖ := by linarith
      exact le_of_mul_le_mul_right h2 hpos
    intro m hm
    cases m with
    | zero => exact h0
    | succ m => exact ih (fun m => a (m + 1)) h1 m (by omega)

/-- The derivative of a smooth function of order `n + 1` has order `n`. -/
theorem deriv_order {φ φ' : ℝ → E} {n : ℕ} (hd : ∀ᶠ h in 𝓝 (0 : ℝ), HasDerivAt φ (φ' h) h)
    (hφ' : ContDiffAt ℝ n φ' 0) (hO : φ =O[𝓝 0] fun h : ℝ => h ^ (n + 1)) :
    φ' =O[𝓝 0] fun h : ℝ => h ^ n := by
  obtain ⟨b, hb⟩ := exists_expansion n hφ'
  have h0 : φ 0 = 0 := by
    obtain ⟨C, hC⟩ := hO.bound
    have h1 := hC.self_of_nhds
    rw [zero_pow (by omega), norm_zero, mul_zero] at h1
    exact norm_le_zero_iff.mp h1
  -- the antiderivative of the expansion
  have h1 : (fun h => φ h - ∑ m ∈ range n, h ^ (m + 1) • ((1 / ((m + 1 : ℕ) : ℝ)) • b m)) =O[𝓝 0]
      fun h : ℝ => h ^ (n + 1) := by
    refine isBigO_of_hasDerivAt (ψ' := fun h => φ' h - ∑ m ∈ range n, h ^ m • b m) ?_ hb ?_
    · filter_upwards [hd] with h hh
      refine hh.sub ?_
      apply HasDerivAt.fun_sum
      intro m _
      have h1 := ((hasDerivAt_pow (m + 1) h).smul_const ((1 / ((m + 1 : ℕ) : ℝ)) • b m))
      refine h1.congr_deriv ?_
      rw [smul_smul, Nat.add_sub_cancel]
      congr 1
      have : ((m + 1 : ℕ) : ℝ) ≠ 0 := by positivity
      field_simp
    · rw [h0, sum_eq_zero, sub_zero]
      intro m _
      rw [zero_pow (by omega), zero_smul]
  have h2 : (fun h : ℝ => ∑ m ∈ range (n + 1), h ^ m • (if m = 0 then 0 else (1 / (m : ℝ)) • b (m - 1))) =O[𝓝[≠] 0]
      fun h : ℝ => h ^ (n + 1) := by
    have h3 := (hO.sub h1).mono (nhdsWithin_le_nhds (s := {0}ᶜ))
    refine h3.congr_left fun h => ?_
    rw [sum_range_succ']
    simp
  have hz := poly_zero (n + 1) _ h2
  refine hb.congr_left fun h => ?_
  rw [sum_eq_zero, sub_zero]
  intro m hm
  rw [mem_range] at hm
  have := hz (m + 1) (by omega)
  rw [if_neg (by omega), Nat.add_sub_cancel] at this
  have hne : (1 / ((m + 1 : ℕ) : ℝ)) ≠ 0 := by positivity
  rw [(smul_eq_zero.mp this).resolve_left hne, smul_zero]

/-- **Uniform order.** -/
theorem uniform_order {X : Type*} [NormedAddCommGroup X] [NormedSpace ℝ X] {s : Set X} {tb : X} :
    ∀ (n : ℕ) {g : X × ℝ → E}, ContDiffAt ℝ n g (tb, 0) →
    (∀ᶠ t in 𝓝[s] tb, (fun h => g (t, h)) =O[𝓝 0] fun h : ℝ => h ^ n) →
    ∃ C, 0 ≤ C ∧ ∀ᶠ z in 𝓝[s] tb ×ˢ 𝓝 (0 : ℝ), ‖g z‖ ≤ C * |z.2| ^ n := by
  have hle : 𝓝[s] tb ×ˢ 𝓝 (0 : ℝ) ≤ 𝓝 (tb, 0) := by
    rw [nhds_prod_eq]
    exact prod_mono nhdsWithin_le_nhds le_rfl
  intro n
  induction n with
  | zero =>
    intro g hg _
    obtain ⟨C, hC⟩ := (hg.continuousAt.isBigO_one ℝ).bound
    refine ⟨|C|, abs_nonneg _, ?_⟩
    filter_upwards [hle hC] with z hz
    rw [pow_zero, mul_one]
    rw [norm_one, mul_one] at hz
    exact hz.trans (le_abs_self C)
  | succ n ih =>
    intro g hg hO
    obtain ⟨g', ⟨u, hu, hd⟩, hg'⟩ := (contDiffAt_succ_iff_hasFDerivAt (n := n)).mp (by exact_mod_cast hg)
    have hγ : ContDiffAt ℝ n (fun z => g' z (0, 1)) (tb, 0) := hg'.clm_apply contDiffAt_const
    have hline : ∀ (t : X) (h : ℝ), HasDerivAt (fun x : ℝ => (t, x)) ((0 : X), (1 : ℝ)) h := fun t h =>
      (hasDerivAt_const h t).prodMk (hasDerivAt_id h)
    have hder : ∀ t h, (t, h) ∈ u → HasDerivAt (fun x => g (t, x)) (g' (t, h) (0, 1)) h := fun t h hu' =>
      (hd _ hu').comp_hasDerivAt h (hline t h)
    have hev : ∀ᶠ z in 𝓝 (tb, (0 : ℝ)), ContDiffAt ℝ n (fun z => g' z (0, 1)) z ∧ u ∈ 𝓝 z :=
      (hγ.eventually (by simp)).and (eventually_mem_nhds_iff.mpr hu)
    have hev' : ∀ᶠ t in 𝓝 tb, ContDiffAt ℝ n (fun z => g' z (0, 1)) (t, 0) ∧ u ∈ 𝓝 (t, (0 : ℝ)) := by
      have hc : ContinuousAt (fun t : X => (t, (0 : ℝ))) tb := by fun_prop
      exact hc.eventually hev
    obtain ⟨C, hC0, hC⟩ := ih hγ (by
      filter_upwards [hO, nhdsWithin_le_nhds hev'] with t ht ht'
      refine deriv_order ?_ ?_ ht
      · have hc : ContinuousAt (fun h : ℝ => (t, h)) 0 := by fun_prop
        filter_upwards [hc.eventually ht'.2] with h hh
        exact hder t h hh
      · exact ContDiffAt.comp (0 : ℝ) (g := fun z => g' z (0, 1)) (f := fun h : ℝ => (t, h)) ht'.1
          (contDiffAt_const.prodMk contDiffAt_id))
    refine ⟨C, hC0, ?_⟩
    have hall : ∀ᶠ z in 𝓝[s] tb ×ˢ 𝓝 (0 : ℝ), ‖g' z (0, 1)‖ ≤ C * |z.2| ^ n ∧ z ∈ u := hC.and (hle hu)
    obtain ⟨pa, hpa, pb, hpb, hab⟩ := eventually_prod_iff.mp hall
    obtain ⟨r, hr, hball⟩ := Metric.eventually_nhds_iff.mp hpb
    have hnear : ∀ᶠ z in 𝓝[s] tb ×ˢ 𝓝 (0 : ℝ), (pa z.1 ∧ g (z.1, 0) = 0) ∧ dist z.2 0 < r := by
      have hzero : ∀ᶠ t in 𝓝[s] tb, g (t, 0) = 0 := by
        filter_upwards [hO] with t ht
        obtain ⟨C', hC'⟩ := ht.bound
        have h1 := hC'.self_of_nhds
        rw [zero_pow (by omega), norm_zero, mul_zero] at h1
        exact norm_le_zero_iff.mp h1
      have hball' : ∀ᶠ h in 𝓝 (0 : ℝ), dist h 0 < r := Metric.ball_mem_nhds _ hr
      exact (hpa.and hzero).prod_mk hball'
    filter_upwards [hnear] with z hz
    obtain ⟨t, h⟩ := z
    obtain ⟨⟨h1, h2⟩, h3⟩ := hz
    dsimp only at h1 h2 h3 ⊢
    have hin : ∀ x ∈ Metric.closedBall (0 : ℝ) |h|, ‖g' (t, x) (0, 1)‖ ≤ C * |x| ^ n ∧ (t, x) ∈ u := by
      intro x hx
      refine hab h1 (hball ?_)
      rw [Real.dist_eq, sub_zero] at h3
      exact lt_of_le_of_lt (Metric.mem_closedBall.mp hx) h3
    have := (convex_closedBall (0 : ℝ) |h|).norm_image_sub_le_of_norm_hasDerivWithin_le
      (f := fun x => g (t, x)) (f' := fun x => g' (t, x) (0, 1)) (C := C * |h| ^ n)
      (fun x hx => (hder t x (hin x hx).2).hasDerivWithinAt) (fun x hx => by
        have hx' : |x| ≤ |h| := by simpa using hx
        refine (hin x hx).1.trans ?_
        gcongr)
      (x := 0) (y := h) (by simp) (by simp)
    rw [h2, sub_zero, sub_zero, Real.norm_eq_abs] at this
    rw [pow_succ, ← mul_assoc]
    exact this

end Extensisq
