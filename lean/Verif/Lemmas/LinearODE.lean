import Mathlib.Analysis.ODE.Gronwall
import Mathlib.Analysis.ODE.ExistUnique
import Mathlib.Analysis.Calculus.Deriv.Comp
import Mathlib.Analysis.Calculus.Deriv.Add
import Mathlib.Topology.MetricSpace.Thickening

/-!
# Initial value problems with a global Lipschitz condition have solutions on the whole interval

Library part (no model of the code).
-/

set_option linter.unusedSectionVars false

namespace Extensisq
open Set Filter Topology
open scoped NNReal

section growth
variable {E : Type*} [NormedAddCommGroup E] [NormedSpace ℝ E]

/-- Growth of a solution, to the right of the starting point. -/
theorem growth_right {x x' : ℝ → E} {a b K B : ℝ}
    (hx : ∀ t ∈ Icc a b, HasDerivWithinAt x (x' t) (Icc a b) t) (hb : ∀ t ∈ Icc a b, ‖x' t‖ ≤ K * ‖x t‖ + B) :
    ∀ t ∈ Icc a b, ‖x t‖ ≤ gronwallBound ‖x a‖ K B (t - a) := by
  refine norm_le_gronwallBound_of_norm_deriv_right_le (fun t ht => (hx t ht).continuousWithinAt) (f' := x') ?_ le_rfl
    fun t ht => hb t (Ico_subset_Icc_self ht)
  intro t ht
  exact (hx t (Ico_subset_Icc_self ht)).mono_of_mem_nhdsWithin (Icc_mem_nhdsGE_of_mem ht)

/-- Growth of a solution on both sides of the starting point. -/
theorem growth_both {x x' : ℝ → E} {a b t0 K B : ℝ} (ht0 : t0 ∈ Icc a b) (hK : 0 ≤ K) (hB : 0 ≤ B)
    (hx : ∀ t ∈ Icc a b, HasDerivWithinAt x (x' t) (Icc a b) t) (hb : ∀ t ∈ Icc a b, ‖x' t‖ ≤ K * ‖x t‖ + B) :
    ∀ t ∈ Icc a b, ‖x t‖ ≤ gronwallBound ‖x t0‖ K B (b - a) := by
  intro t ht
  have hmono := gronwallBound_mono (δ := ‖x t0‖) (ε := B) (K := K) (norm_nonneg _) hB hK
  rcases le_total t0 t with h | h
  · have hsub : Icc t0 b ⊆ Icc a b := Icc_subset_Icc_left ht0.1
    have := growth_right (fun s hs => (hx s (hsub hs)).mono hsub) (fun s hs => hb s (hsub hs)) t ⟨h, ht.2⟩
    exact this.trans (hmono (by linarith [ht.2, ht0.1]))
  · have hsub : ∀ s ∈ Icc (-t0) (-a), -s ∈ Icc a b := fun s hs => ⟨by linarith [hs.2], by linarith [hs.1, ht0.2]⟩
    have := growth_right (x := fun s => x (-s)) (x' := fun s => -x' (-s)) (a := -t0) (b := -a) (K := K) (B := B)
      (fun s hs => by
        have h1 := (hx (-s) (hsub s hs)).scomp s (h := fun s : ℝ => -s) (t' := Icc a b)
          ((hasDerivAt_neg s).hasDerivWithinAt (s := Icc (-t0) (-a))) (fun u hu => hsub u hu)
        simpa [Function.comp_def] using h1)
      (fun s hs => by rw [norm_neg]; exact hb _ (hsub s hs)) (-t) ⟨by linarith, by linarith [ht.1]⟩
    simp only [neg_neg] at this
    exact this.trans (hmono (by linarith [ht.1, ht0.2]))

end growth

variable {ι : Type*} [Fintype ι]

/-- Components limited to `[-R, R]`. -/
def clamp (R : ℝ) (x : ι → ℝ) : ι → ℝ := fun i => max (-R) (min R (x i))

theorem clamp_lip (R : ℝ) (x y : ι → ℝ) : ‖clamp R x - clamp R y‖ ≤ ‖x - y‖ := by
  rw [pi_norm_le_iff_of_nonneg (norm_nonneg _)]
  intro i
  refine le_trans ?_ (norm_le_pi_norm (x - y) i)
  simp only [clamp, Pi.sub_apply, Real.norm_eq_abs]
  have h1 := abs_max_sub_max_le_max (-R) (min R (x i)) (-R) (min R (y i))
  have h2 := abs_min_sub_min_le_max R (x i) R (y i)
  simp only [sub_self, abs_zero] at h1 h2
  refine h1.trans (max_le (abs_nonneg _) (h2.trans (max_le (abs_nonneg _) le_rfl)))

theorem clamp_zero {R : ℝ} (hR : 0 ≤ R) : clamp R (0 : ι → ℝ) = 0 := by
  funext i
  simp only [clamp, Pi.zero_apply]
  rw [min_eq_right hR, max_eq_right (by linarith)]

theorem clamp_norm {R : ℝ} (hR : 0 ≤ R) (x : ι → ℝ) : ‖clamp R x‖ ≤ ‖x‖ := by
  have := clamp_lip R x 0
  rwa [clamp_zero hR, sub_zero, sub_zero] at this

theorem clamp_le {R : ℝ} (hR : 0 ≤ R) (x : ι → ℝ) : ‖clamp R x‖ ≤ R := by
  rw [pi_norm_le_iff_of_nonneg hR]
  intro i
  rw [Real.norm_eq_abs, abs_le]
  exact ⟨le_max_left _ _, max_le (by linarith) (min_le_left _ _)⟩

theorem clamp_of_le {R : ℝ} {x : ι → ℝ} (h : ‖x‖ ≤ R) : clamp R x = x := by
  funext i
  have h1 := (norm_le_pi_norm x i).trans h
  rw [Real.norm_eq_abs, abs_le] at h1
  simp only [clamp]
  rw [min_eq_right h1.2, max_eq_right h1.1]

/-- Solutions exist on the whole interval. -/
theorem lipschitz_global_exists {F : ℝ → (ι → ℝ) → (ι → ℝ)} {a b t0 K : ℝ} (ht0 : t0 ∈ Icc a b) (hK : 0 ≤ K)
    (hF : ∀ t ∈ Icc a b, ∀ x y, ‖F t x - F t y‖ ≤ K * ‖x - y‖) (hc : ∀ x, ContinuousOn (fun t => F t x) (Icc a b))
    (x0 : ι → ℝ) : ∃ x : ℝ → ι → ℝ, x t0 = x0 ∧ ∀ t ∈ Icc a b, HasDerivWithinAt x (F t (x t)) (Icc a b) t := by
  obtain ⟨B, hB⟩ := isCompact_Icc.exists_bound_of_continuousOn (hc 0)
  have hB0 : 0 ≤ B := (norm_nonneg _).trans (hB t0 ht0)
  have hgrow : ∀ t ∈ Icc a b, ∀ x, ‖F t x‖ ≤ K * ‖x‖ + B := by
    intro t ht x
    have h1 := hF t ht x 0
    rw [sub_zero] at h1
    have h2 := hB t ht
    have h3 : ‖F t x‖ ≤ ‖F t x - F t 0‖ + ‖F t 0‖ := norm_le_norm_sub_add _ _
    linarith
  set R : ℝ := gronwallBound ‖x0‖ K B (b - a) with hRd
  have hle : a ≤ b := ht0.1.trans ht0.2
  have hR : 0 ≤ R := by
    have := gronwallBound_mono (δ := ‖x0‖) (ε := B) (K := K) (norm_nonneg _) hB0 hK (sub_nonneg.mpr hle)
    rw [gronwallBound_x0] at this
    exact (norm_nonneg _).trans this
  set G : ℝ → (ι → ℝ) → (ι → ℝ) := fun t x => F t (clamp R x) with hG
  set L : ℝ := K * R + B with hL
  have hL0 : 0 ≤ L := by positivity
  have hpl : IsPicardLindelof G (⟨t0, ht0⟩ : Icc a b) x0 ⟨L * (b - a), mul_nonneg hL0 (by linarith)⟩ 0 ⟨L, hL0⟩ ⟨K, hK⟩ := by
    refine ⟨fun t ht => ?_, fun x _ => hc _, fun t ht x _ => ?_, ?_⟩
    · refine LipschitzOnWith.of_dist_le_mul fun x _ y _ => ?_
      rw [dist_eq_norm, dist_eq_norm]
      exact (hF t ht _ _).trans (mul_le_mul_of_nonneg_left (clamp_lip R x y) hK)
    · exact (hgrow t ht _).trans (add_le_add (mul_le_mul_of_nonneg_left (clamp_le hR x) hK) le_rfl)
    · change L * max (b - t0) (t0 - a) ≤ L * (b - a) - 0
      rw [sub_zero]
      exact mul_le_mul_of_nonneg_left (max_le (by linarith [ht0.1]) (by linarith [ht0.2])) hL0
  obtain ⟨x, h0, hx⟩ := hpl.exists_eq_forall_mem_Icc_hasDerivWithinAt₀
  have h0 : x t0 = x0 := h0
  have hb := growth_both (K := K) (B := B) ht0 hK hB0 hx fun t ht =>
    (hgrow t ht _).trans (add_le_add (mul_le_mul_of_nonneg_left (clamp_norm hR _) hK) le_rfl)
  refine ⟨x, h0, fun t ht => ?_⟩
  have h1 := hb t ht
  rw [h0] at h1
  have h2 := hx t ht
  simp only [hG] at h2
  rwa [clamp_of_le h1] at h2

/-- A property that holds near every point of an interval holds on a longer interval. -/
theorem extend_interval {Q : ℝ → Prop} {t0 b : ℝ} (h : ∀ t ∈ uIcc t0 b, ∀ᶠ s in 𝓝 t, Q s) :
    ∃ ε > 0, ∀ s ∈ Icc (min t0 b - ε) (max t0 b + ε), Q s := by
  have h1 : {s | ∀ᶠ u in 𝓝 s, Q u} ∈ 𝓝ˢ (uIcc t0 b) := by
    rw [mem_nhdsSet_iff_forall]
    intro t ht
    exact (eventually_eventually_nhds.mpr (h t ht))
  obtain ⟨U, hU, hsub, hUQ⟩ := mem_nhdsSet_iff_exists.mp h1
  obtain ⟨ε, hε, he⟩ := (isCompact_uIcc (a := t0) (b := b)).exists_cthickening_subset_open hU hsub
  refine ⟨ε, hε, fun s hs => ?_⟩
  have hs' : s ∈ Metric.cthickening ε (uIcc t0 b) := by
    have hne : min t0 b ≤ max t0 b := min_le_max
    obtain ⟨u, hu, hd⟩ : ∃ u ∈ uIcc t0 b, dist s u ≤ ε := by
      rcases le_total s (min t0 b) with h2 | h2
      · exact ⟨min t0 b, ⟨le_rfl, hne⟩, by rw [Real.dist_eq, abs_le]; constructor <;> linarith [hs.1]⟩
      · rcases le_total s (max t0 b) with h3 | h3
        · exact ⟨s, ⟨h2, h3⟩, by rw [dist_self]; exact hε.le⟩
        · exact ⟨max t0 b, ⟨hne, le_rfl⟩, by rw [Real.dist_eq, abs_le]; constructor <;> linarith [hs.2]⟩
    exact Metric.mem_cthickening_of_dist_le s u ε _ hu hd
  exact (hUQ (he hs')).self_of_nhds

end Extensisq
