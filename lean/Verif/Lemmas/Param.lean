import Mathlib.Analysis.ODE.Gronwall
import Mathlib.Analysis.Calculus.MeanValue
import Mathlib.Analysis.Calculus.FDeriv.Prod
import Mathlib.Analysis.Calculus.Deriv.Comp
import Mathlib.Topology.UniformSpace.Compact

/-!
# Derivative of the solution of an initial value problem with respect to parameters

Library part (no model of the code): if `S` solves the variational equation, then it is the derivative of the
solution with respect to the parameters.
-/

namespace Extensisq
open Set Filter Topology Asymptotics

variable {E P : Type*} [NormedAddCommGroup E] [NormedSpace ℝ E] [NormedAddCommGroup P] [NormedSpace ℝ P]

/-- Uniform first order expansion along a compact curve. -/
theorem uniform_expansion {f : ℝ → E × P → E} {f' : ℝ → E × P → (E × P →L[ℝ] E)} {U : Set (ℝ × (E × P))}
    (hU : IsOpen U) (hf : ∀ t z, (t, z) ∈ U → HasFDerivAt (f t) (f' t z) z)
    (hc : ContinuousOn (fun x : ℝ × (E × P) => f' x.1 x.2) U) {a b : ℝ} {γ : ℝ → E × P}
    (hγ : ContinuousOn γ (Icc a b)) (hγU : ∀ t ∈ Icc a b, (t, γ t) ∈ U) {ε : ℝ} (hε : 0 < ε) :
    ∃ δ > 0, ∀ t ∈ Icc a b, ∀ z, ‖z - γ t‖ < δ → ‖f t z - f t (γ t) - f' t (γ t) (z - γ t)‖ ≤ ε * ‖z - γ t‖ := by
  set Kc : Set (ℝ × (E × P)) := (fun t => (t, γ t)) '' Icc a b with hKc
  have hK : IsCompact Kc := isCompact_Icc.image_of_continuousOn (continuousOn_id.prodMk hγ)
  have hKU : Kc ⊆ U := by rintro _ ⟨t, ht, rfl⟩; exact hγU t ht
  obtain ⟨δ1, hδ1, h1⟩ := hK.exists_thickening_subset_open hU hKU
  have h2 := hK.uniformContinuousAt_of_continuousAt (fun x : ℝ × (E × P) => f' x.1 x.2)
    (fun x hx => (hc x (hKU hx)).continuousAt (hU.mem_nhds (hKU hx))) (Metric.dist_mem_uniformity hε)
  obtain ⟨δ2, hδ2, h3⟩ := Metric.mem_uniformity_dist.mp h2
  refine ⟨min δ1 δ2, lt_min hδ1 hδ2, fun t ht z hz => ?_⟩
  have hball : ∀ w ∈ Metric.ball (γ t) (min δ1 δ2), (t, w) ∈ U ∧ ‖f' t w - f' t (γ t)‖ ≤ ε := by
    intro w hw
    have hd : dist (t, γ t) (t, w) < min δ1 δ2 := by
      rw [Prod.dist_eq, dist_self, dist_comm]
      exact max_lt (lt_min hδ1 hδ2) hw
    constructor
    · apply h1
      rw [Metric.mem_thickening_iff]
      exact ⟨(t, γ t), ⟨t, ht, rfl⟩, by rw [dist_comm]; exact hd.trans_le (min_le_left _ _)⟩
    · have := h3 (hd.trans_le (min_le_right _ _)) ⟨t, ht, rfl⟩
      change dist (f' t (γ t)) (f' t w) < ε at this
      rw [dist_comm, dist_eq_norm] at this
      exact this.le
  have hzb : z ∈ Metric.ball (γ t) (min δ1 δ2) := by rw [Metric.mem_ball, dist_eq_norm]; exact hz
  exact (convex_ball (γ t) (min δ1 δ2)).norm_image_sub_le_of_norm_hasFDerivWithin_le'
    (fun w hw => (hf t w (hball w hw).1).hasFDerivWithinAt) (fun w hw => (hball w hw).2)
    (Metric.mem_ball_self (lt_min hδ1 hδ2)) hzb

theorem gronwallBound_smul (c δ K ε x : ℝ) : gronwallBound (c * δ) K (c * ε) x = c * gronwallBound δ K ε x := by
  unfold gronwallBound
  split_ifs <;> ring

/-- The solution of the variational equation is the derivative of the solution with respect to the parameters
(forward in time). -/
theorem param_deriv_forward {f : ℝ → E × P → E} {f' : ℝ → E × P → (E × P →L[ℝ] E)} {U : Set (ℝ × (E × P))}
    (hU : IsOpen U) (hf : ∀ t z, (t, z) ∈ U → HasFDerivAt (f t) (f' t z) z)
    (hc : ContinuousOn (fun x : ℝ × (E × P) => f' x.1 x.2) U) {t0 tf : ℝ} (hle : t0 ≤ tf) {y : P → ℝ → E} {p : P}
    (hyU : ∀ t ∈ Icc t0 tf, (t, (y p t, p)) ∈ U)
    (hy : ∀ᶠ q in 𝓝 p, ∀ t ∈ Icc t0 tf, HasDerivWithinAt (y q) (f t (y q t, q)) (Icc t0 tf) t)
    {S : ℝ → P →L[ℝ] E}
    (hS : ∀ t ∈ Icc t0 tf, ∀ v, HasDerivWithinAt (fun t => S t v) (f' t (y p t, p) (S t v, v)) (Icc t0 tf) t)
    (hSc : ContinuousOn S (Icc t0 tf))
    (h0 : HasFDerivAt (fun q => y q t0) (S t0) p) : HasFDerivAt (fun q => y q tf) (S tf) p := by
  have hyp : ∀ t ∈ Icc t0 tf, HasDerivWithinAt (y p) (f t (y p t, p)) (Icc t0 tf) t := hy.self_of_nhds
  set γ : ℝ → E × P := fun t => (y p t, p) with hγd
  have hγ : ContinuousOn γ (Icc t0 tf) :=
    ContinuousOn.prodMk (fun t ht => (hyp t ht).continuousWithinAt) continuousOn_const
  have hcJ : ContinuousOn (fun t => f' t (γ t)) (Icc t0 tf) :=
    hc.comp (continuousOn_id.prodMk hγ) (fun t ht => hyU t ht)
  obtain ⟨Jm, hJm⟩ := isCompact_Icc.exists_bound_of_continuousOn hcJ
  obtain ⟨Sm, hSm⟩ := isCompact_Icc.exists_bound_of_continuousOn hSc
  have hJ0 : 0 ≤ Jm := (norm_nonneg _).trans (hJm t0 (left_mem_Icc.mpr hle))
  have hS0 : 0 ≤ Sm := (norm_nonneg _).trans (hSm t0 (left_mem_Icc.mpr hle))
  set G : ℝ := gronwallBound 1 (Jm + 1) (Sm + 2) (tf - t0) with hG
  have hGm := gronwallBound_mono (δ := 1) (K := Jm + 1) (ε := Sm + 2) (by norm_num) (by linarith) (by linarith)
  have hG1 : 1 ≤ G := by
    have := hGm (sub_nonneg.mpr hle)
    rwa [gronwallBound_x0] at this
  have hGpos : 0 < G := by linarith
  rw [hasFDerivAt_iff_isLittleO, isLittleO_iff]
  intro c hcpos
  set ε : ℝ := min 1 (c / G) with hεd
  have hε : 0 < ε := lt_min one_pos (div_pos hcpos hGpos)
  have hε1 : ε ≤ 1 := min_le_left _ _
  have hεG : ε * G ≤ c := by
    have : ε ≤ c / G := min_le_right _ _
    calc ε * G ≤ c / G * G := by gcongr
      _ = c := by field_simp
  obtain ⟨δ, hδ, hexp⟩ := uniform_expansion hU hf hc hγ hyU hε
  have e1 : ∀ᶠ q in 𝓝 p, ‖y q t0 - y p t0 - S t0 (q - p)‖ ≤ ε * ‖q - p‖ := by
    rw [hasFDerivAt_iff_isLittleO, isLittleO_iff] at h0
    exact h0 hε
  have e2 : ∀ᶠ q in 𝓝 p, ‖q - p‖ * (ε * G + Sm + 1) < δ := by
    have : Tendsto (fun q : P => ‖q - p‖ * (ε * G + Sm + 1)) (𝓝 p) (𝓝 (‖p - p‖ * (ε * G + Sm + 1))) := by
      apply Continuous.tendsto
      fun_prop
    rw [sub_self, norm_zero, zero_mul] at this
    exact this.eventually (gt_mem_nhds hδ)
  filter_upwards [hy, e1, e2] with q hyq h1 h2
  rcases eq_or_ne q p with rfl | hqp
  · simp
  have hΔ : 0 < ‖q - p‖ := norm_pos_iff.mpr (sub_ne_zero.mpr hqp)
  set Δ := q - p with hΔd
  have hmain := image_norm_le_of_norm_deriv_right_lt_deriv_boundary
    (f := fun t => y q t - y p t - S t Δ) (a := t0) (b := tf)
    (f' := fun t => f t (y q t, q) - f t (γ t) - f' t (γ t) (S t Δ, Δ))
    (B := fun x => gronwallBound (ε * ‖Δ‖ * 1) (Jm + 1) (ε * ‖Δ‖ * (Sm + 2)) (x - t0))
    (B' := fun x => (Jm + 1) * gronwallBound (ε * ‖Δ‖ * 1) (Jm + 1) (ε * ‖Δ‖ * (Sm + 2)) (x - t0) +
      ε * ‖Δ‖ * (Sm + 2)) ?_ ?_ ?_ (fun x => hasDerivAt_gronwallBound_shift _ _ _ _ _) ?_ (right_mem_Icc.mpr hle)
  · calc ‖y q tf - y p tf - S tf Δ‖ ≤ _ := hmain
      _ = ε * G * ‖Δ‖ := by rw [gronwallBound_smul]; ring
      _ ≤ c * ‖Δ‖ := by gcongr
  · intro t ht
    exact (((hyq t ht).continuousWithinAt).sub (hyp t ht).continuousWithinAt).sub (hS t ht Δ).continuousWithinAt
  · intro t ht
    have ht' := Ico_subset_Icc_self ht
    have : Icc t0 tf ∈ 𝓝[Ici t] t := Icc_mem_nhdsGE_of_mem ht
    exact (((hyq t ht').sub (hyp t ht')).sub (hS t ht' Δ)).mono_of_mem_nhdsWithin this
  · show ‖y q t0 - y p t0 - S t0 Δ‖ ≤ _
    rw [sub_self, gronwallBound_x0, mul_one]; exact h1
  · intro t ht hB
    have ht' := Ico_subset_Icc_self ht
    rw [← hB]
    set e : E := y q t - y p t - S t Δ with he
    have hBG : ‖e‖ ≤ ε * ‖Δ‖ * G := by
      rw [hB, gronwallBound_smul]
      have : gronwallBound 1 (Jm + 1) (Sm + 2) (t - t0) ≤ G := hGm (by linarith [ht.2])
      have hp : 0 ≤ ε * ‖Δ‖ := by positivity
      exact mul_le_mul_of_nonneg_left this hp
    have hSv : ‖S t Δ‖ ≤ Sm * ‖Δ‖ := (S t).le_of_opNorm_le (hSm t ht') Δ
    have hz : (y q t, q) - γ t = (e + S t Δ, Δ) := by
      simp only [hγd, Prod.mk_sub_mk, he, Prod.mk.injEq]
      exact ⟨by abel, rfl⟩
    have hzn : ‖(y q t, q) - γ t‖ ≤ ‖e‖ + (Sm + 1) * ‖Δ‖ := by
      rw [hz, Prod.norm_def]
      refine max_le ((norm_add_le _ _).trans ?_) ?_ <;> nlinarith [norm_nonneg e]
    have hzδ : ‖(y q t, q) - γ t‖ < δ := by
      refine hzn.trans_lt (lt_of_le_of_lt ?_ h2)
      nlinarith
    have hE := hexp t ht' _ hzδ
    have hsplit : f t (y q t, q) - f t (γ t) - f' t (γ t) (S t Δ, Δ) =
        (f t (y q t, q) - f t (γ t) - f' t (γ t) ((y q t, q) - γ t)) + f' t (γ t) (e, 0) := by
      have hdec : ((y q t, q) - γ t) = (S t Δ, Δ) + (e, 0) := by
        rw [hz]; ext <;> simp [add_comm]
      rw [hdec, map_add]; abel
    have hJe : ‖f' t (γ t) (e, 0)‖ ≤ Jm * ‖e‖ := by
      refine ((f' t (γ t)).le_of_opNorm_le (hJm t ht') _).trans_eq ?_
      rw [Prod.norm_def]; simp
    rw [hsplit]
    calc _ ≤ ε * ‖(y q t, q) - γ t‖ + Jm * ‖e‖ := (norm_add_le _ _).trans (add_le_add hE hJe)
      _ ≤ ε * (‖e‖ + (Sm + 1) * ‖Δ‖) + Jm * ‖e‖ := by gcongr
      _ = (Jm + ε) * ‖e‖ + ε * ‖Δ‖ * (Sm + 1) := by ring
      _ < (Jm + 1) * ‖e‖ + ε * ‖Δ‖ * (Sm + 2) := by
        have : ε * ‖Δ‖ * (Sm + 1) < ε * ‖Δ‖ * (Sm + 2) := by
          have : 0 < ε * ‖Δ‖ := by positivity
          nlinarith
        nlinarith [norm_nonneg e]

/-- The same in either direction of time. -/
theorem param_deriv {f : ℝ → E × P → E} {f' : ℝ → E × P → (E × P →L[ℝ] E)} {U : Set (ℝ × (E × P))}
    (hU : IsOpen U) (hf : ∀ t z, (t, z) ∈ U → HasFDerivAt (f t) (f' t z) z)
    (hc : ContinuousOn (fun x : ℝ × (E × P) => f' x.1 x.2) U) {t0 tf : ℝ} {y : P → ℝ → E} {p : P}
    (hyU : ∀ t ∈ uIcc t0 tf, (t, (y p t, p)) ∈ U)
    (hy : ∀ᶠ q in 𝓝 p, ∀ t ∈ uIcc t0 tf, HasDerivWithinAt (y q) (f t (y q t, q)) (uIcc t0 tf) t)
    {S : ℝ → P →L[ℝ] E}
    (hS : ∀ t ∈ uIcc t0 tf, ∀ v, HasDerivWithinAt (fun t => S t v) (f' t (y p t, p) (S t v, v)) (uIcc t0 tf) t)
    (hSc : ContinuousOn S (uIcc t0 tf))
    (h0 : HasFDerivAt (fun q => y q t0) (S t0) p) : HasFDerivAt (fun q => y q tf) (S tf) p := by
  rcases le_total t0 tf with h | h
  · rw [uIcc_of_le h] at *
    exact param_deriv_forward hU hf hc h hyU hy hS hSc h0
  · rw [uIcc_of_ge h] at *
    have hm : ∀ t ∈ Icc (-t0) (-tf), -t ∈ Icc tf t0 := fun t ht => ⟨by linarith [ht.2], by linarith [ht.1]⟩
    have hneg : ∀ t, HasDerivWithinAt (fun t : ℝ => -t) (-1) (Icc (-t0) (-tf)) t := fun t =>
      (hasDerivAt_neg t).hasDerivWithinAt
    have key := param_deriv_forward (f := fun t z => -f (-t) z) (f' := fun t z => -f' (-t) z)
      (U := (fun x : ℝ × (E × P) => (-x.1, x.2)) ⁻¹' U) (t0 := -t0) (tf := -tf) (y := fun q t => y q (-t))
      (S := fun t => S (-t)) (p := p) (hU.preimage (by fun_prop)) (fun t z hz => (hf _ _ hz).neg)
      ((hc.comp (f := fun x : ℝ × (E × P) => (-x.1, x.2)) (by fun_prop) (fun x hx => hx)).neg) (by linarith)
      (fun t ht => hyU _ (hm t ht)) ?_ ?_ (hSc.comp (by fun_prop) hm) (by simpa using h0)
    · simpa using key
    · filter_upwards [hy] with q hq t ht
      have := (hq (-t) (hm t ht)).scomp t (hneg t) (fun x hx => hm x hx)
      simpa [Function.comp_def] using this
    · intro t ht v
      have := (hS (-t) (hm t ht) v).scomp t (hneg t) (fun x hx => hm x hx)
      simpa [Function.comp_def] using this

end Extensisq
