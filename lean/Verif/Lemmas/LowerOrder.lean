import Verif.Lemmas.UniformOrder

/-!
# Lower bounds of the order of a family of smooth functions

A family of order `n` which is not of smaller order at one parameter equals `h^n a` up to a small fraction, uniformly near that parameter.
-/

set_option linter.unusedSectionVars false

namespace Extensisq
open Finset Asymptotics Filter Topology

variable {E : Type*} [NormedAddCommGroup E] [NormedSpace ℝ E]

/-- Mean value bound near zero, small order. -/
theorem isLittleO_of_hasDerivAt {ψ ψ' : ℝ → E} {n : ℕ} (hd : ∀ᶠ h in 𝓝 (0 : ℝ), HasDerivAt ψ (ψ' h) h)
    (hO : ψ' =o[𝓝 0] fun h : ℝ => h ^ n) (h0 : ψ 0 = 0) : ψ =o[𝓝 0] fun h : ℝ => h ^ (n + 1) := by
  rw [isLittleO_iff] at hO ⊢
  intro C hC0
  have hC := hO hC0
  obtain ⟨r, hr, hball⟩ := Metric.eventually_nhds_iff.mp (hd.and hC)
  refine Metric.eventually_nhds_iff.mpr ⟨r, hr, fun h hh => ?_⟩
  have hin : ∀ x ∈ Metric.closedBall (0 : ℝ) |h|, dist x 0 < r := by
    intro x hx
    rw [Real.dist_eq, sub_zero] at hh
    exact lt_of_le_of_lt (Metric.mem_closedBall.mp hx) hh
  have hCpos : ∀ x ∈ Metric.closedBall (0 : ℝ) |h|, ‖ψ' x‖ ≤ C * |h| ^ n := by
    intro x hx
    have h1 := (hball (hin x hx)).2
    rw [norm_pow, Real.norm_eq_abs] at h1
    have hx' : |x| ≤ |h| := by simpa using hx
    refine h1.trans ?_
    gcongr
  have := (convex_closedBall (0 : ℝ) |h|).norm_image_sub_le_of_norm_hasDerivWithin_le
    (f := ψ) (f' := ψ') (C := C * |h| ^ n) (fun x hx => (hball (hin x hx)).1.hasDerivWithinAt) hCpos
    (x := 0) (y := h) (by simp) (by simp)
  rw [h0, sub_zero, sub_zero, Real.norm_eq_abs] at this
  rw [norm_pow, Real.norm_eq_abs, pow_succ, ← mul_assoc]
  exact this

/-- **Uniform leading term.** -/
theorem uniform_leading {X : Type*} [NormedAddCommGroup X] [NormedSpace ℝ X] {s : Set X} {tb : X} (htb : tb ∈ s) :
    ∀ (n : ℕ) {g : X × ℝ → E}, ContDiffAt ℝ n g (tb, 0) →
    (∀ᶠ t in 𝓝[s] tb, (fun h => g (t, h)) =O[𝓝 0] fun h : ℝ => h ^ n) →
    (¬ (fun h => g (tb, h)) =o[𝓝 0] fun h : ℝ => h ^ n) →
    ∃ a : E, a ≠ 0 ∧ ∀ δ : ℝ, 0 < δ → ∀ᶠ z in 𝓝[s] tb ×ˢ 𝓝 (0 : ℝ), ‖g z - z.2 ^ n • a‖ ≤ δ * |z.2| ^ n := by
  have hle : 𝓝[s] tb ×ˢ 𝓝 (0 : ℝ) ≤ 𝓝 (tb, 0) := by
    rw [nhds_prod_eq]
    exact prod_mono nhdsWithin_le_nhds le_rfl
  intro n
  induction n with
  | zero =>
    intro g hg _ hn
    have hc0 : ContinuousAt (fun h : ℝ => g (tb, h)) 0 :=
      ContinuousAt.comp (g := g) (f := fun h : ℝ => (tb, h)) hg.continuousAt (by fun_prop)
    refine ⟨g (tb, 0), fun h0 => hn ?_, fun δ hδ => ?_⟩
    · simp only [pow_zero]
      rw [isLittleO_one_iff]
      have := hc0.tendsto
      rwa [h0] at this
    · have h1 := Metric.continuousAt_iff'.mp hg.continuousAt δ hδ
      filter_upwards [hle h1] with z hz
      rw [dist_eq_norm] at hz
      simpa using hz.le
  | succ n ih =>
    intro g hg hO hn
    obtain ⟨g', ⟨u, hu, hd⟩, hg'⟩ := (contDiffAt_succ_iff_hasFDerivAt (n := n)).mp (by exact_mod_cast hg)
    have hγ : ContDiffAt ℝ n (fun z => g' z (0, 1)) (tb, 0) := hg'.clm_apply contDiffAt_const
    have hline : ∀ (t : X) (h : ℝ), HasDerivAt (fun x : ℝ => (t, x)) ((0 : X), (1 : ℝ)) h := fun t h =>
      (hasDerivAt_const h t).prodMk (hasDerivAt_id h)
    have hder : ∀ t h, (t, h) ∈ u → HasDerivAt (fun x => g (t, x)) (g' (t, h) (0, 1)) h := fun t h hu' =>
      (hd _ hu').comp_hasDerivAt h (hline t h)
    have hev : ∀ᶠ z in 𝓝 (tb, (0 : ℝ)), ContDiffAt ℝ n (fun z => g' z (0, 1)) z ∧ u ∈ 𝓝 z :=
      (hγ.eventually (by simp)).and (eventually_mem_nhds_iff.mpr hu)
    have hev' : ∀ᶠ t in 𝓝 tb, ContDiffAt ℝ n (fun z => g' z (0, 1)) (t, 0) ∧ u ∈ 𝓝 (t, (0 : ℝ)) := by
      have hc : ContinuousAt (fun t : X => (t, (0 : ℝ))) tb := by fun_prop
      exact hc.eventually hev
    have hzero : ∀ᶠ t in 𝓝[s] tb, g (t, 0) = 0 := by
      filter_upwards [hO] with t ht
      obtain ⟨C', hC'⟩ := ht.bound
      have h1 := hC'.self_of_nhds
      rw [zero_pow (by omega), norm_zero, mul_zero] at h1
      exact norm_le_zero_iff.mp h1
    obtain ⟨a, ha, hC⟩ := ih hγ (by
      filter_upwards [hO, nhdsWithin_le_nhds hev'] with t ht ht'
      refine deriv_order ?_ ?_ ht
      · have hc : ContinuousAt (fun h : ℝ => (t, h)) 0 := by fun_prop
        filter_upwards [hc.eventually ht'.2] with h hh
        exact hder t h hh
      · exact ContDiffAt.comp (0 : ℝ) (g := fun z => g' z (0, 1)) (f := fun h : ℝ => (t, h)) ht'.1
          (contDiffAt_const.prodMk contDiffAt_id)) (by
      intro hsmall
      have hz0 : g (tb, 0) = 0 := (show ∀ᶠ t in 𝓝[s] tb, g (t, 0) = 0 from hzero).self_of_nhdsWithin htb
      refine hn (isLittleO_of_hasDerivAt ?_ hsmall hz0)
      have hc : ContinuousAt (fun h : ℝ => (tb, h)) 0 := by fun_prop
      filter_upwards [hc.eventually hu] with h hh
      exact hder tb h hh)
    have hn1 : ((n + 1 : ℕ) : ℝ) ≠ 0 := by positivity
    refine ⟨(1 / ((n + 1 : ℕ) : ℝ)) • a, smul_ne_zero (by positivity) ha, fun δ hδ => ?_⟩
    have hall : ∀ᶠ z in 𝓝[s] tb ×ˢ 𝓝 (0 : ℝ), ‖g' z (0, 1) - z.2 ^ n • a‖ ≤ δ * |z.2| ^ n ∧ z ∈ u := (hC δ hδ).and (hle hu)
    obtain ⟨pa, hpa, pb, hpb, hab⟩ := eventually_prod_iff.mp hall
    obtain ⟨r, hr, hball⟩ := Metric.eventually_nhds_iff.mp hpb
    have hnear : ∀ᶠ z in 𝓝[s] tb ×ˢ 𝓝 (0 : ℝ), (pa z.1 ∧ g (z.1, 0) = 0) ∧ dist z.2 0 < r := by
      have hball' : ∀ᶠ h in 𝓝 (0 : ℝ), dist h 0 < r := Metric.ball_mem_nhds _ hr
      exact (hpa.and hzero).prod_mk hball'
    filter_upwards [hnear] with z hz
    obtain ⟨t, h⟩ := z
    obtain ⟨⟨h1, h2⟩, h3⟩ := hz
    dsimp only at h1 h2 h3 ⊢
    have hin : ∀ x ∈ Metric.closedBall (0 : ℝ) |h|, ‖g' (t, x) (0, 1) - x ^ n • a‖ ≤ δ * |x| ^ n ∧ (t, x) ∈ u := by
      intro x hx
      refine hab h1 (hball ?_)
      rw [Real.dist_eq, sub_zero] at h3
      exact lt_of_le_of_lt (Metric.mem_closedBall.mp hx) h3
    have hpow : ∀ x : ℝ, HasDerivAt (fun x : ℝ => x ^ (n + 1) • ((1 / ((n + 1 : ℕ) : ℝ)) • a)) (x ^ n • a) x := by
      intro x
      have h1 := ((hasDerivAt_pow (n + 1) x).smul_const ((1 / ((n + 1 : ℕ) : ℝ)) • a))
      refine h1.congr_deriv ?_
      rw [smul_smul, Nat.add_sub_cancel]
      congr 1
      field_simp
    have := (convex_closedBall (0 : ℝ) |h|).norm_image_sub_le_of_norm_hasDerivWithin_le
      (f := fun x => g (t, x) - x ^ (n + 1) • ((1 / ((n + 1 : ℕ) : ℝ)) • a)) (f' := fun x => g' (t, x) (0, 1) - x ^ n • a) (C := δ * |h| ^ n)
      (fun x hx => ((hder t x (hin x hx).2).sub (hpow x)).hasDerivWithinAt) (fun x hx => by
        have hx' : |x| ≤ |h| := by simpa using hx
        refine (hin x hx).1.trans ?_
        gcongr)
      (x := 0) (y := h) (by simp) (by simp)
    rw [h2, zero_pow (by omega), zero_smul, sub_zero, sub_zero, sub_zero, Real.norm_eq_abs] at this
    rw [pow_succ |h| n, ← mul_assoc]
    exact this

/-- The norm of such a family is at least a constant times `|h|^n`. -/
theorem uniform_lower {X : Type*} [NormedAddCommGroup X] [NormedSpace ℝ X] {s : Set X} {tb : X} (htb : tb ∈ s) (n : ℕ) {g : X × ℝ → E}
    (hg : ContDiffAt ℝ n g (tb, 0)) (hO : ∀ᶠ t in 𝓝[s] tb, (fun h => g (t, h)) =O[𝓝 0] fun h : ℝ => h ^ n)
    (hn : ¬ (fun h => g (tb, h)) =o[𝓝 0] fun h : ℝ => h ^ n) :
    ∃ c : ℝ, 0 < c ∧ ∀ᶠ z in 𝓝[s] tb ×ˢ 𝓝 (0 : ℝ), c * |z.2| ^ n ≤ ‖g z‖ := by
  obtain ⟨a, ha, h⟩ := uniform_leading htb n hg hO hn
  have ha' : 0 < ‖a‖ := norm_pos_iff.mpr ha
  refine ⟨‖a‖ / 2, by positivity, ?_⟩
  filter_upwards [h (‖a‖ / 2) (by positivity)] with z hz
  have h1 : ‖z.2 ^ n • a‖ = |z.2| ^ n * ‖a‖ := by rw [norm_smul, norm_pow, Real.norm_eq_abs]
  have h2 : ‖z.2 ^ n • a‖ ≤ ‖g z‖ + ‖g z - z.2 ^ n • a‖ := by
    have := norm_sub_le (g z) (g z - z.2 ^ n • a)
    rwa [sub_sub_cancel] at this
  rw [h1] at h2
  linarith

end Extensisq
