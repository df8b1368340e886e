import Verif.Lemmas.OneStep
import Verif.Lemmas.BSeriesRes
import Mathlib.Data.Nat.Factorial.Basic

/-!
# Convergence of methods that satisfy their order conditions approximately

Taylor coefficients of bounded size, uniformly along a solution; stability with constants that do not depend on the method.
-/

set_option linter.unusedSectionVars false

namespace Extensisq
open scoped ContDiff
open Finset Asymptotics Filter Topology

variable {E : Type*} [NormedAddCommGroup E] [NormedSpace ℝ E]

/-- **Uniform near order.** A smooth `g(t, h)` whose Taylor coefficients in `h` below `n` are at most `D m` for every single `t` is
bounded accordingly, uniformly in `t`. -/
theorem uniform_near {X : Type*} [NormedAddCommGroup X] [NormedSpace ℝ X] {s : Set X} {tb : X} :
    ∀ (n : ℕ) {D : ℕ → ℝ} {g : X × ℝ → E}, ContDiffAt ℝ n g (tb, 0) →
    (∀ᶠ t in 𝓝[s] tb, ∃ v : ℕ → E, (∀ m, ‖v m‖ ≤ D m) ∧
      (fun h => g (t, h) - ∑ m ∈ range n, h ^ m • v m) =O[𝓝 0] fun h : ℝ => h ^ n) →
    ∃ C, 0 ≤ C ∧ ∀ᶠ z in 𝓝[s] tb ×ˢ 𝓝 (0 : ℝ),
      ‖g z‖ ≤ ∑ m ∈ range n, m.factorial * D m * |z.2| ^ m + C * |z.2| ^ n := by
  have hle : 𝓝[s] tb ×ˢ 𝓝 (0 : ℝ) ≤ 𝓝 (tb, 0) := by
    rw [nhds_prod_eq]
    exact prod_mono nhdsWithin_le_nhds le_rfl
  intro n
  induction n with
  | zero =>
    intro D g hg _
    obtain ⟨C, hC⟩ := (hg.continuousAt.isBigO_one ℝ).bound
    refine ⟨|C|, abs_nonneg _, ?_⟩
    filter_upwards [hle hC] with z hz
    rw [norm_one, mul_one] at hz
    simpa using hz.trans (le_abs_self C)
  | succ n ih =>
    intro D g hg hO
    obtain ⟨g', ⟨u, hu, hd⟩, hg'⟩ := (contDiffAt_succ_iff_hasFDerivAt (n := n)).mp (by exact_mod_cast hg)
    have hγ : ContDiffAt ℝ n (fun z => g' z (0, 1)) (tb, 0) := hg'.clm_apply contDiffAt_const
    have hline : ∀ (t : X) (h : ℝ), HasDerivAt (fun x : ℝ => (t, x)) ((0 : X), (1 : ℝ)) h := fun t h =>
      (hasDerivAt_const h t).prodMk (hasDerivAt_id h)
    have hder : ∀ t h, (t, h) ∈ u → HasDerivAt (fun x => g (t, x)) (g' (t, h) (0, 1)) h := fun t h hu' =>
      (hd _ hu').comp_hasDerivAt h (hline t h)
    have hev : ∀ᶠ z in 𝓝 (tb, (0 : ℝ)), ContDiffAt ℝ n (fun z => g' z (0, 1)) z ∧ u ∈ 𝓝 z :=
      (hγ.eventually (by simp)).and (eventually_mem_nhds_iff.mpr hu)
    have hev' : ∀ᶠ t in 𝓝 tb, ContDiffAt ℝ n (fun z => g' z (0, 1)) (t, 0) ∧ u ∈ 𝓝 (t, (0 : ℝ)) := by
      have hc : ContinuousAt (fun t : X => (t, (0 : ℝ))) tb := by fun_prop
      exact hc.eventually hev
    obtain ⟨C, hC0, hC⟩ := ih (D := fun m => (m + 1 : ℕ) * D (m + 1)) hγ (by
      filter_upwards [hO, nhdsWithin_le_nhds hev'] with t ⟨v, hv, ht⟩ ht'
      refine ⟨fun m => ((m + 1 : ℕ) : ℝ) • v (m + 1), fun m => ?_, ?_⟩
      · rw [norm_smul, Real.norm_eq_abs, abs_of_nonneg (Nat.cast_nonneg _)]
        exact mul_le_mul_of_nonneg_left (hv _) (Nat.cast_nonneg _)
      · refine deriv_order (φ := fun h => g (t, h) - ∑ m ∈ range (n + 1), h ^ m • v m)
          (φ' := fun h => g' (t, h) (0, 1) - ∑ m ∈ range n, h ^ m • (((m + 1 : ℕ) : ℝ) • v (m + 1))) ?_ ?_ ht
        · have hc : ContinuousAt (fun h : ℝ => (t, h)) 0 := by fun_prop
          filter_upwards [hc.eventually ht'.2] with h hh
          refine (hder t h hh).sub ?_
          simp only [sum_range_succ' _ n]
          rw [← add_zero (∑ m ∈ range n, h ^ m • (((m + 1 : ℕ) : ℝ) • v (m + 1)))]
          refine HasDerivAt.add ?_ ?_
          · apply HasDerivAt.fun_sum
            intro m _
            refine ((hasDerivAt_pow (m + 1) h).smul_const (v (m + 1))).congr_deriv ?_
            rw [smul_smul, Nat.add_sub_cancel, mul_comm]
          · simp only [pow_zero]
            exact hasDerivAt_const _ _
        · refine ContDiffAt.sub ?_ ?_
          · exact ContDiffAt.comp (0 : ℝ) (g := fun z => g' z (0, 1)) (f := fun h : ℝ => (t, h)) ht'.1
              (contDiffAt_const.prodMk contDiffAt_id)
          · apply ContDiffAt.sum
            intro m _
            exact (contDiffAt_id.pow m).smul contDiffAt_const)
    refine ⟨C, hC0, ?_⟩
    have hall : ∀ᶠ z in 𝓝[s] tb ×ˢ 𝓝 (0 : ℝ), ‖g' z (0, 1)‖ ≤
        ∑ m ∈ range n, m.factorial * ((m + 1 : ℕ) * D (m + 1)) * |z.2| ^ m + C * |z.2| ^ n ∧ z ∈ u := hC.and (hle hu)
    obtain ⟨pa, hpa, pb, hpb, hab⟩ := eventually_prod_iff.mp hall
    obtain ⟨r, hr, hball⟩ := Metric.eventually_nhds_iff.mp hpb
    have hnear : ∀ᶠ z in 𝓝[s] tb ×ˢ 𝓝 (0 : ℝ), (pa z.1 ∧ (‖g (z.1, 0)‖ ≤ D 0 ∧ ∀ m, 0 ≤ D m)) ∧ dist z.2 0 < r := by
      have hzero : ∀ᶠ t in 𝓝[s] tb, ‖g (t, 0)‖ ≤ D 0 ∧ ∀ m, 0 ≤ D m := by
        filter_upwards [hO] with t ⟨v, hv, ht⟩
        obtain ⟨C', hC'⟩ := ht.bound
        have h1 := hC'.self_of_nhds
        rw [zero_pow (by omega), norm_zero, mul_zero, sum_range_succ', sum_eq_zero (fun m _ => by
          rw [zero_pow (by omega), zero_smul])] at h1
        have h2 := sub_eq_zero.mp (norm_le_zero_iff.mp h1)
        rw [h2]
        simp only [pow_zero, one_smul, zero_add]
        exact ⟨hv 0, fun m => (norm_nonneg _).trans (hv m)⟩
      have hball' : ∀ᶠ h in 𝓝 (0 : ℝ), dist h 0 < r := Metric.ball_mem_nhds _ hr
      exact (hpa.and hzero).prod_mk hball'
    filter_upwards [hnear] with z hz
    obtain ⟨t, h⟩ := z
    obtain ⟨⟨h1, h2, hD⟩, h3⟩ := hz
    dsimp only at h1 h2 h3 ⊢
    have hin : ∀ x ∈ Metric.closedBall (0 : ℝ) |h|, ‖g' (t, x) (0, 1)‖ ≤
        ∑ m ∈ range n, m.factorial * ((m + 1 : ℕ) * D (m + 1)) * |x| ^ m + C * |x| ^ n ∧ (t, x) ∈ u := by
      intro x hx
      refine hab h1 (hball ?_)
      rw [Real.dist_eq, sub_zero] at h3
      exact lt_of_le_of_lt (Metric.mem_closedBall.mp hx) h3
    have := (convex_closedBall (0 : ℝ) |h|).norm_image_sub_le_of_norm_hasDerivWithin_le
      (f := fun x => g (t, x)) (f' := fun x => g' (t, x) (0, 1))
      (C := ∑ m ∈ range n, m.factorial * ((m + 1 : ℕ) * D (m + 1)) * |h| ^ m + C * |h| ^ n)
      (fun x hx => (hder t x (hin x hx).2).hasDerivWithinAt) (fun x hx => by
        have hx' : |x| ≤ |h| := by simpa using hx
        refine (hin x hx).1.trans ?_
        have hD' := fun m => hD (m + 1)
        gcongr
        all_goals first | exact hx' | (have := hD' ‹_›; positivity) | skip)
      (x := 0) (y := h) (by simp) (by simp)
    rw [sub_zero, Real.norm_eq_abs] at this
    have e : g (t, h) = (g (t, h) - g (t, 0)) + g (t, 0) := by abel
    rw [e]
    refine (norm_add_le _ _).trans ((add_le_add this h2).trans (le_of_eq ?_))
    rw [sum_range_succ', add_mul, sum_mul, pow_zero, Nat.factorial_zero, Nat.cast_one, mul_one, one_mul]
    have e2 : ∀ m, ((m + 1).factorial : ℝ) = (m + 1 : ℕ) * m.factorial := fun m => by
      rw [Nat.factorial_succ]; push_cast; ring
    have e3 : ∑ m ∈ range n, (m.factorial : ℝ) * ((m + 1 : ℕ) * D (m + 1)) * |h| ^ m * |h| =
        ∑ m ∈ range n, ((m + 1).factorial : ℝ) * D (m + 1) * |h| ^ (m + 1) := by
      apply sum_congr rfl
      intro m _
      rw [e2, pow_succ]; ring
    rw [e3, pow_succ]
    ring

/-! ## A tube around the solution -/

/-- The right-hand side is Lipschitz continuous and bounded in a tube around the solution. -/
theorem exists_tube [CompleteSpace E] {f : ℝ → E → E} {y : ℝ → E} {t0 b : ℝ} (hy : SolvesOn f y t0 b) :
    ∃ ρ L B : ℝ, 0 < ρ ∧ 0 ≤ L ∧ 0 ≤ B ∧ ∀ t ∈ Set.uIcc t0 b, ∀ z z' : ℝ × E, dist z (t, y t) < ρ → dist z' (t, y t) < ρ →
      ‖f z.1 z.2 - f z'.1 z'.2‖ ≤ L * dist z z' ∧ ‖f z.1 z.2‖ ≤ B := by
  refine (isCompact_uIcc (a := t0) (b := b)).induction_on (p := fun S => ∃ ρ L B : ℝ, 0 < ρ ∧ 0 ≤ L ∧ 0 ≤ B ∧ ∀ t ∈ S,
    ∀ z z' : ℝ × E, dist z (t, y t) < ρ → dist z' (t, y t) < ρ →
      ‖f z.1 z.2 - f z'.1 z'.2‖ ≤ L * dist z z' ∧ ‖f z.1 z.2‖ ≤ B) ?_ ?_ ?_ ?_
  · exact ⟨1, 0, 0, one_pos, le_rfl, le_rfl, fun x hx => absurd hx (Set.notMem_empty x)⟩
  · rintro s t hst ⟨ρ, L, B, h1, h2, h3, h4⟩
    exact ⟨ρ, L, B, h1, h2, h3, fun x hx => h4 x (hst hx)⟩
  · rintro s t ⟨ρ, L, B, h1, h2, h3, h4⟩ ⟨ρ', L', B', h1', h2', h3', h4'⟩
    refine ⟨min ρ ρ', max L L', max B B', lt_min h1 h1', le_max_of_le_left h2, le_max_of_le_left h3, fun x hx z z' hz hz' => ?_⟩
    rcases hx with hx | hx
    · obtain ⟨a, c⟩ := h4 x hx z z' (hz.trans_le (min_le_left _ _)) (hz'.trans_le (min_le_left _ _))
      exact ⟨a.trans (mul_le_mul_of_nonneg_right (le_max_left _ _) dist_nonneg), c.trans (le_max_left _ _)⟩
    · obtain ⟨a, c⟩ := h4' x hx z z' (hz.trans_le (min_le_right _ _)) (hz'.trans_le (min_le_right _ _))
      exact ⟨a.trans (mul_le_mul_of_nonneg_right (le_max_right _ _) dist_nonneg), c.trans (le_max_right _ _)⟩
  · intro tb htb
    obtain ⟨L, U, hU, hLip⟩ := ContDiffAt.exists_lipschitzOnWith (𝕂 := ℝ)
      (f := fun z : ℝ × E => f z.1 z.2) (x := (tb, y tb)) (smooth_nat (hy.smooth tb htb) _)
    obtain ⟨r, hr, hball⟩ := Metric.mem_nhds_iff.mp hU
    have hyc : ContinuousAt y tb := (hy.solves tb htb).self_of_nhds.continuousAt
    have hcont : ContinuousAt (fun t => (t, y t)) tb := continuousAt_id.prodMk hyc
    have hev : ∀ᶠ t in 𝓝[Set.uIcc t0 b] tb, dist (t, y t) (tb, y tb) < r / 2 :=
      nhdsWithin_le_nhds (hcont.eventually (Metric.ball_mem_nhds (tb, y tb) (half_pos hr)))
    refine ⟨{t | dist (t, y t) (tb, y tb) < r / 2}, hev, r / 2, L, ‖f tb (y tb)‖ + L * r, half_pos hr, L.2,
      add_nonneg (norm_nonneg _) (mul_nonneg L.2 hr.le), ?_⟩
    intro t ht z z' hz hz'
    have hmem : ∀ w : ℝ × E, dist w (t, y t) < r / 2 → dist w (tb, y tb) < r := fun w hw => by
      have := dist_triangle w (t, y t) (tb, y tb)
      have ht : dist (t, y t) (tb, y tb) < r / 2 := ht
      linarith
    refine ⟨?_, ?_⟩
    · have := hLip.dist_le_mul z (hball (hmem z hz)) z' (hball (hmem z' hz'))
      rwa [dist_eq_norm] at this
    · have := hLip.dist_le_mul z (hball (hmem z hz)) (tb, y tb) (hball (Metric.mem_ball_self hr))
      rw [dist_eq_norm] at this
      have h2 : (L : ℝ) * dist z (tb, y tb) ≤ L * r := mul_le_mul_of_nonneg_left (hmem z hz).le L.2
      calc ‖f z.1 z.2‖ = ‖(f z.1 z.2 - f tb (y tb)) + f tb (y tb)‖ := by rw [sub_add_cancel]
        _ ≤ ‖f z.1 z.2 - f tb (y tb)‖ + ‖f tb (y tb)‖ := norm_add_le _ _
        _ ≤ _ := by linarith

/-- Sum of the moduli of the coefficients below the diagonal of the first `n` rows. -/
noncomputable def rowSums (n : ℕ) (A : ℕ → ℕ → ℝ) : ℝ := ∑ i ∈ range n, ∑ j ∈ range i, |A i j|

theorem rowSums_ge {n : ℕ} (A : ℕ → ℕ → ℝ) {i : ℕ} (hi : i < n) : ∑ j ∈ range i, |A i j| ≤ rowSums n A :=
  single_le_sum (f := fun i => ∑ j ∈ range i, |A i j|) (fun i _ => sum_nonneg fun j _ => abs_nonneg _) (mem_range.mpr hi)

theorem rowSums_nonneg (n : ℕ) (A : ℕ → ℕ → ℝ) : 0 ≤ rowSums n A :=
  sum_nonneg fun _ _ => sum_nonneg fun _ _ => abs_nonneg _

/-- Stages starting in the tube stay in the tube, and depend on the starting point and the nodes with a constant
that does not depend on the method. -/
theorem stage_lipschitz {f : ℝ → E → E} {t : ℝ} {x : E} {ρ L B : ℝ} (hρ : 0 < ρ) (hL : 0 ≤ L) (hB : 0 ≤ B)
    (hf : ∀ z z' : ℝ × E, dist z (t, x) < ρ → dist z' (t, x) < ρ →
      ‖f z.1 z.2 - f z'.1 z'.2‖ ≤ L * dist z z' ∧ ‖f z.1 z.2‖ ≤ B)
    {n : ℕ} {A : ℕ → ℕ → ℝ} {c c' : ℕ → ℝ} {γ Γ : ℝ} (hγ : ∀ i, i < n → |c i - c' i| ≤ γ)
    (hΓ : ∀ i, i < n → |c i| ≤ Γ ∧ |c' i| ≤ Γ) {h : ℝ} (h1 : |h| * Γ < ρ) (h2 : |h| * (rowSums n A * B) < ρ / 2)
    (h3 : |h| * (2 * L * rowSums n A) ≤ 1) {u u' : E} (hu : ‖u - x‖ < ρ / 2) (hu' : ‖u' - x‖ < ρ / 2) :
    ∀ i, i < n → ‖exStage A c f i (t, u, h)‖ ≤ B ∧ ‖exStage A c' f i (t, u', h)‖ ≤ B ∧
      ‖exStage A c f i (t, u, h) - exStage A c' f i (t, u', h)‖ ≤ 2 * L * (‖u - u'‖ + γ * |h|) := by
  intro i
  induction i using Nat.strong_induction_on with
  | _ i ih =>
    intro hi
    have hpt : ∀ (c : ℕ → ℝ) (u : E), |c i| ≤ Γ → ‖u - x‖ < ρ / 2 → (∀ j, j < i → ‖exStage A c f j (t, u, h)‖ ≤ B) →
        dist (t + c i * h, u + h • ∑ j ∈ range i, A i j • exStage A c f j (t, u, h)) (t, x) < ρ := by
      intro c u hc hu hb
      rw [Prod.dist_eq]
      refine max_lt ?_ ?_
      · rw [Real.dist_eq, add_sub_cancel_left, abs_mul]
        refine lt_of_le_of_lt ?_ h1
        rw [mul_comm]
        exact mul_le_mul_of_nonneg_left hc (abs_nonneg _)
      · rw [dist_eq_norm]
        have e : u + h • ∑ j ∈ range i, A i j • exStage A c f j (t, u, h) - x =
            (u - x) + h • ∑ j ∈ range i, A i j • exStage A c f j (t, u, h) := by abel
        rw [e]
        have hs : ‖∑ j ∈ range i, A i j • exStage A c f j (t, u, h)‖ ≤ rowSums n A * B := by
          calc _ ≤ ∑ j ∈ range i, |A i j| * B := by
                refine (norm_sum_le _ _).trans (sum_le_sum fun j hj => ?_)
                rw [norm_smul, Real.norm_eq_abs]
                exact mul_le_mul_of_nonneg_left (hb j (mem_range.mp hj)) (abs_nonneg _)
            _ = (∑ j ∈ range i, |A i j|) * B := by rw [sum_mul]
            _ ≤ _ := mul_le_mul_of_nonneg_right (rowSums_ge A hi) hB
        have h4 : ‖h • ∑ j ∈ range i, A i j • exStage A c f j (t, u, h)‖ ≤ |h| * (rowSums n A * B) := by
          rw [norm_smul, Real.norm_eq_abs]
          exact mul_le_mul_of_nonneg_left hs (abs_nonneg _)
        have := norm_add_le (u - x) (h • ∑ j ∈ range i, A i j • exStage A c f j (t, u, h))
        linarith
    have hp := hpt c u (hΓ i hi).1 hu fun j hj => (ih j hj (by omega)).1
    have hp' := hpt c' u' (hΓ i hi).2 hu' fun j hj => (ih j hj (by omega)).2.1
    obtain ⟨l1, l2⟩ := hf _ _ hp hp'
    obtain ⟨-, l3⟩ := hf _ _ hp' hp
    rw [exStage_eq A c, exStage_eq A c']
    refine ⟨l2, l3, l1.trans ?_⟩
    have hγ0 : 0 ≤ γ := (abs_nonneg _).trans (hγ i hi)
    set d := ‖u - u'‖ + γ * |h| with hd
    have hd0 : 0 ≤ d := by positivity
    have hdist : dist ((t + c i * h, u + h • ∑ j ∈ range i, A i j • exStage A c f j (t, u, h)) : ℝ × E)
        (t + c' i * h, u' + h • ∑ j ∈ range i, A i j • exStage A c' f j (t, u', h)) ≤ 2 * d := by
      rw [Prod.dist_eq]
      refine max_le ?_ ?_
      · rw [Real.dist_eq]
        have e : t + c i * h - (t + c' i * h) = (c i - c' i) * h := by ring
        rw [e, abs_mul]
        have : |c i - c' i| * |h| ≤ γ * |h| := mul_le_mul_of_nonneg_right (hγ i hi) (abs_nonneg _)
        have h5 : 0 ≤ ‖u - u'‖ := norm_nonneg _
        linarith
      · rw [dist_eq_norm]
        have e : u + h • ∑ j ∈ range i, A i j • exStage A c f j (t, u, h) -
            (u' + h • ∑ j ∈ range i, A i j • exStage A c' f j (t, u', h)) =
            (u - u') + h • ∑ j ∈ range i, A i j • (exStage A c f j (t, u, h) - exStage A c' f j (t, u', h)) := by
          simp only [smul_sub, sum_sub_distrib]
          abel
        rw [e]
        have hs : ‖∑ j ∈ range i, A i j • (exStage A c f j (t, u, h) - exStage A c' f j (t, u', h))‖ ≤
            rowSums n A * (2 * L * d) := by
          calc _ ≤ ∑ j ∈ range i, |A i j| * (2 * L * d) := by
                refine (norm_sum_le _ _).trans (sum_le_sum fun j hj => ?_)
                rw [norm_smul, Real.norm_eq_abs]
                have hj' := mem_range.mp hj
                exact mul_le_mul_of_nonneg_left (ih j hj' (by omega)).2.2 (abs_nonneg _)
            _ = (∑ j ∈ range i, |A i j|) * (2 * L * d) := by rw [sum_mul]
            _ ≤ _ := mul_le_mul_of_nonneg_right (rowSums_ge A hi) (by positivity)
        have h4 : ‖h • ∑ j ∈ range i, A i j • (exStage A c f j (t, u, h) - exStage A c' f j (t, u', h))‖ ≤ d := by
          rw [norm_smul, Real.norm_eq_abs]
          calc |h| * _ ≤ |h| * (rowSums n A * (2 * L * d)) := mul_le_mul_of_nonneg_left hs (abs_nonneg _)
            _ = |h| * (2 * L * rowSums n A) * d := by ring
            _ ≤ 1 * d := mul_le_mul_of_nonneg_right h3 hd0
            _ = d := one_mul d
        have h5 := norm_add_le (u - u') (h • ∑ j ∈ range i, A i j • (exStage A c f j (t, u, h) - exStage A c' f j (t, u', h)))
        have h6 : 0 ≤ γ * |h| := by positivity
        linarith
    calc L * _ ≤ L * (2 * d) := mul_le_mul_of_nonneg_left hdist hL
      _ = 2 * L * d := by ring

/-! ## Consistency along the solution -/

/-- A constant of the order. -/
noncomputable def nearConst (q : ℕ) : ℝ := ∑ m ∈ range q, ((m + 1).factorial : ℝ)

theorem nearConst_nonneg (q : ℕ) : 0 ≤ nearConst q := sum_nonneg fun _ _ => Nat.cast_nonneg _

/-- Near order of the local error, uniformly near one point of the exact solution. -/
theorem near_local {n : ℕ} {A : ℕ → ℕ → ℝ} {c : ℕ → ℝ} {w : ℕ → ℝ → ℝ} {f : ℝ → E → E} {y : ℝ → E} {q : ℕ} {D : ℝ}
    {S : Set (ℝ × ℝ)} {tb θb : ℝ} (hD : 0 ≤ D) (hw : ∀ i, ContDiff ℝ (q + 1 : ℕ) (w i))
    (hf : ∀ n : ℕ, ContDiffAt ℝ n (fun z : ℝ × E => f z.1 z.2) (tb, y tb))
    (hy : ∀ᶠ t in 𝓝 tb, HasDerivAt y (f t (y t)) t)
    (hO : ∀ x ∈ S, NearOrder (fun h => y x.1 + h • stageComb n A c w f x.2 (x.1, y x.1, h) - y (x.1 + x.2 * h)) q D) :
    ∃ ε C : ℝ, 0 < ε ∧ 0 ≤ C ∧ ∀ᶠ x in 𝓝[S] (tb, θb), ∀ h : ℝ, |h| < ε →
      ‖y x.1 + h • stageComb n A c w f x.2 (x.1, y x.1, h) - y (x.1 + x.2 * h)‖ ≤
        nearConst q * D * |h| + C * |h| ^ (q + 1) := by
  have hyc := solution_contDiffAt hf hy
  obtain ⟨C, hC0, hC⟩ := uniform_near (s := S) (tb := (tb, θb)) (q + 1) (D := fun m => if m = 0 then 0 else D)
    (g := fun z : (ℝ × ℝ) × ℝ => y z.1.1 + z.2 • stageComb n A c w f z.1.2 (z.1.1, y z.1.1, z.2) - y (z.1.1 + z.1.2 * z.2))
    (by
      have h1 : ContDiffAt ℝ (q + 1 : ℕ) (fun z : (ℝ × ℝ) × ℝ => z.1.1) ((tb, θb), 0) := contDiffAt_fst.fst
      have h2 : ContDiffAt ℝ (q + 1 : ℕ) (fun z : (ℝ × ℝ) × ℝ => z.1.2) ((tb, θb), 0) := contDiffAt_fst.snd
      have h3 : ContDiffAt ℝ (q + 1 : ℕ) (fun z : (ℝ × ℝ) × ℝ => z.2) ((tb, θb), 0) := contDiffAt_snd
      have h4 : ContDiffAt ℝ (q + 1 : ℕ) (fun z : (ℝ × ℝ) × ℝ => y z.1.1) ((tb, θb), 0) :=
        ContDiffAt.comp ((tb, θb), (0 : ℝ)) (g := y) (f := fun z : (ℝ × ℝ) × ℝ => z.1.1) (hyc (q + 1)) h1
      refine (h4.add (h3.smul ?_)).sub ?_
      · unfold stageComb
        apply ContDiffAt.sum
        intro i _
        refine ContDiffAt.smul ?_ ?_
        · exact ContDiffAt.comp ((tb, θb), (0 : ℝ)) (g := w i) (f := fun z : (ℝ × ℝ) × ℝ => z.1.2)
            (hw i).contDiffAt h2
        · exact ContDiffAt.comp ((tb, θb), (0 : ℝ)) (g := exStage A c f i)
            (f := fun z : (ℝ × ℝ) × ℝ => (z.1.1, y z.1.1, z.2)) (exStage_contDiffAt (hf (q + 1)) i)
            (h1.prodMk (h4.prodMk h3))
      · refine ContDiffAt.comp ((tb, θb), (0 : ℝ)) (g := y) (f := fun z : (ℝ × ℝ) × ℝ => z.1.1 + z.1.2 * z.2) ?_
          (h1.add (h2.mul h3))
        simpa using hyc (q + 1))
    (eventually_nhdsWithin_of_forall fun x hx => by
      obtain ⟨v, hv, hO'⟩ := hO x hx
      refine ⟨fun m => if m = 0 then 0 else v (m - 1), fun m => ?_, ?_⟩
      · cases m with
        | zero => simp
        | succ m => simpa using hv m
      · refine hO'.congr_left fun h => ?_
        rw [sum_range_succ']
        simp)
  obtain ⟨pa, hpa, pb, hpb, hab⟩ := eventually_prod_iff.mp hC
  obtain ⟨r', hr', hball'⟩ := Metric.eventually_nhds_iff.mp hpb
  refine ⟨min r' 1, C, lt_min hr' one_pos, hC0, ?_⟩
  filter_upwards [hpa] with x hx h hh
  have hh1 : |h| < r' := hh.trans_le (min_le_left _ _)
  have hh2 : |h| ≤ 1 := (hh.trans_le (min_le_right _ _)).le
  refine (hab hx (hball' (by rw [Real.dist_eq, sub_zero]; exact hh1))).trans ?_
  refine add_le_add ?_ le_rfl
  dsimp only
  rw [sum_range_succ']
  simp only [if_true, mul_zero, zero_mul, add_zero]
  unfold nearConst
  rw [sum_mul, sum_mul]
  apply sum_le_sum
  intro m _
  rw [if_neg (by omega)]
  have : |h| ^ (m + 1) ≤ |h| := by
    calc |h| ^ (m + 1) ≤ |h| ^ 1 := pow_le_pow_of_le_one (abs_nonneg _) hh2 (by omega)
      _ = |h| := pow_one _
  exact mul_le_mul_of_nonneg_left this (by positivity)

/-- The same on a compact set of times and points of the step. -/
theorem near_compact {n : ℕ} {A : ℕ → ℕ → ℝ} {c : ℕ → ℝ} {w : ℕ → ℝ → ℝ} {f : ℝ → E → E} {y : ℝ → E} {q : ℕ} {D : ℝ}
    {S : Set (ℝ × ℝ)} (hS : IsCompact S) (hD : 0 ≤ D) (hw : ∀ i, ContDiff ℝ (q + 1 : ℕ) (w i))
    (hf : ∀ x ∈ S, ∀ n : ℕ, ContDiffAt ℝ n (fun z : ℝ × E => f z.1 z.2) (x.1, y x.1))
    (hy : ∀ x ∈ S, ∀ᶠ t in 𝓝 x.1, HasDerivAt y (f t (y t)) t)
    (hO : ∀ x ∈ S, NearOrder (fun h => y x.1 + h • stageComb n A c w f x.2 (x.1, y x.1, h) - y (x.1 + x.2 * h)) q D) :
    ∃ ε C : ℝ, 0 < ε ∧ 0 ≤ C ∧ ∀ x ∈ S, ∀ h : ℝ, |h| < ε →
      ‖y x.1 + h • stageComb n A c w f x.2 (x.1, y x.1, h) - y (x.1 + x.2 * h)‖ ≤
        nearConst q * D * |h| + C * |h| ^ (q + 1) := by
  refine hS.induction_on (p := fun S' => ∃ ε C : ℝ, 0 < ε ∧ 0 ≤ C ∧ ∀ x ∈ S', ∀ h : ℝ, |h| < ε →
      ‖y x.1 + h • stageComb n A c w f x.2 (x.1, y x.1, h) - y (x.1 + x.2 * h)‖ ≤
        nearConst q * D * |h| + C * |h| ^ (q + 1)) ?_ ?_ ?_ ?_
  · exact ⟨1, 0, one_pos, le_rfl, fun x hx => absurd hx (Set.notMem_empty x)⟩
  · rintro s t hst ⟨ε, C, h1, h2, h3⟩
    exact ⟨ε, C, h1, h2, fun x hx => h3 x (hst hx)⟩
  · rintro s t ⟨ε, C, h1, h2, h3⟩ ⟨ε', C', h1', h2', h3'⟩
    refine ⟨min ε ε', C + C', lt_min h1 h1', by linarith, fun x hx h hh => ?_⟩
    have p2 : 0 ≤ |h| ^ (q + 1) := by positivity
    rcases hx with hx | hx
    · refine (h3 x hx h (hh.trans_le (min_le_left _ _))).trans ?_
      nlinarith
    · refine (h3' x hx h (hh.trans_le (min_le_right _ _))).trans ?_
      nlinarith
  · intro x hx
    obtain ⟨ε, C, h1, h2, h3⟩ := near_local (θb := x.2) hD hw (hf x hx) (hy x hx) hO
    exact ⟨_, h3, ε, C, h1, h2, fun x hx => hx⟩

/-! ## Elementary differentials along a compact set -/

theorem OTree.diff_bound {p : FormalMultilinearSeries ℝ E E} {q : ℕ} {B : ℝ} (hB : 1 ≤ B) (hp : ∀ n, n < q → ‖p n‖ ≤ B) (τ : OTree) :
    τ.size ≤ q → ‖τ.diff p‖ ≤ B ^ τ.size := by
  induction τ with
  | node k c ih =>
    intro hq
    have hs : ∀ i : Fin k, (c i).size ≤ q := by
      intro i
      have : (c i).size ≤ ∑ i, (c i).size := single_le_sum (f := fun i => (c i).size) (fun _ _ => Nat.zero_le _) (mem_univ i)
      simp only [OTree.size] at hq
      omega
    have hk : k < q := by
      have h1 : ∑ _i : Fin k, 1 ≤ ∑ i : Fin k, (c i).size := sum_le_sum fun i _ => (c i).size_pos
      simp only [sum_const, card_univ, Fintype.card_fin, smul_eq_mul, mul_one] at h1
      simp only [OTree.size] at hq
      omega
    simp only [OTree.diff, OTree.size]
    refine ((p k).le_opNorm _).trans ?_
    have h1 : ∏ i, ‖(c i).diff p‖ ≤ ∏ i, B ^ (c i).size :=
      prod_le_prod (fun i _ => norm_nonneg _) fun i _ => ih i (hs i)
    rw [prod_pow_eq_pow_sum] at h1
    calc ‖p k‖ * ∏ i, ‖(c i).diff p‖ ≤ B * B ^ ∑ i, (c i).size :=
          mul_le_mul (hp k hk) h1 (prod_nonneg fun _ _ => norm_nonneg _) (by linarith)
      _ = _ := by rw [← pow_succ']; congr 1; omega

theorem diffSum_bound {p : FormalMultilinearSeries ℝ E E} {q : ℕ} {B : ℝ} (hB : 1 ≤ B) (hp : ∀ n, n < q → ‖p n‖ ≤ B) :
    diffSum p q ≤ (trees q).card * B ^ q := by
  unfold diffSum
  rw [← nsmul_eq_mul]
  apply sum_le_card_nsmul
  intro τ hτ
  rw [mem_trees] at hτ
  exact (OTree.diff_bound hB hp τ hτ).trans (pow_le_pow_right₀ hB hτ)

/-- A common bound of the elementary differentials up to size `q` on a compact set. -/
theorem diffSum_compact {f : E → E} {Z : Set E} (hZ : IsCompact Z) (hf : ∀ z ∈ Z, ContDiffAt ℝ ∞ f z) (q : ℕ) :
    ∃ M : ℝ, 0 ≤ M ∧ ∀ z ∈ Z, ∃ p : FormalMultilinearSeries ℝ E E, TaylorAt f p z ∧ diffSum p q ≤ M := by
  have : ∃ B : ℝ, 1 ≤ B ∧ ∀ z ∈ Z, ∀ n, n < q → ‖taylorSeries f z n‖ ≤ B := by
    refine hZ.induction_on (p := fun S => ∃ B : ℝ, 1 ≤ B ∧ ∀ z ∈ S, ∀ n, n < q → ‖taylorSeries f z n‖ ≤ B)
      ?_ ?_ ?_ ?_
    · exact ⟨1, le_rfl, fun x hx => absurd hx (Set.notMem_empty x)⟩
    · rintro s t hst ⟨B, h1, h2⟩
      exact ⟨B, h1, fun x hx => h2 x (hst hx)⟩
    · rintro s t ⟨B, h1, h2⟩ ⟨B', h1', h2'⟩
      refine ⟨max B B', le_max_of_le_left h1, fun x hx => ?_⟩
      rcases hx with hx | hx
      · exact fun n hn => (h2 x hx n hn).trans (le_max_left _ _)
      · exact fun n hn => (h2' x hx n hn).trans (le_max_right _ _)
    · intro x hx
      obtain ⟨B, h1, h2⟩ := taylor_bound (hf x hx) q
      exact ⟨_, nhdsWithin_le_nhds h2, B, h1, fun x hx => hx⟩
  obtain ⟨B, hB, h⟩ := this
  exact ⟨(trees q).card * B ^ q, by positivity, fun z hz =>
    ⟨_, taylorAt_of_contDiffAt (hf z hz), diffSum_bound hB (h z hz)⟩⟩

/-! ## One step -/

/-- Local error with a given Taylor series of the right-hand side (extended by the time). -/
theorem near_of_series {f : ℝ → E → E} {t0 : ℝ} {y0 : E} {q : ℕ} {p : FormalMultilinearSeries ℝ (ℝ × E) (ℝ × E)}
    (hp : TaylorAt (fun z : ℝ × E => ((1 : ℝ), f z.1 z.2)) p (t0, y0)) {n : ℕ} {A : ℕ → ℕ → ℝ} {c : ℕ → ℝ}
    {k : ℝ → ℕ → E} (hA : ∀ i, i < n → ∑ j ∈ range n, A i j = c i)
    (hk : ∀ i, i < n → ∀ h, k h i = f (t0 + c i * h) (y0 + h • ∑ j ∈ range n, A i j • k h j))
    (hb : ∀ i, i < n → (fun h => k h i) =O[𝓝 0] fun _ : ℝ => (1 : ℝ)) {b : ℕ → ℝ} {θ ε : ℝ} (hε : 0 ≤ ε)
    (hq : ∀ τ : OTree, τ.size ≤ q → |∑ i ∈ range n, b i * τ.weight n A i - θ ^ τ.size / (τ.dens : ℝ)| ≤ ε)
    {y : ℝ → E} (hy0 : y t0 = y0) (hy : ∀ᶠ t in 𝓝 t0, HasDerivAt y (f t (y t)) t) :
    NearOrder (fun h => y0 + h • ∑ i ∈ range n, b i • k h i - y (t0 + θ * h)) q (ε * diffSum p q) := by
  have hsum : ∀ (a : ℕ → ℝ) (h : ℝ), ∑ j ∈ range n, a j • ((1 : ℝ), k h j) =
      (∑ j ∈ range n, a j, ∑ j ∈ range n, a j • k h j) := by
    intro a h
    rw [Prod.ext_iff]
    simp [Prod.fst_sum, Prod.snd_sum]
  obtain ⟨h1, -⟩ := local_expansion (n := n) (q := q) (A := A) hp (k := fun h i => ((1 : ℝ), k h i))
    (by
      intro i hi
      refine (isBigO_zero _ _).congr_left ?_
      intro h
      rw [hsum, hA i hi]
      have h3 := hk i hi h
      simp [mul_comm]
      rw [mul_comm h, ← h3, sub_self]
      rfl)
    (by
      intro i hi
      exact (isBigO_const_const (1 : ℝ) one_ne_zero _).prod_left (hb i hi))
  have hadd : Tendsto (fun h : ℝ => t0 + h) (𝓝 0) (𝓝 t0) := by
    have : ContinuousAt (fun h : ℝ => t0 + h) 0 := by fun_prop
    simpa [ContinuousAt] using this
  have h2 := h1 b θ (fun h => (t0 + h, y (t0 + h))) (by simp [hy0]) (by
    filter_upwards [hadd.eventually hy] with h hh
    refine HasDerivAt.prodMk ?_ ?_
    · simpa using (hasDerivAt_id h).const_add t0
    · exact HasDerivAt.comp_const_add t0 h hh)
  refine ⟨fun m => (bserCoef p q _ m).2, fun m => (norm_snd_le _).trans (bserCoef_small hq hε m), ?_⟩
  refine ((isBigO_prod_left.mp h2).2).congr_left fun h => ?_
  rw [bser_eq_coef]
  simp [Prod.snd_sum]

/-- What the error bounds need to know about a problem `y' = f(t, y)` along its solution from `t0` to `b`: in the tube of
radius `ρ`, `f` is bounded by `B` and Lipschitz continuous with constant `L`; the sums of the norms of the elementary
differentials up to order `q` are at most `M`. -/
structure ProblemBounds (f : ℝ → E → E) (y : ℝ → E) (t0 b : ℝ) (q : ℕ) (ρ L B M : ℝ) : Prop where
  rho : 0 < ρ
  lip : 0 ≤ L
  bnd : 0 ≤ B
  diff : 0 ≤ M
  tube : ∀ t ∈ Set.uIcc t0 b, ∀ z z' : ℝ × E, dist z (t, y t) < ρ → dist z' (t, y t) < ρ →
    ‖f z.1 z.2 - f z'.1 z'.2‖ ≤ L * dist z z' ∧ ‖f z.1 z.2‖ ≤ B
  series : ∀ t ∈ Set.uIcc t0 b, ∃ p : FormalMultilinearSeries ℝ (ℝ × E) (ℝ × E),
    TaylorAt (fun z : ℝ × E => ((1 : ℝ), f z.1 z.2)) p (t, y t) ∧ diffSum p q ≤ M

/-- Such bounds exist for every smooth problem. -/
theorem exists_problemBounds [CompleteSpace E] {f : ℝ → E → E} {y : ℝ → E} {t0 b : ℝ} (hy : SolvesOn f y t0 b) (q : ℕ) :
    ∃ ρ L B M, ProblemBounds f y t0 b q ρ L B M := by
  obtain ⟨ρ, L, B, h1, h2, h3, h4⟩ := exists_tube hy
  obtain ⟨M, h5, h6⟩ := diffSum_compact (f := fun z : ℝ × E => ((1 : ℝ), f z.1 z.2))
    (Z := (fun t => (t, y t)) '' Set.uIcc t0 b)
    (isCompact_uIcc.image_of_continuousOn fun t ht =>
      (continuousAt_id.prodMk (hy.solves t ht).self_of_nhds.continuousAt).continuousWithinAt)
    (by
      rintro _ ⟨t, ht, rfl⟩
      exact contDiffAt_const.prodMk (hy.smooth t ht)) q
  exact ⟨ρ, L, B, M, h1, h2, h3, h5, h4, fun t ht => h6 _ ⟨t, ht, rfl⟩⟩

/-- The part of a matrix below the diagonal. -/
def lowA (A : ℕ → ℕ → ℝ) (i j : ℕ) : ℝ := if j < i then A i j else 0

/-- Row sums below the diagonal. -/
noncomputable def rowC (A : ℕ → ℕ → ℝ) (i : ℕ) : ℝ := ∑ j ∈ range i, A i j

theorem sum_lowA {M : Type*} [AddCommGroup M] [Module ℝ M] (A : ℕ → ℕ → ℝ) {n i : ℕ} (hi : i < n) (g : ℕ → M) :
    ∑ j ∈ range n, lowA A i j • g j = ∑ j ∈ range i, A i j • g j := by
  have h : range i ⊆ range n := range_subset_range.mpr hi.le
  rw [← sum_subset h]
  · apply sum_congr rfl
    intro j hj
    rw [lowA, if_pos (mem_range.mp hj)]
  · intro j _ hj
    rw [lowA, if_neg (by rwa [mem_range] at hj), zero_smul]

/-- Near order of the scheme whose nodes are the row sums. -/
theorem near_along {f : ℝ → E → E} {y : ℝ → E} {t0 b : ℝ} {q : ℕ} {ρ L B M : ℝ} (hp : ProblemBounds f y t0 b q ρ L B M)
    (hy : SolvesOn f y t0 b) {n : ℕ} {A : ℕ → ℕ → ℝ} {w : ℕ → ℝ → ℝ} {θ δ : ℝ} (hδ : 0 ≤ δ)
    (hw : ∀ τ : OTree, τ.size ≤ q →
      |∑ i ∈ range n, w i θ * τ.weight n (lowA A) i - θ ^ τ.size / (τ.dens : ℝ)| ≤ δ)
    {t : ℝ} (ht : t ∈ Set.uIcc t0 b) :
    NearOrder (fun h => y t + h • stageComb n A (rowC A) w f θ (t, y t, h) - y (t + θ * h)) q (δ * M) := by
  obtain ⟨p, hp1, hp2⟩ := hp.series t ht
  have hst : ∀ i, i < n → ∀ h, exStage A (rowC A) f i (t, y t, h) = f (t + rowC A i * h)
      (y t + h • ∑ j ∈ range n, lowA A i j • exStage A (rowC A) f j (t, y t, h)) := by
    intro i hi h
    rw [sum_lowA A hi, exStage_eq]
  have hb := explicit_bounded_rk (n := n) (A := lowA A) (c := rowC A) (f := f) (t0 := t) (y0 := y t)
    (k := fun h i => exStage A (rowC A) f i (t, y t, h))
    (fun i _ j _ hij => by rw [lowA, if_neg (by omega)]) (hy.smooth t ht).continuousAt
    (fun i hi => Eventually.of_forall fun h => hst i hi h)
  have := near_of_series hp1 (A := lowA A) (c := rowC A) (n := n) (k := fun h i => exStage A (rowC A) f i (t, y t, h))
    (fun i hi => by
      have := sum_lowA A hi (fun _ => (1 : ℝ))
      simpa [rowC] using this) hst hb hδ hw rfl (hy.solves t ht)
  exact this.mono (mul_le_mul_of_nonneg_left hp2 hδ)

/-- **One step near the exact solution**, for a scheme whose order conditions hold up to `δ` and whose nodes are the row
sums up to `γ`; the constants of the first two terms depend on the problem, the order and the bound `β` of the weights only. -/
theorem near_step [CompleteSpace E] {f : ℝ → E → E} {y : ℝ → E} {t0 b : ℝ} {q : ℕ} {ρ L B M : ℝ} (hp : ProblemBounds f y t0 b q ρ L B M)
    (hy : SolvesOn f y t0 b) {n : ℕ} {A : ℕ → ℕ → ℝ} {c : ℕ → ℝ} {w : ℕ → ℝ → ℝ} {Θ : Set ℝ} (hΘ : IsCompact Θ)
    {β γ δ : ℝ} (hδ : 0 ≤ δ) (hγ0 : 0 ≤ γ) (hwc : ∀ i, ContDiff ℝ (q + 1 : ℕ) (w i))
    (hw : ∀ θ ∈ Θ, ∀ τ : OTree, τ.size ≤ q →
      |∑ i ∈ range n, w i θ * τ.weight n (lowA A) i - θ ^ τ.size / (τ.dens : ℝ)| ≤ δ)
    (hβ : ∀ θ ∈ Θ, ∑ i ∈ range n, |w i θ| ≤ β) (hγ : ∀ i, i < n → |c i - rowC A i| ≤ γ) :
    ∃ ε C : ℝ, 0 < ε ∧ 0 ≤ C ∧ ∀ t ∈ Set.uIcc t0 b, ∀ θ ∈ Θ, ∀ (u : E) (h : ℝ), ‖u - y t‖ < ρ / 2 → |h| < ε →
      ‖u + h • stageComb n A c w f θ (t, u, h) - y (t + θ * h)‖ ≤
        (1 + 2 * L * β * |h|) * ‖u - y t‖ + (nearConst q * M * δ + 2 * L * β * γ) * |h| + C * |h| ^ (q + 1) := by
  have hS : IsCompact ((Set.uIcc t0 b) ×ˢ Θ) := isCompact_uIcc.prod hΘ
  obtain ⟨ε, C, h1, h2, h3⟩ := near_compact (n := n) (A := A) (c := rowC A) (w := w) (f := f) (y := y) (q := q)
    (D := δ * M) hS (mul_nonneg hδ hp.diff) hwc
    (fun x hx n => (smooth_nat (hy.smooth x.1 hx.1) _)) (fun x hx => hy.solves x.1 hx.1)
    (fun x hx => near_along hp hy hδ (hw x.2 hx.2) hx.1)
  set Γ := 1 + ∑ i ∈ range n, (|c i| + |rowC A i|) with hΓ
  have hΓ1 : 0 < Γ := by
    have : 0 ≤ ∑ i ∈ range n, (|c i| + |rowC A i|) := sum_nonneg fun i _ => by positivity
    linarith
  have hΓ2 : ∀ i, i < n → |c i| ≤ Γ ∧ |rowC A i| ≤ Γ := by
    intro i hi
    have := single_le_sum (f := fun i => |c i| + |rowC A i|) (fun i _ => by positivity) (mem_range.mpr hi)
    have a1 := abs_nonneg (c i)
    have a2 := abs_nonneg (rowC A i)
    constructor <;> linarith
  have hR := rowSums_nonneg n A
  have hρ := hp.rho
  have hL := hp.lip
  have hB := hp.bnd
  refine ⟨min ε (min 1 (min (ρ / Γ) (min (ρ / (2 * (rowSums n A * B + 1))) (1 / (2 * L * rowSums n A + 1))))), C,
    lt_min h1 (lt_min one_pos (lt_min (by positivity) (lt_min (by positivity) (by positivity)))), h2, ?_⟩
  intro t ht θ hθ u h hu hh
  simp only [lt_min_iff] at hh
  obtain ⟨e1, e2, e3, e4, e5⟩ := hh
  rw [lt_div_iff₀ (by positivity)] at e3 e4 e5
  have hβ0 : 0 ≤ β := (sum_nonneg fun i _ => abs_nonneg _).trans (hβ θ hθ)
  have hst := stage_lipschitz (f := f) (t := t) (x := y t) hp.rho hp.lip hp.bnd (hp.tube t ht) (n := n) (A := A) (c := c)
    (c' := rowC A) hγ hΓ2 (h := h) e3 (by nlinarith [abs_nonneg h]) (by nlinarith [abs_nonneg h]) (u := u) (u' := y t) hu
    (by rw [sub_self, norm_zero]; linarith)
  have hcons := h3 (t, θ) ⟨ht, hθ⟩ h e1
  dsimp only at hcons
  have hdiff : ‖stageComb n A c w f θ (t, u, h) - stageComb n A (rowC A) w f θ (t, y t, h)‖ ≤
      β * (2 * L * (‖u - y t‖ + γ * |h|)) := by
    unfold stageComb
    rw [← sum_sub_distrib]
    calc _ ≤ ∑ i ∈ range n, |w i θ| * (2 * L * (‖u - y t‖ + γ * |h|)) := by
          refine (norm_sum_le _ _).trans (sum_le_sum fun i hi => ?_)
          rw [← smul_sub, norm_smul, Real.norm_eq_abs]
          exact mul_le_mul_of_nonneg_left (hst i (mem_range.mp hi)).2.2 (abs_nonneg _)
      _ = (∑ i ∈ range n, |w i θ|) * (2 * L * (‖u - y t‖ + γ * |h|)) := by rw [sum_mul]
      _ ≤ _ := mul_le_mul_of_nonneg_right (hβ θ hθ) (by positivity)
  have e : u + h • stageComb n A c w f θ (t, u, h) - y (t + θ * h) =
      (u - y t) + h • (stageComb n A c w f θ (t, u, h) - stageComb n A (rowC A) w f θ (t, y t, h)) +
      (y t + h • stageComb n A (rowC A) w f θ (t, y t, h) - y (t + θ * h)) := by
    rw [smul_sub]; abel
  rw [e]
  have h4 : ‖h • (stageComb n A c w f θ (t, u, h) - stageComb n A (rowC A) w f θ (t, y t, h))‖ ≤
      |h| * (β * (2 * L * (‖u - y t‖ + γ * |h|))) := by
    rw [norm_smul, Real.norm_eq_abs]
    exact mul_le_mul_of_nonneg_left hdiff (abs_nonneg _)
  refine (norm_add_le _ _).trans ((add_le_add ((norm_add_le _ _).trans (add_le_add le_rfl h4)) hcons).trans ?_)
  have : 2 * L * β * γ * |h| * |h| ≤ 2 * L * β * γ * |h| * 1 := mul_le_mul_of_nonneg_left e2.le (by positivity)
  nlinarith

end Extensisq
