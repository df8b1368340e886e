import Verif.Lemmas.Convergence
import Verif.Props.Convergence

/-!
# Convergence of one-step methods in general

The argument of `Lemmas/Convergence.lean` for an arbitrary increment function `Φ`: `u + h Φ(θ, t, u, h)` approximates the
solution at `t + θ h`.
-/

set_option linter.unusedSectionVars false

namespace Extensisq
open Finset Asymptotics Filter Topology

variable {E : Type*} [NormedAddCommGroup E] [NormedSpace ℝ E]

/-- Consistency and stability near one point of the exact solution. -/
theorem inc_local_bound {Φ : ℝ → ℝ × E × ℝ → E} {y : ℝ → E} {q : ℕ} {S : Set (ℝ × ℝ)} {tb θb : ℝ}
    (hΦ : ∀ n : ℕ, ContDiffAt ℝ n (fun z : ℝ × ℝ × E × ℝ => Φ z.1 z.2) (θb, tb, y tb, 0))
    (hyc : ∀ n : ℕ, ContDiffAt ℝ n y tb)
    (hO : ∀ x ∈ S, (fun h => y x.1 + h • Φ x.2 (x.1, y x.1, h) - y (x.1 + x.2 * h)) =O[𝓝 0] fun h : ℝ => h ^ (q + 1)) :
    ∃ ε C Λ : ℝ, 0 < ε ∧ 0 ≤ C ∧ 0 ≤ Λ ∧ ∀ᶠ x in 𝓝[S] (tb, θb), ∀ (u : E) (h : ℝ), ‖u - y x.1‖ < ε → |h| < ε →
      ‖u + h • Φ x.2 (x.1, u, h) - y (x.1 + x.2 * h)‖ ≤ (1 + Λ * |h|) * ‖u - y x.1‖ + C * |h| ^ (q + 1) := by
  -- consistency
  obtain ⟨C, hC0, hC⟩ := uniform_order (s := S) (tb := (tb, θb)) (q + 1)
    (g := fun z : (ℝ × ℝ) × ℝ => y z.1.1 + z.2 • Φ z.1.2 (z.1.1, y z.1.1, z.2) - y (z.1.1 + z.1.2 * z.2))
    (by
      have h1 : ContDiffAt ℝ (q + 1 : ℕ) (fun z : (ℝ × ℝ) × ℝ => z.1.1) ((tb, θb), 0) := contDiffAt_fst.fst
      have h2 : ContDiffAt ℝ (q + 1 : ℕ) (fun z : (ℝ × ℝ) × ℝ => z.1.2) ((tb, θb), 0) := contDiffAt_fst.snd
      have h3 : ContDiffAt ℝ (q + 1 : ℕ) (fun z : (ℝ × ℝ) × ℝ => z.2) ((tb, θb), 0) := contDiffAt_snd
      have h4 : ContDiffAt ℝ (q + 1 : ℕ) (fun z : (ℝ × ℝ) × ℝ => y z.1.1) ((tb, θb), 0) :=
        ContDiffAt.comp ((tb, θb), (0 : ℝ)) (g := y) (f := fun z : (ℝ × ℝ) × ℝ => z.1.1) (hyc (q + 1)) h1
      refine (h4.add (h3.smul ?_)).sub ?_
      · exact ContDiffAt.comp ((tb, θb), (0 : ℝ)) (g := fun z : ℝ × ℝ × E × ℝ => Φ z.1 z.2)
          (f := fun z : (ℝ × ℝ) × ℝ => (z.1.2, z.1.1, y z.1.1, z.2)) (hΦ (q + 1)) (h2.prodMk (h1.prodMk (h4.prodMk h3)))
      · refine ContDiffAt.comp ((tb, θb), (0 : ℝ)) (g := y) (f := fun z : (ℝ × ℝ) × ℝ => z.1.1 + z.1.2 * z.2) ?_
          (h1.add (h2.mul h3))
        simpa using hyc (q + 1))
    (eventually_nhdsWithin_of_forall hO)
  -- stability
  obtain ⟨Λ, U, hU, hLip⟩ := ContDiffAt.exists_lipschitzOnWith (𝕂 := ℝ)
    (f := fun z : ℝ × ℝ × E × ℝ => Φ z.1 z.2) (x := (θb, tb, y tb, 0)) (by exact_mod_cast hΦ 1)
  -- a common neighbourhood
  obtain ⟨r, hr, hball⟩ := Metric.mem_nhds_iff.mp hU
  obtain ⟨pa, hpa, pb, hpb, hab⟩ := eventually_prod_iff.mp hC
  obtain ⟨r', hr', hball'⟩ := Metric.eventually_nhds_iff.mp hpb
  have hcont : ∀ᶠ x in 𝓝[S] (tb, θb), ‖y x.1 - y tb‖ < r / 2 ∧ |x.1 - tb| < r ∧ |x.2 - θb| < r := by
    apply nhdsWithin_le_nhds
    have c1 : Tendsto (fun x : ℝ × ℝ => y x.1 - y tb) (𝓝 (tb, θb)) (𝓝 (y tb - y tb)) := by
      have : ContinuousAt (fun x : ℝ × ℝ => y x.1) (tb, θb) :=
        ContinuousAt.comp (g := y) (f := Prod.fst) (hyc 0).continuousAt continuousAt_fst
      exact (this.tendsto).sub_const _
    rw [sub_self] at c1
    have c2 : Tendsto (fun x : ℝ × ℝ => x.1 - tb) (𝓝 (tb, θb)) (𝓝 (tb - tb)) :=
      (continuous_fst.tendsto _).sub_const _
    have c3 : Tendsto (fun x : ℝ × ℝ => x.2 - θb) (𝓝 (tb, θb)) (𝓝 (θb - θb)) :=
      (continuous_snd.tendsto _).sub_const _
    rw [sub_self] at c2 c3
    filter_upwards [c1.eventually (Metric.ball_mem_nhds (0 : E) (half_pos hr)),
      c2.eventually (Metric.ball_mem_nhds (0 : ℝ) hr), c3.eventually (Metric.ball_mem_nhds (0 : ℝ) hr)] with x h1 h2 h3
    exact ⟨by simpa using h1, by simpa using h2, by simpa using h3⟩
  refine ⟨min (r / 2) r', C, Λ, lt_min (half_pos hr) hr', hC0, Λ.2, ?_⟩
  filter_upwards [hpa, hcont] with x hx ⟨hx1, hx2, hx3⟩
  intro u h hu hh
  have hu' : ‖u - y x.1‖ < r / 2 := hu.trans_le (min_le_left _ _)
  have hh1 : |h| < r / 2 := hh.trans_le (min_le_left _ _)
  have hh2 : |h| < r' := hh.trans_le (min_le_right _ _)
  have hcons : ‖y x.1 + h • Φ x.2 (x.1, y x.1, h) - y (x.1 + x.2 * h)‖ ≤ C * |h| ^ (q + 1) :=
    hab hx (hball' (by rw [Real.dist_eq, sub_zero]; exact hh2))
  have hmem : ∀ v : E, ‖v - y tb‖ < r → (x.2, x.1, v, h) ∈ U := by
    intro v hv
    apply hball
    rw [Metric.mem_ball, Prod.dist_eq, Prod.dist_eq, Prod.dist_eq]
    simp only [max_lt_iff]
    refine ⟨by rw [Real.dist_eq]; exact hx3, by rw [Real.dist_eq]; exact hx2, by rw [dist_eq_norm]; exact hv, ?_⟩
    rw [Real.dist_eq, sub_zero]
    linarith
  have hm1 : (x.2, x.1, u, h) ∈ U := hmem u (by
    have : u - y tb = (u - y x.1) + (y x.1 - y tb) := by abel
    rw [this]
    exact (norm_add_le _ _).trans_lt (by linarith))
  have hm2 : (x.2, x.1, y x.1, h) ∈ U := hmem (y x.1) (by linarith)
  have hlip := hLip.dist_le_mul _ hm1 _ hm2
  have hd : dist ((x.2, x.1, u, h) : ℝ × ℝ × E × ℝ) (x.2, x.1, y x.1, h) = ‖u - y x.1‖ := by
    rw [Prod.dist_eq, Prod.dist_eq, Prod.dist_eq]
    simp [dist_eq_norm]
  rw [hd, dist_eq_norm] at hlip
  have e : u + h • Φ x.2 (x.1, u, h) - y (x.1 + x.2 * h) =
      (u - y x.1) + h • (Φ x.2 (x.1, u, h) - Φ x.2 (x.1, y x.1, h)) +
      (y x.1 + h • Φ x.2 (x.1, y x.1, h) - y (x.1 + x.2 * h)) := by
    rw [smul_sub]; abel
  rw [e]
  refine (norm_add_le _ _).trans (add_le_add ((norm_add_le _ _).trans ?_) hcons)
  rw [norm_smul, Real.norm_eq_abs]
  have : |h| * ‖Φ x.2 (x.1, u, h) - Φ x.2 (x.1, y x.1, h)‖ ≤ |h| * (Λ * ‖u - y x.1‖) := by
    gcongr
  calc _ ≤ ‖u - y x.1‖ + |h| * (Λ * ‖u - y x.1‖) := by linarith
    _ = _ := by ring

/-- Consistency and stability along the exact solution on a compact set of times (and of points of the step). -/
theorem inc_compact_bound {Φ : ℝ → ℝ × E × ℝ → E} {y : ℝ → E} {q : ℕ} {S : Set (ℝ × ℝ)} (hS : IsCompact S)
    (hΦ : ∀ x ∈ S, ∀ n : ℕ, ContDiffAt ℝ n (fun z : ℝ × ℝ × E × ℝ => Φ z.1 z.2) (x.2, x.1, y x.1, 0))
    (hyc : ∀ x ∈ S, ∀ n : ℕ, ContDiffAt ℝ n y x.1)
    (hO : ∀ x ∈ S, (fun h => y x.1 + h • Φ x.2 (x.1, y x.1, h) - y (x.1 + x.2 * h)) =O[𝓝 0] fun h : ℝ => h ^ (q + 1)) :
    ∃ ε C Λ : ℝ, 0 < ε ∧ 0 ≤ C ∧ 0 ≤ Λ ∧ ∀ x ∈ S, ∀ (u : E) (h : ℝ), ‖u - y x.1‖ < ε → |h| < ε →
      ‖u + h • Φ x.2 (x.1, u, h) - y (x.1 + x.2 * h)‖ ≤ (1 + Λ * |h|) * ‖u - y x.1‖ + C * |h| ^ (q + 1) := by
  refine hS.induction_on (p := fun S' => ∃ ε C Λ : ℝ, 0 < ε ∧ 0 ≤ C ∧ 0 ≤ Λ ∧ ∀ x ∈ S', ∀ (u : E) (h : ℝ),
    ‖u - y x.1‖ < ε → |h| < ε → ‖u + h • Φ x.2 (x.1, u, h) - y (x.1 + x.2 * h)‖ ≤
        (1 + Λ * |h|) * ‖u - y x.1‖ + C * |h| ^ (q + 1)) ?_ ?_ ?_ ?_
  · exact ⟨1, 0, 0, one_pos, le_rfl, le_rfl, fun x hx => absurd hx (Set.notMem_empty x)⟩
  · rintro s t hst ⟨ε, C, Λ, h1, h2, h3, h4⟩
    exact ⟨ε, C, Λ, h1, h2, h3, fun x hx => h4 x (hst hx)⟩
  · rintro s t ⟨ε, C, Λ, h1, h2, h3, h4⟩ ⟨ε', C', Λ', h1', h2', h3', h4'⟩
    refine ⟨min ε ε', C + C', Λ + Λ', lt_min h1 h1', by linarith, by linarith, fun x hx u h hu hh => ?_⟩
    have p1 : 0 ≤ |h| := abs_nonneg h
    have p2 : 0 ≤ |h| ^ (q + 1) := by positivity
    have p3 : 0 ≤ ‖u - y x.1‖ := norm_nonneg _
    have p4 : 0 ≤ |h| * ‖u - y x.1‖ := mul_nonneg p1 p3
    rcases hx with hx | hx
    · refine (h4 x hx u h (hu.trans_le (min_le_left _ _)) (hh.trans_le (min_le_left _ _))).trans ?_
      nlinarith
    · refine (h4' x hx u h (hu.trans_le (min_le_right _ _)) (hh.trans_le (min_le_right _ _))).trans ?_
      nlinarith
  · intro x hx
    obtain ⟨ε, C, Λ, h1, h2, h3, h4⟩ := inc_local_bound (θb := x.2) (hΦ x hx) (hyc x hx) hO
    exact ⟨_, h4, ε, C, Λ, h1, h2, h3, fun x hx => hx⟩

/-- Accumulation with a defect `δ` per unit of time. -/
theorem accumulate_defect {C D Λ a e e' h : ℝ} (hC : 0 ≤ D) (hΛ : 0 ≤ Λ) (ha : 0 ≤ a) (hh0 : 0 ≤ h)
    (he : e ≤ D * (a * Real.exp (Λ * a))) (hstep : e' ≤ (1 + Λ * h) * e + D * h) (hC' : C = D) :
    e' ≤ C * ((a + h) * Real.exp (Λ * (a + h))) := by
  subst hC'
  have := accumulate (C := C) (Λ := Λ) (H := h) (a := a) (e := e) (e' := e') (h := h) (p := 0) hC hΛ ha hh0 le_rfl
    (by simpa using he) (by simpa using hstep)
  simpa using this

/-- **Convergence of the driver with a one-step method.** `Step t u h u'` is the relation of one step of the method. If
every step along the exact solution is stable with a local error of at most `D |h|` (where `D = C H^p` in the
applications), the error of every history of steps of length at most `H` is at most `D` times a constant. -/
theorem driver_global_error {W : Type*} {y : ℝ → E} {t0 b : ℝ} {Step : ℝ → E → ℝ → E → Prop} {ε Λ D H : ℝ}
    (hΛ : 0 ≤ Λ) (hD : 0 ≤ D) (hHε : H < ε)
    (hDε : D * (|b - t0| * Real.exp (Λ * |b - t0|)) < ε)
    (hbound : ∀ t ∈ Set.uIcc t0 b, ∀ (u u' : E) (h : ℝ), Step t u h u' → ‖u - y t‖ < ε → |h| < ε → |h| ≤ H →
      ‖u' - y (t + h)‖ ≤ (1 + Λ * |h|) * ‖u - y t‖ + D * |h|)
    {c : Cfg ℝ E W} (hc : CfgOK c) (hdir : 0 ≤ c.dir * (b - t0)) {v0 v : Solver ℝ E W} (h0t : v0.st.t = t0)
    (h0y : v0.st.y = y t0)
    (hstep : ∀ (w w' : Solver ℝ E W) (fuel : ℕ) (o : Out), Reach c v0 w → step c fuel w = some (o, w') →
      (w'.st.t = w.st.t ∧ w'.st.y = w.st.y) ∨ ∃ h, w'.st.t = w.st.t + h ∧ Step w.st.t w.st.y h w'.st.y)
    (hr : ReachWithin c v0 t0 b H v) :
    ‖v.st.y - y v.st.t‖ ≤ D * (|b - t0| * Real.exp (Λ * |b - t0|)) := by
  set L := |b - t0| with hL
  have hL0 : 0 ≤ L := abs_nonneg _
  have hgrow : ∀ a, 0 ≤ a → a ≤ L → D * (a * Real.exp (Λ * a)) ≤ D * (L * Real.exp (Λ * L)) := by
    intro a ha haL
    apply mul_le_mul_of_nonneg_left _ hD
    apply mul_le_mul haL _ (Real.exp_pos _).le hL0
    exact Real.exp_le_exp.mpr (mul_le_mul_of_nonneg_left haL hΛ)
  have key : v.st.t ∈ Set.uIcc t0 b ∧ 0 ≤ c.dir * (v.st.t - t0) ∧
      ‖v.st.y - y v.st.t‖ ≤ D * (|v.st.t - t0| * Real.exp (Λ * |v.st.t - t0|)) := by
    induction hr with
    | refl =>
      rw [h0t, h0y]
      refine ⟨Set.left_mem_uIcc, ?_, ?_⟩ <;> simp
    | @tail w w' o fuel hr hs hle hmem ih =>
      obtain ⟨i1, i2, i3⟩ := ih
      refine ⟨hmem, ?_⟩
      have habs : ∀ x, 0 ≤ c.dir * x → |x| = c.dir * x := by
        intro x hx
        rcases hc.dir with hd | hd <;> rw [hd] at hx ⊢
        · rw [one_mul] at hx ⊢; exact abs_of_nonneg hx
        · rw [abs_of_nonpos (by linarith)]; ring
      have hd : 0 ≤ c.dir * (w'.st.t - w.st.t) := by
        rcases step_time hc hs with ⟨e, -⟩ | ⟨-, -, h', e1, e2, e3⟩
        · rw [e, sub_self, mul_zero]
        · have hpos : 0 < h' := lt_of_lt_of_le (minStep_pos hc _ _) e1
          have : c.dir * (w'.st.t - w.st.t) = h' := by rw [e3]; linear_combination h' * dir_sq hc
          rw [this]; exact hpos.le
      have hd' : c.dir * (w'.st.t - t0) = c.dir * (w.st.t - t0) + c.dir * (w'.st.t - w.st.t) := by ring
      have hd0 : 0 ≤ c.dir * (w'.st.t - t0) := by rw [hd']; linarith
      refine ⟨hd0, ?_⟩
      rcases hstep w w' fuel o hr.reach hs with ⟨e1, e2⟩ | ⟨h, et, hk⟩
      · rw [e1, e2]; exact i3
      · have eh : w'.st.t - w.st.t = h := by rw [et]; ring
        rw [eh] at hle hd
        have ha : |w'.st.t - t0| = |w.st.t - t0| + |h| := by
          rw [habs _ hd0, habs _ i2, habs _ hd, hd', eh]
        have hwL : |w.st.t - t0| ≤ L := Set.abs_sub_left_of_mem_uIcc i1
        have he : ‖w.st.y - y w.st.t‖ < ε := (i3.trans (hgrow _ (abs_nonneg _) hwL)).trans_lt hDε
        have hb := hbound w.st.t i1 _ _ h hk he (hle.trans_lt hHε) hle
        rw [← et] at hb
        rw [ha]
        exact accumulate_defect hD hΛ (abs_nonneg _) (abs_nonneg _) i3 hb rfl
  obtain ⟨k1, _, k3⟩ := key
  exact k3.trans (hgrow _ (abs_nonneg _) (Set.abs_sub_left_of_mem_uIcc k1))

end Extensisq
