import Verif.Props.Work
import Verif.Props.ToleranceConvergence

/-!
# Runs along a smooth solution, for any method of the driver

The parts of the proofs of C111, C112 and C113 which do not depend on the method: bounds which hold uniformly near the solution, the run to the end, the tolerances,
the work. Used for the Nystrom methods (C115).
-/

set_option linter.unusedSectionVars false

namespace Extensisq
open scoped ContDiff
open Finset Asymptotics Filter Topology

section
variable {E G W : Type*} [NormedAddCommGroup E] [NormedSpace ℝ E] [NormedAddCommGroup G] [NormedSpace ℝ G]

/-- A bound which holds near every point of a curve over a compact interval holds in a tube around it. -/
theorem tube_bound {y : ℝ → E} {t0 b : ℝ} (hc : ∀ t ∈ Set.uIcc t0 b, ContinuousAt y t) {P : ℝ → E → ℝ → ℝ → Prop}
    (hmono : ∀ {t u h D D'}, D ≤ D' → P t u h D → P t u h D')
    (hloc : ∀ tb ∈ Set.uIcc t0 b, ∃ D, ∀ᶠ z in 𝓝 ((tb, y tb), (0 : ℝ)), P z.1.1 z.1.2 z.2 D) :
    ∃ ε D : ℝ, 0 < ε ∧ 0 ≤ D ∧ ∀ t ∈ Set.uIcc t0 b, ∀ (u : E) (h : ℝ), ‖u - y t‖ < ε → |h| < ε → P t u h D := by
  refine (isCompact_uIcc (a := t0) (b := b)).induction_on (p := fun S' => ∃ ε D : ℝ, 0 < ε ∧ 0 ≤ D ∧ ∀ t ∈ S', ∀ (u : E) (h : ℝ),
    ‖u - y t‖ < ε → |h| < ε → P t u h D) ?_ ?_ ?_ ?_
  · exact ⟨1, 0, one_pos, le_rfl, fun x hx => absurd hx (Set.notMem_empty x)⟩
  · rintro s t hst ⟨ε, C, h1, h2, h4⟩
    exact ⟨ε, C, h1, h2, fun x hx => h4 x (hst hx)⟩
  · rintro s t ⟨ε, C, h1, h2, h4⟩ ⟨ε', C', h1', h2', h4'⟩
    refine ⟨min ε ε', C + C', lt_min h1 h1', by linarith, fun x hx u h hu hh => ?_⟩
    rcases hx with hx | hx
    · exact hmono (by linarith) (h4 x hx u h (hu.trans_le (min_le_left _ _)) (hh.trans_le (min_le_left _ _)))
    · exact hmono (by linarith) (h4' x hx u h (hu.trans_le (min_le_right _ _)) (hh.trans_le (min_le_right _ _)))
  · intro tb htb
    obtain ⟨D, hD⟩ := hloc tb htb
    obtain ⟨δ, hδ, h1⟩ := Metric.eventually_nhds_iff.mp hD
    have h2 : ∀ᶠ t in 𝓝 tb, ‖y t - y tb‖ < δ / 2 ∧ |t - tb| < δ := by
      have a1 := Metric.continuousAt_iff'.mp (hc tb htb) (δ / 2) (by linarith)
      have a2 := Metric.eventually_nhds_iff.mpr ⟨δ, hδ, fun {t} (h : dist t tb < δ) => h⟩
      filter_upwards [a1, a2] with t h3 h4
      exact ⟨by rwa [dist_eq_norm] at h3, by rwa [Real.dist_eq] at h4⟩
    refine ⟨_, mem_nhdsWithin_of_mem_nhds h2, δ / 2, max D 0, by linarith, le_max_right _ _, ?_⟩
    rintro t ⟨ht1, ht2⟩ u h hu hh
    have h3 : dist (((t, u), h) : (ℝ × E) × ℝ) ((tb, y tb), 0) < δ := by
      rw [Prod.dist_eq, Prod.dist_eq, Real.dist_eq, Real.dist_eq, dist_eq_norm]
      refine max_lt (max_lt ht2 ?_) (by simp only [sub_zero]; linarith)
      calc ‖u - y tb‖ = ‖(u - y t) + (y t - y tb)‖ := by congr 1; abel
        _ ≤ ‖u - y t‖ + ‖y t - y tb‖ := norm_add_le _ _
        _ < δ := by linarith
    exact hmono (le_max_left _ _) (h1 h3)

/-- A function which is continuous at the points of the curve (with `h = 0`) is bounded in a tube. -/
theorem tube_continuous {y : ℝ → E} {t0 b : ℝ} (hc : ∀ t ∈ Set.uIcc t0 b, ContinuousAt y t) {F : ℝ × E × ℝ → G}
    (hF : ∀ t ∈ Set.uIcc t0 b, ContinuousAt F (t, y t, 0)) :
    ∃ ε D : ℝ, 0 < ε ∧ 0 ≤ D ∧ ∀ t ∈ Set.uIcc t0 b, ∀ (u : E) (h : ℝ), ‖u - y t‖ < ε → |h| < ε → ‖F (t, u, h)‖ ≤ D := by
  refine tube_bound hc (P := fun t u h D => ‖F (t, u, h)‖ ≤ D) (fun h1 h2 => h2.trans h1) fun tb htb => ⟨‖F (tb, y tb, 0)‖ + 1, ?_⟩
  have h1 : ContinuousAt (fun z : (ℝ × E) × ℝ => F (z.1.1, z.1.2, z.2)) ((tb, y tb), 0) :=
    ContinuousAt.comp (x := ((tb, y tb), (0 : ℝ))) (g := F) (f := fun z : (ℝ × E) × ℝ => (z.1.1, z.1.2, z.2)) (hF tb htb) (by fun_prop)
  filter_upwards [h1.norm.eventually (gt_mem_nhds (lt_add_one ‖F (tb, y tb, 0)‖))] with z hz
  exact hz.le

/-- A smooth function which is `O(h^n)` at every point near the curve is so uniformly. -/
theorem tube_order {y : ℝ → E} {t0 b : ℝ} (hc : ∀ t ∈ Set.uIcc t0 b, ContinuousAt y t) {F : ℝ × E × ℝ → G} (n : ℕ)
    (hF : ∀ t ∈ Set.uIcc t0 b, ContDiffAt ℝ n F (t, y t, 0))
    (hO : ∀ t ∈ Set.uIcc t0 b, ∀ᶠ z in 𝓝 (t, y t), (fun h => F (z.1, z.2, h)) =O[𝓝 0] fun h : ℝ => h ^ n) :
    ∃ ε D : ℝ, 0 < ε ∧ 0 ≤ D ∧ ∀ t ∈ Set.uIcc t0 b, ∀ (u : E) (h : ℝ), ‖u - y t‖ < ε → |h| < ε → ‖F (t, u, h)‖ ≤ D * |h| ^ n := by
  refine tube_bound hc (P := fun t u h D => ‖F (t, u, h)‖ ≤ D * |h| ^ n)
    (fun h1 h2 => h2.trans (mul_le_mul_of_nonneg_right h1 (by positivity))) fun tb htb => ?_
  obtain ⟨D, -, hD⟩ := uniform_order (s := Set.univ) (tb := (tb, y tb)) n (g := fun z : (ℝ × E) × ℝ => F (z.1.1, z.1.2, z.2))
    (ContDiffAt.comp ((tb, y tb), (0 : ℝ)) (g := F) (f := fun z : (ℝ × E) × ℝ => (z.1.1, z.1.2, z.2)) (hF tb htb)
      (contDiffAt_fst.fst.prodMk (contDiffAt_fst.snd.prodMk contDiffAt_snd)))
    (by rw [nhdsWithin_univ]; exact hO tb htb)
  rw [nhdsWithin_univ, ← nhds_prod_eq] at hD
  exact ⟨D, hD⟩

/-- Lower bound of an error estimate `h S(t, u, h)` near the solution, if it is exactly of order `q` along it. -/
theorem tube_lower {S : ℝ × E × ℝ → G} {q : ℕ} {y : ℝ → E} {t0 b : ℝ} (hy : ∀ t ∈ Set.uIcc t0 b, ∀ n : ℕ, ContDiffAt ℝ n y t)
    (hS : ∀ t ∈ Set.uIcc t0 b, ∀ n : ℕ, ContDiffAt ℝ n S (t, y t, 0))
    (hO : ∀ t ∈ Set.uIcc t0 b, (fun h => h • S (t, y t, h)) =O[𝓝 0] fun h : ℝ => h ^ (q + 1))
    (hn : ∀ t ∈ Set.uIcc t0 b, ¬ (fun h => h • S (t, y t, h)) =o[𝓝 0] fun h : ℝ => h ^ (q + 1)) :
    ∃ ε c L : ℝ, 0 < ε ∧ 0 < c ∧ 0 ≤ L ∧ ∀ t ∈ Set.uIcc t0 b, ∀ (u : E) (h : ℝ), ‖u - y t‖ < ε → |h| < ε →
      c * |h| ^ (q + 1) - L * |h| * ‖u - y t‖ ≤ ‖h • S (t, u, h)‖ := by
  refine (isCompact_uIcc (a := t0) (b := b)).induction_on (p := fun S' => ∃ ε c L : ℝ, 0 < ε ∧ 0 < c ∧ 0 ≤ L ∧ ∀ t ∈ S', ∀ (u : E) (h : ℝ),
    ‖u - y t‖ < ε → |h| < ε → c * |h| ^ (q + 1) - L * |h| * ‖u - y t‖ ≤ ‖h • S (t, u, h)‖) ?_ ?_ ?_ ?_
  · exact ⟨1, 1, 0, one_pos, one_pos, le_rfl, fun x hx => absurd hx (Set.notMem_empty x)⟩
  · rintro s t hst ⟨ε, C, Λ, h1, h2, h3, h4⟩
    exact ⟨ε, C, Λ, h1, h2, h3, fun x hx => h4 x (hst hx)⟩
  · rintro s t ⟨ε, C, Λ, h1, h2, h3, h4⟩ ⟨ε', C', Λ', h1', h2', h3', h4'⟩
    refine ⟨min ε ε', min C C', Λ + Λ', lt_min h1 h1', lt_min h2 h2', by linarith, fun x hx u h hu hh => ?_⟩
    have p2 : 0 ≤ |h| ^ (q + 1) := by positivity
    have p4 : 0 ≤ |h| * ‖u - y x‖ := by positivity
    rcases hx with hx | hx
    · have := h4 x hx u h (hu.trans_le (min_le_left _ _)) (hh.trans_le (min_le_left _ _))
      have q1 := mul_le_mul_of_nonneg_right (min_le_left C C') p2
      have q2 := mul_nonneg h3' p4
      linarith
    · have := h4' x hx u h (hu.trans_le (min_le_right _ _)) (hh.trans_le (min_le_right _ _))
      have q1 := mul_le_mul_of_nonneg_right (min_le_right C C') p2
      have q2 := mul_nonneg h3 p4
      linarith
  · intro tb htb
    obtain ⟨c, hc0, hc⟩ := uniform_lower (s := Set.uIcc t0 b) htb (q + 1) (g := fun z : ℝ × ℝ => z.2 • S (z.1, y z.1, z.2)) (by
        have h1 : ContDiffAt ℝ (q + 1 : ℕ) (fun z : ℝ × ℝ => z.1) (tb, 0) := contDiffAt_fst
        have h2 : ContDiffAt ℝ (q + 1 : ℕ) (fun z : ℝ × ℝ => z.2) (tb, 0) := contDiffAt_snd
        have h4 : ContDiffAt ℝ (q + 1 : ℕ) (fun z : ℝ × ℝ => y z.1) (tb, 0) :=
          ContDiffAt.comp (tb, (0 : ℝ)) (g := y) (f := fun z : ℝ × ℝ => z.1) (hy tb htb (q + 1)) h1
        refine h2.smul ?_
        exact ContDiffAt.comp (tb, (0 : ℝ)) (g := S) (f := fun z : ℝ × ℝ => (z.1, y z.1, z.2)) (hS tb htb (q + 1)) (h1.prodMk (h4.prodMk h2)))
      (eventually_nhdsWithin_of_forall hO) (hn tb htb)
    obtain ⟨Λ, U, hU, hLip⟩ := ContDiffAt.exists_lipschitzOnWith (𝕂 := ℝ) (f := S) (x := (tb, y tb, 0)) (by exact_mod_cast hS tb htb 1)
    obtain ⟨r, hr, hball⟩ := Metric.mem_nhds_iff.mp hU
    obtain ⟨pa, hpa, pb, hpb, hab⟩ := eventually_prod_iff.mp hc
    obtain ⟨r', hr', hball'⟩ := Metric.eventually_nhds_iff.mp hpb
    have hcont : ∀ᶠ x in 𝓝[Set.uIcc t0 b] tb, ‖y x - y tb‖ < r / 2 ∧ |x - tb| < r := by
      apply nhdsWithin_le_nhds
      have c1 : Tendsto (fun x : ℝ => y x - y tb) (𝓝 tb) (𝓝 (y tb - y tb)) := (hy tb htb 0).continuousAt.tendsto.sub_const _
      have c2 : Tendsto (fun x : ℝ => x - tb) (𝓝 tb) (𝓝 (tb - tb)) := (continuous_id.tendsto _).sub_const _
      rw [sub_self] at c1 c2
      filter_upwards [c1.eventually (Metric.ball_mem_nhds (0 : E) (half_pos hr)),
        c2.eventually (Metric.ball_mem_nhds (0 : ℝ) hr)] with x h1 h2
      exact ⟨by simpa using h1, by simpa using h2⟩
    have hfin : ∀ᶠ t in 𝓝[Set.uIcc t0 b] tb, ∀ (u : E) (h : ℝ), ‖u - y t‖ < min (r / 2) r' → |h| < min (r / 2) r' →
        c * |h| ^ (q + 1) - Λ * |h| * ‖u - y t‖ ≤ ‖h • S (t, u, h)‖ := by
      filter_upwards [hpa, hcont] with x hx ⟨hx1, hx2⟩
      intro u h hu hh
      have hu' : ‖u - y x‖ < r / 2 := hu.trans_le (min_le_left _ _)
      have hh1 : |h| < r / 2 := hh.trans_le (min_le_left _ _)
      have hh2 : |h| < r' := hh.trans_le (min_le_right _ _)
      have hlow : c * |h| ^ (q + 1) ≤ ‖h • S (x, y x, h)‖ := hab hx (hball' (by rw [Real.dist_eq, sub_zero]; exact hh2))
      have hmem : ∀ v : E, ‖v - y tb‖ < r → (x, v, h) ∈ U := by
        intro v hv
        apply hball
        rw [Metric.mem_ball, Prod.dist_eq, Prod.dist_eq]
        simp only [max_lt_iff]
        refine ⟨by rw [Real.dist_eq]; exact hx2, by rw [dist_eq_norm]; exact hv, ?_⟩
        rw [Real.dist_eq, sub_zero]
        linarith
      have hm1 : (x, u, h) ∈ U := hmem u (by
        have : u - y tb = (u - y x) + (y x - y tb) := by abel
        rw [this]
        exact (norm_add_le _ _).trans_lt (by linarith))
      have hm2 : (x, y x, h) ∈ U := hmem (y x) (by linarith)
      have hlip := hLip.dist_le_mul _ hm1 _ hm2
      have hd : dist ((x, u, h) : ℝ × E × ℝ) (x, y x, h) = ‖u - y x‖ := by
        rw [Prod.dist_eq, Prod.dist_eq]
        simp [dist_eq_norm]
      rw [hd, dist_eq_norm] at hlip
      have e : ‖h • S (x, u, h) - h • S (x, y x, h)‖ ≤ |h| * (Λ * ‖u - y x‖) := by
        rw [← smul_sub, norm_smul, Real.norm_eq_abs]
        exact mul_le_mul_of_nonneg_left hlip (abs_nonneg _)
      have e2 : ‖h • S (x, y x, h)‖ ≤ ‖h • S (x, u, h)‖ + ‖h • S (x, u, h) - h • S (x, y x, h)‖ := by
        have := norm_sub_le (h • S (x, u, h)) (h • S (x, u, h) - h • S (x, y x, h))
        rwa [sub_sub_cancel] at this
      have e3 : |h| * (Λ * ‖u - y x‖) = Λ * |h| * ‖u - y x‖ := by ring
      linarith
    exact ⟨_, hfin, min (r / 2) r', c, Λ, lt_min (half_pos hr) hr', hc0, Λ.2, fun x hx => hx⟩

/-! ## The run to the end -/

/-- The part of C111 which does not depend on the method. -/
theorem finishes_generic {c : Cfg ℝ E W} {t0 b θ Rf h0 H : ℝ} {y0 : E} {e0 : ℕ} {Ks0 : ℕ → W} (hc : CfgOK c) (hg : c.safety < 1)
    (hst : StiffOK c.nfevStiff c.m) (hgr : Grows c θ Rf) (hb : c.tb = some b) (hdir : 0 ≤ c.dir * (b - t0)) (hmax : c.maxStep = some H)
    (hmin1 : c.hMinB ≤ min h0 (min H |b - t0|) / 2) (hmin2 : c.hMinA * (max |t0| |b| + max h0 (Rf * H)) ≤ min h0 (min H |b - t0|) / 2)
    (hacc : ∀ v, ReachWithin c (newSolver c t0 y0 h0 e0 Ks0) t0 b H v → ∀ h, 0 < h → h ≤ H → ∀ Ks,
      (c.m.trial v.st.t v.st.y v.st.f (h * c.dir) Ks).pre.gt 1 = false ∧
      ∃ x, (c.m.trial v.st.t v.st.y v.st.f (h * c.dir) Ks).err = .num x ∧ x ≤ θ) :
    (∃ n w, WhileRunning (step c) (fun v => v.status = .running) Out.raised (newSolver c t0 y0 h0 e0 Ks0) n none w) ∧
    ∀ n r w, WhileRunning (step c) (fun v => v.status = .running) Out.raised (newSolver c t0 y0 h0 e0 Ks0) n r w →
      r = none ∧ w.status = .finished ∧ w.st.t = b ∧ w.st.nfs = 0 ∧ ReachWithin c (newSolver c t0 y0 h0 e0 Ks0) t0 b H w ∧
      n * (min h0 (min H |b - t0|) / 2) ≤ |b - t0| := by
  set v0 := newSolver c t0 y0 h0 e0 Ks0 with hv0
  set η := min h0 (min H |b - t0|) with hη
  have hη0 : 0 < η := by linarith [hc.hMinB]
  have hrun : GoodRun c v0 t0 b η H θ Rf (max h0 (Rf * H)) := by
    refine ⟨hc, hb, rfl, hdir, hmax, hη0, (min_le_right _ _).trans (min_le_left _ _), hgr, le_max_right _ _, ?_, fun v hr _ => hacc v hr⟩
    intro v hr h hh
    refine max_le (le_trans ?_ hmin2) hmin1
    refine mul_le_mul_of_nonneg_left (add_le_add ?_ hh) hc.hMinA
    have hmem := hr.mem (rfl : v0.st.t = t0)
    rcases Set.mem_uIcc.mp hmem with ⟨a1, a2⟩ | ⟨a1, a2⟩
    · exact abs_le_max_abs_abs a1 a2
    · rw [max_comm]; exact abs_le_max_abs_abs a1 a2
  have hgood : GoodAt c b η θ Rf (max h0 (Rf * H)) v0 |b - t0| := by
    refine ⟨?_, ?_, ?_, le_max_left _ _, ?_, ?_, fun h => by cases h⟩
    · have : η ≤ |b - t0| := (min_le_right _ _).trans (min_le_right _ _)
      linarith
    · show b - t0 = c.dir * |b - t0|
      rcases hc.dir with e | e <;> rw [e] at hdir ⊢
      · rw [abs_of_nonneg (by linarith)]; ring
      · rw [abs_of_nonpos (by linarith)]; ring
    · exact (min_le_left _ _).trans (min_le_left _ _)
    · show (1 : ℝ) ≤ MAX_FACTOR0
      norm_num [MAX_FACTOR0]
    · show (MAX_FACTOR0 : ℝ) ≤ 10
      norm_num [MAX_FACTOR0]
  obtain ⟨p1, p2⟩ := C110_explicit hc hg hst hb hdir y0 h0 e0 Ks0
  constructor
  · obtain ⟨n, r, w, hw⟩ := p1
    obtain ⟨-, rfl, -⟩ := p2 n r w hw
    exact ⟨n, w, hw⟩
  · intro n r w hw
    obtain ⟨-, rfl, -⟩ := p2 n r w hw
    obtain ⟨q1, q2, q3, q4, q5⟩ := good_end hrun rfl hgood hw
    exact ⟨rfl, q1, q2, q3, q4, q5⟩

/-! ## The work -/

/-- The part of C113 which does not depend on the method: error norms of at most `M / tol D h^q1`. -/
theorem work_generic {q1 : ℕ} (hq0 : q1 ≠ 0) {M D θ m μ Rf : ℝ} (hM : 0 < M) (hD : 0 ≤ D) (hθ : 0 < θ) (hm : 0 < m) (hμ : μ < 1) :
    ∃ κ : ℝ, 0 < κ ∧ ∀ (c : Cfg ℝ E W) (t0 b h0 H tol σ : ℝ) (y0 : E) (e0 : ℕ) (Ks0 : ℕ → W), CfgOK c → StiffOK c.nfevStiff c.m → 0 < tol →
      Steers c θ m Rf → c.minFactor ≤ μ → c.safety ≤ μ → c.tb = some b → 0 ≤ c.dir * (b - t0) → c.maxStep = some H →
      (∀ v, ReachWithin c (newSolver c t0 y0 h0 e0 Ks0) t0 b H v → ∀ h, 0 < h → h ≤ H → ∀ Ks,
        (∃ x, (c.m.trial v.st.t v.st.y v.st.f (h * c.dir) Ks).pre = .num x ∧ x ≤ M / tol * (D * h ^ q1)) ∧
        ∃ x, (c.m.trial v.st.t v.st.y v.st.f (h * c.dir) Ks).err = .num x ∧ x ≤ M / tol * (D * h ^ q1)) →
      σ = min h0 (min H (min |b - t0| (κ * tol ^ (1 / (q1 : ℝ))))) →
      c.hMinB ≤ σ / 2 → c.hMinA * (max |t0| |b| + max h0 (Rf * H)) ≤ σ / 2 →
      (∃ n w, WhileRunning (step c) (fun v => v.status = .running) Out.raised (newSolver c t0 y0 h0 e0 Ks0) n none w) ∧
      ∀ n r w, WhileRunning (step c) (fun v => v.status = .running) Out.raised (newSolver c t0 y0 h0 e0 Ks0) n r w →
        r = none ∧ w.status = .finished ∧ w.st.t = b ∧ ReachWithin c (newSolver c t0 y0 h0 e0 Ks0) t0 b H w ∧
        n * σ ≤ 2 * |b - t0| ∧ w.st.nfs * Real.log (1 / μ) ≤ n * Real.log Rf + Real.log (2 * h0 / (m * σ)) := by
  set ϑ := min 1 θ with hϑ
  have hϑ0 : 0 < ϑ := lt_min one_pos hθ
  set K := (ϑ / (M * (D + 1))) ^ (1 / (q1 : ℝ)) with hK
  have hK0 : 0 < K := by positivity
  have hKq : K ^ q1 = ϑ / (M * (D + 1)) := by
    rw [hK, one_div, Real.rpow_inv_natCast_pow (by positivity) hq0]
  refine ⟨min (m * m) (1 - μ) * K, mul_pos (lt_min (by positivity) (by linarith)) hK0, ?_⟩
  intro c t0 b h0 H tol σ y0 e0 Ks0 hc hst htol hgr hμ1 hμ2 hb hdir hmax hatt hσ hmin1 hmin2
  have hH0 : 0 < H := hc.maxStep H hmax
  set τ := tol ^ (1 / (q1 : ℝ)) with hτ
  have hτ0 : 0 < τ := Real.rpow_pos_of_pos htol _
  have hτq : τ ^ q1 = tol := by rw [hτ, one_div, Real.rpow_inv_natCast_pow htol.le hq0]
  set v0 := newSolver c t0 y0 h0 e0 Ks0 with hv0
  have hσ0 : 0 < σ := by linarith [hc.hMinB]
  have s1 : σ ≤ h0 := hσ ▸ min_le_left _ _
  have s2 : σ ≤ H := hσ ▸ (min_le_right _ _).trans (min_le_left _ _)
  have s3 : σ ≤ |b - t0| := hσ ▸ (min_le_right _ _).trans ((min_le_right _ _).trans (min_le_left _ _))
  have s4 : σ ≤ min (m * m) (1 - μ) * K * τ := hσ ▸ (min_le_right _ _).trans ((min_le_right _ _).trans (min_le_right _ _))
  have hKτ : 0 < K * τ := mul_pos hK0 hτ0
  have hsmall : ∀ h, 0 < h → h ≤ K * τ → M / tol * (D * h ^ q1) ≤ ϑ := by
    intro h hpos hle
    have e1 : h ^ q1 ≤ ϑ / (M * (D + 1)) * tol := by
      calc h ^ q1 ≤ (K * τ) ^ q1 := pow_le_pow_left₀ hpos.le hle q1
        _ = _ := by rw [mul_pow, hKq, hτq]
    have e2 : D * h ^ q1 ≤ (D + 1) * (ϑ / (M * (D + 1)) * tol) :=
      mul_le_mul (by linarith) e1 (by positivity) (by linarith)
    calc M / tol * (D * h ^ q1) ≤ M / tol * ((D + 1) * (ϑ / (M * (D + 1)) * tol)) := mul_le_mul_of_nonneg_left e2 (by positivity)
      _ = ϑ := by field_simp
  have hwork : WorkRun c v0 t0 b (K * τ) H θ m μ Rf (max h0 (Rf * H)) σ := by
    refine ⟨hc, hb, rfl, hdir, hmax, hKτ, hσ0, s2, ?_, ?_, hμ1, hμ2, hμ, hgr, le_max_right _ _, ?_, ?_, ?_⟩
    · rw [mul_assoc] at s4
      exact s4.trans (mul_le_mul_of_nonneg_right (min_le_left _ _) hKτ.le)
    · rw [mul_assoc] at s4
      exact s4.trans (mul_le_mul_of_nonneg_right (min_le_right _ _) hKτ.le)
    · intro v hr h hh
      refine max_le (le_trans ?_ hmin2) hmin1
      refine mul_le_mul_of_nonneg_left (add_le_add ?_ hh) hc.hMinA
      have hmem := hr.mem (rfl : v0.st.t = t0)
      rcases Set.mem_uIcc.mp hmem with ⟨a1, a2⟩ | ⟨a1, a2⟩
      · exact abs_le_max_abs_abs a1 a2
      · rw [max_comm]; exact abs_le_max_abs_abs a1 a2
    · intro v hr _ h hpos hle Ks
      obtain ⟨⟨x, hx, -⟩, x', hx', -⟩ := hatt v hr h hpos hle Ks
      exact ⟨⟨x, hx⟩, x', hx'⟩
    · intro v hr _ h hpos hle hη Ks
      obtain ⟨⟨x, hx, hx1⟩, x', hx', hx1'⟩ := hatt v hr h hpos hle Ks
      have hb := hsmall h hpos hη
      refine ⟨?_, x', hx', (hx1'.trans hb).trans (min_le_right _ _)⟩
      rw [hx]
      simp only [ENorm.gt]
      rw [decide_eq_false_iff_not, not_lt]
      exact (hx1.trans hb).trans (min_le_left _ _)
  have hat : WorkAt c b σ m Rf (max h0 (Rf * H)) v0 |b - t0| := by
    refine ⟨by linarith, ?_, (min_le_left _ _).trans s1, le_max_left _ _, ?_, ?_, fun h => by cases h⟩
    · show b - t0 = c.dir * |b - t0|
      rcases hc.dir with e | e <;> rw [e] at hdir ⊢
      · rw [abs_of_nonneg (by linarith)]; ring
      · rw [abs_of_nonpos (by linarith)]; ring
    · show (1 : ℝ) ≤ MAX_FACTOR0
      norm_num [MAX_FACTOR0]
    · show (MAX_FACTOR0 : ℝ) ≤ 10
      norm_num [MAX_FACTOR0]
  obtain ⟨p1, p2⟩ := C110_explicit hc (hμ2.trans_lt hμ) hst hb hdir y0 h0 e0 Ks0
  constructor
  · obtain ⟨n, r, w, hw⟩ := p1
    obtain ⟨-, rfl, -⟩ := p2 n r w hw
    exact ⟨n, w, hw⟩
  · intro n r w hw
    obtain ⟨-, rfl, -⟩ := p2 n r w hw
    obtain ⟨w1, w2, w3, w4, k, w5, w6⟩ := work_end hwork rfl hat hw
    refine ⟨rfl, w1, w2, w3, by linarith, ?_⟩
    have hk : w.st.nfs = k := by rw [w5]; exact Nat.zero_add k
    have hμ0 : 0 < μ := hc.minF0.trans_le hμ1
    have hh0 : 0 < h0 := hσ0.trans_le s1
    have hR0 : 0 < Rf := by linarith [hgr.ten]
    have w6 : m * (σ / 2) ≤ h0 * (Rf ^ n * μ ^ k) := w6
    have h5 := Real.log_le_log (by positivity) w6
    have e8 : Real.log (h0 * (Rf ^ n * μ ^ k)) = Real.log h0 + (n * Real.log Rf + k * Real.log μ) := by
      rw [Real.log_mul hh0.ne' (by positivity), Real.log_mul (x := Rf ^ n) (by positivity) (by positivity),
        Real.log_pow, Real.log_pow]
    rw [e8] at h5
    have h6 : Real.log (2 * h0 / (m * σ)) = Real.log h0 - Real.log (m * (σ / 2)) := by
      rw [← Real.log_div hh0.ne' (by positivity)]
      congr 1
      field_simp
    have h7 : Real.log (1 / μ) = -Real.log μ := by rw [one_div, Real.log_inv]
    rw [hk, h6, h7]
    linarith

/-! ## The tolerances -/

set_option maxHeartbeats 1000000 in
/-- The part of C112 which does not depend on the method. -/
theorem tolerance_generic {p q1 : ℕ} (hq0 : q1 ≠ 0) (hp : q1 ≤ p) {C h1 ε κ L A : ℝ} (c1 : 0 ≤ C) (c2 : 0 < h1) (l1 : 0 < ε) (l2 : 0 < κ) (l3 : 0 ≤ L)
    (hA : 0 ≤ A) {y : ℝ → E} {t0 b : ℝ} :
    ∃ C' hstar : ℝ, 0 ≤ C' ∧ 0 < hstar ∧ ∀ (c : Cfg ℝ E W) (v0 v : Solver ℝ E W) (tol : ℝ), v0.st.t = t0 → 0 ≤ tol →
      (∀ H w, 0 ≤ H → H ≤ h1 → ReachWithin c v0 t0 b H w → ‖w.st.y - y w.st.t‖ ≤ C * H ^ p) →
      (∀ w w' o fuel, Reach c v0 w → step c fuel w = some (o, w') → w'.st.t = w.st.t ∨ ∃ h, w'.st.t = w.st.t + h ∧
        (w.st.t ∈ Set.uIcc t0 b → w'.st.t ∈ Set.uIcc t0 b → ‖w.st.y - y w.st.t‖ ≤ 1 → ‖w'.st.y - y w'.st.t‖ ≤ 1 → ‖w.st.y - y w.st.t‖ < ε → |h| < ε →
          κ * |h| ^ q1 - L * |h| * ‖w.st.y - y w.st.t‖ ≤ A * tol)) →
      ReachWithin c v0 t0 b hstar v →
      ‖v.st.y - y v.st.t‖ ≤ C' * tol ^ (p / (q1 : ℝ)) ∧
        ∀ (fuel : ℕ) (o : Out) (v' : Solver ℝ E W), step c fuel v = some (o, v') → |v'.st.t - v.st.t| ≤ hstar → v'.st.t ∈ Set.uIcc t0 b →
          |v'.st.t - v.st.t| ≤ C' * tol ^ (1 / (q1 : ℝ)) := by
  set D := (2 * A / κ) ^ (1 / (q1 : ℝ)) with hD
  have hD0 : 0 ≤ D := by positivity
  have hDq : D ^ q1 = 2 * A / κ := by
    rw [hD, one_div, Real.rpow_inv_natCast_pow (by positivity) hq0]
  set hs := min (min h1 1) (min (ε / (2 * (C + 1))) (κ / (2 * (L * C + 1)))) with hhs
  have hhs0 : 0 < hs := by positivity
  have hs' : min hs (1 / (2 * (C + 1))) ≤ hs := min_le_left _ _
  refine ⟨D + C * D ^ p, min hs (1 / (2 * (C + 1))), by positivity, by positivity, ?_⟩
  intro c v0 v tol hv0 htol c3 hsteps hr
  set H1 := min hs (1 / (2 * (C + 1))) with hH1
  have g1 : H1 ≤ h1 := hs'.trans ((min_le_left _ _).trans (min_le_left _ _))
  have g2 : H1 ≤ 1 := hs'.trans ((min_le_left _ _).trans (min_le_right _ _))
  have hH10 : 0 < H1 := by positivity
  have g3 : H1 * (2 * (C + 1)) ≤ ε := (le_div_iff₀ (by positivity)).mp (hs'.trans ((min_le_right _ _).trans (min_le_left _ _)))
  have g4 : H1 * (2 * (L * C + 1)) ≤ κ := (le_div_iff₀ (by positivity)).mp (hs'.trans ((min_le_right _ _).trans (min_le_right _ _)))
  have g5 : H1 * (2 * (C + 1)) ≤ 1 := (le_div_iff₀ (by positivity)).mp (min_le_right _ _)
  set τ := tol ^ (1 / (q1 : ℝ)) with hτ
  have hτ0 : 0 ≤ τ := by positivity
  have hτq : τ ^ q1 = tol := by rw [hτ, one_div, Real.rpow_inv_natCast_pow htol hq0]
  have hpow : ∀ H : ℝ, 0 ≤ H → H ≤ 1 → H ^ p ≤ H := by
    intro H h0 h1
    calc H ^ p ≤ H ^ 1 := pow_le_pow_of_le_one h0 h1 (by omega)
      _ = H := pow_one H
  set Hm := min (D * τ) H1 with hHm
  have hHm0 : 0 ≤ Hm := le_min (by positivity) hH10.le
  have hHm1 : Hm ≤ H1 := min_le_right _ _
  have hstep : ∀ (w w' : Solver ℝ E W) (o : Out) (fuel : ℕ), ReachWithin c v0 t0 b H1 w → ReachWithin c v0 t0 b Hm w →
      step c fuel w = some (o, w') → |w'.st.t - w.st.t| ≤ H1 → w'.st.t ∈ Set.uIcc t0 b → |w'.st.t - w.st.t| ≤ Hm := by
      intro w w' o fuel hw ih hs hle hmem
      rcases hsteps w w' o fuel hw.reach hs with e1 | ⟨h, et, hest⟩
      · rw [e1, sub_self, abs_zero]; exact hHm0
      · have eh : w'.st.t - w.st.t = h := by rw [et]; ring
        rw [eh] at hle ⊢
        by_contra hcon
        push Not at hcon
        have hpos : 0 < |h| := hHm0.trans_lt hcon
        have hmw : w.st.t ∈ Set.uIcc t0 b := hw.mem hv0
        have a1 := c3 Hm w hHm0 (hHm1.trans g1) ih
        have a2 := c3 H1 w' hH10.le g1 (.tail hw hs (by rw [eh]; exact hle) hmem)
        have b1 : C * Hm ^ p ≤ C * H1 := mul_le_mul_of_nonneg_left ((hpow Hm hHm0 (hHm1.trans g2)).trans hHm1) c1
        have b2 : C * H1 ^ p ≤ C * H1 := mul_le_mul_of_nonneg_left (hpow H1 hH10.le g2) c1
        have hCH : C * H1 < ε ∧ C * H1 ≤ 1 := ⟨by nlinarith, by nlinarith⟩
        have hhε : |h| < ε := by
          refine hle.trans_lt ?_
          have := mul_nonneg hH10.le c1
          nlinarith
        have hest := hest hmw hmem (by linarith [hCH.2]) (by linarith [hCH.2]) (a1.trans_lt (b1.trans_lt hCH.1)) hhε
        -- the disturbance of the estimate is small
        have d1 : L * |h| * ‖w.st.y - y w.st.t‖ ≤ κ / 2 * |h| ^ q1 := by
          have e1 : Hm ^ p ≤ |h| ^ q1 := by
            calc Hm ^ p ≤ |h| ^ p := pow_le_pow_left₀ hHm0 hcon.le p
              _ ≤ |h| ^ q1 := pow_le_pow_of_le_one hpos.le (hle.trans g2) hp
          have e2 : ‖w.st.y - y w.st.t‖ ≤ C * |h| ^ q1 := a1.trans (mul_le_mul_of_nonneg_left e1 c1)
          have e3 : L * |h| * C ≤ κ / 2 := by
            have : |h| * (L * C) ≤ H1 * (L * C) := mul_le_mul_of_nonneg_right hle (by positivity)
            nlinarith
          calc L * |h| * ‖w.st.y - y w.st.t‖ ≤ L * |h| * (C * |h| ^ q1) := mul_le_mul_of_nonneg_left e2 (by positivity)
            _ = L * |h| * C * |h| ^ q1 := by ring
            _ ≤ κ / 2 * |h| ^ q1 := mul_le_mul_of_nonneg_right e3 (by positivity)
        have d2 : κ / 2 * |h| ^ q1 ≤ A * tol := by linarith
        have d3 : |h| ^ q1 ≤ (D * τ) ^ q1 := by
          rw [mul_pow, hDq, hτq]
          rw [div_mul_eq_mul_div, le_div_iff₀ l2]
          linarith
        have d4 : |h| ≤ D * τ := le_of_pow_le_pow_left₀ hq0 (by positivity) d3
        exact absurd (le_min d4 hle) (not_le.mpr hcon)
  have key : ReachWithin c v0 t0 b Hm v := by
    induction hr with
    | refl => exact .refl
    | @tail w w' o fuel hw hs hle hmem ih => exact .tail ih hs (hstep w w' o fuel hw ih hs hle hmem) hmem
  have hCD : 0 ≤ C * D ^ p := by positivity
  refine ⟨?_, ?_⟩
  rotate_left
  · intro fuel o v' hs hle hmem
    refine (hstep v v' o fuel hr key hs hle hmem).trans ((min_le_left _ _).trans ?_)
    exact mul_le_mul_of_nonneg_right (by linarith) hτ0
  · have a1 := c3 Hm v hHm0 (hHm1.trans g1) key
    refine a1.trans ?_
    have e2 : tol ^ (p / (q1 : ℝ)) = τ ^ p := by
      rw [hτ, ← Real.rpow_natCast, ← Real.rpow_mul htol]
      congr 1
      ring
    rw [e2]
    calc C * Hm ^ p ≤ C * (D * τ) ^ p := mul_le_mul_of_nonneg_left (pow_le_pow_left₀ hHm0 (min_le_left _ _) p) c1
      _ = C * D ^ p * τ ^ p := by rw [mul_pow]; ring
      _ ≤ (D + C * D ^ p) * τ ^ p := mul_le_mul_of_nonneg_right (by linarith) (by positivity)

end
end Extensisq
