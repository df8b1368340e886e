import Verif.Lemmas.UniformOrder
import Mathlib.Analysis.Calculus.MeanValue
import Mathlib.Analysis.Calculus.ContDiff.RCLike
import Mathlib.Topology.MetricSpace.Lipschitz
import Mathlib.Analysis.SpecialFunctions.Exp
import Mathlib.Analysis.SpecialFunctions.ExpDeriv

/-!
# Convergence of explicit Runge-Kutta schemes

Uniform consistency and stability near an exact solution, and the accumulation of errors over a mesh.
-/

set_option linter.unusedSectionVars false

namespace Extensisq
open Finset Asymptotics Filter Topology

variable {E : Type*} [NormedAddCommGroup E] [NormedSpace ℝ E]

/-- Stage derivatives of an explicit scheme with matrix `A` and nodes `c`, as functions of `(t, u, h)`. -/
noncomputable def exStage (A : ℕ → ℕ → ℝ) (c : ℕ → ℝ) (f : ℝ → E → E) (i : ℕ) (z : ℝ × E × ℝ) : E :=
  f (z.1 + c i * z.2.2) (z.2.1 + z.2.2 • ∑ j : Fin i, A i j • exStage A c f j z)
termination_by i
decreasing_by exact j.2

theorem exStage_eq (A : ℕ → ℕ → ℝ) (c : ℕ → ℝ) (f : ℝ → E → E) (i : ℕ) (z : ℝ × E × ℝ) :
    exStage A c f i z = f (z.1 + c i * z.2.2) (z.2.1 + z.2.2 • ∑ j ∈ range i, A i j • exStage A c f j z) := by
  rw [exStage, Finset.sum_range fun j => A i j • exStage A c f j z]

theorem exStage_contDiffAt {A : ℕ → ℕ → ℝ} {c : ℕ → ℝ} {f : ℝ → E → E} {tb : ℝ} {yb : E} {n : ℕ}
    (hf : ContDiffAt ℝ n (fun z : ℝ × E => f z.1 z.2) (tb, yb)) (i : ℕ) :
    ContDiffAt ℝ n (exStage A c f i) (tb, yb, 0) := by
  induction i using Nat.strong_induction_on with
  | _ i ih =>
    have e : exStage A c f i = (fun z : ℝ × E => f z.1 z.2) ∘ fun z : ℝ × E × ℝ =>
        (z.1 + c i * z.2.2, z.2.1 + z.2.2 • ∑ j ∈ range i, A i j • exStage A c f j z) := by
      funext z
      rw [exStage_eq]
      rfl
    rw [e]
    apply ContDiffAt.comp
    · simpa using hf
    · have h1 : ContDiffAt ℝ n (fun z : ℝ × E × ℝ => z.1) (tb, yb, 0) := contDiffAt_fst
      have h2 : ContDiffAt ℝ n (fun z : ℝ × E × ℝ => z.2.1) (tb, yb, 0) := contDiffAt_snd.fst
      have h3 : ContDiffAt ℝ n (fun z : ℝ × E × ℝ => z.2.2) (tb, yb, 0) := contDiffAt_snd.snd
      refine (h1.add (contDiffAt_const.mul h3)).prodMk (h2.add (h3.smul ?_))
      apply ContDiffAt.sum
      intro j hj
      exact contDiffAt_const.smul (ih j (mem_range.mp hj))

/-- Solutions of `y' = f(t, y)` are as smooth as wanted. -/
theorem solution_contDiffAt {f : ℝ → E → E} {y : ℝ → E} {tb : ℝ}
    (hf : ∀ n : ℕ, ContDiffAt ℝ n (fun z : ℝ × E => f z.1 z.2) (tb, y tb))
    (hy : ∀ᶠ t in 𝓝 tb, HasDerivAt y (f t (y t)) t) (n : ℕ) : ContDiffAt ℝ n y tb := by
  induction n with
  | zero =>
    rw [Nat.cast_zero, contDiffAt_zero]
    refine ⟨{t | HasDerivAt y (f t (y t)) t}, hy, fun t ht => ?_⟩
    exact HasDerivAt.continuousAt ht |>.continuousWithinAt
  | succ n ih =>
    have h1 : ContDiffAt ℝ n (fun t => f t (y t)) tb :=
      ContDiffAt.comp tb (g := fun z : ℝ × E => f z.1 z.2) (f := fun t => (t, y t)) (hf n)
        (contDiffAt_id.prodMk ih)
    rw [Nat.cast_succ, contDiffAt_succ_iff_hasFDerivAt]
    refine ⟨fun t => ContinuousLinearMap.toSpanSingleton ℝ (f t (y t)), ⟨_, hy, fun t ht => ?_⟩, ?_⟩
    · exact HasDerivAt.hasFDerivAt ht
    · exact (ContinuousLinearMap.toSpanSingletonCLE (𝕜 := ℝ) (E := E)).contDiff.contDiffAt.comp tb h1

/-- The combination of stages. -/
noncomputable def stageComb (n : ℕ) (A : ℕ → ℕ → ℝ) (c : ℕ → ℝ) (w : ℕ → ℝ → ℝ) (f : ℝ → E → E) (θ : ℝ)
    (z : ℝ × E × ℝ) : E := ∑ i ∈ range n, w i θ • exStage A c f i z

/-- Consistency and stability near one point of the exact solution. -/
theorem local_bound {n : ℕ} {A : ℕ → ℕ → ℝ} {c : ℕ → ℝ} {w : ℕ → ℝ → ℝ} {f : ℝ → E → E} {y : ℝ → E} {q : ℕ}
    {S : Set (ℝ × ℝ)} {tb θb : ℝ} (hw : ∀ i, ContDiff ℝ (q + 1 : ℕ) (w i))
    (hf : ∀ n : ℕ, ContDiffAt ℝ n (fun z : ℝ × E => f z.1 z.2) (tb, y tb))
    (hy : ∀ᶠ t in 𝓝 tb, HasDerivAt y (f t (y t)) t)
    (hO : ∀ x ∈ S, (fun h => y x.1 + h • stageComb n A c w f x.2 (x.1, y x.1, h) - y (x.1 + x.2 * h))
      =O[𝓝 0] fun h : ℝ => h ^ (q + 1)) :
    ∃ ε C Λ : ℝ, 0 < ε ∧ 0 ≤ C ∧ 0 ≤ Λ ∧ ∀ᶠ x in 𝓝[S] (tb, θb), ∀ (u : E) (h : ℝ), ‖u - y x.1‖ < ε → |h| < ε →
      ‖u + h • stageComb n A c w f x.2 (x.1, u, h) - y (x.1 + x.2 * h)‖ ≤
        (1 + Λ * |h|) * ‖u - y x.1‖ + C * |h| ^ (q + 1) := by
  have hyc := solution_contDiffAt hf hy
  -- consistency
  obtain ⟨C, hC0, hC⟩ := uniform_order (s := S) (tb := (tb, θb)) (q + 1)
    (g := fun z : (ℝ × ℝ) × ℝ => y z.1.1 + z.2 • stageComb n A c w f z.1.2 (z.1.1, y z.1.1, z.2) - y (z.1.1 + z.1.2 * z.2))
    (by
      have h1 : ContDiffAt ℝ (q + 1 : ℕ) (fun z : (ℝ × ℝ) × ℝ => z.1.1) ((tb, θb), 0) := contDiffAt_fst.fst
      have h2 : ContDiffAt ℝ (q + 1 : ℕ) (fun z : (ℝ × ℝ) × ℝ => z.1.2) ((tb, θb), 0) := contDiffAt_fst.snd
      have h3 : ContDiffAt ℝ (q + 1 : ℕ) (fun z : (ℝ × ℝ) × ℝ => z.2) ((tb, θb), 0) := contDiffAt_snd
      have h4 : ContDiffAt ℝ (q + 1 : ℕ) (fun z : (ℝ × ℝ) × ℝ => y z.1.1) ((tb, θb), 0) :=
        ContDiffAt.comp ((tb, θb), (0 : ℝ)) (g := y) (f := fun z : (ℝ × ℝ) × ℝ => z.1.1) (hyc (q + 1)) h1
      refine (h4.add (h3.smul ?_)).sub ?_
      · unfold stageComb
        apply ContDiffAt.sum
        intro i _
        refine ContDiffAt.smul ?_ ?_
        · exact ContDiffAt.comp ((tb, θb), (0 : ℝ)) (g := w i) (f := fun z : (ℝ × ℝ) × ℝ => z.1.2)
            (hw i).contDiffAt h2
        · exact ContDiffAt.comp ((tb, θb), (0 : ℝ)) (g := exStage A c f i)
            (f := fun z : (ℝ × ℝ) × ℝ => (z.1.1, y z.1.1, z.2)) (exStage_contDiffAt (hf (q + 1)) i)
            (h1.prodMk (h4.prodMk h3))
      · refine ContDiffAt.comp ((tb, θb), (0 : ℝ)) (g := y) (f := fun z : (ℝ × ℝ) × ℝ => z.1.1 + z.1.2 * z.2) ?_
          (h1.add (h2.mul h3))
        simpa using hyc (q + 1))
    (eventually_nhdsWithin_of_forall hO)
  -- stability
  obtain ⟨Λ, U, hU, hLip⟩ := ContDiffAt.exists_lipschitzOnWith (𝕂 := ℝ)
    (f := fun z : ℝ × ℝ × E × ℝ => stageComb n A c w f z.1 z.2) (x := (θb, tb, y tb, 0)) (by
      unfold stageComb
      apply ContDiffAt.sum
      intro i _
      refine ContDiffAt.smul ?_ ?_
      · exact ContDiffAt.comp (θb, tb, y tb, (0 : ℝ)) (g := w i) (f := fun z : ℝ × ℝ × E × ℝ => z.1)
          ((hw i).contDiffAt.of_le (by exact_mod_cast Nat.succ_le_succ (Nat.zero_le q))) contDiffAt_fst
      · exact ContDiffAt.comp (θb, tb, y tb, (0 : ℝ)) (g := exStage A c f i) (f := fun z : ℝ × ℝ × E × ℝ => z.2)
          (by exact_mod_cast exStage_contDiffAt (hf 1) i) contDiffAt_snd)
  -- a common neighbourhood
  obtain ⟨r, hr, hball⟩ := Metric.mem_nhds_iff.mp hU
  obtain ⟨pa, hpa, pb, hpb, hab⟩ := eventually_prod_iff.mp hC
  obtain ⟨r', hr', hball'⟩ := Metric.eventually_nhds_iff.mp hpb
  have hcont : ∀ᶠ x in 𝓝[S] (tb, θb), ‖y x.1 - y tb‖ < r / 2 ∧ |x.1 - tb| < r ∧ |x.2 - θb| < r := by
    apply nhdsWithin_le_nhds
    have c1 : Tendsto (fun x : ℝ × ℝ => y x.1 - y tb) (𝓝 (tb, θb)) (𝓝 (y tb - y tb)) := by
      have : ContinuousAt (fun x : ℝ × ℝ => y x.1) (tb, θb) :=
        ContinuousAt.comp (g := y) (f := Prod.fst) (hyc 0).continuousAt continuousAt_fst
      exact (this.tendsto).sub_const _
    rw [sub_self] at c1
    have c2 : Tendsto (fun x : ℝ × ℝ => x.1 - tb) (𝓝 (tb, θb)) (𝓝 (tb - tb)) :=
      (continuous_fst.tendsto _).sub_const _
    have c3 : Tendsto (fun x : ℝ × ℝ => x.2 - θb) (𝓝 (tb, θb)) (𝓝 (θb - θb)) :=
      (continuous_snd.tendsto _).sub_const _
    rw [sub_self] at c2 c3
    filter_upwards [c1.eventually (Metric.ball_mem_nhds (0 : E) (half_pos hr)),
      c2.eventually (Metric.ball_mem_nhds (0 : ℝ) hr), c3.eventually (Metric.ball_mem_nhds (0 : ℝ) hr)] with x h1 h2 h3
    exact ⟨by simpa using h1, by simpa using h2, by simpa using h3⟩
  refine ⟨min (r / 2) r', C, Λ, lt_min (half_pos hr) hr', hC0, Λ.2, ?_⟩
  filter_upwards [hpa, hcont] with x hx ⟨hx1, hx2, hx3⟩
  intro u h hu hh
  have hu' : ‖u - y x.1‖ < r / 2 := hu.trans_le (min_le_left _ _)
  have hh1 : |h| < r / 2 := hh.trans_le (min_le_left _ _)
  have hh2 : |h| < r' := hh.trans_le (min_le_right _ _)
  have hcons : ‖y x.1 + h • stageComb n A c w f x.2 (x.1, y x.1, h) - y (x.1 + x.2 * h)‖ ≤ C * |h| ^ (q + 1) :=
    hab hx (hball' (by rw [Real.dist_eq, sub_zero]; exact hh2))
  have hmem : ∀ v : E, ‖v - y tb‖ < r → (x.2, x.1, v, h) ∈ U := by
    intro v hv
    apply hball
    rw [Metric.mem_ball, Prod.dist_eq, Prod.dist_eq, Prod.dist_eq]
    simp only [max_lt_iff]
    refine ⟨by rw [Real.dist_eq]; exact hx3, by rw [Real.dist_eq]; exact hx2, by rw [dist_eq_norm]; exact hv, ?_⟩
    rw [Real.dist_eq, sub_zero]
    linarith
  have hm1 : (x.2, x.1, u, h) ∈ U := hmem u (by
    have : u - y tb = (u - y x.1) + (y x.1 - y tb) := by abel
    rw [this]
    exact (norm_add_le _ _).trans_lt (by linarith))
  have hm2 : (x.2, x.1, y x.1, h) ∈ U := hmem (y x.1) (by linarith)
  have hlip := hLip.dist_le_mul _ hm1 _ hm2
  have hd : dist ((x.2, x.1, u, h) : ℝ × ℝ × E × ℝ) (x.2, x.1, y x.1, h) = ‖u - y x.1‖ := by
    rw [Prod.dist_eq, Prod.dist_eq, Prod.dist_eq]
    simp [dist_eq_norm]
  rw [hd, dist_eq_norm] at hlip
  have e : u + h • stageComb n A c w f x.2 (x.1, u, h) - y (x.1 + x.2 * h) =
      (u - y x.1) + h • (stageComb n A c w f x.2 (x.1, u, h) - stageComb n A c w f x.2 (x.1, y x.1, h)) +
      (y x.1 + h • stageComb n A c w f x.2 (x.1, y x.1, h) - y (x.1 + x.2 * h)) := by
    rw [smul_sub]; abel
  rw [e]
  refine (norm_add_le _ _).trans (add_le_add ((norm_add_le _ _).trans ?_) hcons)
  rw [norm_smul, Real.norm_eq_abs]
  have : |h| * ‖stageComb n A c w f x.2 (x.1, u, h) - stageComb n A c w f x.2 (x.1, y x.1, h)‖ ≤ |h| * (Λ * ‖u - y x.1‖) := by
    gcongr
  calc _ ≤ ‖u - y x.1‖ + |h| * (Λ * ‖u - y x.1‖) := by linarith
    _ = _ := by ring

/-- Consistency and stability along the exact solution on a compact set of times (and of points of the step). -/
theorem compact_bound {n : ℕ} {A : ℕ → ℕ → ℝ} {c : ℕ → ℝ} {w : ℕ → ℝ → ℝ} {f : ℝ → E → E} {y : ℝ → E} {q : ℕ}
    {S : Set (ℝ × ℝ)} (hS : IsCompact S) (hw : ∀ i, ContDiff ℝ (q + 1 : ℕ) (w i))
    (hf : ∀ x ∈ S, ∀ n : ℕ, ContDiffAt ℝ n (fun z : ℝ × E => f z.1 z.2) (x.1, y x.1))
    (hy : ∀ x ∈ S, ∀ᶠ t in 𝓝 x.1, HasDerivAt y (f t (y t)) t)
    (hO : ∀ x ∈ S, (fun h => y x.1 + h • stageComb n A c w f x.2 (x.1, y x.1, h) - y (x.1 + x.2 * h))
      =O[𝓝 0] fun h : ℝ => h ^ (q + 1)) :
    ∃ ε C Λ : ℝ, 0 < ε ∧ 0 ≤ C ∧ 0 ≤ Λ ∧ ∀ x ∈ S, ∀ (u : E) (h : ℝ), ‖u - y x.1‖ < ε → |h| < ε →
      ‖u + h • stageComb n A c w f x.2 (x.1, u, h) - y (x.1 + x.2 * h)‖ ≤
        (1 + Λ * |h|) * ‖u - y x.1‖ + C * |h| ^ (q + 1) := by
  refine hS.induction_on (p := fun S' => ∃ ε C Λ : ℝ, 0 < ε ∧ 0 ≤ C ∧ 0 ≤ Λ ∧ ∀ x ∈ S', ∀ (u : E) (h : ℝ),
    ‖u - y x.1‖ < ε → |h| < ε → ‖u + h • stageComb n A c w f x.2 (x.1, u, h) - y (x.1 + x.2 * h)‖ ≤
        (1 + Λ * |h|) * ‖u - y x.1‖ + C * |h| ^ (q + 1)) ?_ ?_ ?_ ?_
  · exact ⟨1, 0, 0, one_pos, le_rfl, le_rfl, fun x hx => absurd hx (Set.notMem_empty x)⟩
  · rintro s t hst ⟨ε, C, Λ, h1, h2, h3, h4⟩
    exact ⟨ε, C, Λ, h1, h2, h3, fun x hx => h4 x (hst hx)⟩
  · rintro s t ⟨ε, C, Λ, h1, h2, h3, h4⟩ ⟨ε', C', Λ', h1', h2', h3', h4'⟩
    refine ⟨min ε ε', C + C', Λ + Λ', lt_min h1 h1', by linarith, by linarith, fun x hx u h hu hh => ?_⟩
    have p1 : 0 ≤ |h| := abs_nonneg h
    have p2 : 0 ≤ |h| ^ (q + 1) := by positivity
    have p3 : 0 ≤ ‖u - y x.1‖ := norm_nonneg _
    have p4 : 0 ≤ |h| * ‖u - y x.1‖ := mul_nonneg p1 p3
    rcases hx with hx | hx
    · refine (h4 x hx u h (hu.trans_le (min_le_left _ _)) (hh.trans_le (min_le_left _ _))).trans ?_
      nlinarith
    · refine (h4' x hx u h (hu.trans_le (min_le_right _ _)) (hh.trans_le (min_le_right _ _))).trans ?_
      nlinarith
  · intro x hx
    obtain ⟨ε, C, Λ, h1, h2, h3, h4⟩ := local_bound (θb := x.2) hw (hf x hx) (hy x hx) hO
    exact ⟨_, h4, ε, C, Λ, h1, h2, h3, fun x hx => hx⟩

/-- One step of the accumulation of errors. -/
theorem accumulate {C Λ H a e e' h : ℝ} {p : ℕ} (hC : 0 ≤ C) (hΛ : 0 ≤ Λ) (ha : 0 ≤ a) (hh0 : 0 ≤ h) (hH : h ≤ H)
    (he : e ≤ C * H ^ p * (a * Real.exp (Λ * a))) (hstep : e' ≤ (1 + Λ * h) * e + C * h ^ (p + 1)) :
    e' ≤ C * H ^ p * ((a + h) * Real.exp (Λ * (a + h))) := by
  have hH0 : 0 ≤ H := hh0.trans hH
  have h1 : 1 + Λ * h ≤ Real.exp (Λ * h) := by
    have := Real.add_one_le_exp (Λ * h)
    linarith
  have h2 : h ^ p ≤ H ^ p := pow_le_pow_left₀ hh0 hH p
  have h3 : Real.exp (Λ * (a + h)) = Real.exp (Λ * a) * Real.exp (Λ * h) := by
    rw [mul_add, Real.exp_add]
  have h4 : 1 ≤ Real.exp (Λ * (a + h)) := Real.one_le_exp (by positivity)
  have hB : 0 ≤ C * H ^ p * (a * Real.exp (Λ * a)) := by positivity
  have h5 : (1 + Λ * h) * e ≤ Real.exp (Λ * h) * (C * H ^ p * (a * Real.exp (Λ * a))) := by
    calc (1 + Λ * h) * e ≤ (1 + Λ * h) * (C * H ^ p * (a * Real.exp (Λ * a))) := by
          apply mul_le_mul_of_nonneg_left he; positivity
      _ ≤ _ := mul_le_mul_of_nonneg_right h1 hB
  have h6 : C * h ^ (p + 1) ≤ C * H ^ p * (h * Real.exp (Λ * (a + h))) := by
    have : h ^ (p + 1) ≤ H ^ p * (h * Real.exp (Λ * (a + h))) := by
      rw [pow_succ]
      have : h ≤ h * Real.exp (Λ * (a + h)) := le_mul_of_one_le_right hh0 h4
      calc h ^ p * h ≤ H ^ p * h := mul_le_mul_of_nonneg_right h2 hh0
        _ ≤ _ := mul_le_mul_of_nonneg_left this (by positivity)
    calc C * h ^ (p + 1) ≤ C * (H ^ p * (h * Real.exp (Λ * (a + h)))) := mul_le_mul_of_nonneg_left this hC
      _ = _ := by ring
  calc e' ≤ (1 + Λ * h) * e + C * h ^ (p + 1) := hstep
    _ ≤ Real.exp (Λ * h) * (C * H ^ p * (a * Real.exp (Λ * a))) + C * H ^ p * (h * Real.exp (Λ * (a + h))) :=
        add_le_add h5 h6
    _ = _ := by rw [h3]; ring

end Extensisq
