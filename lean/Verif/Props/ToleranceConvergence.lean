import Verif.Lemmas.LowerOrder
import Verif.Props.Convergence
import Verif.Props.NormHStart
import Verif.Props.Robustness

/-!
# C112: the tolerances control the error

If the error estimate of the method has its generic order along the exact solution, then every accepted step is at most a constant times
`tol^(1/(order_secondary+1))`, and the error of the computed solution at most a constant times `tol^(order/(order_secondary+1))`.
-/

set_option linter.unusedSectionVars false

namespace Extensisq
open scoped ContDiff
open Finset Asymptotics Filter Topology

section
variable {K V : Type*} [Field K] [LinearOrder K] [IsStrictOrderedRing K] [AddCommGroup V] [Module K V]

/-- A returning `step()` leaves the point unchanged or makes a Runge-Kutta step whose error norm was below one. -/
theorem rk_step_err {c : Cfg K V V} {T : Tableau K} {rhs : K → V → V}
    {errNorm : V → V → V → ENorm K} {P : PreTest K V} (hm : c.m = rkMethod T rhs errNorm P) (hC : T.C 0 = 0)
    (hs : 0 < T.s) {t0 : K} {y0 : V} {h0 : K} {e0 : ℕ} {Ks0 : ℕ → V} {v v' : Solver K V V}
    (hr : Reach c (newSolver c t0 y0 h0 e0 Ks0) v) {fuel : ℕ} {o : Out} (h : step c fuel v = some (o, v')) :
    (v'.st.t = v.st.t ∧ v'.st.y = v.st.y) ∨
    ∃ (h : K) (k : ℕ → V) (x : K), IsRKStep T rhs v.st.t v.st.y h k v'.st.y ∧ v'.st.t = v.st.t + h ∧
      errNorm v.st.y v'.st.y (errorEstimate T h k) = .num x ∧ x < 1 := by
  have hf := C10_stored_derivative_current hm hr
  rcases step_impl_or h with ⟨h1, _⟩ | ⟨_, hi⟩
  · exact Or.inl (by rw [h1]; exact ⟨rfl, rfl⟩)
  · rcases stepImpl_effect hi with ⟨k, Ks, e, j, ho, hs⟩ |
      ⟨k, ch, x, f0, std, s1, hmin, hpre, herr, hx, haf, hs1, ho⟩
    · exact Or.inl (by rw [hs]; exact ⟨rfl, rfl⟩)
    · right
      obtain ⟨hrk, her, _⟩ := rkTrial_isRKStep T rhs errNorm v.st.t v.st.y (ch.hs k * c.dir)
        (ch.Ks k) hC hs
      have e1 : (c.m.trial v.st.t v.st.y v.st.f (ch.hs k * c.dir) (ch.Ks k)).yNew =
          (rkTrial T rhs errNorm v.st.t v.st.y (rhs v.st.t v.st.y) (ch.hs k * c.dir) (ch.Ks k)).yNew := by
        rw [← hf]; generalize ch.hs k = hh; generalize ch.Ks k = KK; rw [hm]; rfl
      have e3 : (c.m.trial v.st.t v.st.y v.st.f (ch.hs k * c.dir) (ch.Ks k)).err =
          (rkTrial T rhs errNorm v.st.t v.st.y (rhs v.st.t v.st.y) (ch.hs k * c.dir) (ch.Ks k)).err := by
        rw [← hf]; generalize ch.hs k = hh; generalize ch.Ks k = KK; rw [hm]; rfl
      have ey : s1.y = (rkTrial T rhs errNorm v.st.t v.st.y (rhs v.st.t v.st.y) (ch.hs k * c.dir) (ch.Ks k)).yNew := by
        rw [← e1, hs1]; rfl
      have et : s1.t = v.st.t + ch.hs k * c.dir := by rw [hs1]; rfl
      have e2 : v'.st.y = s1.y ∧ v'.st.t = s1.t := by
        rcases ho with ⟨_, b, hd⟩ | ⟨_, _, hd⟩
        · rw [diagnose_same hd]; exact ⟨rfl, rfl⟩
        · rw [hd]; exact ⟨rfl, rfl⟩
      rw [← ey, ← e2.1] at hrk her
      exact ⟨_, _, x, hrk, e2.2.trans et, her.symm.trans (e3.symm.trans herr), hx⟩

end

section
variable {E : Type*} [NormedAddCommGroup E] [NormedSpace ℝ E]

/-- The error estimate of the method has its generic order `q + 1` along the solution: nowhere on the interval is it of smaller order. -/
def EstimateGeneric (T : Tableau ℝ) (q : ℕ) (f : ℝ → E → E) (y : ℝ → E) (t0 b : ℝ) : Prop :=
  ∀ t ∈ Set.uIcc t0 b, ∀ (k : ℝ → ℕ → E) (yNew : ℝ → E), (∀ h, IsRKStep T f t (y t) h (k h) (yNew h)) →
    ¬ (fun h => errorEstimate T h (k h)) =o[𝓝 0] fun h : ℝ => h ^ (q + 1)

/-- An error norm below one means an error of at most `A tol`, for solutions of size at most `B`. -/
def NormControls (errNorm : E → E → E → ENorm ℝ) (B A : ℝ) (tol : ℝ) : Prop :=
  ∀ (y y' e : E) (x : ℝ), ‖y‖ ≤ B → ‖y'‖ ≤ B → errNorm y y' e = .num x → x < 1 → ‖e‖ ≤ A * tol

/-- The error estimate as a function of time, point and step. -/
noncomputable def estAt (T : Tableau ℝ) (f : ℝ → E → E) (z : ℝ × E × ℝ) : E :=
  errorEstimate T z.2.2 (fun i => exStage (compA T) (compC T) f i z)

/-- Lower bound of the estimate near one point of the solution. -/
theorem est_local {T : Tableau ℝ} {q : ℕ} {f : ℝ → E → E} {y : ℝ → E} {S : Set ℝ} {tb : ℝ} (htb : tb ∈ S)
    (hf : ∀ n : ℕ, ContDiffAt ℝ n (fun z : ℝ × E => f z.1 z.2) (tb, y tb))
    (hy : ∀ᶠ t in 𝓝 tb, HasDerivAt y (f t (y t)) t)
    (hO : ∀ t ∈ S, (fun h => estAt T f (t, y t, h)) =O[𝓝 0] fun h : ℝ => h ^ (q + 1))
    (hn : ¬ (fun h => estAt T f (tb, y tb, h)) =o[𝓝 0] fun h : ℝ => h ^ (q + 1)) :
    ∃ ε c L : ℝ, 0 < ε ∧ 0 < c ∧ 0 ≤ L ∧ ∀ᶠ t in 𝓝[S] tb, ∀ (u : E) (h : ℝ), ‖u - y t‖ < ε → |h| < ε →
      c * |h| ^ (q + 1) - L * |h| * ‖u - y t‖ ≤ ‖estAt T f (t, u, h)‖ := by
  have hyc := solution_contDiffAt hf hy
  have hsum : ∀ n : ℕ, ContDiffAt ℝ n (fun z : ℝ × E × ℝ => ∑ i ∈ range (T.s + 1), T.E i • exStage (compA T) (compC T) f i z) (tb, y tb, 0) := by
    intro n
    apply ContDiffAt.sum
    intro i _
    exact contDiffAt_const.smul (exStage_contDiffAt (hf n) i)
  obtain ⟨c, hc0, hc⟩ := uniform_lower (s := S) htb (q + 1) (g := fun z : ℝ × ℝ => estAt T f (z.1, y z.1, z.2)) (by
      have h1 : ContDiffAt ℝ (q + 1 : ℕ) (fun z : ℝ × ℝ => z.1) (tb, 0) := contDiffAt_fst
      have h2 : ContDiffAt ℝ (q + 1 : ℕ) (fun z : ℝ × ℝ => z.2) (tb, 0) := contDiffAt_snd
      have h4 : ContDiffAt ℝ (q + 1 : ℕ) (fun z : ℝ × ℝ => y z.1) (tb, 0) :=
        ContDiffAt.comp (tb, (0 : ℝ)) (g := y) (f := fun z : ℝ × ℝ => z.1) (hyc (q + 1)) h1
      refine h2.smul ?_
      exact ContDiffAt.comp (tb, (0 : ℝ)) (g := fun z : ℝ × E × ℝ => ∑ i ∈ range (T.s + 1), T.E i • exStage (compA T) (compC T) f i z)
        (f := fun z : ℝ × ℝ => (z.1, y z.1, z.2)) (hsum (q + 1)) (h1.prodMk (h4.prodMk h2)))
    (eventually_nhdsWithin_of_forall hO) hn
  obtain ⟨Λ, U, hU, hLip⟩ := ContDiffAt.exists_lipschitzOnWith (𝕂 := ℝ)
    (f := fun z : ℝ × E × ℝ => ∑ i ∈ range (T.s + 1), T.E i • exStage (compA T) (compC T) f i z) (x := (tb, y tb, 0))
    (by exact_mod_cast hsum 1)
  obtain ⟨r, hr, hball⟩ := Metric.mem_nhds_iff.mp hU
  obtain ⟨pa, hpa, pb, hpb, hab⟩ := eventually_prod_iff.mp hc
  obtain ⟨r', hr', hball'⟩ := Metric.eventually_nhds_iff.mp hpb
  have hcont : ∀ᶠ x in 𝓝[S] tb, ‖y x - y tb‖ < r / 2 ∧ |x - tb| < r := by
    apply nhdsWithin_le_nhds
    have c1 : Tendsto (fun x : ℝ => y x - y tb) (𝓝 tb) (𝓝 (y tb - y tb)) := (hyc 0).continuousAt.tendsto.sub_const _
    have c2 : Tendsto (fun x : ℝ => x - tb) (𝓝 tb) (𝓝 (tb - tb)) := (continuous_id.tendsto _).sub_const _
    rw [sub_self] at c1 c2
    filter_upwards [c1.eventually (Metric.ball_mem_nhds (0 : E) (half_pos hr)),
      c2.eventually (Metric.ball_mem_nhds (0 : ℝ) hr)] with x h1 h2
    exact ⟨by simpa using h1, by simpa using h2⟩
  refine ⟨min (r / 2) r', c, Λ, lt_min (half_pos hr) hr', hc0, Λ.2, ?_⟩
  filter_upwards [hpa, hcont] with x hx ⟨hx1, hx2⟩
  intro u h hu hh
  have hu' : ‖u - y x‖ < r / 2 := hu.trans_le (min_le_left _ _)
  have hh1 : |h| < r / 2 := hh.trans_le (min_le_left _ _)
  have hh2 : |h| < r' := hh.trans_le (min_le_right _ _)
  have hlow : c * |h| ^ (q + 1) ≤ ‖estAt T f (x, y x, h)‖ := hab hx (hball' (by rw [Real.dist_eq, sub_zero]; exact hh2))
  have hmem : ∀ v : E, ‖v - y tb‖ < r → (x, v, h) ∈ U := by
    intro v hv
    apply hball
    rw [Metric.mem_ball, Prod.dist_eq, Prod.dist_eq]
    simp only [max_lt_iff]
    refine ⟨by rw [Real.dist_eq]; exact hx2, by rw [dist_eq_norm]; exact hv, ?_⟩
    rw [Real.dist_eq, sub_zero]
    linarith
  have hm1 : (x, u, h) ∈ U := hmem u (by
    have : u - y tb = (u - y x) + (y x - y tb) := by abel
    rw [this]
    exact (norm_add_le _ _).trans_lt (by linarith))
  have hm2 : (x, y x, h) ∈ U := hmem (y x) (by linarith)
  have hlip := hLip.dist_le_mul _ hm1 _ hm2
  have hd : dist ((x, u, h) : ℝ × E × ℝ) (x, y x, h) = ‖u - y x‖ := by
    rw [Prod.dist_eq, Prod.dist_eq]
    simp [dist_eq_norm]
  rw [hd, dist_eq_norm] at hlip
  have e : ‖estAt T f (x, u, h) - estAt T f (x, y x, h)‖ ≤ |h| * (Λ * ‖u - y x‖) := by
    unfold estAt errorEstimate
    dsimp only
    rw [← smul_sub, norm_smul, Real.norm_eq_abs]
    exact mul_le_mul_of_nonneg_left hlip (abs_nonneg _)
  have e2 : ‖estAt T f (x, y x, h)‖ ≤ ‖estAt T f (x, u, h)‖ + ‖estAt T f (x, u, h) - estAt T f (x, y x, h)‖ := by
    have := norm_sub_le (estAt T f (x, u, h)) (estAt T f (x, u, h) - estAt T f (x, y x, h))
    rwa [sub_sub_cancel] at this
  have e3 : |h| * (Λ * ‖u - y x‖) = Λ * |h| * ‖u - y x‖ := by ring
  linarith

/-- Lower bound of the estimate along the solution on the whole interval. -/
theorem est_lower (R : RKTable) (hR : R ∈ rationalRK) {f : ℝ → E → E} {y : ℝ → E} {t0 b : ℝ} (hy : SolvesOn f y t0 b)
    (hg : EstimateGeneric (R.tab ℝ) R.orderSec f y t0 b) :
    ∃ ε c L : ℝ, 0 < ε ∧ 0 < c ∧ 0 ≤ L ∧ ∀ t ∈ Set.uIcc t0 b, ∀ (u u' : E) (h : ℝ) (k : ℕ → E),
      IsRKStep (R.tab ℝ) f t u h k u' → ‖u - y t‖ < ε → |h| < ε →
      c * |h| ^ (R.orderSec + 1) - L * |h| * ‖u - y t‖ ≤ ‖errorEstimate (R.tab ℝ) h k‖ := by
  have hO : ∀ t ∈ Set.uIcc t0 b, (fun h => estAt (R.tab ℝ) f (t, y t, h)) =O[𝓝 0] fun h : ℝ => h ^ (R.orderSec + 1) := fun t ht =>
    (C59_local_error_order R hR (hy.smooth t ht) (fun h => exStage_isRKStep (R.tab ℝ) f t (y t) h)).2
  obtain ⟨ε, c, L, h1, h2, h3, h4⟩ : ∃ ε c L : ℝ, 0 < ε ∧ 0 < c ∧ 0 ≤ L ∧ ∀ t ∈ Set.uIcc t0 b, ∀ (u : E) (h : ℝ), ‖u - y t‖ < ε → |h| < ε →
      c * |h| ^ (R.orderSec + 1) - L * |h| * ‖u - y t‖ ≤ ‖estAt (R.tab ℝ) f (t, u, h)‖ := by
    refine (isCompact_uIcc (a := t0) (b := b)).induction_on (p := fun S' => ∃ ε c L : ℝ, 0 < ε ∧ 0 < c ∧ 0 ≤ L ∧ ∀ t ∈ S', ∀ (u : E) (h : ℝ),
      ‖u - y t‖ < ε → |h| < ε → c * |h| ^ (R.orderSec + 1) - L * |h| * ‖u - y t‖ ≤ ‖estAt (R.tab ℝ) f (t, u, h)‖) ?_ ?_ ?_ ?_
    · exact ⟨1, 1, 0, one_pos, one_pos, le_rfl, fun x hx => absurd hx (Set.notMem_empty x)⟩
    · rintro s t hst ⟨ε, C, Λ, h1, h2, h3, h4⟩
      exact ⟨ε, C, Λ, h1, h2, h3, fun x hx => h4 x (hst hx)⟩
    · rintro s t ⟨ε, C, Λ, h1, h2, h3, h4⟩ ⟨ε', C', Λ', h1', h2', h3', h4'⟩
      refine ⟨min ε ε', min C C', Λ + Λ', lt_min h1 h1', lt_min h2 h2', by linarith, fun x hx u h hu hh => ?_⟩
      have p2 : 0 ≤ |h| ^ (R.orderSec + 1) := by positivity
      have p4 : 0 ≤ |h| * ‖u - y x‖ := by positivity
      rcases hx with hx | hx
      · have := h4 x hx u h (hu.trans_le (min_le_left _ _)) (hh.trans_le (min_le_left _ _))
        have q1 := mul_le_mul_of_nonneg_right (min_le_left C C') p2
        have q2 := mul_nonneg h3' p4
        linarith
      · have := h4' x hx u h (hu.trans_le (min_le_right _ _)) (hh.trans_le (min_le_right _ _))
        have q1 := mul_le_mul_of_nonneg_right (min_le_right C C') p2
        have q2 := mul_nonneg h3 p4
        linarith
    · intro tb htb
      obtain ⟨ε, c, L, h1, h2, h3, h4⟩ := est_local htb (fun n => smooth_nat (hy.smooth tb htb) _) (hy.solves tb htb) hO
        (hg tb htb _ _ (fun h => exStage_isRKStep (R.tab ℝ) f tb (y tb) h))
      exact ⟨_, h4, ε, c, L, h1, h2, h3, fun x hx => hx⟩
  refine ⟨ε, c, L, h1, h2, h3, fun t ht u u' h k hk hu hh => ?_⟩
  have := h4 t ht u h hu hh
  have e : errorEstimate (R.tab ℝ) h k = estAt (R.tab ℝ) f (t, u, h) := by
    unfold estAt errorEstimate
    dsimp only
    congr 1
    apply sum_congr rfl
    intro i hi
    rw [hk.stages_eq i (by rw [mem_range] at hi; omega)]
  rw [e]
  exact this

theorem order_gt_sec : ∀ R ∈ rationalRK, R.orderSec + 1 ≤ R.order := by decide +kernel

theorem ReachWithin.memb {W : Type*} {c : Cfg ℝ E W} {v0 v : Solver ℝ E W} {t0 b H : ℝ} (h : ReachWithin c v0 t0 b H v) (h0 : v0.st.t = t0) :
    v.st.t ∈ Set.uIcc t0 b := by
  cases h with
  | refl => rw [h0]; exact Set.left_mem_uIcc
  | tail _ _ _ h => exact h

set_option maxHeartbeats 1000000 in
/-- **C112**. For a smooth problem along whose solution the error estimate has its generic order, there are constants `C` and `h*` such that in
every history of `step()` calls with steps of at most `h*`, with every step controller and every tolerance `tol`: the steps are at most
`C tol^(1/(order_secondary+1))`, and the error is at most `C tol^(order/(order_secondary+1))`. -/
theorem C112_tolerance_error [CompleteSpace E] (R : RKTable) (hR : R ∈ rationalRK) {f : ℝ → E → E} {y : ℝ → E} {t0 b : ℝ}
    (hy : SolvesOn f y t0 b) (hg : EstimateGeneric (R.tab ℝ) R.orderSec f y t0 b) {A B : ℝ} (hA : 0 ≤ A)
    (hB : ∀ t ∈ Set.uIcc t0 b, ‖y t‖ + 1 ≤ B) :
    ∃ C hstar : ℝ, 0 ≤ C ∧ 0 < hstar ∧
      ∀ (c : Cfg ℝ E E) (errNorm : E → E → E → ENorm ℝ) (P : PreTest ℝ E) (h0 tol : ℝ) (e0 : ℕ) (Ks0 : ℕ → E)
        (v : Solver ℝ E E), CfgOK c → c.m = rkMethod (R.tab ℝ) f errNorm P → 0 ≤ c.dir * (b - t0) →
        0 ≤ tol → NormControls errNorm B A tol → ReachWithin c (newSolver c t0 (y t0) h0 e0 Ks0) t0 b hstar v →
        ‖v.st.y - y v.st.t‖ ≤ C * tol ^ (R.order / (R.orderSec + 1 : ℝ)) ∧
        ∀ (fuel : ℕ) (o : Out) (v' : Solver ℝ E E), step c fuel v = some (o, v') → |v'.st.t - v.st.t| ≤ hstar → v'.st.t ∈ Set.uIcc t0 b →
          |v'.st.t - v.st.t| ≤ C * tol ^ (1 / (R.orderSec + 1 : ℝ)) := by
  obtain ⟨_, _, r1, r2⟩ := rationalRK_rows R hR
  have hp : R.orderSec + 1 ≤ R.order := order_gt_sec R hR
  obtain ⟨C, h1, c1, c2, c3⟩ := C87_global_error R hR hy
  obtain ⟨ε, κ, L, l1, l2, l3, l4⟩ := est_lower R hR hy hg
  set q1 := R.orderSec + 1 with hq1
  set p := R.order with hpp
  have hq0 : q1 ≠ 0 := by omega
  -- the bound for the steps
  set D := (2 * A / κ) ^ (1 / (q1 : ℝ)) with hD
  have hD0 : 0 ≤ D := by positivity
  have hDq : D ^ q1 = 2 * A / κ := by
    rw [hD, one_div, Real.rpow_inv_natCast_pow (by positivity) hq0]
  set hs := min (min h1 1) (min (ε / (2 * (C + 1))) (κ / (2 * (L * C + 1)))) with hhs
  have hhs0 : 0 < hs := by positivity
  have hs' : min hs (1 / (2 * (C + 1))) ≤ hs := min_le_left _ _
  refine ⟨D + C * D ^ p, min hs (1 / (2 * (C + 1))), by positivity, by positivity, ?_⟩
  intro c errNorm P h0 tol e0 Ks0 v hc hm hdir htol hN hr
  set H1 := min hs (1 / (2 * (C + 1))) with hH1
  have g1 : H1 ≤ h1 := hs'.trans ((min_le_left _ _).trans (min_le_left _ _))
  have g2 : H1 ≤ 1 := hs'.trans ((min_le_left _ _).trans (min_le_right _ _))
  have hH10 : 0 < H1 := by positivity
  have g3 : H1 * (2 * (C + 1)) ≤ ε := (le_div_iff₀ (by positivity)).mp (hs'.trans ((min_le_right _ _).trans (min_le_left _ _)))
  have g4 : H1 * (2 * (L * C + 1)) ≤ κ := (le_div_iff₀ (by positivity)).mp (hs'.trans ((min_le_right _ _).trans (min_le_right _ _)))
  have g5 : H1 * (2 * (C + 1)) ≤ 1 := (le_div_iff₀ (by positivity)).mp (min_le_right _ _)
  set τ := tol ^ (1 / (q1 : ℝ)) with hτ
  have hτ0 : 0 ≤ τ := by positivity
  have hτq : τ ^ q1 = tol := by rw [hτ, one_div, Real.rpow_inv_natCast_pow htol hq0]
  have hpow : ∀ H : ℝ, 0 ≤ H → H ≤ 1 → H ^ p ≤ H := by
    intro H h0 h1
    calc H ^ p ≤ H ^ 1 := pow_le_pow_of_le_one h0 h1 (by omega)
      _ = H := pow_one H
  set v0 := newSolver c t0 (y t0) h0 e0 Ks0 with hv0
  set Hm := min (D * τ) H1 with hHm
  have hHm0 : 0 ≤ Hm := le_min (by positivity) hH10.le
  have hHm1 : Hm ≤ H1 := min_le_right _ _
  have hstep : ∀ (w w' : Solver ℝ E E) (o : Out) (fuel : ℕ), ReachWithin c v0 t0 b H1 w → ReachWithin c v0 t0 b Hm w →
      step c fuel w = some (o, w') → |w'.st.t - w.st.t| ≤ H1 → w'.st.t ∈ Set.uIcc t0 b → |w'.st.t - w.st.t| ≤ Hm := by
      intro w w' o fuel hw ih hs hle hmem
      rcases rk_step_err hm r1 r2 hw.reach hs with ⟨e1, e2⟩ | ⟨h, k, x, hk, et, hx, hx1⟩
      · rw [e1, sub_self, abs_zero]; exact hHm0
      · have eh : w'.st.t - w.st.t = h := by rw [et]; ring
        rw [eh] at hle ⊢
        by_contra hcon
        push Not at hcon
        have hpos : 0 < |h| := hHm0.trans_lt hcon
        have hmw : w.st.t ∈ Set.uIcc t0 b := by
          cases hw with
          | refl => exact Set.left_mem_uIcc
          | tail _ _ _ h => exact h
        have a1 := c3 c errNorm P h0 Hm e0 Ks0 w hc hm hdir hHm0 (hHm1.trans g1) ih
        have a2 := c3 c errNorm P h0 H1 e0 Ks0 w' hc hm hdir hH10.le g1 (.tail hw hs (by rw [eh]; exact hle) hmem)
        have b1 : C * Hm ^ p ≤ C * H1 := mul_le_mul_of_nonneg_left ((hpow Hm hHm0 (hHm1.trans g2)).trans hHm1) c1
        have b2 : C * H1 ^ p ≤ C * H1 := mul_le_mul_of_nonneg_left (hpow H1 hH10.le g2) c1
        have hCH : C * H1 < ε ∧ C * H1 ≤ 1 := ⟨by nlinarith, by nlinarith⟩
        have n1 : ‖w.st.y‖ ≤ B := by
          have := hB _ hmw
          have e : w.st.y = y w.st.t + (w.st.y - y w.st.t) := by abel
          rw [e]
          refine (norm_add_le _ _).trans ?_
          linarith [hCH.2]
        have n2 : ‖w'.st.y‖ ≤ B := by
          have := hB _ hmem
          have e : w'.st.y = y w'.st.t + (w'.st.y - y w'.st.t) := by abel
          rw [e]
          refine (norm_add_le _ _).trans ?_
          linarith [hCH.2]
        have hacc := hN _ _ _ x n1 n2 hx hx1
        have hhε : |h| < ε := by
          refine hle.trans_lt ?_
          have := mul_nonneg hH10.le c1
          nlinarith
        have hest := l4 w.st.t hmw _ _ h k hk (a1.trans_lt (b1.trans_lt hCH.1)) hhε
        -- the disturbance of the estimate is small
        have d1 : L * |h| * ‖w.st.y - y w.st.t‖ ≤ κ / 2 * |h| ^ q1 := by
          have e1 : Hm ^ p ≤ |h| ^ q1 := by
            calc Hm ^ p ≤ |h| ^ p := pow_le_pow_left₀ hHm0 hcon.le p
              _ ≤ |h| ^ q1 := pow_le_pow_of_le_one hpos.le (hle.trans g2) hp
          have e2 : ‖w.st.y - y w.st.t‖ ≤ C * |h| ^ q1 := a1.trans (mul_le_mul_of_nonneg_left e1 c1)
          have e3 : L * |h| * C ≤ κ / 2 := by
            have : |h| * (L * C) ≤ H1 * (L * C) := mul_le_mul_of_nonneg_right hle (by positivity)
            nlinarith
          calc L * |h| * ‖w.st.y - y w.st.t‖ ≤ L * |h| * (C * |h| ^ q1) := mul_le_mul_of_nonneg_left e2 (by positivity)
            _ = L * |h| * C * |h| ^ q1 := by ring
            _ ≤ κ / 2 * |h| ^ q1 := mul_le_mul_of_nonneg_right e3 (by positivity)
        have d2 : κ / 2 * |h| ^ q1 ≤ A * tol := by linarith
        have d3 : |h| ^ q1 ≤ (D * τ) ^ q1 := by
          rw [mul_pow, hDq, hτq]
          rw [div_mul_eq_mul_div, le_div_iff₀ l2]
          linarith
        have d4 : |h| ≤ D * τ := le_of_pow_le_pow_left₀ hq0 (by positivity) d3
        exact absurd (le_min d4 hle) (not_le.mpr hcon)
  have key : ReachWithin c v0 t0 b Hm v := by
    induction hr with
    | refl => exact .refl
    | @tail w w' o fuel hw hs hle hmem ih => exact .tail ih hs (hstep w w' o fuel hw ih hs hle hmem) hmem
  have e1 : (R.orderSec + 1 : ℝ) = (q1 : ℝ) := by rw [hq1]; push_cast; ring
  have hCD : 0 ≤ C * D ^ p := by positivity
  refine ⟨?_, ?_⟩
  rotate_left
  · intro fuel o v' hs hle hmem
    rw [e1]
    refine (hstep v v' o fuel hr key hs hle hmem).trans ((min_le_left _ _).trans ?_)
    exact mul_le_mul_of_nonneg_right (by linarith) hτ0
  · have a1 := c3 c errNorm P h0 Hm e0 Ks0 v hc hm hdir hHm0 (hHm1.trans g1) key
    refine a1.trans ?_
    have e2 : tol ^ (p / (R.orderSec + 1 : ℝ)) = τ ^ p := by
      rw [e1, hτ, ← Real.rpow_natCast, ← Real.rpow_mul htol]
      congr 1
      ring
    rw [e2]
    calc C * Hm ^ p ≤ C * (D * τ) ^ p := mul_le_mul_of_nonneg_left (pow_le_pow_left₀ hHm0 (min_le_left _ _) p) c1
      _ = C * D ^ p * τ ^ p := by rw [mul_pow]; ring
      _ ≤ (D + C * D ^ p) * τ ^ p := mul_le_mul_of_nonneg_right (by linarith) (by positivity)

/-- **C112** with `max_step`: every state reachable by `step()` calls with a small `max_step` has an error of at most
`C tol^(order/(order_secondary+1))`; for `tol <= 1` therefore at most `C tol`. -/
theorem C112_max_step [CompleteSpace E] (R : RKTable) (hR : R ∈ rationalRK) {f : ℝ → E → E} {y : ℝ → E} {t0 b : ℝ}
    (hy : SolvesOn f y t0 b) (hg : EstimateGeneric (R.tab ℝ) R.orderSec f y t0 b) {A B : ℝ} (hA : 0 ≤ A)
    (hB : ∀ t ∈ Set.uIcc t0 b, ‖y t‖ + 1 ≤ B) :
    ∃ C hstar : ℝ, 0 ≤ C ∧ 0 < hstar ∧
      ∀ (c : Cfg ℝ E E) (errNorm : E → E → E → ENorm ℝ) (P : PreTest ℝ E) (h0 H tol : ℝ) (e0 : ℕ) (Ks0 : ℕ → E)
        (v : Solver ℝ E E), CfgOK c → c.m = rkMethod (R.tab ℝ) f errNorm P → c.tb = some b → 0 ≤ c.dir * (b - t0) →
        c.maxStep = some H → H ≤ hstar → (∀ w, Reach c (newSolver c t0 (y t0) h0 e0 Ks0) w → MaxStepUsable c w.st) →
        0 ≤ tol → NormControls errNorm B A tol → Reach c (newSolver c t0 (y t0) h0 e0 Ks0) v →
        ‖v.st.y - y v.st.t‖ ≤ C * tol ^ (R.order / (R.orderSec + 1 : ℝ)) ∧ (tol ≤ 1 → ‖v.st.y - y v.st.t‖ ≤ C * tol) ∧
        ∀ (fuel : ℕ) (o : Out) (v' : Solver ℝ E E), step c fuel v = some (o, v') →
          |v'.st.t - v.st.t| ≤ C * tol ^ (1 / (R.orderSec + 1 : ℝ)) := by
  obtain ⟨C, hstar, h1, h2, h3⟩ := C112_tolerance_error R hR hy hg hA hB
  refine ⟨C, hstar, h1, h2, ?_⟩
  intro c errNorm P h0 H tol e0 Ks0 v hc hm hb hdir hmax hH hu htol hN hr
  have hmono : ∀ {w}, ReachWithin c (newSolver c t0 (y t0) h0 e0 Ks0) t0 b H w → ReachWithin c (newSolver c t0 (y t0) h0 e0 Ks0) t0 b hstar w := by
    intro w hw
    induction hw with
    | refl => exact .refl
    | tail _ h1 h2 h3 ih => exact .tail ih h1 (h2.trans hH) h3
  have hall : ∀ w, Reach c (newSolver c t0 (y t0) h0 e0 Ks0) w → _ := fun w hw =>
    h3 c errNorm P h0 tol e0 Ks0 w hc hm hdir htol hN (hmono (reachWithin_of_max_step hc hb hdir hmax rfl hu hw))
  have key := (hall v hr).1
  refine ⟨key, fun ht1 => key.trans (mul_le_mul_of_nonneg_left ?_ h1), fun fuel o v' hs => ?_⟩
  · have hexp : (1 : ℝ) ≤ R.order / (R.orderSec + 1 : ℝ) := by
      rw [one_le_div (by positivity)]
      exact_mod_cast order_gt_sec R hR
    calc tol ^ (R.order / (R.orderSec + 1 : ℝ)) ≤ tol ^ (1 : ℝ) := by
          rcases htol.eq_or_lt with e | hp
          · rw [← e, Real.zero_rpow (by positivity), Real.zero_rpow one_ne_zero]
          · exact Real.rpow_le_rpow_of_exponent_ge hp ht1 hexp
      _ = tol := Real.rpow_one tol
  · refine (hall v hr).2 fuel o v' hs ((C03_max_step hc hmax (hu v hr) hs).trans hH) ?_
    exact (reachWithin_of_max_step hc hb hdir hmax rfl hu (.tail hr hs)).memb rfl

/-- The error norm of the code satisfies the hypothesis, for tolerances `atol, rtol <= tol`. -/
theorem C112_norm_controls {𝕜 : Type*} [RCLike 𝕜] {n : ℕ} {atol : Fin n → ℝ} {rtol tol B : ℝ} (ha : ∀ i, 0 < atol i) (hat : ∀ i, atol i ≤ tol)
    (hr0 : 0 ≤ rtol) (hr : rtol ≤ tol) (hB : 0 ≤ B) :
    NormControls (fun (y y' e : Fin n → 𝕜) => .num (scaledNorm atol rtol y y' e)) B (Real.sqrt n * (1 + B)) tol := by
  intro y y' e x hy hy' hx hx1
  have hx : scaledNorm atol rtol y y' e = x := by injection hx
  rw [← hx] at hx1
  have hsc0 : ∀ i, 0 < errScale atol rtol y y' i := by
    intro i
    unfold errScale
    have : 0 ≤ rtol * max ‖y i‖ ‖y' i‖ := mul_nonneg hr0 (le_max_of_le_left (norm_nonneg _))
    linarith [ha i]
  rcases isEmpty_or_nonempty (Fin n) with hn | ⟨⟨i0⟩⟩
  · have : e = 0 := Subsingleton.elim _ _
    rw [this, norm_zero]
    rcases Nat.eq_zero_or_pos n with h | h
    · subst h; simp
    · exact (hn.false ⟨0, h⟩).elim
  have htol : 0 ≤ tol := (ha i0).le.trans (hat i0)
  have hn0 : (0 : ℝ) < n := by
    have := i0.pos
    exact_mod_cast this
  rw [pi_norm_le_iff_of_nonneg (by positivity)]
  intro i
  have hsc : errScale atol rtol y y' i ≤ (1 + B) * tol := by
    unfold errScale
    have h1 : max ‖y i‖ ‖y' i‖ ≤ B := max_le ((norm_le_pi_norm y i).trans hy) ((norm_le_pi_norm y' i).trans hy')
    have h2 : rtol * max ‖y i‖ ‖y' i‖ ≤ tol * B := mul_le_mul hr h1 (le_max_of_le_left (norm_nonneg _)) htol
    linarith [hat i]
  unfold scaledNorm rmsNorm at hx1
  rw [Real.sqrt_lt' one_pos, one_pow, div_lt_one hn0, map_sum] at hx1
  have hterm : ∀ j, RCLike.re (e j / ((errScale atol rtol y y' j : ℝ) : 𝕜) * (starRingEnd 𝕜) (e j / ((errScale atol rtol y y' j : ℝ) : 𝕜))) =
      (‖e j‖ / errScale atol rtol y y' j) ^ 2 := by
    intro j
    rw [RCLike.mul_conj, ← RCLike.ofReal_pow, RCLike.ofReal_re, norm_div, RCLike.norm_ofReal, abs_of_pos (hsc0 j)]
  simp only [hterm] at hx1
  have h1 : (‖e i‖ / errScale atol rtol y y' i) ^ 2 ≤ n :=
    (single_le_sum (f := fun j => (‖e j‖ / errScale atol rtol y y' j) ^ 2) (fun j _ => sq_nonneg _) (mem_univ i)).trans hx1.le
  have h2 : ‖e i‖ / errScale atol rtol y y' i ≤ Real.sqrt n := Real.le_sqrt_of_sq_le h1
  rw [div_le_iff₀ (hsc0 i)] at h2
  calc ‖e i‖ ≤ Real.sqrt n * errScale atol rtol y y' i := h2
    _ ≤ Real.sqrt n * ((1 + B) * tol) := mul_le_mul_of_nonneg_left hsc (Real.sqrt_nonneg _)
    _ = _ := by ring

/-- **C112** for real and complex arrays and the error norm of the code: with `atol` and `rtol` at most `tol <= 1` the error is at most `C tol`, with a
constant which depends on the problem only. -/
theorem C112_arrays {𝕜 : Type*} [RCLike 𝕜] {n : ℕ} (R : RKTable) (hR : R ∈ rationalRK) {f : ℝ → (Fin n → 𝕜) → Fin n → 𝕜} {y : ℝ → Fin n → 𝕜}
    {t0 b : ℝ} (hy : SolvesOn f y t0 b) (hg : EstimateGeneric (R.tab ℝ) R.orderSec f y t0 b) :
    ∃ C hstar : ℝ, 0 ≤ C ∧ 0 < hstar ∧
      ∀ (c : Cfg ℝ (Fin n → 𝕜) (Fin n → 𝕜)) (atol : Fin n → ℝ) (rtol tol : ℝ) (P : PreTest ℝ (Fin n → 𝕜)) (h0 H : ℝ) (e0 : ℕ) (Ks0 : ℕ → Fin n → 𝕜)
        (v : Solver ℝ (Fin n → 𝕜) (Fin n → 𝕜)), CfgOK c → (∀ i, 0 < atol i) → (∀ i, atol i ≤ tol) → 0 ≤ rtol → rtol ≤ tol → tol ≤ 1 →
        c.m = rkMethod (R.tab ℝ) f (fun y y' e => .num (scaledNorm atol rtol y y' e)) P →
        c.tb = some b → 0 ≤ c.dir * (b - t0) → c.maxStep = some H → H ≤ hstar →
        (∀ w, Reach c (newSolver c t0 (y t0) h0 e0 Ks0) w → MaxStepUsable c w.st) →
        Reach c (newSolver c t0 (y t0) h0 e0 Ks0) v → ‖v.st.y - y v.st.t‖ ≤ C * tol := by
  obtain ⟨B, hB0, hB⟩ : ∃ B : ℝ, 0 ≤ B ∧ ∀ t ∈ Set.uIcc t0 b, ‖y t‖ + 1 ≤ B := by
    have hcont : ContinuousOn y (Set.uIcc t0 b) := fun t ht => (hy.solves t ht).self_of_nhds.continuousAt.continuousWithinAt
    obtain ⟨B, hB⟩ := isCompact_uIcc.exists_bound_of_continuousOn hcont
    refine ⟨B + 1, ?_, fun t ht => by linarith [hB t ht]⟩
    have := (norm_nonneg _).trans (hB t0 Set.left_mem_uIcc)
    linarith
  obtain ⟨C, hstar, h1, h2, h3⟩ := C112_max_step R hR hy hg (A := Real.sqrt n * (1 + B)) (B := B) (by positivity) hB
  refine ⟨C, hstar, h1, h2, ?_⟩
  intro c atol rtol tol P h0 H e0 Ks0 v hc ha hat hr0 hr ht1 hm hb hdir hmax hH hu hrv
  exact (h3 c _ P h0 H tol e0 Ks0 v hc hm hb hdir hmax hH hu (hr0.trans hr) (C112_norm_controls ha hat hr0 hr hB0) hrv).2.1 ht1

end
end Extensisq
