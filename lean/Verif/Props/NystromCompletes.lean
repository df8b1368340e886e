import Verif.Lemmas.SmoothRun
import Verif.Props.NystromConvergence

/-!
# C115: the Nystrom methods on smooth problems

What C111, C112 and C113 say about the explicit Runge-Kutta methods, for `MR6NN`, `Fi4N` and `Fi5N`: with a small `max_step` no step is rejected and the integration
ends on `t_bound`; the tolerances control the error of position and velocity; the number of steps for a tolerance is bounded.
-/

set_option linter.unusedSectionVars false

namespace Extensisq
open scoped ContDiff
open Finset Asymptotics Filter Topology

section
variable {K X : Type*} [Field K] [LinearOrder K] [IsStrictOrderedRing K] [AddCommGroup X] [Module K X]

/-- A returning `step()` leaves the point unchanged or makes a Nystrom step whose error norm was below one. -/
theorem ny_step_err {c : Cfg K (X × X) X} {T : NTableau K} {acc : K → X × X → X}
    {errNorm : X × X → X × X → X × X → ENorm K} (hm : c.m = nyMethod T acc errNorm) (hC : T.C 0 = 0)
    (hs : 0 < T.s) {t0 : K} {y0 : X × X} {h0 : K} {e0 : ℕ} {Ks0 : ℕ → X} {v v' : Solver K (X × X) X}
    (hr : Reach c (newSolver c t0 y0 h0 e0 Ks0) v) {fuel : ℕ} {o : Out} (h : step c fuel v = some (o, v')) :
    (v'.st.t = v.st.t ∧ v'.st.y = v.st.y) ∨
    ∃ (h : K) (k : ℕ → X) (x : K), IsNyStep T acc v.st.t v.st.y h k v'.st.y ∧ v'.st.t = v.st.t + h ∧
      errNorm v.st.y v'.st.y (nyErrorEstimate T h k) = .num x ∧ x < 1 := by
  have hf := C55_stored_acceleration_current hm hr
  rcases step_impl_or h with ⟨h1, _⟩ | ⟨_, hi⟩
  · exact Or.inl (by rw [h1]; exact ⟨rfl, rfl⟩)
  · rcases stepImpl_effect hi with ⟨k, Ks, e, j, ho, hs⟩ |
      ⟨k, ch, x, f0, std, s1, hmin, hpre, herr, hx, haf, hs1, ho⟩
    · exact Or.inl (by rw [hs]; exact ⟨rfl, rfl⟩)
    · right
      obtain ⟨hrk, her, _⟩ := nyTrial_isNyStep T acc errNorm v.st.t v.st.y (ch.hs k * c.dir)
        (ch.Ks k) hC hs
      have e1 : (c.m.trial v.st.t v.st.y v.st.f (ch.hs k * c.dir) (ch.Ks k)).yNew =
          (nyTrial T acc errNorm v.st.t v.st.y (acc v.st.t v.st.y) (ch.hs k * c.dir) (ch.Ks k)).yNew := by
        rw [← hf]; generalize ch.hs k = hh; generalize ch.Ks k = KK; rw [hm]; rfl
      have e3 : (c.m.trial v.st.t v.st.y v.st.f (ch.hs k * c.dir) (ch.Ks k)).err =
          (nyTrial T acc errNorm v.st.t v.st.y (acc v.st.t v.st.y) (ch.hs k * c.dir) (ch.Ks k)).err := by
        rw [← hf]; generalize ch.hs k = hh; generalize ch.Ks k = KK; rw [hm]; rfl
      have ey : s1.y = (nyTrial T acc errNorm v.st.t v.st.y (acc v.st.t v.st.y) (ch.hs k * c.dir) (ch.Ks k)).yNew := by
        rw [← e1, hs1]; rfl
      have et : s1.t = v.st.t + ch.hs k * c.dir := by rw [hs1]; rfl
      have e2 : v'.st.y = s1.y ∧ v'.st.t = s1.t := by
        rcases ho with ⟨_, b, hd⟩ | ⟨_, _, hd⟩
        · rw [diagnose_same hd]; exact ⟨rfl, rfl⟩
        · rw [hd]; exact ⟨rfl, rfl⟩
      rw [← ey, ← e2.1] at hrk her
      exact ⟨_, _, x, hrk, e2.2.trans et, her.symm.trans (e3.symm.trans herr), hx⟩

end

section
variable {E : Type*} [NormedAddCommGroup E] [NormedSpace ℝ E]

/-- The error estimate divided by the step, as a function of time, point and step. -/
noncomputable def nyEstAt (T : NTableau ℝ) (acc : ℝ → E × E → E) (z : ℝ × (E × E) × ℝ) : E × E :=
  (z.2.2 • ∑ i ∈ range (T.s + 1), T.E i • nyEx T.fullA T.fullAp T.fullC acc i z,
    ∑ i ∈ range (T.s + 1), T.Ep i • nyEx T.fullA T.fullAp T.fullC acc i z)

theorem nyEstAt_contDiffAt {T : NTableau ℝ} {acc : ℝ → E × E → E} {tb : ℝ} {yb : E × E} {n : ℕ}
    (hf : ContDiffAt ℝ n (fun z : ℝ × (E × E) => acc z.1 z.2) (tb, yb)) : ContDiffAt ℝ n (nyEstAt T acc) (tb, yb, 0) := by
  have hs : ∀ w : ℕ → ℝ, ContDiffAt ℝ n (fun z : ℝ × (E × E) × ℝ => ∑ i ∈ range (T.s + 1), w i • nyEx T.fullA T.fullAp T.fullC acc i z) (tb, yb, 0) := by
    intro w
    apply ContDiffAt.sum
    intro i _
    exact contDiffAt_const.smul (nyEx_contDiffAt hf i)
  exact (ContDiffAt.smul contDiffAt_snd.snd (hs T.E)).prodMk (hs T.Ep)

/-- The estimate of a step. -/
theorem nyEstAt_eq {T : NTableau ℝ} {acc : ℝ → E × E → E} {t : ℝ} {u u' : E × E} {h : ℝ} {k : ℕ → E} (hk : IsNyStep T acc t u h k u') :
    nyErrorEstimate T h k = h • nyEstAt T acc (t, u, h) := by
  have hun := nyEx_unique (fullA_explicit T) (fun i hi => hk.full i hi)
  have hs : ∀ w : ℕ → ℝ, ∑ i ∈ range (T.s + 1), w i • k i = ∑ i ∈ range (T.s + 1), w i • nyEx T.fullA T.fullAp T.fullC acc i (t, u, h) :=
    fun w => sum_congr rfl fun i hi => by rw [hun i (mem_range.mp hi)]
  unfold nyErrorEstimate nyEstAt
  refine Prod.ext ?_ ?_
  · simp only [Prod.smul_fst]
    rw [hs, smul_smul, sq]
  · simp only [Prod.smul_snd]
    rw [hs]

/-- The error norm of an attempt is the norm of the estimate. -/
theorem ny_attempt {T : NTableau ℝ} {acc : ℝ → E × E → E} (hC : T.C 0 = 0) (hs : 0 < T.s) {errNorm : E × E → E × E → E × E → ENorm ℝ} {M : ℝ}
    (hE : ErrBound errNorm M) (t : ℝ) (u : E × E) (h : ℝ) (Ks : ℕ → E) :
    ((nyMethod T acc errNorm).trial t u (acc t u) h Ks).pre = .num 0 ∧
    ∃ x, ((nyMethod T acc errNorm).trial t u (acc t u) h Ks).err = .num x ∧ x ≤ M * ‖h • nyEstAt T acc (t, u, h)‖ := by
  refine ⟨rfl, ?_⟩
  obtain ⟨k1, k2, -⟩ := nyTrial_isNyStep T acc errNorm t u h Ks hC hs
  obtain ⟨x, hx, hx1⟩ := hE u (nyTrial T acc errNorm t u (acc t u) h Ks).yNew (nyErrorEstimate T h
    (Function.update (nyTrial T acc errNorm t u (acc t u) h Ks).stages T.s (acc (t + h) (nyTrial T acc errNorm t u (acc t u) h Ks).yNew)))
  refine ⟨x, k2.trans hx, hx1.trans (le_of_eq ?_)⟩
  rw [nyEstAt_eq k1]

theorem NySolvesOn.continuousAt {acc : ℝ → E × E → E} {y : ℝ → E × E} {t0 b : ℝ} (hy : NySolvesOn acc y t0 b) {t : ℝ} (ht : t ∈ Set.uIcc t0 b) :
    ContinuousAt y t := (hy.solves t ht).self_of_nhds.continuousAt

theorem rationalNy_rows (R : NyTable) (hR : R ∈ rationalNy) : (R.tab ℝ).C 0 = 0 ∧ 0 < (R.tab ℝ).s ∧ 1 ≤ R.order ∧ R.orderSec + 1 ≤ R.order := by
  have key : ∀ R ∈ rationalNy, R.C.getD 0 0 = 0 ∧ 0 < R.s ∧ 1 ≤ R.order ∧ R.orderSec + 1 ≤ R.order := by decide +kernel
  obtain ⟨h1, h2, h3, h4⟩ := key R hR
  have := congrArg (fun q : ℚ => (q : ℝ)) h1
  exact ⟨by simpa [NyTable.tab] using this, h2, h3, h4⟩

/-! ## C115 -/

/-- **C115**, the run to the end (C111 for the Nystrom methods). Let `y = (u, u')` solve the smooth problem `u'' = acc(t, u, u')` (for `MR6NN`: independent of `u'`) on
the closed interval, and let the error norms be bounded by `M` times a norm (positive `atol`). There is `h*` such that with every `max_step <= h*`, a controller which
does not shorten the step when the error norms are at most `θ` (`C111_controller_grows`), and a minimal step of at most half of the smallest of `first_step`, `max_step`
and the length of the interval: the solver finishes exactly on `t_bound`, after at most `2 |t_bound - t0| / min(first_step, max_step, |t_bound - t0|)` steps none of
which was rejected, and position and velocity differ from the exact ones by at most `C max_step^order`. -/
theorem C115_finishes [CompleteSpace E] (R : NyTable) (hR : R ∈ rationalNy) {acc : ℝ → E × E → E} {y : ℝ → E × E} {t0 b : ℝ}
    (hy : NySolvesOn acc y t0 b) (hv : R.hasAp = false → ∀ t u v w, acc t (u, v) = acc t (u, w)) {M θ Rf : ℝ} (hM : 0 ≤ M) (hθ : 0 < θ) :
    ∃ C hstar : ℝ, 0 ≤ C ∧ 0 < hstar ∧
      ∀ (c : Cfg ℝ (E × E) E) (errNorm : E × E → E × E → E × E → ENorm ℝ) (h0 H : ℝ) (e0 : ℕ) (Ks0 : ℕ → E), CfgOK c → c.safety < 1 →
        StiffOK c.nfevStiff c.m → c.m = nyMethod (R.tab ℝ) acc errNorm → ErrBound errNorm M → Grows c θ Rf →
        c.tb = some b → 0 ≤ c.dir * (b - t0) → c.maxStep = some H → H ≤ hstar →
        c.hMinB ≤ min h0 (min H |b - t0|) / 2 → c.hMinA * (max |t0| |b| + max h0 (Rf * H)) ≤ min h0 (min H |b - t0|) / 2 →
        (∃ n w, WhileRunning (step c) (fun v => v.status = .running) Out.raised (newSolver c t0 (y t0) h0 e0 Ks0) n none w) ∧
        ∀ n r w, WhileRunning (step c) (fun v => v.status = .running) Out.raised (newSolver c t0 (y t0) h0 e0 Ks0) n r w →
          r = none ∧ w.status = .finished ∧ w.st.t = b ∧ w.st.nfs = 0 ∧ ‖w.st.y - y b‖ ≤ C * H ^ R.order ∧
          n * (min h0 (min H |b - t0|) / 2) ≤ |b - t0| := by
  obtain ⟨r1, r2, ho, -⟩ := rationalNy_rows R hR
  obtain ⟨C, h1, c1, c2, c3⟩ := C95_global_error R hR hy hv
  obtain ⟨ε, D, d1, d2, d3⟩ := tube_continuous (fun t ht => hy.continuousAt ht) (F := nyEstAt (R.tab ℝ) acc)
    (fun t ht => (nyEstAt_contDiffAt (n := 0) ((hy.smooth t ht).of_le (by simp))).continuousAt)
  set ϑ := min 1 θ with hϑ
  have hϑ0 : 0 < ϑ := lt_min one_pos hθ
  refine ⟨C, min (min h1 1) (min (ε / (2 * (C + 1))) (ϑ / (M * D + 1))), c1, by positivity, ?_⟩
  intro c errNorm h0 H e0 Ks0 hc hg hst hm hE hgr hb hdir hmax hH hmin1 hmin2
  have hH0 : 0 < H := hc.maxStep H hmax
  have g1 : H ≤ h1 := hH.trans ((min_le_left _ _).trans (min_le_left _ _))
  have g2 : H ≤ 1 := hH.trans ((min_le_left _ _).trans (min_le_right _ _))
  have g3 : H * (2 * (C + 1)) ≤ ε := (le_div_iff₀ (by positivity)).mp (hH.trans ((min_le_right _ _).trans (min_le_left _ _)))
  have g4 : H * (M * D + 1) ≤ ϑ := (le_div_iff₀ (by positivity)).mp (hH.trans ((min_le_right _ _).trans (min_le_right _ _)))
  have hpow : H ^ R.order ≤ H := by
    calc H ^ R.order ≤ H ^ 1 := pow_le_pow_of_le_one hH0.le g2 ho
      _ = H := pow_one H
  have hCH : C * H ^ R.order < ε := by
    have := mul_le_mul_of_nonneg_left hpow c1
    nlinarith
  have herr : ∀ v, ReachWithin c (newSolver c t0 (y t0) h0 e0 Ks0) t0 b H v → ‖v.st.y - y v.st.t‖ ≤ C * H ^ R.order := fun v hr =>
    c3 c errNorm h0 H e0 Ks0 v hc hm hdir hH0.le g1 hr
  obtain ⟨p1, p2⟩ := finishes_generic (y0 := y t0) (e0 := e0) (Ks0 := Ks0) hc hg hst hgr hb hdir hmax hmin1 hmin2 (by
    intro v hr h hp hle Ks
    have habs : |h * c.dir| = h := by
      rcases hc.dir with e | e <;> rw [e] <;> simp [abs_of_pos hp]
    have hf := C55_stored_acceleration_current hm hr.reach
    obtain ⟨a1, x, a2, a3⟩ := ny_attempt (acc := acc) r1 r2 hE v.st.t v.st.y (h * c.dir) Ks
    have a4 := d3 v.st.t (hr.mem rfl) v.st.y (h * c.dir) ((herr v hr).trans_lt hCH) (by rw [habs]; nlinarith)
    rw [hm, hf, a1, a2]
    refine ⟨by simp only [ENorm.gt]; rw [decide_eq_false_iff_not]; norm_num, x, rfl, ?_⟩
    rw [norm_smul, Real.norm_eq_abs, habs] at a3
    have a5 : h * ‖nyEstAt (R.tab ℝ) acc (v.st.t, v.st.y, h * c.dir)‖ ≤ h * D := mul_le_mul_of_nonneg_left a4 hp.le
    have a6 := mul_le_mul_of_nonneg_left a5 hM
    have a7 : M * (h * D) ≤ H * (M * D) := by
      have := mul_le_mul_of_nonneg_right hle (mul_nonneg hM d2)
      linarith
    have := min_le_right 1 θ
    nlinarith)
  refine ⟨p1, fun n r w hw => ?_⟩
  obtain ⟨q1, q2, q3, q4, q5, q6⟩ := p2 n r w hw
  have := herr w q5
  rw [q3] at this
  exact ⟨q1, q2, q3, q4, this, q6⟩

/-- The error estimate of the method has its generic order `q + 1` along the solution: nowhere on the interval is it of smaller order. -/
def NyEstimateGeneric (T : NTableau ℝ) (q : ℕ) (acc : ℝ → E × E → E) (y : ℝ → E × E) (t0 b : ℝ) : Prop :=
  ∀ t ∈ Set.uIcc t0 b, ∀ (k : ℝ → ℕ → E) (yNew : ℝ → E × E), (∀ h, IsNyStep T acc t (y t) h (k h) (yNew h)) →
    ¬ (fun h => nyErrorEstimate T h (k h)) =o[𝓝 0] fun h : ℝ => h ^ (q + 1)

/-- **C115**, the tolerances (C112 for the Nystrom methods). For a smooth problem along whose solution the error estimate has its generic order, there are constants `C`
and `h*` such that in every history of `step()` calls with steps of at most `h*`, with every step controller and every tolerance `tol`: the steps are at most
`C tol^(1/(order_secondary+1))`, and position and velocity are accurate to `C tol^(order/(order_secondary+1))`. -/
theorem C115_tolerance_error [CompleteSpace E] (R : NyTable) (hR : R ∈ rationalNy) {acc : ℝ → E × E → E} {y : ℝ → E × E} {t0 b : ℝ}
    (hy : NySolvesOn acc y t0 b) (hv : R.hasAp = false → ∀ t u v w, acc t (u, v) = acc t (u, w))
    (hg : NyEstimateGeneric (R.tab ℝ) R.orderSec acc y t0 b) {A B : ℝ} (hA : 0 ≤ A) (hB : ∀ t ∈ Set.uIcc t0 b, ‖y t‖ + 1 ≤ B) :
    ∃ C hstar : ℝ, 0 ≤ C ∧ 0 < hstar ∧
      ∀ (c : Cfg ℝ (E × E) E) (errNorm : E × E → E × E → E × E → ENorm ℝ) (h0 tol : ℝ) (e0 : ℕ) (Ks0 : ℕ → E)
        (v : Solver ℝ (E × E) E), CfgOK c → c.m = nyMethod (R.tab ℝ) acc errNorm → 0 ≤ c.dir * (b - t0) →
        0 ≤ tol → NormControls errNorm B A tol → ReachWithin c (newSolver c t0 (y t0) h0 e0 Ks0) t0 b hstar v →
        ‖v.st.y - y v.st.t‖ ≤ C * tol ^ (R.order / (R.orderSec + 1 : ℝ)) ∧
        ∀ (fuel : ℕ) (o : Out) (v' : Solver ℝ (E × E) E), step c fuel v = some (o, v') → |v'.st.t - v.st.t| ≤ hstar → v'.st.t ∈ Set.uIcc t0 b →
          |v'.st.t - v.st.t| ≤ C * tol ^ (1 / (R.orderSec + 1 : ℝ)) := by
  obtain ⟨r1, r2, -, ho⟩ := rationalNy_rows R hR
  obtain ⟨C, h1, c1, c2, c3⟩ := C95_global_error R hR hy hv
  have hst : ∀ t h, IsNyStep (R.tab ℝ) acc t (y t) h _ _ := fun t h => nyEx_isNyStep (R.tab ℝ) acc t (y t) h
  obtain ⟨ε, κ, L, l1, l2, l3, l4⟩ := tube_lower (S := nyEstAt (R.tab ℝ) acc) (q := R.orderSec) (fun t ht n => hy.solution_smooth ht n)
    (fun t ht n => nyEstAt_contDiffAt (smooth_nat (hy.smooth t ht) _))
    (fun t ht => by
      refine (C71_local_error_order R hR (hy.smooth t ht) hv (hst t)).2.congr_left fun h => ?_
      exact nyEstAt_eq (hst t h))
    (fun t ht hcon => hg t ht _ _ (hst t) (hcon.congr_left fun h => (nyEstAt_eq (hst t h)).symm))
  obtain ⟨C', hstar, k1, k2, k3⟩ := tolerance_generic (W := E) (p := R.order) (q1 := R.orderSec + 1) (by omega) ho c1 c2 l1 l2 l3 hA (y := y) (t0 := t0) (b := b)
  refine ⟨C', hstar, k1, k2, ?_⟩
  intro c errNorm h0 tol e0 Ks0 v hc hm hdir htol hN hr
  have := k3 c _ v tol rfl htol (fun H w hH0 hH hw => c3 c errNorm h0 H e0 Ks0 w hc hm hdir hH0 hH hw)
    (by
      intro w w' o fuel hw hs
      rcases ny_step_err hm r1 r2 hw hs with ⟨e1, -⟩ | ⟨h, k, x, hk, et, hx, hx1⟩
      · exact Or.inl e1
      · refine Or.inr ⟨h, et, fun m1 m2 b1 b2 b3 b4 => ?_⟩
        have n1 : ‖w.st.y‖ ≤ B := by
          have := hB _ m1
          have e : w.st.y = y w.st.t + (w.st.y - y w.st.t) := by abel
          rw [e]
          refine (norm_add_le _ _).trans ?_
          linarith
        have n2 : ‖w'.st.y‖ ≤ B := by
          have := hB _ m2
          have e : w'.st.y = y w'.st.t + (w'.st.y - y w'.st.t) := by abel
          rw [e]
          refine (norm_add_le _ _).trans ?_
          linarith
        have hacc := hN _ _ _ x n1 n2 hx hx1
        rw [nyEstAt_eq hk] at hacc
        exact (l4 w.st.t m1 w.st.y h b3 b4).trans hacc) hr
  push_cast at this
  exact this

/-- The problem is smooth in a neighbourhood of the solution. -/
def NySmoothNear (acc : ℝ → E × E → E) (y : ℝ → E × E) (t0 b : ℝ) : Prop :=
  ∀ t ∈ Set.uIcc t0 b, ∀ᶠ z in 𝓝 (t, y t), ContDiffAt ℝ ∞ (fun z : ℝ × (E × E) => acc z.1 z.2) z

/-- **C115**, the work (C113 for the Nystrom methods). With the error norms bounded by `M / tol` times a norm (`atol >= tol / M`) there are `h*` and `κ > 0` such that for
every `max_step <= h*`, every `tol` and every first step: with `σ` the smallest of `first_step`, `max_step`, the length of the interval and
`κ tol^(1/(order_secondary+1))`, if the minimal step is at most `σ / 2`, the solver finishes exactly on `t_bound` after at most `2 |t_bound - t0| / σ` calls of `step()`,
and the number `k` of rejected attempts satisfies `k log(1/μ) <= n log R + log(2 first_step / (m σ))`. -/
theorem C115_work [CompleteSpace E] (R : NyTable) (hR : R ∈ rationalNy) {acc : ℝ → E × E → E} {y : ℝ → E × E} {t0 b : ℝ}
    (hy : NySolvesOn acc y t0 b) (hv : R.hasAp = false → ∀ t u v w, acc t (u, v) = acc t (u, w)) (hsm : NySmoothNear acc y t0 b)
    {M θ m μ Rf : ℝ} (hM : 0 < M) (hθ : 0 < θ) (hm : 0 < m) (hμ : μ < 1) :
    ∃ C hstar κ : ℝ, 0 ≤ C ∧ 0 < hstar ∧ 0 < κ ∧
      ∀ (c : Cfg ℝ (E × E) E) (errNorm : E × E → E × E → E × E → ENorm ℝ) (h0 H tol σ : ℝ) (e0 : ℕ) (Ks0 : ℕ → E), CfgOK c →
        StiffOK c.nfevStiff c.m → c.m = nyMethod (R.tab ℝ) acc errNorm → 0 < tol → ErrBound errNorm (M / tol) →
        Steers c θ m Rf → c.minFactor ≤ μ → c.safety ≤ μ →
        c.tb = some b → 0 ≤ c.dir * (b - t0) → c.maxStep = some H → H ≤ hstar →
        σ = min h0 (min H (min |b - t0| (κ * tol ^ (1 / (R.orderSec + 1 : ℝ))))) →
        c.hMinB ≤ σ / 2 → c.hMinA * (max |t0| |b| + max h0 (Rf * H)) ≤ σ / 2 →
        (∃ n w, WhileRunning (step c) (fun v => v.status = .running) Out.raised (newSolver c t0 (y t0) h0 e0 Ks0) n none w) ∧
        ∀ n r w, WhileRunning (step c) (fun v => v.status = .running) Out.raised (newSolver c t0 (y t0) h0 e0 Ks0) n r w →
          r = none ∧ w.status = .finished ∧ w.st.t = b ∧ ReachWithin c (newSolver c t0 (y t0) h0 e0 Ks0) t0 b H w ∧
          ‖w.st.y - y b‖ ≤ C * H ^ R.order ∧ n * σ ≤ 2 * |b - t0| ∧
          w.st.nfs * Real.log (1 / μ) ≤ n * Real.log Rf + Real.log (2 * h0 / (m * σ)) := by
  obtain ⟨r1, r2, ho, -⟩ := rationalNy_rows R hR
  obtain ⟨C, h1, c1, c2, c3⟩ := C95_global_error R hR hy hv
  obtain ⟨ε, D, d1, d2, d3⟩ := tube_order (fun t ht => hy.continuousAt ht) (F := fun z => z.2.2 • nyEstAt (R.tab ℝ) acc z) (R.orderSec + 1)
    (fun t ht => ContDiffAt.smul contDiffAt_snd.snd (nyEstAt_contDiffAt (smooth_nat (hy.smooth t ht) _)))
    (fun t ht => by
      filter_upwards [hsm t ht] with z hz
      refine (C71_local_error_order R hR (t0 := z.1) (y0 := z.2) hz hv (fun h => nyEx_isNyStep (R.tab ℝ) acc z.1 z.2 h)).2.congr_left fun h => ?_
      exact nyEstAt_eq (nyEx_isNyStep (R.tab ℝ) acc z.1 z.2 h))
  obtain ⟨κ, k1, k2⟩ := work_generic (E := E × E) (W := E) (q1 := R.orderSec + 1) (by omega) hM d2 hθ hm hμ (Rf := Rf)
  refine ⟨C, min (min h1 1) (ε / (2 * (C + 1))), κ, c1, by positivity, k1, ?_⟩
  intro c errNorm h0 H tol σ e0 Ks0 hc hst hmm htol hE hgr hμ1 hμ2 hb hdir hmax hH hσ hmin1 hmin2
  have hH0 : 0 < H := hc.maxStep H hmax
  have g1 : H ≤ h1 := hH.trans ((min_le_left _ _).trans (min_le_left _ _))
  have g2 : H ≤ 1 := hH.trans ((min_le_left _ _).trans (min_le_right _ _))
  have g3 : H * (2 * (C + 1)) ≤ ε := (le_div_iff₀ (by positivity)).mp (hH.trans (min_le_right _ _))
  have hpow : H ^ R.order ≤ H := by
    calc H ^ R.order ≤ H ^ 1 := pow_le_pow_of_le_one hH0.le g2 ho
      _ = H := pow_one H
  have hCH : C * H ^ R.order < ε := by
    have := mul_le_mul_of_nonneg_left hpow c1
    nlinarith
  have hHε : H < ε := by nlinarith
  have herr : ∀ v, ReachWithin c (newSolver c t0 (y t0) h0 e0 Ks0) t0 b H v → ‖v.st.y - y v.st.t‖ ≤ C * H ^ R.order := fun v hr =>
    c3 c errNorm h0 H e0 Ks0 v hc hmm hdir hH0.le g1 hr
  obtain ⟨p1, p2⟩ := k2 c t0 b h0 H tol σ (y t0) e0 Ks0 hc hst htol hgr hμ1 hμ2 hb hdir hmax (by
    intro v hr h hp hle Ks
    have habs : |h * c.dir| = h := by
      rcases hc.dir with e | e <;> rw [e] <;> simp [abs_of_pos hp]
    have hf := C55_stored_acceleration_current hmm hr.reach
    obtain ⟨a1, x, a2, a3⟩ := ny_attempt (acc := acc) r1 r2 hE v.st.t v.st.y (h * c.dir) Ks
    have a4 := d3 v.st.t (hr.mem rfl) v.st.y (h * c.dir) ((herr v hr).trans_lt hCH) (by rw [habs]; exact hle.trans_lt hHε)
    rw [habs] at a4
    rw [hmm, hf, a1, a2]
    have hMt : 0 ≤ M / tol := by positivity
    exact ⟨⟨0, rfl, mul_nonneg hMt (by positivity)⟩, x, rfl, a3.trans (mul_le_mul_of_nonneg_left a4 hMt)⟩) (by push_cast; exact hσ) hmin1 hmin2
  refine ⟨p1, fun n r w hw => ?_⟩
  obtain ⟨q1, q2, q3, q4, q5, q6⟩ := p2 n r w hw
  have := herr w q4
  rw [q3] at this
  exact ⟨q1, q2, q3, q4, this, q5, q6⟩

end
end Extensisq
