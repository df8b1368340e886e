import Verif.Props.Cheb
import Mathlib.Tactic.Module
import Mathlib.Analysis.InnerProductSpace.PiL2

/-!
# C68: the spectral radius estimator of SSV2stab
-/

set_option linter.unusedSectionVars false

namespace Extensisq

section
variable {V : Type*} [NormedAddCommGroup V] [NormedSpace ℝ V]

/-- The constants are positive: `sqrtu`, `uround`, `small = 1/max_step`. -/
structure RhoOK (p : RhoIn V) : Prop where
  sqrtu : 0 < p.sqrtu
  uround : 0 < p.uround
  small : 0 < p.small

theorem rhoStart_pos {p : RhoIn V} (hp : RhoOK p) (vec : V) : 0 < (rhoStart p vec).1 := by
  have h1 := hp.sqrtu
  have h2 := hp.uround
  unfold rhoStart
  split_ifs with a b d
  · exact mul_pos (lt_of_le_of_ne (norm_nonneg _) (Ne.symm a.1)) h1
  · exact mul_pos (lt_of_le_of_ne (norm_nonneg _) (Ne.symm b)) h1
  · exact h2
  · exact h2

/-- The invariant at the start of iteration `iter ≥ 1`: the vector is at distance `dynrm` from `y`, or the
previous quotient was 0. -/
theorem rhoLoop_bound {p : RhoIn V} (hp : RhoOK p) {L : ℝ} (hL : 0 ≤ L)
    (hlip : ∀ v, ‖p.fs v - p.fn‖ ≤ L * ‖v - p.yn‖) {d : ℝ} (hd : 0 < d) (vec0 : V) :
    ∀ (left iter : ℕ) (v : V) (sigmal : ℝ), (iter ≠ 0 → ‖v - p.yn‖ = d ∨ sigmal = 0) →
      ∀ x, (rhoLoop p d vec0 left iter v sigmal).spr = some x →
        0 ≤ x ∧ x ≤ max (6 / 5 * L) (6 / 500 * p.small)
  | 0, _, _, _, _, x, h => by simp [rhoLoop] at h
  | left + 1, iter, v, sigmal, hi, x, h => by
    unfold rhoLoop at h
    dsimp only at h
    have hs0 : 0 ≤ ‖p.fs v - p.fn‖ / d := div_nonneg (norm_nonneg _) hd.le
    split_ifs at h with hc
    · simp only [Option.some.injEq] at h
      subst h
      refine ⟨by positivity, ?_⟩
      rcases hi hc.1 with h1 | h1
      · apply le_max_of_le_left
        have := hlip v
        rw [h1, ← div_le_iff₀ hd] at this
        linarith
      · apply le_max_of_le_right
        have hb := hc.2
        rw [h1, sub_zero, abs_of_nonneg hs0] at hb
        have hsm := hp.small
        rcases le_total (‖p.fs v - p.fn‖ / d) p.small with h2 | h2
        · rw [max_eq_right h2] at hb; linarith
        · rw [max_eq_left h2] at hb; linarith
    · refine rhoLoop_bound hp hL hlip hd vec0 left (iter + 1) _ _ (fun _ => ?_) x h
      unfold rhoNext
      split_ifs with hz
      · left
        rw [add_sub_cancel_left, norm_smul, Real.norm_of_nonneg (by positivity), div_mul_cancel₀ _ hz]
      · right
        push Not at hz
        rw [hz, zero_div]

theorem rhoLoop_evals (p : RhoIn V) (d : ℝ) (vec0 : V) :
    ∀ (left iter : ℕ) (v : V) (sigmal : ℝ),
      (rhoLoop p d vec0 left iter v sigmal).evals ≤ iter + left ∧
      ((rhoLoop p d vec0 left iter v sigmal).spr = none →
        (rhoLoop p d vec0 left iter v sigmal).evals = iter + left) ∧
      (∀ x, (rhoLoop p d vec0 left iter v sigmal).spr = some x → 2 ≤ (rhoLoop p d vec0 left iter v sigmal).evals)
  | 0, iter, v, sigmal => by simp [rhoLoop]
  | left + 1, iter, v, sigmal => by
    unfold rhoLoop
    dsimp only
    split_ifs with hc
    · refine ⟨by dsimp only; omega, (fun h => by cases h), fun x _ => ?_⟩
      have := hc.1
      dsimp only
      omega
    · obtain ⟨h1, h2, h3⟩ := rhoLoop_evals p d vec0 left (iter + 1) (rhoNext p d iter v) (‖p.fs v - p.fn‖ / d)
      exact ⟨by omega, fun h => by rw [h2 h]; omega, h3⟩

/-- **C68**. The estimator makes at most 50 evaluations, exactly 50 if it fails, and at least 2 if it
succeeds. -/
theorem C68_evaluations (p : RhoIn V) (vec : Option V) :
    (rhoEst p vec).evals ≤ 50 ∧ ((rhoEst p vec).spr = none → (rhoEst p vec).evals = 50) ∧
    (∀ x, (rhoEst p vec).spr = some x → 2 ≤ (rhoEst p vec).evals) := by
  have := rhoLoop_evals p (rhoStart p (vec.getD p.fn)).1 (vec.getD p.fn) 50 0 (rhoStart p (vec.getD p.fn)).2 0
  simpa [rhoEst] using this

/-- **C68**. The estimate never exceeds the Lipschitz constant of the right-hand side by more than 20
percent, except that values below `0.012/max_step`, which do not restrict the step, are possible. It is never
negative. No assumption on the stored vector is needed. -/
theorem C68_never_much_too_large {p : RhoIn V} (hp : RhoOK p) (hfn : p.fn = p.fs p.yn) {L : ℝ} (hL : 0 ≤ L)
    (hlip : ∀ u v, ‖p.fs u - p.fs v‖ ≤ L * ‖u - v‖) (vec : Option V) {x : ℝ}
    (hx : (rhoEst p vec).spr = some x) : 0 ≤ x ∧ x ≤ max (6 / 5 * L) (6 / 500 * p.small) :=
  rhoLoop_bound hp hL (fun v => by rw [hfn]; exact hlip v p.yn) (rhoStart_pos hp _) _ 50 0 _ 0
    (fun h => absurd rfl h) x hx

/-- **C68**. The estimate is never negative (this is `ChebOK.rho`, which the properties C42, C43 and C67 of
the driver assume). -/
theorem C68_nonneg {p : RhoIn V} (hp : RhoOK p) (vec : Option V) {x : ℝ} (hx : (rhoEst p vec).spr = some x) :
    0 ≤ x := by
  have key : ∀ (left iter : ℕ) (v : V) (sigmal : ℝ) {d : ℝ}, 0 < d → ∀ vec0,
      (rhoLoop p d vec0 left iter v sigmal).spr = some x → 0 ≤ x := by
    intro left
    induction left with
    | zero => intro iter v sigmal d _ vec0 h; simp [rhoLoop] at h
    | succ left ih =>
      intro iter v sigmal d hd vec0 h
      unfold rhoLoop at h
      dsimp only at h
      split_ifs at h with hc
      · simp only [Option.some.injEq] at h
        subst h
        have : 0 ≤ ‖p.fs v - p.fn‖ / d := div_nonneg (norm_nonneg _) hd.le
        positivity
      · exact ih _ _ _ hd vec0 h
  exact key 50 0 _ 0 (rhoStart_pos hp _) _ hx

/-- **C68**. If the right-hand side is `f(y_n) + λ x` for perturbations `x` in a subspace containing the start
vector, the result is exactly `1.2 |λ|`, after two evaluations. -/
theorem C68_invariant_subspace {p : RhoIn V} (hp : RhoOK p) (hyn : p.yn ≠ 0) (W : Submodule ℝ V) {lam : ℝ}
    (hlam : lam ≠ 0) (hfs : ∀ x ∈ W, p.fs (p.yn + x) = p.fn + lam • x) (vec : Option V)
    (hv : vec.getD p.fn ∈ W) (hv0 : vec.getD p.fn ≠ 0) :
    (rhoEst p vec).spr = some (6 / 5 * |lam|) ∧ (rhoEst p vec).evals = 2 := by
  generalize hvd : vec.getD p.fn = u at hv hv0
  have hyn' : ‖p.yn‖ ≠ 0 := norm_ne_zero_iff.mpr hyn
  have hu' : ‖u‖ ≠ 0 := norm_ne_zero_iff.mpr hv0
  have hd : 0 < ‖p.yn‖ * p.sqrtu := mul_pos (norm_pos_iff.mpr hyn) hp.sqrtu
  set d := ‖p.yn‖ * p.sqrtu with hdd
  have hup : 0 < ‖u‖ := norm_pos_iff.mpr hv0
  have e0 : rhoStart p u = (d, p.yn + (d / ‖u‖) • u) := by
    unfold rhoStart; rw [if_pos ⟨hyn', hu'⟩]
  have hx0 : (d / ‖u‖) • u ∈ W := W.smul_mem _ hv
  have hx0n : ‖(d / ‖u‖) • u‖ = d := by
    rw [norm_smul, Real.norm_of_nonneg (by positivity), div_mul_cancel₀ _ hu']
  generalize hx0d : (d / ‖u‖) • u = x0 at *
  have hstep : ∀ x ∈ W, ‖x‖ = d → ‖p.fs (p.yn + x) - p.fn‖ = |lam| * d := by
    intro x hx hxn
    rw [hfs x hx, add_sub_cancel_left, norm_smul, Real.norm_eq_abs, hxn]
  have hs : ∀ x ∈ W, ‖x‖ = d → ‖p.fs (p.yn + x) - p.fn‖ / d = |lam| := by
    intro x hx hxn
    rw [hstep x hx hxn, mul_div_assoc, div_self hd.ne', mul_one]
  have hnext : rhoNext p d 0 (p.yn + x0) = p.yn + (d / (|lam| * d)) • lam • x0 := by
    unfold rhoNext
    have hne : |lam| * d ≠ 0 := mul_ne_zero (abs_ne_zero.mpr hlam) hd.ne'
    rw [hstep x0 hx0 hx0n, if_pos hne, hfs x0 hx0, add_sub_cancel_left]
  have hx1 : (d / (|lam| * d)) • lam • x0 ∈ W := W.smul_mem _ (W.smul_mem _ hx0)
  have hx1n : ‖(d / (|lam| * d)) • lam • x0‖ = d := by
    have := abs_pos.mpr hlam
    rw [norm_smul, norm_smul, Real.norm_of_nonneg (by positivity), Real.norm_eq_abs, hx0n]
    field_simp
  have key : rhoEst p vec = ⟨some (6 / 5 * |lam|), 2, some ((d / (|lam| * d)) • lam • x0)⟩ := by
    unfold rhoEst
    rw [hvd, e0]
    unfold rhoLoop
    dsimp only
    rw [if_neg (fun h => h.1 rfl), hnext]
    unfold rhoLoop
    dsimp only
    rw [hs x0 hx0 hx0n, hs _ hx1 hx1n, if_pos]
    · rw [add_sub_cancel_left]
    · refine ⟨by norm_num, ?_⟩
      rw [sub_self, abs_zero]
      have := hp.small
      have := abs_nonneg lam
      positivity
  rw [key]
  exact ⟨rfl, rfl⟩

/-- **C68**. On `y' = c + λ (y - y*)` the estimate is `1.2 |λ|`. -/
theorem C68_scalar_jacobian {p : RhoIn V} (hp : RhoOK p) (hyn : p.yn ≠ 0) {lam : ℝ} (hlam : lam ≠ 0)
    (hfs : ∀ v, p.fs v = p.fn + lam • (v - p.yn)) (vec : Option V) (hv0 : vec.getD p.fn ≠ 0) :
    (rhoEst p vec).spr = some (6 / 5 * |lam|) ∧ (rhoEst p vec).evals = 2 :=
  C68_invariant_subspace hp hyn ⊤ hlam (fun x _ => by rw [hfs, add_sub_cancel_left]) vec trivial hv0

/-- **C68** (limitation). The estimate is not always an upper bound of the spectral radius: if the solution of a
linear problem `y' = J y` is an eigenvector with eigenvalue `λ` when the solver starts, the estimate is
`1.2 |λ|`, whatever the other eigenvalues are. -/
theorem C68_eigenvector_start {p : RhoIn V} (hp : RhoOK p) (hyn : p.yn ≠ 0) (J : V →ₗ[ℝ] V) (hfs : p.fs = J)
    (hfn : p.fn = p.fs p.yn) {lam : ℝ} (hlam : lam ≠ 0) (he : J p.yn = lam • p.yn) :
    (rhoEst p none).spr = some (6 / 5 * |lam|) := by
  refine (C68_invariant_subspace hp hyn (Submodule.span ℝ {p.yn}) hlam ?_ none ?_ ?_).1
  · intro x hx
    rw [Submodule.mem_span_singleton] at hx
    obtain ⟨a, rfl⟩ := hx
    rw [hfn, hfs, map_add, map_smul, he]
    module
  · simp only [Option.getD_none]
    rw [hfn, hfs, he]
    exact Submodule.smul_mem _ _ (Submodule.mem_span_singleton_self _)
  · simp only [Option.getD_none]
    rw [hfn, hfs, he]
    exact smul_ne_zero hlam hyn

/-- **C68** (finding). A solver started at an equilibrium `y_n ≠ 0` (`fun(t, y_n) = 0`) makes the first
evaluation of the power method at `y = 0`, however far from the solution that is. -/
theorem C68_first_evaluation_at_origin (p : RhoIn V) (hyn : p.yn ≠ 0) (hfn : p.fn = 0) :
    (rhoStart p ((none : Option V).getD p.fn)).2 = 0 ∧
      ‖(rhoStart p ((none : Option V).getD p.fn)).2 - p.yn‖ = ‖p.yn‖ := by
  have h : (rhoStart p ((none : Option V).getD p.fn)).2 = 0 := by
    unfold rhoStart
    simp [hfn, hyn]
  refine ⟨h, ?_⟩
  rw [h, zero_sub, norm_neg]

/-- Otherwise all evaluations are close: when `y_n ≠ 0` and the start vector is not zero, the first evaluation
is at distance `sqrt(uround) ‖y_n‖` from `y_n`. -/
theorem C68_first_evaluation_close {p : RhoIn V} (hp : RhoOK p) (hyn : p.yn ≠ 0) {vec : V} (hv : vec ≠ 0) :
    ‖(rhoStart p vec).2 - p.yn‖ = p.sqrtu * ‖p.yn‖ := by
  have h1 : ‖p.yn‖ ≠ 0 := norm_ne_zero_iff.mpr hyn
  have h2 : ‖vec‖ ≠ 0 := norm_ne_zero_iff.mpr hv
  have h3 := hp.sqrtu
  unfold rhoStart
  rw [if_pos ⟨h1, h2⟩]
  dsimp only
  rw [add_sub_cancel_left, norm_smul, Real.norm_of_nonneg (by positivity), div_mul_cancel₀ _ h2, mul_comm]

/-- The next evaluations are at the same distance, unless the difference of `f` vanishes. -/
theorem C68_next_evaluation_close {p : RhoIn V} {d : ℝ} (hd : 0 < d) (iter : ℕ) {v : V} (h : p.fs v ≠ p.fn) :
    ‖rhoNext p d iter v - p.yn‖ = d := by
  have hz : ‖p.fs v - p.fn‖ ≠ 0 := norm_ne_zero_iff.mpr (sub_ne_zero.mpr h)
  unfold rhoNext
  rw [if_pos hz, add_sub_cancel_left, norm_smul, Real.norm_of_nonneg (by positivity), div_mul_cancel₀ _ hz]

end

/-- The example of the next statements: a scalar problem at `y = 1` with a constant right-hand side 1. -/
def rhoFlipIn (u : ℝ) : RhoIn ℝ where
  fs := fun _ => 1
  yn := 1
  fn := 1
  small := 1
  sqrtu := u
  uround := u ^ 2
  flip := fun _ v => -v
  one := 1

/-- **C68** (finding). When the difference of `f` vanishes, the code changes the sign of a component of the
argument `v` instead of a component of the perturbation `v - y_n`, so that the next evaluation is at `-v`, at a
distance of more than `2 ‖y_n‖` instead of `sqrt(uround) ‖y_n‖`. -/
theorem C68_flip_leaves_neighbourhood {u : ℝ} (hu : 0 < u) :
    RhoOK (rhoFlipIn u) ∧ (rhoFlipIn u).fn = (rhoFlipIn u).fs (rhoFlipIn u).yn ∧
    (rhoStart (rhoFlipIn u) 1).1 = u ∧ (rhoStart (rhoFlipIn u) 1).2 = 1 + u ∧
    rhoNext (rhoFlipIn u) u 0 (1 + u) = -(1 + u) ∧ ‖rhoNext (rhoFlipIn u) u 0 (1 + u) - (rhoFlipIn u).yn‖ = 2 + u := by
  have h1 : rhoNext (rhoFlipIn u) u 0 (1 + u) = -(1 + u) := by
    unfold rhoNext rhoFlipIn
    simp
  refine ⟨⟨hu, by show (0 : ℝ) < u ^ 2; positivity, by norm_num [rhoFlipIn]⟩, rfl, ?_, ?_, h1, ?_⟩
  · unfold rhoStart rhoFlipIn; simp
  · unfold rhoStart rhoFlipIn; simp
  · rw [h1]
    show ‖-(1 + u) - 1‖ = 2 + u
    rw [Real.norm_eq_abs, abs_of_neg (by linarith)]
    ring

/-- C68: the hypotheses of the statements above are met, for instance by `y' = -3 y` at `y = 2`: the result is
`3.6`. -/
example : (rhoEst (V := ℝ) ⟨fun v => -3 * v, 2, -6, 1, 1 / 1000, 1 / 1000000, fun _ v => -v, 1⟩ none).spr
    = some (6 / 5 * |(-3 : ℝ)|) :=
  (C68_scalar_jacobian ⟨by norm_num, by norm_num, by norm_num⟩ (by norm_num) (by norm_num)
    (fun v => by simp only [smul_eq_mul]; ring) none (by norm_num)).1

/-- C68: an eigenvector start that misses the dominant eigenvalue: `J = diag(-1, -100)`, `y = (1, 0)`; the
estimate is 1.2. -/
example : ∃ (p : RhoIn (EuclideanSpace ℝ (Fin 2))) (J : EuclideanSpace ℝ (Fin 2) →ₗ[ℝ] EuclideanSpace ℝ (Fin 2)),
    RhoOK p ∧ p.fs = J ∧ p.fn = p.fs p.yn ∧ (∃ e, e ≠ 0 ∧ J e = (-100 : ℝ) • e) ∧
      (rhoEst p none).spr = some (6 / 5) := by
  let J : EuclideanSpace ℝ (Fin 2) →ₗ[ℝ] EuclideanSpace ℝ (Fin 2) :=
    Matrix.toEuclideanLin (Matrix.diagonal ![-1, -100])
  have hJ0 : J (EuclideanSpace.single 0 1) = (-1 : ℝ) • EuclideanSpace.single 0 1 := by
    ext i; fin_cases i <;> simp [J, Matrix.toEuclideanLin, Matrix.mulVec_diagonal]
  have hJ1 : J (EuclideanSpace.single 1 1) = (-100 : ℝ) • EuclideanSpace.single 1 1 := by
    ext i; fin_cases i <;> simp [J, Matrix.toEuclideanLin, Matrix.mulVec_diagonal]
  have hne : ∀ i : Fin 2, (EuclideanSpace.single i 1 : EuclideanSpace ℝ (Fin 2)) ≠ 0 := by
    intro i h
    have := congrArg (fun v => v i) h
    simp at this
  let p : RhoIn (EuclideanSpace ℝ (Fin 2)) :=
    ⟨J, EuclideanSpace.single 0 1, J (EuclideanSpace.single 0 1), 1, 1 / 1000, 1 / 1000000, fun _ v => -v, 0⟩
  have hp : RhoOK p := ⟨by norm_num [p], by norm_num [p], by norm_num [p]⟩
  refine ⟨p, J, hp, rfl, rfl, ⟨_, hne 1, hJ1⟩, ?_⟩
  have := C68_eigenvector_start hp (hne 0) J rfl rfl (lam := -1) (by norm_num) hJ0
  rw [this]
  norm_num

end Extensisq
