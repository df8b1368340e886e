import Verif.Props.DriverControl
import Verif.Model.Methods

/-!
# Non-vacuity examples and counterexamples for the driver properties

Executed on concrete solvers over the rationals (kernel evaluation), plus one counterexample with
the real power function and the real Merson method.
-/

namespace Extensisq

/-! ## The hypotheses of C01-C04, C06-C08, C57, C58 are met by a concrete running solver -/

theorem exDecay_ok : CfgOK exDecay := exCfg_ok _ _ _ (Or.inl rfl) _ (by simp) _

/-- The example solver makes four successful steps and is then finished on `t_bound = 1`. -/
example : (((step exDecay 5 exStart).bind fun p => step exDecay 5 p.2).map
    fun p => (p.1, p.2.st.t, p.2.status)) = some (.ok, 1, .finished) := by decide +kernel

/-- C01, C04 instantiated: the reachable state of the example is inside the interval. -/
example {v : Solver ℚ ℚ ℚ} (hr : Reach exDecay exStart v) :
    0 ≤ v.st.t ∧ v.st.t ≤ 1 := by
  have := C01_never_past_t_bound_default exDecay_ok rfl rfl (v0 := exStart)
    (by norm_num [exDecay, exCfg, exStart, newSolver]) hr
  simp only [exDecay, exCfg, exStart, newSolver, sub_zero, one_mul] at this
  exact ⟨this.1, by linarith [this.2]⟩

/-- C03: a solver with a usable `max_step = 1/4`: the hypotheses hold and the step is cut to it. -/
example :
    let c := exCfg (fun _ y => -y) (scalarErr (1 / 1000) (1 / 1000)) (some 1) 1 (some (1 / 4)) 0
    MaxStepUsable c exStart.st ∧
    ((step c 5 exStart).map fun p => (p.1, p.2.st.t)) = some (.ok, 1 / 4) := by
  refine ⟨?_, by decide +kernel⟩
  intro m hm
  simp only [exCfg, Option.some.injEq] at hm
  subst hm
  norm_num [minStepOf, exStart, newSolver, exCfg]

/-- C08: a run with a rejected attempt (large first step, tight tolerance), backwards in time. -/
example :
    let c := exCfg (fun _ y => -y) (scalarErr (1 / 10 ^ 5) (1 / 10 ^ 5)) (some (-5)) (-1) none 0
    ((step c 9 (newSolver c 0 1 5 1 fun _ => 0)).map
      fun p => (p.1, decide (p.2.st.t < 0), p.2.st.nfs, p.2.st.nfev)) =
      some (.ok, true, 2, 1 + 3 * 4 + 1) := by decide +kernel

/-- C08 for `BS5` and `CFMR7osc`: attempts rejected by the preliminary error norm cost two evaluations
less (`q` in `C08_nfev_count`). `BS5`: an early (5 evaluations) and a late rejection (7), an accepted attempt (7);
`CFMR7osc`: 7 and 8 + 1. -/
example :
    let err := scalarErr (1 / 10 ^ 9) (1 / 10 ^ 9)
    let c := { exCfg (fun _ y => -y) err (some (-5)) (-1) none 0 with
      m := bs5Method ℚ (fun _ y => -y) err }
    let c' := { c with m := cfmr7oscMethod ℚ (fun _ y => -y) err }
    ((step c 9 (newSolver c 0 1 1 1 fun _ => 0)).map
      fun p => (p.1, p.2.st.nfs, p.2.st.nfev)) = some (.ok, 2, 1 + 5 + 7 + 7) ∧
    ((step c' 9 (newSolver c' 0 1 1 1 fun _ => 0)).map
      fun p => (p.1, p.2.st.nfs, p.2.st.nfev)) = some (.ok, 1, 1 + 7 + 8 + 1) := by decide +kernel

/-- C05: nan error norms end the step with a failure and leave the solution alone. -/
example :
    let c := exCfg (fun _ y => -y) (fun _ _ _ => .nan) (some 1) 1 none 0
    ((step c 5 (newSolver c 0 1 (1 / 2) 1 fun _ => 0)).map
      fun p => (p.1, p.2.st.t, p.2.st.y, p.2.status)) = some (.fail .overflow, 0, 1, .failed) := by
  decide +kernel

/-! ## Counterexamples (findings) -/

/-- **F3** (C01/C03 without the proviso). With `max_step` below the minimal step, `step()` can exceed
`max_step` and jump over `t_bound` (`common.py:310-331`): here `t_bound = 1`, `max_step = 6/10`, the
proposed step is `10^15` (hence `min_step ≈ 10`), and the solver ends at `t ≈ 10` with status
"finished". -/
theorem C01_counterexample_without_proviso :
    let c := exCfg (fun _ _ => 0) (fun _ _ _ => .num 0) (some 1) 1 (some (6 / 10)) 0
    ((step c 5 (newSolver c 0 1 (10 ^ 15) 1 fun _ => 0)).map
      fun p => (p.1, decide (p.2.st.t = 10), p.2.status)) = some (.ok, true, .finished) := by
  decide +kernel

/-- **F14** (C07). While the standard controller is active the explicit family does not limit the
growth of the step: an accepted first step of length 1/2 with error norm `10^-6` proposes a next step
more than `10^4` times longer, far above the factor 10. -/
theorem C07_standard_controller_unlimited :
    let c := exCfg (fun _ y => -y) (fun _ _ _ => .num (1 / 10 ^ 6)) (some 1) 1 none 0
    ((step c 5 (newSolver c 0 1 (1 / 2) 1 fun _ => 0)).map
      fun p => (p.1, decide (10 ^ 4 * (1 / 2) < p.2.st.hAbs))) = some (.ok, true) := by
  decide +kernel

/-- **F15** (C01/C06 need `g ≤ 1`). With a user supplied safety factor `g = 3` a *rejected* attempt is
retried with a longer step, and the retry may pass `t_bound`. -/
theorem C01_counterexample_large_safety :
    let c0 := exCfg (fun t _ => t) (fun _ _ e => if e = 0 then .num 1 else .num (1 / 2)) (some 1) 1
      none 0
    let c := { c0 with
      safety := 3
      m := { c0.m with trial := fun t y f h Ks =>
        { (c0.m.trial t y f h Ks) with err := if h < 2 then .num 1 else .num (1 / 2) } } }
    ((step c 5 (newSolver c 0 1 1 1 fun _ => 0)).map
      fun p => (p.1, p.2.st.t, p.2.status)) = some (.ok, 3, .finished) := by
  decide +kernel

/-- C06: a predefined controller has `g = 9/10 < 1`; the example solver meets the hypotheses of
`C06_step_returns`. -/
example : CfgOK exDecay ∧ exDecay.safety < 1 := ⟨exDecay_ok, by norm_num [exDecay, exCfg]⟩

/-- C06 counterpart: a concrete solver meeting the hypotheses of `C06_diverges_with_g_one`. -/
example :
    let c := { exCfg (fun _ y => -y) (fun _ _ _ => .num 1) (some 1) 1 none 0 with safety := 1 }
    ∀ fuel, step c fuel (newSolver c 0 1 (1 / 2) 1 fun _ => 0) = none := by
  intro c
  apply C06_diverges_with_g_one (c := c) rfl (by norm_num [c, exCfg])
  · intro e; simp only [c, exCfg, pwInv]; split_ifs <;> norm_num
  · intros; rfl
  · intros; rfl
  · rfl
  · simp [c, exCfg, newSolver]
  · decide +kernel

/-! ### F16 with the real power function, the real Merson tableau and default-like parameters -/

/-- `Me4` on the real line for `y' = -y` with `rtol = 10^-3`, `atol = 10^-6`, interval `[0, 10]`,
`max_step = inf`; `h_min_a = 10*epsneg/cdiff` with `epsneg = 2^-53`, `cdiff = 1/6`, and
`tiny_err = sqrt(tiny) = 2^-511`. Controller "G". -/
noncomputable def realMe4 : Cfg ℝ ℝ ℝ where
  m := rkMethod (Me4.tab ℝ) (fun _ y => -y)
    (fun y yNew e => .num (|e| / (1 / 10 ^ 6 + 1 / 10 ^ 3 * max |y| |yNew|)))
  tb := some 10
  dir := 1
  maxStep := none
  hMinA := 60 / 2 ^ 53
  hMinB := 1 / 2 ^ 511
  tinyErr := 1 / 2 ^ 511
  minFactor := 1 / 5
  errExp := -1 / 4
  minbeta1 := -7 / 40
  minbeta2 := 1 / 10
  minalpha := 0
  safety := 9 / 10
  safetySc := (9 / 10) ^ (3 / 10 : ℝ)
  pw := fun x e => x ^ e
  nfevStiff := 0

theorem realMe4_trial (y : ℝ) (hy : 0 < y) (Ks0 : ℕ → ℝ) :
    (realMe4.m.trial 0 y (-y) 1 Ks0).yNew = y * (53 / 144) ∧
    (realMe4.m.trial 0 y (-y) 1 Ks0).err =
      .num (y * (1 / 720) / (1 / 10 ^ 6 + 1 / 10 ^ 3 * y)) := by
  constructor
  · simp [realMe4, rkMethod, rkTrial, rkSolution, rkStages, rkStage, RKTable.tab, Me4,
      Finset.sum_range_succ, Tableau.fsal, rkError]
    norm_num [Function.update]
    ring
  · have h1 : |y * (-1 / 720)| = y * (1 / 720) := by
      rw [abs_mul, abs_of_pos hy]; norm_num
    have h2 : max |y| |y * (53 / 144)| = y := by
      rw [abs_mul, abs_of_pos hy]
      rw [abs_of_pos (by norm_num : (0:ℝ) < 53 / 144)]
      apply max_eq_left; linarith
    have key : (realMe4.m.trial 0 y (-y) 1 Ks0).err =
        .num (|y * (-1 / 720)| / (1 / 10 ^ 6 + 1 / 10 ^ 3 * max |y| |y * (53 / 144)|)) := by
      simp [realMe4, rkMethod, rkTrial, rkSolution, rkStages, rkStage, RKTable.tab, Me4,
        Finset.sum_range_succ, Tableau.fsal, rkError]
      norm_num [Function.update]
      ring_nf
      norm_num [abs_mul]
      ring
    rw [key, h1, h2]

/-- **F16** (C58). A solver for `y' = -y`, `y(0) = 10^-70` on `[0, 10]` with first step 1 and default
tolerances: the first step is accepted, the second one fails with "Required step size is less than
spacing between numbers" at `t = 1`, because the accepted step proposed `h_abs > 10^15`. -/
theorem C58_counterexample_tiny_error (Ks0 : ℕ → ℝ) :
    ∃ v1 v2, step realMe4 1 (newSolver realMe4 0 (1 / 10 ^ 70) 1 1 Ks0) = some (.ok, v1) ∧
      v1.st.t = 1 ∧ v1.status = .running ∧ step realMe4 1 v1 = some (.fail .tooSmall, v2) := by
  set y : ℝ := 1 / 10 ^ 70 with hy
  have hy0 : 0 < y := by rw [hy]; positivity
  have h511 : (2 : ℝ) ^ 511 = (2 ^ 73) ^ 7 := by rw [← pow_mul]
  set v0 := newSolver realMe4 0 y 1 1 Ks0 with hv0
  obtain ⟨hyn, herr⟩ := realMe4_trial y hy0 Ks0
  have hpre0 : (realMe4.m.trial 0 y (-y) 1 Ks0).pre = .num 0 := rfl
  set x : ℝ := y * (1 / 720) / (1 / 10 ^ 6 + 1 / 10 ^ 3 * y) with hx
  have hxpos : 0 < x := by rw [hx]; positivity
  have hden : (0:ℝ) < 1 / 10 ^ 6 + 1 / 10 ^ 3 * y := by positivity
  have hx64 : x ≤ 1 / 10 ^ 64 := by
    rw [hx, div_le_iff₀ hden, hy]; norm_num
  have hxtiny : ¬ x < 1 / 2 ^ 511 := by
    rw [not_lt, hx, le_div_iff₀ hden, hy, h511]; norm_num
  have hx1 : x < 1 := lt_of_le_of_lt hx64 (by norm_num)
  have hms : minStepOf realMe4 0 1 < 1 := by
    simp only [minStepOf, realMe4, h511]; rw [max_lt_iff]; constructor <;> norm_num
  have hre : reassess realMe4 v0.st = (1, minStepOf realMe4 0 1, true) := by
    have h1 : ¬ (1 : ℝ) < minStepOf realMe4 0 1 := not_lt.mpr hms.le
    have htb : realMe4.tb = some 10 := rfl
    have hmax : realMe4.maxStep = none := rfl
    unfold reassess
    rw [htb, hmax]
    simp only [hv0, newSolver, h1, overMax, decide_false, Bool.or_false, Bool.false_eq_true, if_false]
    norm_num
  set f0 : ℝ := 9 / 10 * x ^ (-1 / 4 : ℝ) with hf0
  -- the first step
  have hstep : stepImpl realMe4 1 v0.st = some (.ok, acceptState realMe4
      { v0.st with stdSc := true } (realMe4.m.trial 0 y (-y) 1 Ks0) 1 (1 * f0) x f0 false) := by
    unfold stepImpl loop
    rw [hre]
    dsimp only
    rw [if_neg (not_lt.mpr hms.le)]
    have e1 : (1 : ℝ) * realMe4.dir = 1 := by simp [realMe4]
    rw [e1]
    have e2 : v0.st.t = 0 := rfl
    have e3 : v0.st.y = y := rfl
    have e4 : v0.st.f = -y := rfl
    have e5 : v0.st.Ks = Ks0 := rfl
    rw [e2, e3, e4, e5, hpre0, herr]
    rw [if_neg (by simp [ENorm.gt])]
    dsimp only
    rw [if_pos hx1]
    have e6 : acceptFactor realMe4 { v0.st with stdSc := true } 1 x = some (f0, false) := by
      unfold acceptFactor
      have : realMe4.tinyErr = 1 / 2 ^ 511 := rfl
      rw [this, if_neg hxtiny]
      rfl
    have e6' := e6
    simp only [e2, e3, e4, e5] at e6'
    rw [e6']
    rfl
  let s1 := acceptState realMe4
      { v0.st with stdSc := true } (realMe4.m.trial 0 y (-y) 1 Ks0) 1 (1 * f0) x f0 false
  refine ⟨{ status := .running, tOld := some 0, st := s1 }, ?_⟩
  have ht1 : s1.t = 1 := by
    change (0 : ℝ) + 1 = 1; norm_num
  have hfail := C58_spurious_failure (c := realMe4) (b := 10)
    (v := { status := .running, tOld := some 0, st := s1 })
    rfl rfl (by rw [ht1]; norm_num) rfl (by simp only [realMe4]; positivity) (by
      rw [ht1]
      have e : s1.hAbs = 1 * f0 := rfl
      rw [e]
      have hpow : (10 : ℝ) ^ 16 ≤ x ^ (-1 / 4 : ℝ) := by
        have h1 : ((1 : ℝ) / 10 ^ 64) ^ (-1 / 4 : ℝ) ≤ x ^ (-1 / 4 : ℝ) :=
          Real.rpow_le_rpow_of_nonpos hxpos hx64 (by norm_num)
        have h2 : ((1 : ℝ) / 10 ^ 64) ^ (-1 / 4 : ℝ) = 10 ^ 16 := by
          have : (1 : ℝ) / 10 ^ 64 = (10 : ℝ) ^ (-64 : ℝ) := by
            rw [Real.rpow_neg (by norm_num)]; norm_num
          rw [this, ← Real.rpow_mul (by norm_num)]
          norm_num
        rw [← h2]; exact h1
      have : realMe4.hMinA = 60 / 2 ^ 53 := rfl
      rw [this, hf0]
      have h3 : |(10 : ℝ) - 1| = 9 := by norm_num
      rw [h3]
      nlinarith)
  obtain ⟨v2, hv2⟩ := hfail
  refine ⟨v2, ?_, ht1, rfl, hv2⟩
  unfold step
  have hrun : v0.status = .running := rfl
  have hne : ¬ (realMe4.tb = some v0.st.t) := by
    change ¬ (some (10 : ℝ) = some 0); norm_num
  rw [hrun]
  simp only [hne, if_false, hstep]
  have hreach : reached realMe4 s1.t = false := by
    rw [ht1]; norm_num [reached, realMe4]
  change some (Out.ok, (Solver.mk (if reached realMe4 s1.t = true then Status.finished
    else Status.running) (some 0) s1)) = _
  rw [hreach]
  rfl

end Extensisq
