import Verif.Lemmas.NoisyConv

/-!
# C107: inexact right-hand sides and starting values

The functions users pass to a solver are computed: interpolated data, inner iterations, rounding. With a function that is within
`δ` of the exact right-hand side near the solution and a starting value within `δ` of the exact one, the error of every history
of `step()` calls is at most a constant times `H^order + δ`: the error of the data is not amplified by the number of steps.
-/

set_option linter.unusedSectionVars false
set_option maxRecDepth 100000

namespace Extensisq
open Finset Asymptotics Filter Topology

variable {E : Type*} [NormedAddCommGroup E] [NormedSpace ℝ E]

/-- The nodes of a table are in the unit interval. -/
def nodesInQ (R : RKTable) : Prop := ∀ i, i < R.s → 0 ≤ (R.tab ℚ).C i ∧ (R.tab ℚ).C i ≤ 1

instance (R : RKTable) : Decidable (nodesInQ R) := by unfold nodesInQ; infer_instance

theorem nodesIn_of {R : RKTable} (h : nodesInQ R) : NodesIn (R.tab ℝ) := by
  intro i hi
  obtain ⟨h1, h2⟩ := h i hi
  have g1 := (Rat.cast_le (K := ℝ)).mpr h1
  have g2 := (Rat.cast_le (K := ℝ)).mpr h2
  push_cast [RKTable.tab] at g1 g2
  exact ⟨by simpa [RKTable.tab] using g1, by simpa [RKTable.tab] using g2⟩

theorem rational_nodes_in : ∀ R ∈ rationalRK, nodesInQ R := by decide +kernel

theorem decimal_nodes_in : ∀ e ∈ decimalOrders, nodesInQ e.R := by decide +kernel

/-- **C107.** Let `y` solve `y' = f(t, y)` between `t0` and `b`. There are constants `C` and `h*` such that every solver that is
given a function `g` within `δ` of `f` at the points within distance `r` of the solution, and a starting value within `δ`
of `y(t0)`, stays within `C (H^order + δ)` of `y` in every history of `step()` calls with steps of at most `H`. -/
theorem C107_inexact_data [CompleteSpace E] (R : RKTable) (hR : R ∈ rationalRK) {f : ℝ → E → E} {y : ℝ → E} {t0 b : ℝ}
    (hy : SolvesOn f y t0 b) {r : ℝ} (hr : 0 < r) :
    ∃ C hstar : ℝ, 0 ≤ C ∧ 0 < hstar ∧
      ∀ (c : Cfg ℝ E E) (g : ℝ → E → E) (errNorm : E → E → E → ENorm ℝ) (P : PreTest ℝ E) (y0 : E) (h0 H δ : ℝ) (e0 : ℕ)
        (Ks0 : ℕ → E) (v : Solver ℝ E E), CfgOK c → c.m = rkMethod (R.tab ℝ) g errNorm P → 0 ≤ c.dir * (b - t0) →
        0 ≤ H → H ≤ hstar → 0 ≤ δ → δ ≤ hstar → ‖y0 - y t0‖ ≤ δ →
        (∀ t ∈ Set.uIcc t0 b, ∀ x, ‖x - y t‖ ≤ r → ‖g t x - f t x‖ ≤ δ) →
        ReachWithin c (newSolver c t0 y0 h0 e0 Ks0) t0 b H v →
        ‖v.st.y - y v.st.t‖ ≤ C * (H ^ R.order + δ) := by
  obtain ⟨ρ, L, B, h1, h2, h3, h4⟩ := exists_tube hy
  obtain ⟨ε, C, Λ, g1, g2, g3, g4⟩ := main_bound R hR hy
  obtain ⟨_, _, r1, r2⟩ := rationalRK_rows R hR
  have ho : 1 ≤ R.order := by
    have : ∀ R ∈ rationalRK, 1 ≤ R.order := by decide +kernel
    exact this R hR
  obtain ⟨K, hstar, k1, k2, k3⟩ := noisy_global_error hy h1 h2 h3 h4 hr (nodesIn_of (rational_nodes_in R hR)) r1 r2 ho
    (r0 := ε) g1 g1 g2 g3 (D0 := 0) le_rfl
    (fun t ht u u' h k hk hu hh => by rw [zero_mul, add_zero]; exact g4 t ht u u' h k hk hu hh)
    (by rw [zero_mul]; exact ⟨g1, by linarith, by linarith⟩)
  refine ⟨K, hstar, k1, k2, ?_⟩
  intro c g errNorm P y0 h0 H δ e0 Ks0 v hc hm hdir hH0 hH hδ0 hδ hy0 hg hreach
  have := k3 c g errNorm P y0 h0 H δ e0 Ks0 v hc hm hdir hH0 hH hδ0 hδ hy0 hg hreach
  rwa [zero_mul, add_zero] at this

/-- **C107** for Ts5, Pr8 and Pr9, with the floor of C99. -/
theorem C107_inexact_data_decimal [CompleteSpace E] {e : DecEntry} (he : e ∈ decimalOrders) {f : ℝ → E → E} {y : ℝ → E}
    {t0 b : ℝ} (hy : SolvesOn f y t0 b) {ρ L B M : ℝ} (hp : ProblemBounds f y t0 b e.R.order ρ L B M) {r : ℝ}
    (hsmall : e.floor L M |b - t0| < ρ / 2) (hsmall' : e.floor L M |b - t0| < r / 2) :
    ∃ C hstar : ℝ, 0 ≤ C ∧ 0 < hstar ∧
      ∀ (c : Cfg ℝ E E) (g : ℝ → E → E) (errNorm : E → E → E → ENorm ℝ) (P : PreTest ℝ E) (y0 : E) (h0 H δ : ℝ) (e0 : ℕ)
        (Ks0 : ℕ → E) (v : Solver ℝ E E), CfgOK c → c.m = rkMethod (e.R.tab ℝ) g errNorm P → 0 ≤ c.dir * (b - t0) →
        0 ≤ H → H ≤ hstar → 0 ≤ δ → δ ≤ hstar → ‖y0 - y t0‖ ≤ δ →
        (∀ t ∈ Set.uIcc t0 b, ∀ x, ‖x - y t‖ ≤ r → ‖g t x - f t x‖ ≤ δ) →
        ReachWithin c (newSolver c t0 y0 h0 e0 Ks0) t0 b H v →
        ‖v.st.y - y v.st.t‖ ≤ C * (H ^ e.R.order + δ) + e.floor L M |b - t0| := by
  obtain ⟨r1, r2, r3, -⟩ := decimal_start he
  have hd := e.defect_nonneg
  obtain ⟨ε, C, g1, g2, g3⟩ := near_rk_step hp hy hd (by linarith : (0 : ℝ) ≤ 10 * e.defect) (decimal_near he)
  have hF0 : 0 ≤ e.floor L M |b - t0| := errorFloor_nonneg _ _ hp.lip hp.diff hd (by linarith) (abs_nonneg _)
  have hD0 : 0 ≤ nearConst e.R.order * M * e.defect + 2 * L * weightSum (e.R.tab ℝ) * (10 * e.defect) := by
    have := nearConst_nonneg e.R.order
    have := weightSum_nonneg (e.R.tab ℝ)
    have := hp.lip
    have := hp.diff
    positivity
  have hr : 0 < r := by linarith
  have hρ := hp.rho
  exact noisy_global_error hy hp.rho hp.lip hp.bnd hp.tube hr (nodesIn_of (decimal_nodes_in e he)) r1 r2 r3
    (r0 := ρ / 2) (by linarith) g1 g2 (mul_nonneg (mul_nonneg zero_le_two hp.lip) (weightSum_nonneg _)) hD0
    (fun t ht u u' h k hk hu hh => g3 t ht u u' h k hk hu hh) ⟨hsmall, hsmall, hsmall'⟩

/-- Histories with `max_step = H` towards `t_bound = b`. -/
theorem reachWithin_of_max_step {W : Type*} {c : Cfg ℝ E W} (hc : CfgOK c) {t0 b H : ℝ} (hb : c.tb = some b)
    (hdir : 0 ≤ c.dir * (b - t0)) (hmax : c.maxStep = some H) {v0 v : Solver ℝ E W} (h0 : v0.st.t = t0)
    (hu : ∀ w, Reach c v0 w → MaxStepUsable c w.st) (hr : Reach c v0 v) : ReachWithin c v0 t0 b H v := by
  subst h0
  induction hr with
  | refl => exact .refl
  | @tail w w' o fuel hr hs ih =>
    refine .tail ih hs (C03_max_step hc hmax (hu w hr) hs) ?_
    obtain ⟨a1, a2⟩ := C01_never_past_t_bound hc hb (v0 := v0) hdir hu (hr.tail hs)
    rcases hc.dir with hd | hd <;> rw [hd] at a1 a2
    · exact Set.mem_uIcc.mpr (Or.inl ⟨by linarith, by linarith⟩)
    · exact Set.mem_uIcc.mpr (Or.inr ⟨by linarith, by linarith⟩)

/-- **C107** with `max_step`. -/
theorem C107_max_step [CompleteSpace E] (R : RKTable) (hR : R ∈ rationalRK) {f : ℝ → E → E} {y : ℝ → E} {t0 b : ℝ}
    (hy : SolvesOn f y t0 b) {r : ℝ} (hr : 0 < r) :
    ∃ C hstar : ℝ, 0 ≤ C ∧ 0 < hstar ∧
      ∀ (c : Cfg ℝ E E) (g : ℝ → E → E) (errNorm : E → E → E → ENorm ℝ) (P : PreTest ℝ E) (y0 : E) (h0 H δ : ℝ) (e0 : ℕ)
        (Ks0 : ℕ → E) (v : Solver ℝ E E), CfgOK c → c.m = rkMethod (R.tab ℝ) g errNorm P → c.tb = some b →
        0 ≤ c.dir * (b - t0) → c.maxStep = some H → H ≤ hstar → 0 ≤ δ → δ ≤ hstar → ‖y0 - y t0‖ ≤ δ →
        (∀ t ∈ Set.uIcc t0 b, ∀ x, ‖x - y t‖ ≤ r → ‖g t x - f t x‖ ≤ δ) →
        (∀ w, Reach c (newSolver c t0 y0 h0 e0 Ks0) w → MaxStepUsable c w.st) →
        Reach c (newSolver c t0 y0 h0 e0 Ks0) v → ‖v.st.y - y v.st.t‖ ≤ C * (H ^ R.order + δ) := by
  obtain ⟨C, hstar, h1, h2, h3⟩ := C107_inexact_data R hR hy hr
  refine ⟨C, hstar, h1, h2, ?_⟩
  intro c g errNorm P y0 h0 H δ e0 Ks0 v hc hm hb hdir hmax hH hδ0 hδ hy0 hg hu hreach
  exact h3 c g errNorm P y0 h0 H δ e0 Ks0 v hc hm hdir (hc.maxStep H hmax).le hH hδ0 hδ hy0 hg
    (reachWithin_of_max_step hc hb hdir hmax rfl hu hreach)

/-- **C107.** Continuous dependence: two solvers of the same method with the same function, started `δ` apart, differ by at most
`C (H^order + δ)` at equal times, whatever their tolerances and controllers: their step sequences may differ. -/
theorem C107_two_runs [CompleteSpace E] (R : RKTable) (hR : R ∈ rationalRK) {f : ℝ → E → E} {y : ℝ → E} {t0 b : ℝ}
    (hy : SolvesOn f y t0 b) :
    ∃ C hstar : ℝ, 0 ≤ C ∧ 0 < hstar ∧
      ∀ (c c' : Cfg ℝ E E) (errNorm errNorm' : E → E → E → ENorm ℝ) (P P' : PreTest ℝ E) (y0 y0' : E) (h0 h0' H δ : ℝ)
        (e0 e0' : ℕ) (Ks0 Ks0' : ℕ → E) (v v' : Solver ℝ E E), CfgOK c → CfgOK c' → c.m = rkMethod (R.tab ℝ) f errNorm P →
        c'.m = rkMethod (R.tab ℝ) f errNorm' P' → 0 ≤ c.dir * (b - t0) → 0 ≤ c'.dir * (b - t0) → 0 ≤ H → H ≤ hstar → 0 ≤ δ →
        δ ≤ hstar → ‖y0 - y t0‖ ≤ δ → ‖y0' - y t0‖ ≤ δ → ReachWithin c (newSolver c t0 y0 h0 e0 Ks0) t0 b H v →
        ReachWithin c' (newSolver c' t0 y0' h0' e0' Ks0') t0 b H v' → v.st.t = v'.st.t →
        ‖v.st.y - v'.st.y‖ ≤ C * (H ^ R.order + δ) := by
  obtain ⟨C, hstar, h1, h2, h3⟩ := C107_inexact_data R hR hy one_pos
  refine ⟨2 * C, hstar, by positivity, h2, ?_⟩
  intro c c' errNorm errNorm' P P' y0 y0' h0 h0' H δ e0 e0' Ks0 Ks0' v v' hc hc' hm hm' hd hd' hH0 hH hδ0 hδ hy0 hy0' hr hr' ht
  have z : ∀ t ∈ Set.uIcc t0 b, ∀ x, ‖x - y t‖ ≤ 1 → ‖f t x - f t x‖ ≤ δ := fun t _ x _ => by rwa [sub_self, norm_zero]
  have a := h3 c f errNorm P y0 h0 H δ e0 Ks0 v hc hm hd hH0 hH hδ0 hδ hy0 z hr
  have a' := h3 c' f errNorm' P' y0' h0' H δ e0' Ks0' v' hc' hm' hd' hH0 hH hδ0 hδ hy0' z hr'
  rw [← ht] at a'
  have := norm_sub_le_norm_sub_add_norm_sub v.st.y (y v.st.t) v'.st.y
  rw [norm_sub_rev (y v.st.t)] at this
  linarith

/-! ## The hypotheses are met -/

/-- `y' = -y + δ` on `[0, 1]` with `max_step = η`: the right-hand side of the decaying exponential with an error of `δ`. -/
noncomputable def exCfgN (R : RKTable) (η δ : ℝ) : Cfg ℝ ℝ ℝ :=
  { exCfgH R η with m := rkMethod (R.tab ℝ) (fun _ y => -y + δ) (fun _ _ _ => .num (1 / 2)) PreTest.none }

theorem exCfgN_ok (R : RKTable) {η δ : ℝ} (hη : 0 < η) : CfgOK (exCfgN R η δ) := { exCfgH_ok R hη with }

theorem exCfgN_step (R : RKTable) {η δ : ℝ} (hη : 0 < η) (hη1 : η ≤ 1 / 2) : ∃ v', step (exCfgN R η δ) 1
    (newSolver (exCfgN R η δ) 0 (1 + δ) η 1 (fun _ => 0)) = some (.ok, v') := by
  have hms : minStepOf (exCfgN R η δ) 0 η = η := by
    simp only [minStepOf, exCfgN, exCfgH, zero_mul]
    exact max_eq_right hη.le
  have hre : reassess (exCfgN R η δ) (newSolver (exCfgN R η δ) 0 (1 + δ) η 1 (fun _ => 0)).st = (η, η, true) := by
    have e1 : (newSolver (exCfgN R η δ) 0 (1 + δ) η 1 (fun _ => 0)).st.hAbs = η := rfl
    have e2 : (newSolver (exCfgN R η δ) 0 (1 + δ) η 1 (fun _ => 0)).st.t = 0 := rfl
    have e3 : (newSolver (exCfgN R η δ) 0 (1 + δ) η 1 (fun _ => 0)).st.stdSc = true := rfl
    have e4 : (exCfgN R η δ).tb = some 1 := rfl
    have e5 : (exCfgN R η δ).maxStep = some η := rfl
    unfold reassess
    simp only [e1, e2, e3, e4, e5, hms, overMax, lt_irrefl, decide_false, Bool.or_false, Bool.false_eq_true, if_false]
    have : ¬ (|(1 : ℝ) - 0| < 2 * η) := by rw [sub_zero, abs_one]; linarith
    simp only [this, if_false]
  obtain ⟨s', hs'⟩ := loop_accepts (c := exCfgN R η δ) (n := 0)
    (s := { (newSolver (exCfgN R η δ) 0 (1 + δ) η 1 (fun _ => 0)).st with stdSc := true }) (h := η)
    (ms := η) (x := 1 / 2) (rej := false) (lt_irrefl η)
    (by simp [exCfgN, exCfgH, exCfgR, rkMethod, rkTrial, PreTest.none, ENorm.gt]) rfl (by norm_num) rfl rfl
  refine ⟨{ status := if reached (exCfgN R η δ) s'.t then .finished else .running,
            tOld := some 0, st := s' }, ?_⟩
  have h0 : (exCfgN R η δ).tb ≠ some (0 : ℝ) := by simp [exCfgN, exCfgH, exCfgR]
  unfold step
  change (if (exCfgN R η δ).tb = some 0 then _ else _) = _
  rw [if_neg h0]
  unfold stepImpl
  rw [hre]
  dsimp only
  rw [hs']
  rfl

/-- C107: all hypotheses are met by runs of every rational method on `y' = -y + δ`, `y(0) = 1 + δ` as an inexact version of
`y' = -y`, `y(0) = 1`. -/
example (R : RKTable) (hR : R ∈ rationalRK) : ∃ C hstar : ℝ, 0 < hstar ∧ ∀ η δ, 0 < η → η ≤ hstar → 0 ≤ δ → δ ≤ hstar →
    ∃ v', step (exCfgN R η δ) 1 (newSolver (exCfgN R η δ) 0 (1 + δ) η 1 (fun _ => 0)) = some (.ok, v') ∧
      |v'.st.y - Real.exp (-v'.st.t)| ≤ C * (η ^ R.order + δ) := by
  obtain ⟨C, hstar, _, h2, h3⟩ := C107_max_step R hR exDecay_solves one_pos
  refine ⟨C, min hstar (1 / 2), lt_min h2 (by norm_num), fun η δ hη hle hδ0 hδ => ?_⟩
  obtain ⟨v', hv⟩ := exCfgN_step R (δ := δ) hη (hle.trans (min_le_right _ _))
  refine ⟨v', hv, ?_⟩
  exact h3 (exCfgN R η δ) _ _ _ (1 + δ) η η δ 1 (fun _ => 0) v' (exCfgN_ok R hη) rfl rfl (by norm_num [exCfgN, exCfgH, exCfgR])
    rfl (hle.trans (min_le_left _ _)) hδ0 (hδ.trans (min_le_left _ _)) (by simp [abs_of_nonneg hδ0])
    (fun t _ x _ => by simp [abs_of_nonneg hδ0])
    (fun w _ m hm => by
      simp only [exCfgN, exCfgH, Option.some.injEq] at hm
      simp only [minStepOf, exCfgN, exCfgH, zero_mul]
      rw [← hm]
      exact max_le hη.le le_rfl)
    (.tail .refl hv)

end Extensisq
