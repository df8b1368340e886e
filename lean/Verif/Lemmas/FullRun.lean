import Verif.Props.Convergence

/-!
# Complete runs exist

With `max_step = η` and error estimates that are always accepted, the driver goes from `t0` to `t_bound` with steps of at most `η`.
Used to show that the hypotheses of the convergence theorems are met by complete runs with arbitrarily small steps.
-/

set_option linter.unusedSectionVars false

namespace Extensisq

/-- Options for a run with all steps accepted and steps of at most `η`. -/
structure Easy {E W : Type*} (c : Cfg ℝ E W) (b η : ℝ) : Prop where
  dir : c.dir = 1 ∨ c.dir = -1
  maxStep : c.maxStep = some η
  tb : c.tb = some b
  hMinA : c.hMinA = 0
  hMinB : c.hMinB ≤ η / 2
  hMinB0 : 0 ≤ c.hMinB
  tiny : 0 < c.tinyErr
  stiff : c.nfevStiff = 0
  err : ∀ t y f h Ks, (c.m.trial t y f h Ks).err = .num 0
  pre : ∀ t y f h Ks, (c.m.trial t y f h Ks).pre.gt 1 = false

/-- State of such a run at a distance `d` of the end. -/
structure EasyAt {E W : Type*} (c : Cfg ℝ E W) (b η : ℝ) (v : Solver ℝ E W) (d : ℝ) : Prop where
  run : v.status = .running
  pos : η / 2 < d
  time : b - v.st.t = c.dir * d
  step : min η d ≤ v.st.hAbs
  fac : 1 ≤ v.st.maxFactor

theorem easy_reassess {E W : Type*} {c : Cfg ℝ E W} {b η : ℝ} (hc : Easy c b η) (hη : 0 < η) {v : Solver ℝ E W} {d : ℝ}
    (h : EasyAt c b η v d) : ∃ st h1, reassess c v.st = (h1, c.hMinB, st) ∧ η / 2 < h1 ∧ h1 ≤ η ∧
      (h1 = d ∨ (min η (d - h1) ≤ h1 ∧ η / 2 < d - h1)) := by
  have hms : minStepOf c v.st.t v.st.hAbs = c.hMinB := by
    unfold minStepOf
    rw [hc.hMinA, zero_mul]
    exact max_eq_right hc.hMinB0
  have hd0 : 0 < d := (half_pos hη).trans h.pos
  have hd : |b - v.st.t| = d := by
    rw [h.time]
    rcases hc.dir with e | e <;> rw [e] <;> simp [abs_of_pos hd0]
  have hlo : c.hMinB ≤ v.st.hAbs := hc.hMinB.trans ((le_min (by linarith) h.pos.le).trans h.step)
  have hB := hc.hMinB
  have key : ∃ st, ∃ h1, h1 = min η v.st.hAbs ∧ reassess c v.st =
      (if d < 2 * h1 then (if d > h1 then (max (d / 2) c.hMinB, c.hMinB, true) else (d, c.hMinB, st)) else (h1, c.hMinB, st)) := by
    unfold reassess
    simp only [hms, hc.maxStep, hc.tb, hd, capMax, overMax]
    by_cases h1 : η < v.st.hAbs
    · refine ⟨true, min η v.st.hAbs, rfl, ?_⟩
      have e : max c.hMinB v.st.hAbs = v.st.hAbs := max_eq_right hlo
      simp [h1, e]
    · refine ⟨v.st.stdSc, min η v.st.hAbs, rfl, ?_⟩
      have e1 : min η v.st.hAbs = v.st.hAbs := min_eq_right (not_lt.mp h1)
      simp [h1, not_lt.mpr hlo, e1]
  obtain ⟨st, h1, e1, e2⟩ := key
  have hle : h1 ≤ η := e1 ▸ min_le_left _ _
  have hge : min η d ≤ h1 := by rw [e1]; exact le_min (min_le_left _ _) h.step
  have hp := h.pos
  by_cases c1 : d < 2 * h1
  · rw [if_pos c1] at e2
    by_cases c2 : d > h1
    · rw [if_pos c2] at e2
      have hηd : η < d := by
        by_contra hcon
        rw [min_eq_right (not_lt.mp hcon)] at hge
        linarith
      rw [max_eq_left (by linarith)] at e2
      exact ⟨_, _, e2, by linarith, by linarith, Or.inr ⟨(min_le_right _ _).trans (by linarith), by linarith⟩⟩
    · rw [if_neg c2] at e2
      exact ⟨_, _, e2, hp, (not_lt.mp c2).trans hle, Or.inl rfl⟩
  · rw [if_neg c1] at e2
    have hηd : η < d := by
      by_contra hcon
      rw [min_eq_right (not_lt.mp hcon)] at hge
      linarith
    rw [min_eq_left hηd.le] at hge
    exact ⟨_, _, e2, by linarith, hle, Or.inr ⟨(min_le_left _ _).trans hge, by linarith⟩⟩

/-- One step of such a run. -/
theorem easy_step {E W : Type*} {c : Cfg ℝ E W} {b η : ℝ} (hc : Easy c b η) (hη : 0 < η) {v : Solver ℝ E W} {d : ℝ}
    (h : EasyAt c b η v d) : ∃ v' h1, step c 1 v = some (.ok, v') ∧ c.tb ≠ some v.st.t ∧ v'.st.t = v.st.t + h1 * c.dir ∧
      η / 2 < h1 ∧ h1 ≤ η ∧ (h1 = d ∨ EasyAt c b η v' (d - h1)) := by
  obtain ⟨st, h1, e, g1, g2, g3⟩ := easy_reassess hc hη h
  have hd0 : 0 < d := (half_pos hη).trans h.pos
  have hdir : c.dir ≠ 0 := by rcases hc.dir with e | e <;> rw [e] <;> norm_num
  have hne : c.tb ≠ some v.st.t := by
    rw [hc.tb]
    intro hcon
    have hb := h.time
    rw [Option.some.inj hcon, sub_self] at hb
    rcases mul_eq_zero.mp hb.symm with h0 | h0
    · exact hdir h0
    · exact hd0.ne' h0
  obtain ⟨s', hs', ht, hh, hf⟩ : ∃ s', stepImpl c 1 v.st = some (.ok, s') ∧ s'.t = v.st.t + h1 * c.dir ∧
      s'.hAbs = h1 * v.st.maxFactor ∧ 1 ≤ s'.maxFactor := by
    unfold stepImpl
    rw [e]
    unfold loop
    have hB : ¬ h1 < c.hMinB := not_lt.mpr (by linarith [hc.hMinB])
    simp only [hB, if_false, hc.pre, Bool.false_eq_true, hc.err, zero_lt_one, if_true, diagnose, hc.stiff, acceptFactor, hc.tiny]
    refine ⟨_, rfl, rfl, rfl, ?_⟩
    simp only [acceptState]
    split_ifs
    · norm_num [MAX_FACTOR]
    · exact h.fac
  have hs : step c 1 v = some (.ok, ⟨if reached c s'.t then .finished else .running, some v.st.t, s'⟩) := by
    unfold step
    rw [h.run]
    dsimp only
    rw [if_neg hne, hs']
  refine ⟨_, h1, hs, hne, ht, g1, g2, ?_⟩
  rcases g3 with g3 | ⟨g3, g4⟩
  · exact Or.inl g3
  · refine Or.inr ⟨?_, g4, ?_, ?_, hf⟩
    · have hb := h.time
      have : reached c s'.t = false := by
        unfold reached
        rw [hc.tb]
        dsimp only
        rw [decide_eq_false_iff_not, not_le, ht]
        have e2 : c.dir * c.dir = 1 := by rcases hc.dir with e | e <;> rw [e] <;> norm_num
        have e3 : c.dir * (v.st.t + h1 * c.dir - b) = -(d - h1) * (c.dir * c.dir) := by
          linear_combination (-c.dir) * hb
        rw [e3, e2]
        linarith
      rw [this]
      rfl
    · dsimp only
      rw [ht]
      linear_combination h.time
    · dsimp only
      rw [hh]
      have : h1 ≤ h1 * v.st.maxFactor := le_mul_of_one_le_right (by linarith) h.fac
      exact g3.trans this

/-- The whole run, from a given state. -/
theorem easy_run {E W : Type*} [NormedAddCommGroup E] [NormedSpace ℝ E] {c : Cfg ℝ E W} {t0 b η : ℝ} (hc : Easy c b η) (hη : 0 < η)
    (hdir : 0 ≤ c.dir * (b - t0)) {v0 : Solver ℝ E W} : ∀ (n : ℕ) (d : ℝ) (v : Solver ℝ E W), d ≤ n * (η / 2) → EasyAt c b η v d →
      ReachWithin c v0 t0 b η v → v.st.t ∈ Set.uIcc t0 b → (∃ w, ReachWithin c v0 t0 b η w ∧ w.st.t = b) ∧
      ∀ t ∈ Set.uIcc v.st.t b, ∃ u u', ReachWithin c v0 t0 b η u ∧ u.st.t ∈ Set.uIcc t0 b ∧ c.tb ≠ some u.st.t ∧
        step c 1 u = some (.ok, u') ∧ |u'.st.t - u.st.t| ≤ η ∧ t ∈ Set.uIcc u.st.t u'.st.t := by
  intro n
  induction n with
  | zero =>
    intro d v hd hv
    have := hv.pos
    simp at hd
    linarith
  | succ n ih =>
    intro d v hd hv hr hm
    obtain ⟨v', h1, hs, hne, ht, g1, g2, g3⟩ := easy_step hc hη hv
    have hh : |v'.st.t - v.st.t| ≤ η := by
      rw [ht, add_sub_cancel_left, abs_mul]
      have : |c.dir| = 1 := by rcases hc.dir with e | e <;> rw [e] <;> norm_num
      rw [this, mul_one, abs_of_pos (by linarith)]
      exact g2
    have hb := hv.time
    have hd1 : h1 ≤ d := by
      rcases g3 with g3 | g3
      · exact g3.le
      · linarith [g3.pos]
    have hmem : v'.st.t ∈ Set.uIcc v.st.t b := by
      rw [ht]
      rcases hc.dir with e | e <;> rw [e] at hb ⊢
      · rw [Set.uIcc_of_le (by linarith)]; constructor <;> linarith
      · rw [Set.uIcc_of_ge (by linarith)]; constructor <;> linarith
    have hm' : v'.st.t ∈ Set.uIcc t0 b := Set.uIcc_subset_uIcc hm Set.right_mem_uIcc hmem
    have hr' := ReachWithin.tail hr hs hh hm'
    have first : ∀ t ∈ Set.uIcc v.st.t v'.st.t, ∃ u u', ReachWithin c v0 t0 b η u ∧ u.st.t ∈ Set.uIcc t0 b ∧ c.tb ≠ some u.st.t ∧
        step c 1 u = some (.ok, u') ∧ |u'.st.t - u.st.t| ≤ η ∧ t ∈ Set.uIcc u.st.t u'.st.t :=
      fun t ht => ⟨v, v', hr, hm, hne, hs, hh, ht⟩
    rcases g3 with g3 | g3
    · have e : v'.st.t = b := by rw [ht, g3]; linear_combination -hb
      exact ⟨⟨v', hr', e⟩, fun t h => first t (by rw [e]; exact h)⟩
    · have hd' : d - h1 ≤ n * (η / 2) := by push_cast at hd; linarith
      obtain ⟨r1, r2⟩ := ih (d - h1) v' hd' g3 hr' hm'
      refine ⟨r1, fun t h => ?_⟩
      rcases Set.mem_union _ _ _ |>.mp (Set.uIcc_subset_uIcc_union_uIcc (b := v'.st.t) h) with h | h
      · exact first t h
      · exact r2 t h

/-- **Complete runs**: from the state left by the constructor to `t_bound`, with steps of at most `η`, and every time of the
interval is covered by a step. -/
theorem full_run {E W : Type*} [NormedAddCommGroup E] [NormedSpace ℝ E] {c : Cfg ℝ E W} {t0 b η : ℝ} (hc : Easy c b η) (hη : 0 < η)
    (hdir : 0 ≤ c.dir * (b - t0)) (hlen : η / 2 < |b - t0|) (y0 : E) (e0 : ℕ) (Ks0 : ℕ → W) :
    (∃ w, ReachWithin c (newSolver c t0 y0 η e0 Ks0) t0 b η w ∧ w.st.t = b) ∧
      ∀ t ∈ Set.uIcc t0 b, ∃ u u', ReachWithin c (newSolver c t0 y0 η e0 Ks0) t0 b η u ∧ u.st.t ∈ Set.uIcc t0 b ∧
        c.tb ≠ some u.st.t ∧ step c 1 u = some (.ok, u') ∧ |u'.st.t - u.st.t| ≤ η ∧ t ∈ Set.uIcc u.st.t u'.st.t := by
  obtain ⟨n, hn⟩ := exists_nat_ge (|b - t0| / (η / 2))
  refine easy_run hc hη hdir n |b - t0| _ ((div_le_iff₀ (half_pos hη)).mp hn) ⟨rfl, hlen, ?_, min_le_left _ _, ?_⟩ .refl
    Set.left_mem_uIcc
  · show b - t0 = _
    rcases hc.dir with e | e <;> rw [e] at hdir ⊢
    · rw [abs_of_nonneg (by linarith)]; ring
    · rw [abs_of_nonpos (by linarith)]; ring
  · show (1 : ℝ) ≤ MAX_FACTOR0
    norm_num [MAX_FACTOR0]

/-- The default options of `RungeKutta` with `max_step = η`, zero error estimates and no stiffness detection. -/
noncomputable def easyCfg {E W : Type*} (m : Method ℝ E W) (t0 b η : ℝ) : Cfg ℝ E W where
  m := m
  tb := some b
  dir := direction t0 b
  maxStep := some η
  hMinA := 0
  hMinB := η / 2
  tinyErr := 1 / 10 ^ 100
  minFactor := 1 / 5
  errExp := -1 / 4
  minbeta1 := -1 / 4
  minbeta2 := 0
  minalpha := 0
  safety := 9 / 10
  safetySc := 9 / 10
  pw := fun x e => x ^ e
  nfevStiff := 0

theorem direction_cases (t0 b : ℝ) : direction t0 b = 1 ∨ direction t0 b = -1 := by
  unfold direction
  split_ifs <;> simp

theorem direction_mul (t0 b : ℝ) : 0 ≤ direction t0 b * (b - t0) := by
  unfold direction
  split_ifs with h1 h2
  · rw [h1]; simp
  · linarith
  · linarith

theorem easyCfg_ok {E W : Type*} (m : Method ℝ E W) (t0 b : ℝ) {η : ℝ} (hη : 0 < η) : CfgOK (easyCfg m t0 b η) where
  dir := direction_cases t0 b
  hMinA := le_rfl
  hMinB := half_pos hη
  tiny := by norm_num [easyCfg]
  minF0 := by norm_num [easyCfg]
  minF1 := by norm_num [easyCfg]
  errExp := by norm_num [easyCfg]
  safety0 := by norm_num [easyCfg]
  safety1 := by norm_num [easyCfg]
  safetySc := by norm_num [easyCfg]
  pw := PowOK.rpow
  maxStep := fun m h => by
    have : η = m := Option.some.inj h
    exact this ▸ hη

theorem easyCfg_easy {E : Type*} [NormedAddCommGroup E] [NormedSpace ℝ E] (T : Tableau ℝ) (f : ℝ → E → E) (P : PreTest ℝ E)
    (hP : ∀ y h Ks, P.norm y h Ks = .num 0) (t0 b : ℝ) {η : ℝ} (hη : 0 < η) :
    Easy (easyCfg (rkMethod T f (fun _ _ _ => .num 0) P) t0 b η) b η where
  dir := direction_cases t0 b
  maxStep := rfl
  tb := rfl
  hMinA := rfl
  hMinB := le_rfl
  hMinB0 := (half_pos hη).le
  tiny := by norm_num [easyCfg]
  stiff := rfl
  err := fun _ _ _ _ _ => rfl
  pre := fun t y f h Ks => by
    simp only [easyCfg, rkMethod, hP, ite_self, ENorm.gt]
    norm_num

end Extensisq
