import Verif.Props.Ends
import Verif.Props.Convergence
import Verif.Props.NormHStart
import Verif.Model.Methods

/-!
# C111: smooth problems are integrated to the end

With a small enough `max_step` no step of an explicit Runge-Kutta method is rejected, and the integration ends on `t_bound`.
-/

set_option linter.unusedSectionVars false

namespace Extensisq
open scoped ContDiff
open Finset Asymptotics Filter Topology

/-! ## The driver, if every attempt is accepted -/

section
variable {K V W : Type*} [Field K] [LinearOrder K] [IsStrictOrderedRing K]

/-- The step chosen by `_reassess_stepsize` is below the minimal step only if the distance to the end is. -/
theorem reassess_small {c : Cfg K V W} {s : St K V W} {b : K} (hb : c.tb = some b) (hu : MaxStepUsable c s)
    (h : (reassess c s).1 < (reassess c s).2.1) : |b - s.t| < minStepOf c s.t s.hAbs := by
  have key : minStepOf c s.t s.hAbs ≤
      (if (decide (s.hAbs < minStepOf c s.t s.hAbs) || overMax c.maxStep s.hAbs) = true then
      capMax c.maxStep (max (minStepOf c s.t s.hAbs) s.hAbs) else s.hAbs) := by
    split_ifs with h1
    · cases hm : c.maxStep with
      | none => exact le_max_left _ _
      | some m => exact le_min (hu m hm) (le_max_left _ _)
    · simp only [Bool.or_eq_true, decide_eq_true_eq, not_or, not_lt] at h1
      exact h1.1
  rw [reassess_minStep] at h
  unfold reassess at h
  rw [hb] at h
  dsimp only at h
  generalize (if (decide (s.hAbs < minStepOf c s.t s.hAbs) || overMax c.maxStep s.hAbs) = true then
      capMax c.maxStep (max (minStepOf c s.t s.hAbs) s.hAbs) else s.hAbs) = h1 at h key
  generalize (if (decide (s.hAbs < minStepOf c s.t s.hAbs) || overMax c.maxStep s.hAbs) = true then
      true else s.stdSc) = st1 at h
  split_ifs at h with h2 h3
  · exact absurd h (not_lt.mpr (le_max_right _ _))
  · exact h
  · exact absurd h (not_lt.mpr key)

/-- The first attempt of a step is accepted. -/
theorem loop_first {c : Cfg K V W} {n : ℕ} {s s' : St K V W} {h ms : K} {o : Out}
    (hpre : (c.m.trial s.t s.y s.f (h * c.dir) s.Ks).pre.gt 1 = false)
    (herr : ∃ x, (c.m.trial s.t s.y s.f (h * c.dir) s.Ks).err = .num x ∧ x < 1) (hl : loop c n s h ms false = some (o, s')) :
    s'.nfs = s.nfs ∧ ((h < ms ∧ o = .fail .tooSmall ∧ s' = s) ∨ (ms ≤ h ∧ ((o = .ok ∧ ∃ x f0 std s1 bb,
        (c.m.trial s.t s.y s.f (h * c.dir) s.Ks).err = .num x ∧ acceptFactor c s (h * c.dir) x = some (f0, std) ∧
        s1 = acceptState c s (c.m.trial s.t s.y s.f (h * c.dir) s.Ks) (h * c.dir) (h * f0) x f0 std ∧ diagnose c s1 = some (s', bb)) ∨
      ∃ e, o = .exc e))) := by
  cases n with
  | zero => cases hl
  | succ n =>
    obtain ⟨x, hx, hx1⟩ := herr
    unfold loop at hl
    by_cases h1 : h < ms
    · rw [if_pos h1] at hl
      cases hl
      exact ⟨rfl, Or.inl ⟨h1, rfl, rfl⟩⟩
    · rw [if_neg h1] at hl
      dsimp only at hl
      rw [hpre] at hl
      simp only [Bool.false_eq_true, if_false, hx, hx1, if_true] at hl
      cases haf : acceptFactor c s (h * c.dir) x with
      | none =>
        rw [haf] at hl
        cases hl
        exact ⟨rfl, Or.inr ⟨not_lt.mp h1, Or.inr ⟨_, rfl⟩⟩⟩
      | some p =>
        obtain ⟨f0, std⟩ := p
        rw [haf] at hl
        dsimp only at hl
        generalize hs1 : acceptState c s (c.m.trial s.t s.y s.f (h * c.dir) s.Ks) (h * c.dir) (h * f0) x f0 std = s1 at hl
        have hn : s1.nfs = s.nfs := by rw [← hs1]; rfl
        cases hd : diagnose c s1 with
        | none =>
          rw [hd] at hl
          cases hl
          exact ⟨hn, Or.inr ⟨not_lt.mp h1, Or.inr ⟨_, rfl⟩⟩⟩
        | some q =>
          obtain ⟨s2, bb⟩ := q
          rw [hd] at hl
          cases hl
          refine ⟨?_, Or.inr ⟨not_lt.mp h1, Or.inl ⟨rfl, x, f0, std, s1, bb, hx, haf, hs1.symm, hd⟩⟩⟩
          rw [diagnose_same hd]
          exact hn

/-- Every attempt with a step of at most `H` within the interval would be accepted, from every reachable state. -/
def AcceptsAll (c : Cfg K V W) (v0 : Solver K V W) (b H : K) : Prop :=
  ∀ v, Reach c v0 v → v.status = .running → ∀ h, 0 < h → h ≤ H → h ≤ |b - v.st.t| → ∀ Ks,
    (c.m.trial v.st.t v.st.y v.st.f (h * c.dir) Ks).pre.gt 1 = false ∧
    ∃ x, (c.m.trial v.st.t v.st.y v.st.f (h * c.dir) Ks).err = .num x ∧ x < 1

/-- One call of `step()` under these conditions. -/
theorem step_accepts {c : Cfg K V W} (hc : CfgOK c) {v0 v v' : Solver K V W} {b H : K} (hb : c.tb = some b)
    (hmax : c.maxStep = some H) (hu : MaxStepUsable c v.st) (ha : AcceptsAll c v0 b H) (hr : Reach c v0 v)
    (hrun : v.status = .running) {fuel : ℕ} {o : Out} (h : step c fuel v = some (o, v')) :
    v'.st.nfs = v.st.nfs ∧ (v'.status = .failed → v'.st.t = v.st.t ∧ |b - v'.st.t| < minStepOf c v'.st.t v'.st.hAbs) := by
  rcases step_status hrun h with ⟨-, -, h1, h2⟩ | ⟨hne, hi, h1⟩
  · rw [h2, h1]; exact ⟨rfl, fun h => by cases h⟩
  · have hbt : b ≠ v.st.t := fun e => hne (by rw [hb, e])
    have hpos : 0 < (reassess c v.st).1 := by
      by_contra hcon
      have h2 : (reassess c v.st).1 < (reassess c v.st).2.1 := by
        rw [reassess_minStep]
        exact lt_of_le_of_lt (not_lt.mp hcon) (minStep_pos hc _ _)
      -- then the distance itself was chosen
      have h3 := reassess_small hb hu h2
      have key : (reassess c v.st).1 = |b - v.st.t| ∨ minStepOf c v.st.t v.st.hAbs ≤ (reassess c v.st).1 := by
        have key : minStepOf c v.st.t v.st.hAbs ≤
            (if (decide (v.st.hAbs < minStepOf c v.st.t v.st.hAbs) || overMax c.maxStep v.st.hAbs) = true then
            capMax c.maxStep (max (minStepOf c v.st.t v.st.hAbs) v.st.hAbs) else v.st.hAbs) := by
          split_ifs with h1
          · cases hm : c.maxStep with
            | none => exact le_max_left _ _
            | some m => exact le_min (hu m hm) (le_max_left _ _)
          · simp only [Bool.or_eq_true, decide_eq_true_eq, not_or, not_lt] at h1
            exact h1.1
        unfold reassess
        rw [hb]
        dsimp only
        generalize (if (decide (v.st.hAbs < minStepOf c v.st.t v.st.hAbs) || overMax c.maxStep v.st.hAbs) = true then
            capMax c.maxStep (max (minStepOf c v.st.t v.st.hAbs) v.st.hAbs) else v.st.hAbs) = h1 at key
        generalize (if (decide (v.st.hAbs < minStepOf c v.st.t v.st.hAbs) || overMax c.maxStep v.st.hAbs) = true then
            true else v.st.stdSc) = st1
        split_ifs
        · exact Or.inr (le_max_right _ _)
        · exact Or.inl rfl
        · exact Or.inr key
      rcases key with e | e
      · rw [e] at hcon
        exact hcon (abs_pos.mpr (sub_ne_zero.mpr hbt))
      · exact hcon (lt_of_lt_of_le (minStep_pos hc _ _) e)
    obtain ⟨h2, h3⟩ := ha v hr hrun _ hpos (reassess_le_maxStep hmax (hu H hmax)) (reassess_le_bound hb hu) v.st.Ks
    unfold stepImpl at hi
    obtain ⟨e1, e2⟩ := loop_first (s := { v.st with stdSc := (reassess c v.st).2.2 }) h2 h3 hi
    refine ⟨e1, fun hf => ?_⟩
    rcases e2 with ⟨h4, -, e⟩ | ⟨-, h4⟩
    · rw [e]
      refine ⟨rfl, ?_⟩
      show |b - v.st.t| < minStepOf c v.st.t v.st.hAbs
      exact reassess_small hb hu h4
    · exfalso
      rcases h1 with ⟨-, h5⟩ | ⟨⟨m, h5⟩, -⟩ | ⟨-, h5⟩
      · rw [h5] at hf; split_ifs at hf
      · rcases h4 with ⟨h4, -⟩ | ⟨e, h4⟩ <;> rw [h4] at h5 <;> cases h5
      · rw [h5] at hf; cases hf

/-- **Driver**: if every attempt with a step of at most `max_step` is accepted, no step is rejected and the loop ends on `t_bound`, or with a
failure at less than a minimal step from it. -/
theorem accepts_all_end [Archimedean K] {c : Cfg K V W} (hc : CfgOK c) (hg : c.safety < 1) (hst : StiffOK c.nfevStiff c.m) {b t0 H : K}
    (hb : c.tb = some b) (h0 : 0 ≤ c.dir * (b - t0)) (hmax : c.maxStep = some H) (y0 : V) (hf : K) (e0 : ℕ) (Ks0 : ℕ → W)
    (hu : ∀ u, Reach c (newSolver c t0 y0 hf e0 Ks0) u → MaxStepUsable c u.st)
    (ha : AcceptsAll c (newSolver c t0 y0 hf e0 Ks0) b H) :
    (∃ n r w, WhileRunning (step c) (fun v => v.status = .running) Out.raised (newSolver c t0 y0 hf e0 Ks0) n r w) ∧
    ∀ n r w, WhileRunning (step c) (fun v => v.status = .running) Out.raised (newSolver c t0 y0 hf e0 Ks0) n r w →
      r = none ∧ Reach c (newSolver c t0 y0 hf e0 Ks0) w ∧ w.st.nfs = 0 ∧ ((w.status = .finished ∧ w.st.t = b) ∨
        (w.status = .failed ∧ |b - w.st.t| < minStepOf c w.st.t w.st.hAbs)) := by
  obtain ⟨p1, p2⟩ := C110_explicit hc hg hst hb h0 y0 hf e0 Ks0
  refine ⟨p1, fun n r w hw => ?_⟩
  obtain ⟨-, q1, q2⟩ := p2 n r w hw
  set v0 := newSolver c t0 y0 hf e0 Ks0 with hv0
  let I : Solver K V W → Prop := fun v => Reach c v0 v ∧ v.st.nfs = 0 ∧ (v.status = .failed → |b - v.st.t| < minStepOf c v.st.t v.st.hAbs)
  have hstep : ∀ (v : Solver K V W) (fuel : ℕ) (o : Out) (v' : Solver K V W), I v → v.status = .running → step c fuel v = some (o, v') → I v' := by
    rintro v fuel o v' ⟨hr, hn, -⟩ hrun h
    obtain ⟨h1, h2⟩ := step_accepts hc hb hmax (hu v hr) ha hr hrun h
    exact ⟨.tail hr h, by rw [h1, hn], fun h => (h2 h).2⟩
  have key : ∀ v n r w, WhileRunning (step c) (fun v => v.status = .running) Out.raised v n r w → I v → I w := by
    intro v n r w hw
    induction hw with
    | stop _ => exact id
    | raise h1 h2 _ => exact fun hi => hstep _ _ _ _ hi h1 h2
    | next h1 h2 _ _ ih => exact fun hi => ih (hstep _ _ _ _ hi h1 h2)
  have hI : I w := key v0 n r w hw ⟨.refl, rfl, fun h => by cases h⟩
  refine ⟨q1, hI.1, hI.2.1, ?_⟩
  rcases q2 with ⟨h1, h2⟩ | h1
  · exact Or.inl ⟨h1, h2 hu⟩
  · exact Or.inr ⟨h1, hI.2.2 h1⟩

end
/-! ## The run to the end -/

section
variable {E W : Type*} [NormedAddCommGroup E] [NormedSpace ℝ E]

/-- What the controller does when the error norms are at most `θ`: it never shortens the step, and lengthens it at most `R` times. -/
structure Grows (c : Cfg ℝ E W) (θ R : ℝ) : Prop where
  lt : θ < 1
  ten : 10 ≤ R
  std : ∀ x, c.tinyErr ≤ x → x ≤ θ → 1 ≤ c.safety * c.pw x c.errExp ∧ c.safety * c.pw x c.errExp ≤ R
  sc : ∀ x eo r, c.tinyErr ≤ x → x ≤ θ → c.tinyErr ≤ eo → eo ≤ θ → 1 ≤ r → r ≤ R →
    1 ≤ c.safetySc * (c.pw x c.minbeta1 * c.pw eo c.minbeta2 * c.pw r c.minalpha)

/-- A run whose steps are all accepted with error norms of at most `θ`. -/
structure GoodRun (c : Cfg ℝ E W) (v0 : Solver ℝ E W) (t0 b η H θ R X : ℝ) : Prop where
  ok : CfgOK c
  tb : c.tb = some b
  start : v0.st.t = t0
  into : 0 ≤ c.dir * (b - t0)
  maxStep : c.maxStep = some H
  pos : 0 < η
  le : η ≤ H
  grows : Grows c θ R
  room : R * H ≤ X
  min : ∀ v, ReachWithin c v0 t0 b H v → ∀ h, h ≤ X → minStepOf c v.st.t h ≤ η / 2
  acc : ∀ v, ReachWithin c v0 t0 b H v → v.status = .running → ∀ h, 0 < h → h ≤ H → ∀ Ks,
    (c.m.trial v.st.t v.st.y v.st.f (h * c.dir) Ks).pre.gt 1 = false ∧
    ∃ x, (c.m.trial v.st.t v.st.y v.st.f (h * c.dir) Ks).err = .num x ∧ x ≤ θ

/-- A state of such a run at a distance `d` from the end. -/
structure GoodAt (c : Cfg ℝ E W) (b η θ R X : ℝ) (v : Solver ℝ E W) (d : ℝ) : Prop where
  pos : η / 2 < d
  time : b - v.st.t = c.dir * d
  step : min η d ≤ v.st.hAbs
  top : v.st.hAbs ≤ X
  fac : 1 ≤ v.st.maxFactor
  fac10 : v.st.maxFactor ≤ 10
  ctl : v.st.stdSc = false → ∃ hp eo r, v.st.hPrev = some (hp * c.dir) ∧ v.st.errOld = some eo ∧ c.tinyErr ≤ eo ∧ eo ≤ θ ∧ 0 < hp ∧
    v.st.hAbs = hp * r ∧ 1 ≤ r ∧ r ≤ R

theorem ReachWithin.mem {c : Cfg ℝ E W} {v0 v : Solver ℝ E W} {t0 b H : ℝ} (h : ReachWithin c v0 t0 b H v) (h0 : v0.st.t = t0) :
    v.st.t ∈ Set.uIcc t0 b := by
  cases h with
  | refl => rw [h0]; exact Set.left_mem_uIcc
  | tail _ _ _ h => exact h

theorem good_reassess {c : Cfg ℝ E W} {v0 v : Solver ℝ E W} {t0 b η H θ R X d : ℝ} (hc : GoodRun c v0 t0 b η H θ R X) (hr : ReachWithin c v0 t0 b H v)
    (h : GoodAt c b η θ R X v d) : ∃ st h1 ms, reassess c v.st = (h1, ms, st) ∧ ms ≤ η / 2 ∧ η / 2 < h1 ∧ h1 ≤ H ∧
      (h1 = d ∨ (min η (d - h1) ≤ h1 ∧ η / 2 < d - h1 ∧ (st = false → v.st.stdSc = false ∧ h1 = v.st.hAbs))) := by
  have hη := hc.pos
  have hd0 : 0 < d := (half_pos hη).trans h.pos
  have hd : |b - v.st.t| = d := by
    rw [h.time]
    rcases hc.ok.dir with e | e <;> rw [e] <;> simp [abs_of_pos hd0]
  have hms := hc.min v hr _ h.top
  set ms := minStepOf c v.st.t v.st.hAbs with hmsd
  have hlo : ms ≤ v.st.hAbs := hms.trans ((le_min (by linarith) h.pos.le).trans h.step)
  have key : ∃ st, ∃ h1, h1 = min H v.st.hAbs ∧ (st = false → v.st.stdSc = false ∧ h1 = v.st.hAbs) ∧ reassess c v.st =
      (if d < 2 * h1 then (if d > h1 then (max (d / 2) ms, ms, true) else (d, ms, st)) else (h1, ms, st)) := by
    unfold reassess
    simp only [← hmsd, hc.maxStep, hc.tb, hd, capMax, overMax]
    by_cases h1 : H < v.st.hAbs
    · refine ⟨true, min H v.st.hAbs, rfl, (fun h => by cases h), ?_⟩
      have e : max ms v.st.hAbs = v.st.hAbs := max_eq_right hlo
      simp [h1, e]
    · have e1 : min H v.st.hAbs = v.st.hAbs := min_eq_right (not_lt.mp h1)
      refine ⟨v.st.stdSc, min H v.st.hAbs, rfl, fun h => ⟨h, e1⟩, ?_⟩
      simp [h1, not_lt.mpr hlo, e1]
  obtain ⟨st, h1, e1, e3, e2⟩ := key
  have hle : h1 ≤ H := e1 ▸ min_le_left _ _
  have hge : min η d ≤ h1 := by rw [e1]; exact le_min ((min_le_left _ _).trans hc.le) h.step
  have hp := h.pos
  by_cases c1 : d < 2 * h1
  · rw [if_pos c1] at e2
    by_cases c2 : d > h1
    · rw [if_pos c2] at e2
      have hηd : η < d := by
        by_contra hcon
        rw [min_eq_right (not_lt.mp hcon)] at hge
        linarith
      rw [max_eq_left (by linarith)] at e2
      exact ⟨_, _, _, e2, hms, by linarith, by linarith, Or.inr ⟨(min_le_right _ _).trans (by linarith), by linarith, fun h => by cases h⟩⟩
    · rw [if_neg c2] at e2
      exact ⟨_, _, _, e2, hms, hp, (not_lt.mp c2).trans hle, Or.inl rfl⟩
  · rw [if_neg c1] at e2
    have hηd : η < d := by
      by_contra hcon
      rw [min_eq_right (not_lt.mp hcon)] at hge
      linarith
    rw [min_eq_left hηd.le] at hge
    exact ⟨_, _, _, e2, hms, by linarith, hle, Or.inr ⟨(min_le_left _ _).trans hge, by linarith, e3⟩⟩

/-- One call of `step()` of such a run: it ends on `t_bound` or goes on. -/
theorem good_step {c : Cfg ℝ E W} {v0 v v' : Solver ℝ E W} {t0 b η H θ R X d : ℝ} (hc : GoodRun c v0 t0 b η H θ R X) 
    (hr : ReachWithin c v0 t0 b H v) (hrun : v.status = .running) (h : GoodAt c b η θ R X v d) {fuel : ℕ} {o : Out} (hs : step c fuel v = some (o, v'))
    (ho : ¬ o.raised) : v'.st.nfs = v.st.nfs ∧ ReachWithin c v0 t0 b H v' ∧
      ((v'.status = .finished ∧ v'.st.t = b) ∨ (v'.status = .running ∧ ∃ d', GoodAt c b η θ R X v' d' ∧ d' + η / 2 ≤ d)) := by
  obtain ⟨st, h1, ms, er, g0, g1, g2, g3⟩ := good_reassess hc hr h
  have hη := hc.pos
  have hd0 : 0 < d := (half_pos hη).trans h.pos
  have hh1 : 0 < h1 := by linarith
  have e2 : c.dir * c.dir = 1 := by rcases hc.ok.dir with e | e <;> rw [e] <;> norm_num
  rcases step_status hrun hs with ⟨h0, -⟩ | ⟨hne, hi, hstat⟩
  · exfalso
    rw [hc.tb] at h0
    have hb := h.time
    rw [Option.some.inj h0, sub_self] at hb
    rcases mul_eq_zero.mp hb.symm with h5 | h5
    · rw [h5] at e2; simp at e2
    · exact hd0.ne' h5
  · obtain ⟨a1, x0, a2, a3⟩ := hc.acc v hr hrun h1 hh1 g2 v.st.Ks
    unfold stepImpl at hi
    rw [er] at hi
    have hfirst := loop_first (s := { v.st with stdSc := st }) a1 ⟨x0, a2, a3.trans_lt hc.grows.lt⟩ hi
    obtain ⟨q1, ⟨q2, -⟩ | ⟨-, ⟨rfl, x, f0, std, s1, bb, b1, b2, b3, b4⟩ | ⟨e, rfl⟩⟩⟩ := hfirst
    · linarith
    · refine ⟨q1, ?_⟩
      have ex : x0 = x := ENorm.num.inj (a2.symm.trans b1)
      rw [ex] at a3
      have hsame := diagnose_same b4
      have ht : v'.st.t = v.st.t + h1 * c.dir := by rw [hsame, b3]; rfl
      have hwithin : ReachWithin c v0 t0 b H v' := by
        refine .tail hr hs ?_ ?_
        · rw [ht, add_sub_cancel_left]
          rcases hc.ok.dir with e | e <;> rw [e] <;> simp [abs_of_pos hh1, g2]
        · have hd1 : h1 ≤ d := by
            rcases g3 with g3 | ⟨-, g3, -⟩ <;> linarith
          have hmem := hr.mem hc.start
          have hb := h.time
          have hdir := hc.into
          rcases hc.ok.dir with e | e <;> rw [e] at ht hb hdir
          · rw [Set.uIcc_of_le (by linarith)] at hmem ⊢
            exact ⟨by rw [ht]; linarith [hmem.1], by rw [ht]; linarith⟩
          · rw [Set.uIcc_of_ge (by linarith)] at hmem ⊢
            exact ⟨by rw [ht]; linarith, by rw [ht]; linarith [hmem.2]⟩
      refine ⟨hwithin, ?_⟩
      rcases hstat with ⟨-, hstat⟩ | ⟨⟨m, hm⟩, -⟩ | ⟨⟨m, hm⟩, -⟩
      · rcases g3 with g3 | ⟨g3, g4, g5⟩
        · left
          have htb : v'.st.t = b := by rw [ht, g3]; linear_combination -h.time
          refine ⟨?_, htb⟩
          rw [hstat, htb]
          simp [reached, hc.tb]
        · right
          have hnr : reached c v'.st.t = false := by
            unfold reached
            rw [hc.tb]
            dsimp only
            rw [decide_eq_false_iff_not, not_le, ht]
            have e3 : c.dir * (v.st.t + h1 * c.dir - b) = -(d - h1) * (c.dir * c.dir) := by
              linear_combination (-c.dir) * h.time
            rw [e3, e2]
            linarith
          refine ⟨by rw [hstat, hnr]; rfl, d - h1, ?_, by linarith⟩
          -- the factor
          have hfac : 1 ≤ f0 ∧ f0 ≤ R ∧ (std = false → c.tinyErr ≤ x) := by
            have hten := hc.grows.ten
            unfold acceptFactor at b2
            by_cases hx : x < c.tinyErr
            · rw [if_pos hx] at b2
              obtain ⟨rfl, rfl⟩ := Prod.ext_iff.mp (Option.some.inj b2)
              exact ⟨h.fac, h.fac10.trans hten, fun h => by cases h⟩
            · rw [if_neg hx] at b2
              have hx := not_lt.mp hx
              cases st with
              | true =>
                rw [if_pos rfl] at b2
                obtain ⟨rfl, rfl⟩ := Prod.ext_iff.mp (Option.some.inj b2)
                obtain ⟨k1, k2⟩ := hc.grows.std x hx a3
                exact ⟨k1, k2, fun _ => hx⟩
              | false =>
                obtain ⟨k1, k2⟩ := g5 rfl
                obtain ⟨hp, eo, r, m1, m2, m3, m4, m5, m6, m7, m8⟩ := h.ctl k1
                simp only [Bool.false_eq_true, if_false, m1, m2] at b2
                obtain ⟨rfl, rfl⟩ := Prod.ext_iff.mp (Option.some.inj b2)
                have hdir0 : c.dir ≠ 0 := fun h => by rw [h] at e2; simp at e2
                have er : h1 * c.dir / (hp * c.dir) = r := by
                  rw [k2, m6]; field_simp
                refine ⟨?_, (min_le_left _ _).trans (h.fac10.trans hten), fun _ => hx⟩
                rw [er]
                exact le_min h.fac ((hc.grows.sc x eo r hx a3 m3 m4 m7 m8).trans (le_max_right _ _))
          obtain ⟨f1, f2, f3⟩ := hfac
          have ehAbs : v'.st.hAbs = h1 * f0 := by rw [hsame, b3]; rfl
          have emf : v'.st.maxFactor = if f0 < MAX_FACTOR then MAX_FACTOR else v.st.maxFactor := by rw [hsame, b3]; rfl
          have estd : v'.st.stdSc = std := by rw [hsame, b3]; rfl
          have ehp : v'.st.hPrev = some (h1 * c.dir) := by rw [hsame, b3]; rfl
          have eeo : v'.st.errOld = some x := by rw [hsame, b3]; rfl
          have hlong : h1 ≤ h1 * f0 := le_mul_of_one_le_right hh1.le f1
          refine ⟨g4, by rw [ht]; linear_combination h.time, by rw [ehAbs]; linarith, ?_, ?_, ?_, ?_⟩
          · rw [ehAbs]
            refine le_trans ?_ hc.room
            rw [mul_comm]
            have : 0 ≤ f0 := by linarith
            exact mul_le_mul f2 g2 hh1.le (by linarith)
          · rw [emf]; split_ifs
            · norm_num [MAX_FACTOR]
            · exact h.fac
          · rw [emf]; split_ifs
            · norm_num [MAX_FACTOR]
            · exact h.fac10
          · intro hstd
            rw [estd] at hstd
            exact ⟨h1, x, f0, ehp, eeo, f3 hstd, a3, hh1, ehAbs, f1, f2⟩
      · cases hm
      · cases hm
    · exact absurd trivial ho

/-- The loop over such a run ends on `t_bound`. -/
theorem good_end {c : Cfg ℝ E W} {v0 : Solver ℝ E W} {t0 b η H θ R X d : ℝ} (hc : GoodRun c v0 t0 b η H θ R X) (hrun : v0.status = .running)
    (h : GoodAt c b η θ R X v0 d) {n : ℕ} {w : Solver ℝ E W}
    (hw : WhileRunning (step c) (fun v => v.status = .running) Out.raised v0 n none w) :
    w.status = .finished ∧ w.st.t = b ∧ w.st.nfs = v0.st.nfs ∧ ReachWithin c v0 t0 b H w ∧ n * (η / 2) ≤ d := by
  have key : ∀ v n r w, WhileRunning (step c) (fun v => v.status = .running) Out.raised v n r w → r = none → ReachWithin c v0 t0 b H v → ∀ d,
      ((v.status = .finished ∧ v.st.t = b ∧ 0 ≤ d) ∨ (v.status = .running ∧ GoodAt c b η θ R X v d)) → v.st.nfs = v0.st.nfs →
      w.status = .finished ∧ w.st.t = b ∧ w.st.nfs = v0.st.nfs ∧ ReachWithin c v0 t0 b H w ∧ n * (η / 2) ≤ d := by
    intro v n r w hw
    induction hw with
    | stop h1 =>
      rintro - hr d (⟨h2, h3, h4⟩ | ⟨h2, -⟩) hn
      · exact ⟨h2, h3, hn, hr, by simpa using h4⟩
      · exact absurd h2 h1
    | raise _ _ _ => intro h; cases h
    | next h1 h2 h3 _ ih =>
      rintro hn hr d (⟨h4, -⟩ | ⟨-, hd'⟩) hnfs
      · rw [h1] at h4; cases h4
      · obtain ⟨k1, k3, k2⟩ := good_step hc hr h1 hd' h2 h3
        rcases k2 with ⟨k4, k5⟩ | ⟨k4, d', k5, k6⟩
        · obtain ⟨l1, l2, l3, l4, l5⟩ := ih hn k3 0 (Or.inl ⟨k4, k5, le_rfl⟩) (k1.trans hnfs)
          refine ⟨l1, l2, l3, l4, ?_⟩
          have := hd'.pos
          push_cast
          linarith
        · obtain ⟨l1, l2, l3, l4, l5⟩ := ih hn k3 d' (Or.inr ⟨k4, k5⟩) (k1.trans hnfs)
          refine ⟨l1, l2, l3, l4, ?_⟩
          push_cast
          linarith
  exact key v0 n none w hw rfl .refl d (Or.inr ⟨hrun, h⟩) rfl

/-- The real power function with negative exponents of the current error satisfies `Grows`, for every choice of the other parameters. -/
theorem C111_controller_grows (safety safetySc errExp b1 b2 al tiny : ℝ) (hs : 0 < safety) (hs' : 0 < safetySc) (he : errExp < 0) (hb1 : b1 < 0)
    (ht : 0 < tiny) :
    ∃ θ R : ℝ, 0 < θ ∧ ∀ c : Cfg ℝ E W, c.safety = safety → c.safetySc = safetySc → c.errExp = errExp → c.minbeta1 = b1 → c.minbeta2 = b2 →
      c.minalpha = al → c.tinyErr = tiny → c.pw = (fun x e => x ^ e) → Grows c θ R := by
  -- bounds of the factors which do not contain the current error
  set R := max 10 (safety * tiny ^ errExp) with hR
  have hR10 : 10 ≤ R := le_max_left _ _
  set q2 := min 1 (tiny ^ b2) with hq2
  have hq20 : 0 < q2 := lt_min one_pos (Real.rpow_pos_of_pos ht _)
  set q3 := min 1 (R ^ al) with hq3
  have hq30 : 0 < q3 := lt_min one_pos (Real.rpow_pos_of_pos (by linarith) _)
  have lim : ∀ (e A : ℝ), e < 0 → 0 < A → ∃ θ, 0 < θ ∧ ∀ x, 0 < x → x ≤ θ → 1 ≤ A * x ^ e := by
    intro e A he hA
    refine ⟨A ^ (-(1 / e)), Real.rpow_pos_of_pos hA _, fun x hx hxθ => ?_⟩
    have h1 := Real.rpow_le_rpow_of_nonpos hx hxθ he.le
    rw [← Real.rpow_mul hA.le, show -(1 / e) * e = -1 by rw [neg_mul, one_div, inv_mul_cancel₀ he.ne], Real.rpow_neg_one] at h1
    calc (1 : ℝ) = A * A⁻¹ := (mul_inv_cancel₀ hA.ne').symm
      _ ≤ A * x ^ e := mul_le_mul_of_nonneg_left h1 hA.le
  obtain ⟨θ1, p1, p2⟩ := lim errExp safety he hs
  obtain ⟨θ2, p3, p4⟩ := lim b1 (safetySc * (q2 * q3)) hb1 (by positivity)
  refine ⟨min (1 / 2) (min θ1 θ2), R, by positivity, ?_⟩
  rintro c rfl rfl rfl rfl rfl rfl rfl hpw
  have hbnd : ∀ x e u : ℝ, 0 < u → u ≤ x → x ≤ 1 → min 1 (u ^ e) ≤ x ^ e := by
    intro x e u hu hux hx
    rcases le_total e 0 with h | h
    · exact (min_le_left _ _).trans (Real.one_le_rpow_of_pos_of_le_one_of_nonpos (hu.trans_le hux) hx h)
    · exact (min_le_right _ _).trans (Real.rpow_le_rpow hu.le hux h)
  have hbnd' : ∀ x e u : ℝ, 1 ≤ x → x ≤ u → min 1 (u ^ e) ≤ x ^ e := by
    intro x e u h1 hux
    rcases le_total e 0 with h | h
    · exact (min_le_right _ _).trans (Real.rpow_le_rpow_of_nonpos (by linarith) hux h)
    · exact (min_le_left _ _).trans (Real.one_le_rpow h1 h)
  refine ⟨(min_le_left _ _).trans_lt (by norm_num), hR10, ?_, ?_⟩
  · intro x hx hxθ
    have hx0 := ht.trans_le hx
    rw [hpw]
    refine ⟨p2 x hx0 (hxθ.trans ((min_le_right _ _).trans (min_le_left _ _))), ?_⟩
    refine le_trans ?_ (le_max_right _ _)
    exact mul_le_mul_of_nonneg_left (Real.rpow_le_rpow_of_nonpos ht hx he.le) hs.le
  · intro x eo r hx hxθ heo heoθ hr hrR
    have hx0 := ht.trans_le hx
    rw [hpw]
    dsimp only
    have k1 := p4 x hx0 (hxθ.trans ((min_le_right _ _).trans (min_le_right _ _)))
    have k2 := hbnd eo c.minbeta2 _ ht heo (heoθ.trans ((min_le_left _ _).trans (by norm_num)))
    have k3 := hbnd' r c.minalpha _ hr hrR
    have k4 : q2 * q3 ≤ eo ^ c.minbeta2 * r ^ c.minalpha := mul_le_mul k2 k3 hq30.le (Real.rpow_nonneg (ht.trans_le heo).le _)
    have k5 : 0 < x ^ c.minbeta1 := Real.rpow_pos_of_pos hx0 _
    calc (1 : ℝ) ≤ c.safetySc * (q2 * q3) * x ^ c.minbeta1 := k1
      _ = c.safetySc * x ^ c.minbeta1 * (q2 * q3) := by ring
      _ ≤ c.safetySc * x ^ c.minbeta1 * (eo ^ c.minbeta2 * r ^ c.minalpha) := mul_le_mul_of_nonneg_left k4 (by positivity)
      _ = _ := by ring

end

/-! ## The stages along the solution are bounded -/

section
variable {E : Type*} [NormedAddCommGroup E] [NormedSpace ℝ E]

theorem stage_bound {f : ℝ → E → E} {y : ℝ → E} {t0 b : ℝ} (hy : SolvesOn f y t0 b) (A : ℕ → ℕ → ℝ) (c : ℕ → ℝ) (n : ℕ) :
    ∃ ε B : ℝ, 0 < ε ∧ 0 ≤ B ∧ ∀ t ∈ Set.uIcc t0 b, ∀ (u : E) (h : ℝ), ‖u - y t‖ < ε → |h| < ε →
      ∀ i < n, ‖exStage A c f i (t, u, h)‖ ≤ B := by
  refine isCompact_uIcc.induction_on (p := fun S' => ∃ ε B : ℝ, 0 < ε ∧ 0 ≤ B ∧ ∀ t ∈ S', ∀ (u : E) (h : ℝ),
    ‖u - y t‖ < ε → |h| < ε → ∀ i < n, ‖exStage A c f i (t, u, h)‖ ≤ B) ?_ ?_ ?_ ?_
  · exact ⟨1, 0, one_pos, le_rfl, fun t ht => absurd ht (Set.notMem_empty t)⟩
  · rintro s t hst ⟨ε, B, h1, h2, h3⟩
    exact ⟨ε, B, h1, h2, fun x hx => h3 x (hst hx)⟩
  · rintro s t ⟨ε, B, h1, h2, h3⟩ ⟨ε', B', h1', h2', h3'⟩
    refine ⟨min ε ε', B + B', lt_min h1 h1', by linarith, fun x hx u h hu hh i hi => ?_⟩
    rcases hx with hx | hx
    · linarith [h3 x hx u h (hu.trans_le (min_le_left _ _)) (hh.trans_le (min_le_left _ _)) i hi]
    · linarith [h3' x hx u h (hu.trans_le (min_le_right _ _)) (hh.trans_le (min_le_right _ _)) i hi]
  · intro tb htb
    set F : ℝ × E × ℝ → ℝ := fun z => ∑ i ∈ range n, ‖exStage A c f i z‖ with hF
    have hFc : ContinuousAt F (tb, y tb, 0) := by
      refine tendsto_finsetSum _ fun i _ => ?_
      exact ((exStage_contDiffAt (n := 0) ((hy.smooth tb htb).of_le (by simp)) i).continuousAt).norm
    have hyc : ContinuousAt y tb := ((hy.solves tb htb).self_of_nhds).continuousAt
    obtain ⟨δ, hδ, h1⟩ := Metric.eventually_nhds_iff.mp (hFc.eventually (gt_mem_nhds (lt_add_one (F (tb, y tb, 0)))))
    have h2 : ∀ᶠ t in 𝓝 tb, ‖y t - y tb‖ < δ / 2 ∧ |t - tb| < δ := by
      have a1 := Metric.continuousAt_iff'.mp hyc (δ / 2) (by linarith)
      have a2 := Metric.eventually_nhds_iff.mpr ⟨δ, hδ, fun {t} (h : dist t tb < δ) => h⟩
      filter_upwards [a1, a2] with t h3 h4
      exact ⟨by rwa [dist_eq_norm] at h3, by rwa [Real.dist_eq] at h4⟩
    refine ⟨_, mem_nhdsWithin_of_mem_nhds h2, δ / 2, F (tb, y tb, 0) + 1, by linarith, ?_, ?_⟩
    · have : 0 ≤ F (tb, y tb, 0) := sum_nonneg fun _ _ => norm_nonneg _
      linarith
    · rintro t ⟨ht1, ht2⟩ u h hu hh i hi
      have h3 : dist ((t, u, h) : ℝ × E × ℝ) (tb, y tb, 0) < δ := by
        rw [Prod.dist_eq, Prod.dist_eq, Real.dist_eq, Real.dist_eq, dist_eq_norm]
        refine max_lt ht2 (max_lt ?_ (by simp only [sub_zero]; linarith))
        calc ‖u - y tb‖ = ‖(u - y t) + (y t - y tb)‖ := by congr 1; abel
          _ ≤ ‖u - y t‖ + ‖y t - y tb‖ := norm_add_le _ _
          _ < δ := by linarith
      refine le_trans ?_ (h1 h3).le
      exact single_le_sum (f := fun i => ‖exStage A c f i (t, u, h)‖) (fun _ _ => norm_nonneg _) (mem_range.mpr hi)

/-- The stages computed for the preliminary test are those of the attempt. -/
theorem rkStages_exStage (T : Tableau ℝ) (f : ℝ → E → E) (hC : T.C 0 = 0) (t : ℝ) (u : E) (h : ℝ) (Ks : ℕ → E) {n : ℕ} (hn : n ≤ T.s) :
    ∀ i, i < n → rkStages T f t u h n (Function.update Ks 0 (f t u)) i = exStage (compA T) (compC T) f i (t, u, h) := by
  intro i
  induction i using Nat.strong_induction_on with
  | _ i ih =>
    intro hi
    rw [exStage_eq]
    have h1 : i < T.s := lt_of_lt_of_le hi hn
    simp only [compA, compC, h1, if_true]
    by_cases h0 : i = 0
    · subst h0
      rw [rkStages_zero, Function.update_self]
      simp [hC]
    · rw [rkStages_eq _ _ _ _ _ _ _ _ (by omega) hi]
      unfold rkStage
      congr 3
      apply sum_congr rfl
      intro j hj
      rw [mem_range] at hj
      rw [ih j hj (by omega)]

/-- The error norm of the class is a number and at most `M` times a norm. -/
def ErrBound (errNorm : E → E → E → ENorm ℝ) (M : ℝ) : Prop := ∀ y y' e, ∃ x, errNorm y y' e = .num x ∧ x ≤ M * ‖e‖

/-- The preliminary test is a number and at most `M` times the step and the size of the `n` stages it uses. -/
def PreBound (P : PreTest ℝ E) (n : ℕ) (M : ℝ) : Prop :=
  P.early = true → ∀ (y : E) (h : ℝ) (Ks : ℕ → E) (B : ℝ), 0 ≤ B → (∀ i < n, ‖Ks i‖ ≤ B) → ∃ x, P.norm y h Ks = .num x ∧ x ≤ M * (|h| * B)

/-- The error norm of every attempt near the solution is at most a constant times the step. -/
theorem attempt_small {f : ℝ → E → E} {y : ℝ → E} {t0 b : ℝ} (hy : SolvesOn f y t0 b) (T : Tableau ℝ) (hC : T.C 0 = 0) (hs : 0 < T.s) {M : ℝ} (hM : 0 ≤ M) :
    ∃ ε D : ℝ, 0 < ε ∧ 0 ≤ D ∧ ∀ (errNorm : E → E → E → ENorm ℝ) (P : PreTest ℝ E), ErrBound errNorm M → PreBound P (T.s - 1) M →
      ∀ t ∈ Set.uIcc t0 b, ∀ (u : E) (h : ℝ) (Ks : ℕ → E), ‖u - y t‖ < ε → |h| < ε →
        (∃ x, ((rkMethod T f errNorm P).trial t u (f t u) h Ks).pre = .num x ∧ x ≤ D * |h|) ∧
        ∃ x, ((rkMethod T f errNorm P).trial t u (f t u) h Ks).err = .num x ∧ x ≤ D * |h| := by
  obtain ⟨ε, B, h1, h2, h3⟩ := stage_bound hy (compA T) (compC T) (T.s + 1)
  set Z := ∑ i ∈ range (T.s + 1), |T.E i| with hZ
  have hZ0 : 0 ≤ Z := sum_nonneg fun _ _ => abs_nonneg _
  refine ⟨ε, M * B + M * (Z * B), h1, by positivity, fun errNorm P hE hP t ht u h Ks hu hh => ?_⟩
  have hb := h3 t ht u h hu hh
  have hMB : 0 ≤ M * B * |h| := by positivity
  have hMZ : 0 ≤ M * (Z * B) * |h| := by positivity
  constructor
  · show ∃ x, (if P.early then P.norm u h (rkStages T f t u h (T.s - 1) (Function.update Ks 0 (f t u))) else .num 0) = .num x ∧ _
    by_cases he : P.early = true
    · rw [if_pos he]
      obtain ⟨x, hx, hx1⟩ := hP he u h (rkStages T f t u h (T.s - 1) (Function.update Ks 0 (f t u))) B h2 (fun i hi => by
        rw [rkStages_exStage T f hC t u h Ks (Nat.sub_le _ _) i hi]
        exact hb i (by omega))
      refine ⟨x, hx, hx1.trans ?_⟩
      nlinarith
    · rw [if_neg he]
      exact ⟨0, rfl, by positivity⟩
  · obtain ⟨k1, k2, -⟩ := rkTrial_isRKStep T f errNorm t u h Ks hC hs
    obtain ⟨x, hx, hx1⟩ := hE u (rkTrial T f errNorm t u (f t u) h Ks).yNew (errorEstimate T h
      (Function.update (rkTrial T f errNorm t u (f t u) h Ks).stages T.s (f (t + h) (rkTrial T f errNorm t u (f t u) h Ks).yNew)))
    refine ⟨x, k2.trans hx, hx1.trans ?_⟩
    have : ‖errorEstimate T h (Function.update (rkTrial T f errNorm t u (f t u) h Ks).stages T.s
        (f (t + h) (rkTrial T f errNorm t u (f t u) h Ks).yNew))‖ ≤ |h| * (Z * B) := by
      unfold errorEstimate
      rw [norm_smul, Real.norm_eq_abs]
      refine mul_le_mul_of_nonneg_left ?_ (abs_nonneg h)
      refine (norm_sum_le _ _).trans ?_
      rw [hZ, sum_mul]
      refine sum_le_sum fun i hi => ?_
      rw [mem_range] at hi
      rw [norm_smul, Real.norm_eq_abs, k1.stages_eq i (by omega)]
      exact mul_le_mul_of_nonneg_left (hb i hi) (abs_nonneg _)
    have := mul_le_mul_of_nonneg_left this hM
    nlinarith

/-! ## C111 -/

/-- **C111**. Let `y` solve the smooth problem on the closed interval, and let the error norms be bounded by `M` times a norm (tolerances with
positive `atol`). There is `h*` such that with every `max_step <= h*`: the loop over `step()` ends, without exceptions; no step was rejected; the
error is at most `C max_step^order`; and it ended exactly on `t_bound`, or with the failure at less than a minimal step before it. -/
theorem C111_no_rejections [CompleteSpace E] (R : RKTable) (hR : R ∈ rationalRK) {f : ℝ → E → E} {y : ℝ → E} {t0 b : ℝ}
    (hy : SolvesOn f y t0 b) {M : ℝ} (hM : 0 ≤ M) :
    ∃ C hstar : ℝ, 0 ≤ C ∧ 0 < hstar ∧
      ∀ (c : Cfg ℝ E E) (errNorm : E → E → E → ENorm ℝ) (P : PreTest ℝ E) (h0 H : ℝ) (e0 : ℕ) (Ks0 : ℕ → E), CfgOK c → c.safety < 1 →
        StiffOK c.nfevStiff c.m → c.m = rkMethod (R.tab ℝ) f errNorm P → ErrBound errNorm M → PreBound P ((R.tab ℝ).s - 1) M →
        c.tb = some b → 0 ≤ c.dir * (b - t0) → c.maxStep = some H → H ≤ hstar →
        (∀ w, Reach c (newSolver c t0 (y t0) h0 e0 Ks0) w → MaxStepUsable c w.st) →
        (∃ n r w, WhileRunning (step c) (fun v => v.status = .running) Out.raised (newSolver c t0 (y t0) h0 e0 Ks0) n r w) ∧
        ∀ n r w, WhileRunning (step c) (fun v => v.status = .running) Out.raised (newSolver c t0 (y t0) h0 e0 Ks0) n r w →
          r = none ∧ w.st.nfs = 0 ∧ ‖w.st.y - y w.st.t‖ ≤ C * H ^ R.order ∧
          ((w.status = .finished ∧ w.st.t = b) ∨ (w.status = .failed ∧ |b - w.st.t| < minStepOf c w.st.t w.st.hAbs)) := by
  obtain ⟨_, _, r1, r2⟩ := rationalRK_rows R hR
  have ho : 1 ≤ R.order := by
    have : ∀ R ∈ rationalRK, 1 ≤ R.order := by decide +kernel
    exact this R hR
  obtain ⟨C, h1, c1, c2, c3⟩ := C87_max_step_error R hR hy
  obtain ⟨ε, D, d1, d2, d3⟩ := attempt_small hy (R.tab ℝ) r1 r2 hM
  refine ⟨C, min (min h1 1) (min (ε / (2 * (C + 1))) (1 / (D + 1) / 2)), c1, by positivity, ?_⟩
  intro c errNorm P h0 H e0 Ks0 hc hg hst hm hE hP hb hdir hmax hH hu
  have hH0 : 0 < H := hc.maxStep H hmax
  have g1 : H ≤ h1 := hH.trans ((min_le_left _ _).trans (min_le_left _ _))
  have g2 : H ≤ 1 := hH.trans ((min_le_left _ _).trans (min_le_right _ _))
  have g3 : H * (2 * (C + 1)) ≤ ε := (le_div_iff₀ (by positivity)).mp (hH.trans ((min_le_right _ _).trans (min_le_left _ _)))
  have g4 : H * (D + 1) ≤ 1 / 2 := by
    have := hH.trans ((min_le_right _ _).trans (min_le_right _ _))
    have h5 : 1 / (D + 1) / 2 * (D + 1) = 1 / 2 := by field_simp
    nlinarith
  have hpow : H ^ R.order ≤ H := by
    calc H ^ R.order ≤ H ^ 1 := pow_le_pow_of_le_one hH0.le g2 ho
      _ = H := pow_one H
  have hCH : C * H ^ R.order < ε := by
    have := mul_le_mul_of_nonneg_left hpow c1
    nlinarith
  have herr : ∀ v, Reach c (newSolver c t0 (y t0) h0 e0 Ks0) v → ‖v.st.y - y v.st.t‖ ≤ C * H ^ R.order := fun v hr =>
    c3 c errNorm P h0 H e0 Ks0 v hc hm hb hdir hmax g1 hu hr
  have ha : AcceptsAll c (newSolver c t0 (y t0) h0 e0 Ks0) b H := by
    intro v hr _ h hp hle _ Ks
    have hmem : v.st.t ∈ Set.uIcc t0 b := by
      obtain ⟨a1, a2⟩ := C01_never_past_t_bound hc hb (v0 := newSolver c t0 (y t0) h0 e0 Ks0) hdir hu hr
      have a1 : 0 ≤ c.dir * (v.st.t - t0) := a1
      rcases hc.dir with hd | hd <;> rw [hd] at a1 a2
      · exact Set.mem_uIcc.mpr (Or.inl ⟨by linarith, by linarith⟩)
      · exact Set.mem_uIcc.mpr (Or.inr ⟨by linarith, by linarith⟩)
    have habs : |h * c.dir| = h := by
      rcases hc.dir with e | e <;> rw [e] <;> simp [abs_of_pos hp]
    have hf := C10_stored_derivative_current hm hr
    obtain ⟨⟨x, hx, hx1⟩, x', hx', hx1'⟩ := d3 errNorm P hE hP v.st.t hmem v.st.y (h * c.dir) Ks ((herr v hr).trans_lt hCH) (by rw [habs]; nlinarith)
    rw [habs] at hx1 hx1'
    rw [hm, hf, hx, hx']
    have hD : D * h < 1 := by nlinarith
    refine ⟨?_, x', rfl, hx1'.trans_lt hD⟩
    simp only [ENorm.gt]
    rw [decide_eq_false_iff_not]
    linarith
  obtain ⟨p1, p2⟩ := accepts_all_end hc hg hst hb hdir hmax (y t0) h0 e0 Ks0 hu ha
  refine ⟨p1, fun n r w hw => ?_⟩
  obtain ⟨q1, q2, q3, q4⟩ := p2 n r w hw
  exact ⟨q1, q3, herr w q2, q4⟩

/-- **C111**, the run to the end. If moreover the controller does not shorten the step when the error norms are at most `θ` (`C111_controller_grows`) and the
minimal step is at most half of the smallest of `first_step`, `max_step` and the length of the interval, the solver finishes, exactly on `t_bound`, after
at most `2 |t_bound - t0| / min(first_step, max_step, |t_bound - t0|)` steps none of which was rejected, with an error of at most
`C max_step^order`. -/
theorem C111_finishes [CompleteSpace E] (R : RKTable) (hR : R ∈ rationalRK) {f : ℝ → E → E} {y : ℝ → E} {t0 b : ℝ}
    (hy : SolvesOn f y t0 b) {M θ Rf : ℝ} (hM : 0 ≤ M) (hθ : 0 < θ) :
    ∃ C hstar : ℝ, 0 ≤ C ∧ 0 < hstar ∧
      ∀ (c : Cfg ℝ E E) (errNorm : E → E → E → ENorm ℝ) (P : PreTest ℝ E) (h0 H : ℝ) (e0 : ℕ) (Ks0 : ℕ → E), CfgOK c → c.safety < 1 →
        StiffOK c.nfevStiff c.m → c.m = rkMethod (R.tab ℝ) f errNorm P → ErrBound errNorm M → PreBound P ((R.tab ℝ).s - 1) M → Grows c θ Rf →
        c.tb = some b → 0 ≤ c.dir * (b - t0) → c.maxStep = some H → H ≤ hstar →
        c.hMinB ≤ min h0 (min H |b - t0|) / 2 → c.hMinA * (max |t0| |b| + max h0 (Rf * H)) ≤ min h0 (min H |b - t0|) / 2 →
        (∃ n w, WhileRunning (step c) (fun v => v.status = .running) Out.raised (newSolver c t0 (y t0) h0 e0 Ks0) n none w) ∧
        ∀ n r w, WhileRunning (step c) (fun v => v.status = .running) Out.raised (newSolver c t0 (y t0) h0 e0 Ks0) n r w →
          r = none ∧ w.status = .finished ∧ w.st.t = b ∧ w.st.nfs = 0 ∧ ‖w.st.y - y b‖ ≤ C * H ^ R.order ∧
          n * (min h0 (min H |b - t0|) / 2) ≤ |b - t0| := by
  obtain ⟨_, _, r1, r2⟩ := rationalRK_rows R hR
  have ho : 1 ≤ R.order := by
    have : ∀ R ∈ rationalRK, 1 ≤ R.order := by decide +kernel
    exact this R hR
  obtain ⟨C, h1, c1, c2, c3⟩ := C87_global_error R hR hy
  obtain ⟨ε, D, d1, d2, d3⟩ := attempt_small hy (R.tab ℝ) r1 r2 hM
  set ϑ := min 1 θ with hϑ
  have hϑ0 : 0 < ϑ := lt_min one_pos hθ
  refine ⟨C, min (min h1 1) (min (ε / (2 * (C + 1))) (ϑ / (D + 1))), c1, by positivity, ?_⟩
  intro c errNorm P h0 H e0 Ks0 hc hg hst hm hE hP hgr hb hdir hmax hH hmin1 hmin2
  have hH0 : 0 < H := hc.maxStep H hmax
  have g1 : H ≤ h1 := hH.trans ((min_le_left _ _).trans (min_le_left _ _))
  have g2 : H ≤ 1 := hH.trans ((min_le_left _ _).trans (min_le_right _ _))
  have g3 : H * (2 * (C + 1)) ≤ ε := (le_div_iff₀ (by positivity)).mp (hH.trans ((min_le_right _ _).trans (min_le_left _ _)))
  have g4 : H * (D + 1) ≤ ϑ := (le_div_iff₀ (by positivity)).mp (hH.trans ((min_le_right _ _).trans (min_le_right _ _)))
  have hpow : H ^ R.order ≤ H := by
    calc H ^ R.order ≤ H ^ 1 := pow_le_pow_of_le_one hH0.le g2 ho
      _ = H := pow_one H
  have hCH : C * H ^ R.order < ε := by
    have := mul_le_mul_of_nonneg_left hpow c1
    nlinarith
  set v0 := newSolver c t0 (y t0) h0 e0 Ks0 with hv0
  set η := min h0 (min H |b - t0|) with hη
  have hη0 : 0 < η := by linarith [hc.hMinB]
  have herr : ∀ v, ReachWithin c v0 t0 b H v → ‖v.st.y - y v.st.t‖ ≤ C * H ^ R.order := fun v hr =>
    c3 c errNorm P h0 H e0 Ks0 v hc hm hdir hH0.le g1 hr
  have hrun : GoodRun c v0 t0 b η H θ Rf (max h0 (Rf * H)) := by
    refine ⟨hc, hb, rfl, hdir, hmax, hη0, (min_le_right _ _).trans (min_le_left _ _), hgr, le_max_right _ _, ?_, ?_⟩
    · intro v hr h hh
      refine max_le (le_trans ?_ hmin2) hmin1
      refine mul_le_mul_of_nonneg_left (add_le_add ?_ hh) hc.hMinA
      have hmem := hr.mem (rfl : v0.st.t = t0)
      rcases Set.mem_uIcc.mp hmem with ⟨a1, a2⟩ | ⟨a1, a2⟩
      · exact abs_le_max_abs_abs a1 a2
      · rw [max_comm]; exact abs_le_max_abs_abs a1 a2
    · intro v hr _ h hp hle Ks
      have habs : |h * c.dir| = h := by
        rcases hc.dir with e | e <;> rw [e] <;> simp [abs_of_pos hp]
      have hf := C10_stored_derivative_current hm hr.reach
      obtain ⟨⟨x, hx, hx1⟩, x', hx', hx1'⟩ := d3 errNorm P hE hP v.st.t (hr.mem rfl) v.st.y (h * c.dir) Ks ((herr v hr).trans_lt hCH)
        (by rw [habs]; nlinarith)
      rw [habs] at hx1 hx1'
      rw [hm, hf, hx, hx']
      have hD : D * h ≤ ϑ := by nlinarith
      refine ⟨?_, x', rfl, (hx1'.trans hD).trans (min_le_right _ _)⟩
      simp only [ENorm.gt]
      rw [decide_eq_false_iff_not]
      linarith [min_le_left 1 θ]
  have hgood : GoodAt c b η θ Rf (max h0 (Rf * H)) v0 |b - t0| := by
    refine ⟨?_, ?_, ?_, le_max_left _ _, ?_, ?_, fun h => by cases h⟩
    · have : η ≤ |b - t0| := (min_le_right _ _).trans (min_le_right _ _)
      linarith
    · show b - t0 = c.dir * |b - t0|
      rcases hc.dir with e | e <;> rw [e] at hdir ⊢
      · rw [abs_of_nonneg (by linarith)]; ring
      · rw [abs_of_nonpos (by linarith)]; ring
    · exact (min_le_left _ _).trans (min_le_left _ _)
    · show (1 : ℝ) ≤ MAX_FACTOR0
      norm_num [MAX_FACTOR0]
    · show (MAX_FACTOR0 : ℝ) ≤ 10
      norm_num [MAX_FACTOR0]
  obtain ⟨p1, p2⟩ := C110_explicit hc hg hst hb hdir (y t0) h0 e0 Ks0
  constructor
  · obtain ⟨n, r, w, hw⟩ := p1
    obtain ⟨-, rfl, -⟩ := p2 n r w hw
    exact ⟨n, w, hw⟩
  · intro n r w hw
    obtain ⟨-, rfl, -⟩ := p2 n r w hw
    obtain ⟨q1, q2, q3, q4, q5⟩ := good_end hrun rfl hgood hw
    have := herr w q4
    rw [q2] at this
    exact ⟨rfl, q1, q2, q3, this, q5⟩

theorem ErrBound.mono {errNorm : E → E → E → ENorm ℝ} {M M' : ℝ} (h : ErrBound errNorm M) (hM : M ≤ M') : ErrBound errNorm M' := by
  intro y y' e
  obtain ⟨x, h1, h2⟩ := h y y' e
  exact ⟨x, h1, h2.trans (mul_le_mul_of_nonneg_right hM (norm_nonneg _))⟩

theorem PreBound.mono {P : PreTest ℝ E} {n : ℕ} {M M' : ℝ} (h : PreBound P n M) (hM : M ≤ M') : PreBound P n M' := by
  intro he y h' Ks B hB hk
  obtain ⟨x, h1, h2⟩ := h he y h' Ks B hB hk
  exact ⟨x, h1, h2.trans (mul_le_mul_of_nonneg_right hM (by positivity))⟩

/-- The preliminary tests of `BS5` and `CFMR7osc` satisfy the hypothesis. -/
theorem C111_pre_bound {errNorm : E → E → E → ENorm ℝ} {M : ℝ} (hM : 0 ≤ M) (h : ErrBound errNorm M) {n n' : ℕ} (hn : n ≤ n') (Bp Ep : ℕ → ℝ) (cnt : ℕ) :
    PreBound (PreTest.linear n Bp Ep errNorm cnt) n' (M * ∑ i ∈ range n, |Ep i|) := by
  intro _ y h' Ks B hB hk
  obtain ⟨x, h1, h2⟩ := h y (y + h' • ∑ i ∈ range n, Bp i • Ks i) (h' • ∑ i ∈ range n, Ep i • Ks i)
  refine ⟨x, h1, h2.trans ?_⟩
  have : ‖h' • ∑ i ∈ range n, Ep i • Ks i‖ ≤ |h'| * ((∑ i ∈ range n, |Ep i|) * B) := by
    rw [norm_smul, Real.norm_eq_abs]
    refine mul_le_mul_of_nonneg_left ?_ (abs_nonneg _)
    refine (norm_sum_le _ _).trans ?_
    rw [sum_mul]
    refine sum_le_sum fun i hi => ?_
    rw [norm_smul, Real.norm_eq_abs]
    exact mul_le_mul_of_nonneg_left (hk i (lt_of_lt_of_le (mem_range.mp hi) hn)) (abs_nonneg _)
  calc M * ‖h' • ∑ i ∈ range n, Ep i • Ks i‖ ≤ M * (|h'| * ((∑ i ∈ range n, |Ep i|) * B)) := mul_le_mul_of_nonneg_left this hM
    _ = _ := by ring

/-- The error norm of the code, with every component of `atol` at least `a > 0`, satisfies the hypothesis, for real and complex arrays. -/
theorem C111_err_bound {𝕜 : Type*} [RCLike 𝕜] {n : ℕ} {atol : Fin n → ℝ} {rtol a : ℝ} (ha : 0 < a) (hat : ∀ i, a ≤ atol i) (hr : 0 ≤ rtol) :
    ErrBound (fun (y y' e : Fin n → 𝕜) => .num (scaledNorm atol rtol y y' e)) (1 / a) := by
  intro y y' e
  refine ⟨_, rfl, ?_⟩
  have hsc : ∀ i, a ≤ errScale atol rtol y y' i := by
    intro i
    unfold errScale
    have : 0 ≤ rtol * max ‖y i‖ ‖y' i‖ := mul_nonneg hr (le_max_of_le_left (norm_nonneg _))
    linarith [hat i]
  unfold scaledNorm rmsNorm
  have h0 : (0 : ℝ) ≤ 1 / a * ‖e‖ := by positivity
  rw [Real.sqrt_le_left h0]
  have h1 : RCLike.re (∑ i, e i / ((errScale atol rtol y y' i : ℝ) : 𝕜) * (starRingEnd 𝕜) (e i / ((errScale atol rtol y y' i : ℝ) : 𝕜))) ≤
      n * (1 / a * ‖e‖) ^ 2 := by
    rw [map_sum]
    calc _ ≤ ∑ _i : Fin n, (1 / a * ‖e‖) ^ 2 := by
          refine sum_le_sum fun i _ => ?_
          rw [RCLike.mul_conj, ← RCLike.ofReal_pow, RCLike.ofReal_re]
          refine pow_le_pow_left₀ (norm_nonneg _) ?_ 2
          have hp : 0 < errScale atol rtol y y' i := ha.trans_le (hsc i)
          rw [norm_div, RCLike.norm_ofReal, abs_of_pos hp, div_le_iff₀ hp]
          have h3 : ‖e i‖ ≤ ‖e‖ := norm_le_pi_norm e i
          have h4 : 1 ≤ 1 / a * errScale atol rtol y y' i := by
            rw [one_div, inv_mul_eq_div, le_div_iff₀ ha]; linarith [hsc i]
          calc ‖e i‖ ≤ ‖e‖ := h3
            _ ≤ ‖e‖ * (1 / a * errScale atol rtol y y' i) := le_mul_of_one_le_right (norm_nonneg _) h4
            _ = _ := by ring
      _ = n * (1 / a * ‖e‖) ^ 2 := by rw [sum_const, card_univ, Fintype.card_fin, nsmul_eq_mul]
  rcases Nat.eq_zero_or_pos n with hn | hn
  · subst hn
    simp only [Nat.cast_zero, div_zero]
    positivity
  · rw [div_le_iff₀ (by exact_mod_cast hn)]
    linarith

end
end Extensisq
