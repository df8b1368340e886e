import Verif.Props.Completes
import Verif.Props.ToleranceConvergence

/-!
# C113: the work for a tolerance

For a fixed small `max_step` and every tolerance the integration of a smooth problem ends on `t_bound`, after a number of steps of at most a constant times
`tol^(-1/(order_secondary+1))`, and a proportional number of rejected attempts.
-/

set_option linter.unusedSectionVars false

namespace Extensisq
open scoped ContDiff
open Finset Asymptotics Filter Topology

/-! ## Runs with rejections -/

section
variable {E W : Type*} [NormedAddCommGroup E] [NormedSpace ℝ E]

/-- The controller: after an accepted attempt the step changes by factors between `m` and `R`, and it is not shortened if the error norm is at most `θ`. -/
structure Steers (c : Cfg ℝ E W) (θ m R : ℝ) : Prop where
  lt : θ < 1
  ten : 10 ≤ R
  pos : 0 < m
  minF : m ≤ c.minFactor
  safe : m ≤ c.safety
  std : ∀ x, c.tinyErr ≤ x → x < 1 → c.safety * c.pw x c.errExp ≤ R
  std1 : ∀ x, c.tinyErr ≤ x → x ≤ θ → 1 ≤ c.safety * c.pw x c.errExp
  sc : ∀ x eo r, c.tinyErr ≤ x → x ≤ θ → c.tinyErr ≤ eo → eo ≤ 1 → m ≤ r → r ≤ R →
    1 ≤ c.safetySc * (c.pw x c.minbeta1 * c.pw eo c.minbeta2 * c.pw r c.minalpha)

/-- A run whose error norms are finite, and at most `θ` for steps of at most `η`. -/
structure WorkRun (c : Cfg ℝ E W) (v0 : Solver ℝ E W) (t0 b η H θ m μ R X σ : ℝ) : Prop where
  ok : CfgOK c
  tb : c.tb = some b
  start : v0.st.t = t0
  into : 0 ≤ c.dir * (b - t0)
  maxStep : c.maxStep = some H
  posη : 0 < η
  pos : 0 < σ
  le : σ ≤ H
  leη : σ ≤ m * m * η
  leμ : σ ≤ (1 - μ) * η
  mu1 : c.minFactor ≤ μ
  mu2 : c.safety ≤ μ
  mu : μ < 1
  steers : Steers c θ m R
  room : R * H ≤ X
  min : ∀ v, ReachWithin c v0 t0 b H v → ∀ h, h ≤ X → minStepOf c v.st.t h ≤ σ / 2
  num : ∀ v, ReachWithin c v0 t0 b H v → v.status = .running → ∀ h, 0 < h → h ≤ H → ∀ Ks,
    (∃ x, (c.m.trial v.st.t v.st.y v.st.f (h * c.dir) Ks).pre = .num x) ∧ ∃ x, (c.m.trial v.st.t v.st.y v.st.f (h * c.dir) Ks).err = .num x
  acc : ∀ v, ReachWithin c v0 t0 b H v → v.status = .running → ∀ h, 0 < h → h ≤ H → h ≤ η → ∀ Ks,
    (c.m.trial v.st.t v.st.y v.st.f (h * c.dir) Ks).pre.gt 1 = false ∧
    ∃ x, (c.m.trial v.st.t v.st.y v.st.f (h * c.dir) Ks).err = .num x ∧ x ≤ θ

/-- A state of such a run at a distance `d` from the end. -/
structure WorkAt (c : Cfg ℝ E W) (b σ m R X : ℝ) (v : Solver ℝ E W) (d : ℝ) : Prop where
  pos : σ / 2 < d
  time : b - v.st.t = c.dir * d
  step : min σ d ≤ v.st.hAbs
  top : v.st.hAbs ≤ X
  fac : 1 ≤ v.st.maxFactor
  fac10 : v.st.maxFactor ≤ 10
  ctl : v.st.stdSc = false → ∃ hp eo r, v.st.hPrev = some (hp * c.dir) ∧ v.st.errOld = some eo ∧ c.tinyErr ≤ eo ∧ eo ≤ 1 ∧ 0 < hp ∧
    v.st.hAbs = hp * r ∧ m ≤ r ∧ r ≤ R

theorem work_reassess {c : Cfg ℝ E W} {v : Solver ℝ E W} {b σ H m R X d : ℝ} (hok : CfgOK c) (htb : c.tb = some b) (hmax : c.maxStep = some H)
    (hσ : 0 < σ) (hσH : σ ≤ H) (hms : minStepOf c v.st.t v.st.hAbs ≤ σ / 2)
    (h : WorkAt c b σ m R X v d) : ∃ st h1 ms, reassess c v.st = (h1, ms, st) ∧ ms ≤ σ / 2 ∧ σ / 2 < h1 ∧ h1 ≤ H ∧ h1 ≤ v.st.hAbs ∧ h1 ≤ d ∧
      (h1 = d ∨ (min σ (d - h1) ≤ h1 ∧ σ / 2 < d - h1 ∧ (st = false → v.st.stdSc = false ∧ h1 = v.st.hAbs))) := by
  have hd0 : 0 < d := (half_pos hσ).trans h.pos
  have hd : |b - v.st.t| = d := by
    rw [h.time]
    rcases hok.dir with e | e <;> rw [e] <;> simp [abs_of_pos hd0]
  set ms := minStepOf c v.st.t v.st.hAbs with hmsd
  have hlo : ms ≤ v.st.hAbs := hms.trans ((le_min (by linarith) h.pos.le).trans h.step)
  have key : ∃ st, ∃ h1, h1 = min H v.st.hAbs ∧ (st = false → v.st.stdSc = false ∧ h1 = v.st.hAbs) ∧ reassess c v.st =
      (if d < 2 * h1 then (if d > h1 then (max (d / 2) ms, ms, true) else (d, ms, st)) else (h1, ms, st)) := by
    unfold reassess
    simp only [← hmsd, hmax, htb, hd, capMax, overMax]
    by_cases h1 : H < v.st.hAbs
    · refine ⟨true, min H v.st.hAbs, rfl, (fun h => by cases h), ?_⟩
      have e : max ms v.st.hAbs = v.st.hAbs := max_eq_right hlo
      simp [h1, e]
    · have e1 : min H v.st.hAbs = v.st.hAbs := min_eq_right (not_lt.mp h1)
      refine ⟨v.st.stdSc, min H v.st.hAbs, rfl, fun h => ⟨h, e1⟩, ?_⟩
      simp [h1, not_lt.mpr hlo, e1]
  obtain ⟨st, h1, e1, e3, e2⟩ := key
  have hle : h1 ≤ H := e1 ▸ min_le_left _ _
  have hle' : h1 ≤ v.st.hAbs := e1 ▸ min_le_right _ _
  have hge : min σ d ≤ h1 := by rw [e1]; exact le_min ((min_le_left _ _).trans hσH) h.step
  have hp := h.pos
  by_cases c1 : d < 2 * h1
  · rw [if_pos c1] at e2
    by_cases c2 : d > h1
    · rw [if_pos c2] at e2
      have hηd : σ < d := by
        by_contra hcon
        rw [min_eq_right (not_lt.mp hcon)] at hge
        linarith
      rw [max_eq_left (by linarith)] at e2
      exact ⟨_, _, _, e2, hms, by linarith, by linarith, by linarith, by linarith,
        Or.inr ⟨(min_le_right _ _).trans (by linarith), by linarith, fun h => by cases h⟩⟩
    · rw [if_neg c2] at e2
      exact ⟨_, _, _, e2, hms, hp, (not_lt.mp c2).trans hle, (not_lt.mp c2).trans hle', le_rfl, Or.inl rfl⟩
  · rw [if_neg c1] at e2
    have hηd : σ < d := by
      by_contra hcon
      rw [min_eq_right (not_lt.mp hcon)] at hge
      linarith
    rw [min_eq_left hηd.le] at hge
    exact ⟨_, _, _, e2, hms, by linarith, hle, hle', by linarith, Or.inr ⟨(min_le_left _ _).trans hge, by linarith, e3⟩⟩

/-- Factors of a retry. -/
theorem retry_bounds {c : Cfg ℝ E W} (hok : CfgOK c) {m μ : ℝ} (hm : m ≤ c.minFactor) (h1 : c.minFactor ≤ μ) (h2 : c.safety ≤ μ) {x : ℝ} (hx : 1 ≤ x) :
    m ≤ retryFactor c (.num x) ∧ retryFactor c (.num x) ≤ μ := by
  refine ⟨hm.trans (le_max_left _ _), max_le h1 ?_⟩
  have := hok.pw.le_one x c.errExp hx hok.errExp.le
  calc c.safety * c.pw x c.errExp ≤ c.safety * 1 := mul_le_mul_of_nonneg_left this hok.safety0.le
    _ ≤ μ := by rw [mul_one]; exact h2

/-- The attempts of one step: rejected ones were longer than `η`. -/
theorem work_chain {c : Cfg ℝ E W} {v0 v : Solver ℝ E W} {t0 b η H θ m μ R X σ h1 ms : ℝ} {st : Bool}
    (hc : WorkRun c v0 t0 b η H θ m μ R X σ) (hr : ReachWithin c v0 t0 b H v) (hrun : v.status = .running) (hh1 : 0 < h1) (hH : h1 ≤ H)
    {k : ℕ} (ch : Chain c { v.st with stdSc := st } h1 ms k) : ∀ i, i ≤ k →
      0 < ch.hs i ∧ ch.hs i ≤ h1 * μ ^ i ∧ ch.hs i ≤ H ∧ (0 < i → m * η ≤ ch.hs i ∧ η < h1) := by
  have hμ0 : 0 ≤ μ := hc.ok.minF0.le.trans hc.mu1
  intro i
  induction i with
  | zero =>
    intro _
    rw [ch.h_zero]
    exact ⟨hh1, by simp, hH, fun h => absurd h (lt_irrefl 0)⟩
  | succ i ih =>
    intro hi
    obtain ⟨a1, a2, a3, a4⟩ := ih (by omega)
    obtain ⟨-, hrej, hnext, -⟩ := ch.rejected i (by omega)
    have hlong : η < ch.hs i := by
      by_contra hcon
      obtain ⟨b1, x, b2, b3⟩ := hc.acc v hr hrun (ch.hs i) a1 a3 (not_lt.mp hcon) (ch.Ks i)
      generalize ch.early i = ee at hrej
      generalize ch.es i = es at hrej
      cases hrej with
      | early h => 
        have h : (c.m.trial v.st.t v.st.y v.st.f (ch.hs i * c.dir) (ch.Ks i)).pre.gt 1 = true := h
        rw [h] at b1; cases b1
      | late _ he hx =>
        have he : (c.m.trial v.st.t v.st.y v.st.f (ch.hs i * c.dir) (ch.Ks i)).err = _ := he
        have := ENorm.num.inj (b2.symm.trans he)
        linarith [hc.steers.lt]
    obtain ⟨⟨x1, n1⟩, -⟩ := hc.num v hr hrun (ch.hs i) a1 a3 (ch.Ks i)
    have hfac : m ≤ retryFactor c (ch.es i) ∧ retryFactor c (ch.es i) ≤ μ := by
      generalize ch.early i = ee at hrej
      generalize ch.es i = es at hrej
      cases hrej with
      | early h =>
        have h : (c.m.trial v.st.t v.st.y v.st.f (ch.hs i * c.dir) (ch.Ks i)).pre.gt 1 = true := h
        rw [n1] at h
        have hx : 1 < x1 := by simpa [ENorm.gt] using h
        have e : (c.m.trial v.st.t v.st.y v.st.f (ch.hs i * c.dir) (ch.Ks i)).pre = .num x1 := n1
        show m ≤ retryFactor c (c.m.trial v.st.t v.st.y v.st.f (ch.hs i * c.dir) (ch.Ks i)).pre ∧
          retryFactor c (c.m.trial v.st.t v.st.y v.st.f (ch.hs i * c.dir) (ch.Ks i)).pre ≤ μ
        rw [e]
        exact retry_bounds hc.ok hc.steers.minF hc.mu1 hc.mu2 hx.le
      | late _ _ hx => exact retry_bounds hc.ok hc.steers.minF hc.mu1 hc.mu2 hx
    have hf0 : 0 < retryFactor c (ch.es i) := hc.steers.pos.trans_le hfac.1
    rw [hnext]
    have hshort : ch.hs i * retryFactor c (ch.es i) ≤ ch.hs i * μ := mul_le_mul_of_nonneg_left hfac.2 a1.le
    refine ⟨mul_pos a1 hf0, ?_, ?_, fun _ => ⟨?_, ?_⟩⟩
    · calc ch.hs i * retryFactor c (ch.es i) ≤ ch.hs i * μ := hshort
        _ ≤ h1 * μ ^ i * μ := mul_le_mul_of_nonneg_right a2 hμ0
        _ = h1 * μ ^ (i + 1) := by rw [pow_succ]; ring
    · have := mul_le_mul_of_nonneg_left hc.mu.le a1.le
      linarith
    · rw [mul_comm m η]
      exact mul_le_mul hlong.le hfac.1 hc.steers.pos.le a1.le
    · refine hlong.trans_le (a2.trans ?_)
      have : μ ^ i ≤ 1 := pow_le_one₀ hμ0 hc.mu.le
      nlinarith

/-- Bounds of the factor after an accepted attempt. -/
theorem accept_bounds {c : Cfg ℝ E W} (hok : CfgOK c) {θ m R : ℝ} (hs : Steers c θ m R) {s : St ℝ E W} (hf : 1 ≤ s.maxFactor) (hf10 : s.maxFactor ≤ 10)
    {h x f0 : ℝ} {std : Bool} (hx : x < 1) (ha : acceptFactor c s h x = some (f0, std)) : m ≤ f0 ∧ f0 ≤ R ∧ (std = false → c.tinyErr ≤ x) := by
  have hm1 : m ≤ 1 := hs.minF.trans hok.minF1.le
  have hten := hs.ten
  unfold acceptFactor at ha
  by_cases hxt : x < c.tinyErr
  · rw [if_pos hxt] at ha
    obtain ⟨rfl, rfl⟩ := Prod.ext_iff.mp (Option.some.inj ha)
    exact ⟨hm1.trans hf, hf10.trans hten, fun h => by cases h⟩
  · rw [if_neg hxt] at ha
    have hxt := not_lt.mp hxt
    by_cases hst : s.stdSc = true
    · rw [if_pos hst] at ha
      obtain ⟨rfl, rfl⟩ := Prod.ext_iff.mp (Option.some.inj ha)
      refine ⟨?_, hs.std x hxt hx, fun _ => hxt⟩
      have := hok.pw.one_le x c.errExp (hok.tiny.trans_le hxt) hx.le hok.errExp.le
      calc m ≤ c.safety * 1 := by rw [mul_one]; exact hs.safe
        _ ≤ _ := mul_le_mul_of_nonneg_left this hok.safety0.le
    · rw [if_neg hst] at ha
      split at ha
      · obtain ⟨rfl, rfl⟩ := Prod.ext_iff.mp (Option.some.inj ha)
        exact ⟨le_min (hm1.trans hf) (hs.minF.trans (le_max_left _ _)), (min_le_left _ _).trans (hf10.trans hten), fun _ => hxt⟩
      · cases ha

/-- One call of `step()` of such a run: it ends on `t_bound` or goes on. -/
theorem work_step {c : Cfg ℝ E W} {v0 v v' : Solver ℝ E W} {t0 b η H θ m μ R X σ d : ℝ} (hc : WorkRun c v0 t0 b η H θ m μ R X σ)
    (hr : ReachWithin c v0 t0 b H v) (hrun : v.status = .running) (h : WorkAt c b σ m R X v d) {fuel : ℕ} {o : Out} (hs : step c fuel v = some (o, v'))
    (ho : ¬ o.raised) : ∃ k, v'.st.nfs = v.st.nfs + k ∧ v'.st.hAbs ≤ v.st.hAbs * (R * μ ^ k) ∧ m * (σ / 2) ≤ v'.st.hAbs ∧ ReachWithin c v0 t0 b H v' ∧
      ((v'.status = .finished ∧ v'.st.t = b) ∨ (v'.status = .running ∧ ∃ d', WorkAt c b σ m R X v' d' ∧ d' + σ / 2 ≤ d)) := by
  obtain ⟨st, h1, ms, er, g0, g1, g2, g6, g7, g3⟩ := work_reassess hc.ok hc.tb hc.maxStep hc.pos hc.le (hc.min v hr _ h.top) h
  have hσ := hc.pos
  have hη := hc.posη
  have hm0 := hc.steers.pos
  have hm1 : m ≤ 1 := hc.steers.minF.trans hc.ok.minF1.le
  have hμ0 : 0 ≤ μ := hc.ok.minF0.le.trans hc.mu1
  have hR0 : 0 < R := by linarith [hc.steers.ten]
  have hd0 : 0 < d := (half_pos hσ).trans h.pos
  have hh1 : 0 < h1 := by linarith
  have e2 : c.dir * c.dir = 1 := by rcases hc.ok.dir with e | e <;> rw [e] <;> norm_num
  have hmη : σ ≤ m * η := by
    have : m * m * η ≤ m * η := by
      have := mul_le_mul_of_nonneg_right hm1 (mul_pos hm0 hη).le
      linarith
    linarith [hc.leη]
  rcases step_status hrun hs with ⟨h0, -⟩ | ⟨hne, hi, hstat⟩
  · exfalso
    rw [hc.tb] at h0
    have hb := h.time
    rw [Option.some.inj h0, sub_self] at hb
    rcases mul_eq_zero.mp hb.symm with h5 | h5
    · rw [h5] at e2; simp at e2
    · exact hd0.ne' h5
  · unfold stepImpl at hi
    rw [er] at hi
    dsimp only at hi
    obtain ⟨k, ch, -, hl⟩ := loop_spec c _ _ _ _ _ _ _ hi
    obtain ⟨a1, a2, a3, a4⟩ := work_chain hc hr hrun hh1 g2 ch k le_rfl
    have hlow : σ / 2 < ch.hs k := by
      rcases Nat.eq_zero_or_pos k with hk | hk
      · subst hk; rw [ch.h_zero]; exact g1
      · have := (a4 hk).1; linarith
    have etr : c.m.trial ch.last.t ch.last.y ch.last.f (ch.hs k * c.dir) ch.last.Ks =
        c.m.trial v.st.t v.st.y v.st.f (ch.hs k * c.dir) (ch.Ks k) := rfl
    unfold LastAttempt at hl
    rw [etr] at hl
    rcases hl with ⟨h3, -⟩ | ⟨-, -, h3, -⟩ | ⟨x, -, hpre, herr, hx, h4⟩
    · linarith
    · obtain ⟨-, x, hx⟩ := hc.num v hr hrun _ a1 a3 (ch.Ks k)
      rw [hx] at h3
      rcases h3 with h3 | h3 <;> cases h3
    · rcases h4 with ⟨-, h5, -⟩ | ⟨f0, std, b2, h6⟩
      · rw [h5] at ho; exact absurd trivial ho
      · dsimp only at h6
        rcases h6 with ⟨-, h7, -⟩ | ⟨bb, b4, h7⟩
        · rw [h7] at ho; exact absurd trivial ho
        · simp only [Bool.false_or, decide_eq_true_eq] at b4
          obtain ⟨f1, f2, f3⟩ := accept_bounds hc.ok hc.steers (s := ch.last) h.fac h.fac10 hx b2
          set fac := (if 0 < k then min 1 f0 else f0) with hfac
          have F1 : m ≤ fac := by rw [hfac]; split_ifs; exacts [le_min hm1 f1, f1]
          have F2 : fac ≤ R := by rw [hfac]; split_ifs; exacts [(min_le_right _ _).trans f2, f2]
          have hfac0 : 0 < fac := hm0.trans_le F1
          have hsame := diagnose_same b4
          have ht : v'.st.t = v.st.t + ch.hs k * c.dir := by rw [hsame]; rfl
          have ehAbs : v'.st.hAbs = ch.hs k * fac := by rw [hsame]; rfl
          have hkd : ch.hs k ≤ h1 := by
            refine a2.trans ?_
            have : μ ^ k ≤ 1 := pow_le_one₀ hμ0 hc.mu.le
            nlinarith
          refine ⟨k, by rw [hsame]; rfl, ?_, ?_, ?_, ?_⟩
          · rw [ehAbs]
            calc ch.hs k * fac ≤ h1 * μ ^ k * R := mul_le_mul a2 F2 hfac0.le (by positivity)
              _ ≤ v.st.hAbs * μ ^ k * R := by
                  have : 0 ≤ μ ^ k := by positivity
                  gcongr
              _ = _ := by ring
          · rw [ehAbs, mul_comm m]
            exact mul_le_mul hlow.le F1 hm0.le a1.le
          · refine .tail hr hs ?_ ?_
            · rw [ht, add_sub_cancel_left]
              rcases hc.ok.dir with e | e <;> rw [e] <;> simp [abs_of_pos a1, a3]
            · have hd1 : ch.hs k ≤ d := hkd.trans g7
              have hmem := hr.mem hc.start
              have hb := h.time
              have hdir := hc.into
              rcases hc.ok.dir with e | e <;> rw [e] at ht hb hdir
              · rw [Set.uIcc_of_le (by linarith)] at hmem ⊢
                exact ⟨by rw [ht]; linarith [hmem.1], by rw [ht]; linarith⟩
              · rw [Set.uIcc_of_ge (by linarith)] at hmem ⊢
                exact ⟨by rw [ht]; linarith, by rw [ht]; linarith [hmem.2]⟩
          · rcases hstat with ⟨-, hstat⟩ | ⟨⟨e, he⟩, -⟩ | ⟨⟨e, he⟩, -⟩
            · -- on the end, or at a distance
              have hcases : (ch.hs k = d ∧ k = 0) ∨ (σ / 2 < d - ch.hs k ∧ min σ (d - ch.hs k) ≤ ch.hs k * fac) := by
                rcases Nat.eq_zero_or_pos k with hk | hk
                · have e0 : ch.hs k = h1 := (congrArg ch.hs hk).trans ch.h_zero
                  rcases g3 with g3 | ⟨g3, g4, g5⟩
                  · exact Or.inl ⟨e0.trans g3, hk⟩
                  · right
                    rw [e0]
                    refine ⟨g4, ?_⟩
                    by_cases hlong : h1 ≤ η
                    · -- the step is not shortened
                      have hone : 1 ≤ fac := by
                        have efac : fac = f0 := by rw [hfac, if_neg (by omega)]
                        rw [efac]
                        obtain ⟨-, x0, n1, n2⟩ := hc.acc v hr hrun (ch.hs k) a1 a3 (by rw [e0]; exact hlong) (ch.Ks k)
                        have ex : x0 = x := ENorm.num.inj (n1.symm.trans herr)
                        rw [ex] at n2
                        unfold acceptFactor at b2
                        by_cases hxt : x < c.tinyErr
                        · rw [if_pos hxt] at b2
                          obtain ⟨rfl, rfl⟩ := Prod.ext_iff.mp (Option.some.inj b2)
                          exact h.fac
                        · rw [if_neg hxt] at b2
                          have hxt := not_lt.mp hxt
                          cases st with
                          | true =>
                            have e5 : ch.last.stdSc = true := rfl
                            rw [if_pos e5] at b2
                            obtain ⟨rfl, rfl⟩ := Prod.ext_iff.mp (Option.some.inj b2)
                            exact hc.steers.std1 x hxt n2
                          | false =>
                            obtain ⟨k1, k2⟩ := g5 rfl
                            obtain ⟨hp, eo, r, m1, m2, m3, m4, m5, m6, m7, m8⟩ := h.ctl k1
                            have e5 : ch.last.stdSc = false := rfl
                            have e6 : ch.last.hPrev = some (hp * c.dir) := m1
                            have e7 : ch.last.errOld = some eo := m2
                            simp only [e5, e6, e7, Bool.false_eq_true, if_false] at b2
                            obtain ⟨rfl, rfl⟩ := Prod.ext_iff.mp (Option.some.inj b2)
                            have hdir0 : c.dir ≠ 0 := fun h => by rw [h] at e2; simp at e2
                            have er : ch.hs k * c.dir / (hp * c.dir) = r := by
                              rw [e0, k2, m6]; field_simp
                            rw [er]
                            exact le_min h.fac ((hc.steers.sc x eo r hxt n2 m3 m4 m7 m8).trans (le_max_right _ _))
                      exact g3.trans (le_mul_of_one_le_right hh1.le hone)
                    · push Not at hlong
                      refine (min_le_left _ _).trans (hmη.trans ?_)
                      rw [mul_comm m]
                      exact mul_le_mul hlong.le F1 hm0.le hh1.le
                · right
                  obtain ⟨c1, c2⟩ := a4 hk
                  have hμk : μ ^ k ≤ μ := by
                    calc μ ^ k ≤ μ ^ 1 := pow_le_pow_of_le_one hμ0 hc.mu.le hk
                      _ = μ := pow_one μ
                  have c3 : ch.hs k ≤ h1 * μ := a2.trans (mul_le_mul_of_nonneg_left hμk hh1.le)
                  have c4 : (1 - μ) * η ≤ (1 - μ) * h1 := mul_le_mul_of_nonneg_left c2.le (by linarith [hc.mu])
                  refine ⟨by linarith [hc.leμ], (min_le_left _ _).trans (hc.leη.trans ?_)⟩
                  calc m * m * η = m * η * m := by ring
                    _ ≤ ch.hs k * fac := mul_le_mul c1 F1 hm0.le a1.le
              rcases hcases with ⟨hend, -⟩ | ⟨g4, g3⟩
              · left
                have htb : v'.st.t = b := by rw [ht, hend]; linear_combination -h.time
                refine ⟨?_, htb⟩
                rw [hstat, htb]
                simp [reached, hc.tb]
              · right
                have hnr : reached c v'.st.t = false := by
                  unfold reached
                  rw [hc.tb]
                  dsimp only
                  rw [decide_eq_false_iff_not, not_le, ht]
                  have e3 : c.dir * (v.st.t + ch.hs k * c.dir - b) = -(d - ch.hs k) * (c.dir * c.dir) := by
                    linear_combination (-c.dir) * h.time
                  rw [e3, e2]
                  linarith
                refine ⟨by rw [hstat, hnr]; rfl, d - ch.hs k, ?_, by linarith⟩
                have emf : v'.st.maxFactor = if fac < MAX_FACTOR then MAX_FACTOR else v.st.maxFactor := by rw [hsame]; rfl
                have estd : v'.st.stdSc = std := by rw [hsame]; rfl
                have ehp : v'.st.hPrev = some (ch.hs k * c.dir) := by rw [hsame]; rfl
                have eeo : v'.st.errOld = some x := by rw [hsame]; rfl
                refine ⟨g4, by rw [ht]; linear_combination h.time, by rw [ehAbs]; exact g3, ?_, ?_, ?_, ?_⟩
                · rw [ehAbs]
                  refine le_trans ?_ hc.room
                  rw [mul_comm R]
                  exact mul_le_mul a3 F2 hfac0.le (by linarith)
                · rw [emf]; split_ifs
                  · norm_num [MAX_FACTOR]
                  · exact h.fac
                · rw [emf]; split_ifs
                  · norm_num [MAX_FACTOR]
                  · exact h.fac10
                · intro hstd
                  rw [estd] at hstd
                  exact ⟨ch.hs k, x, fac, ehp, eeo, f3 hstd, hx.le, a1, ehAbs, F1, F2⟩
            · rw [he] at h7; cases h7
            · rw [he] at h7; cases h7

/-- The loop over such a run ends on `t_bound`. -/
theorem work_end {c : Cfg ℝ E W} {v0 : Solver ℝ E W} {t0 b η H θ m μ R X σ d : ℝ} (hc : WorkRun c v0 t0 b η H θ m μ R X σ) (hrun : v0.status = .running)
    (h : WorkAt c b σ m R X v0 d) {n : ℕ} {w : Solver ℝ E W}
    (hw : WhileRunning (step c) (fun v => v.status = .running) Out.raised v0 n none w) :
    w.status = .finished ∧ w.st.t = b ∧ ReachWithin c v0 t0 b H w ∧ n * (σ / 2) ≤ d ∧
      ∃ k, w.st.nfs = v0.st.nfs + k ∧ m * (σ / 2) ≤ v0.st.hAbs * (R ^ n * μ ^ k) := by
  have hR0 : 0 < R := by linarith [hc.steers.ten]
  have hμ0 : 0 ≤ μ := hc.ok.minF0.le.trans hc.mu1
  have key : ∀ v n r w, WhileRunning (step c) (fun v => v.status = .running) Out.raised v n r w → r = none → ReachWithin c v0 t0 b H v → ∀ d,
      ((v.status = .finished ∧ v.st.t = b ∧ 0 ≤ d) ∨ (v.status = .running ∧ WorkAt c b σ m R X v d)) → m * (σ / 2) ≤ v.st.hAbs ∨ v.status = .running →
      w.status = .finished ∧ w.st.t = b ∧ ReachWithin c v0 t0 b H w ∧ n * (σ / 2) ≤ d ∧
      ∃ k, w.st.nfs = v.st.nfs + k ∧ m * (σ / 2) ≤ v.st.hAbs * (R ^ n * μ ^ k) := by
    intro v n r w hw
    induction hw with
    | stop h1 =>
      rintro - hr d (⟨h2, h3, h4⟩ | ⟨h2, -⟩) (h5 | h5)
      · exact ⟨h2, h3, hr, by simpa using h4, 0, rfl, by simpa using h5⟩
      · exact absurd h5 h1
      · exact absurd h2 h1
      · exact absurd h2 h1
    | raise _ _ _ => intro h; cases h
    | @next v v' w o fuel n r h1 h2 h3 _ ih =>
      rintro hn hr d (⟨h4, -⟩ | ⟨-, hd'⟩) -
      · rw [h1] at h4; cases h4
      · obtain ⟨k, k1, k7, k8, k3, k2⟩ := work_step hc hr h1 hd' h2 h3
        have fin : ∀ {j : ℕ}, m * (σ / 2) ≤ v'.st.hAbs * (R ^ n * μ ^ j) → m * (σ / 2) ≤ v.st.hAbs * (R ^ (n + 1) * μ ^ (k + j)) := by
          intro j hj
          have hp : 0 ≤ R ^ n * μ ^ j := by positivity
          calc m * (σ / 2) ≤ v'.st.hAbs * (R ^ n * μ ^ j) := hj
            _ ≤ v.st.hAbs * (R * μ ^ k) * (R ^ n * μ ^ j) := mul_le_mul_of_nonneg_right k7 hp
            _ = _ := by rw [pow_succ, pow_add]; ring
        rcases k2 with ⟨k4, k5⟩ | ⟨k4, d', k5, k6⟩
        · obtain ⟨l1, l2, l4, l5, j, l6, l7⟩ := ih hn k3 0 (Or.inl ⟨k4, k5, le_rfl⟩) (Or.inl k8)
          refine ⟨l1, l2, l4, ?_, k + j, by rw [l6, k1, add_assoc], fin l7⟩
          have := hd'.pos
          push_cast
          linarith
        · obtain ⟨l1, l2, l4, l5, j, l6, l7⟩ := ih hn k3 d' (Or.inr ⟨k4, k5⟩) (Or.inl k8)
          refine ⟨l1, l2, l4, ?_, k + j, by rw [l6, k1, add_assoc], fin l7⟩
          push_cast
          linarith
  exact key v0 n none w hw rfl .refl d (Or.inr ⟨hrun, h⟩) (Or.inr hrun)

/-- The real power function satisfies `Steers` with constants which do not depend on the tolerances. -/
theorem C113_controller_steers (safety safetySc errExp b1 b2 al tiny minF : ℝ) (hs : 0 < safety) (hs' : 0 < safetySc) (he : errExp < 0) (hb1 : b1 < 0)
    (ht : 0 < tiny) (hF : 0 < minF) :
    ∃ θ R : ℝ, 0 < θ ∧ ∀ c : Cfg ℝ E W, c.safety = safety → c.safetySc = safetySc → c.errExp = errExp → c.minbeta1 = b1 → c.minbeta2 = b2 →
      c.minalpha = al → c.tinyErr = tiny → c.minFactor = minF → c.pw = (fun x e => x ^ e) → Steers c θ (min minF safety) R := by
  set R := max 10 (safety * tiny ^ errExp) with hR
  have hR10 : 10 ≤ R := le_max_left _ _
  have hm : 0 < min minF safety := lt_min hF hs
  set m := min minF safety with hmdef
  set q2 := min 1 (tiny ^ b2) with hq2
  have hq20 : 0 < q2 := lt_min one_pos (Real.rpow_pos_of_pos ht _)
  set q3 := min (m ^ al) (R ^ al) with hq3
  have hq30 : 0 < q3 := lt_min (Real.rpow_pos_of_pos hm _) (Real.rpow_pos_of_pos (by linarith) _)
  have lim : ∀ (e A : ℝ), e < 0 → 0 < A → ∃ θ, 0 < θ ∧ ∀ x, 0 < x → x ≤ θ → 1 ≤ A * x ^ e := by
    intro e A he hA
    refine ⟨A ^ (-(1 / e)), Real.rpow_pos_of_pos hA _, fun x hx hxθ => ?_⟩
    have h1 := Real.rpow_le_rpow_of_nonpos hx hxθ he.le
    rw [← Real.rpow_mul hA.le, show -(1 / e) * e = -1 by rw [neg_mul, one_div, inv_mul_cancel₀ he.ne], Real.rpow_neg_one] at h1
    calc (1 : ℝ) = A * A⁻¹ := (mul_inv_cancel₀ hA.ne').symm
      _ ≤ A * x ^ e := mul_le_mul_of_nonneg_left h1 hA.le
  obtain ⟨θ1, p1, p2⟩ := lim errExp safety he hs
  obtain ⟨θ2, p3, p4⟩ := lim b1 (safetySc * (q2 * q3)) hb1 (by positivity)
  refine ⟨min (1 / 2) (min θ1 θ2), R, by positivity, ?_⟩
  rintro c rfl rfl rfl rfl rfl rfl rfl rfl hpw
  have hbnd : ∀ x e u : ℝ, 0 < u → u ≤ x → x ≤ 1 → min 1 (u ^ e) ≤ x ^ e := by
    intro x e u hu hux hx
    rcases le_total e 0 with h | h
    · exact (min_le_left _ _).trans (Real.one_le_rpow_of_pos_of_le_one_of_nonpos (hu.trans_le hux) hx h)
    · exact (min_le_right _ _).trans (Real.rpow_le_rpow hu.le hux h)
  have hbnd' : ∀ x e : ℝ, m ≤ x → x ≤ R → min (m ^ e) (R ^ e) ≤ x ^ e := by
    intro x e h1 hux
    rcases le_total e 0 with h | h
    · exact (min_le_right _ _).trans (Real.rpow_le_rpow_of_nonpos (hm.trans_le h1) hux h)
    · exact (min_le_left _ _).trans (Real.rpow_le_rpow hm.le h1 h)
  refine ⟨(min_le_left _ _).trans_lt (by norm_num), hR10, hm, min_le_left _ _, min_le_right _ _, ?_, ?_, ?_⟩
  · intro x hx _
    rw [hpw]
    refine le_trans ?_ (le_max_right _ _)
    exact mul_le_mul_of_nonneg_left (Real.rpow_le_rpow_of_nonpos ht hx he.le) hs.le
  · intro x hx hxθ
    rw [hpw]
    exact p2 x (ht.trans_le hx) (hxθ.trans ((min_le_right _ _).trans (min_le_left _ _)))
  · intro x eo r hx hxθ heo heo1 hr hrR
    have hx0 := ht.trans_le hx
    rw [hpw]
    dsimp only
    have k1 := p4 x hx0 (hxθ.trans ((min_le_right _ _).trans (min_le_right _ _)))
    have k2 := hbnd eo c.minbeta2 _ ht heo heo1
    have k3 := hbnd' r c.minalpha hr hrR
    have k4 : q2 * q3 ≤ eo ^ c.minbeta2 * r ^ c.minalpha := mul_le_mul k2 k3 hq30.le (Real.rpow_nonneg (ht.trans_le heo).le _)
    have k5 : 0 < x ^ c.minbeta1 := Real.rpow_pos_of_pos hx0 _
    calc (1 : ℝ) ≤ c.safetySc * (q2 * q3) * x ^ c.minbeta1 := k1
      _ = c.safetySc * x ^ c.minbeta1 * (q2 * q3) := by ring
      _ ≤ c.safetySc * x ^ c.minbeta1 * (eo ^ c.minbeta2 * r ^ c.minalpha) := mul_le_mul_of_nonneg_left k4 (by positivity)
      _ = _ := by ring

end

/-! ## The estimates near the solution -/

section
variable {E : Type*} [NormedAddCommGroup E] [NormedSpace ℝ E]

/-- The problem is smooth in a neighbourhood of the solution. -/
def SmoothNear (f : ℝ → E → E) (y : ℝ → E) (t0 b : ℝ) : Prop :=
  ∀ t ∈ Set.uIcc t0 b, ∀ᶠ z in 𝓝 (t, y t), ContDiffAt ℝ ∞ (fun z : ℝ × E => f z.1 z.2) z

/-- A combination of the stages with vanishing order conditions is small, uniformly near the solution. -/
theorem est_upper (R : RKTable) (hR : R ∈ rationalRK) {f : ℝ → E → E} {y : ℝ → E} {t0 b : ℝ} (hy : SolvesOn f y t0 b) (hsm : SmoothNear f y t0 b)
    {e : ℕ → ℝ} {q : ℕ} (he : ErrorCond ((R.tab ℝ).s + 1) (R.tab ℝ).full e q) :
    ∃ ε D : ℝ, 0 < ε ∧ 0 ≤ D ∧ ∀ t ∈ Set.uIcc t0 b, ∀ (u : E) (h : ℝ), ‖u - y t‖ < ε → |h| < ε →
      ‖h • ∑ i ∈ range ((R.tab ℝ).s + 1), e i • exStage (compA (R.tab ℝ)) (compC (R.tab ℝ)) f i (t, u, h)‖ ≤ D * |h| ^ (q + 1) := by
  obtain ⟨r1, r2, _, _⟩ := rationalRK_rows R hR
  set T := R.tab ℝ with hT
  set G : ℝ × E × ℝ → E := fun z => z.2.2 • ∑ i ∈ range (T.s + 1), e i • exStage (compA T) (compC T) f i z with hG
  refine (isCompact_uIcc (a := t0) (b := b)).induction_on (p := fun S' => ∃ ε D : ℝ, 0 < ε ∧ 0 ≤ D ∧ ∀ t ∈ S', ∀ (u : E) (h : ℝ),
    ‖u - y t‖ < ε → |h| < ε → ‖G (t, u, h)‖ ≤ D * |h| ^ (q + 1)) ?_ ?_ ?_ ?_
  · exact ⟨1, 0, one_pos, le_rfl, fun x hx => absurd hx (Set.notMem_empty x)⟩
  · rintro s t hst ⟨ε, C, h1, h2, h4⟩
    exact ⟨ε, C, h1, h2, fun x hx => h4 x (hst hx)⟩
  · rintro s t ⟨ε, C, h1, h2, h4⟩ ⟨ε', C', h1', h2', h4'⟩
    refine ⟨min ε ε', C + C', lt_min h1 h1', by linarith, fun x hx u h hu hh => ?_⟩
    have p2 : 0 ≤ |h| ^ (q + 1) := by positivity
    have q1 := mul_nonneg h2 p2
    have q2 := mul_nonneg h2' p2
    rcases hx with hx | hx
    · have := h4 x hx u h (hu.trans_le (min_le_left _ _)) (hh.trans_le (min_le_left _ _))
      linarith
    · have := h4' x hx u h (hu.trans_le (min_le_right _ _)) (hh.trans_le (min_le_right _ _))
      linarith
  · intro tb htb
    have hyc : ContinuousAt y tb := ((hy.solves tb htb).self_of_nhds).continuousAt
    obtain ⟨D, hD0, hD⟩ := uniform_order (s := Set.univ) (tb := (tb, y tb)) (q + 1) (g := fun z : (ℝ × E) × ℝ => G (z.1.1, z.1.2, z.2)) (by
        have hc : ContDiffAt ℝ (q + 1 : ℕ) G (tb, y tb, 0) := by
          refine ContDiffAt.smul contDiffAt_snd.snd ?_
          apply ContDiffAt.sum
          intro i _
          exact contDiffAt_const.smul (exStage_contDiffAt (smooth_nat (hy.smooth tb htb) _) i)
        exact ContDiffAt.comp ((tb, y tb), (0 : ℝ)) (g := G) (f := fun z : (ℝ × E) × ℝ => (z.1.1, z.1.2, z.2)) hc
          (contDiffAt_fst.fst.prodMk (contDiffAt_fst.snd.prodMk contDiffAt_snd)))
      (by
        rw [nhdsWithin_univ]
        filter_upwards [hsm tb htb] with z hz
        exact (local_error r1 r2 (f := f) (t0 := z.1) (y0 := z.2) hz (fun h => exStage_isRKStep T f z.1 z.2 h)).2 e q he)
    rw [nhdsWithin_univ, ← nhds_prod_eq] at hD
    obtain ⟨δ, hδ, h1⟩ := Metric.eventually_nhds_iff.mp hD
    have h2 : ∀ᶠ t in 𝓝 tb, ‖y t - y tb‖ < δ / 2 ∧ |t - tb| < δ := by
      have a1 := Metric.continuousAt_iff'.mp hyc (δ / 2) (by linarith)
      have a2 := Metric.eventually_nhds_iff.mpr ⟨δ, hδ, fun {t} (h : dist t tb < δ) => h⟩
      filter_upwards [a1, a2] with t h3 h4
      exact ⟨by rwa [dist_eq_norm] at h3, by rwa [Real.dist_eq] at h4⟩
    refine ⟨_, mem_nhdsWithin_of_mem_nhds h2, δ / 2, D, by linarith, hD0, ?_⟩
    rintro t ⟨ht1, ht2⟩ u h hu hh
    have h3 : dist (((t, u), h) : (ℝ × E) × ℝ) ((tb, y tb), 0) < δ := by
      rw [Prod.dist_eq, Prod.dist_eq, Real.dist_eq, Real.dist_eq, dist_eq_norm]
      refine max_lt (max_lt ht2 ?_) (by simp only [sub_zero]; linarith)
      calc ‖u - y tb‖ = ‖(u - y t) + (y t - y tb)‖ := by congr 1; abel
        _ ≤ ‖u - y t‖ + ‖y t - y tb‖ := norm_add_le _ _
        _ < δ := by linarith
    exact h1 h3

/-- The preliminary test of a class: none, or one whose weights satisfy the order conditions of the error estimate. -/
structure PreWeights (R : RKTable) (n : ℕ) (Ep : ℕ → ℝ) : Prop where
  le : n ≤ (R.tab ℝ).s - 1
  zero : ∀ i, n ≤ i → Ep i = 0
  cond : ErrorCond ((R.tab ℝ).s + 1) (R.tab ℝ).full Ep R.orderSec

/-- The error norms of every attempt near the solution are at most a constant times `h^(order_secondary+1)`. -/
theorem attempt_order (R : RKTable) (hR : R ∈ rationalRK) {f : ℝ → E → E} {y : ℝ → E} {t0 b : ℝ} (hy : SolvesOn f y t0 b) (hsm : SmoothNear f y t0 b)
    {n : ℕ} {Ep : ℕ → ℝ} (hp : PreWeights R n Ep) :
    ∃ ε D : ℝ, 0 < ε ∧ 0 ≤ D ∧ ∀ (errNorm : E → E → E → ENorm ℝ) (P : PreTest ℝ E) (M : ℝ), 0 ≤ M → ErrBound errNorm M →
      (P = PreTest.none ∨ ∃ Bp cnt, P = PreTest.linear n Bp Ep errNorm cnt) →
      ∀ t ∈ Set.uIcc t0 b, ∀ (u : E) (h : ℝ) (Ks : ℕ → E), ‖u - y t‖ < ε → |h| < ε →
        (∃ x, ((rkMethod (R.tab ℝ) f errNorm P).trial t u (f t u) h Ks).pre = .num x ∧ x ≤ M * (D * |h| ^ (R.orderSec + 1))) ∧
        ∃ x, ((rkMethod (R.tab ℝ) f errNorm P).trial t u (f t u) h Ks).err = .num x ∧ x ≤ M * (D * |h| ^ (R.orderSec + 1)) := by
  obtain ⟨_, _, r3, r4⟩ := rationalRK_rows R hR
  obtain ⟨ε, D, h1, h2, h3⟩ := est_upper R hR hy hsm hp.cond
  obtain ⟨ε', D', h1', h2', h3'⟩ := est_upper R hR hy hsm (C22_error_order ℝ R hR)
  set T := R.tab ℝ with hT
  refine ⟨min ε ε', D + D', lt_min h1 h1', by linarith, fun errNorm P M hM hE hP t ht u h Ks hu hh => ?_⟩
  have p2 : 0 ≤ |h| ^ (R.orderSec + 1) := by positivity
  have b1 := h3 t ht u h (hu.trans_le (min_le_left _ _)) (hh.trans_le (min_le_left _ _))
  have b2 := h3' t ht u h (hu.trans_le (min_le_right _ _)) (hh.trans_le (min_le_right _ _))
  have q1 := mul_nonneg h2 p2
  have q2 := mul_nonneg h2' p2
  constructor
  · rcases hP with rfl | ⟨Bp, cnt, rfl⟩
    · exact ⟨0, rfl, mul_nonneg hM (by positivity)⟩
    · set Kp := rkStages T f t u h (T.s - 1) (Function.update Ks 0 (f t u)) with hKp
      obtain ⟨x, hx, hx1⟩ := hE u (u + h • ∑ i ∈ range n, Bp i • Kp i) (h • ∑ i ∈ range n, Ep i • Kp i)
      refine ⟨x, hx, hx1.trans (mul_le_mul_of_nonneg_left ?_ hM)⟩
      have e1 : ∑ i ∈ range n, Ep i • Kp i = ∑ i ∈ range (T.s + 1), Ep i • exStage (compA T) (compC T) f i (t, u, h) := by
        have hn : n ≤ T.s - 1 := hp.le
        have hsub : range n ⊆ range (T.s + 1) := range_subset_range.mpr (by omega)
        rw [← sum_subset hsub (fun i _ hi => by rw [hp.zero i (by rw [mem_range] at hi; omega), zero_smul])]
        refine sum_congr rfl fun i hi => ?_
        rw [mem_range] at hi
        rw [hKp, rkStages_exStage T f r3 t u h Ks (Nat.sub_le _ _) i (by omega)]
      rw [e1]
      linarith
  · obtain ⟨k1, k2, -⟩ := rkTrial_isRKStep T f errNorm t u h Ks r3 r4
    obtain ⟨x, hx, hx1⟩ := hE u (rkTrial T f errNorm t u (f t u) h Ks).yNew (errorEstimate T h
      (Function.update (rkTrial T f errNorm t u (f t u) h Ks).stages T.s (f (t + h) (rkTrial T f errNorm t u (f t u) h Ks).yNew)))
    refine ⟨x, k2.trans hx, hx1.trans (mul_le_mul_of_nonneg_left ?_ hM)⟩
    have e1 : errorEstimate T h (Function.update (rkTrial T f errNorm t u (f t u) h Ks).stages T.s
        (f (t + h) (rkTrial T f errNorm t u (f t u) h Ks).yNew)) = h • ∑ i ∈ range (T.s + 1), T.E i • exStage (compA T) (compC T) f i (t, u, h) := by
      unfold errorEstimate
      congr 1
      refine sum_congr rfl fun i hi => ?_
      rw [mem_range] at hi
      rw [k1.stages_eq i (by omega)]
    rw [e1]
    linarith

/-! ## C113 -/

set_option maxHeartbeats 1000000 in
/-- **C113**. Let `y` solve the smooth problem on the closed interval, and let the error norms be bounded by `M / tol` times a norm (`atol >= tol / M`).
There are `h*` and `κ > 0` such that for every `max_step <= h*`, every `tol` and every first step: with `σ` the smallest of `first_step`, `max_step`, the length of
the interval and `κ tol^(1/(order_secondary+1))`, if the minimal step is at most `σ / 2`, the solver finishes exactly on `t_bound` after at most
`2 |t_bound - t0| / σ` calls of `step()`; and the number `k` of rejected attempts satisfies `k log(1/μ) <= n log R + log(2 first_step / (m σ))`. -/
theorem C113_work [CompleteSpace E] (R : RKTable) (hR : R ∈ rationalRK) {f : ℝ → E → E} {y : ℝ → E} {t0 b : ℝ}
    (hy : SolvesOn f y t0 b) (hsm : SmoothNear f y t0 b) {pn : ℕ} {Ep : ℕ → ℝ} (hp : PreWeights R pn Ep) {M θ m μ Rf : ℝ} (hM : 0 < M) (hθ : 0 < θ)
    (hm : 0 < m) (hμ : μ < 1) :
    ∃ C hstar κ : ℝ, 0 ≤ C ∧ 0 < hstar ∧ 0 < κ ∧
      ∀ (c : Cfg ℝ E E) (errNorm : E → E → E → ENorm ℝ) (P : PreTest ℝ E) (h0 H tol σ : ℝ) (e0 : ℕ) (Ks0 : ℕ → E), CfgOK c →
        StiffOK c.nfevStiff c.m → c.m = rkMethod (R.tab ℝ) f errNorm P → 0 < tol → ErrBound errNorm (M / tol) →
        (P = PreTest.none ∨ ∃ Bp cnt, P = PreTest.linear pn Bp Ep errNorm cnt) → Steers c θ m Rf → c.minFactor ≤ μ → c.safety ≤ μ →
        c.tb = some b → 0 ≤ c.dir * (b - t0) → c.maxStep = some H → H ≤ hstar →
        σ = min h0 (min H (min |b - t0| (κ * tol ^ (1 / (R.orderSec + 1 : ℝ))))) →
        c.hMinB ≤ σ / 2 → c.hMinA * (max |t0| |b| + max h0 (Rf * H)) ≤ σ / 2 →
        (∃ n w, WhileRunning (step c) (fun v => v.status = .running) Out.raised (newSolver c t0 (y t0) h0 e0 Ks0) n none w) ∧
        ∀ n r w, WhileRunning (step c) (fun v => v.status = .running) Out.raised (newSolver c t0 (y t0) h0 e0 Ks0) n r w →
          r = none ∧ w.status = .finished ∧ w.st.t = b ∧ ReachWithin c (newSolver c t0 (y t0) h0 e0 Ks0) t0 b H w ∧
          ‖w.st.y - y b‖ ≤ C * H ^ R.order ∧ n * σ ≤ 2 * |b - t0| ∧
          w.st.nfs * Real.log (1 / μ) ≤ n * Real.log Rf + Real.log (2 * h0 / (m * σ)) := by
  have ho : 1 ≤ R.order := by
    have : ∀ R ∈ rationalRK, 1 ≤ R.order := by decide +kernel
    exact this R hR
  obtain ⟨C, h1, c1, c2, c3⟩ := C87_global_error R hR hy
  obtain ⟨ε, D, d1, d2, d3⟩ := attempt_order R hR hy hsm hp
  set q1 := R.orderSec + 1 with hq1
  have hq0 : q1 ≠ 0 := by omega
  -- attempts with steps of at most `K tol^(1/q1)` have error norms of at most `ϑ`
  set ϑ := min 1 θ with hϑ
  have hϑ0 : 0 < ϑ := lt_min one_pos hθ
  set K := (ϑ / (M * (D + 1))) ^ (1 / (q1 : ℝ)) with hK
  have hK0 : 0 < K := by positivity
  have hKq : K ^ q1 = ϑ / (M * (D + 1)) := by
    rw [hK, one_div, Real.rpow_inv_natCast_pow (by positivity) hq0]
  refine ⟨C, min (min h1 1) (ε / (2 * (C + 1))), min (m * m) (1 - μ) * K, c1, by positivity, mul_pos (lt_min (by positivity) (by linarith)) hK0, ?_⟩
  intro c errNorm P h0 H tol σ e0 Ks0 hc hst hmm htol hE hP hgr hμ1 hμ2 hb hdir hmax hH hσ hmin1 hmin2
  have hH0 : 0 < H := hc.maxStep H hmax
  have g1 : H ≤ h1 := hH.trans ((min_le_left _ _).trans (min_le_left _ _))
  have g2 : H ≤ 1 := hH.trans ((min_le_left _ _).trans (min_le_right _ _))
  have g3 : H * (2 * (C + 1)) ≤ ε := (le_div_iff₀ (by positivity)).mp (hH.trans (min_le_right _ _))
  have hpow : H ^ R.order ≤ H := by
    calc H ^ R.order ≤ H ^ 1 := pow_le_pow_of_le_one hH0.le g2 ho
      _ = H := pow_one H
  have hCH : C * H ^ R.order < ε := by
    have := mul_le_mul_of_nonneg_left hpow c1
    nlinarith
  have hHε : H < ε := by nlinarith
  set τ := tol ^ (1 / (q1 : ℝ)) with hτ
  have hτ0 : 0 < τ := Real.rpow_pos_of_pos htol _
  have hτq : τ ^ q1 = tol := by rw [hτ, one_div, Real.rpow_inv_natCast_pow htol.le hq0]
  have eq1 : (R.orderSec + 1 : ℝ) = (q1 : ℝ) := by rw [hq1]; push_cast; ring
  rw [eq1] at hσ
  set v0 := newSolver c t0 (y t0) h0 e0 Ks0 with hv0
  have hσ0 : 0 < σ := by linarith [hc.hMinB]
  have s1 : σ ≤ h0 := hσ ▸ min_le_left _ _
  have s2 : σ ≤ H := hσ ▸ (min_le_right _ _).trans (min_le_left _ _)
  have s3 : σ ≤ |b - t0| := hσ ▸ (min_le_right _ _).trans ((min_le_right _ _).trans (min_le_left _ _))
  have s4 : σ ≤ min (m * m) (1 - μ) * K * τ := hσ ▸ (min_le_right _ _).trans ((min_le_right _ _).trans (min_le_right _ _))
  have hKτ : 0 < K * τ := mul_pos hK0 hτ0
  have herr : ∀ v, ReachWithin c v0 t0 b H v → ‖v.st.y - y v.st.t‖ ≤ C * H ^ R.order := fun v hr =>
    c3 c errNorm P h0 H e0 Ks0 v hc hmm hdir hH0.le g1 hr
  have hatt : ∀ v, ReachWithin c v0 t0 b H v → ∀ h, 0 < h → h ≤ H → ∀ Ks,
      (∃ x, (c.m.trial v.st.t v.st.y v.st.f (h * c.dir) Ks).pre = .num x ∧ x ≤ M / tol * (D * h ^ q1)) ∧
      ∃ x, (c.m.trial v.st.t v.st.y v.st.f (h * c.dir) Ks).err = .num x ∧ x ≤ M / tol * (D * h ^ q1) := by
    intro v hr h hpos hle Ks
    have habs : |h * c.dir| = h := by
      rcases hc.dir with e | e <;> rw [e] <;> simp [abs_of_pos hpos]
    have hf := C10_stored_derivative_current hmm hr.reach
    have := d3 errNorm P (M / tol) (by positivity) hE hP v.st.t (hr.mem rfl) v.st.y (h * c.dir) Ks ((herr v hr).trans_lt hCH)
      (by rw [habs]; exact hle.trans_lt hHε)
    rw [habs] at this
    rw [hmm, hf]
    exact this
  have hsmall : ∀ h, 0 < h → h ≤ K * τ → M / tol * (D * h ^ q1) ≤ ϑ := by
    intro h hpos hle
    have e1 : h ^ q1 ≤ ϑ / (M * (D + 1)) * tol := by
      calc h ^ q1 ≤ (K * τ) ^ q1 := pow_le_pow_left₀ hpos.le hle q1
        _ = _ := by rw [mul_pow, hKq, hτq]
    have e2 : D * h ^ q1 ≤ (D + 1) * (ϑ / (M * (D + 1)) * tol) :=
      mul_le_mul (by linarith) e1 (by positivity) (by linarith)
    calc M / tol * (D * h ^ q1) ≤ M / tol * ((D + 1) * (ϑ / (M * (D + 1)) * tol)) := mul_le_mul_of_nonneg_left e2 (by positivity)
      _ = ϑ := by field_simp
  have hwork : WorkRun c v0 t0 b (K * τ) H θ m μ Rf (max h0 (Rf * H)) σ := by
    refine ⟨hc, hb, rfl, hdir, hmax, hKτ, hσ0, s2, ?_, ?_, hμ1, hμ2, hμ, hgr, le_max_right _ _, ?_, ?_, ?_⟩
    · rw [mul_assoc] at s4
      exact s4.trans (mul_le_mul_of_nonneg_right (min_le_left _ _) hKτ.le)
    · rw [mul_assoc] at s4
      exact s4.trans (mul_le_mul_of_nonneg_right (min_le_right _ _) hKτ.le)
    · intro v hr h hh
      refine max_le (le_trans ?_ hmin2) hmin1
      refine mul_le_mul_of_nonneg_left (add_le_add ?_ hh) hc.hMinA
      have hmem := hr.mem (rfl : v0.st.t = t0)
      rcases Set.mem_uIcc.mp hmem with ⟨a1, a2⟩ | ⟨a1, a2⟩
      · exact abs_le_max_abs_abs a1 a2
      · rw [max_comm]; exact abs_le_max_abs_abs a1 a2
    · intro v hr _ h hpos hle Ks
      obtain ⟨⟨x, hx, -⟩, x', hx', -⟩ := hatt v hr h hpos hle Ks
      exact ⟨⟨x, hx⟩, x', hx'⟩
    · intro v hr _ h hpos hle hη Ks
      obtain ⟨⟨x, hx, hx1⟩, x', hx', hx1'⟩ := hatt v hr h hpos hle Ks
      have hb := hsmall h hpos hη
      refine ⟨?_, x', hx', (hx1'.trans hb).trans (min_le_right _ _)⟩
      rw [hx]
      simp only [ENorm.gt]
      rw [decide_eq_false_iff_not, not_lt]
      exact (hx1.trans hb).trans (min_le_left _ _)
  have hat : WorkAt c b σ m Rf (max h0 (Rf * H)) v0 |b - t0| := by
    refine ⟨by linarith, ?_, (min_le_left _ _).trans s1, le_max_left _ _, ?_, ?_, fun h => by cases h⟩
    · show b - t0 = c.dir * |b - t0|
      rcases hc.dir with e | e <;> rw [e] at hdir ⊢
      · rw [abs_of_nonneg (by linarith)]; ring
      · rw [abs_of_nonpos (by linarith)]; ring
    · show (1 : ℝ) ≤ MAX_FACTOR0
      norm_num [MAX_FACTOR0]
    · show (MAX_FACTOR0 : ℝ) ≤ 10
      norm_num [MAX_FACTOR0]
  obtain ⟨p1, p2⟩ := C110_explicit hc (hμ2.trans_lt hμ) hst hb hdir (y t0) h0 e0 Ks0
  constructor
  · obtain ⟨n, r, w, hw⟩ := p1
    obtain ⟨-, rfl, -⟩ := p2 n r w hw
    exact ⟨n, w, hw⟩
  · intro n r w hw
    obtain ⟨-, rfl, -⟩ := p2 n r w hw
    obtain ⟨w1, w2, w3, w4, k, w5, w6⟩ := work_end hwork rfl hat hw
    have hfin := herr w w3
    rw [w2] at hfin
    refine ⟨rfl, w1, w2, w3, hfin, by linarith, ?_⟩
    have hk : w.st.nfs = k := by rw [w5]; exact Nat.zero_add k
    have hμ0 : 0 < μ := hc.minF0.trans_le hμ1
    have hh0 : 0 < h0 := hσ0.trans_le s1
    have hR0 : 0 < Rf := by linarith [hgr.ten]
    have w6 : m * (σ / 2) ≤ h0 * (Rf ^ n * μ ^ k) := w6
    have h5 := Real.log_le_log (by positivity) w6
    have e8 : Real.log (h0 * (Rf ^ n * μ ^ k)) = Real.log h0 + (n * Real.log Rf + k * Real.log μ) := by
      rw [Real.log_mul hh0.ne' (by positivity), Real.log_mul (x := Rf ^ n) (by positivity) (by positivity),
        Real.log_pow, Real.log_pow]
    rw [e8] at h5
    have h6 : Real.log (2 * h0 / (m * σ)) = Real.log h0 - Real.log (m * (σ / 2)) := by
      rw [← Real.log_div hh0.ne' (by positivity)]
      congr 1
      field_simp
    have h7 : Real.log (1 / μ) = -Real.log μ := by rw [one_div, Real.log_inv]
    rw [hk, h6, h7]
    linarith

end
end Extensisq
