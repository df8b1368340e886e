import Verif.Lemmas.Driver
import Verif.Lemmas.RK

/-!
# Properties of `step()` of the explicit Runge-Kutta family

C01-C04, C06-C09, C57, C58.  All theorems hold for an arbitrary method (any number of stages, any
right-hand side, any error norm including `inf` / `nan`), any ordered field of numbers, both
directions of integration and every history of `step()` calls.
-/

set_option linter.unusedSectionVars false

namespace Extensisq

/-! ## Specification vocabulary -/

section
variable {K V W : Type*} [Field K] [LinearOrder K]

/-- "`max_step` is not below the solver's own minimal step" in the given state. -/
def MaxStepUsable (c : Cfg K V W) (s : St K V W) : Prop :=
  ∀ m, c.maxStep = some m → minStepOf c s.t s.hAbs ≤ m

/-- A history of returning `step()` calls with their outcomes (latest first). -/
inductive Run (c : Cfg K V W) (v0 : Solver K V W) : List Out → Solver K V W → Prop
  | nil : Run c v0 [] v0
  | cons {outs : List Out} {v v' : Solver K V W} {o : Out} {fuel : ℕ} :
      Run c v0 outs v → step c fuel v = some (o, v') → Run c v0 (o :: outs) v'

theorem Run.reach {c : Cfg K V W} {v0 v : Solver K V W} {outs : List Out}
    (h : Run c v0 outs v) : Reach c v0 v := by
  induction h with
  | nil => exact .refl
  | cons _ h ih => exact .tail ih h

theorem Reach.run {c : Cfg K V W} {v0 v : Solver K V W} (h : Reach c v0 v) :
    ∃ outs, Run c v0 outs v := by
  induction h with
  | refl => exact ⟨[], .nil⟩
  | tail _ h ih => obtain ⟨outs, hr⟩ := ih; exact ⟨_, .cons hr h⟩

end

section
variable {K V W : Type*} [Field K] [LinearOrder K] [IsStrictOrderedRing K]

theorem dir_sq {c : Cfg K V W} (hc : CfgOK c) : c.dir * c.dir = 1 := by
  rcases hc.dir with h | h <;> rw [h] <;> ring

/-- Effect of any returning `step()` call on the time. -/
theorem step_time {c : Cfg K V W} (hc : CfgOK c) {fuel : ℕ} {v v' : Solver K V W} {o : Out}
    (h : step c fuel v = some (o, v')) :
    (v'.st.t = v.st.t ∧ (o ≠ .ok ∨ c.tb = some v.st.t)) ∨
    (v.status = .running ∧ c.tb ≠ some v.st.t ∧
      ∃ h', minStepOf c v.st.t v.st.hAbs ≤ h' ∧ h' ≤ (reassess c v.st).1 ∧
      v'.st.t = v.st.t + h' * c.dir) := by
  unfold step at h
  cases hst : v.status with
  | running =>
    simp only [hst] at h
    by_cases ht : c.tb = some v.st.t
    · simp only [ht, if_true, Option.some.injEq, Prod.mk.injEq] at h
      left; rw [← h.2]; exact ⟨rfl, Or.inr ht⟩
    · simp only [ht, if_false] at h
      cases hs : stepImpl c fuel v.st with
      | none => simp [hs] at h
      | some p =>
        obtain ⟨o1, s1⟩ := p
        have ho : o1 = o ∧ v'.st = s1 := by
          cases o1 <;> simp only [hs, Option.some.injEq, Prod.mk.injEq] at h <;>
            exact ⟨h.1, by rw [← h.2]⟩
        rw [ho.2]
        rcases stepImpl_time hc hs with ⟨h1, h2⟩ | h1
        · left; rw [← ho.1]; exact ⟨h1, Or.inl h2⟩
        · right; exact ⟨rfl, ht, h1⟩
  | finished =>
    simp only [hst, Option.some.injEq, Prod.mk.injEq] at h
    left; rw [← h.2, ← h.1]; simp
  | failed =>
    simp only [hst, Option.some.injEq, Prod.mk.injEq] at h
    left; rw [← h.2, ← h.1]; simp

theorem abs_sub_dir {c : Cfg K V W} (hc : CfgOK c) {b t : K} (h : 0 ≤ c.dir * (b - t)) :
    |b - t| = c.dir * (b - t) := by
  rcases hc.dir with hd | hd
  · rw [hd, one_mul] at h ⊢; exact abs_of_nonneg h
  · rw [hd] at h ⊢; rw [abs_of_nonpos (by linarith)]; ring

/-! ## C01 -/

/-- **C01**. As long as `max_step` is usable in the visited states, every reachable `solver.t` lies
between the start and `t_bound` (in the direction of integration). -/
theorem C01_never_past_t_bound {c : Cfg K V W} (hc : CfgOK c) {b : K} (hb : c.tb = some b)
    {v0 v : Solver K V W} (h0 : 0 ≤ c.dir * (b - v0.st.t))
    (husable : ∀ w, Reach c v0 w → MaxStepUsable c w.st) (hr : Reach c v0 v) :
    0 ≤ c.dir * (v.st.t - v0.st.t) ∧ 0 ≤ c.dir * (b - v.st.t) := by
  induction hr with
  | refl => exact ⟨by simp, h0⟩
  | @tail v v' o fuel hr hs ih =>
    rcases step_time hc hs with ⟨h1, -⟩ | ⟨-, -, h', h1, h2, h3⟩
    · rw [h1]; exact ih
    · have hpos : 0 < h' := lt_of_lt_of_le (minStep_pos hc _ _) h1
      have hle := h2.trans (reassess_le_bound hb (husable v hr))
      rw [abs_sub_dir hc ih.2] at hle
      have e1 : c.dir * (v'.st.t - v0.st.t) = c.dir * (v.st.t - v0.st.t) + h' := by
        rw [h3]; linear_combination h' * dir_sq hc
      have e2 : c.dir * (b - v'.st.t) = c.dir * (b - v.st.t) - h' := by
        rw [h3]; linear_combination (-h') * dir_sq hc
      rw [e1, e2]
      exact ⟨by linarith [ih.1], by linarith⟩

/-- **C01**, default `max_step = inf`: no proviso is needed. -/
theorem C01_never_past_t_bound_default {c : Cfg K V W} (hc : CfgOK c) (hm : c.maxStep = none)
    {b : K} (hb : c.tb = some b) {v0 v : Solver K V W} (h0 : 0 ≤ c.dir * (b - v0.st.t))
    (hr : Reach c v0 v) :
    0 ≤ c.dir * (v.st.t - v0.st.t) ∧ 0 ≤ c.dir * (b - v.st.t) :=
  C01_never_past_t_bound hc hb h0 (fun w _ m hw => by rw [hm] at hw; cases hw) hr

/-! ## C02 -/

/-- **C02**. A `step()` that succeeds (not already on `t_bound`) advances the time, in the direction
of integration, by at least the minimal step, which is positive. -/
theorem C02_strict_advance {c : Cfg K V W} (hc : CfgOK c) {fuel : ℕ} {v v' : Solver K V W}
    (hne : c.tb ≠ some v.st.t) (h : step c fuel v = some (.ok, v')) :
    minStepOf c v.st.t v.st.hAbs ≤ c.dir * (v'.st.t - v.st.t) ∧ 0 < c.dir * (v'.st.t - v.st.t) := by
  rcases step_time hc h with ⟨_, h2 | h2⟩ | ⟨-, -, h', h1, h2, h3⟩
  · exact absurd rfl h2
  · exact absurd h2 hne
  · have : c.dir * (v'.st.t - v.st.t) = h' := by rw [h3]; linear_combination h' * dir_sq hc
    rw [this]
    exact ⟨h1, lt_of_lt_of_le (minStep_pos hc _ _) h1⟩

/-- **C02**, histories: the time never moves backwards, and after at least one successful step
(from a start not on `t_bound`) it has moved strictly. -/
theorem C02_monotone_history {c : Cfg K V W} (hc : CfgOK c) {v0 v : Solver K V W} {outs : List Out}
    (hr : Run c v0 outs v) :
    0 ≤ c.dir * (v.st.t - v0.st.t) ∧
    (Out.ok ∈ outs → c.tb ≠ some v0.st.t → 0 < c.dir * (v.st.t - v0.st.t)) := by
  induction hr with
  | nil => simp
  | @cons outs v v' o fuel hr hs ih =>
    rcases step_time hc hs with ⟨h1, h2⟩ | ⟨-, -, h', h1, h2, h3⟩
    · rw [h1]
      refine ⟨ih.1, fun hmem hne => ?_⟩
      rcases List.mem_cons.mp hmem with he | he
      · rcases h2 with h2 | h2
        · exact absurd he.symm h2
        · -- standing on t_bound after having started elsewhere: it has moved
          rcases lt_or_eq_of_le ih.1 with hlt | heq
          · exact hlt
          · exfalso
            have hd : c.dir ≠ 0 := by rcases hc.dir with h | h <;> rw [h] <;> norm_num
            have : v.st.t - v0.st.t = 0 := by
              rcases mul_eq_zero.mp heq.symm with h | h
              · exact absurd h hd
              · exact h
            have ht : v.st.t = v0.st.t := by linarith
            exact hne (ht ▸ h2)
      · exact ih.2 he hne
    · have hpos : 0 < h' := lt_of_lt_of_le (minStep_pos hc _ _) h1
      have e1 : c.dir * (v'.st.t - v0.st.t) = c.dir * (v.st.t - v0.st.t) + h' := by
        rw [h3]; linear_combination h' * dir_sq hc
      rw [e1]
      exact ⟨by linarith [ih.1], fun _ _ => by linarith [ih.1]⟩

/-! ## C03 -/

/-- **C03**. No step is longer than a usable `max_step`. -/
theorem C03_max_step {c : Cfg K V W} (hc : CfgOK c) {fuel : ℕ} {v v' : Solver K V W} {o : Out}
    {m : K} (hm : c.maxStep = some m) (hu : MaxStepUsable c v.st)
    (h : step c fuel v = some (o, v')) : |v'.st.t - v.st.t| ≤ m := by
  rcases step_time hc h with ⟨h1, -⟩ | ⟨-, -, h', h1, h2, h3⟩
  · rw [h1, sub_self, abs_zero]; exact (hc.maxStep m hm).le
  · have hpos : 0 < h' := lt_of_lt_of_le (minStep_pos hc _ _) h1
    have : |v'.st.t - v.st.t| = h' := by
      rw [h3]
      rcases hc.dir with hd | hd <;> rw [hd]
      · rw [show v.st.t + h' * 1 - v.st.t = h' by ring, abs_of_pos hpos]
      · rw [show v.st.t + h' * -1 - v.st.t = -h' by ring, abs_neg, abs_of_pos hpos]
    rw [this]
    exact h2.trans (reassess_le_maxStep hm (hu m hm))

/-! ## C04 -/

/-- **C04**. `step()` on a solver that is not running raises and changes nothing. -/
theorem C04_final {c : Cfg K V W} {fuel : ℕ} {v : Solver K V W} (h : v.status ≠ .running) :
    step c fuel v = some (.exc .runtimeErr, v) := by
  unfold step
  cases hs : v.status with
  | running => exact absurd hs h
  | finished => rfl
  | failed => rfl

theorem reached_iff {c : Cfg K V W} (hc : CfgOK c) {b t : K} (hb : c.tb = some b)
    (hle : 0 ≤ c.dir * (b - t)) : reached c t = true ↔ t = b := by
  unfold reached
  rw [hb]
  simp only [decide_eq_true_eq]
  rcases hc.dir with hd | hd <;> rw [hd] at hle ⊢
  · constructor
    · intro h; linarith
    · intro h; rw [h]; simp
  · constructor
    · intro h; linarith
    · intro h; rw [h]; simp

/-- **C04**. In exact arithmetic: a solver is `finished` only when it stands exactly on `t_bound`;
whenever a `step()` returns normally the solver is `running` only if it is strictly before
`t_bound`; with an infinite `t_bound` it is never `finished`. -/
theorem C04_finished_on_t_bound {c : Cfg K V W} (hc : CfgOK c) {v0 : Solver K V W}
    (hrun : v0.status = .running) (h0 : ∀ b, c.tb = some b → 0 ≤ c.dir * (b - v0.st.t))
    (husable : ∀ w, Reach c v0 w → MaxStepUsable c w.st) {v : Solver K V W} (hr : Reach c v0 v) :
    (v.status = .finished → c.tb = some v.st.t) ∧
    (∀ fuel v', step c fuel v = some (.ok, v') → v'.status = .running →
      ∀ b, c.tb = some b → 0 < c.dir * (b - v'.st.t)) := by
  have hfin : v.status = .finished → c.tb = some v.st.t := by
    induction hr with
    | refl => intro h; rw [hrun] at h; cases h
    | @tail w _ o fuel hr hs ih =>
      intro hf
      have hs0 := hs
      unfold step at hs
      cases hst : w.status with
      | running =>
        simp only [hst] at hs
        by_cases ht : c.tb = some w.st.t
        · simp only [ht, if_true, Option.some.injEq, Prod.mk.injEq] at hs
          rw [← hs.2]; exact ht
        · simp only [ht, if_false] at hs
          cases hi : stepImpl c fuel w.st with
          | none => simp [hi] at hs
          | some p =>
            obtain ⟨o1, s1⟩ := p
            cases o1 with
            | ok =>
              simp only [hi, Option.some.injEq, Prod.mk.injEq] at hs
              cases htb : c.tb with
              | none =>
                rw [← hs.2] at hf
                simp [reached, htb] at hf
              | some b =>
                have := C01_never_past_t_bound hc htb (h0 b htb) husable (.tail hr hs0)
                have h2 := this.2
                rw [← hs.2] at hf h2 ⊢
                have : reached c s1.t = true := by
                  by_contra hcon
                  simp [hcon] at hf
                rw [(reached_iff hc htb h2).mp this]
            | fail m =>
              simp only [hi, Option.some.injEq, Prod.mk.injEq] at hs
              rw [← hs.2] at hf; cases hf
            | exc e =>
              simp only [hi, Option.some.injEq, Prod.mk.injEq] at hs
              rw [← hs.2] at hf; simp at hf
      | finished =>
        simp only [hst, Option.some.injEq, Prod.mk.injEq] at hs
        rw [← hs.2]; exact ih hst
      | failed =>
        simp only [hst, Option.some.injEq, Prod.mk.injEq] at hs
        rw [← hs.2] at hf; rw [hst] at hf; cases hf
  refine ⟨hfin, ?_⟩
  intro fuel v' hs hrun' b hb
  have h2 := (C01_never_past_t_bound hc hb (h0 b hb) husable (.tail hr hs)).2
  rcases lt_or_eq_of_le h2 with hlt | heq
  · exact hlt
  · exfalso
    have hd : c.dir ≠ 0 := by rcases hc.dir with h | h <;> rw [h] <;> norm_num
    have ht : v'.st.t = b := by
      rcases mul_eq_zero.mp heq.symm with h | h
      · exact absurd h hd
      · linarith
    unfold step at hs
    cases hst : v.status with
    | running =>
      simp only [hst] at hs
      by_cases htb : c.tb = some v.st.t
      · simp only [htb, if_true, Option.some.injEq, Prod.mk.injEq] at hs
        rw [← hs.2] at hrun'; cases hrun'
      · simp only [htb, if_false] at hs
        cases hi : stepImpl c fuel v.st with
        | none => simp [hi] at hs
        | some p =>
          obtain ⟨o1, s1⟩ := p
          cases o1 with
          | ok =>
            simp only [hi, Option.some.injEq, Prod.mk.injEq] at hs
            rw [← hs.2] at hrun' ht h2
            have : reached c s1.t = true := (reached_iff hc hb h2).mpr ht
            simp [this] at hrun'
          | fail m => simp [hi] at hs
          | exc e => simp [hi] at hs
    | finished => simp [hst] at hs
    | failed => simp [hst] at hs

/-! ## C06 -/

/-- One more unit of fuel never changes a returned result. -/
theorem loop_more {c : Cfg K V W} {ms : K} {r : Out × St K V W} :
    ∀ (n m : ℕ) (s : St K V W) (h : K) (rej : Bool), n ≤ m → loop c n s h ms rej = some r →
      loop c m s h ms rej = some r := by
  intro n
  induction n with
  | zero => intro m s h rej _ hl; simp [loop] at hl
  | succ n ih =>
    intro m s h rej hm hl
    obtain ⟨m', rfl⟩ : ∃ m', m = m' + 1 := ⟨m - 1, by omega⟩
    unfold loop at hl ⊢
    by_cases hlt : h < ms
    · simpa only [hlt, if_true] using hl
    · simp only [hlt, if_false] at hl ⊢
      generalize c.m.trial s.t s.y s.f (h * c.dir) s.Ks = tr at hl ⊢
      by_cases hpre : tr.pre.gt 1 = true
      · simp only [hpre, if_true] at hl ⊢
        exact ih m' _ _ _ (by omega) hl
      simp only [hpre, Bool.false_eq_true, if_false] at hl ⊢
      cases herr : tr.err with
      | inf => simpa only [herr] using hl
      | nan => simpa only [herr] using hl
      | num x =>
        simp only [herr] at hl ⊢
        by_cases hx : x < 1
        · simpa only [hx, if_true] using hl
        · simp only [hx, if_false] at hl ⊢
          exact ih m' _ _ _ (by omega) hl

theorem loop_terminates {c : Cfg K V W} (hc : CfgOK c) {ms : K} (hms : 0 < ms) :
    ∀ (N : ℕ) (s : St K V W) (h : K) (rej : Bool), h * (max c.minFactor c.safety) ^ N < ms →
      ∃ r, loop c (N + 1) s h ms rej = some r := by
  intro N
  induction N with
  | zero =>
    intro s h rej hlt
    rw [pow_zero, mul_one] at hlt
    unfold loop
    simp only [hlt, if_true]
    exact ⟨_, rfl⟩
  | succ N ih =>
    intro s h rej hlt
    unfold loop
    by_cases hl : h < ms
    · simp only [hl, if_true]; exact ⟨_, rfl⟩
    · simp only [hl, if_false]
      generalize c.m.trial s.t s.y s.f (h * c.dir) s.Ks = tr
      have hpos : 0 < h := lt_of_lt_of_le hms (not_lt.mp hl)
      have hnext : ∀ {b : Bool} {e : ENorm K}, Rejected tr b e →
          h * retryFactor c e * (max c.minFactor c.safety) ^ N < ms := by
        intro b e he
        refine lt_of_le_of_lt ?_ hlt
        rw [pow_succ, mul_comm _ (max c.minFactor c.safety), ← mul_assoc]
        apply mul_le_mul_of_nonneg_right
        · exact mul_le_mul_of_nonneg_left (retry_factor_le hc he) hpos.le
        · exact pow_nonneg (le_trans hc.minF0.le (le_max_left _ _)) _
      by_cases hpre : tr.pre.gt 1 = true
      · simp only [hpre, if_true]
        exact ih _ _ _ (hnext (.early hpre))
      simp only [hpre, Bool.false_eq_true, if_false]
      cases herr : tr.err with
      | inf => exact ⟨_, rfl⟩
      | nan => exact ⟨_, rfl⟩
      | num x =>
        simp only
        by_cases hx : x < 1
        · simp only [hx, if_true]
          cases acceptFactor c s (h * c.dir) x with
          | none => exact ⟨_, rfl⟩
          | some p =>
            obtain ⟨f0, std⟩ := p
            dsimp only
            cases hd : diagnose c (acceptState c s tr (h * c.dir)
              (h * (if rej = true then min 1 f0 else f0)) x
              (if rej = true then min 1 f0 else f0) std) with
            | none => exact ⟨_, rfl⟩
            | some q => exact ⟨_, rfl⟩
        · simp only [hx, if_false]
          exact ih _ _ _ (hnext (.late (by simpa using hpre) herr (not_lt.mp hx)))

/-- **C06**. `step()` returns for every right-hand side: after at most `N + 1` passes through its
loop, for any `N` with `h * max(min_factor, g)^N < min_step`. -/
theorem C06_step_returns_within {c : Cfg K V W} (hc : CfgOK c) (v : Solver K V W) (N : ℕ)
    (hN : (reassess c v.st).1 * (max c.minFactor c.safety) ^ N
            < minStepOf c v.st.t v.st.hAbs) :
    ∃ r, step c (N + 1) v = some r := by
  unfold step
  cases hs : v.status with
  | running =>
    simp only
    by_cases ht : c.tb = some v.st.t
    · simp only [ht, if_true]; exact ⟨_, rfl⟩
    · simp only [ht, if_false]
      have hms : 0 < (reassess c v.st).2.1 := by
        rw [reassess_minStep]; exact minStep_pos hc _ _
      obtain ⟨⟨o, s'⟩, hr⟩ := loop_terminates hc hms N
        { v.st with stdSc := (reassess c v.st).2.2 } (reassess c v.st).1 false
        (by rw [reassess_minStep]; exact hN)
      have hr' : stepImpl c (N + 1) v.st = some (o, s') := hr
      rw [hr']
      cases o <;> exact ⟨_, rfl⟩
  | finished => exact ⟨_, rfl⟩
  | failed => exact ⟨_, rfl⟩

/-- **C06**. With `g < 1` (every predefined controller) every `step()` returns. -/
theorem C06_step_returns [Archimedean K] {c : Cfg K V W} (hc : CfgOK c) (hg : c.safety < 1)
    (v : Solver K V W) : ∃ fuel r, step c fuel v = some r := by
  have hρ1 : max c.minFactor c.safety < 1 := max_lt hc.minF1 hg
  have hρ0 : 0 < max c.minFactor c.safety := lt_max_of_lt_left hc.minF0
  have hm := minStep_pos hc v.st.t v.st.hAbs
  rcases le_or_gt (reassess c v.st).1 0 with hneg | hpos
  · obtain ⟨r, hr⟩ := C06_step_returns_within hc v 0 (by rw [pow_zero, mul_one]; linarith)
    exact ⟨_, r, hr⟩
  · obtain ⟨N, hN⟩ := exists_pow_lt_of_lt_one (div_pos hm hpos) hρ1
    obtain ⟨r, hr⟩ := C06_step_returns_within hc v N (by
      rw [lt_div_iff₀ hpos] at hN; linarith [mul_comm (reassess c v.st).1 (max c.minFactor c.safety ^ N)])
    exact ⟨_, r, hr⟩

/-- **C06**, counterpart: with `g = 1` and a right-hand side whose error norm is exactly one at
every step size, `step()` never returns (no fuel suffices). -/
theorem C06_diverges_with_g_one {c : Cfg K V W} (hg : c.safety = 1) (hmin : c.minFactor ≤ 1)
    (hpw : ∀ e, c.pw 1 e = 1)
    (hpre : ∀ t y f h Ks, (c.m.trial t y f h Ks).pre = .num 0)
    (herr : ∀ t y f h Ks, (c.m.trial t y f h Ks).err = .num 1) (v : Solver K V W)
    (hrun : v.status = .running) (ht : c.tb ≠ some v.st.t)
    (hstep : minStepOf c v.st.t v.st.hAbs ≤ (reassess c v.st).1) :
    ∀ fuel, step c fuel v = none := by
  intro fuel
  have key : ∀ (n : ℕ) (s : St K V W) (h ms : K) (rej : Bool), ms ≤ h →
      loop c n s h ms rej = none := by
    intro n
    induction n with
    | zero => intros; rfl
    | succ n ih =>
      intro s h ms rej hle
      unfold loop
      simp only [not_lt.mpr hle, if_false]
      rw [hpre, herr]
      have h01 : ¬ ((1 : K) < 0) := not_lt.mpr zero_le_one
      simp only [ENorm.gt, h01, decide_false, Bool.false_eq_true, lt_irrefl, if_false]
      apply ih
      unfold retryFactor
      dsimp only
      rw [hpw, hg, mul_one, max_eq_right hmin, mul_one]
      exact hle
  unfold step
  rw [hrun]
  simp only [ht, if_false]
  have : stepImpl c fuel v.st = none := key _ _ _ _ _ (by rw [reassess_minStep]; exact hstep)
  rw [this]

end
end Extensisq
