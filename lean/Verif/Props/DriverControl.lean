import Verif.Props.Driver
import Verif.Model.Example

/-!
# Step size control and counters of the explicit Runge-Kutta family

C05 (driver part), C07, C08, C09, C57, C58 and the counterexamples to C01/C03 without the proviso.
-/

set_option linter.unusedSectionVars false

namespace Extensisq

section
variable {K V W : Type*} [Field K] [LinearOrder K] [IsStrictOrderedRing K]

/-- A successful, moving `step()` is a successful `_step_impl`. -/
theorem step_ok_impl {c : Cfg K V W} {fuel : ℕ} {v v' : Solver K V W}
    (hne : c.tb ≠ some v.st.t) (h : step c fuel v = some (.ok, v')) :
    v.status = .running ∧ stepImpl c fuel v.st = some (.ok, v'.st) ∧ v'.tOld = some v.st.t := by
  unfold step at h
  cases hst : v.status with
  | running =>
    simp only [hst, hne, if_false] at h
    cases hi : stepImpl c fuel v.st with
    | none => simp [hi] at h
    | some p =>
      obtain ⟨o1, s1⟩ := p
      cases o1 with
      | ok =>
        simp only [hi, Option.some.injEq, Prod.mk.injEq, true_and] at h
        rw [← h]; exact ⟨rfl, rfl, rfl⟩
      | fail m => simp [hi] at h
      | exc e => simp [hi] at h
  | finished => simp [hst] at h
  | failed => simp [hst] at h

/-- Any returning `step()` either leaves the driver state alone or is a returning `_step_impl`. -/
theorem step_impl_or {c : Cfg K V W} {fuel : ℕ} {v v' : Solver K V W} {o : Out}
    (h : step c fuel v = some (o, v')) :
    (v'.st = v.st ∧ ((o = .ok ∧ c.tb = some v.st.t) ∨ o = .exc .runtimeErr)) ∨
    (c.tb ≠ some v.st.t ∧ stepImpl c fuel v.st = some (o, v'.st)) := by
  unfold step at h
  cases hst : v.status with
  | running =>
    simp only [hst] at h
    by_cases hne : c.tb = some v.st.t
    · simp only [hne, if_true, Option.some.injEq, Prod.mk.injEq] at h
      left; rw [← h.2]; exact ⟨rfl, Or.inl ⟨h.1.symm, hne⟩⟩
    · simp only [hne, if_false] at h
      right
      cases hi : stepImpl c fuel v.st with
      | none => simp [hi] at h
      | some p =>
        obtain ⟨o1, s1⟩ := p
        refine ⟨hne, ?_⟩
        cases o1 <;> simp only [hi, Option.some.injEq, Prod.mk.injEq] at h <;>
          rw [← h.1, ← h.2]
  | finished =>
    simp only [hst, Option.some.injEq, Prod.mk.injEq] at h
    left; rw [← h.2, ← h.1]; simp
  | failed =>
    simp only [hst, Option.some.injEq, Prod.mk.injEq] at h
    left; rw [← h.2, ← h.1]; simp

/-! ## C05: the acceptance test -/

/-- **C05** (driver part). A successful step is the result of an attempt, with some step size `h` and
some previous content of the work array, whose error norm is a finite number below one; the new
solution is the one proposed by that attempt. -/
theorem C05_accepted_error_below_one {c : Cfg K V W} {fuel : ℕ} {v v' : Solver K V W}
    (hne : c.tb ≠ some v.st.t) (h : step c fuel v = some (.ok, v')) :
    ∃ (h : K) (Ks : ℕ → W) (x : K),
      (c.m.trial v.st.t v.st.y v.st.f h Ks).err = .num x ∧ x < 1 ∧
      v'.st.t = v.st.t + h ∧ v'.st.y = (c.m.trial v.st.t v.st.y v.st.f h Ks).yNew := by
  obtain ⟨-, hi, -⟩ := step_ok_impl hne h
  rcases stepImpl_effect hi with ⟨k, Ks, e, j, ho, hs⟩ | ⟨k, ch, x, f0, std, s1, hmin, hpre, herr, hx, haf, hs1, ho⟩
  · rcases ho with h | h | h <;> cases h
  · refine ⟨ch.hs k * c.dir, ch.Ks k, x, herr, hx, ?_⟩
    rcases ho with ⟨_, b, hd⟩ | ⟨h, _⟩
    · rw [diagnose_same hd, hs1]; exact ⟨rfl, rfl⟩
    · cases h

/-- **C05**. A step that failed or raised `TypeError` leaves time, solution and derivative alone. -/
theorem C05_failed_step_keeps_solution {c : Cfg K V W} {fuel : ℕ} {v v' : Solver K V W} {m : Msg}
    (h : step c fuel v = some (.fail m, v')) :
    v'.st.t = v.st.t ∧ v'.st.y = v.st.y ∧ v'.st.f = v.st.f ∧ v'.st.hAbs = v.st.hAbs ∧
    v'.status = .failed := by
  have hst : v'.status = .failed := by
    unfold step at h
    cases hst : v.status with
    | running =>
      simp only [hst] at h
      by_cases hne : c.tb = some v.st.t
      · simp [hne] at h
      · simp only [hne, if_false] at h
        cases hi : stepImpl c fuel v.st with
        | none => simp [hi] at h
        | some p =>
          obtain ⟨o1, s1⟩ := p
          cases o1 <;> simp only [hi, Option.some.injEq, Prod.mk.injEq] at h
          · cases h.1
          · rw [← h.2]
          · cases h.1
    | finished => simp [hst] at h
    | failed => simp [hst] at h
  rcases step_impl_or h with ⟨h1, _⟩ | ⟨_, hi⟩
  · rw [h1]; exact ⟨rfl, rfl, rfl, rfl, hst⟩
  · rcases stepImpl_effect hi with ⟨k, Ks, e, j, ho, hs⟩ | ⟨k, ch, x, f0, std, s1, hmin, hpre, herr, hx, haf, hs1, ho⟩
    · rw [hs]; exact ⟨rfl, rfl, rfl, rfl, hst⟩
    · rcases ho with ⟨h, _⟩ | ⟨h, _⟩ <;> cases h

/-- **C05**. An attempt with an infinite or nan error norm is never accepted: the call ends at once
with the overflow message. (Stated for the first attempt of a call; every later attempt is the first
one of the loop re-entered with the reduced step.) -/
theorem C05_nonfinite_fails {c : Cfg K V W} {n : ℕ} {s : St K V W} {h ms : K} {rej : Bool}
    (hge : ms ≤ h)
    (hpre : (c.m.trial s.t s.y s.f (h * c.dir) s.Ks).pre.gt 1 = false)
    (herr : (c.m.trial s.t s.y s.f (h * c.dir) s.Ks).err = .inf ∨
            (c.m.trial s.t s.y s.f (h * c.dir) s.Ks).err = .nan) :
    ∃ s', loop c (n + 1) s h ms rej = some (.fail .overflow, s') := by
  unfold loop
  simp only [not_lt.mpr hge, hpre, Bool.false_eq_true, if_false]
  rcases herr with he | he <;> rw [he] <;> exact ⟨_, rfl⟩

/-! ## C07: limits of the step size factor -/

/-- **C07**. After a successful step of length `h = |t' - t|`:
* if an attempt was rejected in this step (the failed step counter moved), the next proposed step is
  not longer than `h`;
* if the second order controller was used, the next proposed step is at most `max_factor * h` and
  at least `min(1, min_factor) * h`;
* `max_factor` is either unchanged or becomes 4. -/
theorem C07_growth_limits {c : Cfg K V W} (hc : CfgOK c) {fuel : ℕ} {v v' : Solver K V W}
    (hne : c.tb ≠ some v.st.t) (h : step c fuel v = some (.ok, v')) :
    ∃ h x, v'.st.t = v.st.t + h * c.dir ∧ 0 < h ∧ v'.st.errOld = some x ∧ x < 1 ∧
      (v.st.nfs < v'.st.nfs → v'.st.hAbs ≤ h) ∧
      ((reassess c v.st).2.2 = false → c.tinyErr ≤ x → c.minFactor ≤ v.st.maxFactor →
        v'.st.hAbs ≤ v.st.maxFactor * h ∧ c.minFactor * h ≤ v'.st.hAbs) ∧
      (x < c.tinyErr → v'.st.hAbs ≤ v.st.maxFactor * h) ∧
      (v'.st.maxFactor = v.st.maxFactor ∨ v'.st.maxFactor = 4) := by
  obtain ⟨-, hi, -⟩ := step_ok_impl hne h
  rcases stepImpl_effect hi with ⟨k, Ks, e, j, ho, hs⟩ | ⟨k, ch, x, f0, std, s1, hmin, hpre, herr, hx, haf, hs1, ho⟩
  · rcases ho with h | h | h <;> cases h
  · rcases ho with ⟨_, b, hd⟩ | ⟨h, _⟩
    swap
    · cases h
    have hpos : 0 < ch.hs k := lt_of_lt_of_le (minStep_pos hc _ _) hmin
    have e1 : v'.st.t = v.st.t + ch.hs k * c.dir := by rw [diagnose_same hd, hs1]; rfl
    have e2 : v'.st.errOld = some x := by rw [diagnose_same hd, hs1]; rfl
    have e3 : v'.st.hAbs = ch.hs k * (if 0 < k then min 1 f0 else f0) := by
      rw [diagnose_same hd, hs1]; rfl
    have e4 : v'.st.nfs = v.st.nfs + k := by rw [diagnose_same hd, hs1]; rfl
    have e5 : v'.st.maxFactor = if (if 0 < k then min 1 f0 else f0) < MAX_FACTOR then MAX_FACTOR
        else v.st.maxFactor := by rw [diagnose_same hd, hs1]; rfl
    have hf_le : (if 0 < k then min 1 f0 else f0) ≤ f0 := by
      split_ifs
      · exact min_le_right _ _
      · exact le_rfl
    refine ⟨ch.hs k, x, e1, hpos, e2, hx, ?_, ?_, ?_, ?_⟩
    · intro hk
      have hk' : 0 < k := by omega
      rw [e3, if_pos hk']
      calc ch.hs k * min 1 f0 ≤ ch.hs k * 1 :=
            mul_le_mul_of_nonneg_left (min_le_left _ _) hpos.le
        _ = ch.hs k := mul_one _
    · intro hstd hx2 hmm
      unfold acceptFactor at haf
      have : (ch.last).stdSc = false :=
        hstd
      simp only [not_lt.mpr hx2, if_false, this, Bool.false_eq_true] at haf
      split at haf
      · rename_i hp eo _ _
        simp only [Option.some.injEq, Prod.mk.injEq] at haf
        have hmf : (ch.last).maxFactor
            = v.st.maxFactor := rfl
        rw [hmf] at haf
        have hf1 : f0 ≤ v.st.maxFactor := by rw [← haf.1]; exact min_le_left _ _
        have hf2 : c.minFactor ≤ f0 := by
          rw [← haf.1]; exact le_min hmm (le_max_left _ _)
        rw [e3]
        constructor
        · rw [mul_comm]; exact mul_le_mul_of_nonneg_right (hf_le.trans hf1) hpos.le
        · rw [mul_comm]
          apply mul_le_mul_of_nonneg_left _ hpos.le
          split_ifs
          · exact le_min hc.minF1.le hf2
          · exact hf2
      · cases haf
    · intro hxt
      unfold acceptFactor at haf
      simp only [hxt, if_true, Option.some.injEq, Prod.mk.injEq] at haf
      have hmf : (ch.last).maxFactor
            = v.st.maxFactor := rfl
      rw [hmf] at haf
      rw [e3, mul_comm]
      apply mul_le_mul_of_nonneg_right _ hpos.le
      rw [haf.1]; exact hf_le
    · rw [e5]
      generalize (if 0 < k then min 1 f0 else f0) = fac
      split_ifs
      · exact Or.inr rfl
      · exact Or.inl rfl

/-- **C07**, histories: starting from a new solver `max_factor` is 10 or 4, and once 4 it stays 4. -/
theorem C07_max_factor_values {c : Cfg K V W} (hc : CfgOK c) {v0 v : Solver K V W}
    (h0 : v0.st.maxFactor = 10 ∨ v0.st.maxFactor = 4) (hr : Reach c v0 v) :
    (v.st.maxFactor = 10 ∨ v.st.maxFactor = 4) ∧ (v0.st.maxFactor = 4 → v.st.maxFactor = 4) := by
  induction hr with
  | refl => exact ⟨h0, id⟩
  | @tail v v' o fuel hr hs ih =>
    have key : v'.st.maxFactor = v.st.maxFactor ∨ v'.st.maxFactor = 4 := by
      rcases step_impl_or hs with ⟨h1, _⟩ | ⟨_, hi⟩
      · rw [h1]; exact Or.inl rfl
      · rcases stepImpl_effect hi with ⟨k, Ks, e, j, ho, hs⟩ |
          ⟨k, ch, x, f0, std, s1, hmin, hpre, herr, hx, haf, hs1, ho⟩
        · rw [hs]; exact Or.inl rfl
        · have e5 : s1.maxFactor = if (if 0 < k then min 1 f0 else f0) < MAX_FACTOR then MAX_FACTOR
              else v.st.maxFactor := by rw [hs1]; rfl
          have e6 : v'.st.maxFactor = s1.maxFactor := by
            rcases ho with ⟨_, b, hd⟩ | ⟨_, _, hd⟩
            · rw [diagnose_same hd]
            · rw [hd]; rfl
          rw [e6, e5]
          generalize (if 0 < k then min 1 f0 else f0) = fac
          split_ifs
          · exact Or.inr rfl
          · exact Or.inl rfl
    rcases key with h | h
    · rw [h]; exact ih
    · rw [h]; exact ⟨Or.inr rfl, fun _ => rfl⟩

/-! ## C08, C09: counters -/

/-- **C08/C09**. A successful step makes exactly `q + r + 1` attempts, where `q + r` is the increase of
the failed step counter; `q` of them were rejected by the preliminary error test (only `BS5` and
`CFMR7osc` have one), and `fun` is evaluated exactly
`q * costPre + (r + 1) * (n_stages - 1) + (r + 1 if FSAL else 1)` times (stiffness test not counted).
The rejected attempts are listed by the chain. -/
theorem C08_evaluations_success {c : Cfg K V W} {fuel : ℕ} {v v' : Solver K V W}
    (hne : c.tb ≠ some v.st.t) (h : step c fuel v = some (.ok, v')) :
    ∃ q r, v'.st.nfs = v.st.nfs + (q + r) ∧
      v'.st.nfev = v.st.nfev + q * c.m.costPre + (r + 1) * (c.m.nStages - 1) +
        (if c.m.fsal then r + 1 else 1) ∧
      Nonempty (Chain c { v.st with stdSc := (reassess c v.st).2.2 } (reassess c v.st).1
        (reassess c v.st).2.1 (q + r)) ∧
      ((∀ t y f h Ks, (c.m.trial t y f h Ks).pre.gt 1 = false) → q = 0) := by
  obtain ⟨-, hi, -⟩ := step_ok_impl hne h
  rcases stepImpl_effect hi with ⟨k, Ks, e, j, ho, hs⟩ | ⟨k, ch, x, f0, std, s1, hmin, hpre, herr, hx, haf, hs1, ho⟩
  · rcases ho with h | h | h <;> cases h
  · rcases ho with ⟨_, b, hd⟩ | ⟨h, _⟩
    swap
    · cases h
    obtain ⟨q, r, hqr, hn, hq0⟩ := ch.counts k le_rfl
    subst hqr
    refine ⟨q, r, by rw [diagnose_same hd, hs1]; rfl, ?_, ⟨ch⟩, hq0⟩
    have : v'.st.nfev = v.st.nfev + ch.ns (q + r) + c.m.cost + (if c.m.fsal then 0 else 1) := by
      rw [diagnose_same hd, hs1]; rfl
    rw [this, hn]
    unfold Method.cost
    cases c.m.fsal <;> simp <;> ring

/-- **C08/C09**. A failing step: all attempts (`q` early rejected, `r` others) were rejected, each of
the `r` costing `n_stages - 1 (+1 if FSAL)` evaluations. The failed step counter counts them, except
that `BS5` does not count the last one if its error norm was not finite. -/
theorem C08_evaluations_failure {c : Cfg K V W} {fuel : ℕ} {v v' : Solver K V W} {m : Msg}
    (h : step c fuel v = some (.fail m, v')) :
    ∃ q r, (m = .tooSmall → v'.st.nfs = v.st.nfs + (q + r)) ∧
      (m = .overflow → 0 < r ∧ v'.st.nfs + 1 = v.st.nfs + (q + r) + c.m.nfsOverflow) ∧
      v'.st.nfev = v.st.nfev + q * c.m.costPre + r * (c.m.nStages - 1) +
        (if c.m.fsal then r else 0) ∧
      ((∀ t y f h Ks, (c.m.trial t y f h Ks).pre.gt 1 = false) → q = 0) := by
  rcases step_impl_or h with ⟨_, ⟨h1, _⟩ | h1⟩ | ⟨_, hi⟩
  · cases h1
  · cases h1
  · unfold stepImpl at hi
    obtain ⟨k, ch, hk, hl⟩ := loop_spec c _ _ _ _ _ _ _ hi
    obtain ⟨q, r, hqr, hn, hq0⟩ := ch.counts k le_rfl
    subst hqr
    rcases hl with ⟨_, h2, h3⟩ | ⟨_, _, _, h2, h3⟩ | ⟨x, h1, hp, h2, h3, h4⟩
    · refine ⟨q, r, fun _ => by rw [h3]; rfl, (by cases h2; intro h; cases h), ?_, hq0⟩
      have : v'.st.nfev = v.st.nfev + ch.ns (q + r) := by rw [h3]; rfl
      rw [this, hn]; unfold Method.cost; cases c.m.fsal <;> simp <;> ring
    · refine ⟨q, r + 1, (by cases h2; intro h; cases h), fun _ => ⟨Nat.succ_pos r, ?_⟩, ?_, hq0⟩
      · have : v'.st.nfs = v.st.nfs + (q + r) + c.m.nfsOverflow := by rw [h3]; rfl
        rw [this]; ring
      · have : v'.st.nfev = v.st.nfev + ch.ns (q + r) + c.m.cost := by rw [h3]; rfl
        rw [this, hn]; unfold Method.cost; cases c.m.fsal <;> simp <;> ring
    · rcases h4 with ⟨_, h5, _⟩ | ⟨f0, std, h5, h6⟩
      · cases h5
      · rcases h6 with ⟨_, h7, _⟩ | ⟨b, h7, h8⟩
        · cases h7
        · cases h8

/-- **C08**, histories without exceptions: total cost of any sequence of `step()` calls from a start
that is not on `t_bound`, for the methods without preliminary test and with every rejection counted.
`r` is the number of rejected attempts. -/
theorem C08_evaluations_history {c : Cfg K V W} (hc : CfgOK c)
    (hnopre : ∀ t y f h Ks, (c.m.trial t y f h Ks).pre.gt 1 = false) (hcount : c.m.nfsOverflow = 1)
    {v0 v : Solver K V W}
    {outs : List Out} (hr : Run c v0 outs v)
    (hplain : ∀ o ∈ outs, o = .ok ∨ ∃ m, o = .fail m)
    (hb : ∀ b, c.tb = some b → 0 < c.dir * (b - v0.st.t))
    (husable : ∀ w, Reach c v0 w → MaxStepUsable c w.st) (hrun : v0.status = .running) :
    ∃ r, v.st.nfs = v0.st.nfs + r ∧
      v.st.nfev = v0.st.nfev + (outs.count .ok + r) * (c.m.nStages - 1) +
        (if c.m.fsal then outs.count .ok + r else outs.count .ok) := by
  induction hr with
  | nil => exact ⟨0, by simp, by simp⟩
  | @cons outs v v' o fuel hr hs ih =>
    obtain ⟨r, h1, h2⟩ := ih (fun o ho => hplain o (List.mem_cons_of_mem _ ho))
    rcases hplain o List.mem_cons_self with ho | ⟨m, ho⟩
    · subst ho
      have hne : c.tb ≠ some v.st.t := by
        intro hcon
        have h0 : ∀ b, c.tb = some b → 0 ≤ c.dir * (b - v0.st.t) := fun b hb' => (hb b hb').le
        -- the state before this step is running
        have hvrun : v.status = .running := by
          by_contra hnr
          rw [C04_final hnr] at hs
          simp at hs
        cases hr with
        | nil => have := hb _ hcon; simp at this
        | @cons outs' w _ o' fuel' hr' hs' =>
          rcases hplain o' (by simp) with ho' | ⟨m', ho'⟩
          · subst ho'
            have := (C04_finished_on_t_bound hc hrun h0 husable hr'.reach).2 fuel' v hs' hvrun _ hcon
            simp at this
          · subst ho'
            rw [(C05_failed_step_keeps_solution hs').2.2.2.2] at hvrun
            cases hvrun
      obtain ⟨q, q', h3, h4, -, h5⟩ := C08_evaluations_success hne hs
      have hq0 := h5 hnopre
      subst hq0
      refine ⟨r + q', by omega, ?_⟩
      rw [h4, h2, List.count_cons_self]
      cases c.m.fsal <;> simp <;> ring
    · subst ho
      obtain ⟨q, q', h3, h3', h4, h5⟩ := C08_evaluations_failure hs
      have hq0 := h5 hnopre
      subst hq0
      have h6 : v'.st.nfs = v.st.nfs + q' := by
        cases m with
        | tooSmall => have := h3 rfl; omega
        | overflow => have := (h3' rfl).2; omega
      refine ⟨r + q', by omega, ?_⟩
      rw [h4, h2, List.count_cons_of_ne (by simp)]
      cases c.m.fsal <;> simp <;> ring

/-! ## C57: the second order controller only reads defined, positive data -/

/-- Invariant of the controller state: when the second order controller may be used, the previous
step and error norm exist, and are usable bases of a power. -/
def ControllerReady (c : Cfg K V W) (s : St K V W) : Prop :=
  s.stdSc = false → ∃ hp e, s.hPrev = some hp ∧ s.errOld = some e ∧ 0 < hp * c.dir ∧ c.tinyErr ≤ e

theorem reassess_std_false {c : Cfg K V W} {s : St K V W} (h : (reassess c s).2.2 = false) :
    s.stdSc = false := by
  unfold reassess at h
  cases htb : c.tb with
  | none => simp only [htb] at h; split_ifs at h; exact h
  | some b =>
    simp only [htb] at h
    split_ifs at h <;> simp_all

theorem ready_step {c : Cfg K V W} (hc : CfgOK c) {fuel : ℕ} {s s' : St K V W} {o : Out}
    (hr : ControllerReady c s) (h : stepImpl c fuel s = some (o, s')) :
    ControllerReady c s' ∧ o ≠ .exc .typeErr := by
  have hr' : ControllerReady c { s with stdSc := (reassess c s).2.2 } := by
    intro hstd
    exact hr (reassess_std_false hstd)
  have hne : ∀ (k : ℕ) (ch : Chain c { s with stdSc := (reassess c s).2.2 } (reassess c s).1
        (reassess c s).2.1 k) (h x : K), acceptFactor c ch.last h x ≠ none := by
    intro k ch h x
    unfold acceptFactor
    split_ifs with h1 h2
    · simp
    · simp
    · obtain ⟨hp, e, e1, e2, -⟩ := hr' (by simpa [Chain.last] using h2)
      have e1' : ch.last.hPrev = some hp := e1
      have e2' : ch.last.errOld = some e := e2
      rw [e1', e2']; simp
  constructor
  · rcases stepImpl_effect h with ⟨k, Ks, e, j, ho, hs⟩ | ⟨k, ch, x, f0, std, s1, hmin, hpre, herr, hx, haf, hs1, ho⟩
    · rw [hs]; exact hr'
    · have hpos : 0 < ch.hs k := lt_of_lt_of_le (minStep_pos hc _ _) hmin
      have hs1' : ControllerReady c s1 := by
        intro hstd
        have e1 : s1.stdSc = std := by rw [hs1]; rfl
        have e2 : s1.hPrev = some (ch.hs k * c.dir) := by rw [hs1]; rfl
        have e3 : s1.errOld = some x := by rw [hs1]; rfl
        refine ⟨_, _, e2, e3, ?_, ?_⟩
        · rw [mul_assoc, dir_sq hc, mul_one]; exact hpos
        · rw [e1] at hstd
          by_contra hlt
          unfold acceptFactor at haf
          simp only [not_le.mp hlt, if_true, Option.some.injEq, Prod.mk.injEq] at haf
          rw [hstd] at haf; cases haf.2
      intro hstd
      rcases ho with ⟨_, b, hd⟩ | ⟨_, _, hd⟩
      · rw [diagnose_same hd] at hstd ⊢; exact hs1' hstd
      · rw [hd] at hstd ⊢; exact hs1' hstd
  · intro ho
    subst ho
    unfold stepImpl at h
    obtain ⟨k, ch, hk, hl⟩ := loop_spec c _ _ _ _ _ _ _ h
    rcases hl with ⟨_, h2, _⟩ | ⟨_, _, _, h2, _⟩ | ⟨x, h1, hp, h2, h3, h4⟩
    · cases h2
    · cases h2
    · rcases h4 with ⟨h5, _, _⟩ | ⟨f0, std, h5, h6⟩
      · exact hne _ _ _ _ h5
      · rcases h6 with ⟨_, h7, _⟩ | ⟨b, h7, h8⟩
        · cases h7
        · cases h8

/-- **C57**. In every state reachable from a new solver, whenever the second order controller may be
used, `h_previous` and `error_norm_old` are defined, `h/h_previous > 0` and
`error_norm_old ≥ tiny_err > 0`; and no `step()` ever raises the `TypeError` of undefined data. -/
theorem C57_controller_data_defined {c : Cfg K V W} (hc : CfgOK c) {t0 : K} {y0 : V} {h0 : K}
    {e0 : ℕ} {Ks0 : ℕ → W} {v : Solver K V W} (hr : Reach c (newSolver c t0 y0 h0 e0 Ks0) v) :
    ControllerReady c v.st ∧ ∀ fuel v' o, step c fuel v = some (o, v') → o ≠ .exc .typeErr := by
  have key : ControllerReady c v.st := by
    induction hr with
    | refl => intro h; simp [newSolver] at h
    | @tail v v' o fuel hr hs ih =>
      rcases step_impl_or hs with ⟨h1, _⟩ | ⟨_, hi⟩
      · rw [h1]; exact ih
      · exact (ready_step hc ih hi).1
  refine ⟨key, ?_⟩
  intro fuel v' o hs
  rcases step_impl_or hs with ⟨_, ⟨h1, _⟩ | h1⟩ | ⟨_, hi⟩
  · rw [h1]; simp
  · rw [h1]; simp
  · exact (ready_step hc key hi).2

/-! ## C58: proposed steps stay positive; spurious failures after a tiny error -/

/-- **C58**. Every proposed step size of a reachable state is positive. -/
theorem C58_step_size_positive {c : Cfg K V W} (hc : CfgOK c) {t0 : K} {y0 : V} {h0 : K}
    (hh : 0 < h0) {e0 : ℕ} {Ks0 : ℕ → W} {v : Solver K V W}
    (hr : Reach c (newSolver c t0 y0 h0 e0 Ks0) v) : 0 < v.st.hAbs ∧ 0 < v.st.maxFactor := by
  induction hr with
  | refl => exact ⟨hh, by simp [newSolver, MAX_FACTOR0]⟩
  | @tail v v' o fuel hr hs ih =>
    have hready := (C57_controller_data_defined hc hr).1
    rcases step_impl_or hs with ⟨h1, _⟩ | ⟨_, hi⟩
    · rw [h1]; exact ih
    · rcases stepImpl_effect hi with ⟨k, Ks, e, j, ho, hs⟩ |
        ⟨k, ch, x, f0, std, s1, hmin, hpre, herr, hx, haf, hs1, ho⟩
      · rw [hs]; exact ih
      · have hpos : 0 < ch.hs k := lt_of_lt_of_le (minStep_pos hc _ _) hmin
        have hf0 : 0 < f0 := by
          unfold acceptFactor at haf
          by_cases hxt : x < c.tinyErr
          · simp only [hxt, if_true, Option.some.injEq, Prod.mk.injEq] at haf
            rw [← haf.1]; exact ih.2
          · have hx0 : 0 < x := lt_of_lt_of_le hc.tiny (not_lt.mp hxt)
            simp only [hxt, if_false] at haf
            split_ifs at haf with h2
            · simp only [Option.some.injEq, Prod.mk.injEq] at haf
              rw [← haf.1]; exact mul_pos hc.safety0 (hc.pw.pos _ _ hx0)
            · split at haf
              · simp only [Option.some.injEq, Prod.mk.injEq] at haf
                rw [← haf.1]
                exact lt_min ih.2 (lt_max_of_lt_left hc.minF0)
              · cases haf
        have e3 : v'.st.hAbs = ch.hs k * (if 0 < k then min 1 f0 else f0) ∧
            v'.st.maxFactor = if (if 0 < k then min 1 f0 else f0) < MAX_FACTOR then MAX_FACTOR
              else v.st.maxFactor := by
          rcases ho with ⟨_, b, hd⟩ | ⟨_, _, hd⟩
          · rw [diagnose_same hd, hs1]; exact ⟨rfl, rfl⟩
          · rw [hd, hs1]; exact ⟨rfl, rfl⟩
        rw [e3.1, e3.2]
        constructor
        · apply mul_pos hpos
          split_ifs
          · exact lt_min one_pos hf0
          · exact hf0
        · generalize (if 0 < k then min 1 f0 else f0) = fac
          split_ifs
          · simp [MAX_FACTOR]
          · exact ih.2

/-- **C58** (negative part, finding F16). If the proposed step is so large that
`h_min_a * h_abs` exceeds the remaining distance — possible after a single accepted step with a tiny
error norm, because the standard controller does not limit the growth — and `max_step` is infinite,
the next `step()` fails with "Required step size is less than spacing between numbers", although the
remaining distance `d` itself would be a perfectly good step. -/
theorem C58_spurious_failure {c : Cfg K V W} {v : Solver K V W} {b : K}
    (hrun : v.status = .running) (hb : c.tb = some b) (hne : b ≠ v.st.t) (hm : c.maxStep = none)
    (hA : 0 ≤ c.hMinA) (hbig : |b - v.st.t| < c.hMinA * v.st.hAbs) :
    ∃ v', step c 1 v = some (.fail .tooSmall, v') := by
  have hms : |b - v.st.t| < minStepOf c v.st.t v.st.hAbs := by
    refine lt_of_lt_of_le hbig (le_trans ?_ (le_max_left _ _))
    exact mul_le_mul_of_nonneg_left (by linarith [abs_nonneg v.st.t]) hA
  have hre : (reassess c v.st).1 < minStepOf c v.st.t v.st.hAbs := by
    unfold reassess
    rw [hb]
    dsimp only
    have key : minStepOf c v.st.t v.st.hAbs ≤
        (if (decide (v.st.hAbs < minStepOf c v.st.t v.st.hAbs) || overMax c.maxStep v.st.hAbs) = true
        then capMax c.maxStep (max (minStepOf c v.st.t v.st.hAbs) v.st.hAbs) else v.st.hAbs) := by
      rw [hm]
      split_ifs with h1
      · exact le_max_left _ _
      · simp only [overMax, Bool.or_false, decide_eq_true_eq, not_lt] at h1; exact h1
    generalize (if (decide (v.st.hAbs < minStepOf c v.st.t v.st.hAbs) || overMax c.maxStep v.st.hAbs)
        = true then capMax c.maxStep (max (minStepOf c v.st.t v.st.hAbs) v.st.hAbs) else v.st.hAbs)
        = h1 at key ⊢
    have h1d : |b - v.st.t| < h1 := lt_of_lt_of_le hms key
    have hd0 := abs_nonneg (b - v.st.t)
    rw [if_pos (by linarith), if_neg (by simpa using h1d.le)]
    exact hms
  unfold step
  rw [hrun]
  have hne' : c.tb ≠ some v.st.t := by rw [hb]; simpa using hne
  simp only [hne', if_false]
  have : stepImpl c 1 v.st = some (.fail .tooSmall, { v.st with stdSc := (reassess c v.st).2.2 }) := by
    unfold stepImpl loop
    rw [reassess_minStep]
    simp only [hre, if_true]
  rw [this]
  exact ⟨_, rfl⟩

end
end Extensisq
