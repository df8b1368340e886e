import Verif.Props.DriverControl
import Verif.Lemmas.RK
import Verif.Model.Methods
import Verif.Model.Example

/-!
# C09 (global failed step counter), C28 (dense output requests), C30, C31 (stiffness detection)
-/

set_option linter.unusedSectionVars false

namespace Extensisq

section
variable {K V W : Type*} [Field K] [LinearOrder K] [IsStrictOrderedRing K]

/-! ## Specification: the trajectory of a solver -/

/-- Two driver states describe the same integration: solution, derivative, step size and controller
data agree; work arrays and the book-keeping of the stiffness test may differ. -/
structure SameTraj (s s' : St K V W) : Prop where
  t : s.t = s'.t
  y : s.y = s'.y
  f : s.f = s'.f
  hAbs : s.hAbs = s'.hAbs
  maxFactor : s.maxFactor = s'.maxFactor
  stdSc : s.stdSc = s'.stdSc
  hPrev : s.hPrev = s'.hPrev
  errOld : s.errOld = s'.errOld
  yOld : s.yOld = s'.yOld
  fOld : s.fOld = s'.fOld
  nfs : s.nfs = s'.nfs

structure SameSolver (v v' : Solver K V W) : Prop where
  status : v.status = v'.status
  tOld : v.tOld = v'.tOld
  st : SameTraj v.st v'.st

theorem SameTraj.refl (s : St K V W) : SameTraj s s := ⟨rfl, rfl, rfl, rfl, rfl, rfl, rfl, rfl, rfl, rfl, rfl⟩

theorem SameSolver.refl (v : Solver K V W) : SameSolver v v := ⟨rfl, rfl, .refl _⟩

/-- The stage array is only a work space: an attempt does not depend on what it contained before. -/
structure WorkFree (m : Method K V W) : Prop where
  yNew : ∀ t y f h Ks Ks', (m.trial t y f h Ks).yNew = (m.trial t y f h Ks').yNew
  err : ∀ t y f h Ks Ks', (m.trial t y f h Ks).err = (m.trial t y f h Ks').err
  pre : ∀ t y f h Ks Ks', (m.trial t y f h Ks).pre = (m.trial t y f h Ks').pre
  last : m.fsal = true → ∀ t y f h Ks Ks',
    (m.trial t y f h Ks).stages m.nStages = (m.trial t y f h Ks').stages m.nStages

/-- Stiffness detection is disabled, or its interval is at least the number of stages. -/
def StiffOK (n : ℕ) (m : Method K V W) : Prop := n = 0 ∨ (0 < m.nStages ∧ m.nStages ≤ n)

/-- The same solver with another value of `nfev_stiff_detect` and another stiffness test. -/
def Cfg.withStiff (c : Cfg K V W) (n : ℕ) (ev : K → V → ℕ) : Cfg K V W :=
  { c with nfevStiff := n, stiffEvals := ev }

theorem diagnose_some {c : Cfg K V W} (h : StiffOK c.nfevStiff c.m) (s : St K V W) :
    ∃ s' b, diagnose c s = some (s', b) ∧ SameTraj s s' := by
  unfold diagnose
  rcases h with h | ⟨h0, h1⟩
  · rw [if_pos h]; exact ⟨s, false, rfl, .refl s⟩
  · have hp : 0 < c.nfevStiff / c.m.nStages := Nat.div_pos h1 h0
    rw [if_neg (by omega : ¬ c.nfevStiff = 0)]
    dsimp only
    rw [if_neg (by omega : ¬ c.nfevStiff / c.m.nStages = 0)]
    exact ⟨_, _, rfl, ⟨rfl, rfl, rfl, rfl, rfl, rfl, rfl, rfl, rfl, rfl, rfl⟩⟩

theorem reassess_same {c : Cfg K V W} {n : ℕ} {ev : K → V → ℕ} {s s' : St K V W} (h : SameTraj s s') :
    reassess (c.withStiff n ev) s' = reassess c s := by
  unfold reassess minStepOf
  simp only [Cfg.withStiff, h.t, h.hAbs, h.stdSc]
  rfl

theorem acceptFactor_same {c : Cfg K V W} {n : ℕ} {ev : K → V → ℕ} {s s' : St K V W}
    (h : SameTraj s s') (a x : K) :
    acceptFactor (c.withStiff n ev) s' a x = acceptFactor c s a x := by
  unfold acceptFactor
  simp only [Cfg.withStiff, h.maxFactor, h.stdSc, h.hPrev, h.errOld]
  rfl

theorem acceptState_same {c : Cfg K V W} (hw : WorkFree c.m) {n : ℕ} {ev : K → V → ℕ}
    {s s' : St K V W} (h : SameTraj s s') (a hN x fac : K) (b : Bool) :
    SameTraj (acceptState c s (c.m.trial s.t s.y s.f a s.Ks) a hN x fac b)
      (acceptState (c.withStiff n ev) s' (c.m.trial s.t s.y s.f a s'.Ks) a hN x fac b) := by
  have ey := hw.yNew s.t s.y s.f a s.Ks s'.Ks
  refine ⟨?_, ey, ?_, rfl, ?_, rfl, rfl, rfl, ?_, ?_, h.nfs⟩
  · simp only [acceptState, h.t]
  · have em : (c.withStiff n ev).m = c.m := rfl
    simp only [acceptState, em, ← h.t]
    by_cases hf : c.m.fsal = true
    · rw [if_pos hf, if_pos hf]
      exact hw.last hf _ _ _ _ _ _
    · rw [if_neg hf, if_neg hf, Function.update_self, Function.update_self, ey]
  · simp only [acceptState, h.maxFactor]
  · simp only [acceptState, h.y]
  · simp only [acceptState, h.f]

/-- Same results of the retry loop. -/
def SameResult : Option (Out × St K V W) → Option (Out × St K V W) → Prop
  | none, none => True
  | some (o, s), some (o', s') => o = o' ∧ SameTraj s s'
  | _, _ => False

theorem loop_same {c : Cfg K V W} (hw : WorkFree c.m) (hc : StiffOK c.nfevStiff c.m) {n : ℕ}
    (ev : K → V → ℕ) (hn : StiffOK n c.m) (ms : K) :
    ∀ (fuel : ℕ) (s s' : St K V W) (h : K) (rej : Bool), SameTraj s s' →
      SameResult (loop c fuel s h ms rej) (loop (c.withStiff n ev) fuel s' h ms rej) := by
  intro fuel
  induction fuel with
  | zero => intros; trivial
  | succ k ih =>
    intro s s' h rej hs
    unfold loop
    by_cases hlt : h < ms
    · simp only [hlt, if_true]; exact ⟨rfl, hs⟩
    simp only [hlt, if_false]
    have em : (c.withStiff n ev).m = c.m := rfl
    have ed : (c.withStiff n ev).dir = c.dir := rfl
    have er : ∀ e, retryFactor (c.withStiff n ev) e = retryFactor c e := fun e => by cases e <;> rfl
    simp only [em, ed, er, ← hs.t, ← hs.y, ← hs.f]
    rw [hw.pre _ _ _ _ s.Ks s'.Ks, hw.err _ _ _ _ s.Ks s'.Ks]
    cases hp : (c.m.trial s.t s.y s.f (h * c.dir) s'.Ks).pre.gt 1 with
    | true =>
      simp only [if_true]
      apply ih
      exact ⟨rfl, rfl, rfl, hs.hAbs, hs.maxFactor, hs.stdSc, hs.hPrev, hs.errOld, hs.yOld, hs.fOld,
        by simp only [hs.nfs]⟩
    | false =>
      simp only [Bool.false_eq_true, if_false]
      cases he : (c.m.trial s.t s.y s.f (h * c.dir) s'.Ks).err with
      | inf =>
        exact ⟨rfl, rfl, rfl, rfl, hs.hAbs, hs.maxFactor, hs.stdSc, hs.hPrev, hs.errOld, hs.yOld,
          hs.fOld, by simp only [hs.nfs]⟩
      | nan =>
        exact ⟨rfl, rfl, rfl, rfl, hs.hAbs, hs.maxFactor, hs.stdSc, hs.hPrev, hs.errOld, hs.yOld,
          hs.fOld, by simp only [hs.nfs]⟩
      | num x =>
        dsimp only
        by_cases hx : x < 1
        · simp only [hx, if_true]
          have ea := acceptFactor_same (c := c) (n := n) (ev := ev) hs (h * c.dir) x
          have eb : ({ s' with t := s.t, y := s.y, f := s.f } : St K V W) = s' := by
            rw [hs.t, hs.y, hs.f]
          rw [ea]
          cases haf : acceptFactor c s (h * c.dir) x with
          | none =>
            exact ⟨rfl, rfl, rfl, rfl, hs.hAbs, hs.maxFactor, hs.stdSc, hs.hPrev, hs.errOld, hs.yOld,
              hs.fOld, hs.nfs⟩
          | some p =>
            obtain ⟨f0, std⟩ := p
            dsimp only
            have hst := acceptState_same hw (n := n) (ev := ev) hs (h * c.dir)
              (h * (if rej = true then min 1 f0 else f0)) x (if rej = true then min 1 f0 else f0) std
            generalize acceptState c s (c.m.trial s.t s.y s.f (h * c.dir) s.Ks) (h * c.dir)
              (h * (if rej = true then min 1 f0 else f0)) x (if rej = true then min 1 f0 else f0) std
              = s1 at hst ⊢
            generalize acceptState (c.withStiff n ev) s'
              (c.m.trial s.t s.y s.f (h * c.dir) s'.Ks) (h * c.dir)
              (h * (if rej = true then min 1 f0 else f0)) x (if rej = true then min 1 f0 else f0) std
              = s2 at hst ⊢
            obtain ⟨u1, b1, e1, h1⟩ := diagnose_some hc s1
            obtain ⟨u2, b2, e2, h2⟩ := diagnose_some (c := c.withStiff n ev) hn s2
            rw [e1, e2]
            exact ⟨rfl, h1.t.symm.trans (hst.t.trans h2.t), h1.y.symm.trans (hst.y.trans h2.y),
              h1.f.symm.trans (hst.f.trans h2.f), h1.hAbs.symm.trans (hst.hAbs.trans h2.hAbs),
              h1.maxFactor.symm.trans (hst.maxFactor.trans h2.maxFactor),
              h1.stdSc.symm.trans (hst.stdSc.trans h2.stdSc),
              h1.hPrev.symm.trans (hst.hPrev.trans h2.hPrev),
              h1.errOld.symm.trans (hst.errOld.trans h2.errOld),
              h1.yOld.symm.trans (hst.yOld.trans h2.yOld),
              h1.fOld.symm.trans (hst.fOld.trans h2.fOld), h1.nfs.symm.trans (hst.nfs.trans h2.nfs)⟩
        · simp only [hx, if_false]
          apply ih
          exact ⟨rfl, rfl, rfl, hs.hAbs, hs.maxFactor, hs.stdSc, hs.hPrev, hs.errOld, hs.yOld,
            hs.fOld, by simp only [hs.nfs]⟩

theorem step_same {c : Cfg K V W} (hw : WorkFree c.m) (hc : StiffOK c.nfevStiff c.m) {n : ℕ}
    (ev : K → V → ℕ) (hn : StiffOK n c.m) {fuel : ℕ} {v v' w : Solver K V W} {o : Out}
    (hv : SameSolver v w) (h : step c fuel v = some (o, v')) :
    ∃ w', step (c.withStiff n ev) fuel w = some (o, w') ∧ SameSolver v' w' := by
  unfold step at h ⊢
  rw [← hv.status]
  cases hst : v.status with
  | running =>
    simp only [hst] at h ⊢
    have et : ((c.withStiff n ev).tb = some w.st.t) ↔ (c.tb = some v.st.t) := by
      rw [hv.st.t]; rfl
    by_cases htb : c.tb = some v.st.t
    · simp only [htb, et.mpr htb, if_true, Option.some.injEq, Prod.mk.injEq] at h ⊢
      obtain ⟨h1, h2⟩ := h
      subst h1; subst h2
      refine ⟨_, ⟨rfl, rfl⟩, rfl, ?_, hv.st⟩
      simp only [hv.st.t]
    · simp only [htb, mt et.mp htb, if_false] at h ⊢
      have hl : SameResult (stepImpl c fuel v.st) (stepImpl (c.withStiff n ev) fuel w.st) := by
        unfold stepImpl
        rw [reassess_same hv.st]
        apply loop_same hw hc ev hn
        exact ⟨hv.st.t, hv.st.y, hv.st.f, hv.st.hAbs, hv.st.maxFactor, rfl, hv.st.hPrev, hv.st.errOld,
          hv.st.yOld, hv.st.fOld, hv.st.nfs⟩
      cases hi : stepImpl c fuel v.st with
      | none => simp [hi] at h
      | some p =>
        obtain ⟨o1, s1⟩ := p
        rw [hi] at hl
        cases hj : stepImpl (c.withStiff n ev) fuel w.st with
        | none => rw [hj] at hl; exact hl.elim
        | some q =>
          obtain ⟨o2, s2⟩ := q
          rw [hj] at hl
          obtain ⟨rfl, hl⟩ := hl
          cases o1 with
          | ok =>
            simp only [hi, Option.some.injEq, Prod.mk.injEq] at h ⊢
            obtain ⟨h1, h2⟩ := h
            subst h1; subst h2
            refine ⟨_, ⟨rfl, rfl⟩, ?_, ?_, hl⟩
            · simp only [hl.t]; rfl
            · simp only [hv.st.t]
          | fail m =>
            simp only [hi, Option.some.injEq, Prod.mk.injEq] at h ⊢
            obtain ⟨h1, h2⟩ := h
            subst h1; subst h2
            exact ⟨_, ⟨rfl, rfl⟩, rfl, hv.tOld, hl⟩
          | exc e =>
            simp only [hi, Option.some.injEq, Prod.mk.injEq] at h ⊢
            obtain ⟨h1, h2⟩ := h
            subst h1; subst h2
            exact ⟨_, ⟨rfl, rfl⟩, rfl, hv.tOld, hl⟩
  | finished =>
    simp only [hst, Option.some.injEq, Prod.mk.injEq] at h ⊢
    obtain ⟨h1, h2⟩ := h
    subst h1; subst h2
    exact ⟨_, ⟨rfl, rfl⟩, hv⟩
  | failed =>
    simp only [hst, Option.some.injEq, Prod.mk.injEq] at h ⊢
    obtain ⟨h1, h2⟩ := h
    subst h1; subst h2
    exact ⟨_, ⟨rfl, rfl⟩, hv⟩

/-! ## C30 -/

/-- **C30**. The integration does not depend on `nfev_stiff_detect` (as long as it is zero or at least
the number of stages, see C31) nor on what the stiffness test does: every history of `step()` calls of
one solver has a counterpart, with the same outcomes and the same trajectory, of the solver
constructed with another `nfev_stiff_detect` and another test. -/
theorem C30_stiffness_detection_harmless {c : Cfg K V W} (hw : WorkFree c.m)
    (hc : StiffOK c.nfevStiff c.m) {n : ℕ} (ev : K → V → ℕ) (hn : StiffOK n c.m)
    {v0 v : Solver K V W} {outs : List Out} (hr : Run c v0 outs v) :
    ∃ w, Run (c.withStiff n ev) v0 outs w ∧ SameSolver v w := by
  induction hr with
  | nil => exact ⟨v0, .nil, .refl _⟩
  | @cons outs v v' o fuel hr hs ih =>
    obtain ⟨w, h1, h2⟩ := ih
    obtain ⟨w', h3, h4⟩ := step_same hw hc ev hn h2 hs
    exact ⟨w', .cons h1 h3, h4⟩

/-- **C30**, second part: with `nfev_stiff_detect = 0` the test is never run. -/
theorem C30_disabled {c : Cfg K V W} (h0 : c.nfevStiff = 0) (s : St K V W) :
    diagnose c s = some (s, false) := by
  unfold diagnose; rw [if_pos h0]

/-! ## C31 -/

/-- **C31**. If `0 < nfev_stiff_detect < n_stages`, no `step()` that moves can succeed. -/
theorem C31_small_interval_never_succeeds {c : Cfg K V W} (h0 : 0 < c.nfevStiff)
    (h1 : c.nfevStiff < c.m.nStages) {fuel : ℕ} {v v' : Solver K V W}
    (hne : c.tb ≠ some v.st.t) : step c fuel v ≠ some (.ok, v') := by
  intro h
  obtain ⟨-, hi, -⟩ := step_ok_impl hne h
  unfold stepImpl at hi
  obtain ⟨k, ch, -, hl⟩ := loop_spec c _ _ _ _ _ _ _ hi
  rcases hl with ⟨_, h2, _⟩ | ⟨_, _, _, h2, _⟩ | ⟨x, _, _, _, _, h4⟩
  · cases h2
  · cases h2
  · rcases h4 with ⟨_, h5, _⟩ | ⟨f0, std, _, h6⟩
    · cases h5
    · rcases h6 with ⟨_, h7, _⟩ | ⟨b, h7, _⟩
      · cases h7
      · unfold diagnose at h7
        rw [if_neg (by omega)] at h7
        dsimp only at h7
        rw [if_pos (Nat.div_eq_of_lt h1)] at h7
        cases h7

/-- **C31**. With `nfev_stiff_detect = 0` or at least `n_stages`, `step()` never raises
`ZeroDivisionError`, in any state. -/
theorem C31_no_zero_division {c : Cfg K V W} (hc : StiffOK c.nfevStiff c.m) {fuel : ℕ}
    {v v' : Solver K V W} : step c fuel v ≠ some (.exc .zeroDiv, v') := by
  intro h
  rcases step_impl_or h with ⟨_, ⟨h1, _⟩ | h1⟩ | ⟨_, hi⟩
  · cases h1
  · cases h1
  · unfold stepImpl at hi
    obtain ⟨k, ch, -, hl⟩ := loop_spec c _ _ _ _ _ _ _ hi
    rcases hl with ⟨_, h2, _⟩ | ⟨_, _, _, h2, _⟩ | ⟨x, _, _, _, _, h4⟩
    · cases h2
    · cases h2
    · rcases h4 with ⟨_, h5, _⟩ | ⟨f0, std, _, h6⟩
      · cases h5
      · rcases h6 with ⟨h7, _, _⟩ | ⟨b, _, h8⟩
        · obtain ⟨s', b, h9, _⟩ := diagnose_some hc
            (acceptState c ch.last (c.m.trial ch.last.t ch.last.y ch.last.f (ch.hs k * c.dir) ch.last.Ks)
              (ch.hs k * c.dir)
              (ch.hs k * (if (false || decide (0 < k)) = true then min 1 f0 else f0)) x
              (if (false || decide (0 < k)) = true then min 1 f0 else f0) std)
          rw [h9] at h7; cases h7
        · cases h8

/-- The end of the retry loop when `many_steps = 0`. -/
theorem loop_raises {c : Cfg K V W} (hw : WorkFree c.m) (h0 : 0 < c.nfevStiff)
    (h1 : c.nfevStiff < c.m.nStages) (ms : K) :
    ∀ (fuel : ℕ) (s s' s2 : St K V W) (h : K) (rej : Bool), SameTraj s s' →
      loop (c.withStiff 0 c.stiffEvals) fuel s h ms rej = some (.ok, s2) →
      ∃ s3, loop c fuel s' h ms rej = some (.exc .zeroDiv, s3) ∧ s3.t = s2.t ∧ s3.y = s2.y := by
  intro fuel
  induction fuel with
  | zero => intro s s' s2 h rej _ hl; simp [loop] at hl
  | succ k ih =>
    intro s s' s2 h rej hs hl
    unfold loop at hl ⊢
    by_cases hlt : h < ms
    · simp only [hlt, if_true] at hl; cases hl
    simp only [hlt, if_false] at hl ⊢
    have em : (c.withStiff 0 c.stiffEvals).m = c.m := rfl
    have ed : (c.withStiff 0 c.stiffEvals).dir = c.dir := rfl
    have er : ∀ e, retryFactor (c.withStiff 0 c.stiffEvals) e = retryFactor c e :=
      fun e => by cases e <;> rfl
    simp only [em, ed, er, hs.t, hs.y, hs.f] at hl
    rw [hw.pre _ _ _ _ s.Ks s'.Ks, hw.err _ _ _ _ s.Ks s'.Ks] at hl
    cases hp : (c.m.trial s'.t s'.y s'.f (h * c.dir) s'.Ks).pre.gt 1 with
    | true =>
      simp only [hp, if_true] at hl ⊢
      refine ih _ _ _ _ _ ?_ hl
      exact ⟨rfl, rfl, rfl, hs.hAbs, hs.maxFactor, hs.stdSc, hs.hPrev, hs.errOld, hs.yOld, hs.fOld,
        by simp only [hs.nfs]⟩
    | false =>
      simp only [hp, Bool.false_eq_true, if_false] at hl ⊢
      cases he : (c.m.trial s'.t s'.y s'.f (h * c.dir) s'.Ks).err with
      | inf => simp only [he] at hl; cases hl
      | nan => simp only [he] at hl; cases hl
      | num x =>
        simp only [he] at hl ⊢
        by_cases hx : x < 1
        · simp only [hx, if_true] at hl ⊢
          have hs' : SameTraj s' { s with t := s'.t, y := s'.y, f := s'.f } :=
            ⟨rfl, rfl, rfl, hs.hAbs.symm, hs.maxFactor.symm, hs.stdSc.symm, hs.hPrev.symm,
              hs.errOld.symm, hs.yOld.symm, hs.fOld.symm, hs.nfs.symm⟩
          have hu : ({ s with t := s'.t, y := s'.y, f := s'.f } : St K V W) = s := by
            rw [← hs.t, ← hs.y, ← hs.f]
          rw [hu] at hs'
          have ea := acceptFactor_same (c := c) (n := 0) (ev := c.stiffEvals) hs' (h * c.dir) x
          rw [ea] at hl
          cases haf : acceptFactor c s' (h * c.dir) x with
          | none => simp only [haf] at hl; cases hl
          | some p =>
            obtain ⟨f0, std⟩ := p
            simp only [haf] at hl ⊢
            have hst := acceptState_same hw (n := 0) (ev := c.stiffEvals) hs' (h * c.dir)
              (h * (if rej = true then min 1 f0 else f0)) x (if rej = true then min 1 f0 else f0) std
            generalize acceptState c s' (c.m.trial s'.t s'.y s'.f (h * c.dir) s'.Ks) (h * c.dir)
              (h * (if rej = true then min 1 f0 else f0)) x (if rej = true then min 1 f0 else f0) std
              = s1 at hst ⊢
            generalize acceptState (c.withStiff 0 c.stiffEvals) s
              (c.m.trial s'.t s'.y s'.f (h * c.dir) s.Ks) (h * c.dir)
              (h * (if rej = true then min 1 f0 else f0)) x (if rej = true then min 1 f0 else f0) std
              = s4 at hst hl
            rw [C30_disabled (c := c.withStiff 0 c.stiffEvals) rfl] at hl
            simp only [Option.some.injEq, Prod.mk.injEq, true_and] at hl
            subst hl
            have hd : diagnose c s1 = none := by
              unfold diagnose
              rw [if_neg (by omega)]
              dsimp only
              rw [if_pos (Nat.div_eq_of_lt h1)]
            rw [hd]
            exact ⟨_, rfl, hst.t, hst.y⟩
        · simp only [hx, if_false] at hl ⊢
          refine ih _ _ _ _ _ ?_ hl
          exact ⟨rfl, rfl, rfl, hs.hAbs, hs.maxFactor, hs.stdSc, hs.hPrev, hs.errOld, hs.yOld,
            hs.fOld, by simp only [hs.nfs]⟩

/-- **C31** (finding F2). With `0 < nfev_stiff_detect < n_stages`, `step()` raises
`ZeroDivisionError` exactly in the situations in which it would succeed with stiffness detection
disabled; the solution is advanced nevertheless. -/
theorem C31_raises_when_step_would_succeed {c : Cfg K V W} (hw : WorkFree c.m) (h0 : 0 < c.nfevStiff)
    (h1 : c.nfevStiff < c.m.nStages) {fuel : ℕ} {v v' : Solver K V W}
    (hne : c.tb ≠ some v.st.t)
    (h : step (c.withStiff 0 c.stiffEvals) fuel v = some (.ok, v')) :
    ∃ w, step c fuel v = some (.exc .zeroDiv, w) ∧ w.st.t = v'.st.t ∧ w.st.y = v'.st.y := by
  obtain ⟨hrun, hi, -⟩ := step_ok_impl (c := c.withStiff 0 c.stiffEvals) hne h
  unfold stepImpl at hi
  have hre : reassess (c.withStiff 0 c.stiffEvals) v.st = reassess c v.st := reassess_same (.refl _)
  rw [hre] at hi
  obtain ⟨s3, h3, h4, h5⟩ := loop_raises hw h0 h1 _ _ _ _ _ _ _ (.refl _) hi
  refine ⟨{ v with st := s3 }, ?_, h4, h5⟩
  unfold step
  simp only [hrun, hne, if_false]
  have : stepImpl c fuel v.st = some (.exc .zeroDiv, s3) := h3
  rw [this]

/-! ## C28 -/

/-- Histories in which calls of `dense_output()` are mixed with calls of `step()`. A call of
`dense_output()` may evaluate `fun` and use the work array (see `Props/Dense.lean` for the actual
implementations); nothing else is written. -/
inductive RunD (c : Cfg K V W) (v0 : Solver K V W) : List Out → Solver K V W → Prop
  | nil : RunD c v0 [] v0
  | step {outs : List Out} {v v' : Solver K V W} {o : Out} {fuel : ℕ} :
      RunD c v0 outs v → step c fuel v = some (o, v') → RunD c v0 (o :: outs) v'
  | dense {outs : List Out} {v : Solver K V W} (Ks : ℕ → W) (e : ℕ) :
      RunD c v0 outs v →
      RunD c v0 outs { v with st := { v.st with Ks := Ks, nfev := v.st.nfev + e } }

/-- **C28**. Removing all `dense_output()` calls from a history changes neither the outcomes of the
`step()` calls nor the trajectory. -/
theorem C28_dense_output_harmless {c : Cfg K V W} (hw : WorkFree c.m)
    (hc : StiffOK c.nfevStiff c.m) {v0 v : Solver K V W} {outs : List Out} (hr : RunD c v0 outs v) :
    ∃ w, Run c v0 outs w ∧ SameSolver v w := by
  induction hr with
  | nil => exact ⟨v0, .nil, .refl _⟩
  | @step outs v v' o fuel hr hs ih =>
    obtain ⟨w, h1, h2⟩ := ih
    obtain ⟨w', h3, h4⟩ := step_same hw hc c.stiffEvals hc h2 hs
    exact ⟨w', .cons h1 h3, h4⟩
  | @dense outs v Ks e hr ih =>
    obtain ⟨w, h1, h2⟩ := ih
    exact ⟨w, h1, h2.status, h2.tOld, ⟨h2.st.t, h2.st.y, h2.st.f, h2.st.hAbs, h2.st.maxFactor,
      h2.st.stdSc, h2.st.hPrev, h2.st.errOld, h2.st.yOld, h2.st.fOld, h2.st.nfs⟩⟩

end

section
variable {K V : Type*} [Field K] [LinearOrder K] [AddCommGroup V] [Module K V]
open Finset

/-- In the Runge-Kutta classes the stage array is a work space, if the preliminary test (if any) reads
only stages that were computed. -/
theorem workFree_rk (T : Tableau K) (rhs : K → V → V) (errNorm : V → V → V → ENorm K) {P : PreTest K V}
    (hs : 0 < T.s)
    (hP : ∀ y h Ks Ks', (∀ i, i < T.s - 1 → Ks i = Ks' i) → P.norm y h Ks = P.norm y h Ks') :
    WorkFree (rkMethod T rhs errNorm P) := by
  have hst : ∀ (n : ℕ) (t : K) (y f : V) (h : K) (Ks Ks' : ℕ → V) (i : ℕ), i < n →
      rkStages T rhs t y h n (Function.update Ks 0 f) i =
      rkStages T rhs t y h n (Function.update Ks' 0 f) i :=
    fun n t y f h Ks Ks' i hi => rkStages_indep _ _ _ _ _ _ _ _ (by simp) _ hi
  have hy : ∀ (t : K) (y f : V) (h : K) (Ks Ks' : ℕ → V),
      (rkTrial T rhs errNorm t y f h Ks).yNew = (rkTrial T rhs errNorm t y f h Ks').yNew := by
    intro t y f h Ks Ks'
    simp only [rkTrial, rkSolution]
    congr 2
    exact sum_congr rfl fun i hi => by rw [hst _ _ _ _ _ Ks Ks' i (mem_range.mp hi)]
  have hk : ∀ (t : K) (y f : V) (h : K) (Ks Ks' : ℕ → V) (i : ℕ),
      i < T.s + (if T.fsal then 1 else 0) →
      (rkTrial T rhs errNorm t y f h Ks).stages i = (rkTrial T rhs errNorm t y f h Ks').stages i := by
    intro t y f h Ks Ks' i hi
    have hyy := hy t y f h Ks Ks'
    simp only [rkTrial] at hyy ⊢
    rw [hyy]
    split_ifs with hf
    · by_cases his : i = T.s
      · subst his; simp
      · rw [Function.update_of_ne his, Function.update_of_ne his]
        rw [if_pos hf] at hi
        exact hst _ _ _ _ _ _ _ _ (by omega)
    · rw [if_neg hf] at hi
      exact hst _ _ _ _ _ _ _ _ (by omega)
  refine ⟨hy, ?_, ?_, ?_⟩
  · intro t y f h Ks Ks'
    have hyy := hy t y f h Ks Ks'
    have e : ∀ Ks, ((rkMethod T rhs errNorm P).trial t y f h Ks).err =
      errNorm y (rkTrial T rhs errNorm t y f h Ks).yNew
        (rkError T h (rkTrial T rhs errNorm t y f h Ks).stages) := fun _ => rfl
    rw [e, e, hyy]
    congr 1
    unfold rkError
    congr 1
    exact sum_congr rfl fun i hi => by rw [hk t y f h Ks Ks' i (mem_range.mp hi)]
  · intro t y f h Ks Ks'
    simp only [rkMethod]
    split_ifs
    · exact hP _ _ _ _ fun i hi => hst _ _ _ _ _ _ _ _ hi
    · rfl
  · intro hf t y f h Ks Ks'
    have hf' : T.fsal = true := hf
    exact hk t y f h Ks Ks' T.s (by rw [if_pos hf']; omega)

theorem workFree_rk_none (T : Tableau K) (rhs : K → V → V) (errNorm : V → V → V → ENorm K)
    (hs : 0 < T.s) : WorkFree (rkMethod T rhs errNorm) :=
  workFree_rk T rhs errNorm hs fun _ _ _ _ _ => rfl

theorem workFree_linear (T : Tableau K) (rhs : K → V → V) (errNorm : V → V → V → ENorm K)
    (hs : 0 < T.s) (n : ℕ) (hn : n ≤ T.s - 1) (Bp Ep : ℕ → K) (cnt : ℕ) :
    WorkFree (rkMethod T rhs errNorm (PreTest.linear n Bp Ep errNorm cnt)) := by
  apply workFree_rk T rhs errNorm hs
  intro y h Ks Ks' hk
  simp only [PreTest.linear]
  have e : ∀ (a : ℕ → K), ∑ i ∈ range n, a i • Ks i = ∑ i ∈ range n, a i • Ks' i := fun a =>
    sum_congr rfl fun i hi => by rw [hk i (by have := mem_range.mp hi; omega)]
  rw [e, e]

/-- Instances: `BS5` and `CFMR7osc` satisfy the hypotheses of C28, C30, C31. -/
theorem workFree_bs5 (rhs : K → V → V) (errNorm : V → V → V → ENorm K) :
    WorkFree (bs5Method K rhs errNorm) :=
  workFree_linear _ _ _ (show 0 < 7 by decide) 6 (show 6 ≤ 7 - 1 by decide) _ _ _

theorem workFree_cfmr7osc (rhs : K → V → V) (errNorm : V → V → V → ENorm K) :
    WorkFree (cfmr7oscMethod K rhs errNorm) :=
  workFree_linear _ _ _ (show 0 < 9 by decide) 8 (show 8 ≤ 9 - 1 by decide) _ _ _

end

/-- C30/C31 are not vacuous: Merson's method has five stages; a step that succeeds with
`nfev_stiff_detect = 0` and `= 5` raises with `= 4`. -/
example :
    let c n := exCfg (fun _ y => -y) (scalarErr (1 / 1000) (1 / 1000)) (some 1) 1 none n
    let r n := (step (c n) 5 (newSolver (c n) 0 1 (1 / 2) 1 fun _ => 0)).map
      fun p => (p.1, p.2.st.t, p.2.status)
    r 0 = some (.ok, 1 / 2, .running) ∧ r 5 = some (.ok, 1 / 2, .running) ∧
    r 4 = some (.exc .zeroDiv, 1 / 2, .running) := by decide +kernel

/-! ## C09: the global failed step counter -/

section
variable {K V W : Type*} [Field K] [LinearOrder K] [IsStrictOrderedRing K]

/-- Specification: in a call of `step()` on `v`, exactly `k` attempts are rejected. The step sizes `hs`
of the attempts start with the assessed step size and follow the retry rule; the attempts before the
last one are rejected; the last one is below the minimal step (no attempt), or accepted, or has a
non-finite error norm (rejected too). -/
def RejectedAttempts (c : Cfg K V W) (v : Solver K V W) (k : ℕ) : Prop :=
  ∃ (j : ℕ) (ch : Chain c { v.st with stdSc := (reassess c v.st).2.2 } (reassess c v.st).1
      (reassess c v.st).2.1 j),
    let tr := c.m.trial v.st.t v.st.y v.st.f (ch.hs j * c.dir) (ch.Ks j)
    (k = j ∧ ch.hs j < (reassess c v.st).2.1) ∨
    ((reassess c v.st).2.1 ≤ ch.hs j ∧ tr.pre.gt 1 = false ∧
      ((k = j ∧ ∃ x, tr.err = .num x ∧ x < 1) ∨
       (k = j + 1 ∧ (tr.err = .inf ∨ tr.err = .nan))))

theorem Rejected.unique {tr : Trial K V W} {b b' : Bool} {e e' : ENorm K} (h : Rejected tr b e)
    (h' : Rejected tr b' e') : b = b' ∧ e = e' := by
  cases h with
  | early h =>
    cases h' with
    | early _ => exact ⟨rfl, rfl⟩
    | late h2 _ _ => rw [h] at h2; cases h2
  | late h he hx =>
    cases h' with
    | early h2 => rw [h] at h2; cases h2
    | late h2 he' _ => rw [he] at he'; cases he'; exact ⟨rfl, rfl⟩

theorem Chain.unique {c : Cfg K V W} {s : St K V W} {h0 ms : K} {j j' : ℕ} (ch : Chain c s h0 ms j)
    (ch' : Chain c s h0 ms j') (i : ℕ) (hi : i ≤ j) (hi' : i ≤ j') :
    ch.hs i = ch'.hs i ∧ ch.Ks i = ch'.Ks i := by
  induction i with
  | zero => exact ⟨by rw [ch.h_zero, ch'.h_zero], by rw [ch.Ks_zero, ch'.Ks_zero]⟩
  | succ i ih =>
    obtain ⟨e1, e2⟩ := ih (by omega) (by omega)
    obtain ⟨_, r1, a1, b1, _⟩ := ch.rejected i (by omega)
    obtain ⟨_, r2, a2, b2, _⟩ := ch'.rejected i (by omega)
    rw [← e1, ← e2] at r2
    obtain ⟨q1, q2⟩ := r1.unique r2
    refine ⟨by rw [a1, a2, e1, q2], ?_⟩
    rw [b1, b2, q1, e1, e2]

/-- The number of rejected attempts is determined by the state. -/
theorem RejectedAttempts.unique {c : Cfg K V W} {v : Solver K V W} {k k' : ℕ}
    (h : RejectedAttempts c v k) (h' : RejectedAttempts c v k') : k = k' := by
  obtain ⟨j, ch, hc⟩ := h
  obtain ⟨j', ch', hc'⟩ := h'
  -- an attempt that ends the call is not one that is retried
  have key : ∀ (a b : ℕ) (A : Chain c { v.st with stdSc := (reassess c v.st).2.2 }
      (reassess c v.st).1 (reassess c v.st).2.1 a) (B : Chain c
      { v.st with stdSc := (reassess c v.st).2.2 } (reassess c v.st).1 (reassess c v.st).2.1 b)
      (m : ℕ), a < b →
      ((m = a ∧ A.hs a < (reassess c v.st).2.1) ∨ ((reassess c v.st).2.1 ≤ A.hs a ∧
        (c.m.trial v.st.t v.st.y v.st.f (A.hs a * c.dir) (A.Ks a)).pre.gt 1 = false ∧
      ((m = a ∧ ∃ x, (c.m.trial v.st.t v.st.y v.st.f (A.hs a * c.dir) (A.Ks a)).err = .num x ∧ x < 1)
        ∨ (m = a + 1 ∧ ((c.m.trial v.st.t v.st.y v.st.f (A.hs a * c.dir) (A.Ks a)).err = .inf ∨
          (c.m.trial v.st.t v.st.y v.st.f (A.hs a * c.dir) (A.Ks a)).err = .nan))))) → False := by
    intro a b A B m hab hA
    obtain ⟨e1, e2⟩ := A.unique B a le_rfl hab.le
    obtain ⟨g1, g2, _⟩ := B.rejected a hab
    rw [← e1] at g1 g2
    rw [← e2] at g2
    rcases hA with ⟨_, h1⟩ | ⟨_, h2, h3⟩
    · exact absurd h1 (not_lt.mpr g1)
    · generalize B.early a = bb at g2
      generalize B.es a = ee at g2
      cases g2 with
      | early hh => rw [h2] at hh; cases hh
      | late hh he hx =>
        rcases h3 with ⟨_, x, h4, h5⟩ | ⟨_, h4 | h4⟩
        · rw [h4] at he; cases he; exact absurd h5 (not_lt.mpr hx)
        · rw [h4] at he; cases he
        · rw [h4] at he; cases he
  rcases Nat.lt_trichotomy j j' with hlt | heq | hgt
  · exact (key _ _ ch ch' k hlt hc).elim
  · subst heq
    obtain ⟨e1, e2⟩ := ch.unique ch' j le_rfl le_rfl
    dsimp only at hc hc'
    rw [← e1, ← e2] at hc'
    rcases hc with ⟨a, b⟩ | ⟨a, b, ⟨d, x, e, f⟩ | ⟨d, e⟩⟩ <;>
      rcases hc' with ⟨a', b'⟩ | ⟨a', b', ⟨d', x', e', f'⟩ | ⟨d', e'⟩⟩
    · omega
    · omega
    · exact absurd b (not_lt.mpr a')
    · omega
    · omega
    · rcases e' with e' | e' <;> rw [e'] at e <;> cases e
    · exact absurd b' (not_lt.mpr a)
    · rcases e with e | e <;> rw [e] at e' <;> cases e'
    · omega
  · exact (key _ _ ch' ch k' hgt hc').elim

/-- **C09**, one call: the counter grows by the number of rejected attempts of that call, whatever the
outcome (success, failure or exception). (`nfsOverflow = 1`: all classes but `BS5`.) -/
theorem C09_counter_one_step {c : Cfg K V W} (hcnt : c.m.nfsOverflow = 1) {fuel : ℕ}
    {v v' : Solver K V W} {o : Out} (hrun : v.status = .running) (hne : c.tb ≠ some v.st.t)
    (h : step c fuel v = some (o, v')) :
    ∃ k, RejectedAttempts c v k ∧ v'.st.nfs = v.st.nfs + k := by
  rcases step_impl_or h with ⟨_, ⟨_, h1⟩ | h1⟩ | ⟨_, hi⟩
  · exact absurd h1 hne
  · subst h1
    unfold step at h
    simp only [hrun, hne, if_false] at h
    cases hi : stepImpl c fuel v.st with
    | none => simp [hi] at h
    | some p =>
      obtain ⟨o1, s1⟩ := p
      cases o1 with
      | ok => simp [hi] at h
      | fail m => simp [hi] at h
      | exc e =>
        simp only [hi, Option.some.injEq, Prod.mk.injEq, Out.exc.injEq] at h
        obtain ⟨rfl, -⟩ := h
        unfold stepImpl at hi
        obtain ⟨k, ch, -, hl⟩ := loop_spec c _ _ _ _ _ _ _ hi
        rcases hl with ⟨_, h2, _⟩ | ⟨_, _, _, h2, _⟩ | ⟨x, _, _, _, _, h4⟩
        · cases h2
        · cases h2
        · rcases h4 with ⟨_, h5, _⟩ | ⟨f0, std, _, h6⟩
          · cases h5
          · rcases h6 with ⟨_, h7, _⟩ | ⟨b, _, h7⟩ <;> cases h7
  · unfold stepImpl at hi
    obtain ⟨k, ch, -, hl⟩ := loop_spec c _ _ _ _ _ _ _ hi
    rcases hl with ⟨h1, _, h3⟩ | ⟨h1, hp, he, _, h3⟩ | ⟨x, h1, hp, he, hx, h4⟩
    · exact ⟨k, ⟨k, ch, Or.inl ⟨rfl, h1⟩⟩, by rw [h3]; rfl⟩
    · refine ⟨k + 1, ⟨k, ch, Or.inr ⟨h1, hp, Or.inr ⟨rfl, he⟩⟩⟩, ?_⟩
      rw [h3]; simp only [Chain.last, hcnt]; omega
    · refine ⟨k, ⟨k, ch, Or.inr ⟨h1, hp, Or.inl ⟨rfl, x, he, hx⟩⟩⟩, ?_⟩
      rcases h4 with ⟨_, _, h6⟩ | ⟨f0, std, _, h6⟩
      · rw [h6]; rfl
      · rcases h6 with ⟨_, _, h7⟩ | ⟨b, h7, _⟩
        · rw [h7]; rfl
        · rw [diagnose_same h7]; rfl

/-- Several solvers of a program (identified by numbers) sharing the module-level counter `NFS`.
`cfg i`, `sol i`: configuration and object of solver `i`; `nfs`: value of the counter; `count`:
specification, the number of rejected attempts, over all solvers, since the last construction that
resets it. -/
inductive World (cfg : ℕ → Cfg K V W) : (ℕ → Solver K V W) → ℕ → ℕ → Prop
  /-- program start; the objects are arbitrary (they do not exist yet) -/
  | start (sol : ℕ → Solver K V W) : World cfg sol 0 0
  /-- constructing (or re-creating) solver `i` by a class that resets `NFS` -/
  | construct {sol : ℕ → Solver K V W} {nfs count : ℕ} (i : ℕ) (new : Solver K V W) :
      World cfg sol nfs count → World cfg (Function.update sol i new) 0 0
  /-- constructing by a class that does not reset `NFS` (`SWAG`) -/
  | constructKeep {sol : ℕ → Solver K V W} {nfs count : ℕ} (i : ℕ) (new : Solver K V W) :
      World cfg sol nfs count → World cfg (Function.update sol i new) nfs count
  /-- a `step()` of solver `i`: it finds and updates the shared counter -/
  | step {sol : ℕ → Solver K V W} {nfs count : ℕ} (i : ℕ) {fuel : ℕ} {o : Out}
      {v' : Solver K V W} (k : ℕ) :
      World cfg sol nfs count → (sol i).status = .running → (cfg i).tb ≠ some (sol i).st.t →
      Extensisq.step (cfg i) fuel { sol i with st := { (sol i).st with nfs := nfs } } = some (o, v') →
      RejectedAttempts (cfg i) (sol i) k →
      World cfg (Function.update sol i v') v'.st.nfs (count + k)

/-- The rejected attempts of a call do not depend on the value of the counter. -/
theorem RejectedAttempts.nfs_indep {c : Cfg K V W} {v : Solver K V W} (n : ℕ) {k : ℕ}
    (h : RejectedAttempts c { v with st := { v.st with nfs := n } } k) : RejectedAttempts c v k := by
  obtain ⟨j, ch, hc⟩ := h
  exact ⟨j, ⟨ch.hs, ch.Ks, ch.early, ch.es, ch.ns, ch.js, ch.h_zero, ch.Ks_zero, ch.ns_zero,
    ch.js_zero, ch.rejected⟩, hc⟩

/-- **C09**. In every program history, with any number of solvers and any interleaving, `NFS` is the
number of rejected attempts of all solvers since the last resetting construction. -/
theorem C09_counter_counts_rejections {cfg : ℕ → Cfg K V W} (hcnt : ∀ i, (cfg i).m.nfsOverflow = 1)
    {sol : ℕ → Solver K V W} {nfs count : ℕ} (h : World cfg sol nfs count) : nfs = count := by
  induction h with
  | start => rfl
  | construct => rfl
  | constructKeep i new h ih => exact ih
  | @step sol nfs count i fuel o v' k h hrun hne hs hk ih =>
    obtain ⟨k', hk', e⟩ := C09_counter_one_step (hcnt i) (v := { sol i with st := { (sol i).st with nfs := nfs } }) hrun hne hs
    have := (RejectedAttempts.nfs_indep nfs hk').unique hk
    subst this
    rw [e, ← ih]

end

/-- C09 is not vacuous: a history in which solver 0 makes two rejected attempts. -/
example : ∃ (cfg : ℕ → Cfg ℚ ℚ ℚ) (sol : ℕ → Solver ℚ ℚ ℚ), World cfg sol 2 2 ∧
    ∀ i, (cfg i).m.nfsOverflow = 1 := by
  let c := exCfg (fun _ y => -y) (scalarErr (1 / 10 ^ 5) (1 / 10 ^ 5)) (some (-5)) (-1) none 0
  let v0 := newSolver c 0 1 5 1 fun _ => 0
  have h1 : (step c 9 v0).map (fun p => p.2.st.nfs) = some 2 := by decide +kernel
  cases hs : step c 9 v0 with
  | none => rw [hs] at h1; cases h1
  | some p =>
    obtain ⟨o, v'⟩ := p
    rw [hs] at h1
    simp only [Option.map_some, Option.some.injEq] at h1
    have hne : c.tb ≠ some v0.st.t := by decide +kernel
    obtain ⟨k, hk, e⟩ := C09_counter_one_step (c := c) rfl (v := v0) rfl hne hs
    have hk2 : k = 2 := by rw [h1] at e; have : v0.st.nfs = 0 := rfl; omega
    subst hk2
    refine ⟨fun _ => c, Function.update (Function.update (fun _ => v0) 0 v0) 0 v', ?_, fun _ => rfl⟩
    have := World.step (cfg := fun _ => c) (sol := Function.update (fun _ => v0) 0 v0) (nfs := 0)
      (count := 0) 0 (o := o) (fuel := 9) (v' := v') 2
      (World.construct 0 v0 (World.start (fun _ => v0))) (by simp; rfl) (by simpa using hne)
      (by simp only [Function.update_self]; exact hs) (by simpa using hk)
    rw [h1] at this
    exact this

end Extensisq
