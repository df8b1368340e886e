import Verif.Lemmas.EsdirkInv

/-!
# Properties of the ESDIRK driver: C34, C35, C37, C64

A solver is "reachable" if it results from any number of `step()` calls on a newly made solver
(`newESolver`), for any right-hand side, Jacobian, norm values and Newton outcomes.
-/

set_option linter.unusedSectionVars false

namespace Extensisq
open Finset

section
variable {K V : Type*} [Field K] [LinearOrder K] [IsStrictOrderedRing K] [AddCommGroup V] [Module K V]
variable {c : ECfg K V}

/-- `v` is a solver made with first step `h0 > 0` at `t0`. -/
structure IsNew (v : ESolver K V) (t0 : K) (y0 yp0 : V) (J0 : V →ₗ[K] V) : Prop where
  new : ∃ h0 Ks0 nfev njev, 0 < h0 ∧ v = newESolver t0 y0 yp0 J0 h0 Ks0 nfev njev

theorem IsNew.inv {v : ESolver K V} {t0 : K} {y0 yp0 : V} {J0 : V →ₗ[K] V} (h : IsNew v t0 y0 yp0 J0) :
    VInv c v := by
  obtain ⟨h0, Ks0, nfev, njev, hh, rfl⟩ := h.new
  exact newESolver_inv c t0 y0 yp0 J0 hh Ks0 nfev njev

/-! ## Effect of a step on the time -/

theorem eIter_not_ok {ms : K} {l : LSt K V} {o : EOut} {s' : ESt K V} (h : eIter c ms l = .done o s')
    (ho : o ≠ .ok) : s'.t = l.s.t ∧ s'.y = l.s.y ∧ s'.yp = l.s.yp ∧ s'.yOld = l.s.yOld ∧
      s'.hPrev = l.s.hPrev ∧ s'.errOld = l.s.errOld := by
  rcases eIter_cases (c := c) ms l with ⟨h0, h'⟩ | ⟨hm, ⟨_, h'⟩ | ⟨a, ha, ⟨l1, hA, h'⟩ | ⟨_, _, _, h'⟩ |
    ⟨_, _, h'⟩ | ⟨_, _, _, _, ⟨_, h'⟩ | ⟨_, _, _, h'⟩⟩⟩⟩ <;> rw [h] at h' <;> cases h'
  · exact ⟨rfl, rfl, rfl, rfl, rfl, rfl⟩
  · simp
  · simp
  · simp
  · simp
  · exact absurd rfl ho

/-- Cases of a `step()` call that returns. -/
theorem eStep_cases {fuel : ℕ} {v v' : ESolver K V} {o : EOut} (h : eStep c fuel v = some (o, v')) :
    (v.status ≠ .running ∧ o = .exc .runtimeErr ∧ v' = v) ∨
    (v.status = .running ∧ c.tb = some v.st.t ∧ o = .ok ∧
      v' = { v with tOld := some v.st.t, status := .finished }) ∨
    (v.status = .running ∧ c.tb ≠ some v.st.t ∧ ∃ s', eStepImpl c fuel v.st = some (o, s') ∧ v'.st = s' ∧
      ((o = .ok ∧ v'.status = (if eReached c s'.t then .finished else .running) ∧ v'.tOld = some v.st.t) ∨
       (o = .tooSmall ∧ v'.status = .failed) ∨ (∃ e, o = .exc e ∧ v'.status = .running))) := by
  unfold eStep at h
  split at h
  · rename_i hrun
    split_ifs at h with ht
    · cases h
      exact Or.inr (Or.inl ⟨hrun, ht, rfl, rfl⟩)
    · right; right
      refine ⟨hrun, ht, ?_⟩
      split at h
      · cases h
      · rename_i s' hs
        cases h
        exact ⟨s', hs, rfl, Or.inl ⟨rfl, rfl, rfl⟩⟩
      · rename_i s' hs
        cases h
        exact ⟨s', hs, rfl, Or.inr (Or.inl ⟨rfl, rfl⟩)⟩
      · rename_i e s' hs
        cases h
        exact ⟨s', hs, rfl, Or.inr (Or.inr ⟨e, rfl, hrun⟩)⟩
  · rename_i hrun
    cases h
    exact Or.inl ⟨hrun, rfl, rfl⟩

/-- What is needed of a completed integration step. -/
theorem eStep_time (hc : ECfgOK c) {v v' : ESolver K V} (hi : VInv c v) {fuel : ℕ} {o : EOut}
    (h : eStep c fuel v = some (o, v')) :
    (v'.st.t = v.st.t ∧ v'.st.y = v.st.y ∧ (o ≠ .ok ∨ c.tb = some v.st.t)) ∨
    (o = .ok ∧ v.status = .running ∧ c.tb ≠ some v.st.t ∧ ∃ h', eMinStep c v.st.t v.st.hAbs ≤ h' ∧ 0 < h' ∧
      h' ≤ hFirst c v.st ∧ v'.st.t = v.st.t + h' * c.dir) := by
  rcases eStep_cases h with ⟨-, rfl, rfl⟩ | ⟨hr, ht, rfl, rfl⟩ | ⟨hr, ht, s', hs, rfl, -⟩
  · exact Or.inl ⟨rfl, rfl, Or.inl (by simp)⟩
  · exact Or.inl ⟨rfl, rfl, Or.inr ht⟩
  · rcases eStepImpl_visits hs with ⟨-, rfl, h2⟩ | ⟨l, hv, hit⟩
    · refine Or.inl ⟨?_, ?_, Or.inl (by simp)⟩ <;> rw [h2] <;> rfl
    · have hL := hv.inv hc (hi hr) ht
      by_cases ho : o = .ok
      · subst ho
        obtain ⟨hge, a, x, f0, std, ha, hcv, he, hx, hf, hs'⟩ := eIter_ok hit
        refine Or.inr ⟨rfl, hr, ht, l.hAbs, hge, hL.pos, hL.le, ?_⟩
        rw [hs', ← hL.t]
        show (s1Of c l).t + hOf c l = _
        rw [show (s1Of c l).t = l.s.t from factors_t _ _ _]
      · obtain ⟨h1, h2, -⟩ := eIter_not_ok hit ho
        exact Or.inl ⟨h1.trans hL.t, h2.trans hL.y, Or.inl ho⟩

theorem eDir_sq (hc : ECfgOK c) : c.dir * c.dir = 1 := by
  rcases hc.dir with h | h <;> rw [h] <;> norm_num

theorem eAbs_sub_dir (hc : ECfgOK c) {b t : K} (h : 0 ≤ c.dir * (b - t)) : |b - t| = c.dir * (b - t) := by
  rcases hc.dir with hd | hd <;> rw [hd] at h ⊢
  · rw [abs_of_nonneg (by linarith)]; ring
  · rw [abs_of_nonpos (by linarith)]; ring

/-! ## C34 -/

/-- **C34**. An ESDIRK solver never passes `t_bound` and never moves backwards, whatever the history; there
is no proviso on `max_step`. -/
theorem C34_never_past_t_bound (hc : ECfgOK c) {b : K} (hb : c.tb = some b) {v0 v : ESolver K V} {t0 : K}
    {y0 yp0 : V} {J0 : V →ₗ[K] V} (hn : IsNew v0 t0 y0 yp0 J0) (h0 : 0 ≤ c.dir * (b - v0.st.t))
    (hr : EReach c v0 v) : 0 ≤ c.dir * (v.st.t - v0.st.t) ∧ 0 ≤ c.dir * (b - v.st.t) := by
  induction hr with
  | refl => exact ⟨by simp, h0⟩
  | @tail v v' o fuel hr hs ho ih =>
    rcases eStep_time hc (hr.inv hc hn.inv) hs with ⟨h1, -⟩ | ⟨-, -, -, h', h1, hpos, h2, h3⟩
    · rw [h1]; exact ih
    · have hle : h' ≤ |b - v.st.t| := h2.trans (by
        show eFit c.tb v.st.t _ ≤ _
        rw [hb]; exact eFit_le_rest _ _ _)
      rw [eAbs_sub_dir hc ih.2] at hle
      have e1 : c.dir * (v'.st.t - v0.st.t) = c.dir * (v.st.t - v0.st.t) + h' := by
        rw [h3]; linear_combination h' * eDir_sq hc
      have e2 : c.dir * (b - v'.st.t) = c.dir * (b - v.st.t) - h' := by
        rw [h3]; linear_combination -h' * eDir_sq hc
      rw [e1, e2]
      exact ⟨by linarith [ih.1], by linarith⟩

/-- **C34**. A successful step (not already on `t_bound`) advances by at least the minimal step. -/
theorem C34_strict_advance (hc : ECfgOK c) {v0 v v' : ESolver K V} {t0 : K} {y0 yp0 : V} {J0 : V →ₗ[K] V}
    (hn : IsNew v0 t0 y0 yp0 J0) (hr : EReach c v0 v) {fuel : ℕ} (hne : c.tb ≠ some v.st.t)
    (h : eStep c fuel v = some (.ok, v')) :
    c.hMinB ≤ c.dir * (v'.st.t - v.st.t) ∧ 0 < c.dir * (v'.st.t - v.st.t) := by
  rcases eStep_time hc (hr.inv hc hn.inv) h with ⟨-, -, h2 | h2⟩ | ⟨-, -, -, h', h1, hpos, h2, h3⟩
  · exact absurd rfl h2
  · exact absurd h2 hne
  · have : c.dir * (v'.st.t - v.st.t) = h' := by rw [h3]; linear_combination h' * eDir_sq hc
    rw [this]
    exact ⟨(le_max_right _ _).trans h1, hpos⟩

/-- **C34**. A step is at most 1.01 times `max_step`. -/
theorem C34_max_step (hc : ECfgOK c) {m : K} (hm : c.maxStep = some m) {v0 v v' : ESolver K V} {t0 : K}
    {y0 yp0 : V} {J0 : V →ₗ[K] V} (hn : IsNew v0 t0 y0 yp0 J0) (hr : EReach c v0 v) {fuel : ℕ} {o : EOut}
    (h : eStep c fuel v = some (o, v')) : |v'.st.t - v.st.t| ≤ 101 / 100 * m := by
  have hm0 := hc.maxStep m hm
  rcases eStep_time hc (hr.inv hc hn.inv) h with ⟨h1, -⟩ | ⟨-, hrun, -, h', h1, hpos, h2, h3⟩
  · rw [h1, sub_self, abs_zero]; positivity
  · have e : |v'.st.t - v.st.t| = h' := by
      rw [h3]
      rcases hc.dir with hd | hd <;> rw [hd]
      · rw [show v.st.t + h' * 1 - v.st.t = h' by ring, abs_of_pos hpos]
      · rw [show v.st.t + h' * -1 - v.st.t = -h' by ring, abs_neg, abs_of_pos hpos]
    rw [e]
    have hcl := eClip_pos hc v.st.t ((hr.inv hc hn.inv) hrun).pos
    have hle := eClip_le (c := c) v.st.t v.st.hAbs hm
    have := eFit_le c.tb (t := v.st.t) hcl
    have h2' : h' ≤ eFit c.tb v.st.t (eClip c v.st.t v.st.hAbs) := h2
    linarith

/-- **C34**. A solver that started before `t_bound` has status "finished" exactly when it stands on `t_bound`
(after at least one successful step); so the integration ends exactly there. -/
theorem C34_finished_on_t_bound (hc : ECfgOK c) {b : K} (hb : c.tb = some b) {v0 v v' : ESolver K V} {t0 : K}
    {y0 yp0 : V} {J0 : V →ₗ[K] V} (hn : IsNew v0 t0 y0 yp0 J0) (h0 : 0 ≤ c.dir * (b - v0.st.t))
    (hr : EReach c v0 v) {fuel : ℕ} (h : eStep c fuel v = some (.ok, v')) :
    v'.status = .finished ↔ v'.st.t = b := by
  have hr' : EReach c v0 v' := .tail hr h (by simp)
  have hle := (C34_never_past_t_bound hc hb hn h0 hr').2
  rcases eStep_cases h with ⟨-, h2, -⟩ | ⟨_, ht, -, rfl⟩ | ⟨_, ht, s', hs, rfl, hcase⟩
  · cases h2
  · rw [hb] at ht
    cases ht
    simp
  · rcases hcase with ⟨-, hst, -⟩ | ⟨h2, -⟩ | ⟨e, h2, -⟩
    · rw [hst]
      unfold eReached
      rw [hb]
      dsimp only
      by_cases hd : 0 ≤ c.dir * (v'.st.t - b)
      · simp only [hd, decide_true, if_true, true_iff]
        have e : c.dir * (b - v'.st.t) = 0 := by
          have : c.dir * (b - v'.st.t) = -(c.dir * (v'.st.t - b)) := by ring
          linarith
        rcases mul_eq_zero.mp e with h1 | h1
        · rcases hc.dir with hd | hd <;> rw [hd] at h1 <;> norm_num at h1
        · linarith
      · simp only [hd, decide_false, Bool.false_eq_true, if_false, reduceCtorEq, false_iff]
        intro he
        rw [he] at hd
        simp at hd
    · cases h2
    · cases h2

/-- **C34**, and as for the explicit family: a step that does not succeed leaves time and solution as they
were; the status becomes "failed" if it was the step-size failure. -/
theorem C34_failed_step_keeps_solution (hc : ECfgOK c) {v0 v v' : ESolver K V} {t0 : K}
    {y0 yp0 : V} {J0 : V →ₗ[K] V} (hn : IsNew v0 t0 y0 yp0 J0) (hr : EReach c v0 v) {fuel : ℕ} {o : EOut}
    (h : eStep c fuel v = some (o, v')) (ho : o ≠ .ok) :
    v'.st.t = v.st.t ∧ v'.st.y = v.st.y ∧ (o = .tooSmall → v'.status = .failed) := by
  rcases eStep_time hc (hr.inv hc hn.inv) h with ⟨h1, h2, -⟩ | ⟨h1, -⟩
  · refine ⟨h1, h2, fun he => ?_⟩
    rcases eStep_cases h with ⟨-, h2, -⟩ | ⟨_, ht, h2, -⟩ | ⟨_, ht, s', hs, rfl, ⟨h2, -⟩ | ⟨_, h2⟩ | ⟨e, h2, -⟩⟩
    · rw [he] at h2; cases h2
    · rw [he] at h2; cases h2
    · rw [he] at h2; cases h2
    · exact h2
    · rw [he] at h2; cases h2
  · exact absurd h1 ho

/-! ## C35 -/

/-- The largest factor by which a repeated attempt is shorter. -/
def eShrink (c : ECfg K V) : K := max (max c.safety c.minFactor) (1 / 2)

theorem again_shrinks (hc : ECfgOK c) {s : ESt K V} {l l' : LSt K V} {a : Stages K V} (hL : LInv c s l)
    (hA : Again c l a l') :
    (l.s.curJ = false ∧ l'.s.curJ = true ∧ l'.hAbs = l.hAbs) ∨
    (l'.s.curJ = l.s.curJ ∧ l'.hAbs ≤ l.hAbs * eShrink c) := by
  have hp := hL.pos
  cases hA with
  | newJ hcv hJ hj => exact Or.inl ⟨hJ, rfl, rfl⟩
  | reduce hcv hJ =>
    refine Or.inr ⟨by simp, ?_⟩
    have := (newtonFactor_bounds a.rate).2
    exact mul_le_mul_of_nonneg_left (this.trans (le_max_right _ _)) hp.le
  | reject e hcv he hn h1 =>
    refine Or.inr ⟨by simp, ?_⟩
    exact mul_le_mul_of_nonneg_left ((eRejectFactor_le hc h1).trans (le_max_left _ _)) hp.le

theorem eLoop_ends (hc : ECfgOK c) {s : ESt K V} {ms : K} (hq : 0 ≤ eShrink c) :
    ∀ (n : ℕ) (l : LSt K V), LInv c s l → l.hAbs * eShrink c ^ n < ms →
      (l.s.curJ = true → eLoop c ms (n + 1) l ≠ none) ∧ eLoop c ms (n + 2) l ≠ none
  | 0, l, hL, hlt => by
    have h0 : l.hAbs < ms := by simpa using hlt
    have h1 : eIter c ms l = .done .tooSmall l.s := by unfold eIter; rw [if_pos h0]
    refine ⟨fun _ => ?_, ?_⟩ <;> unfold eLoop <;> rw [h1] <;> simp
  | n + 1, l, hL, hlt => by
    have next : ∀ l' a, attOf c l = some a → Again c l a l' → l'.s.curJ = l.s.curJ →
        l'.hAbs ≤ l.hAbs * eShrink c →
        (l'.s.curJ = true → eLoop c ms (n + 1) l' ≠ none) ∧ eLoop c ms (n + 2) l' ≠ none := by
      intro l' a ha hA _ hle
      refine eLoop_ends hc hq n l' (LInv_again hc hL ha hA) (lt_of_le_of_lt ?_ hlt)
      rw [pow_succ']
      calc l'.hAbs * eShrink c ^ n ≤ (l.hAbs * eShrink c) * eShrink c ^ n :=
            mul_le_mul_of_nonneg_right hle (pow_nonneg hq n)
        _ = _ := by ring
    have a1 : l.s.curJ = true → eLoop c ms (n + 1 + 1) l ≠ none := by
      intro hJ
      unfold eLoop
      cases hit : eIter c ms l with
      | done o s' => simp
      | again l' =>
        dsimp only
        obtain ⟨-, a, ha, hA⟩ := eIter_again hit
        rcases again_shrinks hc hL hA with ⟨h1, -⟩ | ⟨h1, h2⟩
        · rw [hJ] at h1; cases h1
        · exact (next l' a ha hA h1 h2).1 (h1.trans hJ)
    refine ⟨a1, ?_⟩
    unfold eLoop
    cases hit : eIter c ms l with
    | done o s' => simp
    | again l' =>
      dsimp only
      obtain ⟨-, a, ha, hA⟩ := eIter_again hit
      rcases again_shrinks hc hL hA with ⟨h1, h2, h3⟩ | ⟨h1, h2⟩
      · -- the next pass has a current Jacobian
        have hL' := LInv_again hc hL ha hA
        show eLoop c ms (n + 1 + 1) l' ≠ none
        unfold eLoop
        cases hit' : eIter c ms l' with
        | done o s' => simp
        | again l'' =>
          dsimp only
          obtain ⟨-, a', ha', hA'⟩ := eIter_again hit'
          rcases again_shrinks hc hL' hA' with ⟨g1, -⟩ | ⟨g1, g2⟩
          · rw [h2] at g1; cases g1
          · refine (eLoop_ends hc hq n l'' (LInv_again hc hL' ha' hA') (lt_of_le_of_lt ?_ hlt)).1 (g1.trans h2)
            rw [pow_succ']
            calc l''.hAbs * eShrink c ^ n ≤ (l'.hAbs * eShrink c) * eShrink c ^ n :=
                  mul_le_mul_of_nonneg_right g2 (pow_nonneg hq n)
              _ = _ := by rw [h3]; ring
      · exact (next l' a ha hA h1 h2).2

/-- **C35**. If `N` shortenings by the factor `max(g, min_factor, 1/2)` bring the first attempt below the
minimal step, then `step()` returns after at most `N + 2` attempts, for every pattern of Newton failures
and rejections (the one extra attempt is for a new Jacobian). -/
theorem C35_step_returns_within (hc : ECfgOK c) {v0 v : ESolver K V} {t0 : K} {y0 yp0 : V}
    {J0 : V →ₗ[K] V} (hn : IsNew v0 t0 y0 yp0 J0) (hr : EReach c v0 v) (N : ℕ)
    (hN : hFirst c v.st * eShrink c ^ N < eMinStep c v.st.t v.st.hAbs) : eStep c (N + 2) v ≠ none := by
  unfold eStep
  split
  · rename_i hrun
    split_ifs with ht
    · simp
    · have hi := (hr.inv hc hn.inv) hrun
      have hne : eStepImpl c (N + 2) v.st ≠ none := by
        obtain ⟨s2, hp, -⟩ := preemptive_spec hc hi (hFirst c v.st)
        have : eStepImpl c (N + 2) v.st = eLoop c (eMinStep c v.st.t v.st.hAbs) (N + 2)
            { s := s2, hAbs := hFirst c v.st, LU := s2.LU, sc := s2.sc, rej := false } := by
          unfold eStepImpl
          dsimp only
          change (match preemptive c (eEntry c v.st) (hFirst c v.st) with
            | none => some (EOut.exc .typeErr, eEntry c v.st)
            | some s2 => eLoop c (eMinStep c v.st.t v.st.hAbs) (N + 2)
                { s := s2, hAbs := hFirst c v.st, LU := s2.LU, sc := s2.sc, rej := false }) = _
          rw [hp]
        rw [this]
        have hq : 0 ≤ eShrink c := le_trans (by norm_num) (le_max_right _ _)
        exact (eLoop_ends hc hq N _ ((Visits.first hp).inv hc hi ht) hN).2
      split
      · rename_i hs; exact fun _ => hne hs
      · simp
      · simp
      · simp
  · simp

/-- **C35**. With a safety factor `g < 1`, `step()` on a reachable solver always returns. -/
theorem C35_step_returns [Archimedean K] (hc : ECfgOK c) (hg : c.safety < 1) {v0 v : ESolver K V} {t0 : K}
    {y0 yp0 : V} {J0 : V →ₗ[K] V} (hn : IsNew v0 t0 y0 yp0 J0) (hr : EReach c v0 v) :
    ∃ fuel, eStep c fuel v ≠ none := by
  have hq0 : 0 < eShrink c := lt_of_lt_of_le (by norm_num) (le_max_right _ _)
  have hq1 : eShrink c < 1 := max_lt (max_lt hg hc.minF1) (by norm_num)
  have hms := eMinStep_pos hc v.st.t v.st.hAbs
  by_cases hpos : 0 < hFirst c v.st
  · obtain ⟨N, hN⟩ := exists_pow_lt_of_lt_one (div_pos hms hpos) hq1
    refine ⟨N + 2, C35_step_returns_within hc hn hr N ?_⟩
    rw [lt_div_iff₀ hpos] at hN
    linarith
  · refine ⟨2, C35_step_returns_within hc hn hr 0 ?_⟩
    rw [pow_zero, mul_one]
    linarith

/-- **C35**. Inside one step the Jacobian is evaluated at most twice: at most once by the prediction before
the loop, and at most once in the loop, however many Newton failures there are. With
`jac_each_step` it is evaluated at most once. -/
theorem C35_jacobian_evaluations (hc : ECfgOK c) {v0 v v' : ESolver K V} {t0 : K} {y0 yp0 : V}
    {J0 : V →ₗ[K] V} (hn : IsNew v0 t0 y0 yp0 J0) (hr : EReach c v0 v) {fuel : ℕ} {o : EOut}
    (h : eStep c fuel v = some (o, v')) :
    v.st.njev ≤ v'.st.njev ∧ v'.st.njev ≤ v.st.njev + 2 ∧
      (c.jacEach = true → v'.st.njev ≤ v.st.njev + 1) := by
  rcases eStep_cases h with ⟨-, -, rfl⟩ | ⟨-, -, -, rfl⟩ | ⟨hrun, ht, s', hs, rfl, -⟩
  · refine ⟨by omega, by omega, fun _ => by omega⟩
  · refine ⟨le_refl _, Nat.le_add_right _ _, fun _ => Nat.le_add_right _ _⟩
  · have hi := (hr.inv hc hn.inv) hrun
    have key : ∀ l, Visits c v.st l → v.st.njev ≤ l.s.njev ∧ (l.s.curJ = false → l.s.njev ≤ v.st.njev + 1) ∧
        l.s.njev ≤ v.st.njev + 2 ∧
        (c.jacEach = true → (l.s.curJ = false ∧ l.s.njev = v.st.njev) ∨ (l.s.curJ = true ∧
          l.s.njev ≤ v.st.njev + 1)) := by
      intro l hv
      induction hv with
      | @first s2 hp =>
        obtain ⟨s2', h1, J, njev, curJ, LU, hs2, -, -, hcase, hje⟩ := preemptive_spec hc hi (hFirst c v.st)
        rw [hp] at h1
        cases h1
        subst hs2
        show v.st.njev ≤ njev ∧ (curJ = false → njev ≤ v.st.njev + 1) ∧ njev ≤ v.st.njev + 2 ∧
          (c.jacEach = true → (curJ = false ∧ njev = v.st.njev) ∨ (curJ = true ∧ njev ≤ v.st.njev + 1))
        rcases hcase with ⟨-, h2, h3⟩ | ⟨jac, -, -, h2⟩
        · refine ⟨by omega, fun _ => by omega, by omega, fun _ => ?_⟩
          cases hc1 : curJ
          · exact Or.inl ⟨rfl, h2⟩
          · exact Or.inr ⟨rfl, by omega⟩
        · exact ⟨by omega, fun _ => by omega, by omega, fun he => Or.inr ⟨hje (by omega) he, by omega⟩⟩
      | @next l l' hv hit ih =>
        obtain ⟨-, a, ha, hA⟩ := eIter_again hit
        obtain ⟨i1, i2, i3, i4⟩ := ih
        have same : l'.s.curJ = l.s.curJ → l'.s.njev = l.s.njev → v.st.njev ≤ l'.s.njev ∧
          (l'.s.curJ = false → l'.s.njev ≤ v.st.njev + 1) ∧ l'.s.njev ≤ v.st.njev + 2 ∧
          (c.jacEach = true → (l'.s.curJ = false ∧ l'.s.njev = v.st.njev) ∨ (l'.s.curJ = true ∧
            l'.s.njev ≤ v.st.njev + 1)) := by
          intro e1 e2; rw [e1, e2]; exact ⟨i1, i2, i3, i4⟩
        cases hA with
        | @newJ jac hcv hJ hj =>
          have := i2 hJ
          refine ⟨?_, ?_, ?_, ?_⟩
          · show v.st.njev ≤ l.s.njev + 1; omega
          · intro h; cases h
          · show l.s.njev + 1 ≤ _; omega
          · intro he
            rcases i4 he with ⟨-, h2⟩ | ⟨h1, -⟩
            · exact Or.inr ⟨rfl, by show l.s.njev + 1 ≤ _; omega⟩
            · rw [hJ] at h1; cases h1
        | reduce hcv hJ => exact same (by simp) (by simp)
        | reject e hcv he hn h1 => exact same (by simp) (by simp)
    rcases eStepImpl_visits hs with ⟨-, rfl, h2⟩ | ⟨l, hv, hit⟩
    · rw [h2]
      refine ⟨le_refl _, Nat.le_add_right _ _, fun _ => Nat.le_add_right _ _⟩
    · obtain ⟨i1, i2, i3, i4⟩ := key l hv
      have e : v'.st.njev = l.s.njev := by
        rcases eIter_cases (c := c) (eMinStep c v.st.t v.st.hAbs) l with ⟨h0, h'⟩ | ⟨hm, ⟨_, h'⟩ |
          ⟨a, ha, ⟨l1, hA, h'⟩ | ⟨_, _, _, h'⟩ | ⟨_, _, h'⟩ | ⟨_, _, _, _, ⟨_, h'⟩ | ⟨_, _, _, h'⟩⟩⟩⟩ <;>
          rw [hit] at h' <;> simp only [reduceCtorEq, Iter.done.injEq] at h' <;> rw [h'.2] <;>
          simp [eAccept]
      rw [e]
      exact ⟨i1, i3, fun he => by rcases i4 he with ⟨-, h⟩ | ⟨-, h⟩ <;> omega⟩

/-! ## C37 -/

/-- The matrix `M - h d J` of the factors is regular. -/
def Regular (c : ECfg K V) (h : K) (J : V →ₗ[K] V) : Prop :=
  Function.Surjective fun x => c.M x - (h * c.T.d) • J x

/-- `lin` solves the regular linear systems: with factors made from `(h, J)` and the scaling made for the same step
it returns the solution `x` of `(M - h d J) x = b` (`common.py:2035-2043`: for a DAE both sides are multiplied by
the same invertible matrix `Sc`, which depends on the step; otherwise `Sc` is the identity). Nothing is
assumed about singular matrices, or about factors used with a scaling made for another step. -/
def LinSolves (c : ECfg K V) : Prop :=
  ∀ (F : Fact K V), Regular c F.h F.J → ∀ b : V, c.M (c.lin (if c.dae then some F.h else none) F b) -
    (F.h * c.T.d) • F.J (c.lin (if c.dae then some F.h else none) F b) = b

/-- The matrix of the factors recorded in a state (if there are any) is regular. -/
def RegularAt (c : ECfg K V) (s : ESt K V) : Prop := ∀ h, s.hLU = some h → Regular c h s.J

/-- **C37**. In every attempt of every step of every history, the linear systems solved in the Newton
iterations (and in the error filter) are those of `M - h_LU d J`, where `J` is the Jacobian stored in the solver
at that moment and `h_LU` the recorded, non-zero, step size (if that matrix is regular): factors of an older Jacobian or a scaling of
another step are never used. In linear mode, `h_LU` is the current step. -/
theorem C37_factors_current (hc : ECfgOK c) (hlin : LinSolves c) {v0 v : ESolver K V} {t0 : K} {y0 yp0 : V}
    {J0 : V →ₗ[K] V} (hn : IsNew v0 t0 y0 yp0 J0) (hr : EReach c v0 v) (hrun : v.status = .running)
    (ht : c.tb ≠ some v.st.t) {l : LSt K V} (hl : Visits c v.st l) :
    ∃ hLU, (s1Of c l).hLU = some hLU ∧ hLU ≠ 0 ∧ (c.jac = none → hLU = l.hAbs * c.dir) ∧
      (Regular c hLU (s1Of c l).J → ∀ b, c.M (c.lin (scOf c l) (factOf c l) b) -
        (hLU * c.T.d) • (s1Of c l).J (c.lin (scOf c l) (factOf c l) b) = b) := by
  obtain ⟨f1, f2, f3, f4, f5, f6⟩ := factors_coherent hc (hl.inv hc ((hr.inv hc hn.inv) hrun) ht)
  refine ⟨(factOf c l).h, f2, f3, f6, fun hreg b => ?_⟩
  have e : (s1Of c l).J = (factOf c l).J := by rw [f1]; exact factors_J _ _ _
  have e2 : scOf c l = if c.dae then some (factOf c l).h else none := by
    cases hd : c.dae
    · simpa using f5 hd
    · simpa using f4 hd
  rw [e] at hreg ⊢
  rw [e2]
  exact hlin (factOf c l) hreg b

/-- The flag `current_J` is truthful in a state: the stored Jacobian is the one of the present `(t, y)`. -/
def JTrue (jac : ℕ → K → V → (V →ₗ[K] V)) (t0 : K) (y0 : V) (J0 : V →ₗ[K] V) (s : ESt K V) : Prop :=
  s.curJ = true → (s.J = J0 ∧ s.t = t0 ∧ s.y = y0) ∨ ∃ k, s.J = jac k s.t s.y

theorem Visits.jtrue (hc : ECfgOK c) {s : ESt K V} (hi : SInv c s) (ht : c.tb ≠ some s.t)
    {jac : ℕ → K → V → (V →ₗ[K] V)} (hj : c.jac = some jac) {t0 : K} {y0 : V} {J0 : V →ₗ[K] V}
    (h0 : JTrue jac t0 y0 J0 s) {l : LSt K V} (hl : Visits c s l) : JTrue jac t0 y0 J0 l.s := by
  induction hl with
  | @first s2 hp =>
    obtain ⟨s2', h1, J, njev, curJ, LU, hs2, -, -, hcase, -⟩ := preemptive_spec hc hi (hFirst c s)
    rw [hp] at h1
    cases h1
    subst hs2
    rcases hcase with ⟨rfl, h2, rfl⟩ | ⟨jac', hj', h1, h2⟩
    · exact h0
    · rw [hj] at hj'
      cases hj'
      exact fun _ => Or.inr ⟨s.njev, h1⟩
  | @next l l' hv hit ih =>
    have hL := hv.inv hc hi ht
    obtain ⟨-, a, ha, hA⟩ := eIter_again hit
    cases hA with
    | @newJ jac' hcv hJ hj' =>
      rw [hj] at hj'
      cases hj'
      exact fun _ => Or.inr ⟨l.s.njev, by simp⟩
    | reduce hcv hJ => unfold JTrue at ih ⊢; simpa using ih
    | reject e hcv he hn h1 => unfold JTrue at ih ⊢; simpa using ih

/-- **C37**. The flag `current_J`, which decides between a new Jacobian and a shorter step after a Newton
failure, is truthful in every attempt of every history: if it is set, the stored Jacobian is that of the
present time and solution (the initial one before the first accepted step). -/
theorem C37_current_flag (hc : ECfgOK c) {jac : ℕ → K → V → (V →ₗ[K] V)} (hj : c.jac = some jac)
    {v0 v : ESolver K V} {t0 : K} {y0 yp0 : V} {J0 : V →ₗ[K] V} (hn : IsNew v0 t0 y0 yp0 J0)
    (hr : EReach c v0 v) (hrun : v.status = .running) (ht : c.tb ≠ some v.st.t) {l : LSt K V}
    (hl : Visits c v.st l) (hcur : l.s.curJ = true) :
    (l.s.J = J0 ∧ v.st.t = t0 ∧ v.st.y = y0) ∨ ∃ k, l.s.J = jac k v.st.t v.st.y := by
  have main : v.status = .running → JTrue jac t0 y0 J0 v.st := by
    clear hl hcur hrun ht
    induction hr with
    | refl =>
      obtain ⟨h0, Ks0, nfev, njev, hh, rfl⟩ := hn.new
      exact fun _ _ => Or.inl ⟨rfl, rfl, rfl⟩
    | @tail v v' o fuel hr hs ho ih =>
      intro hrun'
      rcases eStep_cases hs with ⟨h1, -, rfl⟩ | ⟨-, -, -, rfl⟩ | ⟨hrun, ht, s', hs, rfl, hcase⟩
      · exact absurd hrun' h1
      · cases hrun'
      · rcases hcase with ⟨rfl, -⟩ | ⟨-, h2⟩ | ⟨e, rfl, -⟩
        · rcases eStepImpl_visits hs with ⟨-, h2, -⟩ | ⟨l, hv, hit⟩
          · cases h2
          · obtain ⟨hge, a, x, f0, std, ha, hcv, he, hx, hf, hs'⟩ := eIter_ok hit
            intro hcur
            rw [hs'] at hcur
            have : c.linear = true := hcur
            simp [ECfg.linear, hj] at this
        · rw [h2] at hrun'; cases hrun'
        · exact absurd (by rw [eStepImpl_exc hc ((hr.inv hc hn.inv) hrun) ht hs]) ho
  have hi := (hr.inv hc hn.inv) hrun
  have hL := hl.inv hc hi ht
  have := (hl.jtrue hc hi ht hj (main hrun)) hcur
  rw [hL.t, hL.y] at this
  exact this

/-! ## C64: the controller -/

/-- **C64**. In every history of `step()` calls an ESDIRK solver raises no exception of its own (no missing
attribute, no `None` in arithmetic, no failing assertion, no call of a missing Jacobian function), except the
one caused by a nan error norm; and `RuntimeError` if it is not running. -/
theorem C64_no_exception (hc : ECfgOK c) {v0 v v' : ESolver K V} {t0 : K} {y0 yp0 : V} {J0 : V →ₗ[K] V}
    (hn : IsNew v0 t0 y0 yp0 J0) (hr : EReach c v0 v) {fuel : ℕ} {e : EExc}
    (h : eStep c fuel v = some (.exc e, v')) : e = .nanErr ∨ (e = .runtimeErr ∧ v.status ≠ .running) := by
  rcases eStep_cases h with ⟨h1, h2, -⟩ | ⟨-, -, h2, -⟩ | ⟨hrun, ht, s', hs, -, -⟩
  · cases h2; exact Or.inr ⟨rfl, h1⟩
  · cases h2
  · exact Or.inl (eStepImpl_exc hc ((hr.inv hc hn.inv) hrun) ht hs)

/-- **C64**. A step of an ESDIRK solver is accepted only with an error norm below one, and the next step size
lies between `min(g, min_factor)` and ten times the step taken (four times once a factor below four has been
seen, `max_factor`); after a repeated attempt with a shorter step it does not grow. -/
theorem C64_step_size_limits (hc : ECfgOK c) {v0 v v' : ESolver K V} {t0 : K} {y0 yp0 : V} {J0 : V →ₗ[K] V}
    (hn : IsNew v0 t0 y0 yp0 J0) (hr : EReach c v0 v) {fuel : ℕ} (ht : c.tb ≠ some v.st.t)
    (h : eStep c fuel v = some (.ok, v')) :
    ∃ h x, v'.st.t = v.st.t + h * c.dir ∧ 0 < h ∧ v'.st.errOld = some x ∧ x < 1 ∧
      min c.safety c.minFactor * h ≤ v'.st.hAbs ∧ v'.st.hAbs ≤ 10 * h ∧
      (h < hFirst c v.st → v'.st.hAbs ≤ h) ∧
      (v.st.maxFactor = 4 → v'.st.hAbs ≤ 4 * h) ∧
      (v'.st.maxFactor = 4 ∨ (v'.st.maxFactor = 10 ∧ 4 * h ≤ v'.st.hAbs)) := by
  rcases eStep_cases h with ⟨-, h2, -⟩ | ⟨-, h2, -⟩ | ⟨hrun, -, s', hs, rfl, -⟩
  · cases h2
  · exact absurd h2 ht
  have hi := (hr.inv hc hn.inv) hrun
  rcases eStepImpl_visits hs with ⟨-, h2, -⟩ | ⟨l, hv, hit⟩
  · cases h2
  have hL := hv.inv hc hi ht
  obtain ⟨hge, a, x, f0, std, ha, hcv, he, hx, hf, hs'⟩ := eIter_ok hit
  obtain ⟨f, sd, g1, g2, g3, g4, g5⟩ := eAcceptFactor_some hc hL a x
  rw [hf] at g1
  cases g1
  have hp := hL.pos
  have hsm : min c.safety c.minFactor ≤ 1 := (min_le_left _ _).trans hc.safety1
  have e1 : v'.st.hAbs = l.hAbs * (if l.rej then min 1 f0 else f0) := by rw [hs']; rfl
  have hup : (if l.rej then min 1 f0 else f0) ≤ f0 := by
    split_ifs
    · exact min_le_right _ _
    · exact le_refl _
  have hlo : min c.safety c.minFactor ≤ (if l.rej then min 1 f0 else f0) := by
    split_ifs
    · exact le_min hsm (g5 hx)
    · exact g5 hx
  have hm10 : l.s.maxFactor ≤ 10 := by rcases hL.mf with h | h <;> rw [h]; norm_num
  refine ⟨l.hAbs, x, ?_, hp, ?_, hx, ?_, ?_, ?_, ?_, ?_⟩
  · rw [hs', ← hL.t]
    show (s1Of c l).t + hOf c l = _
    rw [show (s1Of c l).t = l.s.t from factors_t _ _ _]
  · rw [hs']; rfl
  · rw [e1, mul_comm]; exact mul_le_mul_of_nonneg_left hlo hp.le
  · rw [e1, mul_comm]; exact mul_le_mul_of_nonneg_right (hup.trans (g3.trans hm10)) hp.le
  · intro hlt
    have hrej : l.rej = true := by
      cases hr : l.rej
      · rw [hL.rejF hr] at hlt; exact absurd hlt (lt_irrefl _)
      · rfl
    rw [e1, hrej]
    have : min 1 f0 ≤ 1 := min_le_left _ _
    simp only [if_true]
    nlinarith
  · intro h4
    rw [e1, mul_comm]
    refine mul_le_mul_of_nonneg_right (hup.trans (g3.trans ?_)) hp.le
    rw [hL.mf4 h4]
  · have e2 : v'.st.maxFactor = newMaxFactor l.s (if l.rej then min 1 f0 else f0) := by rw [hs']; rfl
    rw [e2, e1]
    unfold newMaxFactor
    by_cases hlt : (if l.rej then min 1 f0 else f0) < (MAX_FACTOR : K)
    · rw [if_pos hlt]; exact Or.inl rfl
    · rw [if_neg hlt]
      rcases hL.mf with h | h
      · exact Or.inl h
      · refine Or.inr ⟨h, ?_⟩
        rw [mul_comm]
        exact mul_le_mul_of_nonneg_left (not_lt.mp hlt) hp.le

end
end Extensisq
