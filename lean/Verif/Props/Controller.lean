import Verif.Props.DriverMore
import Verif.Props.Validate
import Verif.Model.Example

/-!
# C73: the step size controller; history attributes (C57), average step and test frequency (C31),
direction (C02)
-/

set_option linter.unusedSectionVars false

namespace Extensisq

section
variable {K V W : Type*} [Field K] [LinearOrder K] [IsStrictOrderedRing K]

/-- Specification of the controllers: factor for error norm `x`, previous error norm `xOld`, ratio `r` of the
step to the previous one, exponents `b1, b2, a` and limits. -/
def secondOrderFactor (pw : K → K → K) (g b1 b2 a lo hi x xOld r : K) : K :=
  min hi (max lo (g * (pw x b1 * pw xOld b2 * pw r a)))

/-- What is known after a successful moving step with signed length `h` and error norm `x`. -/
structure StepLaw (c : Cfg K V W) (v v' : Solver K V W) (h x : K) : Prop where
  time : v'.st.t = v.st.t + h
  tOld : v'.tOld = some v.st.t
  hPrev : v'.st.hPrev = some h
  errOld : v'.st.errOld = some x
  yOld : v'.st.yOld = some v.st.y
  err : ∃ Ks, (c.m.trial v.st.t v.st.y v.st.f h Ks).err = .num x
  accepted : x < 1
  /-- exact next step: full factor without rejections, at most the same step otherwise -/
  next : ∃ f, v'.st.hAbs = |h| * (if v'.st.nfs = v.st.nfs then f else min 1 f) ∧
    (x < c.tinyErr → f = v.st.maxFactor ∧ v'.st.stdSc = true) ∧
    (c.tinyErr ≤ x → v'.st.stdSc = false ∧
      ((reassess c v.st).2.2 = true → f = c.safety * c.pw x c.errExp) ∧
      ((reassess c v.st).2.2 = false → ∃ hp eo, v.st.hPrev = some hp ∧ v.st.errOld = some eo ∧
        f = secondOrderFactor c.pw c.safetySc c.minbeta1 c.minbeta2 c.minalpha c.minFactor v.st.maxFactor
          x eo (h / hp)))

/-- **C73**. Every successful moving step proposes the next step by the controller formula. -/
theorem C73_step_law {c : Cfg K V W} (hc : CfgOK c) {fuel : ℕ} {v v' : Solver K V W}
    (hne : c.tb ≠ some v.st.t) (h : step c fuel v = some (.ok, v')) : ∃ h x, StepLaw c v v' h x := by
  obtain ⟨-, hi, hto⟩ := step_ok_impl hne h
  rcases stepImpl_effect hi with ⟨k, Ks, e, j, ho, hs⟩ | ⟨k, ch, x, f0, std, s1, hmin, hpre, herr, hx, haf, hs1, ho⟩
  · rcases ho with h | h | h <;> cases h
  rcases ho with ⟨_, b, hd⟩ | ⟨h, _⟩
  swap
  · cases h
  have hpos : 0 < ch.hs k := lt_of_lt_of_le (minStep_pos hc _ _) hmin
  have habs : |ch.hs k * c.dir| = ch.hs k := by
    rcases hc.dir with hh | hh <;> rw [hh] <;> simp [abs_of_pos hpos]
  have e3 : v'.st.hAbs = ch.hs k * (if 0 < k then min 1 f0 else f0) := by rw [diagnose_same hd, hs1]; rfl
  have e4 : v'.st.nfs = v.st.nfs + k := by rw [diagnose_same hd, hs1]; rfl
  have e6 : v'.st.stdSc = std := by rw [diagnose_same hd, hs1]; rfl
  refine ⟨ch.hs k * c.dir, x, by rw [diagnose_same hd, hs1]; rfl, hto, by rw [diagnose_same hd, hs1]; rfl,
    by rw [diagnose_same hd, hs1]; rfl, by rw [diagnose_same hd, hs1]; rfl, ⟨_, herr⟩, hx, f0, ?_, ?_, ?_⟩
  · rw [e3, habs, e4]
    by_cases hk : 0 < k
    · rw [if_pos hk, if_neg (by omega)]
    · rw [if_neg hk, if_pos (by omega)]
  · intro hxt
    unfold acceptFactor at haf
    simp only [hxt, if_true, Option.some.injEq, Prod.mk.injEq] at haf
    exact ⟨haf.1.symm, by rw [e6, ← haf.2]⟩
  · intro hxt
    unfold acceptFactor at haf
    rw [if_neg (not_lt.mpr hxt)] at haf
    rcases Bool.eq_false_or_eq_true (reassess c v.st).2.2 with hr | hr
    · rw [if_pos (show ch.last.stdSc = true from hr)] at haf
      simp only [Option.some.injEq, Prod.mk.injEq] at haf
      exact ⟨by rw [e6, ← haf.2], fun _ => haf.1.symm, (fun h => by rw [hr] at h; cases h)⟩
    · have hr' : ¬ ch.last.stdSc = true := fun h => by
        have : (reassess c v.st).2.2 = true := h
        rw [hr] at this; cases this
      rw [if_neg hr'] at haf
      have h1 : ch.last.hPrev = v.st.hPrev := rfl
      have h2 : ch.last.errOld = v.st.errOld := rfl
      rw [h1, h2] at haf
      split at haf
      · rename_i hp eo q1 q2
        simp only [Option.some.injEq, Prod.mk.injEq] at haf
        refine ⟨by rw [e6, ← haf.2], (fun h => by rw [hr] at h; cases h), fun _ => ⟨hp, eo, q1, q2, ?_⟩⟩
        rw [← haf.1]; rfl
      · cases haf

/-- The step is left alone by the assessment at the start of a call. -/
def Undisturbed (c : Cfg K V W) (s : St K V W) : Prop :=
  minStepOf c s.t s.hAbs ≤ s.hAbs ∧ (∀ m, c.maxStep = some m → s.hAbs ≤ m) ∧
  ∀ b, c.tb = some b → 2 * s.hAbs ≤ |b - s.t|

theorem Undisturbed.reassess {c : Cfg K V W} {s : St K V W} (h : Undisturbed c s) :
    reassess c s = (s.hAbs, minStepOf c s.t s.hAbs, s.stdSc) := by
  obtain ⟨h1, h2, h3⟩ := h
  have hm : overMax c.maxStep s.hAbs = false := by
    unfold overMax
    cases hm : c.maxStep with
    | none => rfl
    | some m => simp [h2 m hm]
  unfold Extensisq.reassess
  simp only [not_lt.mpr h1, hm, decide_false, Bool.or_false, Bool.false_eq_true, if_false]
  cases hb : c.tb with
  | none => rfl
  | some b =>
    dsimp only
    rw [if_neg (not_lt.mpr (h3 b hb))]

/-- **C73**. Two successive successful steps of lengths `h1`, `h2` with error norms `x1`, `x2` (not tiny), the
second one undisturbed and without rejections: the proposed step is `|h2|` times the second order factor,
computed from both error norms and the ratio of the steps. -/
theorem C73_second_order {c : Cfg K V W} (hc : CfgOK c) {fu1 fu2 : ℕ} {v0 v1 v2 : Solver K V W}
    (hne0 : c.tb ≠ some v0.st.t) (hne1 : c.tb ≠ some v1.st.t) (hs1 : step c fu1 v0 = some (.ok, v1))
    (hs2 : step c fu2 v1 = some (.ok, v2)) (hu : Undisturbed c v1.st) (hrej : v2.st.nfs = v1.st.nfs) :
    ∃ x1 x2 Ks1 Ks2,
      (c.m.trial v0.st.t v0.st.y v0.st.f (v1.st.t - v0.st.t) Ks1).err = .num x1 ∧
      (c.m.trial v1.st.t v1.st.y v1.st.f (v2.st.t - v1.st.t) Ks2).err = .num x2 ∧
      (c.tinyErr ≤ x1 → c.tinyErr ≤ x2 →
        v2.st.hAbs = |v2.st.t - v1.st.t| * secondOrderFactor c.pw c.safetySc c.minbeta1 c.minbeta2 c.minalpha
          c.minFactor v1.st.maxFactor x2 x1 ((v2.st.t - v1.st.t) / (v1.st.t - v0.st.t))) := by
  obtain ⟨h1, x1, l1⟩ := C73_step_law hc hne0 hs1
  obtain ⟨h2, x2, l2⟩ := C73_step_law hc hne1 hs2
  obtain ⟨K1, e1⟩ := l1.err
  obtain ⟨K2, e2⟩ := l2.err
  have d1 : v1.st.t - v0.st.t = h1 := by rw [l1.time]; ring
  have d2 : v2.st.t - v1.st.t = h2 := by rw [l2.time]; ring
  refine ⟨x1, x2, K1, K2, by rw [d1]; exact e1, by rw [d2]; exact e2, ?_⟩
  intro ht1 ht2
  obtain ⟨f1, -, -, n1⟩ := l1.next
  obtain ⟨f2, m2, -, n2⟩ := l2.next
  have hstd : (reassess c v1.st).2.2 = false := by rw [hu.reassess]; exact (n1 ht1).1
  obtain ⟨hp, eo, q1, q2, q3⟩ := (n2 ht2).2.2 hstd
  rw [l1.hPrev] at q1
  rw [l1.errOld] at q2
  cases q1
  cases q2
  rw [m2, if_pos hrej, q3, d1, d2]

/-- **C73**. The first step of a solver uses the standard controller, whatever `sc_params` says: its proposal is
`safety * |h| * err ** error_exponent`. -/
theorem C73_first_step {c : Cfg K V W} (hc : CfgOK c) {fuel : ℕ} {t0 : K} {y0 : V} {h0 : K} {e0 : ℕ}
    {Ks0 : ℕ → W} {v : Solver K V W} (hne : c.tb ≠ some t0)
    (h : step c fuel (newSolver c t0 y0 h0 e0 Ks0) = some (.ok, v)) :
    ∃ x Ks, (c.m.trial t0 y0 (c.m.rhs t0 y0) (v.st.t - t0) Ks).err = .num x ∧ (c.tinyErr ≤ x →
      v.st.hAbs = |v.st.t - t0| * (if v.st.nfs = 0 then c.safety * c.pw x c.errExp else
        min 1 (c.safety * c.pw x c.errExp))) := by
  obtain ⟨hh, x, l⟩ := C73_step_law hc hne h
  obtain ⟨Ks, e⟩ := l.err
  have d : v.st.t - t0 = hh := by
    have := l.time
    simp only [newSolver] at this
    rw [this]; ring
  refine ⟨x, Ks, by rw [d]; exact e, ?_⟩
  intro ht
  obtain ⟨f, m, -, n⟩ := l.next
  have hstd : (reassess c (newSolver c t0 y0 h0 e0 Ks0).st).2.2 = true := by
    by_contra hcon
    have := reassess_std_false (eq_false_of_ne_true hcon)
    simp [newSolver] at this
  have q := (n ht).2.1 hstd
  rw [m, q, d]
  rfl

end

/-! ## Set point -/

/-- **C73**. Standard controller: if the error norm behaves like `C h^(q+1)` (`q` the order of the embedded
method, `error_exponent = -1/(q+1)`), the proposed step has the error norm `safety^(q+1) < 1`, whatever the
present error. -/
theorem C73_standard_aims_at_safety (q : ℕ) {C h g : ℝ} (hC : 0 < C) (hh : 0 < h) (hg : 0 < g) :
    C * (h * (g * (C * h ^ (q + 1)) ^ (-1 / ((q : ℝ) + 1)))) ^ (q + 1) = g ^ (q + 1) := by
  have hq : ((q : ℝ) + 1) ≠ 0 := by positivity
  have hx : 0 < C * h ^ (q + 1) := by positivity
  have e : ((C * h ^ (q + 1)) ^ (-1 / ((q : ℝ) + 1))) ^ (q + 1) = (C * h ^ (q + 1))⁻¹ := by
    rw [← Real.rpow_natCast, ← Real.rpow_mul hx.le]
    push_cast
    rw [div_mul_cancel₀ _ hq, Real.rpow_neg_one]
  rw [mul_pow, mul_pow, e]
  field_simp

/-- **C73**. Second order controllers `(kb1, kb2, a, g)` with `kb1 + kb2 ≠ 0`, set up as by `_init_sc_control`
(`minbeta_i = kb_i * error_exponent`, `safety_sc = g ** (kb1 + kb2)`): a constant step and error norm is kept
exactly if the error norm is `g^(q+1)`, the same set point as that of the standard controller. -/
theorem C73_set_point (q : ℕ) {kb1 kb2 a g x : ℝ} (hk : kb1 + kb2 ≠ 0) (hg : 0 < g) (hx : 0 < x) :
    g ^ (kb1 + kb2) * (x ^ (kb1 * (-1 / ((q : ℝ) + 1))) * x ^ (kb2 * (-1 / ((q : ℝ) + 1))) * (1 : ℝ) ^ (-a)) = 1 ↔
      x = g ^ (q + 1) := by
  have hq : (0 : ℝ) < (q : ℝ) + 1 := by positivity
  rw [Real.one_rpow, mul_one, ← Real.rpow_add hx, ← add_mul]
  have hl : ∀ u v : ℝ, 0 < u → 0 < v → (u = v ↔ Real.log u = Real.log v) :=
    fun u v hu hv => ⟨fun h => by rw [h], fun h => Real.log_injOn_pos hu hv h⟩
  rw [hl _ _ (by positivity) one_pos, hl _ _ hx (by positivity), Real.log_one,
    Real.log_mul (by positivity) (by positivity), Real.log_rpow hg, Real.log_rpow hx, Real.log_pow]
  push_cast
  constructor
  · intro h
    have h1 : (kb1 + kb2) * (Real.log g - Real.log x / ((q : ℝ) + 1)) = 0 := by
      rw [← h]; field_simp; ring
    have h2 := (mul_eq_zero.mp h1).resolve_left hk
    have h3 : Real.log x / ((q : ℝ) + 1) = Real.log g := by linarith
    rw [div_eq_iff hq.ne'] at h3
    linarith
  · intro h
    rw [h]; field_simp; ring

/-- **C13/C73**. The predefined controllers of the Runge-Kutta classes. -/
theorem C13_predefined_values {K : Type*} [Field K] [LinearOrder K] [IsStrictOrderedRing K] (pw : K → K → K)
    (e : K) (d : ScArg K) :
    initScControl coefsRK pw e d (.str "G") =
      some ⟨7 / 10 * e, -4 / 10 * e, 0, 9 / 10, pw (9 / 10) (3 / 10)⟩ ∧
    initScControl coefsRK pw e d (.str "S") =
      some ⟨6 / 10 * e, -2 / 10 * e, 0, 9 / 10, pw (9 / 10) (4 / 10)⟩ ∧
    initScControl coefsRK pw e d (.str "standard") = some ⟨e, 0, 0, 9 / 10, pw (9 / 10) 1⟩ ∧
    initScControl coefsESDIRK pw e d (.str "G") = some ⟨2 * e, -1 * e, 1, 8 / 10, pw (8 / 10) 1⟩ ∧
    initScControl coefsESDIRK pw e d (.str "S") =
      some ⟨11 / 10 * e, -7 / 10 * e, 1, 8 / 10, pw (8 / 10) (4 / 10)⟩ ∧
    initScControl coefsESDIRK pw e d (.str "standard") = some ⟨e, 0, 0, 8 / 10, pw (8 / 10) 1⟩ := by
  have h1 : (7 / 10 + -4 / 10 : K) = 3 / 10 := by norm_num
  have h2 : (6 / 10 + -2 / 10 : K) = 4 / 10 := by norm_num
  have h3 : (2 + -1 : K) = 1 := by norm_num
  have h4 : (11 / 10 + -7 / 10 : K) = 4 / 10 := by norm_num
  refine ⟨?_, ?_, ?_, ?_, ?_, ?_⟩ <;>
    simp [initScControl, ScArg.truthy, scSelect, coefsRK, coefsESDIRK, h1, h2, h3, h4]

section
variable {K V W : Type*} [Field K] [LinearOrder K] [IsStrictOrderedRing K]

/-! ## C57: attributes of the previous step -/

/-- **C57**. From a new solver (with `t0 ≠ t_bound`): either no step has succeeded, the time is `t0` and
`t_old`, `h_previous`, `y_old` and `error_norm_old` do not exist; or they exist, `h_previous = t - t_old`, and
`error_norm_old < 1`. (`StiffOK`: otherwise a step moves but raises, see C31.) -/
theorem C57_history_attributes {c : Cfg K V W} (hc : CfgOK c) (hst : StiffOK c.nfevStiff c.m) {t0 : K} {y0 : V}
    {h0 : K} {e0 : ℕ} {Ks0 : ℕ → W} (ht : c.tb ≠ some t0) {v : Solver K V W}
    (hr : Reach c (newSolver c t0 y0 h0 e0 Ks0) v) :
    (v.tOld = none ∧ v.st.t = t0 ∧ v.st.y = y0 ∧ v.st.hPrev = none ∧ v.st.yOld = none ∧ v.st.errOld = none) ∨
    (∃ tp yo x, v.tOld = some tp ∧ v.st.hPrev = some (v.st.t - tp) ∧ v.st.yOld = some yo ∧
      v.st.errOld = some x ∧ x < 1 ∧ tp ≠ v.st.t) := by
  suffices H : ((v.tOld = none ∧ v.st.t = t0 ∧ v.st.y = y0 ∧ v.st.hPrev = none ∧ v.st.yOld = none ∧
      v.st.errOld = none) ∨
    (∃ tp yo x, v.tOld = some tp ∧ v.st.hPrev = some (v.st.t - tp) ∧ v.st.yOld = some yo ∧
      v.st.errOld = some x ∧ x < 1 ∧ tp ≠ v.st.t)) ∧ (v.status = .running → c.tb ≠ some v.st.t) from H.1
  induction hr with
  | refl => exact ⟨Or.inl ⟨rfl, rfl, rfl, rfl, rfl, rfl⟩, fun _ => ht⟩
  | @tail v v' o fuel hr hs ih =>
    obtain ⟨ih, ihr⟩ := ih
    cases hrun : v.status with
    | running =>
      have hne := ihr hrun
      unfold step at hs
      simp only [hrun, hne, if_false] at hs
      cases hi : stepImpl c fuel v.st with
      | none => simp [hi] at hs
      | some p =>
        obtain ⟨o1, s1⟩ := p
        cases o1 with
        | ok =>
          have hs' : step c fuel v = some (.ok, v') := by
            simp only [hi, Option.some.injEq, Prod.mk.injEq] at hs
            unfold step
            simp only [hrun, hne, if_false, hi]
            rw [hs.2]
          obtain ⟨h, x, l⟩ := C73_step_law hc hne hs'
          have hadv := C02_strict_advance hc hne hs'
          refine ⟨Or.inr ⟨v.st.t, v.st.y, x, l.tOld, ?_, l.yOld, l.errOld, l.accepted, ?_⟩, ?_⟩
          · rw [l.hPrev, l.time]; congr 1; ring
          · intro heq
            rw [← heq] at hadv
            simp at hadv
          · intro hr'
            simp only [hi, Option.some.injEq, Prod.mk.injEq] at hs
            rw [← hs.2] at hr' ⊢
            dsimp only at hr' ⊢
            intro hb
            have : reached c s1.t = true := by
              unfold reached; rw [hb]; simp
            rw [this] at hr'
            simp at hr'
        | fail m =>
          simp only [hi, Option.some.injEq, Prod.mk.injEq] at hs
          rcases stepImpl_effect hi with ⟨k, Ks, e, j, ho, hss⟩ |
            ⟨k, ch, x, f0, std, s2, hmin, hpre, herr, hx, haf, hs1, ho⟩
          · rw [← hs.2, hss]
            exact ⟨ih, (fun h => by cases h)⟩
          · rcases ho with ⟨h, _⟩ | ⟨h, _⟩ <;> cases h
        | exc ex =>
          simp only [hi, Option.some.injEq, Prod.mk.injEq] at hs
          rcases stepImpl_effect hi with ⟨k, Ks, e, j, ho, hss⟩ |
            ⟨k, ch, x, f0, std, s2, hmin, hpre, herr, hx, haf, hs1, ho⟩
          · rw [← hs.2, hss]
            exact ⟨ih, fun _ => hne⟩
          · rcases ho with ⟨h, _⟩ | ⟨h, h2, _⟩
            · cases h
            · obtain ⟨s', b, h9, _⟩ := diagnose_some hst s2
              rw [h9] at h2; cases h2
    | finished =>
      unfold step at hs
      simp only [hrun, Option.some.injEq, Prod.mk.injEq] at hs
      rw [← hs.2]
      exact ⟨ih, (fun h => by rw [hrun] at h; cases h)⟩
    | failed =>
      unfold step at hs
      simp only [hrun, Option.some.injEq, Prod.mk.injEq] at hs
      rw [← hs.2]
      exact ⟨ih, (fun h => by rw [hrun] at h; cases h)⟩

/-! ## C02: direction -/

/-- **C02**. The direction points from `t0` to `t_bound` (and is 1 if they coincide). -/
theorem C02_direction (t0 b : K) : (direction t0 b = 1 ∨ direction t0 b = -1) ∧
    direction t0 b * (b - t0) = |b - t0| ∧ (b = t0 → direction t0 b = 1) := by
  unfold direction
  split_ifs with h1 h2
  · simp [h1]
  · exact ⟨Or.inl rfl, by rw [one_mul, abs_of_pos (sub_pos.mpr h2)], fun h => absurd h h1⟩
  · refine ⟨Or.inr rfl, ?_, fun h => absurd h h1⟩
    rw [abs_of_nonpos (by linarith [not_lt.mp h2])]; ring

/-! ## C31: average step, frequency of the test -/

/-- Effect of the book-keeping on the counters, for a successful moving step with detection enabled. -/
theorem diagnose_counters {c : Cfg K V W} (h0 : c.nfevStiff ≠ 0) {fuel : ℕ} {v v' : Solver K V W}
    (hc : CfgOK c) (hne : c.tb ≠ some v.st.t) (h : step c fuel v = some (.ok, v')) :
    v'.st.okstp = v.st.okstp + 1 ∧
    v'.st.havg = (if v.st.okstp + 1 = 20 then v'.st.t - v.st.t
      else 9 / 10 * v.st.havg + 1 / 10 * (v'.st.t - v.st.t)) ∧
    v.st.nfevTest ≤ v'.st.nfevTest ∧
    ((v.st.okstp + 1) % (c.nfevStiff / c.m.nStages) = c.nfevStiff / c.m.nStages - 1 →
      v'.st.nfevTest = v.st.nfevTest + c.stiffEvals v'.st.t v'.st.y) := by
  obtain ⟨hh, x, l⟩ := C73_step_law hc hne h
  obtain ⟨-, hi, -⟩ := step_ok_impl hne h
  rcases stepImpl_effect hi with ⟨k, Ks, e, j, ho, hs⟩ | ⟨k, ch, x', f0, std, s1, hmin, hpre, herr, hx, haf, hs1, ho⟩
  · rcases ho with h | h | h <;> cases h
  rcases ho with ⟨_, b, hd⟩ | ⟨h, _⟩
  swap
  · cases h
  have g1 : s1.okstp = v.st.okstp := by rw [hs1]; rfl
  have g2 : s1.havg = v.st.havg := by rw [hs1]; rfl
  have g3 : s1.nfevTest = v.st.nfevTest := by rw [hs1]; rfl
  have g4 : s1.hPrev = some hh := by
    rw [← l.hPrev, diagnose_same hd]
  have hd' : v'.st.t - v.st.t = hh := by rw [l.time]; ring
  unfold diagnose at hd
  rw [if_neg h0] at hd
  dsimp only at hd
  by_cases hm : c.nfevStiff / c.m.nStages = 0
  · rw [if_pos hm] at hd; cases hd
  rw [if_neg hm] at hd
  simp only [Option.some.injEq, Prod.mk.injEq] at hd
  obtain ⟨hd, -⟩ := hd
  rw [hd', ← hd]
  dsimp only
  rw [g1, g2, g3, g4, Option.getD_some]
  refine ⟨rfl, rfl, Nat.le_add_right _ _, ?_⟩
  intro hmod
  rw [hmod]
  simp

/-- Histories of successful steps whose signed lengths lie in an interval. -/
inductive RunIn (c : Cfg K V W) (lo hi : K) (v0 : Solver K V W) : ℕ → Solver K V W → Prop
  | nil : RunIn c lo hi v0 0 v0
  | step {n : ℕ} {v v' : Solver K V W} {fuel : ℕ} : RunIn c lo hi v0 n v → c.tb ≠ some v.st.t →
      Extensisq.step c fuel v = some (.ok, v') → lo ≤ v'.st.t - v.st.t → v'.st.t - v.st.t ≤ hi →
      RunIn c lo hi v0 (n + 1) v'

/-- **C31**. The average step used by the stiffness test is an average: after twenty or more successful steps
with lengths in `[lo, hi]` it lies in `[lo, hi]`. -/
theorem C31_average_step {c : Cfg K V W} (hc : CfgOK c) (h0 : c.nfevStiff ≠ 0) {t0 : K} {y0 : V} {hf : K}
    {e0 : ℕ} {Ks0 : ℕ → W} {lo hi : K} {n : ℕ} {v : Solver K V W}
    (hr : RunIn c lo hi (newSolver c t0 y0 hf e0 Ks0) n v) :
    v.st.okstp = n ∧ (20 ≤ n → lo ≤ v.st.havg ∧ v.st.havg ≤ hi) := by
  induction hr with
  | nil => exact ⟨rfl, fun h => by omega⟩
  | @step n v v' fuel hr hne hs h1 h2 ih =>
    obtain ⟨e1, e2, -, -⟩ := diagnose_counters h0 hc hne hs
    refine ⟨by rw [e1, ih.1], fun hn => ?_⟩
    rw [e2, ih.1]
    split_ifs with h20
    · exact ⟨h1, h2⟩
    · obtain ⟨a, b⟩ := ih.2 (by omega)
      constructor <;> linarith

/-- **C31**. The test is run regularly: after `n` successful steps it was run at least
`n / many` times up to one, where `many = nfev_stiff_detect // n_stages`; each run makes at least `e`
evaluations. -/
theorem C31_test_frequency {c : Cfg K V W} (hc : CfgOK c) (h0 : c.nfevStiff ≠ 0)
    (hm : c.m.nStages ≤ c.nfevStiff) (hs : 0 < c.m.nStages) {e : ℕ} (he : ∀ t y, e ≤ c.stiffEvals t y)
    {t0 : K} {y0 : V} {hf : K} {e0 : ℕ} {Ks0 : ℕ → W} {lo hi : K} {n : ℕ} {v : Solver K V W}
    (hr : RunIn c lo hi (newSolver c t0 y0 hf e0 Ks0) n v) :
    e * (n / (c.nfevStiff / c.m.nStages)) ≤ v.st.nfevTest := by
  set m := c.nfevStiff / c.m.nStages with hmdef
  have hm0 : 0 < m := Nat.div_pos hm hs
  suffices H : e * ((n + 1) / m - 1 / m) ≤ v.st.nfevTest by
    refine le_trans (Nat.mul_le_mul_left e ?_) H
    by_cases h1 : m = 1
    · rw [h1]; simp
    · have : 1 / m = 0 := Nat.div_eq_of_lt (by omega)
      rw [this, Nat.sub_zero]
      exact Nat.div_le_div_right (by omega)
  induction hr with
  | nil => simp
  | @step n v v' fuel hr hne hstep h1 h2 ih =>
    obtain ⟨-, -, e3, e4⟩ := diagnose_counters h0 hc hne hstep
    have hok := (C31_average_step hc h0 hr).1
    rw [hok] at e4
    by_cases hmod : (n + 1) % m = m - 1
    · rw [e4 hmod]
      have h5 : (n + 1 + 1) / m ≤ (n + 1) / m + 1 := by
        calc (n + 1 + 1) / m ≤ (n + 1 + m) / m := Nat.div_le_div_right (by omega)
          _ = (n + 1) / m + 1 := Nat.add_div_right _ hm0
      have h6 := he v'.st.t v'.st.y
      calc e * ((n + 1 + 1) / m - 1 / m) ≤ e * (((n + 1) / m - 1 / m) + 1) :=
            Nat.mul_le_mul_left e (by omega)
        _ = e * ((n + 1) / m - 1 / m) + e := by ring
        _ ≤ _ := by omega
    · have h5 : (n + 1 + 1) / m = (n + 1) / m := by
        have h7 := Nat.mod_lt (n + 1) hm0
        have h8 := Nat.div_add_mod (n + 1) m
        rw [Nat.div_eq_iff hm0]
        constructor
        · rw [mul_comm]; omega
        · rw [mul_comm]; omega
      rw [h5]
      omega

end

/-- Two successive steps of Merson's method for `y' = -y` from `0` to `8`, hypotheses of C73 checked. -/
def exTwoSteps : Bool :=
  let c := exCfg (fun _ y => -y) (scalarErr (1 / 40000) (1 / 40000)) (some 8) 1 none 5
  let v0 := newSolver c 0 1 (1 / 2) 1 fun _ => 0
  match step c 5 v0 with
  | some (.ok, v1) =>
    (match step c 5 v1 with
    | some (.ok, v2) =>
      decide (v1.st.stdSc = false ∧ 2 * v1.st.hAbs ≤ |8 - v1.st.t| ∧
        minStepOf c v1.st.t v1.st.hAbs ≤ v1.st.hAbs ∧ v2.st.nfs = v1.st.nfs ∧
        v1.st.okstp = 1 ∧ v2.st.okstp = 2 ∧ v0.st.t < v1.st.t ∧ v1.st.t < v2.st.t ∧
        v2.st.hPrev = some (v2.st.t - v1.st.t))
    | _ => false)
  | _ => false

/-- C73, C31, C57: the hypotheses are met by two undisturbed successful steps. -/
example : exTwoSteps = true := by decide +kernel

end Extensisq
