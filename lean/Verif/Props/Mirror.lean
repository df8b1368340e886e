import Verif.Props.UnitsTime

/-!
# C131: Nystrom methods: integrating backwards is the mirror image of integrating forwards

The Nystrom methods, and whole runs for C17 (Runge-Kutta methods with or without the early error test). The problem reflected in time, `t' = -t`, is integrated in
the other direction with the same step sizes, solution values, rejections, outcomes and counters. There is no proviso.
-/

set_option linter.unusedSectionVars false

namespace Extensisq
open Finset

section
variable {K V W V' W' : Type*} [Field K] [LinearOrder K] [IsStrictOrderedRing K]

/-- The mirror image of a state: times and signed steps change sign, the step size does not. -/
def St.reflect (φ : V → V') (ψ : W → W') (s : St K V W) : St K V' W' where
  t := -1 * s.t
  y := φ s.y
  f := ψ s.f
  hAbs := s.hAbs
  maxFactor := s.maxFactor
  stdSc := s.stdSc
  hPrev := s.hPrev.map fun h => -1 * h
  errOld := s.errOld
  yOld := s.yOld.map φ
  fOld := s.fOld.map ψ
  Ks := fun i => ψ (s.Ks i)
  nfev := s.nfev
  nfevTest := s.nfevTest
  nfs := s.nfs
  jflstp := s.jflstp
  okstp := s.okstp
  havg := -1 * s.havg

/-- The mirror image of a solver. -/
def Solver.reflect (φ : V → V') (ψ : W → W') (v : Solver K V W) : Solver K V' W' where
  status := v.status
  tOld := v.tOld.map fun t => -1 * t
  st := v.st.reflect φ ψ

/-- The options: `t_bound` is reflected and the direction is the other one, everything else is the same. -/
structure ReflectOptions (φ : V → V') (c : Cfg K V W) (c' : Cfg K V' W') : Prop where
  tb : c'.tb = c.tb.map fun b => -1 * b
  maxStep : c'.maxStep = c.maxStep
  dir : c'.dir = -1 * c.dir
  hMinA : c'.hMinA = c.hMinA
  hMinB : c'.hMinB = c.hMinB
  tinyErr : c'.tinyErr = c.tinyErr
  minFactor : c'.minFactor = c.minFactor
  errExp : c'.errExp = c.errExp
  minbeta1 : c'.minbeta1 = c.minbeta1
  minbeta2 : c'.minbeta2 = c.minbeta2
  minalpha : c'.minalpha = c.minalpha
  safety : c'.safety = c.safety
  safetySc : c'.safetySc = c.safetySc
  pw : c'.pw = c.pw
  nfevStiff : c'.nfevStiff = c.nfevStiff
  stiffEvals : ∀ t y, c'.stiffEvals (-1 * t) (φ y) = c.stiffEvals t y

variable {φ : V → V'} {ψ : W → W'} {c : Cfg K V W} {c' : Cfg K V' W'}

theorem minStep_reflect (hc : ReflectOptions φ c c') (t h : K) : minStepOf c' (-1 * t) h = minStepOf c t h := by
  unfold minStepOf
  rw [hc.hMinA, hc.hMinB, neg_one_mul, abs_neg]

theorem reassess_reflect (hc : ReflectOptions φ c c') (s : St K V W) : reassess c' (s.reflect φ ψ) = reassess c s := by
  unfold reassess
  dsimp only
  rw [show (s.reflect φ ψ).t = -1 * s.t from rfl, show (s.reflect φ ψ).hAbs = s.hAbs from rfl,
    show (s.reflect φ ψ).stdSc = s.stdSc from rfl, minStep_reflect hc, hc.maxStep, hc.tb]
  cases c.tb with
  | none => rfl
  | some b =>
    dsimp only [Option.map_some]
    rw [← mul_sub, neg_one_mul, abs_neg]

theorem acceptFactor_reflect (hc : ReflectOptions φ c c') (s : St K V W) (h x : K) :
    acceptFactor c' (s.reflect φ ψ) (-1 * h) x = acceptFactor c s h x := by
  unfold acceptFactor
  simp only [St.reflect, hc.tinyErr, hc.safety, hc.pw, hc.errExp, hc.safetySc, hc.minbeta1, hc.minbeta2, hc.minalpha, hc.minFactor]
  cases s.hPrev with
  | none => rfl
  | some hp =>
    dsimp only [Option.map_some]
    cases s.errOld with
    | none => rfl
    | some eo => dsimp only; rw [mul_div_mul_left _ _ (neg_ne_zero.2 one_ne_zero)]

theorem retryFactor_reflect (hc : ReflectOptions φ c c') (e : ENorm K) : retryFactor c' e = retryFactor c e := by
  cases e <;> simp only [retryFactor, hc.minFactor, hc.safety, hc.pw, hc.errExp]

theorem diagnose_reflect (hc : ReflectOptions φ c c') (hm : c'.m.nStages = c.m.nStages) (s : St K V W) :
    diagnose c' (s.reflect φ ψ) = (diagnose c s).map fun p => (p.1.reflect φ ψ, p.2) := by
  unfold diagnose
  simp only [hc.nfevStiff, hm]
  by_cases h0 : c.nfevStiff = 0
  · simp only [h0, if_true, Option.map_some]
  · simp only [h0, if_false]
    by_cases h1 : c.nfevStiff / c.m.nStages = 0
    · simp only [h1, if_true, Option.map_none]
    · simp only [h1, if_false, Option.map_some]
      simp only [St.reflect, hc.stiffEvals, Option.some.injEq, Prod.mk.injEq, St.mk.injEq]
      repeat' first | exact havg_clock (-1) (s.okstp + 1 = 20) s.havg s.hPrev | rfl | constructor

theorem diagnoseRaise_reflect (s : St K V W) : diagnoseRaise (s.reflect φ ψ) = (diagnoseRaise s).reflect φ ψ := by
  unfold diagnoseRaise
  simp only [St.reflect, St.mk.injEq]
  repeat' first | exact havg_clock (-1) (s.okstp + 1 = 20) s.havg s.hPrev | rfl | constructor

theorem acceptState_reflect (hm : ClockMethod (-1) φ ψ c.m c'.m) (s : St K V W) (h hn x fac : K) (std : Bool) :
    acceptState c' (s.reflect φ ψ) (c'.m.trial (-1 * s.t) (φ s.y) (ψ s.f) (-1 * h) fun i => ψ (s.Ks i)) (-1 * h) hn x fac std =
    (acceptState c s (c.m.trial s.t s.y s.f h s.Ks) h hn x fac std).reflect φ ψ := by
  have e2 : (if c.m.fsal = true then fun i => ψ ((c.m.trial s.t s.y s.f h s.Ks).stages i)
      else Function.update (fun i => ψ ((c.m.trial s.t s.y s.f h s.Ks).stages i)) c.m.nStages
        (ψ (c.m.rhs (s.t + h) (c.m.trial s.t s.y s.f h s.Ks).yNew))) =
      fun i => ψ ((if c.m.fsal = true then (c.m.trial s.t s.y s.f h s.Ks).stages
      else Function.update (c.m.trial s.t s.y s.f h s.Ks).stages c.m.nStages
        (c.m.rhs (s.t + h) (c.m.trial s.t s.y s.f h s.Ks).yNew)) i) := by
    split_ifs
    · rfl
    · exact update_image _ _ _ _
  unfold acceptState
  simp only [St.reflect, hm.nStages, hm.fsal, hm.yNew, hm.stages, ← mul_add, hm.rhs, Method.cost, e2, Option.map_some]

theorem loop_reflect (hc : ReflectOptions φ c c') (hm : ClockMethod (-1) φ ψ c.m c'.m) (ms : K) :
    ∀ (n : ℕ) (s : St K V W) (h : K) (rej : Bool),
      loop c' n (s.reflect φ ψ) h ms rej = (loop c n s h ms rej).map fun p => (p.1, p.2.reflect φ ψ) := by
  intro n
  induction n with
  | zero => intros; rfl
  | succ n ih =>
    intro s h rej
    unfold loop
    by_cases hlt : h < ms
    · simp only [hlt, if_true, Option.map_some]
    · simp only [hlt, if_false]
      have ed : h * c'.dir = -1 * (h * c.dir) := by rw [hc.dir]; ring
      have e2 : c'.m.trial (s.reflect φ ψ).t (s.reflect φ ψ).y (s.reflect φ ψ).f (h * c'.dir) (s.reflect φ ψ).Ks =
          c'.m.trial (-1 * s.t) (φ s.y) (ψ s.f) (-1 * (h * c.dir)) fun i => ψ (s.Ks i) := by rw [ed]; rfl
      have ecost : c'.m.cost = c.m.cost := by unfold Method.cost; rw [hm.nStages, hm.fsal]
      rw [e2, hm.err, hm.pre, hm.preStages, ed, ecost, hm.costPre, hm.nfsOverflow, hc.nfevStiff]
      cases hpre : (c.m.trial s.t s.y s.f (h * c.dir) s.Ks).pre.gt 1 with
      | true => simp only [if_true, retryFactor_reflect hc]; rw [← ih]; rfl
      | false =>
      simp only [Bool.false_eq_true, if_false]
      cases herr : (c.m.trial s.t s.y s.f (h * c.dir) s.Ks).err with
      | inf => simp only [Option.map_some, hm.stages]; rfl
      | nan => simp only [Option.map_some, hm.stages]; rfl
      | num x =>
        dsimp only
        by_cases hx : x < 1
        · simp only [hx, if_true]
          rw [acceptFactor_reflect hc]
          cases haf : acceptFactor c s (h * c.dir) x with
          | none => simp only [Option.map_some, hm.stages]; rfl
          | some p =>
            obtain ⟨f0, std⟩ := p
            dsimp only
            rw [acceptState_reflect hm, diagnose_reflect hc hm.nStages]
            generalize acceptState c s (c.m.trial s.t s.y s.f (h * c.dir) s.Ks) (h * c.dir)
              (h * (if rej = true then min 1 f0 else f0)) x (if rej = true then min 1 f0 else f0) std = s1
            cases hd : diagnose c s1 with
            | none => simp only [Option.map_none, Option.map_some, diagnoseRaise_reflect]
            | some q => rfl
        · simp only [hx, if_false, retryFactor_reflect hc]
          rw [← ih]
          simp only [hm.stages]
          rfl

/-- **C131** (general form). Corresponding calls of `step()` return the same outcome and mirror images of the states. -/
theorem C131_step (hc : ReflectOptions φ c c') (hm : ClockMethod (-1) φ ψ c.m c'.m) (fuel : ℕ) (v : Solver K V W) :
    step c' fuel (v.reflect φ ψ) = (step c fuel v).map fun p => (p.1, p.2.reflect φ ψ) := by
  unfold step
  have e1 : (v.reflect φ ψ).status = v.status := rfl
  rw [e1]
  cases v.status with
  | running =>
    dsimp only
    have e2 : (c'.tb = some (v.reflect φ ψ).st.t) = (c.tb = some v.st.t) := by
      rw [hc.tb, show (v.reflect φ ψ).st.t = -1 * v.st.t from rfl]
      cases c.tb with
      | none => simp
      | some b => simp
    by_cases ht : c.tb = some v.st.t
    · rw [if_pos (e2 ▸ ht), if_pos ht]; rfl
    · rw [if_neg (e2 ▸ ht), if_neg ht]
      have e3 : stepImpl c' fuel (v.reflect φ ψ).st = (stepImpl c fuel v.st).map fun p => (p.1, p.2.reflect φ ψ) := by
        unfold stepImpl
        have : (v.reflect φ ψ).st = v.st.reflect φ ψ := rfl
        rw [this, reassess_reflect hc]
        exact loop_reflect hc hm _ _ { v.st with stdSc := (reassess c v.st).2.2 } _ _
      rw [e3]
      cases hi : stepImpl c fuel v.st with
      | none => rfl
      | some p =>
        obtain ⟨o, s'⟩ := p
        have e4 : reached c' (s'.reflect φ ψ).t = reached c s'.t := by
          unfold reached
          rw [hc.tb, hc.dir, show (s'.reflect φ ψ).t = -1 * s'.t from rfl]
          cases c.tb with
          | none => rfl
          | some b =>
            dsimp only [Option.map_some]
            rw [← mul_sub, show -1 * c.dir * (-1 * (s'.t - b)) = c.dir * (s'.t - b) by ring]
        cases o with
        | ok => simp only [Option.map_some, e4]; rfl
        | fail m => rfl
        | exc e => rfl
  | finished => rfl
  | failed => rfl

/-- Whole runs. -/
theorem run_reflect (hc : ReflectOptions φ c c') (hm : ClockMethod (-1) φ ψ c.m c'.m) {t0 : K} {y0 : V} {h0 : K} {e0 : ℕ}
    {Ks0 : ℕ → W} {outs : List Out} {v : Solver K V W} (hr : Run c (newSolver c t0 y0 h0 e0 Ks0) outs v) :
    Run c' (newSolver c' (-1 * t0) (φ y0) h0 e0 fun i => ψ (Ks0 i)) outs (v.reflect φ ψ) := by
  induction hr with
  | nil =>
    have : newSolver c' (-1 * t0) (φ y0) h0 e0 (fun i => ψ (Ks0 i)) = (newSolver c t0 y0 h0 e0 Ks0).reflect φ ψ := by
      simp only [newSolver, Solver.reflect, St.reflect, hm.rhs, Option.map_none, mul_zero]
    rw [this]
    exact .nil
  | @cons outs v v' o fuel _ hs ih =>
    refine .cons (fuel := fuel) ih ?_
    rw [C131_step hc hm fuel v, hs]
    rfl

end

section
variable {K V : Type*} [Field K] [LinearOrder K] [IsStrictOrderedRing K] [AddCommGroup V] [Module K V]

/-- **C17.** Runge-Kutta methods: the reflected problem `y' = -f(-t, y)` from `-t0` to `-t_bound`, with the same options and first step.
Every sequence of calls of `step()` gives the same outcomes, solution values, step sizes and counters, at the reflected times. -/
theorem C17_runs {f g : K → V → V} (hg : ∀ t y, g (-t) y = -f t y) {T : Tableau K}
    {eN : V → V → V → ENorm K} {c c' : Cfg K V V} (hc : ReflectOptions id c c')
    (hm : c.m = rkMethod T f eN ∧ c'.m = rkMethod T g eN ∨
      c.m = bs5Method K f eN ∧ c'.m = bs5Method K g eN ∨ c.m = cfmr7oscMethod K f eN ∧ c'.m = cfmr7oscMethod K g eN)
    {t0 : K} {y0 : V} {h0 : K} {e0 : ℕ} {outs : List Out} {v : Solver K V V}
    (hr : Run c (newSolver c t0 y0 h0 e0 fun _ => 0) outs v) :
    ∃ v', Run c' (newSolver c' (-t0) y0 h0 e0 fun _ => 0) outs v' ∧ v'.status = v.status ∧
      v'.tOld = v.tOld.map (fun t => -t) ∧ v'.st.t = -v.st.t ∧ v'.st.hAbs = v.st.hAbs ∧ v'.st.y = v.st.y ∧
      v'.st.f = -v.st.f ∧ v'.st.nfev = v.st.nfev ∧ v'.st.nfs = v.st.nfs := by
  have ha : (-1 : K) ≠ 0 := neg_ne_zero.2 one_ne_zero
  have hg' : ∀ t y, g (-1 * t) y = (-1 : K)⁻¹ • f t y := by
    intro t y
    rw [neg_one_mul, hg, inv_neg, inv_one, neg_smul, one_smul]
  have lin : ∀ n (Bp Ep : ℕ → K) cnt y h Ks, (PreTest.linear n Bp Ep eN cnt).norm y (-1 * h) (fun i => (-1 : K)⁻¹ • Ks i) =
      (PreTest.linear n Bp Ep eN cnt).norm y h Ks := by
    intro n Bp Ep cnt y h Ks
    simp only [PreTest.linear, smul_weights (-1) _ ha]
  have hcm : ClockMethod (-1) id (fun x => (-1 : K)⁻¹ • x) c.m c'.m := by
    rcases hm with ⟨e1, e2⟩ | ⟨e1, e2⟩ | ⟨e1, e2⟩
    · rw [e1, e2]; exact clockMethod_rk ha hg' T fun _ _ _ => rfl
    · rw [e1, e2]; exact clockMethod_rk ha hg' _ fun _ _ _ => lin _ _ _ _ _ _ _
    · rw [e1, e2]; exact clockMethod_rk ha hg' _ fun _ _ _ => lin _ _ _ _ _ _ _
  have := run_reflect hc hcm hr
  simp only [smul_zero, id] at this
  rw [neg_one_mul] at this
  refine ⟨_, this, rfl, ?_, ?_, rfl, rfl, ?_, rfl, rfl⟩
  · exact congrArg (fun f => Option.map f v.tOld) (funext fun t => neg_one_mul t)
  · exact neg_one_mul _
  · show (-1 : K)⁻¹ • v.st.f = -v.st.f
    rw [inv_neg, inv_one, neg_smul, one_smul]

/-- **C131.** Nystrom methods for `u'' = f(t, u, u')`: in the reflected problem velocities change sign and accelerations do not. The error norm
must not depend on the sign of the velocities, which holds for the norms of the code. -/
theorem C131_nystrom {f g : K → V × V → V} (hg : ∀ t u w, g (-t) (u, -w) = f t (u, w))
    {T : NTableau K} {eN : V × V → V × V → V × V → ENorm K} (hN : ∀ y z e, eN (y.1, -y.2) (z.1, -z.2) (e.1, -e.2) = eN y z e)
    {c c' : Cfg K (V × V) V} (hc : ReflectOptions (fun y => (y.1, -y.2)) c c') (hm : c.m = nyMethod T f eN) (hm' : c'.m = nyMethod T g eN)
    {t0 : K} {u0 w0 : V} {h0 : K} {e0 : ℕ} {outs : List Out} {v : Solver K (V × V) V}
    (hr : Run c (newSolver c t0 (u0, w0) h0 e0 fun _ => 0) outs v) :
    ∃ v', Run c' (newSolver c' (-t0) (u0, -w0) h0 e0 fun _ => 0) outs v' ∧ v'.status = v.status ∧
      v'.tOld = v.tOld.map (fun t => -t) ∧ v'.st.t = -v.st.t ∧ v'.st.hAbs = v.st.hAbs ∧ v'.st.y.1 = v.st.y.1 ∧
      v'.st.y.2 = -v.st.y.2 ∧ v'.st.f = v.st.f ∧ v'.st.nfev = v.st.nfev ∧ v'.st.nfs = v.st.nfs := by
  have ha : (-1 : K) ≠ 0 := neg_ne_zero.2 one_ne_zero
  have h1 : ∀ x : V, (-1 : K)⁻¹ • x = -x := fun x => by rw [inv_neg, inv_one, neg_smul, one_smul]
  have h2 : ∀ x : V, ((-1 : K)⁻¹ ^ 2) • x = x := fun x => by rw [inv_neg, inv_one, neg_one_sq, one_smul]
  have hp : (clockPair (-1 : K) : V × V → V × V) = fun y => (y.1, -y.2) := by
    funext y
    simp only [clockPair, h1]
  have hcm : ClockMethod (-1) (clockPair (-1 : K)) (fun x => ((-1 : K)⁻¹ ^ 2) • x) c.m c'.m := by
    rw [hm, hm']
    refine clockMethod_ny ha (fun t y => ?_) T fun y z e => ?_
    · rw [hp, neg_one_mul, h2]; exact hg t y.1 y.2
    · rw [hp]; exact hN y z e
  rw [hp] at hcm
  have := run_reflect (φ := fun y : V × V => (y.1, -y.2)) hc hcm hr
  simp only [smul_zero] at this
  rw [neg_one_mul] at this
  refine ⟨_, this, rfl, ?_, ?_, rfl, rfl, rfl, ?_, rfl, rfl⟩
  · exact congrArg (fun f => Option.map f v.tOld) (funext fun t => neg_one_mul t)
  · exact neg_one_mul _
  · exact h2 _

end

/-! ## The hypotheses are met -/

/-- `y' = t - y` from 0 to 1, and its mirror image `y' = t + y` from 0 to -1. -/
def exForth : Cfg ℚ ℚ ℚ := exCfg (fun t y => t - y) (scalarErr (1 / 1000) (1 / 1000)) (some 1) 1 none 0

def exMirror : Cfg ℚ ℚ ℚ := exCfg (fun t y => t + y) (scalarErr (1 / 1000) (1 / 1000)) (some (-1)) (-1) none 0

example : ∃ v v', Run exForth (newSolver exForth 0 1 (1 / 2) 1 fun _ => 0) [.ok] v ∧ v.st.t = 1 / 2 ∧
    Run exMirror (newSolver exMirror 0 1 (1 / 2) 1 fun _ => 0) [.ok] v' ∧ v'.st.t = -1 / 2 ∧ v'.st.y = v.st.y := by
  obtain ⟨p, hp⟩ : ∃ p, step exForth 5 (newSolver exForth 0 1 (1 / 2) 1 fun _ => 0) = some p :=
    Option.isSome_iff_exists.1 (by decide +kernel)
  have h1 : p.1 = .ok ∧ p.2.st.t = 1 / 2 := by
    have : ((step exForth 5 (newSolver exForth 0 1 (1 / 2) 1 fun _ => 0)).map fun p => (p.1, p.2.st.t)) = some (.ok, 1 / 2) := by
      decide +kernel
    rw [hp] at this
    simpa using this
  have hr : Run exForth (newSolver exForth 0 1 (1 / 2) 1 fun _ => 0) [.ok] p.2 := by
    refine .cons (fuel := 5) .nil ?_
    rw [hp, ← h1.1]
  obtain ⟨v', h2, -, -, h3, -, h4, -⟩ := C17_runs (f := fun t y => t - y) (g := fun t y => t + y) (fun t y => by ring)
    (c := exForth) (c' := exMirror)
    { tb := by simp only [exForth, exMirror, exCfg, Option.map_some]; norm_num
      maxStep := rfl, dir := by norm_num [exForth, exMirror, exCfg], hMinA := rfl, hMinB := rfl, tinyErr := rfl, minFactor := rfl
      errExp := rfl, minbeta1 := rfl, minbeta2 := rfl, minalpha := rfl, safety := rfl, safetySc := rfl, pw := rfl, nfevStiff := rfl
      stiffEvals := fun _ _ => rfl }
    (.inl ⟨rfl, rfl⟩) hr
  refine ⟨p.2, v', hr, h1.2, ?_, ?_, h4⟩
  · rw [neg_zero] at h2
    exact h2
  · rw [h3, h1.2]; norm_num

/-- A Nystrom solver for `u'' = acc(t, (u, u'))`. -/
def exNyMirror (acc : ℚ → ℚ × ℚ → ℚ) (tb dir : ℚ) : Cfg ℚ (ℚ × ℚ) ℚ where
  m := nyMethod (Fi4N.tab ℚ) acc fun _ _ e => .num (100 * (|e.1| + |e.2|))
  tb := some tb
  dir := dir
  maxStep := none
  hMinA := 1 / 10 ^ 14
  hMinB := 1 / 10 ^ 100
  tinyErr := 1 / 10 ^ 100
  minFactor := 1 / 5
  errExp := -1 / 4
  minbeta1 := -1 / 4
  minbeta2 := 0
  minalpha := 0
  safety := 9 / 10
  safetySc := 9 / 10
  pw := pwInv
  nfevStiff := 0

/-- `u'' = -u - t u'` from 0 to 1 is its own mirror image. -/
example : ∃ v v', Run (exNyMirror (fun t y => -y.1 - t * y.2) 1 1)
      (newSolver (exNyMirror (fun t y => -y.1 - t * y.2) 1 1) 0 (1, 1) (1 / 2) 1 fun _ => 0) [.ok] v ∧ v.st.t = 1 / 2 ∧
    Run (exNyMirror (fun t y => -y.1 - t * y.2) (-1) (-1))
      (newSolver (exNyMirror (fun t y => -y.1 - t * y.2) (-1) (-1)) 0 (1, -1) (1 / 2) 1 fun _ => 0) [.ok] v' ∧
    v'.st.t = -1 / 2 ∧ v'.st.y.2 = -v.st.y.2 := by
  obtain ⟨p, hp⟩ : ∃ p, step (exNyMirror (fun t y => -y.1 - t * y.2) 1 1) 5
      (newSolver (exNyMirror (fun t y => -y.1 - t * y.2) 1 1) 0 (1, 1) (1 / 2) 1 fun _ => 0) = some p :=
    Option.isSome_iff_exists.1 (by decide +kernel)
  have h1 : p.1 = .ok ∧ p.2.st.t = 1 / 2 := by
    have : ((step (exNyMirror (fun t y => -y.1 - t * y.2) 1 1) 5
        (newSolver (exNyMirror (fun t y => -y.1 - t * y.2) 1 1) 0 (1, 1) (1 / 2) 1 fun _ => 0)).map fun p => (p.1, p.2.st.t)) =
        some (.ok, 1 / 2) := by decide +kernel
    rw [hp] at this
    simpa using this
  have hr : Run (exNyMirror (fun t y => -y.1 - t * y.2) 1 1)
      (newSolver (exNyMirror (fun t y => -y.1 - t * y.2) 1 1) 0 (1, 1) (1 / 2) 1 fun _ => 0) [.ok] p.2 := by
    refine .cons (fuel := 5) .nil ?_
    rw [hp, ← h1.1]
  obtain ⟨v', h2, -, -, h3, -, -, h4, -⟩ := C131_nystrom (f := fun t y => -y.1 - t * y.2) (g := fun t y => -y.1 - t * y.2)
    (fun t u w => by ring) (T := Fi4N.tab ℚ) (eN := fun _ _ e => .num (100 * (|e.1| + |e.2|))) (fun y z e => by simp only [abs_neg])
    (c := exNyMirror (fun t y => -y.1 - t * y.2) 1 1) (c' := exNyMirror (fun t y => -y.1 - t * y.2) (-1) (-1))
    { tb := by simp only [exNyMirror, Option.map_some]; norm_num
      maxStep := rfl, dir := by norm_num [exNyMirror], hMinA := rfl, hMinB := rfl, tinyErr := rfl, minFactor := rfl
      errExp := rfl, minbeta1 := rfl, minbeta2 := rfl, minalpha := rfl, safety := rfl, safetySc := rfl, pw := rfl, nfevStiff := rfl
      stiffEvals := fun _ _ => rfl } rfl rfl hr
  refine ⟨p.2, v', hr, h1.2, ?_, ?_, h4⟩
  · rw [neg_zero] at h2
    exact h2
  · rw [h3, h1.2]; norm_num

end Extensisq
