import Verif.Props.Units
import Verif.Props.DriverControl

/-!
# C127: the unit of time does not matter

The run of an explicit solver (Runge-Kutta with or without the early error test, and Nystrom) on the problem written with another unit of
time is the run on the original problem with all times converted: same solution values, rejections, outcomes and counters. The only
quantity in the driver that is not converted by the user is the absolute floor of the minimal step (`h_min_b`); the claim is about runs in
which this floor is below the relative one.
-/

set_option linter.unusedSectionVars false

namespace Extensisq
open Finset

section
variable {K V W V' W' : Type*} [Field K] [LinearOrder K] [IsStrictOrderedRing K]

/-- The state in the other unit of time: times and step sizes are multiplied with `a`. -/
def St.clock (a : K) (φ : V → V') (ψ : W → W') (s : St K V W) : St K V' W' where
  t := a * s.t
  y := φ s.y
  f := ψ s.f
  hAbs := a * s.hAbs
  maxFactor := s.maxFactor
  stdSc := s.stdSc
  hPrev := s.hPrev.map fun h => a * h
  errOld := s.errOld
  yOld := s.yOld.map φ
  fOld := s.fOld.map ψ
  Ks := fun i => ψ (s.Ks i)
  nfev := s.nfev
  nfevTest := s.nfevTest
  nfs := s.nfs
  jflstp := s.jflstp
  okstp := s.okstp
  havg := a * s.havg

/-- The solver in the other unit of time. -/
def Solver.clock (a : K) (φ : V → V') (ψ : W → W') (v : Solver K V W) : Solver K V' W' where
  status := v.status
  tOld := v.tOld.map fun t => a * t
  st := v.st.clock a φ ψ

/-- A method whose attempts with the step `a * h` are the images of those of another one with the step `h`. -/
structure ClockMethod (a : K) (φ : V → V') (ψ : W → W') (m : Method K V W) (m' : Method K V' W') : Prop where
  nStages : m'.nStages = m.nStages
  fsal : m'.fsal = m.fsal
  costPre : m'.costPre = m.costPre
  nfsOverflow : m'.nfsOverflow = m.nfsOverflow
  rhs : ∀ t y, m'.rhs (a * t) (φ y) = ψ (m.rhs t y)
  stages : ∀ t y f h Ks, (m'.trial (a * t) (φ y) (ψ f) (a * h) fun i => ψ (Ks i)).stages = fun i => ψ ((m.trial t y f h Ks).stages i)
  yNew : ∀ t y f h Ks, (m'.trial (a * t) (φ y) (ψ f) (a * h) fun i => ψ (Ks i)).yNew = φ (m.trial t y f h Ks).yNew
  err : ∀ t y f h Ks, (m'.trial (a * t) (φ y) (ψ f) (a * h) fun i => ψ (Ks i)).err = (m.trial t y f h Ks).err
  pre : ∀ t y f h Ks, (m'.trial (a * t) (φ y) (ψ f) (a * h) fun i => ψ (Ks i)).pre = (m.trial t y f h Ks).pre
  preStages : ∀ t y f h Ks, (m'.trial (a * t) (φ y) (ψ f) (a * h) fun i => ψ (Ks i)).preStages =
    fun i => ψ ((m.trial t y f h Ks).preStages i)

/-- The options: `t_bound` and `max_step` are converted, the others are the same (`hMinB`, the absolute floor of the minimal step, is not
mentioned). -/
structure ClockOptions (a : K) (φ : V → V') (c : Cfg K V W) (c' : Cfg K V' W') : Prop where
  tb : c'.tb = c.tb.map fun b => a * b
  maxStep : c'.maxStep = c.maxStep.map fun h => a * h
  dir : c'.dir = c.dir
  hMinA : c'.hMinA = c.hMinA
  tinyErr : c'.tinyErr = c.tinyErr
  minFactor : c'.minFactor = c.minFactor
  errExp : c'.errExp = c.errExp
  minbeta1 : c'.minbeta1 = c.minbeta1
  minbeta2 : c'.minbeta2 = c.minbeta2
  minalpha : c'.minalpha = c.minalpha
  safety : c'.safety = c.safety
  safetySc : c'.safetySc = c.safetySc
  pw : c'.pw = c.pw
  nfevStiff : c'.nfevStiff = c.nfevStiff
  stiffEvals : ∀ t y, c'.stiffEvals (a * t) (φ y) = c.stiffEvals t y

/-- The absolute floors of the minimal step play no role in this state. -/
def FloorIdle (a : K) (c : Cfg K V W) (c' : Cfg K V' W') (s : St K V W) : Prop :=
  c.hMinB ≤ c.hMinA * (|s.t| + s.hAbs) ∧ c'.hMinB ≤ a * (c.hMinA * (|s.t| + s.hAbs))

variable {a : K} {φ : V → V'} {ψ : W → W'} {c : Cfg K V W} {c' : Cfg K V' W'}

theorem minStep_clock (ha : 0 < a) (hc : ClockOptions a φ c c') {s : St K V W} (hf : FloorIdle a c c' s) :
    minStepOf c' (a * s.t) (a * s.hAbs) = a * minStepOf c s.t s.hAbs := by
  unfold minStepOf
  rw [max_eq_left hf.1, hc.hMinA, abs_mul, abs_of_pos ha, ← mul_add, mul_left_comm, max_eq_left hf.2]

theorem overMax_clock (ha : 0 < a) (m : Option K) (x : K) : overMax (m.map fun h => a * h) (a * x) = overMax m x := by
  cases m with
  | none => rfl
  | some b => simp only [overMax, Option.map_some, mul_lt_mul_iff_right₀ ha]

theorem capMax_clock (ha : 0 < a) (m : Option K) (x : K) : capMax (m.map fun h => a * h) (a * x) = a * capMax m x := by
  cases m with
  | none => rfl
  | some b => simp only [capMax, Option.map_some]; exact (mul_min_of_nonneg _ _ ha.le).symm

theorem reassess_clock (ha : 0 < a) (hc : ClockOptions a φ c c') {s : St K V W} (hf : FloorIdle a c c' s) :
    reassess c' (s.clock a φ ψ) = (a * (reassess c s).1, a * (reassess c s).2.1, (reassess c s).2.2) := by
  have hm := minStep_clock ha hc hf
  unfold reassess
  dsimp only
  rw [show (s.clock a φ ψ).t = a * s.t from rfl, show (s.clock a φ ψ).hAbs = a * s.hAbs from rfl,
    show (s.clock a φ ψ).stdSc = s.stdSc from rfl, hm, hc.maxStep, overMax_clock ha, hc.tb,
    ← mul_max_of_nonneg _ _ ha.le, capMax_clock ha]
  simp only [mul_lt_mul_iff_right₀ ha]
  generalize (decide (s.hAbs < minStepOf c s.t s.hAbs) || overMax c.maxStep s.hAbs) = clip
  rw [show (if clip = true then a * capMax c.maxStep (max (minStepOf c s.t s.hAbs) s.hAbs) else a * s.hAbs) =
    a * (if clip = true then capMax c.maxStep (max (minStepOf c s.t s.hAbs) s.hAbs) else s.hAbs) by split_ifs <;> rfl]
  generalize (if clip = true then capMax c.maxStep (max (minStepOf c s.t s.hAbs) s.hAbs) else s.hAbs) = h1
  cases c.tb with
  | none => rfl
  | some b =>
    dsimp only [Option.map_some]
    have hd : |a * b - a * s.t| = a * |b - s.t| := by rw [← mul_sub, abs_mul, abs_of_pos ha]
    rw [hd, mul_left_comm 2 a h1]
    simp only [gt_iff_lt, mul_lt_mul_iff_right₀ ha]
    rw [mul_div_assoc, ← mul_max_of_nonneg _ _ ha.le]
    split_ifs <;> rfl

theorem acceptFactor_clock (ha : 0 < a) (hc : ClockOptions a φ c c') (s : St K V W) (h x : K) :
    acceptFactor c' (s.clock a φ ψ) (a * h) x = acceptFactor c s h x := by
  unfold acceptFactor
  simp only [St.clock, hc.tinyErr, hc.safety, hc.pw, hc.errExp, hc.safetySc, hc.minbeta1, hc.minbeta2, hc.minalpha, hc.minFactor]
  cases s.hPrev with
  | none => rfl
  | some hp =>
    dsimp only [Option.map_some]
    cases s.errOld with
    | none => rfl
    | some eo => dsimp only; rw [mul_div_mul_left _ _ ha.ne']

theorem retryFactor_clock (hc : ClockOptions a φ c c') (e : ENorm K) : retryFactor c' e = retryFactor c e := by
  cases e <;> simp only [retryFactor, hc.minFactor, hc.safety, hc.pw, hc.errExp]

theorem havg_clock (a : K) (p : Prop) [Decidable p] (g : K) (hp : Option K) :
    (if p then (hp.map fun h => a * h).getD 0 else 9 / 10 * (a * g) + 1 / 10 * (hp.map fun h => a * h).getD 0) =
    a * (if p then hp.getD 0 else 9 / 10 * g + 1 / 10 * hp.getD 0) := by
  have : (hp.map fun h => a * h).getD 0 = a * hp.getD 0 := by cases hp <;> simp
  rw [this]
  split_ifs
  · rfl
  · ring

theorem diagnose_clock (hc : ClockOptions a φ c c') (hm : c'.m.nStages = c.m.nStages) (s : St K V W) :
    diagnose c' (s.clock a φ ψ) = (diagnose c s).map fun p => (p.1.clock a φ ψ, p.2) := by
  unfold diagnose
  simp only [hc.nfevStiff, hm]
  by_cases h0 : c.nfevStiff = 0
  · simp only [h0, if_true, Option.map_some]
  · simp only [h0, if_false]
    by_cases h1 : c.nfevStiff / c.m.nStages = 0
    · simp only [h1, if_true, Option.map_none]
    · simp only [h1, if_false, Option.map_some]
      simp only [St.clock, hc.stiffEvals, Option.some.injEq, Prod.mk.injEq, St.mk.injEq]
      repeat' first | exact havg_clock a (s.okstp + 1 = 20) s.havg s.hPrev | rfl | constructor

theorem diagnoseRaise_clock (s : St K V W) : diagnoseRaise (s.clock a φ ψ) = (diagnoseRaise s).clock a φ ψ := by
  unfold diagnoseRaise
  simp only [St.clock, St.mk.injEq]
  repeat' first | exact havg_clock a (s.okstp + 1 = 20) s.havg s.hPrev | rfl | constructor

theorem acceptState_clock (hm : ClockMethod a φ ψ c.m c'.m) (s : St K V W) (h hn x fac : K) (std : Bool) :
    acceptState c' (s.clock a φ ψ) (c'.m.trial (a * s.t) (φ s.y) (ψ s.f) (a * h) fun i => ψ (s.Ks i)) (a * h) (a * hn) x fac std =
    (acceptState c s (c.m.trial s.t s.y s.f h s.Ks) h hn x fac std).clock a φ ψ := by
  have e2 : (if c.m.fsal = true then fun i => ψ ((c.m.trial s.t s.y s.f h s.Ks).stages i)
      else Function.update (fun i => ψ ((c.m.trial s.t s.y s.f h s.Ks).stages i)) c.m.nStages
        (ψ (c.m.rhs (s.t + h) (c.m.trial s.t s.y s.f h s.Ks).yNew))) =
      fun i => ψ ((if c.m.fsal = true then (c.m.trial s.t s.y s.f h s.Ks).stages
      else Function.update (c.m.trial s.t s.y s.f h s.Ks).stages c.m.nStages
        (c.m.rhs (s.t + h) (c.m.trial s.t s.y s.f h s.Ks).yNew)) i) := by
    split_ifs
    · rfl
    · exact update_image _ _ _ _
  unfold acceptState
  simp only [St.clock, hm.nStages, hm.fsal, hm.yNew, hm.stages, ← mul_add, hm.rhs, Method.cost, e2, Option.map_some]

theorem loop_clock (ha : 0 < a) (hc : ClockOptions a φ c c') (hm : ClockMethod a φ ψ c.m c'.m) (ms : K) :
    ∀ (n : ℕ) (s : St K V W) (h : K) (rej : Bool),
      loop c' n (s.clock a φ ψ) (a * h) (a * ms) rej = (loop c n s h ms rej).map fun p => (p.1, p.2.clock a φ ψ) := by
  intro n
  induction n with
  | zero => intros; rfl
  | succ n ih =>
    intro s h rej
    unfold loop
    simp only [mul_lt_mul_iff_right₀ ha]
    by_cases hlt : h < ms
    · simp only [hlt, if_true, Option.map_some]
    · simp only [hlt, if_false]
      have e2 : c'.m.trial (s.clock a φ ψ).t (s.clock a φ ψ).y (s.clock a φ ψ).f (a * h * c'.dir) (s.clock a φ ψ).Ks =
          c'.m.trial (a * s.t) (φ s.y) (ψ s.f) (a * (h * c.dir)) fun i => ψ (s.Ks i) := by rw [hc.dir, mul_assoc]; rfl
      have ecost : c'.m.cost = c.m.cost := by unfold Method.cost; rw [hm.nStages, hm.fsal]
      rw [e2, hm.err, hm.pre, hm.preStages, hc.dir, ecost, hm.costPre, hm.nfsOverflow, hc.nfevStiff]
      cases hpre : (c.m.trial s.t s.y s.f (h * c.dir) s.Ks).pre.gt 1 with
      | true => simp only [if_true, retryFactor_clock hc]; rw [← ih, mul_assoc]; rfl
      | false =>
      simp only [Bool.false_eq_true, if_false]
      cases herr : (c.m.trial s.t s.y s.f (h * c.dir) s.Ks).err with
      | inf => simp only [Option.map_some, hm.stages]; rfl
      | nan => simp only [Option.map_some, hm.stages]; rfl
      | num x =>
        dsimp only
        by_cases hx : x < 1
        · simp only [hx, if_true]
          rw [mul_assoc a h, acceptFactor_clock ha hc]
          cases haf : acceptFactor c s (h * c.dir) x with
          | none => simp only [Option.map_some, hm.stages]; rfl
          | some p =>
            obtain ⟨f0, std⟩ := p
            dsimp only
            rw [mul_assoc a h, acceptState_clock hm, diagnose_clock hc hm.nStages]
            generalize acceptState c s (c.m.trial s.t s.y s.f (h * c.dir) s.Ks) (h * c.dir)
              (h * (if rej = true then min 1 f0 else f0)) x (if rej = true then min 1 f0 else f0) std = s1
            cases hd : diagnose c s1 with
            | none => simp only [Option.map_none, Option.map_some, diagnoseRaise_clock]
            | some q => rfl
        · simp only [hx, if_false, retryFactor_clock hc]
          rw [← ih, mul_assoc]
          simp only [hm.stages]
          rfl

/-- **C127** (general form). Corresponding calls of `step()` return the same outcome and corresponding states. -/
theorem C127_step (ha : 0 < a) (hc : ClockOptions a φ c c') (hm : ClockMethod a φ ψ c.m c'.m) (fuel : ℕ) (v : Solver K V W)
    (hf : FloorIdle a c c' v.st) :
    step c' fuel (v.clock a φ ψ) = (step c fuel v).map fun p => (p.1, p.2.clock a φ ψ) := by
  unfold step
  have e1 : (v.clock a φ ψ).status = v.status := rfl
  rw [e1]
  cases v.status with
  | running =>
    dsimp only
    have e2 : (c'.tb = some (v.clock a φ ψ).st.t) = (c.tb = some v.st.t) := by
      rw [hc.tb, show (v.clock a φ ψ).st.t = a * v.st.t from rfl]
      cases c.tb with
      | none => simp
      | some b => simp [ha.ne']
    by_cases ht : c.tb = some v.st.t
    · rw [if_pos (e2 ▸ ht), if_pos ht]; rfl
    · rw [if_neg (e2 ▸ ht), if_neg ht]
      have e3 : stepImpl c' fuel (v.clock a φ ψ).st = (stepImpl c fuel v.st).map fun p => (p.1, p.2.clock a φ ψ) := by
        unfold stepImpl
        have : (v.clock a φ ψ).st = v.st.clock a φ ψ := rfl
        rw [this, reassess_clock ha hc hf]
        exact loop_clock ha hc hm _ _ { v.st with stdSc := (reassess c v.st).2.2 } _ _
      rw [e3]
      cases hi : stepImpl c fuel v.st with
      | none => rfl
      | some p =>
        obtain ⟨o, s'⟩ := p
        have e4 : reached c' (s'.clock a φ ψ).t = reached c s'.t := by
          unfold reached
          rw [hc.tb, hc.dir, show (s'.clock a φ ψ).t = a * s'.t from rfl]
          cases c.tb with
          | none => rfl
          | some b =>
            dsimp only [Option.map_some]
            rw [← mul_sub, mul_left_comm]
            simp only [mul_nonneg_iff_of_pos_left ha]
        cases o with
        | ok => simp only [Option.map_some, e4]; rfl
        | fail m => rfl
        | exc e => rfl
  | finished => rfl
  | failed => rfl

/-- Whole runs. -/
theorem run_clock (ha : 0 < a) (hc : ClockOptions a φ c c') (hm : ClockMethod a φ ψ c.m c'.m) {t0 : K} {y0 : V} {h0 : K} {e0 : ℕ}
    {Ks0 : ℕ → W} {outs : List Out} {v : Solver K V W}
    (hf : ∀ w, Reach c (newSolver c t0 y0 h0 e0 Ks0) w → FloorIdle a c c' w.st) (hr : Run c (newSolver c t0 y0 h0 e0 Ks0) outs v) :
    Run c' (newSolver c' (a * t0) (φ y0) (a * h0) e0 fun i => ψ (Ks0 i)) outs (v.clock a φ ψ) := by
  have h : Reach c (newSolver c t0 y0 h0 e0 Ks0) v ∧
      Run c' (newSolver c' (a * t0) (φ y0) (a * h0) e0 fun i => ψ (Ks0 i)) outs (v.clock a φ ψ) := by
    induction hr with
    | nil =>
      have : newSolver c' (a * t0) (φ y0) (a * h0) e0 (fun i => ψ (Ks0 i)) = (newSolver c t0 y0 h0 e0 Ks0).clock a φ ψ := by
        simp [newSolver, Solver.clock, St.clock, hm.rhs]
      rw [this]
      exact ⟨.refl, .nil⟩
    | @cons outs v v' o fuel _ hs ih =>
      refine ⟨.tail ih.1 hs, .cons (fuel := fuel) ih.2 ?_⟩
      rw [C127_step ha hc hm fuel v (hf v ih.1), hs]
      rfl
  exact h.2

end

/-! ## Runge-Kutta and Nystrom methods -/

section
variable {K V : Type*} [Field K] [LinearOrder K] [IsStrictOrderedRing K] [AddCommGroup V] [Module K V]

/-- The factor of a derivative. -/
theorem smul_weights (a h : K) (ha : a ≠ 0) (s : ℕ) (b : ℕ → K) (k : ℕ → V) :
    (a * h) • ∑ i ∈ range s, b i • a⁻¹ • k i = h • ∑ i ∈ range s, b i • k i := by
  rw [smul_sum, smul_sum]
  refine sum_congr rfl fun i _ => ?_
  rw [smul_smul, smul_smul, smul_smul]
  congr 1
  field_simp

theorem rkStages_clock {a : K} (ha : a ≠ 0) {f g : K → V → V} (hg : ∀ t y, g (a * t) y = a⁻¹ • f t y) (T : Tableau K) (t : K) (y : V)
    (h : K) (n : ℕ) (Ks : ℕ → V) :
    rkStages T g (a * t) y (a * h) n (fun i => a⁻¹ • Ks i) = fun i => a⁻¹ • rkStages T f t y h n Ks i := by
  induction n with
  | zero => rfl
  | succ n ih =>
    cases n with
    | zero => rfl
    | succ n =>
      simp only [rkStages]
      rw [ih, ← update_image (fun x : V => a⁻¹ • x)]
      congr 1
      simp only [rkStage]
      rw [smul_weights a h ha, ← hg, mul_left_comm, ← mul_add]

theorem clockMethod_rk {a : K} (ha : a ≠ 0) {f g : K → V → V} (hg : ∀ t y, g (a * t) y = a⁻¹ • f t y) (T : Tableau K)
    {eN : V → V → V → ENorm K} {P : PreTest K V} (hP : ∀ y h Ks, P.norm y (a * h) (fun i => a⁻¹ • Ks i) = P.norm y h Ks) :
    ClockMethod a id (fun x => a⁻¹ • x) (rkMethod T f eN P) (rkMethod T g eN P) := by
  have hK : ∀ n t y fv h Ks, rkStages T g (a * t) y (a * h) n (Function.update (fun i => a⁻¹ • Ks i) 0 (a⁻¹ • fv)) =
      fun i => a⁻¹ • rkStages T f t y h n (Function.update Ks 0 fv) i := by
    intro n t y fv h Ks
    rw [update_image (fun x : V => a⁻¹ • x), rkStages_clock ha hg]
  have hyn : ∀ t y fv h Ks, (rkTrial T g eN (a * t) y (a⁻¹ • fv) (a * h) fun i => a⁻¹ • Ks i).yNew = (rkTrial T f eN t y fv h Ks).yNew := by
    intro t y fv h Ks
    simp only [rkTrial, hK, rkSolution, smul_weights a _ ha]
  have hst : ∀ t y fv h Ks, (rkTrial T g eN (a * t) y (a⁻¹ • fv) (a * h) fun i => a⁻¹ • Ks i).stages =
      fun i => a⁻¹ • (rkTrial T f eN t y fv h Ks).stages i := by
    intro t y fv h Ks
    have hy := hyn t y fv h Ks
    simp only [rkTrial] at hy ⊢
    rw [hy, hK, ← mul_add, hg]
    split_ifs
    · exact update_image (fun x : V => a⁻¹ • x) _ _ _
    · rfl
  refine ⟨rfl, rfl, rfl, rfl, hg, hst, hyn, ?_, ?_, fun t y fv h Ks => hK _ t y fv h Ks⟩
  · intro t y fv h Ks
    change eN y (rkTrial T g eN (a * t) y (a⁻¹ • fv) (a * h) fun i => a⁻¹ • Ks i).yNew
      (rkError T (a * h) (rkTrial T g eN (a * t) y (a⁻¹ • fv) (a * h) fun i => a⁻¹ • Ks i).stages) = _
    rw [hyn, hst]
    simp only [rkError, smul_weights a _ ha]
    rfl
  · intro t y fv h Ks
    simp only [rkMethod, id, hK, hP]

/-- **C127.** Runge-Kutta methods: time is measured in another unit, `t' = a t`, so that the right-hand side becomes `f / a`; `t_bound`,
`max_step` and the first step are converted. Every sequence of calls of `step()` gives the same outcomes, solution values, step size
factors and counters, the times and step sizes are multiplied by `a` and the derivatives divided by it. -/
theorem C127_runge_kutta {a : K} (ha : 0 < a) {f g : K → V → V} (hg : ∀ t y, g (a * t) y = a⁻¹ • f t y) {T : Tableau K}
    {eN : V → V → V → ENorm K} {c c' : Cfg K V V} (hc : ClockOptions a id c c')
    (hm : c.m = rkMethod T f eN ∧ c'.m = rkMethod T g eN ∨
      c.m = bs5Method K f eN ∧ c'.m = bs5Method K g eN ∨ c.m = cfmr7oscMethod K f eN ∧ c'.m = cfmr7oscMethod K g eN)
    {t0 : K} {y0 : V} {h0 : K} {e0 : ℕ} {outs : List Out} {v : Solver K V V}
    (hf : ∀ w, Reach c (newSolver c t0 y0 h0 e0 fun _ => 0) w → FloorIdle a c c' w.st)
    (hr : Run c (newSolver c t0 y0 h0 e0 fun _ => 0) outs v) :
    ∃ v', Run c' (newSolver c' (a * t0) y0 (a * h0) e0 fun _ => 0) outs v' ∧ v'.status = v.status ∧
      v'.tOld = v.tOld.map (fun t => a * t) ∧ v'.st.t = a * v.st.t ∧ v'.st.hAbs = a * v.st.hAbs ∧ v'.st.y = v.st.y ∧
      v'.st.f = a⁻¹ • v.st.f ∧ v'.st.nfev = v.st.nfev ∧ v'.st.nfs = v.st.nfs := by
  have lin : ∀ n (Bp Ep : ℕ → K) cnt y h Ks, (PreTest.linear n Bp Ep eN cnt).norm y (a * h) (fun i => a⁻¹ • Ks i) =
      (PreTest.linear n Bp Ep eN cnt).norm y h Ks := by
    intro n Bp Ep cnt y h Ks
    simp only [PreTest.linear, smul_weights a _ ha.ne']
  have hcm : ClockMethod a id (fun x => a⁻¹ • x) c.m c'.m := by
    rcases hm with ⟨e1, e2⟩ | ⟨e1, e2⟩ | ⟨e1, e2⟩
    · rw [e1, e2]; exact clockMethod_rk ha.ne' hg T fun _ _ _ => rfl
    · rw [e1, e2]; exact clockMethod_rk ha.ne' hg _ fun _ _ _ => lin _ _ _ _ _ _ _
    · rw [e1, e2]; exact clockMethod_rk ha.ne' hg _ fun _ _ _ => lin _ _ _ _ _ _ _
  have := run_clock ha hc hcm hf hr
  simp only [smul_zero, id] at this
  exact ⟨_, this, rfl, rfl, rfl, rfl, rfl, rfl, rfl, rfl⟩

/-- Position and velocity in the other unit of time. -/
def clockPair (a : K) (y : V × V) : V × V := (y.1, a⁻¹ • y.2)

theorem smul_weights2 (a h : K) (ha : a ≠ 0) (s : ℕ) (b : ℕ → K) (k : ℕ → V) :
    (a * h) ^ 2 • ∑ i ∈ range s, b i • (a⁻¹ ^ 2) • k i = h ^ 2 • ∑ i ∈ range s, b i • k i := by
  rw [smul_sum, smul_sum]
  refine sum_congr rfl fun i _ => ?_
  rw [smul_smul, smul_smul, smul_smul]
  congr 1
  field_simp

theorem smul_weights1 (a h : K) (ha : a ≠ 0) (s : ℕ) (b : ℕ → K) (k : ℕ → V) :
    (a * h) • ∑ i ∈ range s, b i • (a⁻¹ ^ 2) • k i = a⁻¹ • h • ∑ i ∈ range s, b i • k i := by
  rw [smul_sum, smul_sum, smul_sum]
  refine sum_congr rfl fun i _ => ?_
  rw [smul_smul, smul_smul, smul_smul, smul_smul]
  congr 1
  field_simp

theorem nyStages_clock {a : K} (ha : a ≠ 0) {f g : K → V × V → V} (hg : ∀ t y, g (a * t) (clockPair a y) = (a⁻¹ ^ 2) • f t y)
    (T : NTableau K) (t : K) (y : V × V) (h : K) (n : ℕ) (Ks : ℕ → V) :
    nyStages T g (a * t) (clockPair a y) (a * h) n (fun i => (a⁻¹ ^ 2) • Ks i) = fun i => (a⁻¹ ^ 2) • nyStages T f t y h n Ks i := by
  induction n with
  | zero => rfl
  | succ n ih =>
    cases n with
    | zero => rfl
    | succ n =>
      simp only [nyStages]
      rw [ih, ← update_image (fun x : V => (a⁻¹ ^ 2) • x)]
      congr 1
      simp only [nyStage, nyArg]
      rw [smul_weights2 a h ha, smul_weights1 a h ha, ← hg, mul_left_comm, ← mul_add]
      congr 1
      simp only [clockPair, smul_smul, smul_add]
      congr 4
      field_simp

theorem clockMethod_ny {a : K} (ha : a ≠ 0) {f g : K → V × V → V} (hg : ∀ t y, g (a * t) (clockPair a y) = (a⁻¹ ^ 2) • f t y)
    (T : NTableau K) {eN eN' : V × V → V × V → V × V → ENorm K}
    (hN : ∀ y z e, eN' (clockPair a y) (clockPair a z) (clockPair a e) = eN y z e) :
    ClockMethod a (clockPair a) (fun x => (a⁻¹ ^ 2) • x) (nyMethod T f eN) (nyMethod T g eN') := by
  have hK : ∀ n t y fv h Ks, nyStages T g (a * t) (clockPair a y) (a * h) n
      (Function.update (fun i => (a⁻¹ ^ 2) • Ks i) 0 ((a⁻¹ ^ 2) • fv)) =
      fun i => (a⁻¹ ^ 2) • nyStages T f t y h n (Function.update Ks 0 fv) i := by
    intro n t y fv h Ks
    rw [update_image (fun x : V => (a⁻¹ ^ 2) • x), nyStages_clock ha hg]
  have hyn : ∀ t y fv h Ks, (nyTrial T g eN' (a * t) (clockPair a y) ((a⁻¹ ^ 2) • fv) (a * h) fun i => (a⁻¹ ^ 2) • Ks i).yNew =
      clockPair a (nyTrial T f eN t y fv h Ks).yNew := by
    intro t y fv h Ks
    simp only [nyTrial, hK]
    simp only [nySolution, smul_weights2 a _ ha, smul_weights1 a _ ha, clockPair]
    simp only [smul_add, smul_smul]
    congr 4
    field_simp
  have hst : ∀ t y fv h Ks, (nyTrial T g eN' (a * t) (clockPair a y) ((a⁻¹ ^ 2) • fv) (a * h) fun i => (a⁻¹ ^ 2) • Ks i).stages =
      fun i => (a⁻¹ ^ 2) • (nyTrial T f eN t y fv h Ks).stages i := by
    intro t y fv h Ks
    have hy := hyn t y fv h Ks
    simp only [nyTrial] at hy ⊢
    rw [hy, hK, ← mul_add, hg]
    split_ifs
    · exact update_image (fun x : V => (a⁻¹ ^ 2) • x) _ _ _
    · rfl
  refine ⟨rfl, rfl, rfl, rfl, hg, hst, hyn, ?_, fun _ _ _ _ _ => rfl,
    fun t y fv h Ks => update_image (fun x : V => (a⁻¹ ^ 2) • x) _ _ _⟩
  intro t y fv h Ks
  change eN' (clockPair a y) (nyTrial T g eN' (a * t) (clockPair a y) ((a⁻¹ ^ 2) • fv) (a * h) fun i => (a⁻¹ ^ 2) • Ks i).yNew
    (nyError T (a * h) (nyTrial T g eN' (a * t) (clockPair a y) ((a⁻¹ ^ 2) • fv) (a * h) fun i => (a⁻¹ ^ 2) • Ks i).stages) = _
  rw [hyn, hst]
  have : nyError T (a * h) (fun i => (a⁻¹ ^ 2) • (nyTrial T f eN t y fv h Ks).stages i) =
      clockPair a (nyError T h (nyTrial T f eN t y fv h Ks).stages) := by
    simp only [nyError, smul_weights2 a _ ha, smul_weights1 a _ ha, clockPair]
  rw [this, hN]
  rfl

/-- **C127.** Nystrom methods for `u'' = f(t, u, u')`: velocities are divided by `a`, accelerations by `a²`, and the tolerances of the
velocities are converted (that is the assumption on the error norm). -/
theorem C127_nystrom {a : K} (ha : 0 < a) {f g : K → V × V → V} (hg : ∀ t u w, g (a * t) (u, a⁻¹ • w) = (a⁻¹ ^ 2) • f t (u, w))
    {T : NTableau K} {eN eN' : V × V → V × V → V × V → ENorm K}
    (hN : ∀ y z e, eN' (y.1, a⁻¹ • y.2) (z.1, a⁻¹ • z.2) (e.1, a⁻¹ • e.2) = eN y z e)
    {c c' : Cfg K (V × V) V} (hc : ClockOptions a (fun y => (y.1, a⁻¹ • y.2)) c c')
    (hm : c.m = nyMethod T f eN) (hm' : c'.m = nyMethod T g eN')
    {t0 : K} {u0 w0 : V} {h0 : K} {e0 : ℕ} {outs : List Out} {v : Solver K (V × V) V}
    (hf : ∀ w, Reach c (newSolver c t0 (u0, w0) h0 e0 fun _ => 0) w → FloorIdle a c c' w.st)
    (hr : Run c (newSolver c t0 (u0, w0) h0 e0 fun _ => 0) outs v) :
    ∃ v', Run c' (newSolver c' (a * t0) (u0, a⁻¹ • w0) (a * h0) e0 fun _ => 0) outs v' ∧ v'.status = v.status ∧
      v'.tOld = v.tOld.map (fun t => a * t) ∧ v'.st.t = a * v.st.t ∧ v'.st.hAbs = a * v.st.hAbs ∧ v'.st.y.1 = v.st.y.1 ∧
      v'.st.y.2 = a⁻¹ • v.st.y.2 ∧ v'.st.f = (a⁻¹ ^ 2) • v.st.f ∧ v'.st.nfev = v.st.nfev ∧ v'.st.nfs = v.st.nfs := by
  have hcm : ClockMethod a (clockPair a) (fun x => (a⁻¹ ^ 2) • x) c.m c'.m := by
    rw [hm, hm']; exact clockMethod_ny ha.ne' (fun t y => hg t y.1 y.2) T fun y z e => hN y z e
  have := run_clock (φ := clockPair a) ha hc hcm hf hr
  simp only [smul_zero, clockPair] at this
  exact ⟨_, this, rfl, rfl, rfl, rfl, rfl, rfl, rfl, rfl, rfl⟩

end

/-! ## The floor of the minimal step -/

section
variable {K V W V' W' : Type*} [Field K] [LinearOrder K] [IsStrictOrderedRing K]

/-- **C127.** The absolute floors play no role in any reachable state if they are below the relative one for all times between `t0` and
`t_bound` (no `max_step`). With the numbers of the code (about `1e-153` and `1e-15`) this excludes only a tiny neighbourhood of `t = 0`. -/
theorem C127_floor {a : K} (ha : 0 < a) {c : Cfg K V W} {c' : Cfg K V' W'} (hc : CfgOK c) (hm : c.maxStep = none) {b : K}
    (hb : c.tb = some b) {t0 : K} (hd : 0 ≤ c.dir * (b - t0)) (hA : 0 ≤ c.hMinA)
    (hx : ∀ t, 0 ≤ c.dir * (t - t0) → 0 ≤ c.dir * (b - t) → c.hMinB ≤ c.hMinA * |t| ∧ c'.hMinB ≤ a * (c.hMinA * |t|))
    {y0 : V} {h0 : K} (hh : 0 < h0) {e0 : ℕ} {Ks0 : ℕ → W} {w : Solver K V W} (hr : Reach c (newSolver c t0 y0 h0 e0 Ks0) w) :
    FloorIdle a c c' w.st := by
  obtain ⟨h1, h2⟩ := C01_never_past_t_bound_default hc hm hb (v0 := newSolver c t0 y0 h0 e0 Ks0) hd hr
  obtain ⟨h3, h4⟩ := hx w.st.t h1 h2
  have h5 := (C58_step_size_positive hc hh hr).1
  have h6 : c.hMinA * |w.st.t| ≤ c.hMinA * (|w.st.t| + w.st.hAbs) := mul_le_mul_of_nonneg_left (by linarith) hA
  exact ⟨h3.trans h6, h4.trans (mul_le_mul_of_nonneg_left h6 ha.le)⟩

end

/-! ## The hypotheses are met -/

/-- `y' = -y` on `[1, 2]`, in seconds and in milliseconds. -/
def exSec : Cfg ℚ ℚ ℚ := exCfg (fun _ y => -y) (scalarErr (1 / 1000) (1 / 1000)) (some 2) 1 none 0

def exMsec : Cfg ℚ ℚ ℚ := exCfg (fun _ y => -y / 1000) (scalarErr (1 / 1000) (1 / 1000)) (some 2000) 1 none 0

example : ∃ v v', Run exSec (newSolver exSec 1 1 (1 / 2) 1 fun _ => 0) [.ok] v ∧ v.st.t = 3 / 2 ∧
    Run exMsec (newSolver exMsec 1000 1 500 1 fun _ => 0) [.ok] v' ∧ v'.st.t = 1500 ∧ v'.st.y = v.st.y := by
  obtain ⟨p, hp⟩ : ∃ p, step exSec 5 (newSolver exSec 1 1 (1 / 2) 1 fun _ => 0) = some p :=
    Option.isSome_iff_exists.1 (by decide +kernel)
  have h1 : p.1 = .ok ∧ p.2.st.t = 3 / 2 := by
    have : ((step exSec 5 (newSolver exSec 1 1 (1 / 2) 1 fun _ => 0)).map fun p => (p.1, p.2.st.t)) = some (.ok, 3 / 2) := by
      decide +kernel
    rw [hp] at this
    simpa using this
  have hr : Run exSec (newSolver exSec 1 1 (1 / 2) 1 fun _ => 0) [.ok] p.2 := by
    refine .cons (fuel := 5) (outs := []) .nil ?_
    rw [hp, ← h1.1]
  obtain ⟨v', h2, -, -, h3, -, h4, -⟩ := C127_runge_kutta (a := (1000 : ℚ)) (by norm_num) (f := fun _ y : ℚ => -y)
    (g := fun _ y : ℚ => -y / 1000) (by intro t y; simp only [smul_eq_mul]; ring) (T := Me4.tab ℚ)
    (eN := scalarErr (1 / 1000) (1 / 1000)) (c := exSec) (c' := exMsec)
    { tb := by simp only [exSec, exMsec, exCfg, Option.map_some]; norm_num
      maxStep := rfl, dir := rfl, hMinA := rfl, tinyErr := rfl, minFactor := rfl, errExp := rfl, minbeta1 := rfl, minbeta2 := rfl
      minalpha := rfl, safety := rfl, safetySc := rfl, pw := rfl, nfevStiff := rfl, stiffEvals := fun _ _ => rfl }
    (.inl ⟨rfl, rfl⟩) (fun w hw => C127_floor (by norm_num) (exCfg_ok _ _ _ (.inl rfl) _ (fun _ h => by cases h) _) rfl
      (b := 2) rfl (t0 := 1) (by norm_num [exSec, exCfg]) (by norm_num [exSec, exCfg]) (by
        intro t ht _
        have h1 : 1 ≤ |t| := by
          have : (0 : ℚ) ≤ 1 * (t - 1) := ht
          exact le_trans (by linarith) (le_abs_self t)
        simp only [exSec, exMsec, exCfg]
        constructor
        · calc (1 / 10 ^ 100 : ℚ) ≤ 1 / 10 ^ 14 * 1 := by norm_num
            _ ≤ _ := by gcongr
        · calc (1 / 10 ^ 100 : ℚ) ≤ 1000 * (1 / 10 ^ 14 * 1) := by norm_num
            _ ≤ _ := by gcongr) (by norm_num) hw) hr
  refine ⟨p.2, v', hr, h1.2, ?_, ?_, h4⟩
  · have e1 : (1000 : ℚ) * 1 = 1000 := by norm_num
    have e2 : (1000 : ℚ) * (1 / 2) = 500 := by norm_num
    rw [e1, e2] at h2
    exact h2
  · rw [h3, h1.2]; norm_num

/-- Without converting `max_step` the claim is false. -/
example : ((step { exSec with maxStep := some (1 / 4) } 5 (newSolver exSec 1 1 (1 / 2) 1 fun _ => 0)).map fun p => p.2.st.t) =
      some (5 / 4) ∧
    ((step { exMsec with maxStep := some (1 / 4) } 5 (newSolver exMsec 1000 1 500 1 fun _ => 0)).map fun p => p.2.st.t) =
      some (1000 + 1 / 4) := by decide +kernel

end Extensisq
