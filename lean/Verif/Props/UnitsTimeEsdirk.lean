import Verif.Props.UnitsEsdirk
import Verif.Props.UnitsTime

/-!
# C129: the implicit methods: the unit of time does not matter

As C127, for the ESDIRK methods: the Jacobian is divided by the factor of the times, so that the matrices `M - h d J` of the Newton
iterations do not change.
-/

set_option linter.unusedSectionVars false
set_option maxRecDepth 100000

namespace Extensisq
open Finset

section
variable {K V : Type*} [Field K] [LinearOrder K] [IsStrictOrderedRing K] [AddCommGroup V] [Module K V]

/-- LU factors in the other unit of time. -/
def Fact.clock (a : K) (F : Fact K V) : Fact K V := ⟨a * F.h, a⁻¹ • F.J⟩

/-- The state in the other unit of time. -/
def ESt.clock (a : K) (s : ESt K V) : ESt K V where
  t := a * s.t
  y := s.y
  yp := a⁻¹ • s.yp
  hAbs := a * s.hAbs
  maxFactor := s.maxFactor
  stdSc := s.stdSc
  hPrev := s.hPrev.map fun h => a * h
  errOld := s.errOld
  yOld := s.yOld
  Ks := fun i => a⁻¹ • s.Ks i
  J := a⁻¹ • s.J
  curJ := s.curJ
  LU := s.LU.map (Fact.clock a)
  hLU := s.hLU.map fun h => a * h
  sc := s.sc.map fun h => a * h
  rate := s.rate
  niter := s.niter
  nfs := s.nfs
  nfi := s.nfi
  nfev := s.nfev
  njev := s.njev
  nlu := s.nlu

/-- The solver in the other unit of time. -/
def ESolver.clock (a : K) (v : ESolver K V) : ESolver K V := ⟨v.status, v.tOld.map fun t => a * t, v.st.clock a⟩

/-- The same problem and options in another unit of time, `t' = a t`. (`hMinB`, the absolute floor of the minimal step, is not mentioned.) -/
structure ClockEsdirk (a : K) (c c' : ECfg K V) : Prop where
  T : c'.T = c.T
  fn : ∀ t y, c'.fn (a * t) y = (c.fn t y).map fun w => a⁻¹ • w
  jac : (c.jac = none ∧ c'.jac = none) ∨ ∃ j j', c.jac = some j ∧ c'.jac = some j' ∧ ∀ k t y, j' k (a * t) y = a⁻¹ • j k t y
  jacEach : c'.jacEach = c.jacEach
  M : c'.M = c.M
  dae : c'.dae = c.dae
  lin : ∀ sc F b, c'.lin (sc.map fun h => a * h) (F.clock a) b = c.lin sc F b
  dzNorm : c'.dzNorm = c.dzNorm
  errNorm : c'.errNorm = c.errNorm
  tb : c'.tb = c.tb.map fun b => a * b
  maxStep : c'.maxStep = c.maxStep.map fun h => a * h
  dir : c'.dir = c.dir
  hMinA : c'.hMinA = c.hMinA
  tinyErr : c'.tinyErr = c.tinyErr
  minFactor : c'.minFactor = c.minFactor
  errExp : c'.errExp = c.errExp
  minbeta1 : c'.minbeta1 = c.minbeta1
  minbeta2 : c'.minbeta2 = c.minbeta2
  minalpha : c'.minalpha = c.minalpha
  safety : c'.safety = c.safety
  safetySc : c'.safetySc = c.safetySc
  pw : c'.pw = c.pw

/-- The absolute floors of the minimal step play no role in this state. -/
def EFloorIdle (a : K) (c c' : ECfg K V) (s : ESt K V) : Prop :=
  c.hMinB ≤ c.hMinA * (|s.t| + s.hAbs) ∧ c'.hMinB ≤ a * (c.hMinA * (|s.t| + s.hAbs))

def StageIn.clock (a : K) (i : StageIn K V) : StageIn K V :=
  ⟨a * i.t, a * i.h, i.psi, i.y, i.F.clock a, i.sc.map fun h => a * h, i.curJ, i.hLU.map fun h => a * h⟩

def Stages.clock (a : K) (g : Stages K V) : Stages K V := { g with Ks := fun i => a⁻¹ • g.Ks i }

def LSt.clock (a : K) (l : LSt K V) : LSt K V :=
  ⟨l.s.clock a, a * l.hAbs, l.LU.map (Fact.clock a), l.sc.map fun h => a * h, l.rej⟩

def Iter.clock (a : K) : Iter K V → Iter K V
  | .done o s => .done o (s.clock a)
  | .again l => .again (l.clock a)

variable {a : K} {c c' : ECfg K V}

theorem ClockEsdirk.linear (hi : ClockEsdirk a c c') : c'.linear = c.linear := by
  unfold ECfg.linear
  rcases hi.jac with ⟨h1, h2⟩ | ⟨j, j', h1, h2, _⟩ <;> rw [h1, h2] <;> rfl

theorem hLU_clock (ha : a ≠ 0) (x : Option K) (h : K) : (x.map fun h => a * h) = some (a * h) ↔ x = some h := by
  cases x with
  | none => simp
  | some y => simp [ha]

theorem newton_clock (ha : a ≠ 0) (hi : ClockEsdirk a c c') (i : StageIn K V) : ∀ (n k : ℕ) (z : V) (d : K) (r : Option K),
    newton c' (i.clock a) n k z d r = newton c i n k z d r := by
  intro n
  induction n with
  | zero => intros; rfl
  | succ n ih =>
    intro k z d r
    unfold newton
    dsimp only
    rw [hi.T, show (i.clock a).psi = i.psi from rfl, show (i.clock a).t = a * i.t from rfl, hi.fn]
    cases hf : c.fn i.t (i.psi + c.T.d • z) with
    | none => rfl
    | some f =>
      simp only [Option.map_some]
      have e3 : c'.lin (i.clock a).sc (i.clock a).F ((i.clock a).h • a⁻¹ • f - c'.M z) = c.lin i.sc i.F (i.h • f - c.M z) := by
        have : (i.clock a).h • a⁻¹ • f = i.h • f := by
          rw [show (i.clock a).h = a * i.h from rfl, smul_smul]
          congr 1
          field_simp
        rw [hi.M, this]
        exact hi.lin _ _ _
      have e5 : ∀ w, newRate c' r d w = newRate c r d w := by intro w; unfold newRate; rw [hi.T]
      have e9 : ((i.clock a).hLU = some (i.clock a).h) = (i.hLU = some i.h) := propext (hLU_clock ha i.hLU i.h)
      rw [e3, hi.dzNorm, hi.linear, hi.tinyErr]
      simp only [e5, ih]
      rw [show (i.clock a).y = i.y from rfl, show (i.clock a).curJ = i.curJ from rfl]
      congr 1
      by_cases hl : i.curJ = true ∧ i.hLU = some i.h
      · rw [if_pos hl, if_pos ⟨hl.1, e9 ▸ hl.2⟩]
      · rw [if_neg hl, if_neg (fun h => hl ⟨h.1, e9 ▸ h.2⟩)]

theorem stages_clock (ha : a ≠ 0) (hi : ClockEsdirk a c c') (t : K) (y : V) (h : K) (F : Fact K V) (sc : Option K) (cj : Bool)
    (hl : Option K) : ∀ (m s : ℕ) (g : Stages K V),
    stages c' (a * t) y (a * h) (F.clock a) (sc.map fun h => a * h) cj (hl.map fun h => a * h) m s (g.clock a) =
      (stages c t y h F sc cj hl m s g).map (Stages.clock a) := by
  intro m
  induction m with
  | zero => intros; rfl
  | succ m ih =>
    intro s g
    unfold stages
    have e1 : ePsi c'.T y (a * h) (g.clock a).Ks s = ePsi c.T y h g.Ks s := by
      simp only [ePsi, hi.T, Stages.clock, smul_weights a h ha]
    have e2 : ePredict c'.T (a * h) (g.clock a).Ks s = ePredict c.T h g.Ks s := by
      simp only [ePredict, hi.T, Stages.clock, smul_weights a h ha]
    rw [e1, e2, hi.T, show a * t + c.T.C s * (a * h) = a * (t + c.T.C s * h) by ring]
    have e3 : solveStage c' ⟨a * (t + c.T.C s * h), a * h, ePsi c.T y h g.Ks s, y, F.clock a, sc.map fun h => a * h, cj,
        hl.map fun h => a * h⟩ (ePredict c.T h g.Ks s) =
        solveStage c ⟨t + c.T.C s * h, h, ePsi c.T y h g.Ks s, y, F, sc, cj, hl⟩ (ePredict c.T h g.Ks s) :=
      newton_clock ha hi ⟨t + c.T.C s * h, h, ePsi c.T y h g.Ks s, y, F, sc, cj, hl⟩ 5 0 _ 0 none
    dsimp only
    rw [e3]
    cases solveStage c ⟨t + c.T.C s * h, h, ePsi c.T y h g.Ks s, y, F, sc, cj, hl⟩ (ePredict c.T h g.Ks s) with
    | none => rfl
    | some o =>
      dsimp only
      cases hcv : o.converged with
      | false =>
        simp only [Bool.false_eq_true, if_false]
        rfl
      | true =>
        simp only [if_true]
        rw [← ih]
        congr 1
        simp only [Stages.clock]
        congr 1
        rw [mul_inv, ← smul_smul]
        exact update_image (fun x : V => a⁻¹ • x) g.Ks s _

theorem attempt_clock (ha : a ≠ 0) (hi : ClockEsdirk a c c') (t : K) (y : V) (h : K) (F : Fact K V) (sc : Option K) (cj : Bool)
    (hl : Option K) (Ks : ℕ → V) :
    attempt c' (a * t) y (a * h) (F.clock a) (sc.map fun h => a * h) cj (hl.map fun h => a * h) (fun i => a⁻¹ • Ks i) =
      (attempt c t y h F sc cj hl Ks).map (Stages.clock a) := by
  unfold attempt
  rw [← stages_clock ha hi, hi.T]
  rfl

theorem factors_clock (ha : a ≠ 0) (hi : ClockEsdirk a c c') (l : LSt K V) (h : K) :
    factors c' (l.clock a) (a * h) =
      ((factors c l h).1.clock a, (factors c l h).2.1.map (fun h => a * h), (factors c l h).2.2.clock a) := by
  have hr : refactor c' (l.clock a) (a * h) = refactor c l h := by
    unfold refactor
    rw [hi.jacEach, hi.linear]
    have e1 : (l.clock a).LU.isNone = l.LU.isNone := by simp [LSt.clock]
    have e2 : ((l.clock a).s.hLU ≠ some (a * h)) ↔ (l.s.hLU ≠ some h) := not_congr (hLU_clock ha l.s.hLU h)
    rw [e1, decide_eq_decide.2 e2]
  unfold factors
  rw [hr, hi.dae]
  split_ifs with h1
  · rfl
  · rfl
  · cases hl : l.LU with
    | none => simp [LSt.clock, hl, Fact.clock, ESt.clock]
    | some F => simp [LSt.clock, hl]

theorem afterFailure_clock (hi : ClockEsdirk a c c') (l : LSt K V) (sc : Option K) (s : ESt K V) :
    afterFailure c' (l.clock a) (sc.map fun h => a * h) (s.clock a) = (afterFailure c l sc s).clock a := by
  unfold afterFailure
  rw [show (s.clock a).curJ = s.curJ from rfl]
  rcases hi.jac with ⟨h1, h2⟩ | ⟨j, j', h1, h2, h3⟩
  · rw [h1, h2]
    split_ifs
    · rfl
    · rw [show (l.clock a).hAbs = a * l.hAbs from rfl, mul_assoc]; rfl
  · rw [h1, h2]
    split_ifs
    · have := h3 s.njev s.t s.y
      simp only [Iter.clock, LSt.clock, ESt.clock, Option.map_none, this]
    · rw [show (l.clock a).hAbs = a * l.hAbs from rfl, mul_assoc]; rfl

theorem eError_clock (ha : a ≠ 0) (hi : ClockEsdirk a c c') (h : K) (F : Fact K V) (sc : Option K) (Ks : ℕ → V) :
    eError c' (a * h) (F.clock a) (sc.map fun h => a * h) (fun i => a⁻¹ • Ks i) = eError c h F sc Ks := by
  unfold eError
  simp only [hi.T, smul_weights a h ha, hi.lin, hi.M]

theorem eAcceptFactor_clock (ha : a ≠ 0) (hi : ClockEsdirk a c c') (s : ESt K V) (h x : K) :
    eAcceptFactor c' (s.clock a) (a * h) x = eAcceptFactor c s h x := by
  unfold eAcceptFactor
  rw [hi.tinyErr, hi.safety, hi.pw, hi.errExp, hi.safetySc, hi.minbeta1, hi.minbeta2, hi.minalpha, hi.minFactor, hi.dir]
  simp only [ESt.clock]
  cases s.hPrev with
  | none => rfl
  | some hp =>
    dsimp only [Option.map_some]
    cases s.errOld with
    | none => rfl
    | some eo => dsimp only; rw [mul_assoc a h, mul_div_mul_left _ _ ha]; rfl

theorem eRejectFactor_clock (hi : ClockEsdirk a c c') (e : ENorm K) : eRejectFactor c' e = eRejectFactor c e := by
  cases e <;> simp only [eRejectFactor, hi.minFactor, hi.safety, hi.pw, hi.errExp]

theorem eRejected_clock (hi : ClockEsdirk a c c') (l : LSt K V) (F : Fact K V) (sc : Option K) (s : ESt K V) (e : ENorm K) :
    eRejected c' (l.clock a) (F.clock a) (sc.map fun h => a * h) (s.clock a) e = (eRejected c l F sc s e).clock a := by
  unfold eRejected
  simp only [eRejectFactor_clock hi, Iter.clock, LSt.clock, mul_assoc, Option.map_some]
  rfl

theorem afterStages_clock (ha : a ≠ 0) (hi : ClockEsdirk a c c') (l : LSt K V) (h : K) (F : Fact K V) (sc : Option K) (s : ESt K V)
    (yn : V) : afterStages c' (l.clock a) (a * h) (F.clock a) (sc.map fun h => a * h) (s.clock a) yn =
      (afterStages c l h F sc s yn).clock a := by
  unfold afterStages
  rw [show (s.clock a).Ks = fun i => a⁻¹ • s.Ks i from rfl, eError_clock ha hi, hi.errNorm, show (s.clock a).y = s.y from rfl]
  cases c.errNorm s.y yn (eError c h F sc s.Ks) with
  | nan => rfl
  | inf => exact eRejected_clock hi l F sc s .inf
  | num x =>
    dsimp only
    by_cases hx : x < 1
    · simp only [hx, if_true]
      unfold eAccepted
      rw [show (l.clock a).hAbs = a * l.hAbs from rfl, eAcceptFactor_clock ha hi]
      cases eAcceptFactor c s l.hAbs x with
      | none => rfl
      | some p =>
        obtain ⟨f0, std⟩ := p
        simp only [eAccept, hi.T, hi.linear, Iter.clock, ESt.clock, mul_assoc, mul_add, Option.map_some]
        rfl
    · simp only [hx, if_false]
      exact eRejected_clock hi l F sc s (.num x)

theorem eIter_clock (ha : 0 < a) (hi : ClockEsdirk a c c') (ms : K) (l : LSt K V) :
    eIter c' (a * ms) (l.clock a) = (eIter c ms l).clock a := by
  unfold eIter
  rw [show (l.clock a).hAbs = a * l.hAbs from rfl, hi.dir, mul_assoc a l.hAbs]
  dsimp only
  rw [factors_clock ha.ne' hi]
  simp only [mul_lt_mul_iff_right₀ ha]
  by_cases hlt : l.hAbs < ms
  · simp only [hlt, if_true]; rfl
  · simp only [hlt, if_false]
    generalize hF : factors c l (l.hAbs * c.dir) = q
    obtain ⟨F, sc, s1⟩ := q
    dsimp only
    have hat : attempt c' (s1.clock a).t (s1.clock a).y (a * (l.hAbs * c.dir)) (F.clock a) (sc.map fun h => a * h) (s1.clock a).curJ
        (s1.clock a).hLU (s1.clock a).Ks = (attempt c s1.t s1.y (l.hAbs * c.dir) F sc s1.curJ s1.hLU s1.Ks).map (Stages.clock a) :=
      attempt_clock ha.ne' hi _ _ _ _ _ _ _ _
    rw [hat]
    cases attempt c s1.t s1.y (l.hAbs * c.dir) F sc s1.curJ s1.hLU s1.Ks with
    | none => rfl
    | some g =>
      simp only [Option.map_some]
      cases hcv : g.converged with
      | true =>
        simp only [Stages.clock, hcv, if_true]
        rw [hi.T]
        exact afterStages_clock ha.ne' hi l _ F sc { s1 with Ks := g.Ks, rate := g.rate, niter := g.niter, nfev := s1.nfev + g.evals } _
      | false =>
        simp only [Stages.clock, hcv, Bool.false_eq_true, if_false]
        exact afterFailure_clock hi l sc
          { s1 with Ks := g.Ks, rate := g.rate, niter := g.niter, nfev := s1.nfev + g.evals, nfi := s1.nfi + 1 }

theorem eLoop_clock (ha : 0 < a) (hi : ClockEsdirk a c c') (ms : K) : ∀ (n : ℕ) (l : LSt K V),
    eLoop c' (a * ms) n (l.clock a) = (eLoop c ms n l).map fun p => (p.1, p.2.clock a) := by
  intro n
  induction n with
  | zero => intros; rfl
  | succ n ih =>
    intro l
    unfold eLoop
    rw [eIter_clock ha hi]
    cases eIter c ms l with
    | done o s => rfl
    | again l' => exact ih l'

theorem preemptRate_clock (ha : a ≠ 0) (hi : ClockEsdirk a c c') (s : ESt K V) (h r hp hl : K) :
    preemptRate c' (s.clock a) (a * h) r (a * hp) (a * hl) = (preemptRate c s h r hp hl).map (ESt.clock a) := by
  unfold preemptRate
  rw [hi.dir, show (s.clock a).niter = s.niter from rfl, mul_assoc a h]
  dsimp only
  rw [mul_div_mul_left _ _ ha, mul_div_mul_left _ _ ha]
  rcases hi.jac with ⟨h1, h2⟩ | ⟨j, j', h1, h2, h3⟩
  · rw [h1, h2]
    split_ifs <;> rfl
  · rw [h1, h2]
    have := h3 s.njev s.t s.y
    split_ifs
    · simp only [Option.map_some, ESt.clock, Option.map_none, this]
    · rfl
    · rfl

theorem preemptive_clock (ha : a ≠ 0) (hi : ClockEsdirk a c c') (s : ESt K V) (h : K) :
    preemptive c' (s.clock a) (a * h) = (preemptive c s h).map (ESt.clock a) := by
  unfold preemptive
  rw [hi.jacEach]
  have e1 : (s.clock a).curJ = s.curJ := rfl
  have e2 : (s.clock a).rate = s.rate := rfl
  have e3 : (s.clock a).hPrev = s.hPrev.map fun h => a * h := rfl
  have e4 : (s.clock a).hLU = s.hLU.map fun h => a * h := rfl
  rw [e1, e2, e3, e4]
  by_cases hb : c.jacEach = true ∧ s.curJ = false
  · rw [if_pos hb, if_pos hb]
    rcases hi.jac with ⟨h1, h2⟩ | ⟨j, j', h1, h2, h3⟩
    · rw [h1, h2]; rfl
    · rw [h1, h2]
      have := h3 s.njev s.t s.y
      simp only [Option.map_some, ESt.clock, Option.map_none, this]
  · rw [if_neg hb, if_neg hb]
    cases s.rate with
    | none => rfl
    | some r =>
      dsimp only
      by_cases hr : 0 < r
      · rw [if_pos hr, if_pos hr]
        cases s.hPrev with
        | none => rfl
        | some hp =>
          cases s.hLU with
          | none => rfl
          | some hl => exact preemptRate_clock ha hi _ _ _ _ _
      · rw [if_neg hr, if_neg hr]; rfl

theorem prepared_clock (s : ESt K V) (b : Bool) : prepared (s.clock a) b = (prepared s b).clock a := by
  simp only [prepared, ESt.clock]
  congr 1
  exact update_image (fun x : V => a⁻¹ • x) s.Ks 0 s.yp

theorem eReassess_clock (ha : 0 < a) (hi : ClockEsdirk a c c') {s : ESt K V} (hf : EFloorIdle a c c' s) (b : Bool) :
    eReassess c' (a * s.t) (a * s.hAbs) b =
      (a * (eReassess c s.t s.hAbs b).1, a * (eReassess c s.t s.hAbs b).2.1, (eReassess c s.t s.hAbs b).2.2) := by
  have hm : eMinStep c' (a * s.t) (a * s.hAbs) = a * eMinStep c s.t s.hAbs := by
    unfold eMinStep
    rw [max_eq_left hf.1, hi.hMinA, abs_mul, abs_of_pos ha, ← mul_add, mul_left_comm, max_eq_left hf.2]
  have hcl : eClips c' (a * s.t) (a * s.hAbs) = eClips c s.t s.hAbs := by
    unfold eClips
    rw [hm, hi.maxStep, overMax_clock ha]
    simp only [mul_lt_mul_iff_right₀ ha]
  have hc1 : eClip c' (a * s.t) (a * s.hAbs) = a * eClip c s.t s.hAbs := by
    unfold eClip
    rw [hcl, hm, hi.maxStep, ← mul_max_of_nonneg _ _ ha.le, capMax_clock ha]
    split_ifs <;> rfl
  have hft : ∀ h1, eFit c'.tb (a * s.t) (a * h1) = a * eFit c.tb s.t h1 := by
    intro h1
    rw [hi.tb]
    unfold eFit
    cases c.tb with
    | none => rfl
    | some b =>
      dsimp only [Option.map_some]
      rw [← mul_sub, abs_mul, abs_of_pos ha, mul_div_mul_left _ _ ha.ne']
      simp only [mul_lt_mul_iff_right₀ ha]
      split_ifs <;> rfl
  unfold eReassess
  rw [hc1, hft, hm, hcl]

/-- **C129** (general form). Corresponding calls of `step()` return the same outcome and corresponding states. -/
theorem C129_step (ha : 0 < a) (hi : ClockEsdirk a c c') (fuel : ℕ) (v : ESolver K V)
    (hf : v.status = .running → EFloorIdle a c c' v.st) :
    eStep c' fuel (v.clock a) = (eStep c fuel v).map fun p => (p.1, p.2.clock a) := by
  unfold eStep
  have e1 : (v.clock a).status = v.status := rfl
  rw [e1]
  cases hst : v.status with
  | running =>
    have hf := hf hst
    dsimp only
    have e2 : (c'.tb = some (v.clock a).st.t) = (c.tb = some v.st.t) := by
      rw [hi.tb]; exact propext (hLU_clock ha.ne' c.tb v.st.t)
    by_cases ht : c.tb = some v.st.t
    · rw [if_pos (e2 ▸ ht), if_pos ht]; rfl
    · rw [if_neg (e2 ▸ ht), if_neg ht]
      have e3 : eStepImpl c' fuel (v.clock a).st = (eStepImpl c fuel v.st).map fun p => (p.1, p.2.clock a) := by
        have er := eReassess_clock ha hi hf v.st.stdSc
        unfold eStepImpl
        rw [show (v.clock a).st = v.st.clock a from rfl]
        generalize v.st = s at er
        have er' : eReassess c' (s.clock a).t (s.clock a).hAbs (s.clock a).stdSc =
          (a * (eReassess c s.t s.hAbs s.stdSc).1, a * (eReassess c s.t s.hAbs s.stdSc).2.1, (eReassess c s.t s.hAbs s.stdSc).2.2) := er
        dsimp only
        rw [er']
        change (match preemptive c' (prepared (s.clock a) (eReassess c s.t s.hAbs s.stdSc).2.2) (a * (eReassess c s.t s.hAbs s.stdSc).1) with
          | none => some (EOut.exc .typeErr, prepared (s.clock a) (eReassess c s.t s.hAbs s.stdSc).2.2)
          | some s2 => eLoop c' (a * (eReassess c s.t s.hAbs s.stdSc).2.1) fuel
              ⟨s2, a * (eReassess c s.t s.hAbs s.stdSc).1, s2.LU, s2.sc, false⟩) =
          Option.map (fun p => (p.1, p.2.clock a))
          (match preemptive c (prepared s (eReassess c s.t s.hAbs s.stdSc).2.2) (eReassess c s.t s.hAbs s.stdSc).1 with
          | none => some (EOut.exc .typeErr, prepared s (eReassess c s.t s.hAbs s.stdSc).2.2)
          | some s2 => eLoop c (eReassess c s.t s.hAbs s.stdSc).2.1 fuel ⟨s2, (eReassess c s.t s.hAbs s.stdSc).1, s2.LU, s2.sc, false⟩)
        rw [prepared_clock, preemptive_clock ha.ne' hi]
        cases preemptive c (prepared s (eReassess c s.t s.hAbs s.stdSc).2.2) (eReassess c s.t s.hAbs s.stdSc).1 with
        | none => rfl
        | some s2 => exact eLoop_clock ha hi _ fuel ⟨s2, _, s2.LU, s2.sc, false⟩
      rw [e3]
      cases eStepImpl c fuel v.st with
      | none => rfl
      | some p =>
        obtain ⟨o, s'⟩ := p
        have e4 : eReached c' (s'.clock a).t = eReached c s'.t := by
          unfold eReached
          rw [hi.tb, hi.dir, show (s'.clock a).t = a * s'.t from rfl]
          cases c.tb with
          | none => rfl
          | some b =>
            dsimp only [Option.map_some]
            rw [← mul_sub, mul_left_comm]
            simp only [mul_nonneg_iff_of_pos_left ha]
        cases o with
        | ok => simp only [Option.map_some, e4]; rfl
        | tooSmall => rfl
        | exc e => rfl
  | finished => rfl
  | failed => rfl

/-- **C129.** ESDIRK methods for `M y' = f(t, y)`: time is measured in another unit, `t' = a t`, so that `f` and the Jacobian are divided
by `a`; `t_bound`, `max_step` and the first step are converted. Every sequence of calls of `step()` gives the same outcomes, solution
values, Newton failures, rejections, evaluations, Jacobians and factorisations; the times and step sizes are multiplied by `a`. -/
theorem C129_run (ha : 0 < a) (hi : ClockEsdirk a c c') {t0 : K} {y0 yp0 : V} {J0 : V →ₗ[K] V} {h0 : K} {nf nj : ℕ} {outs : List EOut}
    {v : ESolver K V}
    (hf : ∀ os w, os <:+ outs → ECalls c (newESolver t0 y0 yp0 J0 h0 (fun _ => 0) nf nj) os w → w.status = .running →
      EFloorIdle a c c' w.st)
    (hr : ECalls c (newESolver t0 y0 yp0 J0 h0 (fun _ => 0) nf nj) outs v) :
    ∃ v', ECalls c' (newESolver (a * t0) y0 (a⁻¹ • yp0) (a⁻¹ • J0) (a * h0) (fun _ => 0) nf nj) outs v' ∧ v'.status = v.status ∧
      v'.tOld = v.tOld.map (fun t => a * t) ∧ v'.st.t = a * v.st.t ∧ v'.st.hAbs = a * v.st.hAbs ∧ v'.st.y = v.st.y ∧
      v'.st.yp = a⁻¹ • v.st.yp ∧ v'.st.nfev = v.st.nfev ∧ v'.st.njev = v.st.njev ∧ v'.st.nlu = v.st.nlu ∧ v'.st.nfs = v.st.nfs ∧
      v'.st.nfi = v.st.nfi := by
  have e0 : newESolver (a * t0) y0 (a⁻¹ • yp0) (a⁻¹ • J0) (a * h0) (fun _ => (0 : V)) nf nj =
      (newESolver t0 y0 yp0 J0 h0 (fun _ => 0) nf nj).clock a := by
    simp [newESolver, ESolver.clock, ESt.clock]
  have h : ECalls c' ((newESolver t0 y0 yp0 J0 h0 (fun _ => 0) nf nj).clock a) outs (v.clock a) := by
    induction hr with
    | nil => exact .nil
    | @cons outs v v' o fuel hp hs ih =>
      refine .cons (fuel := fuel) (ih fun os w ho hw => hf os w (ho.trans (List.suffix_cons _ _)) hw) ?_
      rw [C129_step ha hi fuel v (hf _ v (List.suffix_cons _ _) hp), hs]
      rfl
  rw [e0]
  exact ⟨_, h, rfl, rfl, rfl, rfl, rfl, rfl, rfl, rfl, rfl, rfl, rfl⟩

/-- **C129.** Exact solves of the linear systems meet the assumption on the linear solver. -/
theorem C129_exact_solve (ha : a ≠ 0) (M : V →ₗ[K] V) (d : K) (F : Fact K V) (b : V) :
    exactSolve M d (F.clock a) b = exactSolve M d F b := by
  unfold exactSolve
  rw [show (F.clock a).h = a * F.h from rfl, show (F.clock a).J = a⁻¹ • F.J from rfl, smul_smul,
    show a * F.h * d * a⁻¹ = F.h * d by field_simp]

/-- **C129.** The absolute floors play no role in a run (without a NaN error norm) if they are below the relative one for all times between
`t0` and `t_bound`. -/
theorem C129_floor (ha : 0 < a) (hc : ECfgOK c) {b : K} (hb : c.tb = some b) {t0 : K} (hd : 0 ≤ c.dir * (b - t0))
    (hx : ∀ t, 0 ≤ c.dir * (t - t0) → 0 ≤ c.dir * (b - t) → c.hMinB ≤ c.hMinA * |t| ∧ c'.hMinB ≤ a * (c.hMinA * |t|))
    {y0 yp0 : V} {J0 : V →ₗ[K] V} {h0 : K} (hh : 0 < h0) {nf nj : ℕ} {os : List EOut} {w : ESolver K V} (hn : EOut.exc .nanErr ∉ os)
    (hr : ECalls c (newESolver t0 y0 yp0 J0 h0 (fun _ => 0) nf nj) os w) : w.status = .running → EFloorIdle a c c' w.st := by
  have hnew : IsNew (newESolver t0 y0 yp0 J0 h0 (fun _ => (0 : V)) nf nj) t0 y0 yp0 J0 := ⟨_, _, _, _, hh, rfl⟩
  have hr' : EReach c (newESolver t0 y0 yp0 J0 h0 (fun _ => 0) nf nj) w := by
    induction hr with
    | nil => exact .refl
    | @cons outs v v' o fuel hp hs ih =>
      exact .tail (ih fun h => hn (List.mem_cons_of_mem _ h)) hs fun h => hn (h ▸ List.mem_cons_self)
  intro hw
  obtain ⟨h1, h2⟩ := C34_never_past_t_bound hc hb hnew hd hr'
  obtain ⟨h3, h4⟩ := hx w.st.t h1 h2
  have h5 := (hr'.inv hc hnew.inv hw).pos
  have h6 : c.hMinA * |w.st.t| ≤ c.hMinA * (|w.st.t| + w.st.hAbs) := mul_le_mul_of_nonneg_left (by linarith) hc.hMinA
  exact ⟨h3.trans h6, h4.trans (mul_le_mul_of_nonneg_left h6 ha.le)⟩

end

/-! ## The hypotheses are met -/

/-- `y' = -y^2` on `[1, 2]` in seconds and in milliseconds. -/
def exESec : ECfg ℚ ℚ := exE (fun _ y => some (-(y * y))) (some fun _ _ y => scal (-2 * y)) exErr (some 2) 1 none

def exEMsec : ECfg ℚ ℚ := exE (fun _ y => some (-(y * y) / 1000)) (some fun _ _ y => scal (-2 * y / 1000)) exErr (some 2000) 1 none

theorem exEMsec_clock : ClockEsdirk 1000 exESec exEMsec where
  T := rfl
  fn := fun t y => by simp only [exESec, exEMsec, exE, Option.map_some, smul_eq_mul]; congr 1; ring
  jac := .inr ⟨_, _, rfl, rfl, fun k t y => by
    ext
    simp only [scal, LinearMap.smul_apply, LinearMap.coe_mk, AddHom.coe_mk, smul_eq_mul]
    ring⟩
  jacEach := rfl
  M := rfl
  dae := rfl
  lin := fun sc F b => by
    simp only [exESec, exEMsec, exE, Fact.clock, LinearMap.smul_apply, smul_eq_mul]
    congr 2
    ring
  dzNorm := rfl
  errNorm := rfl
  tb := by simp only [exESec, exEMsec, exE, Option.map_some]; norm_num
  maxStep := rfl
  dir := rfl
  hMinA := rfl
  tinyErr := rfl
  minFactor := rfl
  errExp := rfl
  minbeta1 := rfl
  minbeta2 := rfl
  minalpha := rfl
  safety := rfl
  safetySc := rfl
  pw := rfl

/-- A step with Newton iterations, in the two units. -/
example : ∃ v v', ECalls exESec (newESolver 1 1 (-1) (scal (-2)) (1 / 2) (fun _ => 0) 1 1) [.ok] v ∧ v.st.t = 3 / 2 ∧
    ECalls exEMsec (newESolver 1000 1 (-1 / 1000) (scal (-2 / 1000)) 500 (fun _ => 0) 1 1) [.ok] v' ∧ v'.st.t = 1500 ∧
    v'.st.y = v.st.y := by
  obtain ⟨p, hp⟩ : ∃ p, eStep exESec 10 (newESolver 1 1 (-1) (scal (-2)) (1 / 2) (fun _ => 0) 1 1) = some p :=
    Option.isSome_iff_exists.1 (by decide +kernel)
  have h1 : p.1 = .ok ∧ p.2.st.t = 3 / 2 := by
    have : ((eStep exESec 10 (newESolver 1 1 (-1) (scal (-2)) (1 / 2) (fun _ => 0) 1 1)).map fun p => (p.1, p.2.st.t)) =
        some (.ok, 3 / 2) := by decide +kernel
    rw [hp] at this
    simpa using this
  have hr : ECalls exESec (newESolver 1 1 (-1) (scal (-2)) (1 / 2) (fun _ => 0) 1 1) [.ok] p.2 := by
    refine .cons (fuel := 10) .nil ?_
    rw [hp, ← h1.1]
  obtain ⟨v', h2, -, -, h3, -, h4, -⟩ := C129_run (by norm_num) exEMsec_clock
    (fun os w ho hw => C129_floor (by norm_num) (exE_ok _ _ _ _ (.inl rfl) _ (fun _ h => by cases h)) (b := 2) rfl
      (by norm_num [exESec, exE]) (by
        intro t ht _
        have h1 : 1 ≤ |t| := by
          have : (0 : ℚ) ≤ 1 * (t - 1) := ht
          exact le_trans (by linarith) (le_abs_self t)
        simp only [exEMsec, exE]
        constructor
        · calc (1 / 10 ^ 100 : ℚ) ≤ 1 / 10 ^ 14 * 1 := by norm_num
            _ ≤ _ := by gcongr
        · calc (1 / 10 ^ 100 : ℚ) ≤ 1000 * (1 / 10 ^ 14 * 1) := by norm_num
            _ ≤ _ := by gcongr) (by norm_num) (fun h => by have := ho.subset h; simp at this) hw) hr
  refine ⟨p.2, v', hr, h1.2, ?_, ?_, h4⟩
  · have e1 : (1000 : ℚ) * 1 = 1000 := by norm_num
    have e2 : (1000 : ℚ) * (1 / 2) = 500 := by norm_num
    have e3 : (1000 : ℚ)⁻¹ • (-1 : ℚ) = -1 / 1000 := by norm_num
    have e4 : (1000 : ℚ)⁻¹ • scal (-2) = scal (-2 / 1000) := by
      ext
      simp only [scal, LinearMap.smul_apply, LinearMap.coe_mk, AddHom.coe_mk, smul_eq_mul]
      ring
    rw [e1, e2, e3, e4] at h2
    exact h2
  · rw [h3, h1.2]; norm_num

end Extensisq
