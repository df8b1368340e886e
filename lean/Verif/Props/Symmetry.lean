import Verif.Props.RKStep

/-!
# C17: time reversal

Solving `y' = f(t, y)` in one direction and `y' = -f(-t, y)` in the other direction are mirror images.
-/

set_option linter.unusedSectionVars false

namespace Extensisq
open Finset

section
variable {K V W : Type*} [Field K] [LinearOrder K] [IsStrictOrderedRing K]
  [AddCommGroup W]

/-- Mirror image of the driver state: times, derivatives, stages and signed steps change sign; the
solution, the (unsigned) step sizes, error norms and counters do not. -/
def St.mirror (s : St K V W) : St K V W :=
  { s with t := -s.t, f := -s.f, hPrev := s.hPrev.map (- ·), fOld := s.fOld.map (- ·),
           Ks := fun i => -s.Ks i, havg := -s.havg }

def Solver.mirror (v : Solver K V W) : Solver K V W :=
  { v with tOld := v.tOld.map (- ·), st := v.st.mirror }

/-- Two methods whose attempts are mirror images of each other. -/
structure MirrorMethod (m m' : Method K V W) : Prop where
  nStages : m'.nStages = m.nStages
  fsal : m'.fsal = m.fsal
  costPre : m'.costPre = m.costPre
  nfsOverflow : m'.nfsOverflow = m.nfsOverflow
  rhs : ∀ t y, m'.rhs (-t) y = -m.rhs t y
  stages : ∀ t y f h Ks, (m'.trial (-t) y (-f) (-h) (fun i => -Ks i)).stages =
    fun i => -(m.trial t y f h Ks).stages i
  yNew : ∀ t y f h Ks, (m'.trial (-t) y (-f) (-h) (fun i => -Ks i)).yNew =
    (m.trial t y f h Ks).yNew
  err : ∀ t y f h Ks, (m'.trial (-t) y (-f) (-h) (fun i => -Ks i)).err =
    (m.trial t y f h Ks).err
  pre : ∀ t y f h Ks, (m'.trial (-t) y (-f) (-h) (fun i => -Ks i)).pre =
    (m.trial t y f h Ks).pre
  preStages : ∀ t y f h Ks, (m'.trial (-t) y (-f) (-h) (fun i => -Ks i)).preStages =
    fun i => -(m.trial t y f h Ks).preStages i

/-- The mirrored solver configuration (the stiffness test makes as many evaluations as for the
original problem; by C30 this does not matter for the solution). -/
def Cfg.mirror (c : Cfg K V W) (m' : Method K V W) : Cfg K V W :=
  { c with m := m', tb := c.tb.map (- ·), dir := -c.dir,
           stiffEvals := fun t y => c.stiffEvals (-t) y }

theorem reassess_mirror (c : Cfg K V W) (m' : Method K V W) (s : St K V W) :
    reassess (c.mirror m') s.mirror = reassess c s := by
  have e1 : minStepOf (c.mirror m') s.mirror.t s.mirror.hAbs = minStepOf c s.t s.hAbs := by
    simp [minStepOf, Cfg.mirror, St.mirror]
  have eh : s.mirror.hAbs = s.hAbs := rfl
  have es : s.mirror.stdSc = s.stdSc := rfl
  have em : (c.mirror m').maxStep = c.maxStep := rfl
  rw [eh] at e1
  unfold reassess
  dsimp only
  rw [eh, es, em, e1]
  cases hb : c.tb with
  | none => simp [Cfg.mirror, hb]
  | some b =>
    have e2 : (c.mirror m').tb = some (-b) := by simp [Cfg.mirror, hb]
    have e3 : |(-b) - s.mirror.t| = |b - s.t| := by
      rw [← abs_neg]; congr 1; simp [St.mirror]; ring
    rw [e2]
    simp only [e3]

theorem acceptFactor_mirror (c : Cfg K V W) (m' : Method K V W) (s : St K V W) (h x : K) :
    acceptFactor (c.mirror m') s.mirror (-h) x = acceptFactor c s h x := by
  unfold acceptFactor
  simp only [Cfg.mirror, St.mirror]
  cases hp : s.hPrev with
  | none => simp only [Option.map_none]; rfl
  | some a =>
    cases he : s.errOld with
    | none => simp only [Option.map_some]; rfl
    | some e => simp [neg_div_neg_eq]

theorem diagnose_mirror (c : Cfg K V W) {m' : Method K V W} (hm : m'.nStages = c.m.nStages)
    (s : St K V W) (hp : s.hPrev ≠ none) :
    diagnose (c.mirror m') s.mirror = (diagnose c s).map (fun p => (p.1.mirror, p.2)) := by
  obtain ⟨a, ha⟩ := Option.ne_none_iff_exists'.mp hp
  unfold diagnose
  simp only [Cfg.mirror, St.mirror, hm, ha, Option.map_some, Option.getD_some]
  by_cases h0 : c.nfevStiff = 0
  · simp [h0, ha]
  · simp only [h0, if_false]
    by_cases h1 : c.nfevStiff / c.m.nStages = 0
    · simp [h1]
    · simp only [h1, if_false, Option.map_some, Option.some.injEq, Prod.mk.injEq, and_true,
        St.mk.injEq, true_and, neg_neg]
      split_ifs
      · rfl
      · ring

theorem diagnoseRaise_mirror (s : St K V W) (hp : s.hPrev ≠ none) :
    diagnoseRaise s.mirror = (diagnoseRaise s).mirror := by
  obtain ⟨a, ha⟩ := Option.ne_none_iff_exists'.mp hp
  unfold diagnoseRaise
  simp only [St.mirror, ha, Option.map_some, Option.getD_some, St.mk.injEq, true_and, and_true]
  split_ifs
  · rfl
  · ring

theorem acceptState_mirror (c : Cfg K V W) {m' : Method K V W} (hm : MirrorMethod c.m m')
    (s : St K V W) (h hn x fac : K) (std : Bool) (Ks : ℕ → W) :
    acceptState (c.mirror m') s.mirror (m'.trial (-s.t) s.y (-s.f) (-h) (fun i => -Ks i)) (-h) hn x
      fac std =
    (acceptState c s (c.m.trial s.t s.y s.f h Ks) h hn x fac std).mirror := by
  unfold acceptState
  simp only [Cfg.mirror, St.mirror, hm.nStages, hm.fsal, hm.yNew, hm.stages, Method.cost,
    St.mk.injEq, true_and, and_true, Option.map_some]
  have e1 : m'.rhs (-s.t + -h) (c.m.trial s.t s.y s.f h Ks).yNew =
      -c.m.rhs (s.t + h) (c.m.trial s.t s.y s.f h Ks).yNew := by
    rw [← neg_add]; exact hm.rhs _ _
  have e2 : (if c.m.fsal = true then fun i => -(c.m.trial s.t s.y s.f h Ks).stages i
      else Function.update (fun i => -(c.m.trial s.t s.y s.f h Ks).stages i) c.m.nStages
        (m'.rhs (-s.t + -h) (c.m.trial s.t s.y s.f h Ks).yNew)) =
      fun i => -(if c.m.fsal = true then (c.m.trial s.t s.y s.f h Ks).stages
      else Function.update (c.m.trial s.t s.y s.f h Ks).stages c.m.nStages
        (c.m.rhs (s.t + h) (c.m.trial s.t s.y s.f h Ks).yNew)) i := by
    split_ifs
    · rfl
    · rw [e1]
      funext i
      by_cases hi : i = c.m.nStages
      · subst hi; simp
      · simp [Function.update_of_ne hi]
  rw [e2]
  exact ⟨by ring, rfl, rfl⟩

theorem loop_mirror (c : Cfg K V W) {m' : Method K V W} (hm : MirrorMethod c.m m') (ms : K) :
    ∀ (n : ℕ) (s : St K V W) (h : K) (rej : Bool),
      loop (c.mirror m') n s.mirror h ms rej =
        (loop c n s h ms rej).map (fun p => (p.1, p.2.mirror)) := by
  intro n
  induction n with
  | zero => intros; rfl
  | succ n ih =>
    intro s h rej
    unfold loop
    by_cases hlt : h < ms
    · simp [hlt]
    · simp only [hlt, if_false]
      have e0 : h * (c.mirror m').dir = -(h * c.dir) := by simp [Cfg.mirror]
      have e1 : (c.mirror m').m = m' := rfl
      have e2 : (c.mirror m').m.trial s.mirror.t s.mirror.y s.mirror.f (h * (c.mirror m').dir)
          s.mirror.Ks = m'.trial (-s.t) s.y (-s.f) (-(h * c.dir)) (fun i => -s.Ks i) := by
        rw [e0]; rfl
      have ecost : m'.cost = c.m.cost := by unfold Method.cost; rw [hm.nStages, hm.fsal]
      rw [e2, hm.err, hm.pre, hm.preStages, e0, e1, ecost, hm.costPre, hm.nfsOverflow]
      cases hpre : (c.m.trial s.t s.y s.f (h * c.dir) s.Ks).pre.gt 1 with
      | true => simp only [if_true]; rw [← ih]; rfl
      | false =>
      simp only [Bool.false_eq_true, if_false]
      cases herr : (c.m.trial s.t s.y s.f (h * c.dir) s.Ks).err with
      | inf => simp only [Option.map_some, hm.stages]; rfl
      | nan => simp only [Option.map_some, hm.stages]; rfl
      | num x =>
        dsimp only
        by_cases hx : x < 1
        · simp only [hx, if_true]
          rw [acceptFactor_mirror]
          cases haf : acceptFactor c s (h * c.dir) x with
          | none => simp only [Option.map_some, hm.stages]; rfl
          | some p =>
            obtain ⟨f0, std⟩ := p
            dsimp only
            rw [acceptState_mirror c hm, diagnose_mirror c hm.nStages _ (by simp [acceptState])]
            generalize hs1 : acceptState c s (c.m.trial s.t s.y s.f (h * c.dir) s.Ks) (h * c.dir)
              (h * (if rej = true then min 1 f0 else f0)) x (if rej = true then min 1 f0 else f0) std
              = s1
            have hp : s1.hPrev ≠ none := by rw [← hs1]; simp [acceptState]
            cases hd : diagnose c s1 with
            | none =>
              simp only [Option.map_none, Option.map_some]
              rw [diagnoseRaise_mirror s1 hp]
            | some q => rfl
        · simp only [hx, if_false]
          rw [← ih]
          simp only [hm.stages]
          rfl

/-- **C17** (general form). Corresponding calls of `step()` on the two solvers return the same outcome
and mirrored states: same solution, same step sizes, same accept/reject decisions. -/
theorem C17_step_mirror (c : Cfg K V W) {m' : Method K V W} (hm : MirrorMethod c.m m')
    (fuel : ℕ) (v : Solver K V W) :
    step (c.mirror m') fuel v.mirror = (step c fuel v).map (fun p => (p.1, p.2.mirror)) := by
  unfold step
  have e1 : v.mirror.status = v.status := rfl
  rw [e1]
  cases v.status with
  | running =>
    dsimp only
    have e2 : ((c.mirror m').tb = some v.mirror.st.t) ↔ (c.tb = some v.st.t) := by
      cases hb : c.tb with
      | none => simp [Cfg.mirror, hb]
      | some b => simp [Cfg.mirror, hb, Solver.mirror, St.mirror]
    by_cases ht : c.tb = some v.st.t
    · simp only [e2.mpr ht, ht, if_true]; rfl
    · simp only [mt e2.mp ht, ht, if_false]
      have e3 : stepImpl (c.mirror m') fuel v.mirror.st =
          (stepImpl c fuel v.st).map (fun p => (p.1, p.2.mirror)) := by
        unfold stepImpl
        have : v.mirror.st = v.st.mirror := rfl
        rw [this, reassess_mirror]
        exact loop_mirror c hm _ _ { v.st with stdSc := (reassess c v.st).2.2 } _ _
      rw [e3]
      cases hi : stepImpl c fuel v.st with
      | none => rfl
      | some p =>
        obtain ⟨o, s'⟩ := p
        have e4 : reached (c.mirror m') s'.mirror.t = reached c s'.t := by
          unfold reached
          cases hb : c.tb with
          | none => simp [Cfg.mirror, hb]
          | some b =>
            simp only [Cfg.mirror, hb, Option.map_some, St.mirror]
            congr 2; ring_nf
        cases o with
        | ok => simp only [Option.map_some, e4]; rfl
        | fail m => rfl
        | exc e => rfl
  | finished => rfl
  | failed => rfl

end

section
variable {K V : Type*} [Field K] [LinearOrder K] [IsStrictOrderedRing K] [AddCommGroup V]
  [Module K V]

theorem rkStages_mirror (T : Tableau K) (f : K → V → V) (t : K) (y : V) (h : K) (n : ℕ)
    (Ks : ℕ → V) :
    rkStages T (fun t y => -f (-t) y) (-t) y (-h) n (fun i => -Ks i) =
      fun i => -rkStages T f t y h n Ks i := by
  induction n with
  | zero => rfl
  | succ n ih =>
    cases n with
    | zero => rfl
    | succ n =>
      simp only [rkStages]
      rw [ih]
      funext i
      by_cases hi : i = n + 1
      · subst hi
        simp only [Function.update_self, rkStage]
        congr 2
        · ring
        · congr 1
          simp only [smul_neg, sum_neg_distrib, neg_smul, neg_neg]
      · simp [Function.update_of_ne hi]

/-- The Runge-Kutta class applied to `f` and to `-f(-t, y)` gives mirrored attempts. -/
theorem mirrorMethod_rk (T : Tableau K) (f : K → V → V) (errNorm : V → V → V → ENorm K)
    {P : PreTest K V} (hP : ∀ y h Ks, P.norm y (-h) (fun i => -Ks i) = P.norm y h Ks) :
    MirrorMethod (rkMethod T f errNorm P) (rkMethod T (fun t y => -f (-t) y) errNorm P) := by
  have hst : ∀ (n : ℕ) (t : K) (y fv : V) (h : K) (Ks : ℕ → V),
      rkStages T (fun t y => -f (-t) y) (-t) y (-h) n
        (Function.update (fun i => -Ks i) 0 (-fv)) =
      fun i => -rkStages T f t y h n (Function.update Ks 0 fv) i := by
    intro n t y fv h Ks
    rw [← rkStages_mirror]
    congr 1
    funext i
    by_cases hi : i = 0
    · subst hi; simp
    · simp [Function.update_of_ne hi]
  have hyn : ∀ (t : K) (y fv : V) (h : K) (Ks : ℕ → V),
      (rkTrial T (fun t y => -f (-t) y) errNorm (-t) y (-fv) (-h) (fun i => -Ks i)).yNew =
      (rkTrial T f errNorm t y fv h Ks).yNew := by
    intro t y fv h Ks
    simp only [rkTrial, hst, rkSolution, smul_neg, sum_neg_distrib, neg_smul, neg_neg]
  have hK : ∀ (t : K) (y fv : V) (h : K) (Ks : ℕ → V),
      (rkTrial T (fun t y => -f (-t) y) errNorm (-t) y (-fv) (-h) (fun i => -Ks i)).stages =
      fun i => -(rkTrial T f errNorm t y fv h Ks).stages i := by
    intro t y fv h Ks
    have hy := hyn t y fv h Ks
    simp only [rkTrial] at hy ⊢
    rw [hy, hst]
    split_ifs
    · funext i
      by_cases hi : i = T.s
      · subst hi; simp only [Function.update_self]; congr 2; ring
      · simp [Function.update_of_ne hi]
    · rfl
  refine ⟨rfl, rfl, rfl, rfl, ?_, hK, hyn, ?_, ?_, fun t y fv h Ks => hst _ t y fv h Ks⟩
  · intro t y; simp [rkMethod]
  · intro t y fv h Ks
    have hy := hyn t y fv h Ks
    have hk := hK t y fv h Ks
    have e : ∀ (g : K → V → V) (t : K) (y fv : V) (h : K) (Ks : ℕ → V),
      (rkTrial T g errNorm t y fv h Ks).err = errNorm y (rkTrial T g errNorm t y fv h Ks).yNew
        (rkError T h (rkTrial T g errNorm t y fv h Ks).stages) := fun _ _ _ _ _ _ => rfl
    change (rkTrial T (fun t y => -f (-t) y) errNorm (-t) y (-fv) (-h) (fun i => -Ks i)).err =
      (rkTrial T f errNorm t y fv h Ks).err
    rw [e, e, hy, hk]
    congr 1
    simp only [rkError, smul_neg, sum_neg_distrib, neg_smul, neg_neg]
  · intro t y fv h Ks
    simp only [rkMethod, hst]
    rw [hP]

theorem PreTest.none_even (y : V) (h : K) (Ks : ℕ → V) :
    (PreTest.none : PreTest K V).norm y (-h) (fun i => -Ks i) = (PreTest.none).norm y h Ks := rfl

theorem PreTest.linear_even (n : ℕ) (Bp Ep : ℕ → K) (errNorm : V → V → V → ENorm K) (cnt : ℕ)
    (y : V) (h : K) (Ks : ℕ → V) :
    (PreTest.linear n Bp Ep errNorm cnt).norm y (-h) (fun i => -Ks i) =
      (PreTest.linear n Bp Ep errNorm cnt).norm y h Ks := by
  simp [PreTest.linear]

/-- **C17**. For the Runge-Kutta class: whatever a solver for `y' = f(t,y)` does in any history of
`step()` calls, the solver for `y' = -f(-t,y)` started at the mirrored point with mirrored bounds
does the mirror image of it. -/
theorem C17_time_reversal {c : Cfg K V V} {T : Tableau K} {f : K → V → V}
    {errNorm : V → V → V → ENorm K} {P : PreTest K V}
    (hP : ∀ y h Ks, P.norm y (-h) (fun i => -Ks i) = P.norm y h Ks)
    (hm : c.m = rkMethod T f errNorm P) {t0 : K} {y0 : V} {h0 : K}
    {e0 : ℕ} {Ks0 : ℕ → V} {outs : List Out} {v : Solver K V V}
    (hr : Run c (newSolver c t0 y0 h0 e0 Ks0) outs v) :
    Run (c.mirror (rkMethod T (fun t y => -f (-t) y) errNorm P))
      (newSolver (c.mirror (rkMethod T (fun t y => -f (-t) y) errNorm P)) (-t0) y0 h0 e0
        (fun i => -Ks0 i)) outs v.mirror := by
  have hmm : MirrorMethod c.m (rkMethod T (fun t y => -f (-t) y) errNorm P) := by
    rw [hm]; exact mirrorMethod_rk T f errNorm hP
  induction hr with
  | nil =>
    have : (newSolver c t0 y0 h0 e0 Ks0).mirror =
        newSolver (c.mirror (rkMethod T (fun t y => -f (-t) y) errNorm P)) (-t0) y0 h0 e0
          (fun i => -Ks0 i) := by
      simp [newSolver, Solver.mirror, St.mirror, Cfg.mirror, rkMethod, hm]
    rw [← this]
    exact .nil
  | @cons outs v v' o fuel _ hs ih =>
    refine .cons (fuel := fuel) ih ?_
    rw [C17_step_mirror c hmm, hs]
    rfl

end
end Extensisq
