import Verif.Props.Units
import Verif.Props.EsdirkWitness

/-!
# C125: the implicit methods: units and numbering of the components do not matter

The run of an ESDIRK solver on the image of a problem under an invertible linear map that keeps the norms is the image of the run on the
original problem: same outcomes, times, step sizes, Newton iterations, Jacobians, factorisations and counters. With the norms of the code
and exact solves of the linear systems this covers unit conversions and renumberings.
-/

set_option linter.unusedSectionVars false
set_option maxRecDepth 100000

namespace Extensisq
open Finset

section
variable {K V U : Type*} [Field K] [LinearOrder K] [AddCommGroup V] [Module K V] [AddCommGroup U] [Module K U]

/-- A matrix in the new variables. -/
def conjL (L : V ≃ₗ[K] U) (J : V →ₗ[K] V) : U →ₗ[K] U := L.toLinearMap ∘ₗ J ∘ₗ L.symm.toLinearMap

@[simp] theorem conjL_apply (L : V ≃ₗ[K] U) (J : V →ₗ[K] V) (x : V) : conjL L J (L x) = L (J x) := by simp [conjL]

/-- The image of LU factors. -/
def Fact.image (L : V ≃ₗ[K] U) (F : Fact K V) : Fact K U := ⟨F.h, conjL L F.J⟩

/-- The image of a state: vectors and matrices are mapped, everything else is unchanged. -/
def ESt.image (L : V ≃ₗ[K] U) (s : ESt K V) : ESt K U where
  t := s.t
  y := L s.y
  yp := L s.yp
  hAbs := s.hAbs
  maxFactor := s.maxFactor
  stdSc := s.stdSc
  hPrev := s.hPrev
  errOld := s.errOld
  yOld := s.yOld.map L
  Ks := fun i => L (s.Ks i)
  J := conjL L s.J
  curJ := s.curJ
  LU := s.LU.map (Fact.image L)
  hLU := s.hLU
  sc := s.sc
  rate := s.rate
  niter := s.niter
  nfs := s.nfs
  nfi := s.nfi
  nfev := s.nfev
  njev := s.njev
  nlu := s.nlu

/-- The image of a solver. -/
def ESolver.image (L : V ≃ₗ[K] U) (v : ESolver K V) : ESolver K U := ⟨v.status, v.tOld, v.st.image L⟩

/-- Two configurations with the same options for a problem and its image. -/
structure ImageEsdirk (L : V ≃ₗ[K] U) (c : ECfg K V) (c' : ECfg K U) : Prop where
  T : c'.T = c.T
  fn : ∀ t y, c'.fn t (L y) = (c.fn t y).map L
  jac : ∀ k t y, (c'.jac.map fun j => j k t (L y)) = c.jac.map fun j => conjL L (j k t y)
  jacEach : c'.jacEach = c.jacEach
  M : ∀ z, c'.M (L z) = L (c.M z)
  dae : c'.dae = c.dae
  lin : ∀ sc F b, c'.lin sc (F.image L) (L b) = L (c.lin sc F b)
  dzNorm : ∀ y z e, c'.dzNorm (L y) (L z) (L e) = c.dzNorm y z e
  errNorm : ∀ y z e, c'.errNorm (L y) (L z) (L e) = c.errNorm y z e
  tb : c'.tb = c.tb
  dir : c'.dir = c.dir
  maxStep : c'.maxStep = c.maxStep
  hMinA : c'.hMinA = c.hMinA
  hMinB : c'.hMinB = c.hMinB
  tinyErr : c'.tinyErr = c.tinyErr
  minFactor : c'.minFactor = c.minFactor
  errExp : c'.errExp = c.errExp
  minbeta1 : c'.minbeta1 = c.minbeta1
  minbeta2 : c'.minbeta2 = c.minbeta2
  minalpha : c'.minalpha = c.minalpha
  safety : c'.safety = c.safety
  safetySc : c'.safetySc = c.safetySc
  pw : c'.pw = c.pw

/-- Images of the intermediate results. -/
def NewtonOut.image (L : V ≃ₗ[K] U) (o : NewtonOut K V) : NewtonOut K U := ⟨o.converged, L o.z, o.rate, o.niter, o.evals⟩

def StageIn.image (L : V ≃ₗ[K] U) (i : StageIn K V) : StageIn K U := ⟨i.t, i.h, L i.psi, L i.y, i.F.image L, i.sc, i.curJ, i.hLU⟩

def Stages.image (L : V ≃ₗ[K] U) (a : Stages K V) : Stages K U :=
  ⟨a.converged, L a.psi, L a.z, fun i => L (a.Ks i), a.rate, a.niter, a.evals⟩

def LSt.image (L : V ≃ₗ[K] U) (l : LSt K V) : LSt K U := ⟨l.s.image L, l.hAbs, l.LU.map (Fact.image L), l.sc, l.rej⟩

def Iter.image (L : V ≃ₗ[K] U) : Iter K V → Iter K U
  | .done o s => .done o (s.image L)
  | .again l => .again (l.image L)

variable {L : V ≃ₗ[K] U} {c : ECfg K V} {c' : ECfg K U}

theorem ImageEsdirk.linear (hi : ImageEsdirk L c c') (k : ℕ) (t : K) (y : V) : c'.linear = c.linear := by
  have h := congrArg Option.isNone (hi.jac k t y)
  simpa [ECfg.linear] using h

theorem newton_image (hi : ImageEsdirk L c c') (i : StageIn K V) : ∀ (n k : ℕ) (z : V) (d : K) (r : Option K),
    newton c' (i.image L) n k (L z) d r = (newton c i n k z d r).map (NewtonOut.image L) := by
  intro n
  induction n with
  | zero => intros; rfl
  | succ n ih =>
    intro k z d r
    have hlin := hi.linear 0 i.t i.y
    unfold newton
    have e1 : (i.image L).psi + c'.T.d • L z = L (i.psi + c.T.d • z) := by rw [hi.T, map_add, map_smul]; rfl
    have e2 : (i.image L).t = i.t := rfl
    have e4 : (i.image L).h = i.h := rfl
    rw [e1, e2]
    dsimp only
    rw [hi.fn]
    cases hf : c.fn i.t (i.psi + c.T.d • z) with
    | none => rfl
    | some f =>
      simp only [Option.map_some]
      have e3 : c'.lin (i.image L).sc (i.image L).F (i.h • L f - c'.M (L z)) = L (c.lin i.sc i.F (i.h • f - c.M z)) := by
        rw [hi.M, ← map_smul, ← map_sub]; exact hi.lin _ _ _
      have e5 : ∀ w, newRate c' r d w = newRate c r d w := by intro w; unfold newRate; rw [hi.T]
      have e6 : ∀ w, c'.dzNorm (i.image L).y (L (i.psi + c.T.d • z)) (L w) = c.dzNorm i.y (i.psi + c.T.d • z) w := fun w => hi.dzNorm _ _ _
      simp only [e3, e4, e6, hlin, hi.tinyErr, hi.T, e5, ← map_add, ih]
      have e7 : (i.image L).curJ = i.curJ := rfl
      have e8 : (i.image L).hLU = i.hLU := rfl
      rw [e7, e8]
      split_ifs <;> rfl

theorem stages_image (hi : ImageEsdirk L c c') (t : K) (y : V) (h : K) (F : Fact K V) (sc : Option K) (cj : Bool) (hl : Option K) :
    ∀ (m s : ℕ) (a : Stages K V), stages c' t (L y) h (F.image L) sc cj hl m s (a.image L) =
      (stages c t y h F sc cj hl m s a).map (Stages.image L) := by
  intro m
  induction m with
  | zero => intros; rfl
  | succ m ih =>
    intro s a
    unfold stages
    have e1 : ePsi c'.T (L y) h (a.image L).Ks s = L (ePsi c.T y h a.Ks s) := by
      simp only [ePsi, hi.T, Stages.image, map_add, map_smul, map_sum]
    have e2 : ePredict c'.T h (a.image L).Ks s = L (ePredict c.T h a.Ks s) := by
      simp only [ePredict, hi.T, Stages.image, map_smul, map_sum]
    rw [e1, e2, hi.T]
    have e3 : solveStage c' ⟨t + c.T.C s * h, h, L (ePsi c.T y h a.Ks s), L y, F.image L, sc, cj, hl⟩ (L (ePredict c.T h a.Ks s)) =
        (solveStage c ⟨t + c.T.C s * h, h, ePsi c.T y h a.Ks s, y, F, sc, cj, hl⟩ (ePredict c.T h a.Ks s)).map (NewtonOut.image L) :=
      newton_image hi ⟨t + c.T.C s * h, h, ePsi c.T y h a.Ks s, y, F, sc, cj, hl⟩ 5 0 _ 0 none
    dsimp only
    rw [e3]
    cases solveStage c ⟨t + c.T.C s * h, h, ePsi c.T y h a.Ks s, y, F, sc, cj, hl⟩ (ePredict c.T h a.Ks s) with
    | none => rfl
    | some o =>
      simp only [Option.map_some]
      cases hcv : o.converged with
      | false =>
        simp only [NewtonOut.image, hcv, Bool.false_eq_true, if_false]
        rfl
      | true =>
        simp only [NewtonOut.image, hcv, if_true]
        rw [← ih]
        congr 1
        simp only [Stages.image]
        congr 1
        rw [← map_smul]
        exact update_image L a.Ks s _

theorem attempt_image (hi : ImageEsdirk L c c') (t : K) (y : V) (h : K) (F : Fact K V) (sc : Option K) (cj : Bool) (hl : Option K)
    (Ks : ℕ → V) : attempt c' t (L y) h (F.image L) sc cj hl (fun i => L (Ks i)) =
      (attempt c t y h F sc cj hl Ks).map (Stages.image L) := by
  unfold attempt
  rw [← stages_image hi, hi.T]
  simp [Stages.image]

theorem factors_image (hi : ImageEsdirk L c c') (l : LSt K V) (h : K) :
    factors c' (l.image L) h = ((factors c l h).1.image L, (factors c l h).2.1, (factors c l h).2.2.image L) := by
  have hr : refactor c' (l.image L) h = refactor c l h := by
    unfold refactor
    rw [hi.jacEach, hi.linear 0 l.s.t l.s.y]
    have : (l.image L).LU.isNone = l.LU.isNone := by simp [LSt.image]
    rw [this]
    rfl
  unfold factors
  rw [hr, hi.dae]
  split_ifs with h1
  · rfl
  · rfl
  · cases hl : l.LU with
    | none => simp [LSt.image, hl, Fact.image, ESt.image]
    | some F => simp [LSt.image, hl]

theorem jac_image (hi : ImageEsdirk L c c') (k : ℕ) (t : K) (y : V) :
    (c.jac = none ∧ c'.jac = none) ∨ ∃ j j', c.jac = some j ∧ c'.jac = some j' ∧ ∀ k t y, j' k t (L y) = conjL L (j k t y) := by
  have h := hi.jac
  cases hj : c.jac with
  | none =>
    cases hj' : c'.jac with
    | none => exact .inl ⟨rfl, rfl⟩
    | some j' => have := h k t y; rw [hj, hj'] at this; simp at this
  | some j =>
    cases hj' : c'.jac with
    | none => have := h k t y; rw [hj, hj'] at this; simp at this
    | some j' =>
      refine .inr ⟨j, j', rfl, rfl, fun k t y => ?_⟩
      have := h k t y; rw [hj, hj'] at this; simpa using this

theorem afterFailure_image (hi : ImageEsdirk L c c') (l : LSt K V) (sc : Option K) (s : ESt K V) :
    afterFailure c' (l.image L) sc (s.image L) = (afterFailure c l sc s).image L := by
  unfold afterFailure
  have e1 : (s.image L).curJ = s.curJ := rfl
  rw [e1]
  rcases jac_image hi 0 s.t s.y with ⟨h1, h2⟩ | ⟨j, j', h1, h2, h3⟩
  · rw [h1, h2]
    split_ifs <;> rfl
  · rw [h1, h2]
    split_ifs
    · have := h3 s.njev s.t s.y
      simp only [Iter.image, LSt.image, ESt.image, Option.map_none, this]
    · rfl

theorem eError_image (hi : ImageEsdirk L c c') (h : K) (F : Fact K V) (sc : Option K) (Ks : ℕ → V) :
    eError c' h (F.image L) sc (fun i => L (Ks i)) = L (eError c h F sc Ks) := by
  have e : (h • ∑ j ∈ range c.T.n, c.T.E j • L (Ks j)) = L (h • ∑ j ∈ range c.T.n, c.T.E j • Ks j) := by
    rw [map_smul, map_sum]; simp only [map_smul]
  unfold eError
  simp only [hi.T, e, hi.lin, hi.M]
  split_ifs <;> rfl

theorem eAcceptFactor_image (hi : ImageEsdirk L c c') (s : ESt K V) (h x : K) :
    eAcceptFactor c' (s.image L) h x = eAcceptFactor c s h x := by
  unfold eAcceptFactor
  rw [hi.tinyErr, hi.safety, hi.pw, hi.errExp, hi.safetySc, hi.minbeta1, hi.minbeta2, hi.minalpha, hi.minFactor, hi.dir]
  rfl

theorem eRejectFactor_image (hi : ImageEsdirk L c c') (e : ENorm K) : eRejectFactor c' e = eRejectFactor c e := by
  cases e <;> simp only [eRejectFactor, hi.minFactor, hi.safety, hi.pw, hi.errExp]

theorem eRejected_image (hi : ImageEsdirk L c c') (l : LSt K V) (F : Fact K V) (sc : Option K) (s : ESt K V) (e : ENorm K) :
    eRejected c' (l.image L) (F.image L) sc (s.image L) e = (eRejected c l F sc s e).image L := by
  unfold eRejected
  simp only [eRejectFactor_image hi]
  rfl

theorem afterStages_image (hi : ImageEsdirk L c c') (l : LSt K V) (h : K) (F : Fact K V) (sc : Option K) (s : ESt K V) (yn : V) :
    afterStages c' (l.image L) h (F.image L) sc (s.image L) (L yn) = (afterStages c l h F sc s yn).image L := by
  unfold afterStages
  have e1 : c'.errNorm (s.image L).y (L yn) (eError c' h (F.image L) sc (s.image L).Ks) = c.errNorm s.y yn (eError c h F sc s.Ks) := by
    rw [show (s.image L).Ks = fun i => L (s.Ks i) from rfl, eError_image hi]
    exact hi.errNorm _ _ _
  rw [e1]
  cases c.errNorm s.y yn (eError c h F sc s.Ks) with
  | nan => rfl
  | inf => exact eRejected_image hi l F sc s .inf
  | num x =>
    dsimp only
    by_cases hx : x < 1
    · simp only [hx, if_true]
      unfold eAccepted
      rw [show (l.image L).hAbs = l.hAbs from rfl, eAcceptFactor_image hi]
      cases eAcceptFactor c s l.hAbs x with
      | none => rfl
      | some p =>
        obtain ⟨f0, std⟩ := p
        simp only [eAccept, hi.T, hi.linear 0 s.t s.y, Iter.image]
        rfl
    · simp only [hx, if_false]
      exact eRejected_image hi l F sc s (.num x)

theorem eIter_image (hi : ImageEsdirk L c c') (ms : K) (l : LSt K V) : eIter c' ms (l.image L) = (eIter c ms l).image L := by
  unfold eIter
  rw [show (l.image L).hAbs = l.hAbs from rfl, hi.dir]
  dsimp only
  rw [factors_image hi]
  by_cases hlt : l.hAbs < ms
  · simp only [hlt, if_true]; rfl
  · simp only [hlt, if_false]
    generalize hF : factors c l (l.hAbs * c.dir) = q
    obtain ⟨F, sc, s1⟩ := q
    dsimp only
    have ha : attempt c' (s1.image L).t (s1.image L).y (l.hAbs * c.dir) (F.image L) sc (s1.image L).curJ (s1.image L).hLU (s1.image L).Ks =
        (attempt c s1.t s1.y (l.hAbs * c.dir) F sc s1.curJ s1.hLU s1.Ks).map (Stages.image L) := attempt_image hi _ _ _ _ _ _ _ _
    rw [ha]
    cases attempt c s1.t s1.y (l.hAbs * c.dir) F sc s1.curJ s1.hLU s1.Ks with
    | none => rfl
    | some a =>
      simp only [Option.map_some]
      cases hcv : a.converged with
      | true =>
        simp only [Stages.image, hcv, if_true]
        have e : L a.psi + c'.T.d • L a.z = L (a.psi + c.T.d • a.z) := by rw [hi.T, map_add, map_smul]
        rw [e]
        exact afterStages_image hi l _ F sc { s1 with Ks := a.Ks, rate := a.rate, niter := a.niter, nfev := s1.nfev + a.evals } _
      | false =>
        simp only [Stages.image, hcv, Bool.false_eq_true, if_false]
        exact afterFailure_image hi l sc
          { s1 with Ks := a.Ks, rate := a.rate, niter := a.niter, nfev := s1.nfev + a.evals, nfi := s1.nfi + 1 }

theorem eLoop_image (hi : ImageEsdirk L c c') (ms : K) : ∀ (n : ℕ) (l : LSt K V),
    eLoop c' ms n (l.image L) = (eLoop c ms n l).map fun p => (p.1, p.2.image L) := by
  intro n
  induction n with
  | zero => intros; rfl
  | succ n ih =>
    intro l
    unfold eLoop
    rw [eIter_image hi]
    cases eIter c ms l with
    | done o s => rfl
    | again l' => exact ih l'

theorem preemptRate_image (hi : ImageEsdirk L c c') (s : ESt K V) (h r hp hl : K) :
    preemptRate c' (s.image L) h r hp hl = (preemptRate c s h r hp hl).map (ESt.image L) := by
  unfold preemptRate
  rw [hi.dir]
  have e1 : (s.image L).niter = s.niter := rfl
  rw [e1]
  rcases jac_image hi 0 s.t s.y with ⟨h1, h2⟩ | ⟨j, j', h1, h2, h3⟩
  · rw [h1, h2]
    dsimp only
    split_ifs <;> rfl
  · rw [h1, h2]
    have := h3 s.njev s.t s.y
    dsimp only
    split_ifs
    · simp only [Option.map_some, ESt.image, Option.map_none, this]
    · rfl
    · rfl

theorem preemptive_image (hi : ImageEsdirk L c c') (s : ESt K V) (h : K) :
    preemptive c' (s.image L) h = (preemptive c s h).map (ESt.image L) := by
  unfold preemptive
  rw [hi.jacEach]
  have e1 : (s.image L).curJ = s.curJ := rfl
  have e2 : (s.image L).rate = s.rate := rfl
  have e3 : (s.image L).hPrev = s.hPrev := rfl
  have e4 : (s.image L).hLU = s.hLU := rfl
  rw [e1, e2, e3, e4]
  by_cases hb : c.jacEach = true ∧ s.curJ = false
  · rw [if_pos hb, if_pos hb]
    rcases jac_image hi 0 s.t s.y with ⟨h1, h2⟩ | ⟨j, j', h1, h2, h3⟩
    · rw [h1, h2]; rfl
    · rw [h1, h2]
      have := h3 s.njev s.t s.y
      simp only [Option.map_some, ESt.image, Option.map_none, this]
  · rw [if_neg hb, if_neg hb]
    split
    · rfl
    · split_ifs
      · split
        · exact preemptRate_image hi _ _ _ _ _
        · rfl
      · rfl

/-- The state at the start of a step. -/
def prepared (s : ESt K V) (b : Bool) : ESt K V := { s with stdSc := b, Ks := Function.update s.Ks 0 s.yp }

theorem prepared_image (s : ESt K V) (b : Bool) : prepared (s.image L) b = (prepared s b).image L := by
  simp only [prepared, ESt.image]
  congr 1
  exact update_image L s.Ks 0 s.yp

/-- **C125** (general form). Corresponding calls of `step()` return the same outcome and corresponding states. -/
theorem C125_step (hi : ImageEsdirk L c c') (fuel : ℕ) (v : ESolver K V) :
    eStep c' fuel (v.image L) = (eStep c fuel v).map fun p => (p.1, p.2.image L) := by
  unfold eStep
  have e1 : (v.image L).status = v.status := rfl
  rw [e1]
  cases v.status with
  | running =>
    dsimp only
    have e2 : (v.image L).st.t = v.st.t := rfl
    rw [e2, hi.tb]
    by_cases ht : c.tb = some v.st.t
    · simp only [ht, if_true]; rfl
    · simp only [ht, if_false]
      have e3 : eStepImpl c' fuel (v.image L).st = (eStepImpl c fuel v.st).map fun p => (p.1, p.2.image L) := by
        have er : ∀ t h std, eReassess c' t h std = eReassess c t h std := by
          intro t h std
          simp only [eReassess, eClip, eClips, eMinStep, hi.tb, hi.maxStep, hi.hMinA, hi.hMinB]
          rfl
        unfold eStepImpl
        simp only [er]
        rw [show (v.image L).st = v.st.image L from rfl]
        generalize v.st = s
        change (match preemptive c' (prepared (s.image L) (eReassess c s.t s.hAbs s.stdSc).2.2) (eReassess c s.t s.hAbs s.stdSc).1 with
          | none => some (EOut.exc .typeErr, prepared (s.image L) (eReassess c s.t s.hAbs s.stdSc).2.2)
          | some s2 => eLoop c' (eReassess c s.t s.hAbs s.stdSc).2.1 fuel ⟨s2, (eReassess c s.t s.hAbs s.stdSc).1, s2.LU, s2.sc, false⟩) =
          Option.map (fun p => (p.1, p.2.image L))
          (match preemptive c (prepared s (eReassess c s.t s.hAbs s.stdSc).2.2) (eReassess c s.t s.hAbs s.stdSc).1 with
          | none => some (EOut.exc .typeErr, prepared s (eReassess c s.t s.hAbs s.stdSc).2.2)
          | some s2 => eLoop c (eReassess c s.t s.hAbs s.stdSc).2.1 fuel ⟨s2, (eReassess c s.t s.hAbs s.stdSc).1, s2.LU, s2.sc, false⟩)
        rw [prepared_image, preemptive_image hi]
        cases preemptive c (prepared s (eReassess c s.t s.hAbs s.stdSc).2.2) (eReassess c s.t s.hAbs s.stdSc).1 with
        | none => rfl
        | some s2 => exact eLoop_image hi _ fuel ⟨s2, _, s2.LU, s2.sc, false⟩
      rw [e3]
      cases eStepImpl c fuel v.st with
      | none => rfl
      | some p =>
        obtain ⟨o, s'⟩ := p
        have e4 : eReached c' (s'.image L).t = eReached c s'.t := by
          unfold eReached; rw [hi.tb, hi.dir]; rfl
        cases o with
        | ok => simp only [Option.map_some, e4]; rfl
        | tooSmall => rfl
        | exc e => rfl
  | finished => rfl
  | failed => rfl

/-- A sequence of calls of `step()` with its outcomes, latest first. -/
inductive ECalls (c : ECfg K V) (v0 : ESolver K V) : List EOut → ESolver K V → Prop
  | nil : ECalls c v0 [] v0
  | cons {outs : List EOut} {v v' : ESolver K V} {o : EOut} {fuel : ℕ} :
      ECalls c v0 outs v → eStep c fuel v = some (o, v') → ECalls c v0 (o :: outs) v'

/-- **C125.** Whole runs. -/
theorem C125_run (hi : ImageEsdirk L c c') {t0 : K} {y0 yp0 : V} {J0 : V →ₗ[K] V} {h0 : K} {Ks0 : ℕ → V} {nf nj : ℕ} {outs : List EOut}
    {v : ESolver K V} (hr : ECalls c (newESolver t0 y0 yp0 J0 h0 Ks0 nf nj) outs v) :
    ECalls c' (newESolver t0 (L y0) (L yp0) (conjL L J0) h0 (fun i => L (Ks0 i)) nf nj) outs (v.image L) := by
  induction hr with
  | nil => exact .nil
  | @cons outs v v' o fuel _ hs ih =>
    refine .cons (fuel := fuel) ih ?_
    rw [C125_step hi, hs]
    rfl

/-- Exact solves of the linear systems `(M - h d J) x = b` (zero if the matrix is singular). The scaling of the rows of DAEs does not change
the exact solution. -/
noncomputable def exactSolve (M : V →ₗ[K] V) (d : K) (F : Fact K V) (b : V) : V :=
  (Ring.inverse (M - (F.h * d) • F.J : Module.End K V)) b

theorem exactSolve_image {M : V →ₗ[K] V} {M' : U →ₗ[K] U} (hM : ∀ z, M' (L z) = L (M z)) (d : K) (F : Fact K V) (b : V) :
    exactSolve M' d (F.image L) (L b) = L (exactSolve M d F b) := by
  have hM' : M' = conjL L M := by
    ext x
    obtain ⟨z, rfl⟩ := L.surjective x
    rw [hM, conjL_apply]
  have hA : (M' - (F.h * d) • (F.image L).J : U →ₗ[K] U) = conjL L (M - (F.h * d) • F.J) := by
    rw [hM']
    ext x
    obtain ⟨z, rfl⟩ := L.surjective x
    simp [Fact.image]
  unfold exactSolve
  rw [show (F.image L).h = F.h from rfl, hA]
  generalize M - (F.h * d) • F.J = A
  have hmul : ∀ P Q : Module.End K V, (conjL L (P * Q) : Module.End K U) = (conjL L P : Module.End K U) * conjL L Q := by
    intro P Q
    ext x
    obtain ⟨z, rfl⟩ := L.surjective x
    simp [Module.End.mul_apply]
  have hone : (conjL L (1 : Module.End K V) : Module.End K U) = 1 := by
    ext x
    obtain ⟨z, rfl⟩ := L.surjective x
    simp
  by_cases hu : IsUnit (A : Module.End K V)
  · obtain ⟨u, hu⟩ := hu
    let u' : (Module.End K U)ˣ := ⟨conjL L u.1, conjL L u.2, by rw [← hmul, u.3, hone], by rw [← hmul, u.4, hone]⟩
    have h1 : (Ring.inverse (A : Module.End K V)) = u.2 := by rw [← hu]; exact Ring.inverse_unit u
    have h2 : (Ring.inverse (conjL L A : Module.End K U)) = conjL L u.2 := by
      have : (conjL L A : Module.End K U) = (u' : Module.End K U) := by rw [← hu]
      rw [this]; exact Ring.inverse_unit u'
    rw [h1, h2, conjL_apply]
  · have hu' : ¬ IsUnit (conjL L A : Module.End K U) := by
      rintro ⟨w, hw⟩
      apply hu
      have hback : ∀ P Q : Module.End K V, (conjL L P : Module.End K U) = conjL L Q → P = Q := by
        intro P Q h
        ext x
        have := LinearMap.congr_fun h (L x)
        rw [conjL_apply, conjL_apply] at this
        exact L.injective this
      have hsurj : ∃ B : Module.End K V, (conjL L B : Module.End K U) = w.2 := by
        refine ⟨L.symm.toLinearMap ∘ₗ w.2 ∘ₗ L.toLinearMap, ?_⟩
        ext x
        obtain ⟨z, rfl⟩ := L.surjective x
        simp
      obtain ⟨B, hB⟩ := hsurj
      refine ⟨⟨A, B, ?_, ?_⟩, rfl⟩
      · apply hback; rw [hmul, hB, ← hw, w.3, hone]
      · apply hback; rw [hmul, hB, ← hw, w.4, hone]
    rw [Ring.inverse_non_unit _ hu, Ring.inverse_non_unit _ hu']
    simp

end

/-! ## The norms of the code and exact solves -/

section
variable {𝕜 : Type*} [RCLike 𝕜] {n : ℕ}

/-- `relabel` with its inverse. -/
noncomputable def relabelEquiv (lam : Fin n → 𝕜) (hl : ∀ i, lam i ≠ 0) (σ : Equiv.Perm (Fin n)) : (Fin n → 𝕜) ≃ₗ[ℝ] (Fin n → 𝕜) :=
  { relabel lam σ with
    invFun := fun z j => (lam (σ.symm j))⁻¹ * z (σ.symm j)
    left_inv := fun y => by funext j; simp [relabel, hl]
    right_inv := fun z => by funext j; simp [relabel, hl] }

/-- An ESDIRK solver for `M y' = f(t, y)` (real or complex arrays) with the norms of the code (`common.py:2088, 2213`) and exact solves. -/
structure IsEsdirk (f : ℝ → (Fin n → 𝕜) → Option (Fin n → 𝕜)) (mass : (Fin n → 𝕜) →ₗ[ℝ] (Fin n → 𝕜)) (atol : Fin n → ℝ) (rtol : ℝ)
    (jacobian : Option (ℕ → ℝ → (Fin n → 𝕜) → ((Fin n → 𝕜) →ₗ[ℝ] (Fin n → 𝕜)))) (c : ECfg ℝ (Fin n → 𝕜)) : Prop where
  fn : c.fn = f
  M : c.M = mass
  jac : c.jac = jacobian
  lin : ∀ sc F b, c.lin sc F b = exactSolve mass c.T.d F b
  dzNorm : ∀ y z e, c.dzNorm y z e = scaledNorm atol rtol y z e
  errNorm : ∀ y z e, c.errNorm y z e = .num (scaledNorm atol rtol y z e)

/-- The options that do not depend on the units. -/
structure SameEsdirkOptions (c c' : ECfg ℝ (Fin n → 𝕜)) : Prop where
  T : c'.T = c.T
  jacEach : c'.jacEach = c.jacEach
  dae : c'.dae = c.dae
  tb : c'.tb = c.tb
  dir : c'.dir = c.dir
  maxStep : c'.maxStep = c.maxStep
  hMinA : c'.hMinA = c.hMinA
  hMinB : c'.hMinB = c.hMinB
  tinyErr : c'.tinyErr = c.tinyErr
  minFactor : c'.minFactor = c.minFactor
  errExp : c'.errExp = c.errExp
  minbeta1 : c'.minbeta1 = c.minbeta1
  minbeta2 : c'.minbeta2 = c.minbeta2
  minalpha : c'.minalpha = c.minalpha
  safety : c'.safety = c.safety
  safetySc : c'.safetySc = c.safetySc
  pw : c'.pw = c.pw

/-- `A'` is the matrix `A` in the new units: `A'[i, j] = lam i * A[σ i, σ j] / lam j`. -/
def InUnits (lam : Fin n → 𝕜) (σ : Equiv.Perm (Fin n)) (A A' : (Fin n → 𝕜) →ₗ[ℝ] (Fin n → 𝕜)) : Prop :=
  ∀ x i, A' (fun j => lam j * x (σ j)) i = lam i * A x (σ i)

/-- **C125.** ESDIRK methods, also with a mass matrix: solve the problem in other units and with another numbering of the components, with
`atol`, the Jacobian and the mass matrix converted. Every sequence of calls of `step()` gives the same outcomes, and the states
correspond: same `t`, step size, failures, evaluations, Jacobians and factorisations, and `y` in the new units. -/
theorem C125_units {lam : Fin n → 𝕜} (hl : ∀ i, lam i ≠ 0) (σ : Equiv.Perm (Fin n)) {atol : Fin n → ℝ} {rtol : ℝ}
    {f g : ℝ → (Fin n → 𝕜) → Option (Fin n → 𝕜)}
    (hg : ∀ t y, g t (fun j => lam j * y (σ j)) = (f t y).map fun w i => lam i * w (σ i))
    {M M' : (Fin n → 𝕜) →ₗ[ℝ] (Fin n → 𝕜)} (hM : InUnits lam σ M M')
    {jac jac' : Option (ℕ → ℝ → (Fin n → 𝕜) → ((Fin n → 𝕜) →ₗ[ℝ] (Fin n → 𝕜)))}
    (hj : (jac = none ∧ jac' = none) ∨ ∃ j j', jac = some j ∧ jac' = some j' ∧ ∀ k t y, InUnits lam σ (j k t y) (j' k t fun i => lam i * y (σ i)))
    {c c' : ECfg ℝ (Fin n → 𝕜)} (hc : IsEsdirk f M atol rtol jac c) (hc' : IsEsdirk g M' (fun i => ‖lam i‖ * atol (σ i)) rtol jac' c')
    (ho : SameEsdirkOptions c c') {t0 : ℝ} {y0 yp0 : Fin n → 𝕜} {J0 J0' : (Fin n → 𝕜) →ₗ[ℝ] (Fin n → 𝕜)} (hJ0 : InUnits lam σ J0 J0')
    {h0 : ℝ} {nf nj : ℕ} {outs : List EOut} {v : ESolver ℝ (Fin n → 𝕜)}
    (hrun : ECalls c (newESolver t0 y0 yp0 J0 h0 (fun _ => 0) nf nj) outs v) :
    ∃ v', ECalls c' (newESolver t0 (fun i => lam i * y0 (σ i)) (fun i => lam i * yp0 (σ i)) J0' h0 (fun _ => 0) nf nj) outs v' ∧
      v'.status = v.status ∧ v'.tOld = v.tOld ∧ v'.st.t = v.st.t ∧ v'.st.hAbs = v.st.hAbs ∧ v'.st.nfev = v.st.nfev ∧
      v'.st.njev = v.st.njev ∧ v'.st.nlu = v.st.nlu ∧ v'.st.nfs = v.st.nfs ∧ v'.st.nfi = v.st.nfi ∧
      (∀ i, v'.st.y i = lam i * v.st.y (σ i)) ∧ (∀ i, v'.st.yp i = lam i * v.st.yp (σ i)) := by
  set L := relabelEquiv lam hl σ with hL
  have hap : ∀ y, L y = fun i => lam i * y (σ i) := fun y => rfl
  have hin : ∀ A A' : (Fin n → 𝕜) →ₗ[ℝ] (Fin n → 𝕜), InUnits lam σ A A' → A' = conjL L A := by
    intro A A' h
    refine LinearMap.ext fun x => ?_
    obtain ⟨z, rfl⟩ := L.surjective x
    rw [conjL_apply]
    exact funext fun i => h z i
  have hMM : ∀ z, M' (L z) = L (M z) := fun z => funext fun i => hM z i
  have hi : ImageEsdirk L c c' :=
    { T := ho.T, jacEach := ho.jacEach, dae := ho.dae, tb := ho.tb, dir := ho.dir, maxStep := ho.maxStep, hMinA := ho.hMinA,
      hMinB := ho.hMinB, tinyErr := ho.tinyErr, minFactor := ho.minFactor, errExp := ho.errExp, minbeta1 := ho.minbeta1,
      minbeta2 := ho.minbeta2, minalpha := ho.minalpha, safety := ho.safety, safetySc := ho.safetySc, pw := ho.pw
      fn := fun t y => by rw [hc.fn, hc'.fn]; exact hg t y
      jac := fun k t y => by
        rw [hc.jac, hc'.jac]
        rcases hj with ⟨h1, h2⟩ | ⟨j, j', h1, h2, h3⟩
        · rw [h1, h2]; rfl
        · rw [h1, h2]
          simp only [Option.map_some]
          exact congrArg some (hin _ _ (h3 k t y))
      M := fun z => by rw [hc.M, hc'.M]; exact hMM z
      lin := fun sc F b => by rw [hc.lin, hc'.lin, ho.T]; exact exactSolve_image hMM _ F b
      dzNorm := fun y z e => by rw [hc.dzNorm, hc'.dzNorm]; exact C122_norm hl σ atol rtol y z e
      errNorm := fun y z e => by
        rw [hc.errNorm, hc'.errNorm]; exact congrArg ENorm.num (C122_norm hl σ atol rtol y z e) }
  have := C125_run hi hrun
  rw [← hin J0 J0' hJ0] at this
  simp only [map_zero] at this
  exact ⟨_, this, rfl, rfl, rfl, rfl, rfl, rfl, rfl, rfl, rfl, fun _ => rfl, fun _ => rfl⟩

end

/-! ## The hypotheses are met -/

/-- `y' = -y^2` (`exNon`) in units a thousand times smaller. -/
def exNonMilli : ECfg ℚ ℚ :=
  { exNon with
    fn := fun _ y => some (-(y * y) / 1000)
    jac := some fun _ _ y => scal (-2 * y / 1000)
    dzNorm := fun y yp v => |v| / (1 + 1 / 1000 * max |y| |yp|)
    errNorm := fun y yNew e => .num (|e| / (10 + 1 / 100 * max |y| |yNew|)) }

/-- The conversion. -/
def milli : ℚ ≃ₗ[ℚ] ℚ := LinearEquiv.smulOfNeZero ℚ ℚ (1000 : ℚ) (by norm_num)

@[simp] theorem milli_apply (x : ℚ) : milli x = 1000 * x := rfl

theorem conjL_milli (J : ℚ →ₗ[ℚ] ℚ) : conjL milli J = J := by
  refine LinearMap.ext fun x => ?_
  obtain ⟨z, rfl⟩ := milli.surjective x
  rw [conjL_apply, milli_apply, milli_apply, ratLin J (1000 * z), ratLin J z]
  ring

theorem milli_quot (a b y z e : ℚ) : |1000 * e| / (1000 * a + b * max |1000 * y| |1000 * z|) = |e| / (a + b * max |y| |z|) := by
  have h3 : |(1000 : ℚ)| = 1000 := by norm_num
  simp only [abs_mul, h3]
  rw [← mul_max_of_nonneg _ _ (by norm_num : (0 : ℚ) ≤ 1000),
    show 1000 * a + b * (1000 * max |y| |z|) = 1000 * (a + b * max |y| |z|) by ring, mul_div_mul_left _ _ (by norm_num : (1000 : ℚ) ≠ 0)]

theorem exNonMilli_image : ImageEsdirk milli exNon exNonMilli where
  T := rfl
  fn := fun t y => by simp [exNon, exE, exNonMilli]; ring
  jac := fun k t y => by
    simp only [exNonMilli, exNon, exE, Option.map_some, conjL_milli, milli_apply]
    congr 2
    ring
  jacEach := rfl
  M := fun z => by simp [exNon, exE, exNonMilli, scal]
  dae := rfl
  lin := fun sc F b => by
    simp only [exNonMilli, exNon, exE, Fact.image, conjL_milli, milli_apply]
    ring
  dzNorm := fun y z e => by
    have := milli_quot (1 / 1000) (1 / 1000) y z e
    norm_num at this ⊢
    simpa [exNon, exE, exNonMilli] using this
  errNorm := fun y z e => by
    have := milli_quot (1 / 100) (1 / 100) y z e
    norm_num at this ⊢
    simpa [exNon, exE, exNonMilli, exErr] using this
  tb := rfl
  dir := rfl
  maxStep := rfl
  hMinA := rfl
  hMinB := rfl
  tinyErr := rfl
  minFactor := rfl
  errExp := rfl
  minbeta1 := rfl
  minbeta2 := rfl
  minalpha := rfl
  safety := rfl
  safetySc := rfl
  pw := rfl

/-- A step with Newton iterations, seen in the other units. -/
example : ∃ v, ECalls exNon exNonStart [.ok] v ∧ v.st.t = 1 / 2 ∧
    ECalls exNonMilli (newESolver 0 1000 (-1000) (scal (-2)) (1 / 2) (fun _ => 0) 1 1) [.ok] (v.image milli) := by
  obtain ⟨p, hp⟩ : ∃ p, eStep exNon 10 exNonStart = some p := Option.isSome_iff_exists.1 (by decide +kernel)
  have h1 : p.1 = .ok ∧ p.2.st.t = 1 / 2 := by
    have : ((eStep exNon 10 exNonStart).map fun p => (p.1, p.2.st.t)) = some (.ok, 1 / 2) := by decide +kernel
    rw [hp] at this
    simpa using this
  have hr : ECalls exNon exNonStart [.ok] p.2 := by
    refine .cons (fuel := 10) .nil ?_
    rw [hp, ← h1.1]
  refine ⟨p.2, hr, h1.2, ?_⟩
  have := C125_run exNonMilli_image hr
  simpa [conjL_milli] using this

end Extensisq
