import Verif.Props.Nystrom
import Verif.Props.RKStep
import Verif.Props.NormHStart
import Verif.Model.Methods

/-!
# C122: units and numbering of the components do not matter

C18 is about one step. Here: the whole run of a solver of the explicit family (Runge-Kutta, with or without the early error test, and
Nystrom) on a problem that is the image of another one under a linear map which keeps the error norms is the image of the run on the
original problem: same times, step sizes, rejections, outcomes and counters. With the error norm of the code: rescaling every
component together with its `atol`, and renumbering the components.
-/

set_option linter.unusedSectionVars false

namespace Extensisq
open Finset

section
variable {K V W V' W' : Type*} [Field K] [LinearOrder K]

/-- The image of a driver state: solution, derivatives and stages are mapped, everything else is unchanged. -/
def St.image (φ : V → V') (ψ : W → W') (s : St K V W) : St K V' W' where
  t := s.t
  y := φ s.y
  f := ψ s.f
  hAbs := s.hAbs
  maxFactor := s.maxFactor
  stdSc := s.stdSc
  hPrev := s.hPrev
  errOld := s.errOld
  yOld := s.yOld.map φ
  fOld := s.fOld.map ψ
  Ks := fun i => ψ (s.Ks i)
  nfev := s.nfev
  nfevTest := s.nfevTest
  nfs := s.nfs
  jflstp := s.jflstp
  okstp := s.okstp
  havg := s.havg

/-- The image of a solver. -/
def Solver.image (φ : V → V') (ψ : W → W') (v : Solver K V W) : Solver K V' W' where
  status := v.status
  tOld := v.tOld
  st := v.st.image φ ψ

/-- A method whose attempts are the images of those of another one. -/
structure ImageMethod (φ : V → V') (ψ : W → W') (m : Method K V W) (m' : Method K V' W') : Prop where
  nStages : m'.nStages = m.nStages
  fsal : m'.fsal = m.fsal
  costPre : m'.costPre = m.costPre
  nfsOverflow : m'.nfsOverflow = m.nfsOverflow
  rhs : ∀ t y, m'.rhs t (φ y) = ψ (m.rhs t y)
  stages : ∀ t y f h Ks, (m'.trial t (φ y) (ψ f) h fun i => ψ (Ks i)).stages = fun i => ψ ((m.trial t y f h Ks).stages i)
  yNew : ∀ t y f h Ks, (m'.trial t (φ y) (ψ f) h fun i => ψ (Ks i)).yNew = φ (m.trial t y f h Ks).yNew
  err : ∀ t y f h Ks, (m'.trial t (φ y) (ψ f) h fun i => ψ (Ks i)).err = (m.trial t y f h Ks).err
  pre : ∀ t y f h Ks, (m'.trial t (φ y) (ψ f) h fun i => ψ (Ks i)).pre = (m.trial t y f h Ks).pre
  preStages : ∀ t y f h Ks, (m'.trial t (φ y) (ψ f) h fun i => ψ (Ks i)).preStages =
    fun i => ψ ((m.trial t y f h Ks).preStages i)

/-- Two configurations with the same options, for two methods; the stiffness tests make the same number of evaluations (this matters for
the evaluation count only, see C30). -/
structure SameOptions (φ : V → V') (c : Cfg K V W) (c' : Cfg K V' W') : Prop where
  tb : c'.tb = c.tb
  dir : c'.dir = c.dir
  maxStep : c'.maxStep = c.maxStep
  hMinA : c'.hMinA = c.hMinA
  hMinB : c'.hMinB = c.hMinB
  tinyErr : c'.tinyErr = c.tinyErr
  minFactor : c'.minFactor = c.minFactor
  errExp : c'.errExp = c.errExp
  minbeta1 : c'.minbeta1 = c.minbeta1
  minbeta2 : c'.minbeta2 = c.minbeta2
  minalpha : c'.minalpha = c.minalpha
  safety : c'.safety = c.safety
  safetySc : c'.safetySc = c.safetySc
  pw : c'.pw = c.pw
  nfevStiff : c'.nfevStiff = c.nfevStiff
  stiffEvals : ∀ t y, c'.stiffEvals t (φ y) = c.stiffEvals t y

variable {φ : V → V'} {ψ : W → W'} {c : Cfg K V W} {c' : Cfg K V' W'}

theorem reassess_image (hc : SameOptions φ c c') (s : St K V W) : reassess c' (s.image φ ψ) = reassess c s := by
  unfold reassess minStepOf
  simp only [St.image, hc.tb, hc.maxStep, hc.hMinA, hc.hMinB]

theorem acceptFactor_image (hc : SameOptions φ c c') (s : St K V W) (h x : K) :
    acceptFactor c' (s.image φ ψ) h x = acceptFactor c s h x := by
  unfold acceptFactor
  simp only [St.image, hc.tinyErr, hc.safety, hc.pw, hc.errExp, hc.safetySc, hc.minbeta1, hc.minbeta2, hc.minalpha, hc.minFactor]

theorem retryFactor_image (hc : SameOptions φ c c') (e : ENorm K) : retryFactor c' e = retryFactor c e := by
  cases e <;> simp only [retryFactor, hc.minFactor, hc.safety, hc.pw, hc.errExp]

theorem diagnose_image (hc : SameOptions φ c c') (hm : c'.m.nStages = c.m.nStages) (s : St K V W) :
    diagnose c' (s.image φ ψ) = (diagnose c s).map fun p => (p.1.image φ ψ, p.2) := by
  unfold diagnose
  simp only [hc.nfevStiff, hm]
  by_cases h0 : c.nfevStiff = 0
  · simp only [h0, if_true, Option.map_some]
  · simp only [h0, if_false]
    by_cases h1 : c.nfevStiff / c.m.nStages = 0
    · simp only [h1, if_true, Option.map_none]
    · simp only [h1, if_false, Option.map_some]
      simp only [St.image, hc.stiffEvals]
      rfl

theorem diagnoseRaise_image (s : St K V W) : diagnoseRaise (s.image φ ψ) = (diagnoseRaise s).image φ ψ := rfl

theorem acceptState_image (hm : ImageMethod φ ψ c.m c'.m) (s : St K V W) (h hn x fac : K) (std : Bool) :
    acceptState c' (s.image φ ψ) (c'.m.trial s.t (φ s.y) (ψ s.f) h fun i => ψ (s.Ks i)) h hn x fac std =
    (acceptState c s (c.m.trial s.t s.y s.f h s.Ks) h hn x fac std).image φ ψ := by
  have e2 : (if c.m.fsal = true then fun i => ψ ((c.m.trial s.t s.y s.f h s.Ks).stages i)
      else Function.update (fun i => ψ ((c.m.trial s.t s.y s.f h s.Ks).stages i)) c.m.nStages
        (ψ (c.m.rhs (s.t + h) (c.m.trial s.t s.y s.f h s.Ks).yNew))) =
      fun i => ψ ((if c.m.fsal = true then (c.m.trial s.t s.y s.f h s.Ks).stages
      else Function.update (c.m.trial s.t s.y s.f h s.Ks).stages c.m.nStages
        (c.m.rhs (s.t + h) (c.m.trial s.t s.y s.f h s.Ks).yNew)) i) := by
    split_ifs
    · rfl
    · funext i
      by_cases hi : i = c.m.nStages
      · subst hi; simp
      · simp [Function.update_of_ne hi]
  unfold acceptState
  simp only [St.image, hm.nStages, hm.fsal, hm.yNew, hm.stages, hm.rhs, Method.cost, e2, Option.map_some]

theorem loop_image (hc : SameOptions φ c c') (hm : ImageMethod φ ψ c.m c'.m) (ms : K) :
    ∀ (n : ℕ) (s : St K V W) (h : K) (rej : Bool),
      loop c' n (s.image φ ψ) h ms rej = (loop c n s h ms rej).map fun p => (p.1, p.2.image φ ψ) := by
  intro n
  induction n with
  | zero => intros; rfl
  | succ n ih =>
    intro s h rej
    unfold loop
    by_cases hlt : h < ms
    · simp only [hlt, if_true, Option.map_some]
    · simp only [hlt, if_false]
      have e2 : c'.m.trial (s.image φ ψ).t (s.image φ ψ).y (s.image φ ψ).f (h * c'.dir) (s.image φ ψ).Ks =
          c'.m.trial s.t (φ s.y) (ψ s.f) (h * c.dir) fun i => ψ (s.Ks i) := by rw [hc.dir]; rfl
      have ecost : c'.m.cost = c.m.cost := by unfold Method.cost; rw [hm.nStages, hm.fsal]
      rw [e2, hm.err, hm.pre, hm.preStages, hc.dir, ecost, hm.costPre, hm.nfsOverflow, hc.nfevStiff]
      cases hpre : (c.m.trial s.t s.y s.f (h * c.dir) s.Ks).pre.gt 1 with
      | true => simp only [if_true, retryFactor_image hc]; rw [← ih]; rfl
      | false =>
      simp only [Bool.false_eq_true, if_false]
      cases herr : (c.m.trial s.t s.y s.f (h * c.dir) s.Ks).err with
      | inf => simp only [Option.map_some, hm.stages]; rfl
      | nan => simp only [Option.map_some, hm.stages]; rfl
      | num x =>
        dsimp only
        by_cases hx : x < 1
        · simp only [hx, if_true]
          rw [acceptFactor_image hc]
          cases haf : acceptFactor c s (h * c.dir) x with
          | none => simp only [Option.map_some, hm.stages]; rfl
          | some p =>
            obtain ⟨f0, std⟩ := p
            dsimp only
            rw [acceptState_image hm, diagnose_image hc hm.nStages]
            generalize acceptState c s (c.m.trial s.t s.y s.f (h * c.dir) s.Ks) (h * c.dir)
              (h * (if rej = true then min 1 f0 else f0)) x (if rej = true then min 1 f0 else f0) std = s1
            cases hd : diagnose c s1 with
            | none => rfl
            | some q => rfl
        · simp only [hx, if_false, retryFactor_image hc]
          rw [← ih]
          simp only [hm.stages]
          rfl

/-- **C122** (general form). Corresponding calls of `step()` return the same outcome and corresponding states. -/
theorem C122_step (hc : SameOptions φ c c') (hm : ImageMethod φ ψ c.m c'.m) (fuel : ℕ) (v : Solver K V W) :
    step c' fuel (v.image φ ψ) = (step c fuel v).map fun p => (p.1, p.2.image φ ψ) := by
  unfold step
  have e1 : (v.image φ ψ).status = v.status := rfl
  rw [e1]
  cases v.status with
  | running =>
    dsimp only
    have e2 : (v.image φ ψ).st.t = v.st.t := rfl
    rw [e2, hc.tb]
    by_cases ht : c.tb = some v.st.t
    · simp only [ht, if_true]; rfl
    · simp only [ht, if_false]
      have e3 : stepImpl c' fuel (v.image φ ψ).st = (stepImpl c fuel v.st).map fun p => (p.1, p.2.image φ ψ) := by
        unfold stepImpl
        have : (v.image φ ψ).st = v.st.image φ ψ := rfl
        rw [this, reassess_image hc]
        exact loop_image hc hm _ _ { v.st with stdSc := (reassess c v.st).2.2 } _ _
      rw [e3]
      cases hi : stepImpl c fuel v.st with
      | none => rfl
      | some p =>
        obtain ⟨o, s'⟩ := p
        have e4 : reached c' (s'.image φ ψ).t = reached c s'.t := by
          unfold reached; rw [hc.tb, hc.dir]; rfl
        cases o with
        | ok => simp only [Option.map_some, e4]; rfl
        | fail m => rfl
        | exc e => rfl
  | finished => rfl
  | failed => rfl

/-- Whole runs. -/
theorem run_image (hc : SameOptions φ c c') (hm : ImageMethod φ ψ c.m c'.m) {t0 : K} {y0 : V} {h0 : K} {e0 : ℕ} {Ks0 : ℕ → W}
    {outs : List Out} {v : Solver K V W} (hr : Run c (newSolver c t0 y0 h0 e0 Ks0) outs v) :
    Run c' (newSolver c' t0 (φ y0) h0 e0 fun i => ψ (Ks0 i)) outs (v.image φ ψ) := by
  induction hr with
  | nil =>
    have : newSolver c' t0 (φ y0) h0 e0 (fun i => ψ (Ks0 i)) = (newSolver c t0 y0 h0 e0 Ks0).image φ ψ := by
      simp [newSolver, Solver.image, St.image, hm.rhs]
    rw [this]
    exact .nil
  | @cons outs v v' o fuel _ hs ih =>
    refine .cons (fuel := fuel) ih ?_
    rw [C122_step hc hm, hs]
    rfl

end

/-! ## Runge-Kutta and Nystrom methods -/

section
variable {K V U : Type*} [Field K] [LinearOrder K] [AddCommGroup V] [Module K V] [AddCommGroup U] [Module K U]

theorem update_image {A B : Type*} (ψ : A → B) (Ks : ℕ → A) (j : ℕ) (a : A) :
    Function.update (fun i => ψ (Ks i)) j (ψ a) = fun i => ψ (Function.update Ks j a i) := by
  funext i
  by_cases hi : i = j
  · subst hi; simp
  · simp [Function.update_of_ne hi]

theorem map_weights (L : V →ₗ[K] U) (s : ℕ) (b : ℕ → K) (k : ℕ → V) :
    ∑ i ∈ range s, b i • L (k i) = L (∑ i ∈ range s, b i • k i) := by
  rw [map_sum]; simp only [map_smul]

theorem rkStages_image (L : V →ₗ[K] U) {f : K → V → V} {g : K → U → U} (hL : ∀ t y, g t (L y) = L (f t y)) (T : Tableau K) (t : K) (y : V)
    (h : K) (n : ℕ) (Ks : ℕ → V) : rkStages T g t (L y) h n (fun i => L (Ks i)) = fun i => L (rkStages T f t y h n Ks i) := by
  induction n with
  | zero => rfl
  | succ n ih =>
    cases n with
    | zero => rfl
    | succ n =>
      simp only [rkStages]
      rw [ih, ← update_image]
      congr 1
      simp only [rkStage, map_weights]
      rw [← hL, map_add, map_smul]

theorem imageMethod_rk (L : V →ₗ[K] U) {f : K → V → V} {g : K → U → U} (hL : ∀ t y, g t (L y) = L (f t y)) (T : Tableau K)
    {eN : V → V → V → ENorm K} {eN' : U → U → U → ENorm K} (hN : ∀ y z e, eN' (L y) (L z) (L e) = eN y z e)
    {P : PreTest K V} {P' : PreTest K U} (h1 : P'.early = P.early) (h2 : P'.countOverflow = P.countOverflow)
    (h3 : ∀ y h Ks, P'.norm (L y) h (fun i => L (Ks i)) = P.norm y h Ks) :
    ImageMethod L L (rkMethod T f eN P) (rkMethod T g eN' P') := by
  have hK : ∀ n t y fv h Ks, rkStages T g t (L y) h n (Function.update (fun i => L (Ks i)) 0 (L fv)) =
      fun i => L (rkStages T f t y h n (Function.update Ks 0 fv) i) := by
    intro n t y fv h Ks
    rw [update_image, rkStages_image L hL]
  have hyn : ∀ t y fv h Ks, (rkTrial T g eN' t (L y) (L fv) h fun i => L (Ks i)).yNew = L (rkTrial T f eN t y fv h Ks).yNew := by
    intro t y fv h Ks
    simp only [rkTrial, hK, rkSolution, map_weights, map_add, map_smul]
  have hst : ∀ t y fv h Ks, (rkTrial T g eN' t (L y) (L fv) h fun i => L (Ks i)).stages =
      fun i => L ((rkTrial T f eN t y fv h Ks).stages i) := by
    intro t y fv h Ks
    have hy := hyn t y fv h Ks
    simp only [rkTrial] at hy ⊢
    rw [hy, hK, hL]
    split_ifs
    · exact update_image _ _ _ _
    · rfl
  refine ⟨rfl, rfl, rfl, h2, hL, hst, hyn, ?_, ?_, fun t y fv h Ks => hK _ t y fv h Ks⟩
  · intro t y fv h Ks
    change eN' (L y) (rkTrial T g eN' t (L y) (L fv) h fun i => L (Ks i)).yNew
      (rkError T h (rkTrial T g eN' t (L y) (L fv) h fun i => L (Ks i)).stages) = _
    rw [hyn, hst]
    have : rkError T h (fun i => L ((rkTrial T f eN t y fv h Ks).stages i)) = L (rkError T h (rkTrial T f eN t y fv h Ks).stages) := by
      simp only [rkError, map_weights, map_smul]
    rw [this, hN]
    rfl
  · intro t y fv h Ks
    simp only [rkMethod, hK, h1, h3]

/-- **C122.** Runge-Kutta methods: if `L` maps the problem `f` to the problem `g` and the error norms agree, then every run on `g` from
`L y0` is the image of the run on `f` from `y0`: same outcomes, times, step sizes and counters. -/
theorem C122_runge_kutta (L : V →ₗ[K] U) {f : K → V → V} {g : K → U → U} (hL : ∀ t y, g t (L y) = L (f t y)) {T : Tableau K}
    {eN : V → V → V → ENorm K} {eN' : U → U → U → ENorm K} (hN : ∀ y z e, eN' (L y) (L z) (L e) = eN y z e)
    {c : Cfg K V V} {c' : Cfg K U U} (hc : SameOptions L c c')
    (hm : c.m = rkMethod T f eN ∧ c'.m = rkMethod T g eN' ∨
      c.m = bs5Method K f eN ∧ c'.m = bs5Method K g eN' ∨ c.m = cfmr7oscMethod K f eN ∧ c'.m = cfmr7oscMethod K g eN')
    {t0 : K} {y0 : V} {h0 : K} {e0 : ℕ} {Ks0 : ℕ → V} {outs : List Out} {v : Solver K V V}
    (hr : Run c (newSolver c t0 y0 h0 e0 Ks0) outs v) :
    Run c' (newSolver c' t0 (L y0) h0 e0 fun i => L (Ks0 i)) outs (v.image L L) := by
  have lin : ∀ n (Bp Ep : ℕ → K) cnt y h Ks, (PreTest.linear n Bp Ep eN' cnt).norm (L y) h (fun i => L (Ks i)) =
      (PreTest.linear n Bp Ep eN cnt).norm y h Ks := by
    intro n Bp Ep cnt y h Ks
    simp only [PreTest.linear, map_weights]
    rw [← map_smul, ← map_smul, ← map_add, hN]
  refine run_image hc ?_ hr
  rcases hm with ⟨e1, e2⟩ | ⟨e1, e2⟩ | ⟨e1, e2⟩
  · rw [e1, e2]; exact imageMethod_rk L hL T hN rfl rfl fun _ _ _ => rfl
  · rw [e1, e2]; exact imageMethod_rk L hL _ hN rfl rfl fun _ _ _ => lin _ _ _ _ _ _ _
  · rw [e1, e2]; exact imageMethod_rk L hL _ hN rfl rfl fun _ _ _ => lin _ _ _ _ _ _ _

/-- The image of position and velocity. -/
def pairMap (L : V →ₗ[K] U) : V × V → U × U := fun y => (L y.1, L y.2)

theorem nyStages_image (L : V →ₗ[K] U) {f : K → V × V → V} {g : K → U × U → U} (hL : ∀ t y, g t (pairMap L y) = L (f t y))
    (T : NTableau K) (t : K) (y : V × V) (h : K) (n : ℕ) (Ks : ℕ → V) :
    nyStages T g t (pairMap L y) h n (fun i => L (Ks i)) = fun i => L (nyStages T f t y h n Ks i) := by
  induction n with
  | zero => rfl
  | succ n ih =>
    cases n with
    | zero => rfl
    | succ n =>
      simp only [nyStages]
      rw [ih, ← update_image]
      congr 1
      simp only [nyStage, nyArg, map_weights]
      rw [← hL]
      simp only [pairMap, map_add, map_smul]

theorem imageMethod_ny (L : V →ₗ[K] U) {f : K → V × V → V} {g : K → U × U → U} (hL : ∀ t y, g t (pairMap L y) = L (f t y))
    (T : NTableau K) {eN : V × V → V × V → V × V → ENorm K} {eN' : U × U → U × U → U × U → ENorm K}
    (hN : ∀ y z e, eN' (pairMap L y) (pairMap L z) (pairMap L e) = eN y z e) :
    ImageMethod (pairMap L) L (nyMethod T f eN) (nyMethod T g eN') := by
  have hK : ∀ n t y fv h Ks, nyStages T g t (pairMap L y) h n (Function.update (fun i => L (Ks i)) 0 (L fv)) =
      fun i => L (nyStages T f t y h n (Function.update Ks 0 fv) i) := by
    intro n t y fv h Ks
    rw [update_image, nyStages_image L hL]
  have hyn : ∀ t y fv h Ks, (nyTrial T g eN' t (pairMap L y) (L fv) h fun i => L (Ks i)).yNew =
      pairMap L (nyTrial T f eN t y fv h Ks).yNew := by
    intro t y fv h Ks
    simp only [nyTrial, hK]
    simp only [nySolution, map_weights, pairMap, map_add, map_smul]
  have hst : ∀ t y fv h Ks, (nyTrial T g eN' t (pairMap L y) (L fv) h fun i => L (Ks i)).stages =
      fun i => L ((nyTrial T f eN t y fv h Ks).stages i) := by
    intro t y fv h Ks
    have hy := hyn t y fv h Ks
    simp only [nyTrial] at hy ⊢
    rw [hy, hK, hL]
    split_ifs
    · exact update_image _ _ _ _
    · rfl
  refine ⟨rfl, rfl, rfl, rfl, hL, hst, hyn, ?_, fun _ _ _ _ _ => rfl, fun t y fv h Ks => update_image _ _ _ _⟩
  intro t y fv h Ks
  change eN' (pairMap L y) (nyTrial T g eN' t (pairMap L y) (L fv) h fun i => L (Ks i)).yNew
    (nyError T h (nyTrial T g eN' t (pairMap L y) (L fv) h fun i => L (Ks i)).stages) = _
  rw [hyn, hst]
  have : nyError T h (fun i => L ((nyTrial T f eN t y fv h Ks).stages i)) =
      pairMap L (nyError T h (nyTrial T f eN t y fv h Ks).stages) := by
    simp only [nyError, map_weights, pairMap, map_smul]
  rw [this, hN]
  rfl

/-- **C122.** Nystrom methods: as `C122_runge_kutta`, for `u'' = acc(t, u, u')`. -/
theorem C122_nystrom (L : V →ₗ[K] U) {f : K → V × V → V} {g : K → U × U → U} (hL : ∀ t u w, g t (L u, L w) = L (f t (u, w)))
    {T : NTableau K} {eN : V × V → V × V → V × V → ENorm K} {eN' : U × U → U × U → U × U → ENorm K}
    (hN : ∀ y z e, eN' (L y.1, L y.2) (L z.1, L z.2) (L e.1, L e.2) = eN y z e)
    {c : Cfg K (V × V) V} {c' : Cfg K (U × U) U} (hc : SameOptions (fun y => (L y.1, L y.2)) c c')
    (hm : c.m = nyMethod T f eN) (hm' : c'.m = nyMethod T g eN')
    {t0 : K} {y0 : V × V} {h0 : K} {e0 : ℕ} {Ks0 : ℕ → V} {outs : List Out} {v : Solver K (V × V) V}
    (hr : Run c (newSolver c t0 y0 h0 e0 Ks0) outs v) :
    Run c' (newSolver c' t0 (L y0.1, L y0.2) h0 e0 fun i => L (Ks0 i)) outs (v.image (fun y => (L y.1, L y.2)) L) := by
  have himg : ImageMethod (pairMap L) L c.m c'.m := by
    rw [hm, hm']; exact imageMethod_ny L (fun t y => hL t y.1 y.2) T fun y z e => hN y z e
  exact run_image (φ := pairMap L) hc himg hr

end

/-! ## The error norm of the code -/

section
variable {𝕜 : Type*} [RCLike 𝕜] {n : ℕ}

/-- New units and a new numbering: component `i` of the new problem is `lam i` times component `σ i` of the old one. -/
noncomputable def relabel (lam : Fin n → 𝕜) (σ : Equiv.Perm (Fin n)) : (Fin n → 𝕜) →ₗ[ℝ] (Fin n → 𝕜) where
  toFun y i := lam i * y (σ i)
  map_add' y z := by funext i; simp [mul_add]
  map_smul' a y := by funext i; simp

@[simp] theorem relabel_apply (lam : Fin n → 𝕜) (σ : Equiv.Perm (Fin n)) (y : Fin n → 𝕜) (i : Fin n) :
    relabel lam σ y i = lam i * y (σ i) := rfl

/-- **C122.** The weighted error norm does not depend on the units or the numbering, if `atol` is converted with the components. -/
theorem C122_norm {lam : Fin n → 𝕜} (hl : ∀ i, lam i ≠ 0) (σ : Equiv.Perm (Fin n)) (atol : Fin n → ℝ) (rtol : ℝ) (y z e : Fin n → 𝕜) :
    scaledNorm (fun i => ‖lam i‖ * atol (σ i)) rtol (fun i => lam i * y (σ i)) (fun i => lam i * z (σ i)) (fun i => lam i * e (σ i)) =
    scaledNorm atol rtol y z e := by
  have hs : ∀ i, errScale (fun i => ‖lam i‖ * atol (σ i)) rtol (fun i => lam i * y (σ i)) (fun i => lam i * z (σ i)) i =
      ‖lam i‖ * errScale atol rtol y z (σ i) := by
    intro i
    simp only [errScale, norm_mul]
    rw [← mul_max_of_nonneg _ _ (norm_nonneg (lam i))]
    ring
  have ht : ∀ i, ‖lam i * e (σ i) / ((‖lam i‖ * errScale atol rtol y z (σ i) : ℝ) : 𝕜)‖ =
      ‖e (σ i) / ((errScale atol rtol y z (σ i) : ℝ) : 𝕜)‖ := by
    intro i
    have h0 : ‖lam i‖ ≠ 0 := norm_ne_zero_iff.2 (hl i)
    simp only [norm_div, norm_mul, RCLike.norm_ofReal, abs_mul, abs_norm]
    exact mul_div_mul_left _ _ h0
  unfold scaledNorm
  simp only [hs]
  rw [rmsNorm_eq, rmsNorm_eq, EuclideanSpace.norm_eq, EuclideanSpace.norm_eq]
  simp only [ht]
  rw [Equiv.sum_comp σ fun i => ‖e i / ((errScale atol rtol y z i : ℝ) : 𝕜)‖ ^ 2]

/-- **C122.** Runge-Kutta methods with the error norm of the code, real and complex problems: solve the problem in other units and with
another numbering of the components, with `atol` converted accordingly and the same `rtol`, first step and options. Every sequence of calls
of `step()` gives the same outcomes, and the states correspond: same `t`, step size and counters, and `y` in the new units. -/
theorem C122_units {lam : Fin n → 𝕜} (hl : ∀ i, lam i ≠ 0) (σ : Equiv.Perm (Fin n)) {atol : Fin n → ℝ} {rtol : ℝ}
    {f g : ℝ → (Fin n → 𝕜) → Fin n → 𝕜} (hg : ∀ t y i, g t (fun j => lam j * y (σ j)) i = lam i * f t y (σ i)) {T : Tableau ℝ}
    {c c' : Cfg ℝ (Fin n → 𝕜) (Fin n → 𝕜)} (hc : SameOptions (relabel lam σ) c c')
    (hm : let eN := fun y z e => ENorm.num (scaledNorm atol rtol y z e)
      let eN' := fun y z e => ENorm.num (scaledNorm (fun i => ‖lam i‖ * atol (σ i)) rtol y z e)
      c.m = rkMethod T f eN ∧ c'.m = rkMethod T g eN' ∨
      c.m = bs5Method ℝ f eN ∧ c'.m = bs5Method ℝ g eN' ∨ c.m = cfmr7oscMethod ℝ f eN ∧ c'.m = cfmr7oscMethod ℝ g eN')
    {t0 : ℝ} {y0 : Fin n → 𝕜} {h0 : ℝ} {e0 : ℕ} {outs : List Out} {v : Solver ℝ (Fin n → 𝕜) (Fin n → 𝕜)}
    (hr : Run c (newSolver c t0 y0 h0 e0 fun _ => 0) outs v) :
    ∃ v', Run c' (newSolver c' t0 (fun i => lam i * y0 (σ i)) h0 e0 fun _ => 0) outs v' ∧
      v'.status = v.status ∧ v'.tOld = v.tOld ∧ v'.st.t = v.st.t ∧ v'.st.hAbs = v.st.hAbs ∧ v'.st.nfev = v.st.nfev ∧
      v'.st.nfs = v.st.nfs ∧ (∀ i, v'.st.y i = lam i * v.st.y (σ i)) ∧ (∀ i, v'.st.f i = lam i * v.st.f (σ i)) := by
  have := C122_runge_kutta (relabel lam σ) (f := f) (g := g) (fun t y => funext fun i => hg t y i) (T := T)
    (eN := fun y z e => ENorm.num (scaledNorm atol rtol y z e))
    (eN' := fun y z e => ENorm.num (scaledNorm (fun i => ‖lam i‖ * atol (σ i)) rtol y z e))
    (fun y z e => congrArg ENorm.num (C122_norm hl σ atol rtol y z e)) hc hm hr
  simp only [map_zero] at this
  exact ⟨_, this, rfl, rfl, rfl, rfl, rfl, rfl, fun _ => rfl, fun _ => rfl⟩

end

/-! ## The hypotheses are met -/

/-- `y' = -y` in units a thousand times smaller, with `atol` converted. -/
def exDecayMilli : Cfg ℚ ℚ ℚ :=
  exCfg (fun _ y => -y) (scalarErr (1 / 1000) 1) (some 1) 1 none 0

theorem exDecayMilli_norm (y z e : ℚ) : scalarErr (1 / 1000) 1 (1000 * y) (1000 * z) (1000 * e) =
    scalarErr (1 / 1000) (1 / 1000) y z e := by
  unfold scalarErr
  have h : (1 : ℚ) + 1 / 1000 * max (1000 * |y|) (1000 * |z|) = 1000 * (1 / 1000 + 1 / 1000 * max |y| |z|) := by
    rw [← mul_max_of_nonneg _ _ (by norm_num : (0 : ℚ) ≤ 1000)]; ring
  simp only [abs_mul, abs_of_pos (by norm_num : (0 : ℚ) < 1000)]
  rw [h, mul_div_mul_left _ _ (by norm_num : (1000 : ℚ) ≠ 0)]

/-- A run of one step, seen in the other units. -/
example : ∃ v, Run exDecay exStart [.ok] v ∧ v.st.t = 1 / 2 ∧
    Run exDecayMilli (newSolver exDecayMilli 0 1000 (1 / 2) 1 fun _ => 0) [.ok]
      (v.image (fun y => 1000 * y) fun y => 1000 * y) := by
  obtain ⟨p, hp⟩ : ∃ p, step exDecay 5 exStart = some p := Option.isSome_iff_exists.1 (by decide +kernel)
  have h1 : p.1 = .ok ∧ p.2.st.t = 1 / 2 := by
    have : ((step exDecay 5 exStart).map fun p => (p.1, p.2.st.t)) = some (.ok, 1 / 2) := by decide +kernel
    rw [hp] at this
    simpa using this
  have hr : Run exDecay exStart [.ok] p.2 := by
    refine .cons (fuel := 5) (outs := []) .nil ?_
    rw [hp, ← h1.1]
  refine ⟨p.2, hr, h1.2, ?_⟩
  have := C122_runge_kutta (K := ℚ) ((1000 : ℚ) • LinearMap.id) (f := fun _ y : ℚ => -y) (g := fun _ y : ℚ => -y) (by intro t y; simp)
    (T := Me4.tab ℚ) (eN := scalarErr (1 / 1000) (1 / 1000)) (eN' := scalarErr (1 / 1000) 1)
    (fun y z e => by simpa using exDecayMilli_norm y z e) (c := exDecay) (c' := exDecayMilli)
    ⟨rfl, rfl, rfl, rfl, rfl, rfl, rfl, rfl, rfl, rfl, rfl, rfl, rfl, rfl, rfl, fun _ _ => rfl⟩ (.inl ⟨rfl, rfl⟩) hr
  have e : ((1000 : ℚ) • id : ℚ → ℚ) = fun y => 1000 * y := by funext y; simp
  simpa [Solver.image, St.image, e] using this

/-- Without converting `atol` the claim is false: the first step is rejected in one of the two units only. -/
example : ((step exDecay 5 (newSolver exDecay 0 1 1 1 fun _ => 0)).map fun p => p.2.st.nfs) = some 0 ∧
    ((step exDecay 5 (newSolver exDecay 0 1000 1 1 fun _ => 0)).map fun p => p.2.st.nfs) = some 1 := by decide +kernel

/-- The conversion of `C122_units`: two components are exchanged, one of them is also put in other units. -/
example : ∃ lam : Fin 2 → ℝ, (∀ i, lam i ≠ 0) ∧ ∀ (t : ℝ) (y : Fin 2 → ℝ) i,
    (fun (_ : ℝ) (z : Fin 2 → ℝ) => ![-(z 1) / 2000, 2000 * z 0]) t (fun j => lam j * y (Equiv.swap 0 1 j)) i =
      lam i * (fun (_ : ℝ) (z : Fin 2 → ℝ) => ![2 * z 1, -(z 0) / 2]) t y (Equiv.swap 0 1 i) := by
  refine ⟨![1, 1000], ?_, ?_⟩
  · intro i; fin_cases i <;> simp
  · intro t y i
    fin_cases i
    · simp; ring
    · simp; ring

end Extensisq
