import Verif.Props.UnitsEsdirk
import Verif.Props.SwagWitness

/-!
# C126: SWAG: units and numbering of the components do not matter

The run of `SWAG` on the image of a problem under an invertible linear map that keeps the norms is the image of the run on the original
problem: same outcomes, times, step sizes, orders, coefficients and counters; also the dense output is the image.
-/

set_option linter.unusedSectionVars false
set_option maxRecDepth 100000

namespace Extensisq
open Finset

section
variable {K V U : Type*} [Field K] [LinearOrder K] [AddCommGroup V] [Module K V] [AddCommGroup U] [Module K U]

/-- The weighted norm in the new variables. -/
def wtImage (L : V ≃ₗ[K] U) (w : V → ENorm K) : U → ENorm K := fun u => w (L.symm u)

@[simp] theorem wtImage_apply (L : V ≃ₗ[K] U) (w : V → ENorm K) (x : V) : wtImage L w (L x) = w x := by simp [wtImage]

/-- The image of a state: vectors are mapped, everything else is unchanged. -/
def SwSt.image (L : V ≃ₗ[K] U) (s : SwSt K V) : SwSt K U where
  t := s.t
  y := L s.y
  yp := L s.yp
  h := s.h
  hold := s.hold
  k := s.k
  kold := s.kold
  ns := s.ns
  phase1 := s.phase1
  phi := fun i => L (s.phi i)
  co := s.co
  wt := wtImage L s.wt
  kle4 := s.kle4
  yOld := L s.yOld
  nfev := s.nfev
  nfs := s.nfs
  hist := s.hist.map fun p => (p.1, L p.2)
  warned := s.warned

/-- The image of a solver. -/
def SwSolver.image (L : V ≃ₗ[K] U) (v : SwSolver K V) : SwSolver K U := ⟨v.status, v.tOld, v.st.image L⟩

/-- Two configurations with the same options for a problem and its image. -/
structure ImageSwag (L : V ≃ₗ[K] U) (c : SwCfg K V) (c' : SwCfg K U) : Prop where
  fn : ∀ t y, c'.fn t (L y) = L (c.fn t y)
  scale : ∀ p y x, c'.scale (L p) (L y) (L x) = c.scale p y x
  tb : c'.tb = c.tb
  dir : c'.dir = c.dir
  maxStep : c'.maxStep = c.maxStep
  fouru : c'.fouru = c.fouru
  twou : c'.twou = c.twou
  kMax : c'.kMax = c.kMax
  gstr : c'.gstr = c.gstr
  sqrt : c'.sqrt = c.sqrt
  pw : c'.pw = c.pw

def SwLoc.image (L : V ≃ₗ[K] U) (l : SwLoc K V) : SwLoc K U :=
  ⟨l.h, l.k, l.ns, l.phase1, fun i => L (l.phi i), l.co, wtImage L l.wt, L l.yp, l.ifail, l.nfev, l.nfs⟩

def SwTry.image (L : V ≃ₗ[K] U) (r : SwTry K V) : SwTry K U :=
  ⟨r.co, r.ns, fun i => L (r.phi i), L r.p, L r.fp, wtImage L r.wt, r.err, r.erk, r.erkm1, r.knew⟩

variable {L : V ≃ₗ[K] U} {c : SwCfg K V} {c' : SwCfg K U}

theorem phiStar_image (beta : ℕ → K) (k ns : ℕ) (phi : ℕ → V) :
    phiStar beta k ns (fun i => L (phi i)) = fun i => L (phiStar beta k ns phi i) := by
  funext j
  unfold phiStar
  split_ifs
  · rw [map_smul]
  · rfl

theorem phiPredict_image (k : ℕ) (ps : ℕ → V) : phiPredict k (fun i => L (ps i)) = fun i => L (phiPredict k ps i) := by
  funext j
  unfold phiPredict
  split_ifs
  · rw [map_sum]
  · rw [map_zero]
  · rfl
  · rfl

theorem swPredict_image (h : K) (g : ℕ → K) (k : ℕ) (ps : ℕ → V) (y : V) :
    swPredict h g k (fun i => L (ps i)) (L y) = L (swPredict h g k ps y) := by
  simp only [swPredict, map_add, map_smul, map_sum]

theorem scale_image (hi : ImageSwag L c c') (p y : V) : c'.scale (L p) (L y) = wtImage L (c.scale p y) := by
  funext u
  obtain ⟨x, rfl⟩ := L.surjective u
  rw [hi.scale, wtImage_apply]

theorem swTry_image (hi : ImageSwag L c c') (t : K) (y : V) (hold : K) (kold : ℕ) (l : SwLoc K V) :
    swTry c' t (L y) hold kold (l.image L) = (swTry c t y hold kold l).image L := by
  unfold swTry
  simp only [SwLoc.image, phiStar_image, swPredict_image, phiPredict_image, hi.fn, scale_image hi, hi.gstr, ← map_sub, ← map_add,
    wtImage_apply, SwTry.image]

theorem swFail_image (hi : ImageSwag L c c') (l : SwLoc K V) (r : SwTry K V) :
    swFail c' (l.image L) (r.image L) = (swFail c l r).image L := by
  have h1 : ∀ n e, failFactor c' n e = failFactor c n e := by intro n e; unfold failFactor; rw [hi.sqrt]
  have h2 : ∀ (b : ℕ → K) (k : ℕ) (phi : ℕ → V), phiRestore b k (fun i => L (phi i)) = fun i => L (phiRestore b k phi i) := by
    intro b k phi
    funext j
    unfold phiRestore
    split_ifs
    · rw [map_smul, map_sub]
    · rfl
  unfold swFail
  simp only [SwLoc.image, SwTry.image, h1, h2]
  rfl

theorem phiCorrect_image (k : ℕ) (phi : ℕ → V) (yp : V) :
    phiCorrect k (fun i => L (phi i)) (L yp) = fun i => L (phiCorrect k phi yp i) := by
  funext j
  simp only [phiCorrect]
  split_ifs <;> simp only [map_add, map_sub]

theorem swAccept_image (hi : ImageSwag L c c') (ms : K) (s : SwSt K V) (l : SwLoc K V) (r : SwTry K V) :
    swAccept c' ms (s.image L) (l.image L) (r.image L) = (swAccept c ms s l r).image L := by
  have hy : (l.h * r.co.g l.k) • (L r.fp - L (r.phi 0)) + L r.p = L ((l.h * r.co.g l.k) • (r.fp - r.phi 0) + r.p) := by
    rw [← map_sub, ← map_smul, ← map_add]
  have hn : ∀ k kn ns ph e1 e2 e3, nextOrder c' k kn ns ph e1 e2 e3 = nextOrder c k kn ns ph e1 e2 e3 := by
    intros; unfold nextOrder; rw [hi.kMax]
  have hh : ∀ h k ph e, nextH c' ms h k ph e = nextH c ms h k ph e := by
    intros; unfold nextH; rw [hi.pw]
  unfold swAccept
  simp only [SwLoc.image, SwTry.image, SwSt.image, hy, hi.fn, phiCorrect_image, wtImage_apply, hn, hh, hi.kMax, hi.gstr, List.map_cons]

theorem swLoop_image (hi : ImageSwag L c c') (ms : K) (s : SwSt K V) : ∀ (n : ℕ) (l : SwLoc K V),
    swLoop c' ms (s.image L) n (l.image L) = (swLoop c ms s n l).map fun p => (p.1, p.2.image L) := by
  intro n
  induction n with
  | zero => intros; rfl
  | succ n ih =>
    intro l
    have hr : swTry c' (s.image L).t (s.image L).y (s.image L).hold (s.image L).kold (l.image L) =
        (swTry c s.t s.y s.hold s.kold l).image L := swTry_image hi _ _ _ _ _
    unfold swLoop
    dsimp only
    rw [hr, swFail_image hi]
    generalize swTry c s.t s.y s.hold s.kold l = r
    rw [show (r.image L).err = r.err from rfl, show ((swFail c l r).image L).h = (swFail c l r).h from rfl]
    split_ifs
    · rw [swAccept_image hi]; rfl
    · rfl
    · exact ih _

theorem swStepImpl_image (hi : ImageSwag L c c') (fuel : ℕ) (s0 : SwSt K V) :
    swStepImpl c' fuel (s0.image L) = (swStepImpl c fuel s0).map fun p => (p.1, p.2.image L) := by
  have h1 : swStiff c' (s0.image L) = (swStiff c s0).image L := by
    unfold swStiff
    rw [hi.kMax, show (s0.image L).kold = s0.kold from rfl, show (s0.image L).kle4 = s0.kle4 from rfl]
    split_ifs <;> rfl
  unfold swStepImpl
  dsimp only
  rw [h1]
  generalize swStiff c s0 = s
  have h2 : swNear c' (s.image L).t = swNear c s.t := by unfold swNear swMinStep; rw [hi.tb, hi.fouru]; rfl
  have h3 : swLimit c' (s.image L).t (s.image L).h = swLimit c s.t s.h := by
    unfold swLimit swLimit1; rw [hi.tb, hi.maxStep, hi.dir]; rfl
  have h4 : swMinStep c' (s.image L).t = swMinStep c s.t := by unfold swMinStep; rw [hi.fouru]; rfl
  have h5 : (s.image L).wt (s.image L).y = s.wt s.y := wtImage_apply L s.wt s.y
  have h6 : swExtrapolate (c.tb.getD s.t) (s.image L) = (swExtrapolate (c.tb.getD s.t) s).image L := by
    simp only [swExtrapolate, SwSt.image, map_add, map_smul]
  rw [h2, h3, h4, h5, hi.tb, hi.twou, show (s.image L).t = s.t from rfl, h6]
  split_ifs
  · rfl
  · rfl
  · rfl
  · exact swLoop_image hi _ s fuel (swStart s (swLimit c s.t s.h))

/-- **C126** (general form). Corresponding calls of `SWAG.step()` return the same outcome and corresponding states. -/
theorem C126_step (hi : ImageSwag L c c') (fuel : ℕ) (v : SwSolver K V) :
    swStep c' fuel (v.image L) = (swStep c fuel v).map fun p => (p.1, p.2.image L) := by
  unfold swStep
  have e1 : (v.image L).status = v.status := rfl
  rw [e1]
  cases v.status with
  | running =>
    dsimp only
    have e2 : (v.image L).st.t = v.st.t := rfl
    rw [e2, hi.tb]
    by_cases ht : c.tb = some v.st.t
    · simp only [ht, if_true]; rfl
    · simp only [ht, if_false]
      rw [show (v.image L).st = v.st.image L from rfl, swStepImpl_image hi]
      cases swStepImpl c fuel v.st with
      | none => rfl
      | some p =>
        obtain ⟨o, s'⟩ := p
        have e4 : swReached c' (s'.image L).t = swReached c s'.t := by
          unfold swReached; rw [hi.tb, hi.dir]; rfl
        cases o with
        | ok => simp only [Option.map_some, e4]; rfl
        | tooSmall => rfl
        | tooTight => rfl
        | notRunning => rfl
  | finished => rfl
  | failed => rfl

/-- A sequence of calls of `step()` with its outcomes, latest first. -/
inductive SwCalls (c : SwCfg K V) (v0 : SwSolver K V) : List SwOut → SwSolver K V → Prop
  | nil : SwCalls c v0 [] v0
  | cons {outs : List SwOut} {v v' : SwSolver K V} {o : SwOut} {fuel : ℕ} :
      SwCalls c v0 outs v → swStep c fuel v = some (o, v') → SwCalls c v0 (o :: outs) v'

/-- **C126.** Whole runs. -/
theorem C126_run (hi : ImageSwag L c c') {v0 v : SwSolver K V} {outs : List SwOut} (hr : SwCalls c v0 outs v) :
    SwCalls c' (v0.image L) outs (v.image L) := by
  induction hr with
  | nil => exact .nil
  | @cons outs v v' o fuel _ hs ih =>
    refine .cons (fuel := fuel) ih ?_
    rw [C126_step hi, hs]
    rfl

/-- **C126.** The dense output in corresponding states. -/
theorem C126_dense (L : V ≃ₗ[K] U) (ox : K) (s : SwSt K V) (t : K) : swOutput ox (s.image L) t = L (swOutput ox s t) := by
  unfold swOutput
  rw [show (s.image L).kold = s.kold from rfl]
  split_ifs
  · simp only [swDense, SwSt.image, map_add, map_smul, map_sum]
  · simp only [linDense, SwSt.image, map_add, map_smul, map_sub]

end

/-! ## The norm of the code -/

section
variable {𝕜 : Type*} [RCLike 𝕜] {n : ℕ}

/-- `norm(x / calculate_scale(atol, rtol, p, y, _mean=True))` (`shampine.py:149, 339-350`). -/
noncomputable def meanNorm (atol : Fin n → ℝ) (rtol : ℝ) (p y x : Fin n → 𝕜) : ℝ :=
  rmsNorm fun i => x i / ((errScaleMean atol rtol p y i : ℝ) : 𝕜)

/-- **C126.** The weighted norm of `SWAG` does not depend on the units or the numbering. -/
theorem C126_norm {lam : Fin n → 𝕜} (hl : ∀ i, lam i ≠ 0) (σ : Equiv.Perm (Fin n)) (atol : Fin n → ℝ) (rtol : ℝ) (y z e : Fin n → 𝕜) :
    meanNorm (fun i => ‖lam i‖ * atol (σ i)) rtol (fun i => lam i * y (σ i)) (fun i => lam i * z (σ i)) (fun i => lam i * e (σ i)) =
    meanNorm atol rtol y z e := by
  have hs : ∀ i, errScaleMean (fun i => ‖lam i‖ * atol (σ i)) rtol (fun i => lam i * y (σ i)) (fun i => lam i * z (σ i)) i =
      ‖lam i‖ * errScaleMean atol rtol y z (σ i) := by
    intro i
    simp only [errScaleMean, norm_mul]
    ring
  have ht : ∀ i, ‖lam i * e (σ i) / ((‖lam i‖ * errScaleMean atol rtol y z (σ i) : ℝ) : 𝕜)‖ =
      ‖e (σ i) / ((errScaleMean atol rtol y z (σ i) : ℝ) : 𝕜)‖ := by
    intro i
    have h0 : ‖lam i‖ ≠ 0 := norm_ne_zero_iff.2 (hl i)
    simp only [norm_div, norm_mul, RCLike.norm_ofReal, abs_mul, abs_norm]
    exact mul_div_mul_left _ _ h0
  unfold meanNorm
  simp only [hs]
  rw [rmsNorm_eq, rmsNorm_eq, EuclideanSpace.norm_eq, EuclideanSpace.norm_eq]
  simp only [ht]
  rw [Equiv.sum_comp σ fun i => ‖e i / ((errScaleMean atol rtol y z i : ℝ) : 𝕜)‖ ^ 2]

/-- The options that do not depend on the units. -/
structure SameSwOptions (c c' : SwCfg ℝ (Fin n → 𝕜)) : Prop where
  tb : c'.tb = c.tb
  dir : c'.dir = c.dir
  maxStep : c'.maxStep = c.maxStep
  fouru : c'.fouru = c.fouru
  twou : c'.twou = c.twou
  kMax : c'.kMax = c.kMax
  gstr : c'.gstr = c.gstr
  sqrt : c'.sqrt = c.sqrt
  pw : c'.pw = c.pw

/-- **C126.** `SWAG` with the norm of the code, real and complex problems: solve the problem in other units and with another numbering of the
components, with `atol` converted and the same first step. Every sequence of calls of `step()` gives the same outcomes, and the states
correspond: same `t`, step size, order and counters, `y` in the new units, and so is the dense output after the last step. -/
theorem C126_units {lam : Fin n → 𝕜} (hl : ∀ i, lam i ≠ 0) (σ : Equiv.Perm (Fin n)) {atol : Fin n → ℝ} {rtol : ℝ}
    {f g : ℝ → (Fin n → 𝕜) → Fin n → 𝕜} (hg : ∀ t y i, g t (fun j => lam j * y (σ j)) i = lam i * f t y (σ i))
    {c c' : SwCfg ℝ (Fin n → 𝕜)} (hf : c.fn = f) (hf' : c'.fn = g) (hs : ∀ p y x, c.scale p y x = .num (meanNorm atol rtol p y x))
    (hs' : ∀ p y x, c'.scale p y x = .num (meanNorm (fun i => ‖lam i‖ * atol (σ i)) rtol p y x)) (ho : SameSwOptions c c')
    {t0 : ℝ} {y0 : Fin n → 𝕜} {h0 : ℝ} {phi0 : ℕ → Fin n → 𝕜} {co0 : Coef ℝ} {nf : ℕ} {outs : List SwOut} {v : SwSolver ℝ (Fin n → 𝕜)}
    (hr : SwCalls c (newSwag t0 y0 (f t0 y0) h0 (c.scale y0 y0) phi0 co0 nf) outs v) :
    let y0' : Fin n → 𝕜 := fun i => lam i * y0 (σ i)
    ∃ v', SwCalls c' (newSwag t0 y0' (g t0 y0') h0 (c'.scale y0' y0') (fun k i => lam i * phi0 k (σ i)) co0 nf) outs v' ∧
      v'.status = v.status ∧ v'.tOld = v.tOld ∧ v'.st.t = v.st.t ∧ v'.st.h = v.st.h ∧ v'.st.k = v.st.k ∧ v'.st.nfev = v.st.nfev ∧
      v'.st.nfs = v.st.nfs ∧ (∀ i, v'.st.y i = lam i * v.st.y (σ i)) ∧ (∀ i, v'.st.yp i = lam i * v.st.yp (σ i)) ∧
      ∀ ox t i, swOutput ox v'.st t i = lam i * swOutput ox v.st t (σ i) := by
  intro y0'
  set L := relabelEquiv lam hl σ with hL
  have hap : ∀ y, L y = fun i => lam i * y (σ i) := fun y => rfl
  have hi : ImageSwag L c c' :=
    { tb := ho.tb, dir := ho.dir, maxStep := ho.maxStep, fouru := ho.fouru, twou := ho.twou, kMax := ho.kMax, gstr := ho.gstr,
      sqrt := ho.sqrt, pw := ho.pw
      fn := fun t y => by rw [hf, hf']; exact funext fun i => hg t y i
      scale := fun p y x => by rw [hs, hs']; exact congrArg ENorm.num (C126_norm hl σ atol rtol p y x) }
  have e0 : (newSwag t0 y0 (f t0 y0) h0 (c.scale y0 y0) phi0 co0 nf).image L =
      newSwag t0 y0' (g t0 y0') h0 (c'.scale y0' y0') (fun k i => lam i * phi0 k (σ i)) co0 nf := by
    have e1 : L (f t0 y0) = g t0 y0' := by
      have := hi.fn t0 y0
      rw [hf, hf'] at this
      exact this.symm
    have e2 : wtImage L (c.scale y0 y0) = c'.scale y0' y0' := (scale_image hi y0 y0).symm
    have e3 : (fun i => L (Function.update (Function.update phi0 0 (f t0 y0)) 1 0 i)) =
        Function.update (Function.update (fun k i => lam i * phi0 k (σ i)) 0 (g t0 y0')) 1 0 := by
      rw [← update_image L, ← update_image L, map_zero, e1]
      rfl
    simp only [newSwag, SwSolver.image, SwSt.image, e1, e2, e3, List.map_cons, List.map_nil]
    rfl
  have := C126_run hi hr
  rw [e0] at this
  exact ⟨_, this, rfl, rfl, rfl, rfl, rfl, rfl, rfl, fun _ => rfl, fun _ => rfl, fun ox t i => by
    rw [show (v.image L).st = v.st.image L from rfl, C126_dense L]; rfl⟩

end

/-! ## The hypotheses are met -/

/-- `y' = t - y` and the same problem in units a thousand times smaller. -/
def swUnitA : SwCfg ℚ ℚ := swQ (fun t y => t - y) (fun x => .num (|x| / 10))

def swUnitMilli : SwCfg ℚ ℚ := swQ (fun t y => 1000 * t - y) (fun x => .num (|x| / 10000))

theorem swUnitMilli_image : ImageSwag milli swUnitA swUnitMilli where
  fn := fun t y => by simp [swUnitA, swUnitMilli, swQ]; ring
  scale := fun p y x => by
    have h3 : |(1000 : ℚ)| = 1000 := by norm_num
    simp only [swUnitA, swUnitMilli, swQ, milli_apply, abs_mul, h3]
    congr 1
    ring
  tb := rfl
  dir := rfl
  maxStep := rfl
  fouru := rfl
  twou := rfl
  kMax := rfl
  gstr := rfl
  sqrt := rfl
  pw := rfl

/-- A run of two steps, seen in the other units. -/
example : ∃ v, SwCalls swUnitA (newSwag 0 1 (-1) (1 / 8) (fun x => .num (|x| / 10)) 0 emptyCo 1) [.ok, .ok] v ∧ 1 / 8 < v.st.t ∧
    SwCalls swUnitMilli ((newSwag 0 1 (-1) (1 / 8) (fun x => .num (|x| / 10)) 0 emptyCo 1).image milli) [.ok, .ok] (v.image milli) := by
  have hs : ((swRunQ swUnitA 2 (newSwag 0 1 (-1) (1 / 8) (fun x => .num (|x| / 10)) 0 emptyCo 1)).any fun w => decide (1 / 8 < w.st.t)) = true := by
    decide +kernel
  have key : ∀ n v0 w, swRunQ swUnitA n v0 = some w → SwCalls swUnitA v0 (List.replicate n .ok) w := by
    intro n v0
    induction n with
    | zero => intro w h; simp only [swRunQ, Option.some.injEq] at h; subst h; exact .nil
    | succ n ih =>
      intro w h
      simp only [swRunQ] at h
      cases hw : swRunQ swUnitA n v0 with
      | none => rw [hw] at h; cases h
      | some u =>
        rw [hw] at h
        dsimp only at h
        cases hu : swStep swUnitA 8 u with
        | none => rw [hu] at h; cases h
        | some p =>
          obtain ⟨o, w'⟩ := p
          rw [hu] at h
          cases o <;> simp only [Option.some.injEq, reduceCtorEq] at h
          subst h
          exact .cons (ih u hw) hu
  cases hw : swRunQ swUnitA 2 (newSwag 0 1 (-1) (1 / 8) (fun x => .num (|x| / 10)) 0 emptyCo 1) with
  | none => rw [hw] at hs; simp at hs
  | some w =>
    rw [hw] at hs
    simp only [Option.any_some, decide_eq_true_eq] at hs
    exact ⟨w, key 2 _ w hw, hs, C126_run swUnitMilli_image (key 2 _ w hw)⟩

end Extensisq
