import Verif.Props.UnitsSwag
import Verif.Props.UnitsTime

/-!
# C128: SWAG: the unit of time does not matter

As C127, for `SWAG`: the minimal step of `SWAG` is relative to `t`, so no proviso is needed.
-/

set_option linter.unusedSectionVars false
set_option maxRecDepth 100000

namespace Extensisq
open Finset

section
variable {K V : Type*} [Field K] [LinearOrder K] [IsStrictOrderedRing K] [AddCommGroup V] [Module K V]

/-- The coefficients in the other unit of time: the distances `psi` are multiplied by `a`, the others are ratios. -/
def Coef.clock (a : K) (co : Coef K) : Coef K := { co with psi := fun i => a * co.psi i }

/-- The state in the other unit of time. -/
def SwSt.clock (a : K) (s : SwSt K V) : SwSt K V where
  t := a * s.t
  y := s.y
  yp := a⁻¹ • s.yp
  h := a * s.h
  hold := a * s.hold
  k := s.k
  kold := s.kold
  ns := s.ns
  phase1 := s.phase1
  phi := fun i => a⁻¹ • s.phi i
  co := s.co.clock a
  wt := s.wt
  kle4 := s.kle4
  yOld := s.yOld
  nfev := s.nfev
  nfs := s.nfs
  hist := s.hist.map fun p => (a * p.1, a⁻¹ • p.2)
  warned := s.warned

/-- The solver in the other unit of time. -/
def SwSolver.clock (a : K) (v : SwSolver K V) : SwSolver K V := ⟨v.status, v.tOld.map fun t => a * t, v.st.clock a⟩

/-- The same problem and options in another unit of time, `t' = a t`. The weighted norm is homogeneous. -/
structure ClockSwag (a : K) (c c' : SwCfg K V) : Prop where
  fn : ∀ t y, c'.fn (a * t) y = a⁻¹ • c.fn t y
  tb : c'.tb = c.tb.map fun b => a * b
  maxStep : c'.maxStep = c.maxStep.map fun h => a * h
  scale : c'.scale = c.scale
  hom : ∀ p y x, c.scale p y (a⁻¹ • x) = ENorm.scale a⁻¹ (c.scale p y x)
  dir : c'.dir = c.dir
  fouru : c'.fouru = c.fouru
  twou : c'.twou = c.twou
  kMax : c'.kMax = c.kMax
  gstr : c'.gstr = c.gstr
  sqrt : c'.sqrt = c.sqrt
  pw : c'.pw = c.pw

def SwLoc.clock (a : K) (l : SwLoc K V) : SwLoc K V :=
  ⟨a * l.h, l.k, l.ns, l.phase1, fun i => a⁻¹ • l.phi i, l.co.clock a, l.wt, a⁻¹ • l.yp, l.ifail, l.nfev, l.nfs⟩

def SwTry.clock (a : K) (r : SwTry K V) : SwTry K V :=
  ⟨r.co.clock a, r.ns, fun i => a⁻¹ • r.phi i, r.p, a⁻¹ • r.fp, r.wt, r.err, r.erk, r.erkm1, r.knew⟩

variable {a : K} {c c' : SwCfg K V}

theorem scale_clock (ha : 0 < a) (x : K) (e : ENorm K) : ENorm.scale (a * x) (ENorm.scale a⁻¹ e) = ENorm.scale x e := by
  cases e with
  | num z => simp only [ENorm.scale]; congr 1; field_simp
  | inf => simp only [ENorm.scale, inv_pos.2 ha, if_true, mul_pos_iff_of_pos_left ha]
  | nan => rfl

theorem stepSizes_clock (ha : a ≠ 0) (h : K) (k ns : ℕ) (co : Coef K) :
    stepSizes (a * h) k ns (co.clock a) = (stepSizes h k ns co).clock a := by
  have e1 : ∀ i, (if i = ns - 1 then a * h * (ns : K) else if ns ≤ i ∧ i < k then a * h + a * co.psi (i - 1) else a * co.psi i) =
      a * (if i = ns - 1 then h * (ns : K) else if ns ≤ i ∧ i < k then h + co.psi (i - 1) else co.psi i) := by
    intro i
    split_ifs
    · rw [mul_assoc]
    · rw [mul_add]
    · rfl
  unfold stepSizes
  simp only [Coef.clock]
  simp only [e1, mul_div_mul_left _ _ ha]

theorem coefs_clock (ha : a ≠ 0) (h : K) (k ns kold : ℕ) (co : Coef K) :
    coefs (a * h) k ns kold (co.clock a) = (coefs h k ns kold co).clock a := by
  have hv : ∀ k ns kold (x : Coef K), vPart k ns kold (x.clock a) = (vPart k ns kold x).clock a := by
    intro k ns kold x
    have hr : vRaise k ns (x.clock a) = (vRaise k ns x).clock a := by
      have h1 : vRaise1 k (x.clock a) = (vRaise1 k x).clock a := by
        unfold vRaise1
        rw [show (x.clock a).ivc = x.ivc from rfl]
        split_ifs <;> rfl
      unfold vRaise
      dsimp only
      rw [h1]
      rfl
    unfold vPart
    by_cases h1 : ns = 1
    · rw [if_pos h1, if_pos h1]; rfl
    · rw [if_neg h1, if_neg h1]
      by_cases hk : x.kprev < k
      · rw [if_pos (show (x.clock a).kprev < k from hk), if_pos hk, hr]; rfl
      · rw [if_neg (show ¬(x.clock a).kprev < k from hk), if_neg hk]; rfl
  unfold coefs
  split_ifs
  · rw [stepSizes_clock ha, hv]; rfl
  · rfl

theorem newNs_clock (ha : a ≠ 0) (h hold : K) (ns kold : ℕ) : newNs (a * h) (a * hold) ns kold = newNs h hold ns kold := by
  unfold newNs
  simp only [ne_eq, mul_right_inj' ha]

theorem phiStar_clock (b : K) (beta : ℕ → K) (k ns : ℕ) (phi : ℕ → V) :
    phiStar beta k ns (fun i => b • phi i) = fun i => b • phiStar beta k ns phi i := by
  funext j
  unfold phiStar
  split_ifs
  · rw [smul_comm]
  · rfl

theorem phiPredict_clock (b : K) (k : ℕ) (ps : ℕ → V) : phiPredict k (fun i => b • ps i) = fun i => b • phiPredict k ps i := by
  funext j
  unfold phiPredict
  split_ifs
  · rw [smul_sum]
  · rw [smul_zero]
  · rfl
  · rfl

theorem swTry_clock (ha : 0 < a) (hi : ClockSwag a c c') (t : K) (y : V) (hold : K) (kold : ℕ) (l : SwLoc K V) :
    swTry c' (a * t) y (a * hold) kold (l.clock a) = (swTry c t y hold kold l).clock a := by
  have hp : ∀ h g k (ps : ℕ → V) y, swPredict (a * h) g k (fun i => a⁻¹ • ps i) y = swPredict h g k ps y := by
    intro h g k ps y
    unfold swPredict
    rw [smul_weights a h ha.ne']
  have habs : ∀ h : K, |a * h| = a * |h| := fun h => by rw [abs_mul, abs_of_pos ha]
  unfold swTry
  simp only [SwLoc.clock, newNs_clock ha.ne', coefs_clock ha.ne']
  simp only [Coef.clock, phiStar_clock, hp, phiPredict_clock, ← mul_add, hi.fn, hi.scale, hi.gstr, ← smul_sub, ← smul_add,
    hi.hom, habs, scale_clock ha]
  rfl

theorem swFail_clock (ha : 0 < a) (hi : ClockSwag a c c') (l : SwLoc K V) (r : SwTry K V) :
    swFail c' (l.clock a) (r.clock a) = (swFail c l r).clock a := by
  have h1 : ∀ n e, failFactor c' n e = failFactor c n e := by intro n e; unfold failFactor; rw [hi.sqrt]
  have h2 : ∀ (b : ℕ → K) (k : ℕ) (phi : ℕ → V), phiRestore b k (fun i => a⁻¹ • phi i) = fun i => a⁻¹ • phiRestore b k phi i := by
    intro b k phi
    funext j
    unfold phiRestore
    split_ifs
    · rw [← smul_sub, smul_comm]
    · rfl
  have h3 : ∀ h k (psi : ℕ → K), psiRestore (a * h) k (fun i => a * psi i) = fun i => a * psiRestore h k psi i := by
    intro h k psi
    funext j
    unfold psiRestore
    split_ifs
    · rw [mul_sub]
    · rfl
  unfold swFail
  simp only [SwLoc.clock, SwTry.clock, Coef.clock, h1, h2, h3, mul_assoc]
  rfl

theorem copySign_clock (ha : 0 < a) (x h : K) : copySign (a * x) (a * h) = a * copySign x h := by
  unfold copySign
  have : a * h < 0 ↔ h < 0 := by rw [mul_neg_iff]; constructor
                                 · rintro (⟨_, h⟩ | ⟨h, _⟩)
                                   · exact h
                                   · exact absurd h ha.not_gt
                                 · exact fun h => .inl ⟨ha, h⟩
  simp only [this]
  split_ifs
  · rw [mul_neg]
  · rfl

theorem nextH_clock (ha : 0 < a) (hi : ClockSwag a c c') (ms h : K) (k : ℕ) (ph : Bool) (e : ENorm K) :
    nextH c' (a * ms) (a * h) k ph e = a * nextH c ms h k ph e := by
  unfold nextH
  rw [hi.pw]
  split_ifs
  · rw [mul_add]
  · rfl
  · dsimp only
    rw [abs_mul, abs_of_pos ha, mul_assoc, ← mul_max_of_nonneg _ _ ha.le, copySign_clock ha]

theorem phiCorrect_clock (b : K) (k : ℕ) (phi : ℕ → V) (yp : V) :
    phiCorrect k (fun i => b • phi i) (b • yp) = fun i => b • phiCorrect k phi yp i := by
  funext j
  simp only [phiCorrect]
  split_ifs <;> simp only [smul_add, smul_sub]

theorem swAccept_clock (ha : 0 < a) (hi : ClockSwag a c c') (ms : K) (s : SwSt K V) (l : SwLoc K V) (r : SwTry K V)
    (hw : ∀ x, r.wt (a⁻¹ • x) = ENorm.scale a⁻¹ (r.wt x)) :
    swAccept c' (a * ms) (s.clock a) (l.clock a) (r.clock a) = (swAccept c ms s l r).clock a := by
  have hy : (a * l.h * r.co.g l.k) • (a⁻¹ • r.fp - a⁻¹ • r.phi 0) = (l.h * r.co.g l.k) • (r.fp - r.phi 0) := by
    rw [← smul_sub, smul_smul]
    congr 1
    have := ha.ne'
    field_simp
  have hn : ∀ k kn ns ph e1 e2 e3, nextOrder c' k kn ns ph e1 e2 e3 = nextOrder c k kn ns ph e1 e2 e3 := by
    intros; unfold nextOrder; rw [hi.kMax]
  have hg : ∀ (g h : K) e, ENorm.scale (g * |a * h|) (ENorm.scale a⁻¹ e) = ENorm.scale (g * |h|) e := by
    intro g h e
    rw [abs_mul, abs_of_pos ha, mul_left_comm, scale_clock ha]
  unfold swAccept
  simp only [SwLoc.clock, SwTry.clock, SwSt.clock, Coef.clock, hy, ← mul_add, hi.fn, phiCorrect_clock, hw, hi.gstr, hg, hn,
    nextH_clock ha hi, hi.kMax, List.map_cons]

theorem swLoop_clock (ha : 0 < a) (hi : ClockSwag a c c') (ms : K) (s : SwSt K V) : ∀ (n : ℕ) (l : SwLoc K V),
    swLoop c' (a * ms) (s.clock a) n (l.clock a) = (swLoop c ms s n l).map fun p => (p.1, p.2.clock a) := by
  intro n
  induction n with
  | zero => intros; rfl
  | succ n ih =>
    intro l
    have hr : swTry c' (s.clock a).t (s.clock a).y (s.clock a).hold (s.clock a).kold (l.clock a) =
        (swTry c s.t s.y s.hold s.kold l).clock a := swTry_clock ha hi _ _ _ _ _
    have hw : ∀ x, (swTry c s.t s.y s.hold s.kold l).wt (a⁻¹ • x) = ENorm.scale a⁻¹ ((swTry c s.t s.y s.hold s.kold l).wt x) :=
      fun x => hi.hom _ _ x
    unfold swLoop
    dsimp only
    rw [hr, swFail_clock ha hi]
    generalize swTry c s.t s.y s.hold s.kold l = r at hw ⊢
    rw [show (r.clock a).err = r.err from rfl, show ((swFail c l r).clock a).h = a * (swFail c l r).h from rfl, abs_mul, abs_of_pos ha]
    simp only [mul_lt_mul_iff_right₀ ha]
    split_ifs
    · rw [swAccept_clock ha hi ms s l r hw]; rfl
    · rfl
    · exact ih _

theorem swStepImpl_clock (ha : 0 < a) (hi : ClockSwag a c c') (fuel : ℕ) (s0 : SwSt K V) :
    swStepImpl c' fuel (s0.clock a) = (swStepImpl c fuel s0).map fun p => (p.1, p.2.clock a) := by
  have h1 : swStiff c' (s0.clock a) = (swStiff c s0).clock a := by
    unfold swStiff
    rw [hi.kMax, show (s0.clock a).kold = s0.kold from rfl, show (s0.clock a).kle4 = s0.kle4 from rfl]
    split_ifs <;> rfl
  unfold swStepImpl
  dsimp only
  rw [h1]
  generalize swStiff c s0 = s
  have h4 : swMinStep c' (s.clock a).t = a * swMinStep c s.t := by
    unfold swMinStep
    rw [hi.fouru, show (s.clock a).t = a * s.t from rfl, abs_mul, abs_of_pos ha, mul_left_comm]
  have h2 : swNear c' (s.clock a).t = swNear c s.t := by
    unfold swNear
    rw [h4, hi.tb, show (s.clock a).t = a * s.t from rfl]
    cases c.tb with
    | none => rfl
    | some b =>
      dsimp only [Option.map_some]
      rw [← mul_sub, abs_mul, abs_of_pos ha]
      simp only [mul_le_mul_iff_right₀ ha]
  have h31 : ∀ t h, swLimit1 c' (a * t) (a * h) = a * swLimit1 c t h := by
    intro t h
    unfold swLimit1
    rw [hi.tb, hi.dir]
    cases c.tb with
    | none => rfl
    | some b =>
      dsimp only [Option.map_some]
      rw [← mul_sub, ← mul_sub, mul_left_comm]
      simp only [mul_pos_iff_of_pos_left ha]
      split_ifs <;> rfl
  have h3 : swLimit c' (s.clock a).t (s.clock a).h = a * swLimit c s.t s.h := by
    unfold swLimit
    rw [hi.maxStep, hi.dir, show (s.clock a).t = a * s.t from rfl, show (s.clock a).h = a * s.h from rfl, h31]
    cases c.maxStep with
    | none => rfl
    | some m =>
      dsimp only [Option.map_some]
      rw [abs_mul, abs_of_pos ha, ← mul_min_of_nonneg _ _ ha.le]
      unfold copySign
      split_ifs
      · rw [mul_neg]
      · rfl
  have h5 : (s.clock a).wt (s.clock a).y = s.wt s.y := rfl
  have h7 : c'.tb.getD (s.clock a).t = a * c.tb.getD s.t := by
    rw [hi.tb]; cases c.tb <;> rfl
  have h6 : ∀ b, swExtrapolate (a * b) (s.clock a) = (swExtrapolate b s).clock a := by
    intro b
    simp only [swExtrapolate, SwSt.clock, ← mul_sub, smul_smul]
    congr 3
    have := ha.ne'
    field_simp
  rw [h2, h3, h4, h5, h7, h6, hi.twou, abs_mul, abs_of_pos ha]
  simp only [mul_lt_mul_iff_right₀ ha]
  split_ifs
  · rfl
  · rfl
  · rfl
  · exact swLoop_clock ha hi _ s fuel (swStart s (swLimit c s.t s.h))

/-- **C128** (general form). Corresponding calls of `SWAG.step()` return the same outcome and corresponding states. -/
theorem C128_step (ha : 0 < a) (hi : ClockSwag a c c') (fuel : ℕ) (v : SwSolver K V) :
    swStep c' fuel (v.clock a) = (swStep c fuel v).map fun p => (p.1, p.2.clock a) := by
  unfold swStep
  have e1 : (v.clock a).status = v.status := rfl
  rw [e1]
  cases v.status with
  | running =>
    dsimp only
    have e2 : (c'.tb = some (v.clock a).st.t) = (c.tb = some v.st.t) := by
      rw [hi.tb, show (v.clock a).st.t = a * v.st.t from rfl]
      cases c.tb with
      | none => simp
      | some b => simp [ha.ne']
    by_cases ht : c.tb = some v.st.t
    · rw [if_pos (e2 ▸ ht), if_pos ht]; rfl
    · rw [if_neg (e2 ▸ ht), if_neg ht]
      rw [show (v.clock a).st = v.st.clock a from rfl, swStepImpl_clock ha hi]
      cases swStepImpl c fuel v.st with
      | none => rfl
      | some p =>
        obtain ⟨o, s'⟩ := p
        have e4 : swReached c' (s'.clock a).t = swReached c s'.t := by
          unfold swReached
          rw [hi.tb, hi.dir, show (s'.clock a).t = a * s'.t from rfl]
          cases c.tb with
          | none => rfl
          | some b =>
            dsimp only [Option.map_some]
            rw [← mul_sub, mul_left_comm]
            simp only [mul_nonneg_iff_of_pos_left ha]
        cases o with
        | ok => simp only [Option.map_some, e4]; rfl
        | tooSmall => rfl
        | tooTight => rfl
        | notRunning => rfl
  | finished => rfl
  | failed => rfl

theorem swRun_clock (ha : 0 < a) (hi : ClockSwag a c c') {v0 v : SwSolver K V} {outs : List SwOut} (hr : SwCalls c v0 outs v) :
    SwCalls c' (v0.clock a) outs (v.clock a) := by
  induction hr with
  | nil => exact .nil
  | @cons outs v v' o fuel _ hs ih =>
    refine .cons (fuel := fuel) ih ?_
    rw [C128_step ha hi, hs]
    rfl

/-- **C128.** The dense output: the same value at corresponding times. -/
theorem C128_dense (ha : 0 < a) (ox : K) (s : SwSt K V) (t : K) : swOutput (a * ox) (s.clock a) (a * t) = swOutput ox s t := by
  unfold swOutput
  rw [show (s.clock a).kold = s.kold from rfl]
  have hx : (a * t - a * ox) / (a * s.t - a * ox) = (t - ox) / (s.t - ox) := by
    rw [← mul_sub, ← mul_sub, mul_div_mul_left _ _ ha.ne']
  split_ifs
  · unfold swDense
    simp only [SwSt.clock, Coef.clock]
    rw [hx, ← mul_sub, smul_weights a _ ha.ne']
    rfl
  · unfold linDense
    rw [show (s.clock a).t = a * s.t from rfl, hx]
    rfl

/-- **C128.** `SWAG`: time is measured in another unit, `t' = a t`, the right-hand side is divided by `a`; `t_bound`, `max_step` and the
first step are converted. Every sequence of calls of `step()` gives the same outcomes, solution values, orders and counters, the times and
step sizes are multiplied by `a`, and the dense output has the same values at corresponding times. -/
theorem C128_run (ha : 0 < a) (hi : ClockSwag a c c') {t0 : K} {y0 : V} {h0 : K} {co0 : Coef K} {nf : ℕ} {outs : List SwOut}
    {v : SwSolver K V} (hr : SwCalls c (newSwag t0 y0 (c.fn t0 y0) h0 (c.scale y0 y0) (fun _ => 0) co0 nf) outs v) :
    ∃ v', SwCalls c' (newSwag (a * t0) y0 (c'.fn (a * t0) y0) (a * h0) (c'.scale y0 y0) (fun _ => 0)
        { co0 with psi := fun i => a * co0.psi i } nf) outs v' ∧
      v'.status = v.status ∧ v'.tOld = v.tOld.map (fun t => a * t) ∧ v'.st.t = a * v.st.t ∧ v'.st.h = a * v.st.h ∧ v'.st.k = v.st.k ∧
      v'.st.nfev = v.st.nfev ∧ v'.st.nfs = v.st.nfs ∧ v'.st.y = v.st.y ∧ v'.st.yp = a⁻¹ • v.st.yp ∧
      ∀ ox t, swOutput (a * ox) v'.st (a * t) = swOutput ox v.st t := by
  have e0 : (newSwag t0 y0 (c.fn t0 y0) h0 (c.scale y0 y0) (fun _ => 0) co0 nf).clock a =
      newSwag (a * t0) y0 (c'.fn (a * t0) y0) (a * h0) (c'.scale y0 y0) (fun _ => (0 : V)) { co0 with psi := fun i => a * co0.psi i } nf := by
    have e3 : (fun i => a⁻¹ • Function.update (Function.update (fun _ => (0 : V)) 0 (c.fn t0 y0)) 1 0 i) =
        Function.update (Function.update (fun _ => (0 : V)) 0 (a⁻¹ • c.fn t0 y0)) 1 0 := by
      rw [← update_image (fun x : V => a⁻¹ • x), ← update_image (fun x : V => a⁻¹ • x)]
      simp only [smul_zero]
    simp only [newSwag, SwSolver.clock, SwSt.clock, Coef.clock, hi.fn, hi.scale, e3, List.map_cons, List.map_nil, mul_zero, Option.map_none]
  have := swRun_clock ha hi hr
  rw [e0] at this
  exact ⟨_, this, rfl, rfl, rfl, rfl, rfl, rfl, rfl, rfl, rfl, fun ox t => C128_dense ha ox v.st t⟩

end

/-! ## The norm of the code is homogeneous -/

theorem C128_norm {𝕜 : Type*} [RCLike 𝕜] {n : ℕ} {r : ℝ} (hr : 0 < r) (atol : Fin n → ℝ) (rtol : ℝ) (p y x : Fin n → 𝕜) :
    ENorm.num (meanNorm atol rtol p y (r • x)) = ENorm.scale r (ENorm.num (meanNorm atol rtol p y x)) := by
  simp only [ENorm.scale]
  congr 1
  unfold meanNorm
  rw [rmsNorm_eq, rmsNorm_eq, EuclideanSpace.norm_eq, EuclideanSpace.norm_eq]
  have : ∀ i, ‖(r • x) i / ((errScaleMean atol rtol p y i : ℝ) : 𝕜)‖ ^ 2 = r ^ 2 * ‖x i / ((errScaleMean atol rtol p y i : ℝ) : 𝕜)‖ ^ 2 := by
    intro i
    rw [Pi.smul_apply, RCLike.real_smul_eq_coe_mul, mul_div_assoc, norm_mul, RCLike.norm_ofReal, abs_of_pos hr, mul_pow]
  simp only [this]
  rw [← mul_sum, Real.sqrt_mul (sq_nonneg r), Real.sqrt_sq hr.le, mul_div_assoc]

/-! ## The hypotheses are met -/

/-- `y' = t - y` in seconds and in milliseconds. -/
def swSec : SwCfg ℚ ℚ := swQ (fun t y => t - y) (fun x => .num (|x| / 10))

def swMsec : SwCfg ℚ ℚ :=
  { swQ (fun t y => (t / 1000 - y) / 1000) (fun x => .num (|x| / 10)) with tb := some 10000, maxStep := some 3000 }

theorem swMsec_clock : ClockSwag 1000 swSec swMsec where
  fn := fun t y => by simp only [swSec, swMsec, swQ, smul_eq_mul]; ring
  tb := by simp only [swSec, swMsec, swQ, Option.map_some]; norm_num
  maxStep := by simp only [swSec, swMsec, swQ, Option.map_some]; norm_num
  scale := rfl
  hom := fun p y x => by
    have h3 : |(1000 : ℚ)⁻¹| = 1000⁻¹ := by norm_num
    simp only [swSec, swQ, smul_eq_mul, abs_mul, h3, ENorm.scale]
    congr 1
    ring
  dir := rfl
  fouru := rfl
  twou := rfl
  kMax := rfl
  gstr := rfl
  sqrt := rfl
  pw := rfl

/-- One step of the two solvers. -/
example : ∃ v v', SwCalls swSec (newSwag 0 1 (-1) (1 / 8) (swSec.scale 1 1) (fun _ => 0) emptyCo 1) [.ok] v ∧ v.st.t = 1 / 8 ∧
    SwCalls swMsec (newSwag 0 1 (-1 / 1000) 125 (swMsec.scale 1 1) (fun _ => 0) emptyCo 1) [.ok] v' ∧ v'.st.t = 125 ∧
    v'.st.y = v.st.y := by
  obtain ⟨p, hp⟩ : ∃ p, swStep swSec 5 (newSwag 0 1 (-1) (1 / 8) (swSec.scale 1 1) (fun _ => 0) emptyCo 1) = some p :=
    Option.isSome_iff_exists.1 (by decide +kernel)
  have h1 : p.1 = .ok ∧ p.2.st.t = 1 / 8 := by
    have : ((swStep swSec 5 (newSwag 0 1 (-1) (1 / 8) (swSec.scale 1 1) (fun _ => 0) emptyCo 1)).map fun p => (p.1, p.2.st.t)) =
        some (.ok, 1 / 8) := by decide +kernel
    rw [hp] at this
    simpa using this
  have hr : SwCalls swSec (newSwag 0 1 (-1) (1 / 8) (swSec.scale 1 1) (fun _ => 0) emptyCo 1) [.ok] p.2 := by
    refine .cons (fuel := 5) (outs := []) .nil ?_
    rw [hp, ← h1.1]
  have ef : swSec.fn 0 1 = -1 := by simp [swSec, swQ]
  have ef' : swMsec.fn 0 1 = -1 / 1000 := by norm_num [swMsec, swQ]
  have hr' : SwCalls swSec (newSwag 0 1 (swSec.fn 0 1) (1 / 8) (swSec.scale 1 1) (fun _ => 0) emptyCo 1) [.ok] p.2 := by rw [ef]; exact hr
  obtain ⟨v', h2, -, -, h3, -, -, -, -, h4, -⟩ := C128_run (by norm_num) swMsec_clock hr'
  refine ⟨p.2, v', hr, h1.2, ?_, ?_, h4⟩
  · have e1 : (1000 : ℚ) * 0 = 0 := by norm_num
    have e2 : (1000 : ℚ) * (1 / 8) = 125 := by norm_num
    have e3 : ({ emptyCo with psi := fun i => 1000 * emptyCo.psi i } : Coef ℚ) = emptyCo := by simp [emptyCo]; rfl
    rw [e1, e2, ef', e3] at h2
    exact h2
  · rw [h3, h1.2]; norm_num

end Extensisq
