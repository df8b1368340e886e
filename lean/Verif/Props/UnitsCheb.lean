import Verif.Props.Units
import Verif.Props.ChebWitness

/-!
# C124: SSV2stab: units and numbering of the components do not matter

The run of `SSV2stab` on the image of a problem under a linear map that keeps the error norms is the image of the run on the original
problem. With the norms of the code and a user function for the spectral radius this covers unit conversions and renumberings, also with
the automatic first step (which uses weighted norms here, unlike `h_start`).
-/

set_option linter.unusedSectionVars false
set_option maxRecDepth 100000

namespace Extensisq

section
variable {K V U : Type*} [Field K] [LinearOrder K] [FloorSemiring K] [AddCommGroup V] [Module K V] [AddCommGroup U] [Module K U]

/-- The image of the recorded call of the stages. -/
def StageCall.image (L : V → U) (a : StageCall K V) : StageCall K U := ⟨a.t, L a.y, a.h, a.m, a.sprad, a.hmin, a.estT, L a.estY, a.age⟩

/-- The image of a state: vectors are mapped, everything else is unchanged. -/
def ChebSt.image (L : V → U) (s : ChebSt K V) : ChebSt K U where
  t := s.t
  yn := L s.yn
  fn := L s.fn
  prev := s.prev.map fun p => (L p.1, L p.2)
  absh := s.absh
  hold := s.hold
  errold := s.errold
  sprad := s.sprad
  vec := s.vec.map L
  newspc := s.newspc
  jacatt := s.jacatt
  nstsig := s.nstsig
  mlim := s.mlim
  nrej := s.nrej
  nfesig := s.nfesig
  maxm := s.maxm
  nfev := s.nfev
  calls := s.calls.map (StageCall.image L)
  est := s.est.map fun p => (p.1, L p.2)
  age := s.age
  nest := s.nest
  rhos := s.rhos.map fun p => (p.1, L p.2.1, L p.2.2.1, p.2.2.2.map L)
  warned := s.warned

/-- The image of a solver. -/
def ChebSolver.image (L : V → U) (v : ChebSolver K V) : ChebSolver K U := ⟨v.status, v.tOld, v.st.image L⟩

/-- Two configurations with the same options for a problem and its image. The estimated spectral radii agree: either both come from the
user's function, or the estimator commutes with the map. -/
structure ImageCheb (L : V → U) (c : ChebCfg K V) (c' : ChebCfg K U) : Prop where
  tb : c'.tb = c.tb
  dir : c'.dir = c.dir
  maxStep : c'.maxStep = c.maxStep
  hmin0 : c'.hmin0 = c.hmin0
  sqrtmin : c'.sqrtmin = c.sqrtmin
  uround : c'.uround = c.uround
  mmax : c'.mmax = c.mmax
  constJac : c'.constJac = c.constJac
  pw : c'.pw = c.pw
  sqrt : c'.sqrt = c.sqrt
  rhs : ∀ t y, c'.rhs t (L y) = L (c.rhs t y)
  stg : ∀ t y f h m, c'.stg t (L y) (L f) h m = L (c.stg t y f h m)
  errNorm : ∀ e y z, c'.errNorm (L e) (L y) (L z) = c.errNorm e y z
  est0 : ∀ e y, c'.est0 (L e) (L y) = c.est0 e y
  jac : ∀ t y, (c'.rhoJac.map fun r => r t (L y)) = c.rhoJac.map fun r => r t y
  rho : c.rhoJac = none → ∀ t y f w, c'.rho t (L y) (L f) (w.map L) =
    ⟨(c.rho t y f w).spr, (c.rho t y f w).evals, (c.rho t y f w).vec.map L⟩

/-- The image of a pass. -/
def ChebIter.image (L : V → U) : ChebIter K V → ChebIter K U
  | .retry s a => .retry (s.image L) a
  | .done o s => .done o (s.image L)

variable {c : ChebCfg K V} {c' : ChebCfg K U}

theorem chebSpectral_image {L : V → U} (hi : ImageCheb L c c') (s : ChebSt K V) :
    chebSpectral c' (s.image L) = (chebSpectral c s).map (ChebSt.image L) := by
  unfold chebSpectral
  have e1 : (s.image L).newspc = s.newspc := rfl
  rw [e1]
  cases s.newspc with
  | false => rfl
  | true =>
    simp only [if_true]
    cases hj : c.rhoJac with
    | some r =>
      have h := hi.jac s.t s.yn
      rw [hj] at h
      cases hj' : c'.rhoJac with
      | none => rw [hj'] at h; simp at h
      | some r' =>
        rw [hj'] at h
        simp only [Option.map_some, Option.some.injEq] at h
        simp only [Option.map_some, ChebSt.image, h]
    | none =>
      have h := hi.jac s.t s.yn
      rw [hj] at h
      cases hj' : c'.rhoJac with
      | some r' => rw [hj'] at h; simp at h
      | none =>
        have hr := hi.rho hj s.t s.yn s.fn s.vec
        dsimp only [ChebSt.image] at hr ⊢
        rw [hr]
        dsimp only
        cases (c.rho s.t s.yn s.fn s.vec).spr with
        | none => rfl
        | some x => rfl

theorem chebRhoFailed_image {L : V → U} (hi : ImageCheb L c c') (hj : c.rhoJac = none) (s : ChebSt K V) :
    chebRhoFailed c' (s.image L) = (chebRhoFailed c s).image L := by
  unfold chebRhoFailed
  have hr := hi.rho hj s.t s.yn s.fn s.vec
  dsimp only [ChebSt.image] at hr ⊢
  rw [hr]
  rfl

theorem chebInit_image {L : V →ₗ[K] U} (hi : ImageCheb L c c') (t : K) (y f : V) (sp : K) :
    chebInit c' t (L y) (L f) sp = chebInit c t y f sp := by
  unfold chebInit
  simp only [hi.maxStep, hi.hmin0, hi.sqrt]
  have h : ∀ a : K, a • (c'.rhs (t + a) (L y + a • L f) - L f) = L (a • (c.rhs (t + a) (y + a • f) - f)) := by
    intro a
    rw [← map_smul, ← map_add, hi.rhs, ← map_sub, ← map_smul]
  simp only [h, hi.est0]

theorem chebFac_image {L : V → U} (hi : ImageCheb L c c') (s : ChebSt K V) (a x : K) :
    chebFac c' (s.image L) a x = chebFac c s a x := by
  unfold chebFac
  rw [hi.pw]
  rfl

theorem chebAttempt_image {L : V →ₗ[K] U} (hi : ImageCheb L c c') (s : ChebSt K V) (a sp : K) (m : ℕ) :
    chebAttempt c' (s.image L) a sp m = (chebAttempt c s a sp m).image L := by
  have hE : ∀ (y fy : V) (h : K), c'.errNorm ((4 / 5 : K) • (L s.yn - L y) + (2 / 5 * h) • (L s.fn + L fy)) (L y) (L s.yn) =
      c.errNorm ((4 / 5 : K) • (s.yn - y) + (2 / 5 * h) • (s.fn + fy)) y s.yn := by
    intro y fy h
    rw [← map_sub, ← map_add, ← map_smul, ← map_smul, ← map_add, hi.errNorm]
  have hcall : ((s.image L).est.map (·.2)).getD (L s.yn) = L ((s.est.map (·.2)).getD s.yn) := by
    cases hs : s.est <;> simp [ChebSt.image, hs]
  have hcall1 : ((s.image L).est.map (·.1)).getD s.t = (s.est.map (·.1)).getD s.t := by
    cases hs : s.est <;> simp [ChebSt.image, hs]
  have hmn : chebHmin c' s.t a m = chebHmin c s.t a m := by unfold chebHmin; rw [hi.sqrtmin, hi.uround]
  unfold chebAttempt
  have e1 : (s.image L).t = s.t := rfl
  have e2 : (s.image L).yn = L s.yn := rfl
  have e3 : (s.image L).fn = L s.fn := rfl
  simp only [e1, e2, e3, hi.dir, hi.stg, hi.rhs, hE, hmn, hcall, hcall1, chebFac_image hi, hi.pw]
  cases c.errNorm ((4 / 5 : K) • (s.yn - c.stg s.t s.yn s.fn (c.dir * a) m) +
      (2 / 5 * (c.dir * a)) • (s.fn + c.rhs (s.t + c.dir * a) (c.stg s.t s.yn s.fn (c.dir * a) m)))
      (c.stg s.t s.yn s.fn (c.dir * a) m) s.yn with
  | inf => rfl
  | nan => rfl
  | num x =>
    dsimp only
    by_cases hx : x < 1
    · simp only [hx, if_true]
      cases hf : chebFac c s a x with
      | none => rfl
      | some fac =>
        have hsome : c'.rhoJac.isSome = c.rhoJac.isSome := by
          have h := congrArg Option.isSome (hi.jac s.t s.yn)
          simpa using h
        simp only [ChebIter.image, chebAccept, hi.constJac, hi.maxStep, hsome]
        rfl
    · simp only [hx, if_false]
      by_cases hlt : 4 / 5 * a / c.pw x (1 / 3) < chebHmin c s.t a m
      · simp only [hlt, if_true]; rfl
      · simp only [hlt, if_false]; rfl

theorem chebTry_image {L : V →ₗ[K] U} (hi : ImageCheb L c c') (s : ChebSt K V) (a sp : K) :
    chebTry c' (s.image L) a sp = (chebTry c s a sp).image L := by
  unfold chebTry
  have e1 : (s.image L).t = s.t := rfl
  simp only [e1, hi.tb, hi.mmax]
  by_cases h0 : 77 / 50 * chebFit c.tb s.t a * sp + 1 < 0
  · simp only [h0, if_true]; rfl
  · simp only [h0, if_false]
    rw [← chebAttempt_image hi]
    rfl

theorem chebIter_image {L : V →ₗ[K] U} (hi : ImageCheb L c c') (s : ChebSt K V) (a : Option K) :
    chebIter c' (s.image L) a = (chebIter c s a).image L := by
  unfold chebIter
  rw [chebSpectral_image hi]
  cases hs : chebSpectral c s with
  | none =>
    have hj : c.rhoJac = none := by
      cases hj : c.rhoJac with
      | none => rfl
      | some r =>
        exfalso
        unfold chebSpectral at hs
        rw [hj] at hs
        split_ifs at hs
    simp only [Option.map_none, chebRhoFailed_image hi hj]
    rfl
  | some s1 =>
    simp only [Option.map_some]
    have e1 : (s1.image L).sprad = s1.sprad := rfl
    rw [e1]
    cases hsp : s1.sprad with
    | none => rfl
    | some sp =>
      cases a with
      | some a => exact chebTry_image hi s1 a sp
      | none =>
        have h := chebTry_image hi { s1 with nfev := s1.nfev + 1 } (chebInit c s1.t s1.yn s1.fn sp) sp
        rw [hsp] at h
        refine Eq.trans ?_ h
        exact congrArg (fun a => chebTry c' (ChebSt.image L { s1 with nfev := s1.nfev + 1, sprad := some sp }) a sp) (chebInit_image hi s1.t s1.yn s1.fn sp)

theorem chebLoop_image {L : V →ₗ[K] U} (hi : ImageCheb L c c') : ∀ (n : ℕ) (s : ChebSt K V) (a : Option K),
    chebLoop c' n (s.image L) a = (chebLoop c n s a).map fun p => (p.1, p.2.image L) := by
  intro n
  induction n with
  | zero => intros; rfl
  | succ n ih =>
    intro s a
    unfold chebLoop
    rw [chebIter_image hi]
    cases chebIter c s a with
    | retry s' a' => exact ih s' (some a')
    | done o s' => rfl

/-- **C124** (general form). Corresponding calls of `SSV2stab.step()` return the same outcome and corresponding states. -/
theorem C124_step {L : V →ₗ[K] U} (hi : ImageCheb L c c') (fuel : ℕ) (v : ChebSolver K V) :
    chebStep c' fuel (v.image L) = (chebStep c fuel v).map fun p => (p.1, p.2.image L) := by
  unfold chebStep
  have e1 : (v.image L).status = v.status := rfl
  rw [e1]
  cases v.status with
  | running =>
    dsimp only
    have e2 : (v.image L).st.t = v.st.t := rfl
    rw [e2, hi.tb]
    by_cases ht : c.tb = some v.st.t
    · simp only [ht, if_true]; rfl
    · simp only [ht, if_false]
      have e3 : chebStepImpl c' fuel (v.image L).st = (chebStepImpl c fuel v.st).map fun p => (p.1, p.2.image L) :=
        chebLoop_image hi fuel v.st v.st.absh
      rw [e3]
      cases chebStepImpl c fuel v.st with
      | none => rfl
      | some p =>
        obtain ⟨o, s'⟩ := p
        cases o <;> simp only [Option.map_some, hi.dir] <;> rfl
  | finished => rfl
  | failed => rfl

/-- A sequence of calls of `step()` with its outcomes, latest first. -/
inductive ChebCalls (c : ChebCfg K V) (v0 : ChebSolver K V) : List ChebOut → ChebSolver K V → Prop
  | nil : ChebCalls c v0 [] v0
  | cons {outs : List ChebOut} {v v' : ChebSolver K V} {o : ChebOut} {fuel : ℕ} :
      ChebCalls c v0 outs v → chebStep c fuel v = some (o, v') → ChebCalls c v0 (o :: outs) v'

/-- **C124.** Whole runs of `SSV2stab`, with or without `first_step`. -/
theorem C124_run {L : V →ₗ[K] U} (hi : ImageCheb L c c') {t0 : K} {y0 : V} {first : Option K} {outs : List ChebOut} {v : ChebSolver K V}
    (hr : ChebCalls c (newCheb c t0 y0 first) outs v) : ChebCalls c' (newCheb c' t0 (L y0) first) outs (v.image L) := by
  induction hr with
  | nil =>
    have : newCheb c' t0 (L y0) first = (newCheb c t0 y0 first).image L := by
      simp [newCheb, ChebSolver.image, ChebSt.image, hi.rhs]
    rw [this]
    exact .nil
  | @cons outs v v' o fuel _ hs ih =>
    refine .cons (fuel := fuel) ih ?_
    rw [C124_step hi, hs]
    rfl

end

/-! ## The stages and norms of the code -/

section
variable {V U : Type*} [AddCommGroup V] [Module ℝ V] [AddCommGroup U] [Module ℝ U]

/-- The image of the variables of the stage loop. -/
def RkcSt.image (L : V → U) (s : RkcSt ℝ V) : RkcSt ℝ U :=
  ⟨L s.yjm1, L s.yjm2, s.thjm1, s.thjm2, s.bjm1, s.bjm2, s.zjm1, s.zjm2, s.dzjm1, s.dzjm2, s.d2zjm1, s.d2zjm2⟩

theorem rkcRun_image (L : V →ₗ[ℝ] U) {f : ℝ → V → V} {g : ℝ → U → U} (hg : ∀ t y, g t (L y) = L (f t y)) (w0 w1 t : ℝ) (y fv : V) (h : ℝ)
    (k : ℕ) : rkcRun g w0 w1 t (L y) (L fv) h k = (rkcRun f w0 w1 t y fv h k).image L := by
  induction k with
  | zero => simp [rkcRun, rkcInit, RkcSt.image]
  | succ k ih =>
    simp only [rkcRun]
    rw [ih]
    simp only [rkcNext, RkcSt.image, hg, map_add, map_smul, map_sub]

/-- **C124.** The stages of `SSV2stab` commute with linear changes of variables, for every number of stages. -/
theorem C124_stages (L : V →ₗ[ℝ] U) {f : ℝ → V → V} {g : ℝ → U → U} (hg : ∀ t y, g t (L y) = L (f t y)) (t : ℝ) (y fv : V) (h : ℝ)
    (m : ℕ) : rkcStages g t (L y) (L fv) h m = L (rkcStages f t y fv h m) := by
  unfold rkcStages
  split_ifs
  · rfl
  · rw [rkcRun_image L hg]; rfl

end

section
variable {𝕜 : Type*} [RCLike 𝕜] {n : ℕ}

/-- `SSV2stab` with its stages, its norms (`sommeijer.py:154-155, 218-220`) and a user function for the spectral radius, for real and complex
arrays. -/
structure IsSSV2stab (f : ℝ → (Fin n → 𝕜) → Fin n → 𝕜) (atol : Fin n → ℝ) (rtol : ℝ) (r : ℝ → (Fin n → 𝕜) → ℝ)
    (c : ChebCfg ℝ (Fin n → 𝕜)) : Prop where
  rhs : c.rhs = f
  stg : c.stg = rkcStages f
  errNorm : ∀ e y yn, c.errNorm e y yn = .num (scaledNorm atol rtol y yn e)
  est0 : ∀ x yn, c.est0 x yn = .num (scaledNorm atol rtol yn yn x)
  rhoJac : c.rhoJac = some r

/-- The options that do not depend on the units. -/
structure SameChebOptions (c c' : ChebCfg ℝ (Fin n → 𝕜)) : Prop where
  tb : c'.tb = c.tb
  dir : c'.dir = c.dir
  maxStep : c'.maxStep = c.maxStep
  hmin0 : c'.hmin0 = c.hmin0
  sqrtmin : c'.sqrtmin = c.sqrtmin
  uround : c'.uround = c.uround
  mmax : c'.mmax = c.mmax
  constJac : c'.constJac = c.constJac
  pw : c'.pw = c.pw
  sqrt : c'.sqrt = c.sqrt

/-- **C124.** `SSV2stab` with a user function for the spectral radius: solve the problem in other units and with another numbering of the
components, `atol` converted accordingly, with or without `first_step`. Every sequence of calls of `step()` gives the same outcomes, and the
states correspond: same `t`, step size, number of stages and counters, and `y` in the new units. -/
theorem C124_units {lam : Fin n → 𝕜} (hl : ∀ i, lam i ≠ 0) (σ : Equiv.Perm (Fin n)) {atol : Fin n → ℝ} {rtol : ℝ}
    {f g : ℝ → (Fin n → 𝕜) → Fin n → 𝕜} (hg : ∀ t y i, g t (fun j => lam j * y (σ j)) i = lam i * f t y (σ i))
    {r r' : ℝ → (Fin n → 𝕜) → ℝ} (hr : ∀ t y, r' t (fun j => lam j * y (σ j)) = r t y) {c c' : ChebCfg ℝ (Fin n → 𝕜)}
    (hc : IsSSV2stab f atol rtol r c) (hc' : IsSSV2stab g (fun i => ‖lam i‖ * atol (σ i)) rtol r' c') (ho : SameChebOptions c c')
    {t0 : ℝ} {y0 : Fin n → 𝕜} {first : Option ℝ} {outs : List ChebOut} {v : ChebSolver ℝ (Fin n → 𝕜)}
    (hrun : ChebCalls c (newCheb c t0 y0 first) outs v) :
    ∃ v', ChebCalls c' (newCheb c' t0 (fun i => lam i * y0 (σ i)) first) outs v' ∧
      v'.status = v.status ∧ v'.tOld = v.tOld ∧ v'.st.t = v.st.t ∧ v'.st.absh = v.st.absh ∧ v'.st.nfev = v.st.nfev ∧
      v'.st.nrej = v.st.nrej ∧ v'.st.maxm = v.st.maxm ∧ (∀ i, v'.st.yn i = lam i * v.st.yn (σ i)) ∧
      (∀ i, v'.st.fn i = lam i * v.st.fn (σ i)) := by
  have hgl : ∀ t y, g t (relabel lam σ y) = relabel lam σ (f t y) := fun t y => funext fun i => hg t y i
  have hi : ImageCheb (relabel lam σ) c c' :=
    { tb := ho.tb, dir := ho.dir, maxStep := ho.maxStep, hmin0 := ho.hmin0, sqrtmin := ho.sqrtmin, uround := ho.uround, mmax := ho.mmax,
      constJac := ho.constJac, pw := ho.pw, sqrt := ho.sqrt
      rhs := fun t y => by rw [hc.rhs, hc'.rhs]; exact hgl t y
      stg := fun t y fv h m => by rw [hc.stg, hc'.stg]; exact C124_stages _ hgl t y fv h m
      errNorm := fun e y z => by
        rw [hc.errNorm, hc'.errNorm]; exact congrArg ENorm.num (C122_norm hl σ atol rtol y z e)
      est0 := fun e y => by
        rw [hc.est0, hc'.est0]; exact congrArg ENorm.num (C122_norm hl σ atol rtol y y e)
      jac := fun t y => by
        rw [hc.rhoJac, hc'.rhoJac]; exact congrArg some (hr t y)
      rho := fun h => by rw [hc.rhoJac] at h; cases h }
  exact ⟨_, C124_run hi hrun, rfl, rfl, rfl, rfl, rfl, rfl, rfl, fun _ => rfl, fun _ => rfl⟩

end

/-! ## The hypotheses are met -/

/-- `y' = 1` from 0 to 21 (`chebA`) in units a thousand times smaller. -/
def chebMilli : ChebCfg ℚ ℚ :=
  { chebA with
    rhs := fun _ _ => 1000
    errNorm := fun e _ _ => .num (|e| / 1000)
    est0 := fun x _ => .num (|x| / 1000) }

theorem chebMilli_image : ImageCheb ((1000 : ℚ) • (LinearMap.id : ℚ →ₗ[ℚ] ℚ)) chebA chebMilli := by
  have h3 : |(1000 : ℚ)| = 1000 := by norm_num
  refine ⟨rfl, rfl, rfl, rfl, rfl, rfl, rfl, rfl, rfl, rfl, ?_, ?_, ?_, ?_, fun _ _ => rfl, fun h => by cases h⟩
  · intro t y; simp [chebA, chebW, chebMilli]
  · intro t y f h m; simp [chebA, chebW, chebMilli]; ring
  · intro e y z; simp [chebA, chebW, chebMilli, abs_mul, h3]
  · intro e y; simp [chebA, chebW, chebMilli, abs_mul, h3]

/-- A run with automatic first step, seen in the other units. -/
example : ∃ v, ChebCalls chebA (newCheb chebA 0 0 none) [.ok] v ∧ 0 < v.st.t ∧
    ChebCalls chebMilli (newCheb chebMilli 0 0 none) [.ok] (v.image fun y => 1000 * y) := by
  obtain ⟨p, hp⟩ : ∃ p, chebStep chebA 10 (newCheb chebA 0 0 none) = some p := Option.isSome_iff_exists.1 (by decide +kernel)
  have h1 : p.1 = .ok ∧ 0 < p.2.st.t := by
    have : ((chebStep chebA 10 (newCheb chebA 0 0 none)).all fun p => decide (p.1 = .ok) && decide (0 < p.2.st.t)) = true := by
      decide +kernel
    rw [hp] at this
    simpa using this
  have hr : ChebCalls chebA (newCheb chebA 0 0 none) [.ok] p.2 := by
    refine .cons (fuel := 10) .nil ?_
    rw [hp, ← h1.1]
  refine ⟨p.2, hr, h1.2, ?_⟩
  have := C124_run chebMilli_image hr
  have e : (((1000 : ℚ) • (LinearMap.id : ℚ →ₗ[ℚ] ℚ) : ℚ →ₗ[ℚ] ℚ) : ℚ → ℚ) = fun y => 1000 * y := by funext y; simp
  rw [e] at this
  simpa using this

/-- The conversion of `C124_units`, with the spectral radius of the problem. -/
example : ∃ lam : Fin 2 → ℝ, (∀ i, lam i ≠ 0) ∧ (∀ (t : ℝ) (y : Fin 2 → ℝ) i,
    (fun (_ : ℝ) (z : Fin 2 → ℝ) => ![-(z 0) / 2, -2 * z 1 ^ 3 / 10 ^ 6]) t (fun j => lam j * y (Equiv.swap 0 1 j)) i =
      lam i * (fun (_ : ℝ) (z : Fin 2 → ℝ) => ![-2 * z 0 ^ 3, -(z 1) / 2]) t y (Equiv.swap 0 1 i)) ∧
    ∀ (t : ℝ) (y : Fin 2 → ℝ), (fun (_ : ℝ) (z : Fin 2 → ℝ) => max (1 / 2) (6 * (z 1 / 1000) ^ 2)) t (fun j => lam j * y (Equiv.swap 0 1 j)) =
      (fun (_ : ℝ) (z : Fin 2 → ℝ) => max (1 / 2) (6 * z 0 ^ 2)) t y := by
  refine ⟨![1, 1000], ?_, ?_, ?_⟩
  · intro i; fin_cases i <;> simp
  · intro t y i
    fin_cases i
    · simp; try ring
    · simp; try ring
  · intro t y
    simp

end Extensisq
