import Verif.Props.UnitsCheb
import Verif.Props.UnitsTime

/-!
# C130: SSV2stab: the unit of time does not matter

As C127, for `SSV2stab`: the spectral radius is divided by the factor of the times, so that `h * sprad`, and with it the number of stages, does
not change. The automatic first step is included.
-/

set_option linter.unusedSectionVars false
set_option maxRecDepth 100000

namespace Extensisq

section
variable {K V : Type*} [Field K] [LinearOrder K] [IsStrictOrderedRing K] [FloorSemiring K] [AddCommGroup V] [Module K V]

/-- A recorded call of the stages in the other unit of time. -/
def StageCall.clock (a : K) (e : StageCall K V) : StageCall K V :=
  ⟨a * e.t, e.y, a * e.h, e.m, a⁻¹ * e.sprad, a * e.hmin, a * e.estT, e.estY, e.age⟩

/-- The state in the other unit of time. -/
def ChebSt.clock (a : K) (s : ChebSt K V) : ChebSt K V where
  t := a * s.t
  yn := s.yn
  fn := a⁻¹ • s.fn
  prev := s.prev.map fun p => (p.1, a⁻¹ • p.2)
  absh := s.absh.map fun h => a * h
  hold := s.hold.map fun h => a * h
  errold := s.errold
  sprad := s.sprad.map fun x => a⁻¹ * x
  vec := s.vec
  newspc := s.newspc
  jacatt := s.jacatt
  nstsig := s.nstsig
  mlim := s.mlim
  nrej := s.nrej
  nfesig := s.nfesig
  maxm := s.maxm
  nfev := s.nfev
  calls := s.calls.map (StageCall.clock a)
  est := s.est.map fun p => (a * p.1, p.2)
  age := s.age
  nest := s.nest
  rhos := s.rhos.map fun p => (a * p.1, p.2.1, a⁻¹ • p.2.2.1, p.2.2.2)
  warned := s.warned

/-- The solver in the other unit of time. -/
def ChebSolver.clock (a : K) (v : ChebSolver K V) : ChebSolver K V := ⟨v.status, v.tOld.map fun t => a * t, v.st.clock a⟩

/-- The same problem and options in another unit of time, `t' = a t`; the estimates of the spectral radius are divided by `a`.
(`sqrtmin`, the absolute floor of the minimal step, is not mentioned.) -/
structure ClockCheb (a : K) (c c' : ChebCfg K V) : Prop where
  rhs : ∀ t y, c'.rhs (a * t) y = a⁻¹ • c.rhs t y
  stg : ∀ t y f h m, c'.stg (a * t) y (a⁻¹ • f) (a * h) m = c.stg t y f h m
  tb : c'.tb = c.tb.map fun b => a * b
  maxStep : c'.maxStep = a * c.maxStep
  hmin0 : c'.hmin0 = a * c.hmin0
  dir : c'.dir = c.dir
  uround : c'.uround = c.uround
  mmax : c'.mmax = c.mmax
  constJac : c'.constJac = c.constJac
  errNorm : c'.errNorm = c.errNorm
  est0 : c'.est0 = c.est0
  pw : c'.pw = c.pw
  sqrt : c'.sqrt = c.sqrt
  jac : ∀ t y, (c'.rhoJac.map fun r => r (a * t) y) = c.rhoJac.map fun r => a⁻¹ * r t y
  rho : c.rhoJac = none → ∀ t y f w, (c'.rho (a * t) y (a⁻¹ • f) w).spr = (c.rho t y f w).spr.map (fun x => a⁻¹ * x) ∧
    (c'.rho (a * t) y (a⁻¹ • f) w).evals = (c.rho t y f w).evals ∧
    ((c.rho t y f w).spr ≠ none → (c'.rho (a * t) y (a⁻¹ • f) w).vec = (c.rho t y f w).vec)

/-- A state without the approximate eigenvector that is kept as a first guess for the next estimate. -/
def ChebSt.noVec (s : ChebSt K V) : ChebSt K V := { s with vec := none }

/-- The absolute floors of the minimal step were not used in any of these attempts. -/
def FloorFree (a : K) (c c' : ChebCfg K V) (l : List (StageCall K V)) : Prop :=
  ∀ e ∈ l, c.sqrtmin < e.hmin ∧ c'.sqrtmin ≤ a * e.hmin

def ChebIter.clock (a : K) : ChebIter K V → ChebIter K V
  | .retry s h => .retry (s.clock a) (a * h)
  | .done o s => .done o (s.clock a)

def ChebIter.st : ChebIter K V → ChebSt K V
  | .retry s _ => s
  | .done _ s => s

variable {a : K} {c c' : ChebCfg K V}

theorem chebSpectral_clock (hi : ClockCheb a c c') (s : ChebSt K V) :
    chebSpectral c' (s.clock a) = (chebSpectral c s).map (ChebSt.clock a) := by
  unfold chebSpectral
  have e1 : (s.clock a).newspc = s.newspc := rfl
  rw [e1]
  cases s.newspc with
  | false => rfl
  | true =>
    simp only [if_true]
    have h := hi.jac s.t s.yn
    cases hj : c.rhoJac with
    | some r =>
      rw [hj] at h
      cases hj' : c'.rhoJac with
      | none => rw [hj'] at h; simp at h
      | some r' =>
        rw [hj'] at h
        simp only [Option.map_some, Option.some.injEq] at h
        simp only [Option.map_some, ChebSt.clock, h]
    | none =>
      rw [hj] at h
      cases hj' : c'.rhoJac with
      | some r' => rw [hj'] at h; simp at h
      | none =>
        obtain ⟨h1, h2, h3⟩ := hi.rho hj s.t s.yn s.fn s.vec
        dsimp only [ChebSt.clock] at h1 h2 h3 ⊢
        rw [h1, h2]
        cases hx : (c.rho s.t s.yn s.fn s.vec).spr with
        | none => rfl
        | some x =>
          rw [h3 (by rw [hx]; simp)]
          rfl

theorem chebRhoFailed_clock (hi : ClockCheb a c c') (hj : c.rhoJac = none) (s : ChebSt K V) :
    (chebRhoFailed c' (s.clock a)).noVec = ((chebRhoFailed c s).clock a).noVec := by
  unfold chebRhoFailed
  obtain ⟨-, h2, -⟩ := hi.rho hj s.t s.yn s.fn s.vec
  dsimp only [ChebSt.clock, ChebSt.noVec] at h2 ⊢
  rw [h2]
  rfl

theorem chebInit_clock (ha : 0 < a) (hi : ClockCheb a c c') (t : K) (y f : V) (sp : K) :
    chebInit c' (a * t) y (a⁻¹ • f) (a⁻¹ * sp) = a * chebInit c t y f sp := by
  have h1 : (if a⁻¹ * sp * c'.maxStep > 1 then 1 / (a⁻¹ * sp) else c'.maxStep) =
      a * (if sp * c.maxStep > 1 then 1 / sp else c.maxStep) := by
    rw [hi.maxStep, show a⁻¹ * sp * (a * c.maxStep) = sp * c.maxStep by field_simp]
    split_ifs
    · rw [one_div, mul_inv, inv_inv, one_div]
    · rfl
  unfold chebInit
  dsimp only
  rw [h1, hi.hmin0, ← mul_max_of_nonneg _ _ ha.le]
  generalize max (if sp * c.maxStep > 1 then 1 / sp else c.maxStep) c.hmin0 = a2
  have h2 : (a * a2) • (c'.rhs (a * t + a * a2) (y + (a * a2) • a⁻¹ • f) - a⁻¹ • f) = a2 • (c.rhs (t + a2) (y + a2 • f) - f) := by
    have e1 : (a * a2) • a⁻¹ • f = a2 • f := by rw [smul_smul]; congr 1; field_simp
    rw [e1, ← mul_add, hi.rhs, ← smul_sub, smul_smul]
    congr 1
    field_simp
  rw [h2, hi.est0, hi.sqrt, hi.maxStep]
  cases c.est0 (a2 • (c.rhs (t + a2) (y + a2 • f) - f)) y with
  | inf => rfl
  | nan => rfl
  | num e =>
    dsimp only
    rw [show 1 / 10 * (a * a2) = a * (1 / 10 * a2) by ring, mul_assoc a c.maxStep, mul_div_assoc a,
      ← mul_max_of_nonneg _ _ ha.le]
    simp only [mul_lt_mul_iff_right₀ ha]
    split_ifs <;> rfl

theorem chebFac_clock (ha : 0 < a) (hi : ClockCheb a c c') (s : ChebSt K V) (h x : K) :
    chebFac c' (s.clock a) (a * h) x = chebFac c s h x := by
  unfold chebFac
  rw [hi.pw, show (s.clock a).hold = s.hold.map fun h => a * h from rfl, show (s.clock a).errold = s.errold from rfl]
  cases s.hold with
  | none => rfl
  | some hp =>
    cases s.errold with
    | none => rfl
    | some eo =>
      dsimp only [Option.map_some]
      rw [abs_mul, abs_of_pos ha, show 4 / 5 * (a * h) * c.pw eo (1 / 3) = a * (4 / 5 * h * c.pw eo (1 / 3)) by ring,
        mul_assoc a |hp|, mul_left_comm 10 a, mul_div_mul_left _ _ ha.ne']
      simp only [mul_lt_mul_iff_right₀ ha]

theorem chebFit_clock (ha : 0 < a) (tb : Option K) (t h : K) :
    chebFit (tb.map fun b => a * b) (a * t) (a * h) = a * chebFit tb t h := by
  unfold chebFit
  cases tb with
  | none => rfl
  | some b =>
    dsimp only [Option.map_some]
    rw [← mul_sub, abs_mul, abs_of_pos ha, mul_left_comm]
    simp only [ge_iff_le, mul_le_mul_iff_right₀ ha]
    split_ifs <;> rfl

theorem chebM_clock (ha : a ≠ 0) (h sp : K) : chebM (a * h) (a⁻¹ * sp) = chebM h sp := by
  unfold chebM
  rw [show 77 / 50 * (a * h) * (a⁻¹ * sp) = 77 / 50 * h * sp by field_simp]

theorem chebChoose_clock (ha : a ≠ 0) (mmax : ℕ) (h sp : K) :
    chebChoose mmax (a * h) (a⁻¹ * sp) = (a * (chebChoose mmax h sp).1, (chebChoose mmax h sp).2) := by
  unfold chebChoose
  rw [chebM_clock ha]
  split_ifs
  · dsimp only
    rw [show 77 / 50 * (a⁻¹ * sp) = a⁻¹ * (77 / 50 * sp) by ring, div_eq_mul_inv, mul_inv, inv_inv, mul_left_comm]
    simp only [div_eq_mul_inv]
  · rfl

/-- The attempt records its minimal step. -/
theorem chebAttempt_calls (s : ChebSt K V) (h sp : K) (m : ℕ) :
    ∃ e : StageCall K V, e.hmin = chebHmin c s.t h m ∧ (chebAttempt c s h sp m).st.calls = e :: s.calls := by
  refine ⟨⟨s.t, s.yn, c.dir * h, m, sp, chebHmin c s.t h m, (s.est.map (·.1)).getD s.t, (s.est.map (·.2)).getD s.yn, s.age⟩, rfl, ?_⟩
  unfold chebAttempt
  dsimp only
  split
  · split_ifs
    · split <;> rfl
    · rfl
    · rfl
  · rfl

theorem chebAttempt_suffix {s : ChebSt K V} {h sp : K} {m : ℕ} {l : List (StageCall K V)} (hl : l = s.calls) :
    l <:+ (chebAttempt c s h sp m).st.calls := by
  obtain ⟨e, -, hcalls⟩ := chebAttempt_calls (c := c) s h sp m
  rw [hcalls, hl]
  exact List.suffix_cons _ _

theorem chebAttempt_clock (ha : 0 < a) (hi : ClockCheb a c c') (s : ChebSt K V) (h sp : K) (m : ℕ)
    (hf : FloorFree a c c' (chebAttempt c s h sp m).st.calls) :
    chebAttempt c' (s.clock a) (a * h) (a⁻¹ * sp) m = (chebAttempt c s h sp m).clock a := by
  obtain ⟨e, he, hcalls⟩ := chebAttempt_calls (c := c) s h sp m
  rw [hcalls] at hf
  obtain ⟨hf1, hf2⟩ := hf e List.mem_cons_self
  rw [he] at hf1 hf2
  have hmn : chebHmin c' (a * s.t) (a * h) m = a * chebHmin c s.t h m := by
    have h1 : chebHmin c s.t h m = 133 / 10 * c.uround * (|s.t| + h) * ((m : K) ^ 2 - 1) := by
      unfold chebHmin at hf1 ⊢
      rcases le_total (133 / 10 * c.uround * (|s.t| + h) * ((m : K) ^ 2 - 1)) c.sqrtmin with hle | hle
      · rw [max_eq_left hle] at hf1; exact absurd hf1 (lt_irrefl _)
      · exact max_eq_right hle
    rw [h1] at hf2 ⊢
    unfold chebHmin
    rw [hi.uround, abs_mul, abs_of_pos ha, show 133 / 10 * c.uround * (a * |s.t| + a * h) * ((m : K) ^ 2 - 1) =
      a * (133 / 10 * c.uround * (|s.t| + h) * ((m : K) ^ 2 - 1)) by ring]
    exact max_eq_right hf2
  have hcall : ((s.clock a).est.map (·.2)).getD s.yn = (s.est.map (·.2)).getD s.yn := by
    cases hs : s.est <;> simp [ChebSt.clock, hs]
  have hcall1 : ((s.clock a).est.map (·.1)).getD (a * s.t) = a * (s.est.map (·.1)).getD s.t := by
    cases hs : s.est <;> simp [ChebSt.clock, hs]
  have hd : c'.dir * (a * h) = a * (c.dir * h) := by rw [hi.dir]; ring
  unfold chebAttempt
  have e1 : (s.clock a).t = a * s.t := rfl
  have e2 : (s.clock a).yn = s.yn := rfl
  have e3 : (s.clock a).fn = a⁻¹ • s.fn := rfl
  simp only [e1, e2, e3, hd, hi.stg, ← mul_add, hi.rhs, hmn, hcall, hcall1, chebFac_clock ha hi, hi.pw, hi.errNorm]
  have hE : ∀ (y fy : V), (4 / 5 : K) • (s.yn - y) + (2 / 5 * (a * (c.dir * h))) • (a⁻¹ • s.fn + a⁻¹ • fy) =
      (4 / 5 : K) • (s.yn - y) + (2 / 5 * (c.dir * h)) • (s.fn + fy) := by
    intro y fy
    rw [← smul_add, smul_smul, show 2 / 5 * (a * (c.dir * h)) * a⁻¹ = 2 / 5 * (c.dir * h) by field_simp]
  rw [hE]
  cases c.errNorm ((4 / 5 : K) • (s.yn - c.stg s.t s.yn s.fn (c.dir * h) m) +
      (2 / 5 * (c.dir * h)) • (s.fn + c.rhs (s.t + c.dir * h) (c.stg s.t s.yn s.fn (c.dir * h) m)))
      (c.stg s.t s.yn s.fn (c.dir * h) m) s.yn with
  | inf => rfl
  | nan => rfl
  | num x =>
    dsimp only
    have hq : 4 / 5 * (a * h) / c.pw x (1 / 3) = a * (4 / 5 * h / c.pw x (1 / 3)) := by ring
    by_cases hx : x < 1
    · simp only [hx, if_true]
      cases hfc : chebFac c s h x with
      | none => rfl
      | some fac =>
        have hsome : c'.rhoJac.isSome = c.rhoJac.isSome := by
          have h := congrArg Option.isSome (hi.jac s.t s.yn)
          simpa using h
        have hab : max (a * chebHmin c s.t h m) (min (a * c.maxStep) (max (1 / 10) fac * (a * h))) =
            a * max (chebHmin c s.t h m) (min c.maxStep (max (1 / 10) fac * h)) := by
          rw [mul_left_comm, ← mul_min_of_nonneg _ _ ha.le, ← mul_max_of_nonneg _ _ ha.le]
        simp only [ChebIter.clock, chebAccept, hi.constJac, hi.maxStep, hsome, hab]
        congr 1
        simp only [ChebSt.clock, mul_add, Option.map_some, List.map_cons, StageCall.clock]
        rfl
    · simp only [hx, if_false, hq, mul_lt_mul_iff_right₀ ha]
      by_cases hlt : 4 / 5 * h / c.pw x (1 / 3) < chebHmin c s.t h m
      · simp only [hlt, if_true]; rfl
      · simp only [hlt, if_false]; rfl

theorem chebTry_clock (ha : 0 < a) (hi : ClockCheb a c c') (s : ChebSt K V) (h sp : K) (hf : FloorFree a c c' (chebTry c s h sp).st.calls) :
    chebTry c' (s.clock a) (a * h) (a⁻¹ * sp) = (chebTry c s h sp).clock a := by
  revert hf
  unfold chebTry
  have e1 : (s.clock a).t = a * s.t := rfl
  have e2 : 77 / 50 * (a * chebFit c.tb s.t h) * (a⁻¹ * sp) = 77 / 50 * chebFit c.tb s.t h * sp := by field_simp
  simp only [e1, hi.tb, hi.mmax, chebFit_clock ha, e2, chebM_clock ha.ne', chebChoose_clock ha.ne']
  by_cases h0 : 77 / 50 * chebFit c.tb s.t h * sp + 1 < 0
  · simp only [h0, if_true]; intro _; rfl
  · simp only [h0, if_false]
    intro hf
    rw [← chebAttempt_clock ha hi _ _ _ _ hf]
    rfl

theorem chebTry_calls (s : ChebSt K V) (h sp : K) : s.calls <:+ (chebTry c s h sp).st.calls := by
  unfold chebTry
  dsimp only
  split
  · exact List.suffix_refl _
  · exact chebAttempt_suffix rfl

theorem chebSpectral_calls {s s1 : ChebSt K V} (h : chebSpectral c s = some s1) : s1.calls = s.calls := by
  unfold chebSpectral at h
  split_ifs at h
  · split at h
    · cases h; rfl
    · split at h
      · cases h
      · cases h; rfl
  · cases h; rfl

theorem chebIter_calls (s : ChebSt K V) (h : Option K) : s.calls <:+ (chebIter c s h).st.calls := by
  unfold chebIter
  cases hs : chebSpectral c s with
  | none => exact List.suffix_refl _
  | some s1 =>
    rw [← chebSpectral_calls hs]
    dsimp only
    cases s1.sprad with
    | none => exact List.suffix_refl _
    | some sp =>
      cases h with
      | some h => exact chebTry_calls s1 h sp
      | none => exact chebTry_calls { s1 with nfev := s1.nfev + 1, sprad := some sp } _ sp

theorem chebLoop_calls : ∀ (n : ℕ) (s : ChebSt K V) (h : Option K) {p : ChebOut × ChebSt K V}, chebLoop c n s h = some p →
    s.calls <:+ p.2.calls := by
  intro n
  induction n with
  | zero => intro s h p hp; cases hp
  | succ n ih =>
    intro s h p hp
    have h1 := chebIter_calls (c := c) s h
    unfold chebLoop at hp
    cases hit : chebIter c s h with
    | retry s' h' =>
      rw [hit] at hp h1
      exact h1.trans (ih s' (some h') hp)
    | done o s' =>
      rw [hit] at hp h1
      cases hp
      exact h1

theorem chebIter_clock (ha : 0 < a) (hi : ClockCheb a c c') (s : ChebSt K V) (h : Option K)
    (hf : FloorFree a c c' (chebIter c s h).st.calls) :
    chebIter c' (s.clock a) (h.map fun h => a * h) = (chebIter c s h).clock a ∨
    ∃ s1 s2, chebIter c s h = .done .rhoFailed s1 ∧ chebIter c' (s.clock a) (h.map fun h => a * h) = .done .rhoFailed s2 ∧
      s2.noVec = (s1.clock a).noVec := by
  revert hf
  unfold chebIter
  rw [chebSpectral_clock hi]
  cases hs : chebSpectral c s with
  | none =>
    intro _
    have hj : c.rhoJac = none := by
      cases hj : c.rhoJac with
      | none => rfl
      | some r =>
        exfalso
        unfold chebSpectral at hs
        rw [hj] at hs
        split_ifs at hs
    exact .inr ⟨_, _, rfl, rfl, chebRhoFailed_clock hi hj s⟩
  | some s1 =>
    intro hf
    left
    revert hf
    simp only [Option.map_some]
    have e1 : (s1.clock a).sprad = s1.sprad.map fun x => a⁻¹ * x := rfl
    rw [e1]
    cases hsp : s1.sprad with
    | none => intro _; rfl
    | some sp =>
      cases h with
      | some h => exact chebTry_clock ha hi s1 h sp
      | none =>
        intro hf
        have h := chebTry_clock ha hi { s1 with nfev := s1.nfev + 1, sprad := some sp } (chebInit c s1.t s1.yn s1.fn sp) sp hf
        refine Eq.trans ?_ h
        exact congrArg (fun x => chebTry c' (ChebSt.clock a { s1 with nfev := s1.nfev + 1, sprad := some sp }) x (a⁻¹ * sp))
          (chebInit_clock ha hi s1.t s1.yn s1.fn sp)

theorem FloorFree.mono {l l' : List (StageCall K V)} (h : FloorFree a c c' l') (hs : l <:+ l') : FloorFree a c c' l :=
  fun e he => h e (hs.subset he)

theorem chebLoop_clock (ha : 0 < a) (hi : ClockCheb a c c') : ∀ (n : ℕ) (s : ChebSt K V) (h : Option K) {p : ChebOut × ChebSt K V},
    chebLoop c n s h = some p → FloorFree a c c' p.2.calls →
    ∃ s', chebLoop c' n (s.clock a) (h.map fun h => a * h) = some (p.1, s') ∧ s'.noVec = (p.2.clock a).noVec ∧
      (p.1 ≠ .rhoFailed → s' = p.2.clock a) := by
  intro n
  induction n with
  | zero => intro s h p hp; cases hp
  | succ n ih =>
    intro s h p hp hf
    have hk := chebIter_clock ha hi s h
    unfold chebLoop at hp ⊢
    cases hit : chebIter c s h with
    | retry s' h' =>
      rw [hit] at hp hk
      rcases hk (hf.mono (chebLoop_calls n s' (some h') hp)) with hk | ⟨s1, s2, hk, -, -⟩
      · rw [hk]
        exact ih s' (some h') hp hf
      · cases hk
    | done o s' =>
      rw [hit] at hp hk
      cases hp
      rcases hk hf with hk | ⟨s1, s2, hk, hk2, hk3⟩
      · rw [hk]
        exact ⟨_, rfl, rfl, fun _ => rfl⟩
      · cases hk
        rw [hk2]
        exact ⟨_, rfl, hk3, fun h => absurd rfl h⟩

/-- Attempts are recorded for ever. -/
theorem chebStep_calls {fuel : ℕ} {v v' : ChebSolver K V} {o : ChebOut} (h : chebStep c fuel v = some (o, v')) :
    v.st.calls <:+ v'.st.calls := by
  unfold chebStep at h
  cases hst : v.status with
  | running =>
    rw [hst] at h
    dsimp only at h
    split_ifs at h
    · cases h; exact List.suffix_refl _
    · cases hs : chebStepImpl c fuel v.st with
      | none => rw [hs] at h; cases h
      | some p =>
        have h1 := chebLoop_calls fuel v.st v.st.absh hs
        rw [hs] at h
        obtain ⟨o', s'⟩ := p
        cases o' <;> (cases h; exact h1)
  | finished => rw [hst] at h; cases h; exact List.suffix_refl _
  | failed => rw [hst] at h; cases h; exact List.suffix_refl _

/-- Solvers that correspond in the other unit of time; after a failure the first guess for the eigenvector may differ. -/
structure ClockRel (a : K) (v w : ChebSolver K V) : Prop where
  status : w.status = v.status
  tOld : w.tOld = v.tOld.map fun t => a * t
  st : w.st.noVec = (v.st.clock a).noVec
  eq : v.status ≠ .failed → w = v.clock a

/-- **C130** (general form). Corresponding calls of `step()` return the same outcome and corresponding states. -/
theorem C130_step (ha : 0 < a) (hi : ClockCheb a c c') {fuel : ℕ} {v v' w : ChebSolver K V} {o : ChebOut} (hw : ClockRel a v w)
    (h : chebStep c fuel v = some (o, v')) (hf : FloorFree a c c' v'.st.calls) :
    ∃ w', chebStep c' fuel w = some (o, w') ∧ ClockRel a v' w' := by
  cases hst : v.status with
  | running =>
    rw [hw.eq (by rw [hst]; simp)]
    unfold chebStep at h ⊢
    have e1 : (v.clock a).status = v.status := rfl
    rw [e1]
    rw [hst] at h ⊢
    dsimp only at h ⊢
    have e2 : (c'.tb = some (v.clock a).st.t) ↔ (c.tb = some v.st.t) := by
      rw [hi.tb, show (v.clock a).st.t = a * v.st.t from rfl]
      cases c.tb with
      | none => simp
      | some b => simp [ha.ne']
    by_cases ht : c.tb = some v.st.t
    · rw [if_pos ht] at h
      rw [if_pos (e2.2 ht)]
      cases h
      exact ⟨_, rfl, rfl, rfl, rfl, fun _ => rfl⟩
    · rw [if_neg ht] at h
      rw [if_neg fun h => ht (e2.1 h)]
      cases hs : chebStepImpl c fuel v.st with
      | none => rw [hs] at h; cases h
      | some p =>
        have hl : FloorFree a c c' p.2.calls → ∃ s', chebStepImpl c' fuel (v.clock a).st = some (p.1, s') ∧
            s'.noVec = (p.2.clock a).noVec ∧ (p.1 ≠ .rhoFailed → s' = p.2.clock a) := by
          intro hfp
          exact chebLoop_clock ha hi fuel v.st v.st.absh hs hfp
        rw [hs] at h
        obtain ⟨o', s'⟩ := p
        have hst' : (match c'.tb with
              | none => ChebStatus.running
              | some b => if 0 ≤ c'.dir * ((s'.clock a).t - b) then .finished else .running) =
            (match c.tb with
              | none => ChebStatus.running
              | some b => if 0 ≤ c.dir * (s'.t - b) then .finished else .running) := by
          rw [hi.tb, hi.dir, show (s'.clock a).t = a * s'.t from rfl]
          cases c.tb with
          | none => rfl
          | some b =>
            dsimp only [Option.map_some]
            rw [← mul_sub, mul_left_comm]
            simp only [mul_nonneg_iff_of_pos_left ha]
        cases o' with
        | ok =>
          cases h
          obtain ⟨s'', hl1, -, hl3⟩ := hl hf
          rw [hl1, hl3 (by simp)]
          exact ⟨_, rfl, hst', rfl, rfl, fun _ =>
            congrArg (fun st => (⟨st, some (a * v.st.t), s'.clock a⟩ : ChebSolver K V)) hst'⟩
        | rhoFailed => cases h; obtain ⟨s'', hl1, hl2, -⟩ := hl hf; rw [hl1]; exact ⟨_, rfl, rfl, rfl, hl2, fun h => absurd rfl h⟩
        | overflow => cases h; obtain ⟨s'', hl1, hl2, -⟩ := hl hf; rw [hl1]; exact ⟨_, rfl, rfl, rfl, hl2, fun h => absurd rfl h⟩
        | tooSmall => cases h; obtain ⟨s'', hl1, hl2, -⟩ := hl hf; rw [hl1]; exact ⟨_, rfl, rfl, rfl, hl2, fun h => absurd rfl h⟩
        | domain =>
          cases h; obtain ⟨s'', hl1, -, hl3⟩ := hl hf; rw [hl1, hl3 (by simp)]; exact ⟨_, rfl, hst.symm ▸ rfl, rfl, rfl, fun _ => rfl⟩
        | «attribute» =>
          cases h; obtain ⟨s'', hl1, -, hl3⟩ := hl hf; rw [hl1, hl3 (by simp)]; exact ⟨_, rfl, hst.symm ▸ rfl, rfl, rfl, fun _ => rfl⟩
        | notRunning =>
          cases h; obtain ⟨s'', hl1, -, hl3⟩ := hl hf; rw [hl1, hl3 (by simp)]; exact ⟨_, rfl, hst.symm ▸ rfl, rfl, rfl, fun _ => rfl⟩
  | finished =>
    unfold chebStep at h ⊢
    rw [hst] at h
    cases h
    rw [hw.status, hst]
    exact ⟨w, rfl, hw⟩
  | failed =>
    unfold chebStep at h ⊢
    rw [hst] at h
    cases h
    rw [hw.status, hst]
    exact ⟨w, rfl, hw⟩

/-- **C130.** `SSV2stab` in another unit of time, `t' = a t`, so that `f` and the spectral radius are divided by `a`; `t_bound`, `max_step`
and `first_step` (if given) are converted. Every sequence of calls of `step()` in which the absolute floor of the minimal step is not used
gives the same outcomes, solution values, numbers of stages, rejections and evaluations; the times and step sizes are multiplied by `a`. -/
theorem C130_run (ha : 0 < a) (hi : ClockCheb a c c') {t0 : K} {y0 : V} {first : Option K} {outs : List ChebOut} {v : ChebSolver K V}
    (hr : ChebCalls c (newCheb c t0 y0 first) outs v) (hf : FloorFree a c c' v.st.calls) :
    ∃ v', ChebCalls c' (newCheb c' (a * t0) y0 (first.map fun h => a * h)) outs v' ∧ v'.status = v.status ∧
      v'.tOld = v.tOld.map (fun t => a * t) ∧ v'.st.t = a * v.st.t ∧ v'.st.absh = v.st.absh.map (fun h => a * h) ∧ v'.st.yn = v.st.yn ∧
      v'.st.fn = a⁻¹ • v.st.fn ∧ v'.st.nfev = v.st.nfev ∧ v'.st.nfesig = v.st.nfesig ∧ v'.st.nrej = v.st.nrej ∧
      v'.st.maxm = v.st.maxm := by
  have e0 : newCheb c' (a * t0) y0 (first.map fun h => a * h) = (newCheb c t0 y0 first).clock a := by
    simp [newCheb, ChebSolver.clock, ChebSt.clock, hi.rhs]
  rw [e0]
  have h : ∃ v', ChebCalls c' ((newCheb c t0 y0 first).clock a) outs v' ∧ ClockRel a v v' := by
    induction hr with
    | nil => exact ⟨_, .nil, rfl, rfl, rfl, fun _ => rfl⟩
    | @cons outs v v' o fuel _ hs ih =>
      obtain ⟨w, h1, h2⟩ := ih (hf.mono (chebStep_calls hs))
      obtain ⟨w', h3, h4⟩ := C130_step ha hi h2 hs hf
      exact ⟨w', .cons (fuel := fuel) h1 h3, h4⟩
  obtain ⟨v', h1, h2⟩ := h
  have e := h2.st
  simp only [ChebSt.noVec, ChebSt.clock, ChebSt.mk.injEq] at e
  obtain ⟨q1, q2, q3, -, q5, -, -, -, -, -, -, -, -, q14, q15, q16, q17, -⟩ := e
  exact ⟨v', h1, h2.status, h2.tOld, q1, q5, q2, q3, q17, q15, q14, q16⟩

end

/-! ## The stages and the estimator of the code -/

section
variable {V : Type*} [AddCommGroup V] [Module ℝ V]

theorem rkcRun_clock {a : ℝ} (ha : a ≠ 0) {f g : ℝ → V → V} (hg : ∀ t y, g (a * t) y = a⁻¹ • f t y) (w0 w1 t : ℝ) (y fv : V) (h : ℝ) (k : ℕ) :
    rkcRun g w0 w1 (a * t) y (a⁻¹ • fv) (a * h) k = rkcRun f w0 w1 t y fv h k := by
  have hs : ∀ (x : ℝ) (z : V), (a * h * x) • a⁻¹ • z = (h * x) • z := by
    intro x z
    rw [smul_smul, show a * h * x * a⁻¹ = h * x by field_simp]
  induction k with
  | zero => simp only [rkcRun, rkcInit, hs]
  | succ k ih =>
    simp only [rkcRun, ih]
    simp only [rkcNext, mul_assoc a h, ← mul_add, hg, smul_comm _ a⁻¹ fv, ← smul_sub]
    simp only [← mul_assoc a h, hs]

/-- **C130.** The stages of `SSV2stab` give the same solution in the other unit of time, for every number of stages. -/
theorem C130_stages {a : ℝ} (ha : a ≠ 0) {f g : ℝ → V → V} (hg : ∀ t y, g (a * t) y = a⁻¹ • f t y) (t : ℝ) (y fv : V) (h : ℝ) (m : ℕ) :
    rkcStages g (a * t) y (a⁻¹ • fv) (a * h) m = rkcStages f t y fv h m := by
  unfold rkcStages
  rw [rkcRun_clock ha hg]

end

section
variable {V : Type*} [NormedAddCommGroup V] [NormedSpace ℝ V]

theorem rhoLoop_clock {a : ℝ} (ha : 0 < a) {p p' : RhoIn V} (hfs : ∀ v, p'.fs v = a⁻¹ • p.fs v) (hfn : p'.fn = a⁻¹ • p.fn)
    (hyn : p'.yn = p.yn) (hsm : p'.small = a⁻¹ * p.small) (hfl : p'.flip = p.flip) (d : ℝ) (w w' : V) :
    ∀ (n k : ℕ) (v : V) (s : ℝ), (rhoLoop p' d w' n k v (a⁻¹ * s)).spr = (rhoLoop p d w n k v s).spr.map (fun x => a⁻¹ * x) ∧
      (rhoLoop p' d w' n k v (a⁻¹ * s)).evals = (rhoLoop p d w n k v s).evals ∧
      ((rhoLoop p d w n k v s).spr ≠ none → (rhoLoop p' d w' n k v (a⁻¹ * s)).vec = (rhoLoop p d w n k v s).vec) := by
  have hi : 0 < a⁻¹ := inv_pos.2 ha
  have hdf : ∀ v, p'.fs v - p'.fn = a⁻¹ • (p.fs v - p.fn) := fun v => by rw [hfs, hfn, smul_sub]
  have hn : ∀ v, ‖p'.fs v - p'.fn‖ = a⁻¹ * ‖p.fs v - p.fn‖ := fun v => by
    rw [hdf, norm_smul, Real.norm_of_nonneg hi.le]
  intro n
  induction n with
  | zero => intro k v s; exact ⟨rfl, rfl, fun h => absurd rfl h⟩
  | succ n ih =>
    intro k v s
    have hsig : ‖p'.fs v - p'.fn‖ / d = a⁻¹ * (‖p.fs v - p.fn‖ / d) := by rw [hn, mul_div_assoc]
    have hnext : rhoNext p' d k v = rhoNext p d k v := by
      unfold rhoNext
      rw [hn, hdf, hyn, hfl]
      by_cases h0 : ‖p.fs v - p.fn‖ = 0
      · simp [h0]
      · rw [if_pos (mul_ne_zero hi.ne' h0), if_pos h0, smul_smul]
        congr 2
        field_simp
    have htest : (k ≠ 0 ∧ |a⁻¹ * (‖p.fs v - p.fn‖ / d) - a⁻¹ * s| ≤ max (a⁻¹ * (‖p.fs v - p.fn‖ / d)) p'.small * (1 / 100)) ↔
        (k ≠ 0 ∧ |‖p.fs v - p.fn‖ / d - s| ≤ max (‖p.fs v - p.fn‖ / d) p.small * (1 / 100)) := by
      rw [hsm, ← mul_sub, abs_mul, abs_of_pos hi, ← mul_max_of_nonneg _ _ hi.le, mul_assoc, mul_le_mul_iff_right₀ hi]
    unfold rhoLoop
    dsimp only
    rw [hsig, hnext]
    by_cases ht : k ≠ 0 ∧ |‖p.fs v - p.fn‖ / d - s| ≤ max (‖p.fs v - p.fn‖ / d) p.small * (1 / 100)
    · rw [if_pos (htest.2 ht), if_pos ht]
      refine ⟨?_, rfl, fun _ => by dsimp only; rw [hyn]⟩
      dsimp only [Option.map_some]
      congr 1
      ring
    · rw [if_neg fun h => ht (htest.1 h), if_neg ht]
      exact ih (k + 1) _ _

/-- **C130.** The estimator of the spectral radius (`_rho`), with the functions divided by `a` and `max_step` multiplied by `a`: the estimate is
divided by `a`, the number of evaluations is the same, and so is the stored eigenvector, unless the iteration fails. -/
theorem C130_estimator {a : ℝ} (ha : 0 < a) {p p' : RhoIn V} (hfs : ∀ v, p'.fs v = a⁻¹ • p.fs v) (hfn : p'.fn = a⁻¹ • p.fn)
    (hyn : p'.yn = p.yn) (hsm : p'.small = a⁻¹ * p.small) (hfl : p'.flip = p.flip) (hsq : p'.sqrtu = p.sqrtu) (hu : p'.uround = p.uround)
    (hone : p'.one = p.one) (w : Option V) :
    (rhoEst p' w).spr = (rhoEst p w).spr.map (fun x => a⁻¹ * x) ∧ (rhoEst p' w).evals = (rhoEst p w).evals ∧
      ((rhoEst p w).spr ≠ none → (rhoEst p' w).vec = (rhoEst p w).vec) := by
  have hi : 0 < a⁻¹ := inv_pos.2 ha
  have hst : rhoStart p' (w.getD p'.fn) = rhoStart p (w.getD p.fn) := by
    cases w with
    | some w => simp only [Option.getD_some, rhoStart, hyn, hsq, hu, hone]
    | none =>
      simp only [Option.getD_none, rhoStart, hyn, hsq, hu, hone, hfn, norm_smul, Real.norm_of_nonneg hi.le]
      by_cases h0 : ‖p.fn‖ = 0
      · have : p.fn = 0 := norm_eq_zero.1 h0
        simp [this]
      · have h1 : a⁻¹ * ‖p.fn‖ ≠ 0 := mul_ne_zero hi.ne' h0
        have h2 : ∀ x : ℝ, (x / (a⁻¹ * ‖p.fn‖)) • a⁻¹ • p.fn = (x / ‖p.fn‖) • p.fn := by
          intro x
          rw [smul_smul]
          congr 1
          field_simp
        simp only [ne_eq, h0, h1, not_false_eq_true, and_true, if_true, h2]
        by_cases hy : ‖p.yn‖ = 0 <;> simp [hy]
  unfold rhoEst
  rw [hst]
  have h := rhoLoop_clock ha hfs hfn hyn hsm hfl (rhoStart p (w.getD p.fn)).1 (w.getD p.fn) (w.getD p'.fn) 50 0
    (rhoStart p (w.getD p.fn)).2 0
  rwa [mul_zero] at h

end

/-- **C130.** `SSV2stab` with its stages, its norms and a user function for the spectral radius, for real and complex arrays. -/
theorem C130_code {𝕜 : Type*} [RCLike 𝕜] {n : ℕ} {a : ℝ} (ha : 0 < a) {atol : Fin n → ℝ} {rtol : ℝ} {f g : ℝ → (Fin n → 𝕜) → Fin n → 𝕜}
    (hg : ∀ t y, g (a * t) y = a⁻¹ • f t y) {r r' : ℝ → (Fin n → 𝕜) → ℝ} (hr : ∀ t y, r' (a * t) y = a⁻¹ * r t y)
    {c c' : ChebCfg ℝ (Fin n → 𝕜)} (hc : IsSSV2stab f atol rtol r c) (hc' : IsSSV2stab g atol rtol r' c')
    (htb : c'.tb = c.tb.map fun b => a * b) (hmax : c'.maxStep = a * c.maxStep) (hmin : c'.hmin0 = a * c.hmin0) (hdir : c'.dir = c.dir)
    (hu : c'.uround = c.uround) (hmm : c'.mmax = c.mmax) (hcj : c'.constJac = c.constJac) (hpw : c'.pw = c.pw) (hsq : c'.sqrt = c.sqrt)
    {t0 : ℝ} {y0 : Fin n → 𝕜} {first : Option ℝ} {outs : List ChebOut} {v : ChebSolver ℝ (Fin n → 𝕜)}
    (hrun : ChebCalls c (newCheb c t0 y0 first) outs v) (hf : ∀ e ∈ v.st.calls, c.sqrtmin < e.hmin ∧ c'.sqrtmin ≤ a * e.hmin) :
    ∃ v', ChebCalls c' (newCheb c' (a * t0) y0 (first.map fun h => a * h)) outs v' ∧ v'.status = v.status ∧
      v'.tOld = v.tOld.map (fun t => a * t) ∧ v'.st.t = a * v.st.t ∧ v'.st.absh = v.st.absh.map (fun h => a * h) ∧ v'.st.yn = v.st.yn ∧
      v'.st.fn = a⁻¹ • v.st.fn ∧ v'.st.nfev = v.st.nfev ∧ v'.st.nfesig = v.st.nfesig ∧ v'.st.nrej = v.st.nrej ∧
      v'.st.maxm = v.st.maxm :=
  C130_run ha
    { rhs := fun t y => by rw [hc.rhs, hc'.rhs]; exact hg t y
      stg := fun t y fv h m => by rw [hc.stg, hc'.stg]; exact C130_stages ha.ne' hg t y fv h m
      tb := htb, maxStep := hmax, hmin0 := hmin, dir := hdir, uround := hu, mmax := hmm, constJac := hcj, pw := hpw, sqrt := hsq
      errNorm := by funext e y z; rw [hc.errNorm, hc'.errNorm]
      est0 := by funext e y; rw [hc.est0, hc'.est0]
      jac := fun t y => by rw [hc.rhoJac, hc'.rhoJac]; exact congrArg some (hr t y)
      rho := fun h => by rw [hc.rhoJac] at h; cases h } hrun hf

/-! ## The hypotheses are met -/

/-- `y' = 1` from 0 to 21 (`chebA`), in seconds and in milliseconds. -/
def chebMsec : ChebCfg ℚ ℚ :=
  { chebW (fun _ _ => 1 / 1000) (some 21000) 1 10000 (fun _ _ => 1 / 1000) (fun e _ _ => .num |e|) with hmin0 := 1000 / 10 ^ 10 }

theorem chebMsec_clock : ClockCheb 1000 chebA chebMsec where
  rhs := fun t y => by norm_num [chebA, chebW, chebMsec]
  stg := fun t y f h m => by simp only [chebA, chebW, chebMsec, smul_eq_mul]; ring
  tb := by simp only [chebA, chebW, chebMsec, Option.map_some]; norm_num
  maxStep := by norm_num [chebA, chebW, chebMsec]
  hmin0 := by norm_num [chebA, chebW, chebMsec]
  dir := rfl
  uround := rfl
  mmax := rfl
  constJac := rfl
  errNorm := rfl
  est0 := rfl
  pw := rfl
  sqrt := rfl
  jac := fun t y => by norm_num [chebA, chebW, chebMsec]
  rho := fun h => by cases h

/-- A run with automatic first step, in the two units. -/
example : ∃ v v', ChebCalls chebA (newCheb chebA 0 0 none) [.ok] v ∧ 0 < v.st.t ∧
    ChebCalls chebMsec (newCheb chebMsec 0 0 none) [.ok] v' ∧ v'.st.t = 1000 * v.st.t ∧ v'.st.yn = v.st.yn := by
  obtain ⟨p, hp⟩ : ∃ p, chebStep chebA 10 (newCheb chebA 0 0 none) = some p := Option.isSome_iff_exists.1 (by decide +kernel)
  have h1 : p.1 = .ok ∧ 0 < p.2.st.t ∧ ∀ e ∈ p.2.st.calls, chebA.sqrtmin < e.hmin ∧ chebMsec.sqrtmin ≤ 1000 * e.hmin := by
    have : ((chebStep chebA 10 (newCheb chebA 0 0 none)).all fun p => decide (p.1 = .ok) && decide (0 < p.2.st.t) &&
        p.2.st.calls.all fun e => decide (chebA.sqrtmin < e.hmin) && decide (chebMsec.sqrtmin ≤ 1000 * e.hmin)) = true := by
      decide +kernel
    rw [hp] at this
    simpa [and_assoc] using this
  have hr : ChebCalls chebA (newCheb chebA 0 0 none) [.ok] p.2 := by
    refine .cons (fuel := 10) .nil ?_
    rw [hp, ← h1.1]
  obtain ⟨v', h2, -, -, h3, -, h4, -⟩ := C130_run (by norm_num) chebMsec_clock hr h1.2.2
  refine ⟨p.2, v', hr, h1.2.1, ?_, h3, h4⟩
  simpa using h2

end Extensisq
