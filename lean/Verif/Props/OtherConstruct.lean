import Verif.Model.OtherConstruct
import Verif.Props.Construct
import Verif.Props.Cheb
import Verif.Props.SwagStep

/-!
# C98: construction of `SSV2stab` and `SWAG`
-/

set_option linter.unusedSectionVars false

namespace Extensisq

section
variable {K V : Type*} [Field K] [LinearOrder K] [IsStrictOrderedRing K]

/-! ## Specification -/

/-- What both constructors require of the common arguments. -/
structure CommonOK (t0 : K) (n : ℕ) (tb : Bound K) (maxStep : Option K) (rtol : RtolArg K) (atol : AtolArg K)
    (firstStep : Option K) : Prop where
  maxStep : ∀ m, maxStep = some m → 0 < m
  shape : ¬ WrongShape n atol
  atol : ∀ x ∈ atol.entries, ¬ Negative x
  rtol : ∃ r, rtol = .float r ∧ ¬ Negative r
  first : ∀ x, firstStep = some x → 0 < x ∧ ∀ b, tb = .num b → x ≤ |b - t0|

/-! ## Parts -/

theorem oFirstStep_ok {x t0 : K} {b : Bound K} {h : K} :
    oFirstStep x t0 b = .ok h ↔ (h = x ∧ 0 < x ∧ ∀ c, b = .num c → x ≤ |c - t0|) := by
  unfold oFirstStep
  cases hv : validateFirstStep x t0 b with
  | ok h' =>
    rw [← validateFirstStep_ok, hv]
    simp
  | error e =>
    rw [← validateFirstStep_ok, hv]
    cases e <;> simp

theorem maxStep_any {m : Option K} : m.any (fun m => decide (m ≤ 0)) = true ↔ ¬ ∀ x, m = some x → 0 < x := by
  rw [Option.any_eq_true]
  push Not
  constructor
  · rintro ⟨m, h1, h2⟩; exact ⟨m, h1, by simpa using h2⟩
  · rintro ⟨m, h1, h2⟩; exact ⟨m, h1, by simpa using h2⟩

/-- The validated `rtol` is a number unless the argument was nan. -/
theorem validateTol_num {epsneg sqrtTiny : K} {n : ℕ} {r : PyFloat K} {atol atol' : AtolArg K} {rtol : PyFloat K}
    (h : validateTol epsneg sqrtTiny n (.float r) atol = .ok (rtol, atol')) : (∃ x, rtol = .num x) ↔ r ≠ .nan := by
  unfold validateTol at h
  split at h
  · cases h
  · split at h
    · cases h
    · dsimp only at h
      split at h
      · cases h
      · rename_i hneg
        simp only [Except.ok.injEq, Prod.mk.injEq] at h
        rw [← h.1]
        cases r with
        | num x => simp [PyFloat.maxNum, PyFloat.minNum]
        | pinf => simp [PyFloat.maxNum, PyFloat.minNum]
        | ninf => exact absurd rfl hneg
        | nan => simp [PyFloat.maxNum, PyFloat.minNum]

theorem checkRho_ok {t0 : K} {y0 : V} {a : RhoArg K V} {r : Option (K → V → K)} :
    checkRho t0 y0 a = .ok r ↔ (a = .none ∧ r = none) ∨
      ∃ f x, a = .call f ∧ f t0 y0 = some x ∧ 0 < x ∧ r = some fun t y => (f t y).getD 0 := by
  cases a with
  | none => simp [checkRho, eq_comm]
  | notCallable => simp [checkRho]
  | call f =>
    simp only [checkRho, reduceCtorEq, false_and, false_or, RhoArg.call.injEq]
    cases hf : f t0 y0 with
    | none =>
      constructor
      · intro h; cases h
      · rintro ⟨g, x, rfl, h, -⟩; rw [hf] at h; cases h
    | some x =>
      dsimp only
      split_ifs with hx
      · constructor
        · intro h; cases h
        · rintro ⟨g, x', rfl, h, h', -⟩
          rw [hf] at h; injection h with h; rw [← h] at h'
          exact absurd h' (not_lt.mpr hx)
      · constructor
        · intro h; injection h with h; exact ⟨f, x, rfl, hf, not_le.mp hx, h.symm⟩
        · rintro ⟨g, x', rfl, -, -, h⟩; rw [h]

variable {M : CMachine K} {X : CExt K V} {a : CArgs K V}

theorem chebNew_ok {q : ChebCfg K V × ChebSolver K V} : chebNew M X a = .ok q ↔
    (∀ x, a.firstStep = some x → 0 < x ∧ ∀ b, a.tb = .num b → x ≤ |b - a.t0|) ∧ (∀ m, a.maxStep = some m → 0 < m) ∧
    ∃ cj rho r atol, a.constJac = some cj ∧ checkRho a.t0 a.y0 a.rhoJac = .ok rho ∧
      validateTol M.epsneg M.sqrtTiny a.n a.rtol a.atol = .ok (.num r, atol) ∧
      q = (chebInitCfg M X a cj rho (.num r) atol r, newCheb (chebInitCfg M X a cj rho (.num r) atol r) a.t0 a.y0 a.firstStep) := by
  unfold chebNew
  constructor
  · intro h
    split at h
    · cases h
    · rename_i first hf
      have hfirst : first = a.firstStep ∧ ∀ x, a.firstStep = some x → 0 < x ∧ ∀ b, a.tb = .num b → x ≤ |b - a.t0| := by
        unfold chebFirst at hf
        cases hx : a.firstStep with
        | none =>
          rw [hx] at hf
          injection hf with hf
          exact ⟨hf.symm, fun x h => by cases h⟩
        | some x =>
          rw [hx] at hf
          dsimp only at hf
          cases ho : oFirstStep x a.t0 a.tb with
          | error e => rw [ho] at hf; cases hf
          | ok h' =>
            rw [ho] at hf
            obtain ⟨e, k⟩ := oFirstStep_ok.mp ho
            simp only [Except.map, Except.ok.injEq] at hf
            rw [← hf, e]
            exact ⟨rfl, fun y hy => by injection hy with hy; rw [← hy]; exact k⟩
      split at h
      · cases h
      · rename_i cj hcj
        split at h
        · cases h
        · rename_i rho hrho
          split at h
          · cases h
          · rename_i hm
            split at h
            · cases h
            · rename_i rtol atol hv
              split at h
              · rename_i r
                injection h with h
                rw [hfirst.1] at h
                exact ⟨hfirst.2, not_not.mp (mt maxStep_any.mpr hm), cj, rho, r, atol, hcj, hrho, hv, h.symm⟩
              · cases h
  · rintro ⟨h1, h2, cj, rho, r, atol, hcj, hrho, hv, rfl⟩
    have hf : chebFirst a = .ok a.firstStep := by
      unfold chebFirst
      cases hx : a.firstStep with
      | none => rfl
      | some x =>
        dsimp only
        rw [oFirstStep_ok.mpr ⟨rfl, h1 x hx⟩]
        rfl
    rw [hf]
    dsimp only
    rw [hcj]
    dsimp only
    rw [hrho]
    dsimp only
    rw [if_neg (by rw [maxStep_any]; exact not_not.mpr h2), hv]

/-! ## `SSV2stab` -/

/-- **C98.** `SSV2stab` is constructed exactly if the common arguments are right, `rtol` is not nan, `const_jac` is a `bool` and `rho_jac` is
not given or a function that returns a positive float at the initial point. -/
theorem C98_cheb_accepted_iff : (∃ q, chebNew M X a = .ok q) ↔
    CommonOK a.t0 a.n a.tb a.maxStep a.rtol a.atol a.firstStep ∧ a.rtol ≠ .float .nan ∧ (∃ b, a.constJac = some b) ∧
    (a.rhoJac = .none ∨ ∃ f x, a.rhoJac = .call f ∧ f a.t0 a.y0 = some x ∧ 0 < x) := by
  constructor
  · rintro ⟨q, hq⟩
    obtain ⟨h1, h2, cj, rho, r, atol, hcj, hrho, hv, -⟩ := chebNew_ok.mp hq
    obtain ⟨t1, t2, t3⟩ := validateTol_ok.mp ⟨_, hv⟩
    refine ⟨⟨h2, t1, t2, t3, h1⟩, ?_, ⟨cj, hcj⟩, ?_⟩
    · intro h
      rw [h] at hv
      exact (validateTol_num hv).mp ⟨r, rfl⟩ rfl
    · rcases checkRho_ok.mp hrho with ⟨h, -⟩ | ⟨f, x, h, h', h'', -⟩
      · exact Or.inl h
      · exact Or.inr ⟨f, x, h, h', h''⟩
  · rintro ⟨hc, hn, ⟨cj, hcj⟩, hr⟩
    obtain ⟨⟨rtol, atol⟩, e1⟩ := (validateTol_ok (epsneg := M.epsneg) (sqrtTiny := M.sqrtTiny)).mpr ⟨hc.shape, hc.atol, hc.rtol⟩
    obtain ⟨r0, hr0, -⟩ := hc.rtol
    have e1' := e1
    rw [hr0] at e1'
    obtain ⟨r, rfl⟩ := (validateTol_num e1').mpr (fun e => hn (by rw [hr0, e]))
    obtain ⟨rho, e2⟩ : ∃ rho, checkRho a.t0 a.y0 a.rhoJac = .ok rho := by
      rcases hr with h | ⟨f, x, h, h', h''⟩
      · exact ⟨none, checkRho_ok.mpr (Or.inl ⟨h, rfl⟩)⟩
      · exact ⟨_, checkRho_ok.mpr (Or.inr ⟨f, x, h, h', h'', rfl⟩)⟩
    exact ⟨_, chebNew_ok.mpr ⟨hc.first, hc.maxStep, cj, rho, r, atol, hcj, e2, e1, rfl⟩⟩

theorem chebMaxStep_spec (hm : ∀ m, a.maxStep = some m → 0 < m) (hM : 0 < M.sqrtMax) (hne : a.tb ≠ .num a.t0) :
    0 < chebMaxStep M a ∧ chebMaxStep M a ≤ M.sqrtMax ∧ (∀ m, a.maxStep = some m → chebMaxStep M a ≤ m) ∧
    (∀ b, a.tb = .num b → chebMaxStep M a ≤ |b - a.t0|) ∧
    (chebMaxStep M a = M.sqrtMax ∨ a.maxStep = some (chebMaxStep M a) ∨ ∃ b, a.tb = .num b ∧ chebMaxStep M a = |b - a.t0|) := by
  have hd : ∀ b, a.tb = .num b → 0 < |b - a.t0| := fun b h => abs_pos.mpr fun e => hne (by rw [h, sub_eq_zero.mp e])
  have hdist : ∀ d, a.tb.dist a.t0 = some d → ∃ b, a.tb = .num b ∧ d = |b - a.t0| := by
    intro d h
    cases ht : a.tb with
    | num b => rw [ht] at h; injection h with h; exact ⟨b, rfl, h.symm⟩
    | posInf => rw [ht] at h; cases h
    | negInf => rw [ht] at h; cases h
  have hdn : a.tb.dist a.t0 = none → ∀ b, a.tb ≠ .num b := by
    intro h b e; rw [e] at h; cases h
  unfold chebMaxStep
  cases hmx : a.maxStep with
  | none =>
    cases hb : a.tb.dist a.t0 with
    | none =>
      simp only [minInf]
      exact ⟨hM, le_rfl, fun m h => (by cases h), fun b h => absurd h (hdn hb b), Or.inl trivial⟩
    | some d =>
      obtain ⟨b, hb1, hb2⟩ := hdist d hb
      simp only [minInf]
      have hpos := hd b hb1
      rw [← hb2] at hpos
      refine ⟨lt_min hpos hM, min_le_right _ _, fun m h => (by cases h), fun b' h => ?_, ?_⟩
      · rw [hb1] at h; injection h with h; rw [← h, ← hb2]; exact min_le_left _ _
      · rcases le_total d M.sqrtMax with h | h
        · rw [min_eq_left h]; exact Or.inr (Or.inr ⟨b, hb1, hb2⟩)
        · rw [min_eq_right h]; exact Or.inl rfl
  | some m =>
    have hm0 := hm m hmx
    cases hb : a.tb.dist a.t0 with
    | none =>
      simp only [minInf]
      refine ⟨lt_min hm0 hM, min_le_right _ _, fun m' h => ?_, fun b h => absurd h (hdn hb b), ?_⟩
      · injection h with h; rw [← h]; exact min_le_left _ _
      · rcases le_total m M.sqrtMax with h | h
        · rw [min_eq_left h]; exact Or.inr (Or.inl rfl)
        · rw [min_eq_right h]; exact Or.inl rfl
    | some d =>
      obtain ⟨b, hb1, hb2⟩ := hdist d hb
      simp only [minInf]
      have hpos := hd b hb1
      rw [← hb2] at hpos
      refine ⟨lt_min (lt_min hm0 hpos) hM, min_le_right _ _, fun m' h => ?_, fun b' h => ?_, ?_⟩
      · injection h with h; rw [← h]; exact (min_le_left _ _).trans (min_le_left _ _)
      · rw [hb1] at h; injection h with h; rw [← h, ← hb2]; exact (min_le_left _ _).trans (min_le_right _ _)
      · rcases le_total (min m d) M.sqrtMax with h | h
        · rw [min_eq_left h]
          rcases le_total m d with h | h
          · rw [min_eq_left h]; exact Or.inr (Or.inl rfl)
          · rw [min_eq_right h]; exact Or.inr (Or.inr ⟨b, hb1, hb2⟩)
        · rw [min_eq_right h]; exact Or.inl rfl

/-- What is needed of the external parts: a spectral radius and norms are not negative. -/
structure CExtOK (X : CExt K V) : Prop where
  rho : ∀ t y f v x, (X.rho t y f v).spr = some x → 0 ≤ x
  errNorm : ∀ rtol atol e y yn x, X.errNorm rtol atol e y yn = .num x → 0 ≤ x

/-- **C98.** A constructed `SSV2stab` solver is one to which its properties apply (`ChebStart`), if the interval is not empty and `rho_jac` is
never negative; its steps are limited by `max_step`, the interval and `sqrt(max)`, whichever is least, it uses at least two stages and
its first step is the argument. -/
theorem C98_cheb_ready [FloorSemiring K] [AddCommGroup V] [Module K V] {c : ChebCfg K V} {v : ChebSolver K V}
    (h : chebNew M X a = .ok (c, v)) (hX : CExtOK X) (hne : a.tb ≠ .num a.t0) (ht : 0 < M.sqrtTiny) (hu : 0 ≤ M.uround)
    (hM : 0 < M.sqrtMax) (hsq : ∀ x, 0 ≤ M.sqrt x) (hpw : PowUp M.pw)
    (hrho : ∀ f, a.rhoJac = .call f → ∀ t y x, f t y = some x → 0 ≤ x) :
    ChebStart c a.t0 a.firstStep ∧ v = newCheb c a.t0 a.y0 a.firstStep ∧ v.st.nfev = 1 ∧
    (∀ m, a.maxStep = some m → c.maxStep ≤ m) ∧ (∀ b, a.tb = .num b → c.tb = some b ∧ c.maxStep ≤ |b - a.t0|) ∧
    (c.maxStep = M.sqrtMax ∨ a.maxStep = some c.maxStep ∨ ∃ b, a.tb = .num b ∧ c.maxStep = |b - a.t0|) ∧
    (a.tb = .posInf → c.tb = none ∧ c.dir = 1) ∧ (a.tb = .negInf → c.tb = none ∧ c.dir = -1) ∧
    a.constJac = some c.constJac ∧ (c.rhoJac = none ↔ a.rhoJac = .none) ∧
    (∀ f r, a.rhoJac = .call f → c.rhoJac = some r → ∀ t y x, f t y = some x → r t y = x) := by
  obtain ⟨h1, h2, cj, rho, r, atol, hcj, hr, hv, e⟩ := chebNew_ok.mp h
  obtain ⟨rfl, rfl⟩ := Prod.mk.inj e
  obtain ⟨m1, m2, m3, m4, m5⟩ := chebMaxStep_spec h2 hM hne
  have hdir : a.tb.dir a.t0 = 1 ∨ a.tb.dir a.t0 = -1 := by
    unfold Bound.dir
    split
    · split_ifs <;> simp
    · simp
    · simp
  refine ⟨⟨⟨hdir, ht, hu, le_max_right _ _, m1, lt_of_lt_of_le ht (le_max_left _ _), ?_, hX.rho, hX.errNorm _ _, hsq, hpw⟩,
    fun x hx => (h1 x hx).1, ?_⟩, rfl, rfl, m3, ?_, m5, ?_, ?_, hcj, ?_, ?_⟩
  · intro g hg t y
    simp only [chebInitCfg] at hg
    rcases checkRho_ok.mp hr with ⟨-, e⟩ | ⟨f, x, hf, -, -, e⟩
    · rw [e] at hg; cases hg
    · rw [e] at hg
      injection hg with hg
      rw [← hg]
      dsimp only
      cases hx : f t y with
      | none => exact le_rfl
      | some z => exact hrho f hf t y z hx
  · intro b hb
    simp only [chebInitCfg] at hb ⊢
    cases htb : a.tb with
    | num b' =>
      rw [htb] at hb
      simp only [Bound.tb, Option.some.injEq] at hb
      rw [← hb]
      unfold Bound.dir
      dsimp only
      split_ifs with h
      · nlinarith
      · push Not at h; nlinarith
    | posInf => rw [htb] at hb; cases hb
    | negInf => rw [htb] at hb; cases hb
  · intro b hb
    exact ⟨by simp only [chebInitCfg]; rw [hb]; rfl, m4 b hb⟩
  · intro hb; simp only [chebInitCfg]; rw [hb]; exact ⟨rfl, rfl⟩
  · intro hb; simp only [chebInitCfg]; rw [hb]; exact ⟨rfl, rfl⟩
  · simp only [chebInitCfg]
    rcases checkRho_ok.mp hr with ⟨e1, e2⟩ | ⟨f, x, hf, -, -, e⟩
    · simp [e1, e2]
    · simp [hf, e]
  · intro f g hf hg t y x hx
    simp only [chebInitCfg] at hg
    rcases checkRho_ok.mp hr with ⟨e1, -⟩ | ⟨f', x', hf', -, -, e⟩
    · rw [hf] at e1; cases e1
    · rw [hf] at hf'
      injection hf' with hf'
      rw [e] at hg
      injection hg with hg
      rw [← hg, ← hf']
      simp [hx]

/-- **C98.** The maximal number of stages: the rounded value of `sqrt(rtol / (10 uround))`, at least two. -/
theorem C98_cheb_mmax {c : ChebCfg K V} {v : ChebSolver K V} (h : chebNew M X a = .ok (c, v)) :
    ∃ r atol, validateTol M.epsneg M.sqrtTiny a.n a.rtol a.atol = .ok (.num r, atol) ∧
      c.mmax = max (M.rnd (M.sqrt (r / (10 * M.uround)))) 2 ∧ c.errNorm = X.errNorm (.num r) atol ∧
      c.est0 = X.est0 (.num r) atol := by
  obtain ⟨h1, h2, cj, rho, r, atol, hcj, hr, hv, e⟩ := chebNew_ok.mp h
  obtain ⟨rfl, rfl⟩ := Prod.mk.inj e
  exact ⟨r, atol, hv, rfl, rfl, rfl⟩

/-- **C98.** `hmin`, the least step size tried first when `first_step` is not given: relative to the interval if it is finite, relative to
`t0` if `t_bound = inf`. -/
theorem C98_cheb_hmin {c : ChebCfg K V} {v : ChebSolver K V} (h : chebNew M X a = .ok (c, v)) (hu : 0 ≤ M.uround) :
    (a.tb = .posInf → c.hmin0 = max M.sqrtTiny (10 * M.uround * |a.t0|)) ∧
    (a.tb ≠ .posInf → c.hmin0 = max M.sqrtTiny (max (10 * M.uround * |a.t0|) (10 * M.uround * |c.maxStep|))) := by
  obtain ⟨h1, h2, cj, rho, r, atol, hcj, hr, hv, e⟩ := chebNew_ok.mp h
  obtain ⟨rfl, rfl⟩ := Prod.mk.inj e
  have hmul : ∀ x y : K, 10 * M.uround * max x y = max (10 * M.uround * x) (10 * M.uround * y) := fun x y =>
    mul_max_of_nonneg _ _ (by positivity)
  refine ⟨fun ht => ?_, fun ht => ?_⟩
  · simp only [chebInitCfg, chebHmin0]
    rw [ht]
  · simp only [chebInitCfg, chebHmin0]
    cases hb : a.tb with
    | num b => simp only [hmul]
    | posInf => exact absurd hb ht
    | negInf => simp only [hmul]

/-- **C98** (known defect). With `t_bound = -inf`, without `max_step` and `first_step`, the step size tried first is at least
`10 uround sqrt(max)` (about `1e139`), for every problem and tolerance. -/
theorem C98_cheb_minus_infinity [FloorSemiring K] [AddCommGroup V] [Module K V] {c : ChebCfg K V} {v : ChebSolver K V}
    (h : chebNew M X a = .ok (c, v)) (ht : a.tb = .negInf) (hm : a.maxStep = none) (hu : 0 ≤ M.uround) (hu1 : 10 * M.uround ≤ 1)
    (hM : 0 < M.sqrtMax) (t : K) (yn fn : V) (sprad : K) : 10 * M.uround * M.sqrtMax ≤ chebInit c t yn fn sprad := by
  have hmin := (C98_cheb_hmin h hu).2 (by rw [ht]; intro h; cases h)
  obtain ⟨h1, h2, cj, rho, r, atol, hcj, hr, hv, e⟩ := chebNew_ok.mp h
  obtain ⟨rfl, rfl⟩ := Prod.mk.inj e
  have hmax : (chebInitCfg M X a cj rho (.num r) atol r).maxStep = M.sqrtMax := by
    simp only [chebInitCfg, chebMaxStep]
    rw [hm, ht]
    rfl
  have hbig : 10 * M.uround * M.sqrtMax ≤ (chebInitCfg M X a cj rho (.num r) atol r).hmin0 := by
    rw [hmin, hmax, abs_of_pos hM]
    exact (le_max_right _ _).trans (le_max_right _ _)
  have hle : 10 * M.uround * M.sqrtMax ≤ M.sqrtMax := by nlinarith
  unfold chebInit
  dsimp only
  generalize (if sprad * (chebInitCfg M X a cj rho (.num r) atol r).maxStep > 1 then 1 / sprad
    else (chebInitCfg M X a cj rho (.num r) atol r).maxStep) = a1
  generalize max a1 _ = a2
  split
  · split_ifs
    · exact hbig.trans (le_max_right _ _)
    · rw [hmax]; exact hle
  · exact hbig
  · rw [hmax]; exact hle

end

/-! ## `SWAG` -/

section
variable {K V : Type*} [Field K] [LinearOrder K] [IsStrictOrderedRing K] [AddCommGroup V] [Module K V]
variable {M : SMachine K} {X : SExt K V} {a : SArgs K V}

theorem swFirstStep_ok {hs : Option K → K × ℕ} {q : K × ℕ} : swFirstStep hs a = .ok q ↔
    (a.firstStep = none ∧ q = hs (swHStartEnd a)) ∨
    ∃ x, a.firstStep = some x ∧ 0 < x ∧ (∀ b, a.tb = .num b → x ≤ |b - a.t0|) ∧ q = (copySign x (a.tb.dir a.t0), 0) := by
  unfold swFirstStep
  cases hf : a.firstStep with
  | none => simp [eq_comm]
  | some x =>
    simp only [reduceCtorEq, false_and, false_or, Option.some.injEq, exists_eq_left']
    cases hv : oFirstStep x a.t0 a.tb with
    | ok h =>
      obtain ⟨e, h1, h2⟩ := oFirstStep_ok.mp hv
      simp only [Except.map, Except.ok.injEq]
      rw [e]
      constructor
      · intro h; exact ⟨h1, h2, h.symm⟩
      · rintro ⟨-, -, h⟩; exact h.symm
    | error e =>
      simp only [Except.map, reduceCtorEq, false_iff]
      rintro ⟨h1, h2, -⟩
      rw [oFirstStep_ok.mpr ⟨rfl, h1, h2⟩] at hv
      cases hv

theorem swNew_ok {q : SwCfg K V × SwSolver K V} : swNew M X a = .ok q ↔
    (∀ m, a.maxStep = some m → 0 < m) ∧ ∃ k : ℕ, a.kMax = .int k ∧ 1 ≤ k ∧ k ≤ 12 ∧ ∃ rtol atol h e0,
      validateTol M.epsneg M.sqrtTiny a.n a.rtol a.atol = .ok (rtol, atol) ∧ swFirstStep (X.hs rtol atol) a = .ok (h, e0) ∧
      q = (swInitCfg M X a k rtol atol,
        newSwag a.t0 a.y0 (X.rhs a.t0 a.y0) h (X.wt0 rtol atol a.y0 (a.y0 - h • X.rhs a.t0 a.y0)) X.phi0 X.co0 (1 + e0)) := by
  unfold swNew
  constructor
  · intro h
    split at h
    · cases h
    · rename_i z hk
      split at h
      · cases h
      · rename_i hz
        push Not at hz
        split at h
        · cases h
        · rename_i hm
          split at h
          · cases h
          · rename_i rtol atol hv
            split at h
            · cases h
            · rename_i h0 e0 hf
              injection h with h
              refine ⟨not_not.mp (mt maxStep_any.mpr hm), z.toNat, ?_, by omega, by omega, rtol, atol, h0, e0, hv, hf, h.symm⟩
              rw [hk, Int.toNat_of_nonneg (by omega)]
  · rintro ⟨h1, k, hk, hk1, hk2, rtol, atol, h0, e0, hv, hf, rfl⟩
    rw [hk]
    dsimp only
    rw [if_neg (by omega), if_neg (by rw [maxStep_any]; exact not_not.mpr h1), hv]
    dsimp only
    rw [hf]
    simp

/-- **C98.** `SWAG` is constructed exactly if the common arguments are right and `k_max` is an `int` between 1 and 12. -/
theorem C98_swag_accepted_iff : (∃ q, swNew M X a = .ok q) ↔
    CommonOK a.t0 a.n a.tb a.maxStep a.rtol a.atol a.firstStep ∧ ∃ k : ℕ, a.kMax = .int k ∧ 1 ≤ k ∧ k ≤ 12 := by
  constructor
  · rintro ⟨q, hq⟩
    obtain ⟨h1, k, hk, hk1, hk2, rtol, atol, h0, e0, hv, hf, -⟩ := swNew_ok.mp hq
    obtain ⟨t1, t2, t3⟩ := validateTol_ok.mp ⟨_, hv⟩
    refine ⟨⟨h1, t1, t2, t3, fun x hx => ?_⟩, k, hk, hk1, hk2⟩
    rcases swFirstStep_ok.mp hf with ⟨h, -⟩ | ⟨y, h, h2, h3, -⟩
    · rw [hx] at h; cases h
    · rw [hx] at h; injection h with h; rw [h]; exact ⟨h2, h3⟩
  · rintro ⟨hc, k, hk, hk1, hk2⟩
    obtain ⟨⟨rtol, atol⟩, e1⟩ := (validateTol_ok (epsneg := M.epsneg) (sqrtTiny := M.sqrtTiny)).mpr ⟨hc.shape, hc.atol, hc.rtol⟩
    obtain ⟨⟨h0, e0⟩, e2⟩ : ∃ q, swFirstStep (X.hs rtol atol) a = .ok q := by
      cases hf : a.firstStep with
      | none => exact ⟨_, swFirstStep_ok.mpr (Or.inl ⟨hf, rfl⟩)⟩
      | some x => exact ⟨_, swFirstStep_ok.mpr (Or.inr ⟨x, hf, (hc.first x hf).1, (hc.first x hf).2, rfl⟩)⟩
    exact ⟨_, swNew_ok.mpr ⟨hc.maxStep, k, hk, hk1, hk2, rtol, atol, h0, e0, e1, e2, rfl⟩⟩

/-- **C98.** A constructed `SWAG` solver is one to which its properties apply: constants as in `SwOK`, maximal order 1 to 12, a new solver
at `t0` whose signed first step points in the direction of integration (for `h_start`: if its result does) and is `first_step`
if given, `t_bound` not behind it. -/
theorem C98_swag_ready {c : SwCfg K V} {v : SwSolver K V} (h : swNew M X a = .ok (c, v)) (hs : 0 < M.small)
    (h1 : ∀ x, 0 < x → 0 < M.sqrt x) (h2 : M.sqrt 0 = 0) (h3 : ∀ x, 0 < x → x < 1 / 4 → M.sqrt x ≤ 1 / 2)
    (hh : a.firstStep = none → ∀ rtol atol, 0 < a.tb.dir a.t0 * (X.hs rtol atol (swHStartEnd a)).1) :
    SwOK c ∧ c.kMax ≤ 12 ∧ (∃ h0 wt0 nfev, v = newSwag a.t0 a.y0 (c.fn a.t0 a.y0) h0 wt0 X.phi0 X.co0 nfev ∧ 0 < c.dir * h0 ∧
      ∀ x, a.firstStep = some x → |h0| = x ∧ nfev = 1) ∧
    c.fn = X.rhs ∧ a.kMax = .int c.kMax ∧ c.maxStep = a.maxStep ∧ c.fouru = 2 * c.twou ∧ c.twou = 2 * M.small ∧ c.gstr = X.gstr ∧
    (∃ rtol atol, validateTol M.epsneg M.sqrtTiny a.n a.rtol a.atol = .ok (rtol, atol) ∧ c.scale = X.scale rtol atol) ∧
    (∀ b, a.tb = .num b → c.tb = some b ∧ 0 ≤ c.dir * (b - a.t0)) ∧
    (a.tb = .posInf → c.tb = none ∧ c.dir = 1) ∧ (a.tb = .negInf → c.tb = none ∧ c.dir = -1) := by
  obtain ⟨hm, k, hk, hk1, hk2, rtol, atol, h0, e0, hv, hf, e⟩ := swNew_ok.mp h
  obtain ⟨rfl, rfl⟩ := Prod.mk.inj e
  have hdir : a.tb.dir a.t0 = 1 ∨ a.tb.dir a.t0 = -1 := by
    unfold Bound.dir
    split
    · split_ifs <;> simp
    · simp
    · simp
  have habs : ∀ x : K, 0 < x → |copySign x (a.tb.dir a.t0)| = x := by
    intro x hx
    unfold copySign
    split_ifs
    · rw [abs_neg, abs_of_pos hx]
    · rw [abs_of_pos hx]
  refine ⟨⟨hdir, by simp only [swInitCfg]; positivity, hm, h1, h2, h3, hk1⟩, hk2, ⟨h0, _, _, rfl, ?_, ?_⟩, rfl, hk, rfl,
    by simp only [swInitCfg]; ring, rfl, rfl, ⟨rtol, atol, hv, rfl⟩, ?_, ?_, ?_⟩
  · simp only [swInitCfg]
    rcases swFirstStep_ok.mp hf with ⟨e1, e2⟩ | ⟨x, e1, hx, -, e2⟩
    · have := hh e1 rtol atol
      rw [← e2] at this
      exact this
    · rw [(Prod.mk.inj e2).1, dir_copySign hdir]; exact hx
  · intro x hx
    rcases swFirstStep_ok.mp hf with ⟨e1, -⟩ | ⟨x', e1, hx', -, e2⟩
    · rw [hx] at e1; cases e1
    · rw [hx] at e1
      injection e1 with e1
      rw [(Prod.mk.inj e2).1, (Prod.mk.inj e2).2, habs x' hx']
      exact ⟨e1.symm, rfl⟩
  · intro b hb
    simp only [swInitCfg]
    rw [hb]
    refine ⟨rfl, ?_⟩
    unfold Bound.dir
    dsimp only
    split_ifs with h
    · nlinarith
    · push Not at h; nlinarith
  · intro hb; simp only [swInitCfg]; rw [hb]; exact ⟨rfl, rfl⟩
  · intro hb; simp only [swInitCfg]; rw [hb]; exact ⟨rfl, rfl⟩

/-- **C98.** The interval handed to `h_start` by `SWAG` ends at `t_bound` or after `max_step`. -/
theorem C98_swag_h_start_end (hm : ∀ m, a.maxStep = some m → 0 < m) :
    swHStartEnd a = hStartEnd (⟨a.t0, a.y0, a.n, a.tb, a.maxStep, a.rtol, a.atol, a.firstStep, .int 0, .falsy, true⟩ : InitArgs K V) ∧
    ∀ b, swHStartEnd a = some b → a.maxStep = some |b - a.t0| ∨ a.tb = .num b := by
  have e : swHStartEnd a =
      hStartEnd (⟨a.t0, a.y0, a.n, a.tb, a.maxStep, a.rtol, a.atol, a.firstStep, .int 0, .falsy, true⟩ : InitArgs K V) := by
    unfold swHStartEnd hStartEnd
    congr 1
    funext d
    have hdir : a.tb.dir a.t0 = 1 ∨ a.tb.dir a.t0 = -1 := by
      unfold Bound.dir
      split
      · split_ifs <;> simp
      · simp
      · simp
    rcases hdir with h | h <;> simp [copySign, h] <;> norm_num
  refine ⟨e, ?_⟩
  rw [e]
  exact (C96_h_start_end_reached (a := (⟨a.t0, a.y0, a.n, a.tb, a.maxStep, a.rtol, a.atol, a.firstStep, .int 0, .falsy, true⟩ : InitArgs K V)) hm).1

end

/-! ## Concrete cases -/

/-- Machine constants of double precision. -/
noncomputable def exCMachine : CMachine ℝ :=
  ⟨1 / 2 ^ 53, 1 / 2 ^ 511, 1 / 2 ^ 52, 2 ^ 512, Real.sqrt, fun x e => x ^ e, fun x => ⌊x + 1 / 2⌋₊⟩

/-- `y' = -2 y`, with its spectral radius. -/
noncomputable def exCExt : CExt ℝ ℝ where
  rhs := fun _ y => -2 * y
  stg := fun _ y f h _ => y + h * f
  rho := fun _ _ _ _ => ⟨some 2, 1, none⟩
  errNorm := fun _ _ e _ _ => .num |e|
  est0 := fun _ _ e _ => .num |e|

/-- `SSV2stab(fun, 0, [1], b, rtol=1e-3, atol=1e-6, rho_jac=lambda t, y: 2.)`. -/
noncomputable def exCArgs (b : Bound ℝ) (first : Option ℝ) : CArgs ℝ ℝ :=
  ⟨0, 1, 1, b, none, .float (.num (1 / 1000)), .scalar (.num (1 / 1000000)), first, some false, .call fun _ _ => some 2⟩

theorem exCommon (b : Bound ℝ) (first : Option ℝ) (hf : ∀ x, first = some x → 0 < x ∧ ∀ c, b = .num c → x ≤ |c - 0|) :
    CommonOK (0 : ℝ) 1 b none (.float (.num (1 / 1000))) (.scalar (.num (1 / 1000000))) first where
  maxStep := fun m h => by cases h
  shape := fun h => h
  atol := fun x hx => by
    simp only [AtolArg.entries, List.mem_singleton] at hx
    rw [hx]
    simp [Negative]
  rtol := ⟨_, rfl, by simp [Negative]⟩
  first := hf

example : (∃ c v, chebNew exCMachine exCExt (exCArgs (.num 10) (some 1)) = .ok (c, v) ∧ ChebStart c 0 (some 1) ∧
      c.maxStep = 10) ∧
    (∃ c v, chebNew exCMachine exCExt (exCArgs .negInf none) = .ok (c, v) ∧ ∀ t yn fn sprad,
      10 * (1 / 2 ^ 52) * 2 ^ 512 ≤ chebInit c t yn fn sprad) := by
  have hX : CExtOK exCExt := ⟨fun _ _ _ _ x h => by
    simp only [exCExt, Option.some.injEq] at h; linarith, fun _ _ e _ _ x h => by
    simp only [exCExt, ENorm.num.injEq] at h; rw [← h]; exact abs_nonneg _⟩
  constructor
  · obtain ⟨⟨c, v⟩, h⟩ := (C98_cheb_accepted_iff (M := exCMachine) (X := exCExt) (a := exCArgs (.num 10) (some 1))).mpr
      ⟨exCommon _ _ fun x hx => by
        injection hx with hx
        refine ⟨by rw [← hx]; norm_num, fun c hc => ?_⟩
        injection hc with hc
        rw [← hx, ← hc]; norm_num, (by intro h; cases h), ⟨_, rfl⟩, Or.inr ⟨_, 2, rfl, rfl, by norm_num⟩⟩
    have hr := C98_cheb_ready h hX (by intro h; simp only [exCArgs, Bound.num.injEq] at h; norm_num at h)
      (by simp only [exCMachine]; positivity) (by simp only [exCMachine]; positivity) (by simp only [exCMachine]; positivity)
      Real.sqrt_nonneg PowUp.rpow (fun f hf t y x hx => by
        simp only [exCArgs, RhoArg.call.injEq] at hf
        rw [← hf] at hx
        simp only [Option.some.injEq] at hx
        linarith)
    refine ⟨c, v, h, hr.1, ?_⟩
    obtain ⟨-, h2⟩ := hr.2.2.2.2.1 10 rfl
    have h3 := hr.2.2.2.2.2.1
    simp only [exCArgs, sub_zero] at h2 h3
    rcases h3 with h3 | h3 | ⟨b, hb, h3⟩
    · rw [h3] at h2
      simp only [exCMachine] at h2
      rw [abs_of_pos (by norm_num)] at h2
      exact absurd h2 (not_le.mpr (lt_of_lt_of_le (by norm_num : (10 : ℝ) < 2 ^ 4)
        (pow_le_pow_right₀ (by norm_num) (by norm_num))))
    · cases h3
    · injection hb with hb
      rw [h3, ← hb]
      norm_num
  · obtain ⟨⟨c, v⟩, h⟩ := (C98_cheb_accepted_iff (M := exCMachine) (X := exCExt) (a := exCArgs .negInf none)).mpr
      ⟨exCommon _ _ (fun x hx => by cases hx), (by intro h; cases h), ⟨_, rfl⟩, Or.inr ⟨_, 2, rfl, rfl, by norm_num⟩⟩
    exact ⟨c, v, h, fun t yn fn sprad => C98_cheb_minus_infinity h rfl rfl (by simp only [exCMachine]; positivity)
      (by simp only [exCMachine]; norm_num) (by simp only [exCMachine]; positivity) t yn fn sprad⟩

/-- `SWAG(fun, 0, [1], -10, rtol=1e-3, atol=1e-6, first_step=1, k_max=k)` for `y' = -2 y`. -/
noncomputable def exSArgs (k : ℤ) : SArgs ℝ ℝ :=
  ⟨0, 1, 1, .num (-10), none, .float (.num (1 / 1000)), .scalar (.num (1 / 1000000)), some 1, .int k⟩

noncomputable def exSExt : SExt ℝ ℝ where
  rhs := fun _ y => -2 * y
  gstr := fun _ => 1
  scale := fun _ _ _ _ e => .num |e|
  wt0 := fun _ _ _ e _ => .num |e|
  hs := fun _ _ _ => (-1, 1)
  phi0 := fun _ => 0
  co0 := ⟨fun _ => 0, fun _ => 0, fun _ => 0, fun _ => 0, fun _ => 0, fun _ => 0, fun _ => 0, fun _ => 0, fun _ => 0, 0, 0, 0⟩

noncomputable def exSMachine : SMachine ℝ := ⟨1 / 2 ^ 53, 1 / 2 ^ 511, 1 / 2 ^ 53, Real.sqrt, fun x e => x ^ e⟩

example : (¬ ∃ q, swNew exSMachine exSExt (exSArgs 13) = .ok q) ∧
    ∃ c v, swNew exSMachine exSExt (exSArgs 7) = .ok (c, v) ∧ SwOK c ∧ c.kMax = 7 ∧ c.dir = -1 ∧ v.st.h = -1 := by
  constructor
  · rw [C98_swag_accepted_iff]
    rintro ⟨-, k, hk, -, h⟩
    simp only [exSArgs, StiffArg.int.injEq] at hk
    omega
  · obtain ⟨⟨c, v⟩, h⟩ := (C98_swag_accepted_iff (M := exSMachine) (X := exSExt) (a := exSArgs 7)).mpr
      ⟨exCommon _ _ fun x hx => by
        injection hx with hx
        refine ⟨by rw [← hx]; norm_num, fun c hc => ?_⟩
        injection hc with hc
        rw [← hx, ← hc]; norm_num, 7, rfl, by norm_num, by norm_num⟩
    have hr := C98_swag_ready h (by simp only [exSMachine]; positivity) (fun x hx => Real.sqrt_pos.mpr hx) Real.sqrt_zero
      (fun x _ h => by
        simp only [exSMachine]
        rw [Real.sqrt_le_left (by norm_num)]
        linarith) (fun h => by cases h)
    obtain ⟨k1, -, ⟨h0, w, nf, k2, k3, k4⟩, -, k5, -, -, -, -, -, k6, -⟩ := hr
    have hd : c.dir = -1 := by
      rcases k1.dir with hd | hd
      · have := (k6 (-10) rfl).2
        simp only [exSArgs] at this
        rw [hd] at this
        norm_num at this
      · exact hd
    refine ⟨c, v, h, k1, ?_, hd, ?_⟩
    · simp only [exSArgs, StiffArg.int.injEq] at k5
      omega
    · rw [k2]
      have := (k4 1 rfl).1
      simp only [newSwag]
      rw [hd] at k3
      rcases abs_cases h0 with ⟨e, e'⟩ | ⟨e, e'⟩ <;> linarith

end Extensisq
