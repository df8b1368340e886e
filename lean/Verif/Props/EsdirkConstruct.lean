import Verif.Model.EsdirkConstruct
import Verif.Props.Construct
import Verif.Props.Esdirk
import Verif.Props.EsdirkInit

/-!
# C97: construction of ESDIRK solvers
-/

set_option linter.unusedSectionVars false

namespace Extensisq
open Matrix

section
variable {K : Type*} [Field K] [LinearOrder K] [IsStrictOrderedRing K] {n : ℕ}

/-! ## Specification -/

/-- An array of shape `(n, n)` with these entries. -/
def IsSquare (n : ℕ) (a : Arr K) (M : Matrix (Fin n) (Fin n) K) : Prop := a = .mat n n M

/-- An accepted `jac`: nothing, a function with a value of shape `(n, n)` at the initial point, or such an array. -/
def JacAllowed (t0 : K) (y0 : Fin n → K) (j : JacArg K n) : Prop :=
  j = .none ∨ (∃ f J, j = .call f ∧ IsSquare n (f 0 t0 y0) J) ∨ ∃ a J, j = .arr a ∧ IsSquare n a J

/-- The mass matrix an argument `M` stands for: the identity, a diagonal given as a vector, or the matrix. -/
def MassOf (n : ℕ) (m : Option (Arr K)) (M : Matrix (Fin n) (Fin n) K) : Prop :=
  (m = none ∧ M = 1) ∨ (∃ v, m = some (.vec n v) ∧ M = diagonal v) ∨ m = some (.mat n n M)

/-- The arguments `__init__` can check before it solves anything. -/
structure EArgsOK (a : EArgs K n) : Prop where
  maxStep : ∀ m, a.maxStep = some m → 0 < m
  shape : ¬ WrongShape (n + 1) a.atol
  atol : ∀ x ∈ a.atol.entries, ¬ Negative x
  rtol : ∃ r, a.rtol = .float r ∧ ¬ Negative r
  dtype : a.dtypeOK = true
  sc : ScAllowed a.sc
  jac : JacAllowed a.t0 a.y0 a.jac
  mass : ∃ M, MassOf (n + 1) a.M M
  first : ∀ x, a.firstStep = some x → 0 < x ∧ ∀ b, a.tb = .num b → x ≤ |b - a.t0|

/-! ## Parts -/

theorem square_iff {a : Arr K} {M : Matrix (Fin n) (Fin n) K} : a.square n = some M ↔ IsSquare n a M := by
  unfold IsSquare
  cases a with
  | scalar x => simp [Arr.square]
  | vec m v => simp [Arr.square]
  | higher => simp [Arr.square]
  | mat r c b =>
    unfold Arr.square
    dsimp only
    by_cases h : n = r ∧ n = c
    · obtain ⟨rfl, rfl⟩ := h
      rw [dif_pos ⟨rfl, rfl⟩]
      constructor
      · intro h
        injection h with h
        rw [← h]
        rfl
      · intro h
        injection h with _ _ h
        rw [h]
        rfl
    · rw [dif_neg h]
      constructor
      · intro h; cases h
      · intro h'
        injection h' with h1 h2
        exact absurd ⟨h1.symm, h2.symm⟩ h

theorem massMatrix_iff {a : Arr K} {M : Matrix (Fin n) (Fin n) K} :
    massMatrix n a = .ok M ↔ (∃ v, a = .vec n v ∧ M = diagonal v) ∨ a = .mat n n M := by
  cases a with
  | scalar x => simp [massMatrix]
  | higher => simp [massMatrix]
  | vec m v =>
    unfold massMatrix
    dsimp only
    by_cases h : n = m
    · subst h
      rw [dif_pos rfl]
      constructor
      · intro h; injection h with h; exact Or.inl ⟨v, rfl, h.symm⟩
      · rintro (⟨w, h1, h2⟩ | h)
        · injection h1 with _ h1; rw [h2, ← h1]; rfl
        · cases h
    · rw [dif_neg h]
      constructor
      · intro h; cases h
      · rintro (⟨w, h1, -⟩ | h')
        · injection h1 with h1; exact absurd h1.symm h
        · cases h'
  | mat r c b =>
    unfold massMatrix
    dsimp only
    by_cases h : n = r ∧ n = c
    · obtain ⟨rfl, rfl⟩ := h
      rw [dif_pos ⟨rfl, rfl⟩]
      constructor
      · intro h; injection h with h; right; rw [← h]; rfl
      · rintro (⟨w, h1, -⟩ | h)
        · cases h1
        · injection h with _ _ h; rw [h]; rfl
    · rw [dif_neg h]
      constructor
      · intro h; cases h
      · rintro (⟨w, h1, -⟩ | h')
        · cases h1
        · injection h' with h1 h2
          exact absurd ⟨h1.symm, h2.symm⟩ h

theorem handleM_ok {svd : Matrix (Fin (n + 1)) (Fin (n + 1)) K → Fin (n + 1) → K} {eps : K} {m : Option (Arr K)}
    {M : Matrix (Fin (n + 1)) (Fin (n + 1)) K} {dae : Bool} :
    handleM svd eps m = .ok (M, dae) ↔
      MassOf (n + 1) m M ∧ dae = (if m = none then false else isDAE (svd M) eps) := by
  unfold MassOf
  cases m with
  | none =>
    simp only [handleM, Except.ok.injEq, Prod.mk.injEq, true_and, reduceCtorEq, false_and, exists_false, or_false, if_true]
    constructor <;> rintro ⟨h1, h2⟩ <;> exact ⟨h1.symm, h2.symm⟩
  | some a =>
    simp only [handleM, reduceCtorEq, false_and, false_or, if_false, Option.some.injEq]
    rw [← massMatrix_iff]
    cases hm : massMatrix (n + 1) a with
    | error e => simp [Except.map]
    | ok M' =>
      simp only [Except.map, Except.ok.injEq, Prod.mk.injEq]
      constructor
      · rintro ⟨rfl, rfl⟩; exact ⟨rfl, rfl⟩
      · rintro ⟨rfl, rfl⟩; exact ⟨rfl, rfl⟩

theorem validateJac_ok {num : ℕ → K → (Fin n → K) → Matrix (Fin n) (Fin n) K} {t0 : K} {y0 : Fin n → K} {j : JacArg K n}
    {f : Option (ℕ → K → (Fin n → K) → Matrix (Fin n) (Fin n) K)} {J : Matrix (Fin n) (Fin n) K} {k : ℕ} :
    validateJac num t0 y0 j = .ok (f, J, k) ↔
      (j = .none ∧ f = some num ∧ J = num 0 t0 y0 ∧ k = 1) ∨
      (∃ g, j = .call g ∧ IsSquare n (g 0 t0 y0) J ∧ f = some (fun k t y => ((g k t y).square n).getD 0) ∧ k = 1) ∨
      (∃ a, j = .arr a ∧ IsSquare n a J ∧ f = none ∧ k = 0) := by
  cases j with
  | none =>
    simp only [validateJac, Except.ok.injEq, Prod.mk.injEq, true_and, reduceCtorEq, false_and, exists_false, or_false]
    constructor <;> rintro ⟨h1, h2, h3⟩ <;> exact ⟨h1.symm, h2.symm, h3.symm⟩
  | call g =>
    simp only [validateJac, reduceCtorEq, false_and, exists_false, or_false, false_or, JacArg.call.injEq, exists_eq_left']
    cases hs : (g 0 t0 y0).square n with
    | none =>
      constructor
      · intro h; cases h
      · rintro ⟨h, -⟩; rw [← square_iff, hs] at h; cases h
    | some J' =>
      simp only [Except.ok.injEq, Prod.mk.injEq]
      rw [← square_iff, hs]
      constructor
      · rintro ⟨h1, h2, h3⟩; exact ⟨by rw [h2], h1.symm, h3.symm⟩
      · rintro ⟨h1, h2, h3⟩; injection h1 with h1; exact ⟨h2.symm, h1, h3.symm⟩
  | arr a =>
    simp only [validateJac, reduceCtorEq, false_and, exists_false, false_or, JacArg.arr.injEq, exists_eq_left']
    cases hs : a.square n with
    | none =>
      constructor
      · intro h; cases h
      · rintro ⟨h, -⟩; rw [← square_iff, hs] at h; cases h
    | some J' =>
      simp only [Except.ok.injEq, Prod.mk.injEq]
      rw [← square_iff, hs]
      constructor
      · rintro ⟨h1, h2, h3⟩; exact ⟨by rw [h2], h1.symm, h3.symm⟩
      · rintro ⟨h1, h2, h3⟩; injection h1 with h1; exact ⟨h2.symm, h1, h3.symm⟩

theorem eScAllowed_iff (pw : K → K → K) (e : K) {s : String} (hs : KnownName s) (a : ScArg K) :
    (initScControl coefsESDIRK pw e (.str s) a).isSome ↔ ScAllowed a := by
  rw [C13_accepted_iff coefsESDIRK rfl]
  have hd : ((coefsESDIRK s : Option (K × K × K × K)).isSome) := (C13_names (K := K) s).2.mpr hs
  constructor
  · rintro (⟨u, rfl, hu⟩ | ⟨p, q, r, g, rfl⟩ | ⟨h, -⟩)
    · exact Or.inr (Or.inl ⟨u, rfl, (C13_names (K := K) u).2.mp hu⟩)
    · exact Or.inr (Or.inr ⟨p, q, r, g, rfl⟩)
    · exact Or.inl h
  · rintro (h | ⟨u, rfl, hu⟩ | ⟨p, q, r, g, rfl⟩)
    · exact Or.inr (Or.inr ⟨h, Or.inl ⟨s, rfl, hd⟩⟩)
    · exact Or.inl ⟨u, rfl, (C13_names (K := K) u).2.mpr hu⟩
    · exact Or.inr (Or.inl ⟨p, q, r, g, rfl⟩)

theorem eFirstStep_ok {hs : Option K → Option K} {a : EArgs K n} {h0 : K} : eFirstStep hs a = .ok h0 ↔
    (a.firstStep = none ∧ ∃ h, hs (eHStartEnd a) = some h ∧ h0 = |h|) ∨
    (a.firstStep = some h0 ∧ 0 < h0 ∧ ∀ b, a.tb = .num b → h0 ≤ |b - a.t0|) := by
  unfold eFirstStep
  cases hf : a.firstStep with
  | none =>
    simp only [true_and, reduceCtorEq, false_and, or_false]
    cases hh : hs (eHStartEnd a) with
    | none => simp
    | some h =>
      simp only [Except.ok.injEq, Option.some.injEq, exists_eq_left']
      exact eq_comm
  | some x =>
    simp only [reduceCtorEq, false_and, false_or, Option.some.injEq]
    cases hv : validateFirstStep x a.t0 a.tb with
    | ok h =>
      obtain ⟨e, h1, h2⟩ := validateFirstStep_ok.mp hv
      simp only [Except.ok.injEq]
      constructor
      · intro e'; rw [← e', e]; exact ⟨rfl, h1, h2⟩
      · rintro ⟨e', -, -⟩; rw [e, e']
    | error e =>
      have hno : ¬ (0 < x ∧ ∀ b, a.tb = .num b → x ≤ |b - a.t0|) := by
        intro h
        rw [validateFirstStep_ok.mpr (⟨rfl, h.1, h.2⟩ : x = x ∧ 0 < x ∧ ∀ c, a.tb = .num c → x ≤ |c - a.t0|)] at hv
        cases hv
      constructor
      · intro h; split at h <;> simp_all
      · rintro ⟨rfl, h⟩; exact absurd h hno

variable {Mc : EMachine K} {d : EClassData K} {X : EExt K n} {a : EArgs K n}

theorem eMaxStep_any : a.maxStep.any (fun m => decide (m ≤ 0)) = true ↔ ¬ ∀ m, a.maxStep = some m → 0 < m := by
  rw [Option.any_eq_true]
  push Not
  constructor
  · rintro ⟨m, h1, h2⟩; exact ⟨m, h1, by simpa using h2⟩
  · rintro ⟨m, h1, h2⟩; exact ⟨m, h1, by simpa using h2⟩

/-- The parts of a successful construction. -/
theorem eInit_ok {r : ECfg K (Fin (n + 1) → K) × ESolver K (Fin (n + 1) → K)} : eInit Mc d X a = .ok r ↔
    (∀ m, a.maxStep = some m → 0 < m) ∧ a.dtypeOK = true ∧
    ∃ rtol atol p jac J0 njev M dae y yp J h0,
      validateTol Mc.epsneg Mc.sqrtTiny (n + 1) a.rtol a.atol = .ok (rtol, atol) ∧
      initScControl coefsESDIRK Mc.pw (eErrExpOf d) d.sc a.sc = some p ∧
      validateJac X.num a.t0 a.y0 a.jac = .ok (jac, J0, njev) ∧
      handleM X.svd Mc.eps a.M = .ok (M, dae) ∧
      eInitialValues X a M dae J0 = .ok (y, yp, J) ∧
      eFirstStep (X.hs dae rtol atol M) a = .ok h0 ∧
      r = (eInitCfg Mc d X a rtol atol p jac M dae, newESolver a.t0 y yp J.mulVecLin h0 X.Ks0 1 njev) := by
  unfold eInit
  constructor
  · intro h
    split at h
    · cases h
    · rename_i hm
      split at h
      · cases h
      · rename_i rtol atol hv
        split at h
        · cases h
        · rename_i hd
          split at h
          · cases h
          · rename_i p hp
            split at h
            · cases h
            · rename_i jac J0 njev hj
              split at h
              · cases h
              · rename_i M dae hM
                split at h
                · cases h
                · rename_i y yp J hy
                  split at h
                  · cases h
                  · rename_i h0 hh
                    injection h with h
                    exact ⟨not_not.mp (mt eMaxStep_any.mpr hm), by simpa using hd, rtol, atol, p, jac, J0, njev, M, dae, y, yp, J, h0,
                      hv, hp, hj, hM, hy, hh, h.symm⟩
  · rintro ⟨h1, h2, rtol, atol, p, jac, J0, njev, M, dae, y, yp, J, h0, hv, hp, hj, hM, hy, hh, rfl⟩
    rw [if_neg (by rw [eMaxStep_any]; exact not_not.mpr h1), hv]
    dsimp only
    rw [h2]
    simp only [Bool.not_true, Bool.false_eq_true, if_false]
    rw [hp]
    dsimp only
    rw [hj]
    dsimp only
    rw [hM]
    dsimp only
    rw [hy]
    dsimp only
    rw [hh]

/-! ## C97 -/

/-- **C97.** An ESDIRK method is constructed exactly for the arguments described by `EArgsOK`, if the initial values of a
DAE can be made consistent and (without `first_step`) `h_start` does not raise. -/
theorem C97_accepted_iff {s : String} (hsc : d.sc = .str s) (hs' : KnownName s) :
    (∃ r, eInit Mc d X a = .ok r) ↔ EArgsOK a ∧
      ∀ rtol atol jac J0 njev M dae, validateTol Mc.epsneg Mc.sqrtTiny (n + 1) a.rtol a.atol = .ok (rtol, atol) →
        validateJac X.num a.t0 a.y0 a.jac = .ok (jac, J0, njev) → handleM X.svd Mc.eps a.M = .ok (M, dae) →
        (dae = true → ∃ r, X.ics M J0 = .ok r) ∧
        (a.firstStep = none → ∃ h, X.hs dae rtol atol M (eHStartEnd a) = some h) := by
  constructor
  · rintro ⟨r, hr⟩
    obtain ⟨h1, h2, rtol, atol, p, jac, J0, njev, M, dae, y, yp, J, h0, hv, hp, hj, hM, hy, hh, -⟩ := eInit_ok.mp hr
    obtain ⟨t1, t2, t3⟩ := validateTol_ok.mp ⟨_, hv⟩
    refine ⟨⟨h1, t1, t2, t3, h2, ?_, ?_, ⟨M, (handleM_ok.mp hM).1⟩, ?_⟩, ?_⟩
    · rw [← eScAllowed_iff Mc.pw (eErrExpOf d) hs', ← hsc, hp]; rfl
    · rcases validateJac_ok.mp hj with ⟨h, -⟩ | ⟨g, h, h', -⟩ | ⟨b, h, h', -⟩
      · exact Or.inl h
      · exact Or.inr (Or.inl ⟨g, J0, h, h'⟩)
      · exact Or.inr (Or.inr ⟨b, J0, h, h'⟩)
    · intro x hx
      rcases eFirstStep_ok.mp hh with ⟨h, -⟩ | ⟨h, h'⟩
      · rw [hx] at h; cases h
      · rw [hx] at h; injection h with h; rw [h]; exact h'
    · intro rtol' atol' jac' J0' njev' M' dae' e1 e2 e3
      rw [hv] at e1; rw [hj] at e2; rw [hM] at e3
      injection e1 with e1; injection e2 with e2; injection e3 with e3
      simp only [Prod.mk.injEq] at e1 e2 e3
      obtain ⟨rfl, rfl⟩ := e1
      obtain ⟨rfl, rfl, rfl⟩ := e2
      obtain ⟨rfl, rfl⟩ := e3
      refine ⟨fun hd => ?_, fun hf => ?_⟩
      · unfold eInitialValues at hy
        rw [if_pos hd] at hy
        exact ⟨_, hy⟩
      · rcases eFirstStep_ok.mp hh with ⟨-, h, h', -⟩ | ⟨h, -⟩
        · exact ⟨h, h'⟩
        · rw [hf] at h; cases h
  · rintro ⟨h, hall⟩
    obtain ⟨⟨rtol, atol⟩, e1⟩ := (validateTol_ok (epsneg := Mc.epsneg) (sqrtTiny := Mc.sqrtTiny)).mpr ⟨h.shape, h.atol, h.rtol⟩
    have e2 := (eScAllowed_iff Mc.pw (eErrExpOf d) hs' a.sc).mpr h.sc
    rw [← hsc] at e2
    obtain ⟨p, e2⟩ := Option.isSome_iff_exists.mp e2
    obtain ⟨M, hM⟩ := h.mass
    have e4 := (handleM_ok (svd := X.svd) (eps := Mc.eps)).mpr ⟨hM, rfl⟩
    obtain ⟨⟨jac, J0, njev⟩, e3⟩ : ∃ q, validateJac X.num a.t0 a.y0 a.jac = .ok q := by
      rcases h.jac with h | ⟨f, J, h, h'⟩ | ⟨b, J, h, h'⟩
      · exact ⟨(some X.num, X.num 0 a.t0 a.y0, 1), validateJac_ok.mpr (Or.inl ⟨h, rfl, rfl, rfl⟩)⟩
      · exact ⟨(_, J, 1), validateJac_ok.mpr (Or.inr (Or.inl ⟨f, h, h', rfl, rfl⟩))⟩
      · exact ⟨(none, J, 0), validateJac_ok.mpr (Or.inr (Or.inr ⟨b, h, h', rfl, rfl⟩))⟩
    obtain ⟨k1, k2⟩ := hall rtol atol jac J0 njev M _ e1 e3 e4
    obtain ⟨⟨y, yp, J⟩, e5⟩ : ∃ q, eInitialValues X a M (if a.M = none then false else isDAE (X.svd M) Mc.eps) J0 = .ok q := by
      unfold eInitialValues
      generalize (if a.M = none then false else isDAE (X.svd M) Mc.eps) = dae at k1 ⊢
      cases dae with
      | true => exact k1 rfl
      | false => exact ⟨_, rfl⟩
    obtain ⟨h0, e6⟩ : ∃ h0, eFirstStep (X.hs (if a.M = none then false else isDAE (X.svd M) Mc.eps) rtol atol M) a = .ok h0 := by
      cases hf : a.firstStep with
      | none =>
        obtain ⟨h, hh⟩ := k2 hf
        exact ⟨|h|, eFirstStep_ok.mpr (Or.inl ⟨hf, h, hh, rfl⟩)⟩
      | some x => exact ⟨x, eFirstStep_ok.mpr (Or.inr ⟨hf, h.first x hf⟩)⟩
    exact ⟨_, eInit_ok.mpr ⟨h.maxStep, h.dtype, rtol, atol, p, jac, J0, njev, M, _, y, yp, J, h0, e1, e2, e3, e4, e5, e6, rfl⟩⟩

/-- **C97.** The linear mode is chosen exactly if `jac` is an array; a Jacobian function has then been called once, in linear mode
never, and the right-hand side is counted once. The stored Jacobian of an ODE is the array, or the value of the function at the
initial point. -/
theorem C97_jacobian_mode {c : ECfg K (Fin (n + 1) → K)} {v : ESolver K (Fin (n + 1) → K)} (h : eInit Mc d X a = .ok (c, v)) :
    (c.linear = true ↔ ∃ b, a.jac = .arr b) ∧ v.st.nfev = 1 ∧ v.st.nlu = 0 ∧ v.st.njev = (if c.linear then 0 else 1) ∧
    (c.dae = false → (a.jac = .none → v.st.J = (X.num 0 a.t0 a.y0).mulVecLin) ∧
      (∀ f, a.jac = .call f → ∃ J, IsSquare (n + 1) (f 0 a.t0 a.y0) J ∧ v.st.J = J.mulVecLin) ∧
      (∀ b, a.jac = .arr b → ∃ J, IsSquare (n + 1) b J ∧ v.st.J = J.mulVecLin)) ∧
    (∀ f jac, a.jac = .call f → c.jac = some jac → ∀ k t y J, IsSquare (n + 1) (f k t y) J → jac k t y = J.mulVecLin) := by
  obtain ⟨h1, h2, rtol, atol, p, jac, J0, njev, M, dae, y, yp, J, h0, hv, hp, hj, hM, hy, hh, e⟩ := eInit_ok.mp h
  obtain ⟨rfl, rfl⟩ := Prod.mk.inj e
  have hJ : dae = false → J = J0 := by
    intro hd
    unfold eInitialValues at hy
    rw [hd] at hy
    simp only [Bool.false_eq_true, if_false, Except.ok.injEq, Prod.mk.injEq] at hy
    exact hy.2.2.symm
  rcases validateJac_ok.mp hj with ⟨e1, e2, e3, e4⟩ | ⟨g, e1, e2, e3, e4⟩ | ⟨b, e1, e2, e3, e4⟩
  · have hl : (eInitCfg Mc d X a rtol atol p jac M dae).linear = false := by rw [e2]; rfl
    rw [hl, e1]
    refine ⟨⟨fun h => (by cases h), fun ⟨b, h⟩ => (by cases h)⟩, rfl, rfl, e4, ?_, fun f jac h => (by cases h)⟩
    intro hd
    refine ⟨fun _ => ?_, fun f h => (by cases h), fun f h => (by cases h)⟩
    simp only [newESolver]
    rw [hJ hd, e3]
  · have hl : (eInitCfg Mc d X a rtol atol p jac M dae).linear = false := by rw [e3]; rfl
    rw [hl, e1]
    refine ⟨⟨fun h => (by cases h), fun ⟨b, h⟩ => (by cases h)⟩, rfl, rfl, e4, ?_, ?_⟩
    · intro hd
      refine ⟨fun h => (by cases h), fun f h => ?_, fun f h => (by cases h)⟩
      injection h with h
      refine ⟨J0, by rw [← h]; exact e2, ?_⟩
      simp only [newESolver]
      rw [hJ hd]
    · intro f jac' h hj' k t y' J' hJ'
      injection h with h
      rw [← h] at hJ'
      have : jac' = fun k t y => (((g k t y).square (n + 1)).getD 0).mulVecLin := by
        simp only [eInitCfg, e3, Option.map_some, Option.some.injEq] at hj'
        exact hj'.symm
      rw [this]
      dsimp only
      rw [square_iff.mpr hJ']
      rfl
  · have hl : (eInitCfg Mc d X a rtol atol p jac M dae).linear = true := by rw [e3]; rfl
    rw [hl, e1]
    refine ⟨⟨fun _ => ⟨b, rfl⟩, fun _ => rfl⟩, rfl, rfl, e4, ?_, fun f jac h => (by cases h)⟩
    intro hd
    refine ⟨fun h => (by cases h), fun f h => (by cases h), fun b' h => ?_⟩
    injection h with h
    refine ⟨J0, by rw [← h]; exact e2, ?_⟩
    simp only [newESolver]
    rw [hJ hd]

/-- **C97.** The mass matrix in use is the one the argument stands for, and a solver is treated as a DAE only if `M` was given and
has a singular value below the threshold. -/
theorem C97_mass_matrix {c : ECfg K (Fin (n + 1) → K)} {v : ESolver K (Fin (n + 1) → K)} (h : eInit Mc d X a = .ok (c, v)) :
    ∃ M, MassOf (n + 1) a.M M ∧ c.M = M.mulVecLin ∧
      (c.dae = true ↔ a.M ≠ none ∧ ∃ i, X.svd M i < X.svd M 0 * ((n + 1 : ℕ) : K) ^ 2 * Mc.eps) := by
  obtain ⟨h1, h2, rtol, atol, p, jac, J0, njev, M, dae, y, yp, J, h0, hv, hp, hj, hM, hy, hh, e⟩ := eInit_ok.mp h
  obtain ⟨rfl, rfl⟩ := Prod.mk.inj e
  obtain ⟨k1, k2⟩ := handleM_ok.mp hM
  refine ⟨M, k1, rfl, ?_⟩
  change dae = true ↔ _
  rw [k2]
  split_ifs with hn
  · simp [hn]
  · unfold isDAE nAE condLim
    rw [decide_eq_true_eq, Finset.card_pos]
    simp only [hn, ne_eq, not_false_eq_true, true_and]
    constructor
    · rintro ⟨i, hi⟩; exact ⟨i, (Finset.mem_filter.mp hi).2⟩
    · rintro ⟨i, hi⟩; exact ⟨i, Finset.mem_filter.mpr ⟨Finset.mem_univ _, hi⟩⟩

/-- **C97.** The forms of the same mass matrix give the same solver: a vector and the diagonal matrix with its entries, and,
if the threshold is below one and numpy finds the singular values of the identity, no argument, a vector of ones and the
identity. -/
theorem C97_mass_forms (v : Fin (n + 1) → K) :
    eInit Mc d X { a with M := some (.vec (n + 1) v) } = eInit Mc d X { a with M := some (.mat (n + 1) (n + 1) (diagonal v)) } ∧
    ((∀ i, X.svd 1 i = 1) → ((n + 1 : ℕ) : K) ^ 2 * Mc.eps ≤ 1 →
      eInit Mc d X { a with M := some (.mat (n + 1) (n + 1) 1) } = eInit Mc d X { a with M := none } ∧
      eInit Mc d X { a with M := some (.vec (n + 1) fun _ => 1) } = eInit Mc d X { a with M := none }) := by
  have key : ∀ m1 m2 : Option (Arr K), handleM X.svd Mc.eps m1 = handleM X.svd Mc.eps m2 →
      eInit Mc d X { a with M := m1 } = eInit Mc d X { a with M := m2 } := by
    intro m1 m2 h
    unfold eInit
    dsimp only
    rw [h]
    rfl
  have hvec : ∀ w : Fin (n + 1) → K, massMatrix (n + 1) (.vec (n + 1) w) = .ok (diagonal w) := fun w =>
    massMatrix_iff.mpr (Or.inl ⟨w, rfl, rfl⟩)
  have hmat : ∀ M : Matrix (Fin (n + 1)) (Fin (n + 1)) K, massMatrix (n + 1) (.mat (n + 1) (n + 1) M) = .ok M := fun M =>
    massMatrix_iff.mpr (Or.inr rfl)
  refine ⟨key _ _ ?_, fun hs he => ?_⟩
  · simp only [handleM]
    rw [hvec, hmat]
  · have hdae : isDAE (X.svd 1) Mc.eps = false := by
      unfold isDAE nAE condLim
      rw [decide_eq_false_iff_not, Finset.card_pos]
      rintro ⟨i, hi⟩
      have := (Finset.mem_filter.mp hi).2
      rw [hs, hs, one_mul] at this
      exact absurd this (not_lt.mpr he)
    constructor
    · refine key _ _ ?_
      simp only [handleM]
      rw [hmat]
      simp only [Except.map, hdae]
    · refine key _ _ ?_
      simp only [handleM]
      rw [hvec, diagonal_one]
      simp only [Except.map, hdae]

/-- The safety factor of an accepted controller: 0.8, except for a tuple. -/
theorem eInitSc_safety {s : String} {p : ScParams K} {e : K} {sc : ScArg K}
    (h : initScControl coefsESDIRK Mc.pw e (.str s) sc = some p) :
    (∃ q1 q2, p.safetySc = Mc.pw p.safety (q1 + q2)) ∧
      (p.safety = 8 / 10 ∨ ∃ b1 b2 al g, sc = .tuple [b1, b2, al, g] ∧ p.safety = g) := by
  unfold initScControl at h
  simp only [Option.map_eq_some_iff] at h
  obtain ⟨⟨q1, q2, q3, q4⟩, h1, h2⟩ := h
  refine ⟨⟨q1, q2, by rw [← h2]⟩, ?_⟩
  have hname : ∀ u : String, coefsESDIRK u = some (q1, q2, q3, q4) → q4 = 8 / 10 := by
    intro u hu
    unfold coefsESDIRK at hu
    split at hu <;> simp_all
  rw [← h2]
  split_ifs at h1 with ht
  · cases sc with
    | falsy => simp [scSelect] at h1
    | other => simp [scSelect] at h1
    | str u => exact Or.inl (hname u h1)
    | tuple l =>
      match l, h1 with
      | [b1, b2, al, g], h1 =>
        simp only [scSelect, Option.some.injEq, Prod.mk.injEq] at h1
        exact Or.inr ⟨b1, b2, al, g, rfl, h1.2.2.2.symm⟩
      | [], h1 => simp [scSelect] at h1
      | [_], h1 => simp [scSelect] at h1
      | [_, _], h1 => simp [scSelect] at h1
      | [_, _, _], h1 => simp [scSelect] at h1
      | _ :: _ :: _ :: _ :: _ :: _, h1 => simp [scSelect] at h1
  · exact Or.inl (hname s h1)

/-- **C97.** A constructed solver is one to which the properties of the ESDIRK methods apply: its constants satisfy `ECfgOK` (for
`sc_params` given as a tuple this needs a safety factor in `(0, 1]`), it is a new solver at `t0` (with `y0` and the derivative
`yp0` of `M yp0 = f0`, or the consistent values of a DAE), `t_bound` is not behind it, and a given `first_step` is used. -/
theorem C97_ready {s : String} (hsc : d.sc = .str s) (he : 0 < Mc.epsneg) (ht : 0 < Mc.sqrtTiny)
    (hep : 0 < Mc.eps) (hpw : PowOK Mc.pw) {c : ECfg K (Fin (n + 1) → K)} {v : ESolver K (Fin (n + 1) → K)}
    (h : eInit Mc d X a = .ok (c, v)) (hg : ∀ b1 b2 al g, a.sc = .tuple [b1, b2, al, g] → 0 < g ∧ g ≤ 1)
    (hpos : a.firstStep ≠ none ∨ ∀ dae rtol atol M, X.hs dae rtol atol M (eHStartEnd a) ≠ some 0) :
    ECfgOK c ∧ IsNew v a.t0 v.st.y v.st.yp v.st.J ∧ c.T = d.T ∧ c.fn = X.fn ∧ c.jacEach = a.jacEach ∧
    (c.dae = false → ∃ M, MassOf (n + 1) a.M M ∧ v.st.y = a.y0 ∧ v.st.yp = X.solveM M) ∧
    (c.dae = true → ∃ M J0 J, MassOf (n + 1) a.M M ∧ X.ics M J0 = .ok (v.st.y, v.st.yp, J)) ∧
    c.maxStep = a.maxStep ∧ (∀ b, a.tb = .num b → c.tb = some b ∧ 0 ≤ c.dir * (b - v.st.t)) ∧
    (a.tb = .posInf → c.tb = none ∧ c.dir = 1) ∧ (a.tb = .negInf → c.tb = none ∧ c.dir = -1) ∧
    (∀ x, a.firstStep = some x → v.st.hAbs = x) ∧
    (∃ rtol atol, validateTol Mc.epsneg Mc.sqrtTiny (n + 1) a.rtol a.atol = .ok (rtol, atol) ∧
      c.dzNorm = X.dzNorm rtol atol ∧ c.errNorm = X.errNorm rtol atol) := by
  obtain ⟨h1, h2, rtol, atol, p, jac, J0, njev, M, dae, y, yp, J, h0, hv, hp, hj, hM, hy, hh, e⟩ := eInit_ok.mp h
  obtain ⟨rfl, rfl⟩ := Prod.mk.inj e
  rw [hsc] at hp
  obtain ⟨⟨q1, q2, hq⟩, hsafe⟩ := eInitSc_safety hp
  have hs01 : 0 < p.safety ∧ p.safety ≤ 1 := by
    rcases hsafe with h | ⟨b1, b2, al, g, h, hg'⟩
    · rw [h]; constructor <;> norm_num
    · rw [hg']; exact hg b1 b2 al g h
  have hdir : a.tb.dir a.t0 = 1 ∨ a.tb.dir a.t0 = -1 := by
    unfold Bound.dir
    split
    · split_ifs <;> simp
    · simp
    · simp
  have hh0 : 0 < h0 := by
    rcases eFirstStep_ok.mp hh with ⟨hf, h, hh', rfl⟩ | ⟨-, h, -⟩
    · rcases hpos with h' | h'
      · exact absurd hf h'
      · exact abs_pos.mpr fun e => h' dae rtol atol M (by rw [hh', e])
    · exact h
  refine ⟨?_, ⟨h0, X.Ks0, 1, njev, hh0, rfl⟩, rfl, rfl, rfl, ?_, ?_, rfl, ?_, ?_, ?_, ?_, ⟨rtol, atol, hv, rfl, rfl⟩⟩
  · refine ⟨hdir, ?_, ht, ?_, by simp only [eInitCfg]; norm_num, by simp only [eInitCfg]; norm_num, ?_, hs01.1, hs01.2, ?_, hpw, h1⟩
    · simp only [eInitCfg, hMinAOf]
      have := (C14_range d.C).1
      have : 0 < cdiff d.C := lt_of_lt_of_le (by norm_num) this
      positivity
    · simp only [eInitCfg, eTinyErr]
      exact mul_pos (hpw.pos _ _ (by positivity)) (hpw.pos _ _ hep)
    · simp only [eInitCfg, eErrExpOf]
      exact div_neg_of_neg_of_pos (by norm_num) (by positivity)
    · simp only [eInitCfg]
      rw [hq]
      exact hpw.pos _ _ hs01.1
  · intro hd
    change dae = false at hd
    unfold eInitialValues at hy
    rw [hd] at hy
    simp only [Bool.false_eq_true, if_false, Except.ok.injEq, Prod.mk.injEq] at hy
    exact ⟨M, (handleM_ok.mp hM).1, hy.1.symm, hy.2.1.symm⟩
  · intro hd
    change dae = true at hd
    unfold eInitialValues at hy
    rw [hd, if_pos rfl] at hy
    exact ⟨M, J0, J, (handleM_ok.mp hM).1, hy⟩
  · intro b hb
    refine ⟨by simp only [eInitCfg]; rw [hb]; rfl, ?_⟩
    simp only [eInitCfg, newESolver]
    rw [hb]
    unfold Bound.dir
    dsimp only
    split_ifs with h
    · nlinarith
    · push Not at h; nlinarith
  · intro hb
    simp only [eInitCfg]
    rw [hb]
    exact ⟨rfl, rfl⟩
  · intro hb
    simp only [eInitCfg]
    rw [hb]
    exact ⟨rfl, rfl⟩
  · intro x hx
    rcases eFirstStep_ok.mp hh with ⟨hf, -⟩ | ⟨hf, -⟩
    · rw [hx] at hf; cases hf
    · rw [hx] at hf; injection hf with hf; exact hf.symm

/-- **C97.** The constants of the step-size control: error exponent, minimal step, tolerance of the iteration, controller. -/
theorem C97_constants {c : ECfg K (Fin (n + 1) → K)} {v : ESolver K (Fin (n + 1) → K)} (h : eInit Mc d X a = .ok (c, v)) :
    c.errExp * ((min d.order d.orderSec : ℕ) + 1) = -1 ∧ c.minFactor = 1 / 5 ∧ c.pw = Mc.pw ∧
    c.hMinA * cdiff d.C = 10 * Mc.epsneg ∧ c.hMinB = Mc.sqrtTiny ∧
    c.tinyErr = Mc.pw ((n : K) + 1) (1 / 2) * Mc.pw Mc.eps (4 / 5) ∧
    initScControl coefsESDIRK Mc.pw c.errExp d.sc a.sc = some ⟨c.minbeta1, c.minbeta2, c.minalpha, c.safety, c.safetySc⟩ := by
  obtain ⟨h1, h2, rtol, atol, p, jac, J0, njev, M, dae, y, yp, J, h0, hv, hp, hj, hM, hy, hh, e⟩ := eInit_ok.mp h
  obtain ⟨rfl, rfl⟩ := Prod.mk.inj e
  have hpos : ((min d.order d.orderSec : ℕ) : K) + 1 ≠ 0 := by positivity
  have hc : cdiff d.C ≠ 0 := (lt_of_lt_of_le (by norm_num) (C14_range d.C).1).ne'
  refine ⟨?_, rfl, rfl, ?_, rfl, ?_, hp⟩
  · simp only [eInitCfg, eErrExpOf]
    rw [min_comm d.orderSec d.order]
    field_simp
  · simp only [eInitCfg, hMinAOf]
    field_simp
  · simp only [eInitCfg, eTinyErr]
    push_cast
    rfl

/-- **C97**, from the arguments to the run: all points visited by a constructed solver are in the interval. -/
theorem C97_run_inside {s : String} (hsc : d.sc = .str s) (he : 0 < Mc.epsneg) (ht : 0 < Mc.sqrtTiny)
    (hep : 0 < Mc.eps) (hpw : PowOK Mc.pw) {c : ECfg K (Fin (n + 1) → K)} {v w : ESolver K (Fin (n + 1) → K)}
    (h : eInit Mc d X a = .ok (c, v)) (hg : ∀ b1 b2 al g, a.sc = .tuple [b1, b2, al, g] → 0 < g ∧ g ≤ 1)
    (hpos : a.firstStep ≠ none ∨ ∀ dae rtol atol M, X.hs dae rtol atol M (eHStartEnd a) ≠ some 0) {b : K}
    (hb : a.tb = .num b) (hr : EReach c v w) : w.st.t ∈ Set.uIcc a.t0 b := by
  obtain ⟨hc, hn, -, -, -, -, -, -, hbb, -⟩ := C97_ready hsc he ht hep hpw h hg hpos
  obtain ⟨h1, h2⟩ := hbb b hb
  have ht0 : v.st.t = a.t0 := by
    obtain ⟨h0, Ks0, _, _, _, e⟩ := hn.new
    rw [e]; rfl
  obtain ⟨a1, a2⟩ := C34_never_past_t_bound hc h1 hn h2 hr
  rw [ht0] at a1
  rcases hc.dir with hd | hd <;> rw [hd] at a1 a2
  · exact Set.mem_uIcc.mpr (Or.inl ⟨by linarith, by linarith⟩)
  · exact Set.mem_uIcc.mpr (Or.inr ⟨by linarith, by linarith⟩)

end

/-! ## The hypotheses are met -/

/-- Example: `2 y' = -y`, `y(0) = 1` on `[0, 1]`, `jac` and `M` given as arrays of the shapes `(1, 1)` and `(1,)`. -/
noncomputable def exEArgs : EArgs ℝ 0 where
  t0 := 0
  y0 := fun _ => 1
  tb := .num 1
  maxStep := none
  rtol := .float (.num (1 / 1000))
  atol := .scalar (.num (1 / 1000000))
  jac := .arr (.mat 1 1 (fun _ _ => -1))
  M := some (.vec 1 fun _ => 2)
  firstStep := some (1 / 2)
  sc := .falsy
  jacEach := false
  dtypeOK := true

/-- External parts for the example. -/
noncomputable def exEExt : EExt ℝ 0 where
  fn := fun _ y => some (-y)
  num := fun _ _ _ => 0
  svd := fun M _ => |M 0 0|
  lin := fun _ _ _ _ b => b
  dzNorm := fun _ _ _ _ _ => 0
  errNorm := fun _ _ _ _ _ => .num (1 / 2)
  ics := fun _ _ => .error .highIndex
  solveM := fun M _ => -(M 0 0)⁻¹
  hs := fun _ _ _ _ _ => some 1
  Ks0 := fun _ => 0

/-- C97: a call of every shipped ESDIRK method with these arguments meets the hypotheses: it is accepted, gives a linear-mode ODE solver with
the mass matrix `2` and the derivative `-1/2`. -/
example (R : ESTable) (hR : R ∈ [TRBDF2, TRX2, KC3I, KC4I, KC4Ia, Kv3I]) : EArgsOK exEArgs ∧
    ∃ c v, eInit ⟨⟨1 / 2 ^ 53, 1 / 10 ^ 154, fun x e => x ^ e⟩, 1 / 2 ^ 52⟩ (R.classData (√2)) exEExt exEArgs = .ok (c, v) ∧
      ECfgOK c ∧ c.linear = true ∧ c.dae = false ∧ v.st.hAbs = 1 / 2 ∧ v.st.yp = (fun _ => -(1 / 2)) ∧
      ∀ x, c.M x = 2 • x := by
  have hok : EArgsOK exEArgs := by
    refine ⟨(fun m h => by cases h), (by simp [exEArgs, WrongShape]), fun x hx => ?_, ⟨_, rfl, ?_⟩, rfl, Or.inl (Or.inl rfl),
      Or.inr (Or.inr ⟨_, _, rfl, rfl⟩), ⟨_, Or.inr (Or.inl ⟨_, rfl, rfl⟩)⟩, fun x hx => ?_⟩
    · simp only [exEArgs, AtolArg.entries, List.mem_singleton] at hx
      rw [hx, ← ltNum_zero]
      norm_num [PyFloat.ltNum]
    · rw [← ltNum_zero]
      norm_num [PyFloat.ltNum]
    · simp only [exEArgs, Option.some.injEq] at hx
      rw [← hx]
      refine ⟨by norm_num, fun b hb => ?_⟩
      simp only [exEArgs, Bound.num.injEq] at hb
      rw [← hb]
      norm_num [exEArgs]
  have hdae : ∀ M dae, handleM exEExt.svd (1 / 2 ^ 52) exEArgs.M = .ok (M, dae) → M = diagonal (fun _ => 2) ∧ dae = false := by
    intro M dae h
    obtain ⟨h1, h2⟩ := handleM_ok.mp h
    have hM : M = diagonal (fun _ => 2) := by
      rcases h1 with ⟨h, -⟩ | ⟨w, h, h'⟩ | h
      · cases h
      · simp only [exEArgs, Option.some.injEq, Arr.vec.injEq, heq_eq_eq, true_and] at h
        rw [h', ← h]
      · cases h
    refine ⟨hM, ?_⟩
    rw [h2, if_neg (by simp [exEArgs])]
    unfold isDAE nAE condLim
    rw [decide_eq_false_iff_not, Finset.card_pos]
    rintro ⟨i, hi⟩
    have := (Finset.mem_filter.mp hi).2
    simp only [exEExt] at this
    rw [hM] at this
    norm_num at this
  refine ⟨hok, ?_⟩
  obtain ⟨⟨c, v⟩, hr⟩ := (C97_accepted_iff (Mc := ⟨⟨1 / 2 ^ 53, 1 / 10 ^ 154, fun x e => x ^ e⟩, 1 / 2 ^ 52⟩)
    (d := R.classData (√2)) (X := exEExt) (s := "G") rfl (Or.inl rfl)).mpr ⟨hok, fun _ _ _ _ _ M dae _ _ h => by
      obtain ⟨-, h⟩ := hdae M dae h
      rw [h]
      exact ⟨fun h => (by cases h), fun h => (by cases h)⟩⟩
  have hready := C97_ready (s := "G") rfl (by norm_num) (by norm_num) (by norm_num) PowOK.rpow hr (fun _ _ _ _ h => by cases h)
    (Or.inl (by simp [exEArgs]))
  obtain ⟨k1, -, -, -, -, k2, -, -, -, -, -, k3, -⟩ := hready
  obtain ⟨M, m1, m2, m3⟩ := C97_mass_matrix hr
  have hM : M = diagonal (fun _ => 2) := by
    have := (handleM_ok (svd := exEExt.svd) (eps := 1 / 2 ^ 52)).mpr ⟨m1, rfl⟩
    exact (hdae _ _ this).1
  have hd : c.dae = false := by
    have := (handleM_ok (svd := exEExt.svd) (eps := 1 / 2 ^ 52)).mpr ⟨m1, rfl⟩
    have h2 := (hdae _ _ this).2
    rw [if_neg (by simp [exEArgs])] at h2
    by_contra hne
    obtain ⟨-, i, hi⟩ := m3.mp (by simpa using hne)
    simp only [exEExt] at hi
    rw [hM] at hi
    norm_num at hi
  refine ⟨c, v, hr, k1, (C97_jacobian_mode hr).1.mpr ⟨_, rfl⟩, hd, k3 _ rfl, ?_, fun x => ?_⟩
  · obtain ⟨M', m1', -, h⟩ := k2 hd
    have hM' : M' = diagonal (fun _ => 2) := by
      have := (handleM_ok (svd := exEExt.svd) (eps := 1 / 2 ^ 52)).mpr ⟨m1', rfl⟩
      exact (hdae _ _ this).1
    rw [h, hM']
    funext i
    simp [exEExt]
  · rw [m2, hM]
    funext i
    simp [mulVec_diagonal]

/-- C97: the end point handed to `h_start` is in the direction of integration, not beyond `t_bound` and not farther than `max_step`; it is `t_bound` or the distance is `max_step`. -/
theorem C97_h_start_end {K : Type*} [Field K] [LinearOrder K] [IsStrictOrderedRing K] {n : ℕ} (a : EArgs K n) (hm : ∀ m, a.maxStep = some m → 0 < m) {b : K}
    (hb : eHStartEnd a = some b) : 0 ≤ a.tb.dir a.t0 * (b - a.t0) ∧ (∀ m, a.maxStep = some m → |b - a.t0| ≤ m) ∧
    (∀ tb, a.tb = .num tb → 0 ≤ a.tb.dir a.t0 * (tb - b)) ∧ (a.maxStep = some |b - a.t0| ∨ a.tb = .num b) := by
  let a' : InitArgs K K := ⟨a.t0, 0, 0, a.tb, a.maxStep, a.rtol, a.atol, a.firstStep, .int 0, a.sc, true⟩
  have hb' : hStartEnd a' = some b := hb
  obtain ⟨h1, h2, h3⟩ := C96_h_start_end (a := a') hm hb'
  exact ⟨h1, h2, h3, (C96_h_start_end_reached (a := a') hm).1 b hb'⟩

end Extensisq
