import Verif.Model.Construct
import Verif.Model.HStart
import Verif.Props.Validate
import Verif.Props.Driver
import Verif.Props.DriverMore
import Verif.Props.NormHStart

/-!
# C96: construction of explicit solvers

Which arguments the constructors accept, and that an accepted call makes a solver to which the properties of the driver
apply.
-/

set_option linter.unusedSectionVars false

namespace Extensisq

section
variable {K V W : Type*} [Field K] [LinearOrder K] [IsStrictOrderedRing K]

/-! ## Specification -/

/-- A predefined controller of the explicit methods. -/
def KnownName (s : String) : Prop := s = "G" ∨ s = "S" ∨ s = "standard"

/-- An `sc_params` argument that is accepted: nothing (`None`, an empty string or tuple), a predefined name, or a tuple of length
four. -/
def ScAllowed (a : ScArg K) : Prop :=
  NothingGiven a ∨ (∃ s, a = .str s ∧ KnownName s) ∨ ∃ p q r g, a = .tuple [p, q, r, g]

/-- The arguments an explicit method accepts. -/
structure ArgsOK (a : InitArgs K V) : Prop where
  maxStep : ∀ m, a.maxStep = some m → 0 < m
  shape : ¬ WrongShape a.n a.atol
  atol : ∀ x ∈ a.atol.entries, ¬ Negative x
  rtol : ∃ r, a.rtol = .float r ∧ ¬ Negative r
  dtype : a.dtypeOK = true
  stiff : ∃ k : ℕ, a.stiff = .int k
  sc : ScAllowed a.sc
  first : ∀ x, a.firstStep = some x → 0 < x ∧ ∀ b, a.tb = .num b → x ≤ |b - a.t0|

/-! ## Parts -/

theorem initStiff_ok {impl : Bool} {s : StiffArg} :
    (∃ n, initStiff impl s = .ok n) ↔ ∃ k : ℕ, s = .int k := by
  cases s with
  | other => simp [initStiff]
  | int z =>
    unfold initStiff
    by_cases hz : z < 0
    · simp only [hz, if_true]
      constructor
      · rintro ⟨n, h⟩; cases h
      · rintro ⟨k, h⟩
        have : z = k := by injection h
        omega
    · simp only [hz, if_false]
      exact ⟨fun _ => ⟨z.toNat, by rw [Int.toNat_of_nonneg (by omega)]⟩, fun _ => ⟨_, rfl⟩⟩

theorem scAllowed_iff (pw : K → K → K) (e : K) {s : String} (hs : KnownName s) (a : ScArg K) :
    (initScControl coefsRK pw e (.str s) a).isSome ↔ ScAllowed a := by
  rw [C13_accepted_iff coefsRK rfl]
  have hd : ((coefsRK s : Option (K × K × K × K)).isSome) := (C13_names (K := K) s).1.mpr hs
  constructor
  · rintro (⟨u, rfl, hu⟩ | ⟨p, q, r, g, rfl⟩ | ⟨h, -⟩)
    · exact Or.inr (Or.inl ⟨u, rfl, (C13_names (K := K) u).1.mp hu⟩)
    · exact Or.inr (Or.inr ⟨p, q, r, g, rfl⟩)
    · exact Or.inl h
  · rintro (h | ⟨u, rfl, hu⟩ | ⟨p, q, r, g, rfl⟩)
    · exact Or.inr (Or.inr ⟨h, Or.inl ⟨s, rfl, hd⟩⟩)
    · exact Or.inl ⟨u, rfl, (C13_names (K := K) u).1.mpr hu⟩
    · exact Or.inr (Or.inl ⟨p, q, r, g, rfl⟩)

theorem validateFirstStep_ok {x t0 : K} {b : Bound K} {h : K} :
    validateFirstStep x t0 b = .ok h ↔ (h = x ∧ 0 < x ∧ ∀ c, b = .num c → x ≤ |c - t0|) := by
  unfold validateFirstStep
  by_cases hx : x ≤ 0
  · simp only [hx, if_true]
    constructor
    · intro h; cases h
    · rintro ⟨-, h, -⟩; exact absurd h (not_lt.mpr hx)
  · simp only [hx, if_false]
    have hx' : 0 < x := not_le.mp hx
    cases b with
    | num c =>
      simp only [Bound.dist]
      by_cases hd : |c - t0| < x
      · simp only [hd, if_true]
        constructor
        · intro h; cases h
        · rintro ⟨-, -, h⟩; exact absurd (h c rfl) (not_le.mpr hd)
      · simp only [hd, if_false]
        constructor
        · intro h
          injection h with h
          exact ⟨h.symm, hx', fun c' hc => by injection hc with hc; rw [← hc]; exact not_lt.mp hd⟩
        · rintro ⟨h, -, -⟩; rw [h]
    | posInf =>
      simp only [Bound.dist]
      exact ⟨fun h => by injection h with h; exact ⟨h.symm, hx', fun c hc => by cases hc⟩, fun h => by rw [h.1]⟩
    | negInf =>
      simp only [Bound.dist]
      exact ⟨fun h => by injection h with h; exact ⟨h.symm, hx', fun c hc => by cases hc⟩, fun h => by rw [h.1]⟩

theorem validateTol_ok {epsneg sqrtTiny : K} {n : ℕ} {rtol : RtolArg K} {atol : AtolArg K} :
    (∃ p, validateTol epsneg sqrtTiny n rtol atol = .ok p) ↔
      ¬ WrongShape n atol ∧ (∀ x ∈ atol.entries, ¬ Negative x) ∧ ∃ r, rtol = .float r ∧ ¬ Negative r := by
  have h := C11_raises_iff epsneg sqrtTiny n rtol atol
  constructor
  · rintro ⟨p, hp⟩
    rw [hp] at h
    have h' : ¬ ∃ e, (Except.ok p : Except TolError (PyFloat K × AtolArg K)) = .error e := by
      rintro ⟨e, he⟩; cases he
    have hn := mt h.mpr h'
    push Not at hn
    obtain ⟨h1, h2, h3, h4⟩ := hn
    refine ⟨h1, h2, ?_⟩
    cases rtol with
    | other => exact absurd rfl h3
    | float r => exact ⟨r, rfl, h4 r rfl⟩
  · rintro ⟨h1, h2, r, hr, h3⟩
    cases hv : validateTol epsneg sqrtTiny n rtol atol with
    | ok p => exact ⟨p, rfl⟩
    | error e =>
      rcases h.mp ⟨e, hv⟩ with h | ⟨x, hx, hneg⟩ | h | ⟨r', hr', hneg⟩
      · exact absurd h h1
      · exact absurd hneg (h2 x hx)
      · rw [hr] at h; cases h
      · rw [hr] at hr'
        injection hr' with hr'
        rw [← hr'] at hneg
        exact absurd hneg h3

variable {M : Machine K} {d : ClassData K} {meth : PyFloat K → AtolArg K → Method K V W} {ev : K → V → ℕ}
  {hs : PyFloat K → AtolArg K → Option K → K × ℕ} {Ks0 : ℕ → W} {a : InitArgs K V}

/-- The parts of a successful construction. -/
theorem rkInit_ok {r : Cfg K V W × Solver K V W} : rkInit M d meth ev hs Ks0 a = .ok r ↔
    (∀ m, a.maxStep = some m → 0 < m) ∧ a.dtypeOK = true ∧
    ∃ rtol atol nst p h0 e0, validateTol M.epsneg M.sqrtTiny a.n a.rtol a.atol = .ok (rtol, atol) ∧
      initStiff d.stiff a.stiff = .ok nst ∧ initScControl coefsRK M.pw (errExpOf d) d.sc a.sc = some p ∧
      firstStepOf (hs rtol atol) a = .ok (h0, e0) ∧
      r = (initCfg M d (meth rtol atol) ev a nst p,
           newSolver (initCfg M d (meth rtol atol) ev a nst p) a.t0 a.y0 h0 (1 + e0) Ks0) := by
  have hmax : a.maxStep.any (fun m => decide (m ≤ 0)) = true ↔ ¬ ∀ m, a.maxStep = some m → 0 < m := by
    rw [Option.any_eq_true]
    push Not
    constructor
    · rintro ⟨m, h1, h2⟩; exact ⟨m, h1, by simpa using h2⟩
    · rintro ⟨m, h1, h2⟩; exact ⟨m, h1, by simpa using h2⟩
  unfold rkInit
  by_cases h1 : ∀ m, a.maxStep = some m → 0 < m
  · rw [if_neg (by rw [hmax]; exact not_not.mpr h1)]
    rw [and_iff_right h1]
    cases hv : validateTol M.epsneg M.sqrtTiny a.n a.rtol a.atol with
    | error e => simp
    | ok ra =>
      obtain ⟨rtol, atol⟩ := ra
      dsimp only
      by_cases hd : a.dtypeOK = true
      · simp only [hd, Bool.not_true, Bool.false_eq_true, if_false, true_and]
        cases hst : initStiff d.stiff a.stiff with
        | error e => simp
        | ok nst =>
          dsimp only
          cases hsc : initScControl coefsRK M.pw (errExpOf d) d.sc a.sc with
          | none => simp
          | some p =>
            dsimp only
            cases hf : firstStepOf (hs rtol atol) a with
            | error e =>
              constructor
              · intro h; cases h
              · rintro ⟨_, _, _, _, _, _, e1, _, _, e4, _⟩
                injection e1 with e1
                rw [← (Prod.mk.inj e1).1, ← (Prod.mk.inj e1).2, hf] at e4
                cases e4
            | ok he =>
              obtain ⟨h0, e0⟩ := he
              constructor
              · intro h
                injection h with h
                exact ⟨rtol, atol, nst, p, h0, e0, rfl, rfl, rfl, hf, h.symm⟩
              · rintro ⟨_, _, _, _, _, _, e1, e2, e3, e4, e5⟩
                injection e1 with e1
                injection e2 with e2
                injection e3 with e3
                rw [← (Prod.mk.inj e1).1, ← (Prod.mk.inj e1).2, hf] at e4
                injection e4 with e4
                rw [e5, ← (Prod.mk.inj e1).1, ← (Prod.mk.inj e1).2, ← e2, ← e3, ← (Prod.mk.inj e4).1, ← (Prod.mk.inj e4).2]
      · simp [hd]
  · rw [if_pos (hmax.mpr h1)]
    constructor
    · intro h; cases h
    · rintro ⟨h, -⟩; exact absurd h h1

/-- **C96.** An explicit method is constructed exactly for the arguments described by `ArgsOK`. -/
theorem C96_accepted_iff {s : String} (hsc : d.sc = .str s) (hs' : KnownName s) :
    (∃ r, rkInit M d meth ev hs Ks0 a = .ok r) ↔ ArgsOK a := by
  constructor
  · rintro ⟨r, hr⟩
    obtain ⟨h1, h2, rtol, atol, nst, p, h0, e0, e1, e2, e3, e4, -⟩ := rkInit_ok.mp hr
    obtain ⟨t1, t2, t3⟩ := validateTol_ok.mp ⟨_, e1⟩
    refine ⟨h1, t1, t2, t3, h2, initStiff_ok.mp ⟨_, e2⟩, ?_, ?_⟩
    · rw [← scAllowed_iff M.pw (errExpOf d) hs', ← hsc, e3]; rfl
    · intro x hx
      unfold firstStepOf at e4
      rw [hx] at e4
      dsimp only at e4
      cases hv : validateFirstStep x a.t0 a.tb with
      | error e => rw [hv] at e4; cases e4
      | ok h => exact (validateFirstStep_ok.mp hv).2
  · intro h
    obtain ⟨⟨rtol, atol⟩, e1⟩ := (validateTol_ok (epsneg := M.epsneg) (sqrtTiny := M.sqrtTiny)).mpr
      ⟨h.shape, h.atol, h.rtol⟩
    obtain ⟨nst, e2⟩ := (initStiff_ok (impl := d.stiff)).mpr h.stiff
    have e3 := (scAllowed_iff M.pw (errExpOf d) hs' a.sc).mpr h.sc
    rw [← hsc] at e3
    obtain ⟨p, e3⟩ := Option.isSome_iff_exists.mp e3
    obtain ⟨⟨h0, e0⟩, e4⟩ : ∃ q, firstStepOf (hs rtol atol) a = .ok q := by
      unfold firstStepOf
      cases hx : a.firstStep with
      | none => exact ⟨_, rfl⟩
      | some x =>
        have := validateFirstStep_ok.mpr (⟨rfl, h.first x hx⟩ : x = x ∧ 0 < x ∧ ∀ c, a.tb = .num c → x ≤ |c - a.t0|)
        exact ⟨(x, 0), by dsimp only; rw [this]; rfl⟩
    exact ⟨_, rkInit_ok.mpr ⟨h.maxStep, h.dtype, rtol, atol, nst, p, h0, e0, e1, e2, e3, e4, rfl⟩⟩

/-- **C96.** Every exception is raised for its own reason only. -/
theorem C96_exceptions {s : String} (hsc : d.sc = .str s) (hs' : KnownName s) {e : InitErr}
    (h : rkInit M d meth ev hs Ks0 a = .error e) :
    match e with
    | .maxStep => ∃ m, a.maxStep = some m ∧ m ≤ 0
    | .tol e => validateTol M.epsneg M.sqrtTiny a.n a.rtol a.atol = .error e
    | .dtype => a.dtypeOK = false
    | .stiff => ∀ k : ℕ, a.stiff ≠ .int k
    | .sc => ¬ ScAllowed a.sc
    | .firstNonpos => ∃ x, a.firstStep = some x ∧ x ≤ 0
    | .firstTooLong => ∃ x b, a.firstStep = some x ∧ a.tb = .num b ∧ |b - a.t0| < x
    | .structure2 => False := by
  unfold rkInit at h
  split at h
  · rename_i hm
    injection h with h
    subst h
    rw [Option.any_eq_true] at hm
    obtain ⟨m, h1, h2⟩ := hm
    exact ⟨m, h1, by simpa using h2⟩
  · split at h
    · rename_i e1 hv
      injection h with h
      subst h
      exact hv
    · split at h
      · rename_i hd
        injection h with h
        subst h
        simpa using hd
      · split at h
        · rename_i e2 hst
          injection h with h
          have he : e2 = .stiff := by
            unfold initStiff at hst
            split at hst
            · split at hst
              · injection hst with hst; exact hst.symm
              · cases hst
            · injection hst with hst; exact hst.symm
          subst h; subst he
          intro k hk
          obtain ⟨n, hn⟩ := (initStiff_ok (impl := d.stiff)).mpr ⟨k, hk⟩
          rw [hn] at hst
          cases hst
        · split at h
          · rename_i hsel
            injection h with h
            subst h
            change ¬ ScAllowed a.sc
            rw [← scAllowed_iff M.pw (errExpOf d) hs', ← hsc, hsel]
            simp
          · split at h
            · rename_i e3 hf
              injection h with h
              subst h
              unfold firstStepOf at hf
              split at hf
              · cases hf
              · rename_i x hx
                unfold validateFirstStep at hf
                split at hf
                · rename_i hx0
                  injection hf with hf
                  subst hf
                  exact ⟨x, hx, hx0⟩
                · split at hf
                  · rename_i dd hdist
                    split at hf
                    · rename_i hlt
                      injection hf with hf
                      subst hf
                      cases hb : a.tb with
                      | num b =>
                        rw [hb] at hdist
                        simp only [Bound.dist, Option.some.injEq] at hdist
                        exact ⟨x, b, hx, rfl, by rw [hdist]; exact hlt⟩
                      | posInf => rw [hb] at hdist; cases hdist
                      | negInf => rw [hb] at hdist; cases hdist
                    · cases hf
                  · cases hf
            · cases h

/-- The safety factor of an accepted controller: 0.9, except for a tuple. -/
theorem initSc_safety {s : String} (hs' : KnownName s) {p : ScParams K} {e : K} {sc : ScArg K}
    (h : initScControl coefsRK M.pw e (.str s) sc = some p) :
    (∃ q1 q2, p.safetySc = M.pw p.safety (q1 + q2)) ∧
      (p.safety = 9 / 10 ∨ ∃ b1 b2 al g, sc = .tuple [b1, b2, al, g] ∧ p.safety = g) := by
  unfold initScControl at h
  simp only [Option.map_eq_some_iff] at h
  obtain ⟨⟨q1, q2, q3, q4⟩, h1, h2⟩ := h
  refine ⟨⟨q1, q2, by rw [← h2]⟩, ?_⟩
  have hname : ∀ u : String, coefsRK u = some (q1, q2, q3, q4) → q4 = 9 / 10 := by
    intro u hu
    unfold coefsRK at hu
    split at hu <;> simp_all
  rw [← h2]
  split_ifs at h1 with ht
  · cases sc with
    | falsy => simp [scSelect] at h1
    | other => simp [scSelect] at h1
    | str u => exact Or.inl (hname u h1)
    | tuple l =>
      match l, h1 with
      | [b1, b2, al, g], h1 =>
        simp only [scSelect, Option.some.injEq, Prod.mk.injEq] at h1
        exact Or.inr ⟨b1, b2, al, g, rfl, h1.2.2.2.symm⟩
      | [], h1 => simp [scSelect] at h1
      | [_], h1 => simp [scSelect] at h1
      | [_, _], h1 => simp [scSelect] at h1
      | [_, _, _], h1 => simp [scSelect] at h1
      | _ :: _ :: _ :: _ :: _ :: _, h1 => simp [scSelect] at h1
  · exact Or.inl (hname s h1)

theorem dir_dist (a : InitArgs K V) {b : K} (hb : a.tb = .num b) : 0 ≤ a.tb.dir a.t0 * (b - a.t0) := by
  rw [hb]
  unfold Bound.dir
  dsimp only
  split_ifs with h
  · nlinarith
  · push Not at h; nlinarith

/-- **C96.** A constructed solver is one to which the properties of the driver apply: its constants satisfy `CfgOK` (for `sc_params`
given as a tuple this needs a safety factor in `(0, 1]`), it is in the state `newSolver`, `t_bound` is not behind it, and the
method, the limits of the step and the bound are those of the arguments. The class needs finite nodes only. -/
theorem C96_ready {s : String} (hsc : d.sc = .str s) (hs' : KnownName s) (he : 0 < M.epsneg) (ht : 0 < M.sqrtTiny)
    (hpw : PowOK M.pw) {c : Cfg K V W} {v : Solver K V W} (h : rkInit M d meth ev hs Ks0 a = .ok (c, v))
    (hg : ∀ b1 b2 al g, a.sc = .tuple [b1, b2, al, g] → 0 < g ∧ g ≤ 1) :
    CfgOK c ∧ (∃ h0 e0, v = newSolver c a.t0 a.y0 h0 e0 Ks0) ∧
    (∃ rtol atol, validateTol M.epsneg M.sqrtTiny a.n a.rtol a.atol = .ok (rtol, atol) ∧ c.m = meth rtol atol) ∧
    c.maxStep = a.maxStep ∧ (∀ b, a.tb = .num b → c.tb = some b ∧ 0 ≤ c.dir * (b - v.st.t)) ∧
    (a.tb = .posInf → c.tb = none ∧ c.dir = 1) ∧ (a.tb = .negInf → c.tb = none ∧ c.dir = -1) := by
  obtain ⟨h1, h2, rtol, atol, nst, p, h0, e0, e1, e2, e3, e4, e5⟩ := rkInit_ok.mp h
  obtain ⟨rfl, rfl⟩ := Prod.mk.inj e5
  rw [hsc] at e3
  obtain ⟨⟨q1, q2, hq⟩, hsafe⟩ := initSc_safety hs' e3
  have hs01 : 0 < p.safety ∧ p.safety ≤ 1 := by
    rcases hsafe with h | ⟨b1, b2, al, g, h, hg'⟩
    · rw [h]; constructor <;> norm_num
    · rw [hg']; exact hg b1 b2 al g h
  refine ⟨⟨?_, ?_, ht, ht, ?_, ?_, ?_, hs01.1, hs01.2, ?_, hpw, h1⟩, ⟨h0, 1 + e0, rfl⟩, ⟨rtol, atol, e1, rfl⟩, rfl, ?_, ?_, ?_⟩
  · simp only [initCfg, Bound.dir]
    split
    · split_ifs
      · exact Or.inr rfl
      · exact Or.inl rfl
    · exact Or.inl rfl
    · exact Or.inr rfl
  · simp only [initCfg, hMinAOf]
    have := (C14_range d.C).1
    have h3 : (0 : K) < cdiff d.C := lt_of_lt_of_le (by norm_num) this
    positivity
  · simp only [initCfg]; norm_num
  · simp only [initCfg]; norm_num
  · simp only [initCfg, errExpOf]
    have : (0 : K) < ((min d.orderSec d.order : ℕ) : K) + 1 := by positivity
    rw [neg_div]
    exact neg_neg_of_pos (by positivity)
  · simp only [initCfg]
    rw [hq]
    exact hpw.pos _ _ hs01.1
  · intro b hb
    refine ⟨by simp only [initCfg, Bound.tb, hb], ?_⟩
    exact dir_dist a hb
  · intro hb; simp [initCfg, Bound.tb, Bound.dir, hb]
  · intro hb; simp [initCfg, Bound.tb, Bound.dir, hb]

/-- **C96.** The first step and the evaluations of the constructor: a given `first_step` is used as it is, after one
evaluation; otherwise the size of `h_start` up to the nearer of `t_bound` and `max_step` is used. -/
theorem C96_first_step {c : Cfg K V W} {v : Solver K V W} (h : rkInit M d meth ev hs Ks0 a = .ok (c, v)) :
    (∀ x, a.firstStep = some x → v.st.hAbs = x ∧ v.st.nfev = 1) ∧
    (a.firstStep = none → ∃ rtol atol, validateTol M.epsneg M.sqrtTiny a.n a.rtol a.atol = .ok (rtol, atol) ∧
      v.st.hAbs = |(hs rtol atol (hStartEnd a)).1| ∧ v.st.nfev = 1 + (hs rtol atol (hStartEnd a)).2) := by
  obtain ⟨h1, h2, rtol, atol, nst, p, h0, e0, e1, e2, e3, e4, e5⟩ := rkInit_ok.mp h
  obtain ⟨rfl, rfl⟩ := Prod.mk.inj e5
  unfold firstStepOf at e4
  refine ⟨fun x hx => ?_, fun hx => ?_⟩
  · rw [hx] at e4
    dsimp only at e4
    cases hv : validateFirstStep x a.t0 a.tb with
    | error e => rw [hv] at e4; cases e4
    | ok h =>
      rw [hv] at e4
      simp only [Except.map, Except.ok.injEq, Prod.mk.injEq] at e4
      have := (validateFirstStep_ok.mp hv).1
      exact ⟨by simp only [newSolver]; rw [← e4.1, this], by simp only [newSolver]; rw [← e4.2]⟩
  · rw [hx] at e4
    simp only [Except.ok.injEq, Prod.mk.injEq] at e4
    exact ⟨rtol, atol, e1, by simp only [newSolver]; rw [e4.1], by simp only [newSolver]; rw [e4.2]⟩

omit [IsStrictOrderedRing K] in
/-- **C96.** The end point handed to `h_start` is in the direction of integration, not beyond `t_bound` and not farther than `max_step`. -/
theorem C96_h_start_end [IsStrictOrderedRing K] (hm : ∀ m, a.maxStep = some m → 0 < m) {b : K} (hb : hStartEnd a = some b) :
    0 ≤ a.tb.dir a.t0 * (b - a.t0) ∧ (∀ m, a.maxStep = some m → |b - a.t0| ≤ m) ∧
    ∀ tb, a.tb = .num tb → 0 ≤ a.tb.dir a.t0 * (tb - b) := by
  have hdir : a.tb.dir a.t0 * a.tb.dir a.t0 = 1 := by
    unfold Bound.dir
    split
    · split_ifs <;> norm_num
    · norm_num
    · norm_num
  have habs : |a.tb.dir a.t0| = 1 := by
    unfold Bound.dir
    split
    · split_ifs <;> norm_num
    · norm_num
    · norm_num
  unfold hStartEnd at hb
  rw [Option.map_eq_some_iff] at hb
  obtain ⟨δ, hδ, rfl⟩ := hb
  have key : 0 ≤ δ ∧ (∀ m, a.maxStep = some m → δ ≤ m) ∧ ∀ tb, a.tb = .num tb → δ ≤ |tb - a.t0| := by
    cases ht : a.tb with
    | num tb =>
      rw [ht] at hδ
      cases hmx : a.maxStep with
      | none =>
        rw [hmx] at hδ
        simp only [Bound.dist, minInf, Option.some.injEq] at hδ
        rw [← hδ]
        exact ⟨abs_nonneg _, fun m h => (by cases h), fun t' h => by injection h with h; rw [h]⟩
      | some m =>
        rw [hmx] at hδ
        simp only [Bound.dist, minInf, Option.some.injEq] at hδ
        rw [← hδ]
        exact ⟨le_min (abs_nonneg _) (hm m hmx).le, fun m' h => by injection h with h; rw [← h]; exact min_le_right _ _,
          fun t' h => by injection h with h; rw [h]; exact min_le_left _ _⟩
    | posInf =>
      rw [ht] at hδ
      simp only [Bound.dist, minInf] at hδ
      exact ⟨(hm δ hδ).le, fun m h => by rw [hδ] at h; injection h with h; exact h.le, fun t' h => by cases h⟩
    | negInf =>
      rw [ht] at hδ
      simp only [Bound.dist, minInf] at hδ
      exact ⟨(hm δ hδ).le, fun m h => by rw [hδ] at h; injection h with h; exact h.le, fun t' h => by cases h⟩
  obtain ⟨k1, k2, k3⟩ := key
  refine ⟨?_, ?_, ?_⟩
  · have : a.tb.dir a.t0 * (a.t0 + a.tb.dir a.t0 * δ - a.t0) = δ := by linear_combination δ * hdir
    rw [this]; exact k1
  · intro m h
    have : |a.t0 + a.tb.dir a.t0 * δ - a.t0| = δ := by
      rw [add_sub_cancel_left, abs_mul, habs, one_mul, abs_of_nonneg k1]
    rw [this]; exact k2 m h
  · intro tb h
    have h2 := dir_dist a h
    have e : a.tb.dir a.t0 * (tb - (a.t0 + a.tb.dir a.t0 * δ)) = a.tb.dir a.t0 * (tb - a.t0) - δ := by
      linear_combination (-δ) * hdir
    rw [e]
    have : |tb - a.t0| = a.tb.dir a.t0 * (tb - a.t0) := by
      rw [← abs_of_nonneg h2, abs_mul, habs, one_mul]
    rw [← this]
    linarith [k3 tb h]

/-- **C96.** The interval handed to `h_start` ends at `t_bound` or after `max_step`; it is infinite only if both are. -/
theorem C96_h_start_end_reached (hm : ∀ m, a.maxStep = some m → 0 < m) :
    (∀ b, hStartEnd a = some b → a.maxStep = some |b - a.t0| ∨ a.tb = .num b) ∧
    (hStartEnd a = none ↔ a.maxStep = none ∧ ∀ b, a.tb ≠ .num b) := by
  have hdir : a.tb.dir a.t0 = 1 ∨ a.tb.dir a.t0 = -1 := by
    unfold Bound.dir
    split
    · split_ifs <;> simp
    · simp
    · simp
  have hfar : ∀ m, 0 < m → |a.t0 + a.tb.dir a.t0 * m - a.t0| = m := by
    intro m h
    rw [add_sub_cancel_left, abs_mul, abs_of_pos h]
    rcases hdir with h' | h' <;> rw [h'] <;> simp
  have hend : ∀ b, a.tb = .num b → a.t0 + a.tb.dir a.t0 * |b - a.t0| = b := by
    intro b h
    have h2 := dir_dist a h
    rcases hdir with h' | h' <;> rw [h'] at h2 ⊢
    · rw [abs_of_nonneg (by linarith)]; ring
    · rw [abs_of_nonpos (by linarith)]; ring
  unfold hStartEnd
  refine ⟨fun b h => ?_, ?_⟩
  · rw [Option.map_eq_some_iff] at h
    obtain ⟨δ, hδ, rfl⟩ := h
    cases hmx : a.maxStep with
    | none =>
      cases ht : a.tb with
      | num c =>
        rw [ht, hmx] at hδ
        simp only [Bound.dist, minInf, Option.some.injEq] at hδ
        right
        rw [← hδ]
        have := hend c ht
        rw [ht] at this
        rw [this]
      | posInf => rw [ht, hmx] at hδ; simp [Bound.dist, minInf] at hδ
      | negInf => rw [ht, hmx] at hδ; simp [Bound.dist, minInf] at hδ
    | some m =>
      have hm0 := hm m hmx
      cases ht : a.tb with
      | num c =>
        rw [ht, hmx] at hδ
        simp only [Bound.dist, minInf, Option.some.injEq] at hδ
        rcases le_total |c - a.t0| m with hle | hle
        · right
          rw [min_eq_left hle] at hδ
          have := hend c ht
          rw [ht] at this
          rw [← hδ, this]
        · left
          rw [min_eq_right hle] at hδ
          have := hfar m hm0
          rw [ht] at this
          rw [← hδ, this]
      | posInf =>
        rw [ht, hmx] at hδ
        simp only [Bound.dist, minInf, Option.some.injEq] at hδ
        left
        have := hfar m hm0
        rw [ht] at this
        rw [← hδ, this]
      | negInf =>
        rw [ht, hmx] at hδ
        simp only [Bound.dist, minInf, Option.some.injEq] at hδ
        left
        have := hfar m hm0
        rw [ht] at this
        rw [← hδ, this]
  · cases ht : a.tb <;> cases hmx : a.maxStep <;> simp [Bound.dist, minInf]

/-- **C96.** The constants of the step-size control of a constructed solver: error exponent `-1 / (q + 1)` with `q` the lower of
the two orders, the minimal step parameters of the nodes and of the machine, and the controller selected by the arguments. -/
theorem C96_constants {c : Cfg K V W} {v : Solver K V W} (h : rkInit M d meth ev hs Ks0 a = .ok (c, v)) :
    c.errExp * ((min d.order d.orderSec : ℕ) + 1) = -1 ∧ c.minFactor = 1 / 5 ∧ c.pw = M.pw ∧
    c.hMinA * cdiff d.C = 10 * M.epsneg ∧ c.hMinB = M.sqrtTiny ∧ c.tinyErr = M.sqrtTiny ∧
    initScControl coefsRK M.pw c.errExp d.sc a.sc = some ⟨c.minbeta1, c.minbeta2, c.minalpha, c.safety, c.safetySc⟩ := by
  obtain ⟨h1, h2, rtol, atol, nst, p, h0, e0, e1, e2, e3, e4, e5⟩ := rkInit_ok.mp h
  obtain ⟨rfl, rfl⟩ := Prod.mk.inj e5
  have hpos : ((min d.order d.orderSec : ℕ) : K) + 1 ≠ 0 := by positivity
  have hc : cdiff d.C ≠ 0 := (lt_of_lt_of_le (by norm_num) (C14_range d.C).1).ne'
  refine ⟨?_, rfl, rfl, ?_, rfl, rfl, e3⟩
  · simp only [initCfg, errExpOf]
    rw [min_comm d.orderSec d.order]
    field_simp
  · simp only [initCfg, hMinAOf]
    field_simp

/-- **C96**, from the arguments to the run: with a predefined controller and no `max_step`, for every accepted call with a finite
`t_bound`, the times of all states reachable by `step()` lie between `t0` and `t_bound`. -/
theorem C96_run_inside {s : String} (hsc : d.sc = .str s) (hs' : KnownName s) (he : 0 < M.epsneg) (ht : 0 < M.sqrtTiny)
    (hpw : PowOK M.pw) {c : Cfg K V W} {v : Solver K V W} (h : rkInit M d meth ev hs Ks0 a = .ok (c, v))
    (hg : ∀ b1 b2 al g, a.sc = .tuple [b1, b2, al, g] → 0 < g ∧ g ≤ 1) (hmx : a.maxStep = none) {b : K}
    (hb : a.tb = .num b) {w : Solver K V W} (hr : Reach c v w) : w.st.t ∈ Set.uIcc a.t0 b := by
  obtain ⟨hc, ⟨h0, e0, hv⟩, -, hm, hbb, -, -⟩ := C96_ready hsc hs' he ht hpw h hg
  obtain ⟨h1, h2⟩ := hbb b hb
  have ht0 : v.st.t = a.t0 := by rw [hv]; rfl
  obtain ⟨a1, a2⟩ := C01_never_past_t_bound_default hc (by rw [hm, hmx]) h1 h2 hr
  rw [ht0] at a1
  rcases hc.dir with hd | hd <;> rw [hd] at a1 a2
  · exact Set.mem_uIcc.mpr (Or.inl ⟨by linarith, by linarith⟩)
  · exact Set.mem_uIcc.mpr (Or.inr ⟨by linarith, by linarith⟩)

/-- **C96.** Stiffness detection: it is on exactly if the class implements it and the argument is positive; a warning is given exactly
if it is not implemented and the argument is neither the default nor zero. -/
theorem C96_stiffness_argument {c : Cfg K V W} {v : Solver K V W} (h : rkInit M d meth ev hs Ks0 a = .ok (c, v)) :
    ∃ k : ℕ, a.stiff = .int k ∧ c.nfevStiff = (if d.stiff then k else 0) ∧
      (stiffWarns d.stiff a.stiff = true ↔ d.stiff = false ∧ k ≠ 5000 ∧ k ≠ 0) := by
  obtain ⟨h1, h2, rtol, atol, nst, p, h0, e0, e1, e2, e3, e4, e5⟩ := rkInit_ok.mp h
  obtain ⟨rfl, rfl⟩ := Prod.mk.inj e5
  obtain ⟨k, hk⟩ := initStiff_ok.mp ⟨_, e2⟩
  refine ⟨k, hk, ?_, ?_⟩
  · rw [hk] at e2
    unfold initStiff at e2
    dsimp only at e2
    rw [if_neg (by omega)] at e2
    injection e2 with e2
    simp only [initCfg]
    rw [← e2, Int.toNat_natCast]
  · rw [hk]
    simp only [stiffWarns, Bool.and_eq_true, Bool.not_eq_true', decide_eq_true_eq, ne_eq, and_assoc]
    norm_cast

/-- **C96.** `CKdisc` raises for every call with `nfev_stiff_detect`; without it, it is the Runge-Kutta solver without stiffness
detection. -/
theorem C96_CKdisc (given : Bool) :
    (ckInit M d meth ev hs Ks0 given a = none ↔ given = true) ∧
    ∀ c v, ckInit M d meth ev hs Ks0 given a = some (.ok (c, v)) → c.nfevStiff = 0 := by
  unfold ckInit
  cases given with
  | true => simp
  | false =>
    simp only [Bool.false_eq_true, if_false, reduceCtorEq, Option.some.injEq, true_and]
    intro c v h
    obtain ⟨k, hk, hn, -⟩ := C96_stiffness_argument h
    have : k = 0 := by injection hk with hk; omega
    rw [hn, this]; split_ifs <;> rfl

end

/-! ## Nystrom methods -/

section
variable {K X : Type*} [Field K] [LinearOrder K] [IsStrictOrderedRing K]
variable {M : Machine K} {d : ClassData K} {meth : PyFloat K → AtolArg K → Method K (X × X) X} {ev : K → X × X → ℕ}
  {hs : PyFloat K → AtolArg K → Option K → K × ℕ} {Ks0 : ℕ → X} {ok2 : Bool} {a : InitArgs K (X × X)}

/-- **C96** for the Nystrom methods: the same arguments are accepted, if the problem has the structure of a second order
problem. -/
theorem C96_nystrom_accepted_iff {s : String} (hsc : d.sc = .str s) (hs' : KnownName s) :
    (∃ r, nyInit M d meth ev hs Ks0 ok2 a = .ok r) ↔ ArgsOK a ∧ ok2 = true := by
  have hbase := C96_accepted_iff (M := M) (meth := meth) (ev := ev) (hs := hs) (Ks0 := Ks0)
    (a := { a with stiff := .int 5000 }) hsc hs'
  have hargs : ∀ k : ℕ, a.stiff = .int k → (ArgsOK a ↔ ArgsOK ({ a with stiff := .int 5000 } : InitArgs K (X × X))) := by
    intro k hk
    constructor
    · rintro ⟨h1, h2, h3, h4, h5, h6, h7, h8⟩
      exact ⟨h1, h2, h3, h4, h5, ⟨5000, rfl⟩, h7, h8⟩
    · rintro ⟨h1, h2, h3, h4, h5, h6, h7, h8⟩
      exact ⟨h1, h2, h3, h4, h5, ⟨k, hk⟩, h7, h8⟩
  unfold nyInit
  constructor
  · rintro ⟨r, hr⟩
    split at hr
    · cases hr
    · rename_i c v hc
      split at hr
      · cases hr
      · rename_i nst hst
        obtain ⟨k, hk⟩ := initStiff_ok.mp ⟨_, hst⟩
        split at hr
        · rename_i h2
          exact ⟨(hargs k hk).mpr (hbase.mp ⟨_, hc⟩), h2⟩
        · cases hr
  · rintro ⟨h, h2⟩
    obtain ⟨k, hk⟩ := h.stiff
    obtain ⟨⟨c, v⟩, hc⟩ := hbase.mpr ((hargs k hk).mp h)
    obtain ⟨nst, hst⟩ := (initStiff_ok (impl := d.stiff)).mpr ⟨k, hk⟩
    rw [hc]
    dsimp only
    rw [hst]
    dsimp only
    rw [if_pos h2]
    exact ⟨_, rfl⟩

/-- **C96** for the Nystrom methods: a constructed solver satisfies the hypotheses of the properties of the driver. -/
theorem C96_nystrom_ready {s : String} (hsc : d.sc = .str s) (hs' : KnownName s) (he : 0 < M.epsneg) (ht : 0 < M.sqrtTiny)
    (hpw : PowOK M.pw) {c : Cfg K (X × X) X} {v : Solver K (X × X) X} (h : nyInit M d meth ev hs Ks0 ok2 a = .ok (c, v))
    (hg : ∀ b1 b2 al g, a.sc = .tuple [b1, b2, al, g] → 0 < g ∧ g ≤ 1) :
    CfgOK c ∧ (∃ h0 e0, v = newSolver c a.t0 a.y0 h0 e0 Ks0) ∧
    (∃ rtol atol, validateTol M.epsneg M.sqrtTiny a.n a.rtol a.atol = .ok (rtol, atol) ∧ c.m = meth rtol atol) ∧
    c.maxStep = a.maxStep ∧ (∀ b, a.tb = .num b → c.tb = some b ∧ 0 ≤ c.dir * (b - v.st.t)) ∧
    (∃ k : ℕ, a.stiff = .int k ∧ c.nfevStiff = if d.stiff then k else 0) := by
  unfold nyInit at h
  split at h
  · cases h
  · rename_i c0 v0 hc
    split at h
    · cases h
    · rename_i nst hst
      split at h
      · injection h with h
        obtain ⟨rfl, rfl⟩ := Prod.mk.inj h
        obtain ⟨k1, ⟨h0, e0, hv⟩, k3, k4, k5, -, -⟩ := C96_ready hsc hs' he ht hpw hc hg
        obtain ⟨k, hk⟩ := initStiff_ok.mp ⟨_, hst⟩
        refine ⟨⟨k1.dir, k1.hMinA, k1.hMinB, k1.tiny, k1.minF0, k1.minF1, k1.errExp, k1.safety0, k1.safety1, k1.safetySc, k1.pw,
          k1.maxStep⟩, ⟨v0.st.hAbs, v0.st.nfev, by rw [hv]; rfl⟩, k3, k4, k5, k, hk, ?_⟩
        rw [hk] at hst
        unfold initStiff at hst
        dsimp only at hst
        rw [if_neg (by omega)] at hst
        injection hst with hst
        rw [← hst, Int.toNat_natCast]
      · cases h

end

/-! ## With the `h_start` of the code -/

section
variable {n : ℕ}

/-- `h_start` as called by the constructor, with finite end point and finite tolerances. -/
noncomputable def hsReal (small big relper : ℝ) (fn : ℝ → (Fin n → ℝ) → Fin n → ℝ) (t0 : ℝ) (y0 : Fin n → ℝ) (ordSec : ℕ)
    (etol : Fin n → ℝ) (tolmin : ℝ) (b : ℝ) : ℝ × ℕ :=
  let r := hStart small big relper fn t0 b y0 (fn t0 y0) ordSec etol tolmin none none
  (r.h, r.evals)

/-- **C96.** Without `first_step`, for a finite interval of positive length, the first step of a constructed solver is positive, and the
constructor has made at most five evaluations of `fun`. -/
theorem C96_first_step_positive {W : Type*} {M : Machine ℝ} {d : ClassData ℝ} {meth : PyFloat ℝ → AtolArg ℝ → Method ℝ (Fin n → ℝ) W}
    {ev : ℝ → (Fin n → ℝ) → ℕ} {Ks0 : ℕ → W} {a : InitArgs ℝ (Fin n → ℝ)} {small big relper : ℝ} (hsm : 0 < small) (hbig : 0 ≤ big)
    {fn : ℝ → (Fin n → ℝ) → Fin n → ℝ} {etol : PyFloat ℝ → AtolArg ℝ → Fin n → ℝ} {tolmin : PyFloat ℝ → AtolArg ℝ → ℝ}
    {hinf : ℝ × ℕ} {c : Cfg ℝ (Fin n → ℝ) W} {v : Solver ℝ (Fin n → ℝ) W}
    (h : rkInit M d meth ev (fun r at' b => match b with
      | some b => hsReal small big relper fn a.t0 a.y0 d.orderSec (etol r at') (tolmin r at') b
      | none => hinf) Ks0 a = .ok (c, v))
    (hf : a.firstStep = none) {b : ℝ} (hb : a.tb = .num b) (hne : b ≠ a.t0) : 0 < v.st.hAbs ∧ v.st.nfev ≤ 5 := by
  have hm := (rkInit_ok.mp h).1
  obtain ⟨rtol, atol, -, h1, h2⟩ := (C96_first_step h).2 hf
  obtain ⟨b', hb', hne'⟩ : ∃ b', hStartEnd a = some b' ∧ a.t0 ≠ b' := by
    unfold hStartEnd
    rw [hb]
    have hd : (Bound.num b).dir a.t0 ≠ 0 := by unfold Bound.dir; dsimp only; split_ifs <;> norm_num
    have hpos : 0 < |b - a.t0| := abs_pos.mpr (sub_ne_zero.mpr hne)
    cases hmx : a.maxStep with
    | none =>
      refine ⟨_, rfl, fun e => ?_⟩
      have : (Bound.num b).dir a.t0 * |b - a.t0| = 0 := by linarith
      rcases mul_eq_zero.mp this with h | h
      · exact hd h
      · exact hpos.ne' h
    | some m =>
      refine ⟨_, rfl, fun e => ?_⟩
      have : (Bound.num b).dir a.t0 * min |b - a.t0| m = 0 := by linarith
      rcases mul_eq_zero.mp this with h | h
      · exact hd h
      · exact (lt_min hpos (hm m hmx)).ne' h
  rw [hb'] at h1 h2
  obtain ⟨H, hH, hr, -, -, -, -, hev⟩ := C15_first_step_usable hsm hbig fn hne' a.y0 (fn a.t0 a.y0) d.orderSec (etol rtol atol)
    (tolmin rtol atol) (relper := relper) none (fun J hJ => by cases hJ) none
  refine ⟨?_, ?_⟩
  · rw [h1]
    change 0 < |(hStart small big relper fn a.t0 b' a.y0 (fn a.t0 a.y0) d.orderSec (etol rtol atol) (tolmin rtol atol) none none).h|
    rw [hr]
    split_ifs
    · rw [abs_of_pos hH]; exact hH
    · rw [abs_neg, abs_of_pos hH]; exact hH
  · rw [h2]
    change 1 + (hStart small big relper fn a.t0 b' a.y0 (fn a.t0 a.y0) d.orderSec (etol rtol atol) (tolmin rtol atol) none none).evals ≤ 5
    omega

end

/-! ## The hypotheses are met -/

/-- C96: the controllers of the shipped classes are predefined. -/
theorem C96_shipped : ∀ p ∈ shippedRK, ∃ s, (p.1.classData ℝ p.2).sc = .str s ∧ KnownName s := by
  intro p hp
  refine ⟨p.2, rfl, ?_⟩
  have : ∀ p ∈ shippedRK, p.2 = "G" ∨ p.2 = "S" ∨ p.2 = "standard" := by decide +kernel
  exact this p hp

/-- C96: the direction of integration: from `t0` to `t_bound`; forward if they are equal. -/
theorem C96_direction {K : Type*} [Field K] [LinearOrder K] [IsStrictOrderedRing K] (t0 b : K) : (t0 ≤ b → (Bound.num b).dir t0 = 1) ∧ (b < t0 → (Bound.num b).dir t0 = -1) ∧
    (Bound.posInf : Bound K).dir t0 = 1 ∧ (Bound.negInf : Bound K).dir t0 = -1 :=
  ⟨fun h => if_neg (not_lt.mpr h), fun h => if_pos h, rfl, rfl⟩

/-- C96: the defaults of the shipped classes: `order`, `order_secondary` (which give the error exponent, `C96_parameters`) and the controller; and the table each class
integrates with has these orders. -/
theorem C96_defaults : shippedRK.map (fun p => ((p.1.classData ℚ p.2).order, (p.1.classData ℚ p.2).orderSec, p.2)) =
    [(4, 3, "G"), (5, 4, "G"), (5, 4, "standard"), (7, 5, "G"), (5, 4, "G"), (7, 5, "S"), (8, 6, "G"), (9, 7, "standard")] := by decide +kernel

/-- Default arguments for the problem `y' = -y`, `y(0) = 1` on `[0, 1]` with `first_step = 1/2`. -/
noncomputable def exArgs : InitArgs ℝ ℝ where
  t0 := 0
  y0 := 1
  n := 1
  tb := .num 1
  maxStep := none
  rtol := .float (.num (1 / 1000))
  atol := .scalar (.num (1 / 1000000))
  firstStep := some (1 / 2)
  stiff := .int 5000
  sc := .falsy
  dtypeOK := true

/-- C96: all hypotheses are met by a call of every shipped explicit method with these arguments. -/
example : ArgsOK exArgs ∧ ∀ p ∈ shippedRK, ∃ c v,
    rkInit (W := ℝ) ⟨1 / 2 ^ 53, 1 / 10 ^ 154, fun x e => x ^ e⟩ (p.1.classData ℝ p.2)
      (fun _ _ => rkMethod (p.1.tab ℝ) (fun _ y => -y) (fun _ _ _ => .num (1 / 2))) (fun _ _ => 0)
      (fun _ _ _ => (1, 3)) (fun _ => 0) exArgs = .ok (c, v) ∧ CfgOK c ∧ v.st.hAbs = 1 / 2 := by
  have hok : ArgsOK exArgs := by
    refine ⟨(fun m h => by cases h), (by simp [exArgs, WrongShape]), fun x hx => ?_, ⟨_, rfl, ?_⟩, rfl, ⟨5000, rfl⟩, Or.inl (Or.inl rfl), fun x hx => ?_⟩
    · simp only [exArgs, AtolArg.entries, List.mem_singleton] at hx
      rw [hx, ← ltNum_zero]
      norm_num [PyFloat.ltNum]
    · rw [← ltNum_zero]
      norm_num [PyFloat.ltNum]
    · simp only [exArgs, Option.some.injEq] at hx
      rw [← hx]
      refine ⟨by norm_num, fun b hb => ?_⟩
      simp only [exArgs, Bound.num.injEq] at hb
      rw [← hb]
      norm_num [exArgs]
  refine ⟨hok, fun p hp => ?_⟩
  obtain ⟨s, h1, h2⟩ := C96_shipped p hp
  obtain ⟨⟨c, v⟩, hr⟩ := (C96_accepted_iff (M := ⟨1 / 2 ^ 53, 1 / 10 ^ 154, fun x e => x ^ e⟩)
    (meth := fun _ _ => rkMethod (p.1.tab ℝ) (fun _ y => -y) (fun _ _ _ => .num (1 / 2))) (ev := fun _ _ => 0)
    (hs := fun _ _ _ => ((1 : ℝ), 3)) (Ks0 := fun _ => (0 : ℝ)) h1 h2).mpr hok
  exact ⟨c, v, hr, (C96_ready h1 h2 (by norm_num) (by norm_num) PowOK.rpow hr (fun _ _ _ _ h => by cases h)).1,
    ((C96_first_step hr).1 _ rfl).1⟩

end Extensisq
