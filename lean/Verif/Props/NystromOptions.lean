import Verif.Props.NystromDense
import Verif.Props.Validate
import Mathlib.Analysis.SpecificLimits.Basic

/-!
# C53, C54: construction of Nystrom solvers; witnesses for C72
-/

set_option linter.unusedSectionVars false
set_option maxRecDepth 100000

namespace Extensisq
open Finset

/-! ## C53 -/

/-- `Mu5Nmb` with the error coefficients that all its solver objects share after the constructor calls `l`
(newest first). -/
def Mu5Nmb_after (l : List Bool) : NyTable := { Mu5Nmb with E := (mu5Class l).E, Ep := (mu5Class l).Ep }

/-- **C53** (finding F1). After constructor calls with the options `l`, the error coefficients are the tabulated
ones times `(3/4)^n`, where `n` counts the calls with `scale_embedded=True`. -/
theorem C53_coefficients (l : List Bool) :
    (mu5Class l).E = Mu5Nmb.E.map (· * (3 / 4) ^ (l.count true)) ∧
    (mu5Class l).Ep = Mu5Nmb.Ep.map (· * (3 / 4) ^ (l.count true)) := by
  induction l with
  | nil => simp [mu5Class]
  | cons b l ih =>
    cases b
    · simpa [mu5Class, mu5Init] using ih
    · simp only [mu5Class, mu5Init, if_true, List.count_cons_self]
      rw [ih.1, ih.2]
      simp only [List.map_map]
      constructor
      all_goals
        apply List.map_congr_left
        intro x _
        simp only [Function.comp, pow_succ]
        ring

theorem getD_map_mul (l : List ℚ) (c : ℚ) (i : ℕ) : (l.map (· * c)).getD i 0 = l.getD i 0 * c := by
  rw [List.getD_eq_getElem?_getD, List.getD_eq_getElem?_getD, List.getElem?_map]
  cases l[i]? <;> simp

/-- **C53**. The step is not affected, but the error estimate of every solver object of the class is scaled by the
number of objects constructed before and after it. -/
theorem C53_estimate {K X : Type*} [Field K] [CharZero K] [AddCommGroup X] [Module K X] (l : List Bool) (h : K)
    (k : ℕ → X) : nyErrorEstimate ((Mu5Nmb_after l).tab K) h k =
      ((3 / 4 : K) ^ (l.count true)) • nyErrorEstimate (Mu5Nmb.tab K) h k := by
  obtain ⟨h1, h2⟩ := C53_coefficients l
  have e1 : ∀ i, ((Mu5Nmb_after l).tab K).E i = (3 / 4 : K) ^ (l.count true) * (Mu5Nmb.tab K).E i := by
    intro i
    simp only [NyTable.tab, Mu5Nmb_after]
    rw [h1, getD_map_mul]
    push_cast
    ring
  have e2 : ∀ i, ((Mu5Nmb_after l).tab K).Ep i = (3 / 4 : K) ^ (l.count true) * (Mu5Nmb.tab K).Ep i := by
    intro i
    simp only [NyTable.tab, Mu5Nmb_after]
    rw [h2, getD_map_mul]
    push_cast
    ring
  have hs : ((Mu5Nmb_after l).tab K).s = (Mu5Nmb.tab K).s := rfl
  unfold nyErrorEstimate
  simp only [e1, e2, hs, mul_smul, ← smul_sum, Prod.smul_mk]
  rw [smul_comm, smul_comm h]

theorem C53_step_unaffected {K X : Type*} [Field K] [AddCommGroup X] [Module K X] (l : List Bool)
    (acc : K → X × X → X) (t : K) (y : X × X) (h : K) (k : ℕ → X) (yNew : X × X) :
    IsNyStep ((Mu5Nmb_after l).tab K) acc t y h k yNew ↔ IsNyStep (Mu5Nmb.tab K) acc t y h k yNew :=
  ⟨fun hh => ⟨hh.1, hh.2, hh.3, hh.4⟩, fun hh => ⟨hh.1, hh.2, hh.3, hh.4⟩⟩

/-- **C53**. Any step at all is accepted once enough solvers have been constructed: for every homogeneous
measure `N` of the estimate, tolerance `1` and every step there is a history that makes the estimate pass. -/
theorem C53_every_step_eventually_accepted {X : Type*} [AddCommGroup X] [Module ℝ X] (N : X × X → ℝ)
    (hN : ∀ (c : ℝ) v, 0 ≤ c → N (c • v) = c * N v) (h : ℝ) (k : ℕ → X) :
    ∃ l : List Bool, N (nyErrorEstimate ((Mu5Nmb_after l).tab ℝ) h k) < 1 := by
  have ht : Filter.Tendsto (fun n : ℕ => (3 / 4 : ℝ) ^ n * N (nyErrorEstimate (Mu5Nmb.tab ℝ) h k))
      Filter.atTop (nhds 0) := by
    have := (tendsto_pow_atTop_nhds_zero_of_lt_one (r := (3 / 4 : ℝ)) (by norm_num) (by norm_num)).mul_const
      (N (nyErrorEstimate (Mu5Nmb.tab ℝ) h k))
    simpa using this
  obtain ⟨n, hn⟩ := (ht.eventually (gt_mem_nhds (show (0 : ℝ) < 1 by norm_num))).exists
  refine ⟨List.replicate n true, ?_⟩
  rw [C53_estimate, hN _ _ (by positivity)]
  simpa using hn

/-- With `scale_embedded=False` in every call the solvers are independent. -/
theorem C53_independent_without_scaling (l : List Bool) (h : true ∉ l) :
    mu5Class l = ⟨Mu5Nmb.E, Mu5Nmb.Ep⟩ := by
  have h0 := List.count_eq_zero.mpr h
  obtain ⟨h1, h2⟩ := C53_coefficients l
  have : ∀ c d : ErrCoef, c.E = d.E → c.Ep = d.Ep → c = d := by
    intro c d h h'; cases c; cases d; simp_all
  apply this
  · rw [h1, h0]; simp
  · rw [h2, h0]; simp

/-- Configuration of `Mu5Nmb` for the harmonic oscillator after the constructor calls `l`. -/
def exMu (l : List Bool) : Cfg ℚ (ℚ × ℚ) ℚ :=
  { exOsc with
    m := nyMethod ((Mu5Nmb_after l).tab ℚ) (fun _ y => -y.1) (pairErr (1 / 10 ^ 7)) }

/-- **C53**, concrete: the same problem, arguments and first step; the attempt of the first solver is rejected,
that of a solver constructed after twenty others is accepted at once. -/
theorem C53_witness :
    ((step (exMu [true]) 1 (newSolver (exMu [true]) 0 (1, 0) (1 / 2) 1 fun _ => 0)).map fun p => p.1) = none ∧
    ((step (exMu (List.replicate 21 true)) 1
      (newSolver (exMu (List.replicate 21 true)) 0 (1, 0) (1 / 2) 1 fun _ => 0)).map
        fun p => (p.1, p.2.st.t)) = some (.ok, 1 / 2) := by
  decide +kernel

/-! ## C54 -/

section
variable {K : Type*} [Field K] [LinearOrder K] [IsStrictOrderedRing K]

/-- **C54** (finding F12). The controller of a `Fi5N` solver does not depend on `sc_params`, and no value is
rejected. -/
theorem C54_Fi5N_ignores_argument (pw : K → K → K) (e : K) (a b : ScArg K) :
    fi5ScControl pw e a = fi5ScControl pw e b ∧ (fi5ScControl pw e a).isSome :=
  ⟨rfl, by simp [fi5ScControl, initScControl, ScArg.truthy, scSelect, coefsRK]⟩

/-- **C54**. The other Nystrom classes use the given coefficients, exactly. -/
theorem C54_others_use_argument (pw : K → K → K) (e p q r g : K) :
    nyScControl pw e (.tuple [p, q, r, g]) = some ⟨p * e, q * e, -r, g, pw g (p + q)⟩ ∧
    nyScControl pw e (.str "standard") = some ⟨e, 0, 0, 9 / 10, pw (9 / 10) 1⟩ ∧
    nyScControl pw e .falsy = nyScControl pw e (.str "G") ∧
    nyScControl pw e (.str "no such controller") = none :=
  ⟨(C13_values pw e _ p q r g).1, (C13_values pw e _ p q r g).2,
   by simp [nyScControl, initScControl, ScArg.truthy], by
    simp [nyScControl, initScControl, ScArg.truthy, scSelect, coefsRK]⟩

/-- **C54**. Hence asking `Fi5N` for the standard controller has no effect. -/
theorem C54_Fi5N_differs (pw : K → K → K) (e : K) (he : e ≠ 0) :
    fi5ScControl pw e (.str "standard") ≠ nyScControl pw e (.str "standard") := by
  rw [(C54_others_use_argument pw e 0 0 0 0).2.1]
  simp only [fi5ScControl, initScControl, ScArg.truthy, scSelect, coefsRK, Bool.false_eq_true, if_false,
    Option.map_some, ne_eq, Option.some.injEq, ScParams.mk.injEq]
  intro h
  have h1 : (7 / 10 : K) * e = 1 * e := by rw [one_mul]; exact h.1
  have := mul_right_cancel₀ he h1
  norm_num at this

end

/-! ## C72: quintic output, witnesses -/

/-- **C72**. `Fi4N`, `Fi5N` (interpolant 0) and `Mu5Nmb` (`free`): the quintic output returns the states at both
ends, without any condition on the step. -/
theorem C72_quintic_ends {K X : Type*} [Field K] [CharZero K] [AddCommGroup X] [Module K X] (d : NyState K X)
    (ht : d.t ≠ d.tOld) (acc : K → X × X → X) :
    (fi4Dense d d.tOld = d.yOld ∧ fi4Dense d d.t = d.y) ∧
    ((fi5Dense .i0 acc d).1 d.tOld = d.yOld ∧ (fi5Dense .i0 acc d).1 d.t = d.y) ∧
    (mu5Dense false acc d d.tOld = d.yOld ∧ mu5Dense false acc d d.t = d.y) := by
  have := C25_quintic_ends ht two_ne_zero d.yOld d.y d.aOld d.a
  exact ⟨this, this, this⟩

/-- The state after a step of size `1/2` of `Fi5N` for the harmonic oscillator. -/
def exNyState : NyState ℚ ℚ :=
  let tr := nyTrial (Fi5N.tab ℚ) (fun _ y => -y.1) (pairErr 1) 0 ((1, 0) : ℚ × ℚ) (-1) (1 / 2) fun _ => 0
  ⟨0, 1 / 2, (1, 0), tr.yNew, -1, -tr.yNew.1, tr.stages⟩

/-- The state is a step of the method. -/
theorem exNyState_done : IsNyDone Fi5N (fun _ y => -y.1) exNyState := by
  have key : Fi5N.C.getD 0 0 = 0 ∧ 0 < Fi5N.s ∧ (Fi5N.tab ℚ).fsal = true := by decide +kernel
  have h3 : (Fi5N.tab ℚ).C 0 = 0 := by
    simp only [NyTable.tab, Rat.cast_id]; exact key.1
  have := nyTrial_isNyStep (Fi5N.tab ℚ) (fun _ (y : ℚ × ℚ) => -y.1) (pairErr 1) 0 (1, 0) (1 / 2)
    (fun _ => 0) h3 key.2.1
  have h1 := this.1
  dsimp only at h1 this
  rw [← this.2.2 key.2.2, Function.update_eq_self] at h1
  unfold IsNyDone
  have e : exNyState.t - exNyState.tOld = 1 / 2 := by simp [exNyState]
  rw [e]
  exact h1

/-- **C72** (finding F13), concrete: `dense_output` with interpolant 1 changes the position of the solver, so that
the stored acceleration is no longer the acceleration at the stored state, and the next step starts from
another point than without dense output. -/
theorem C72_interpolant1_changes_solution :
    let y' := (fi5Dense .i1 (fun _ y => -y.1) exNyState).2
    y'.1 ≠ exNyState.y.1 ∧ -y'.1 ≠ exNyState.a ∧ y'.2 = exNyState.y.2 := by decide +kernel

/-- C72: the hypotheses of the end point theorem are met, and the output is not constant. -/
example : (fi5Dense .i2 (fun _ y => -y.1) exNyState).1 (1 / 2) = exNyState.y ∧
    (fi5Dense .i2 (fun _ y => -y.1) exNyState).1 (1 / 4) ≠ exNyState.y := by decide +kernel

end Extensisq
