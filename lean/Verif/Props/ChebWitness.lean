import Verif.Props.ChebWork

/-!
# Runs of the SSV2stab driver over the rationals: witnesses for C42, C43, C67, C80, C81
-/

set_option linter.unusedSectionVars false
set_option maxRecDepth 100000

namespace Extensisq

/-- A driver for `y' = rhs(t, y)` on `ℚ`. The stage function `y + h fn` is what `rkcStages` computes when the
right-hand side is constant (`C44_constant`). -/
def chebW (rhs : ℚ → ℚ → ℚ) (tb : Option ℚ) (dir maxStep : ℚ) (rho : ℚ → ℚ → ℚ)
    (en : ℚ → ℚ → ℚ → ENorm ℚ) : ChebCfg ℚ ℚ where
  rhs := rhs
  stg := fun _ yn fn h _ => yn + h * fn
  tb := tb
  dir := dir
  maxStep := maxStep
  hmin0 := 1 / 10 ^ 10
  sqrtmin := 1 / 10 ^ 20
  uround := 1 / 10 ^ 16
  mmax := 100
  constJac := false
  rhoJac := some rho
  rho := fun _ _ _ _ => ⟨none, 50, none⟩
  errNorm := en
  est0 := fun x _ => .num |x|
  pw := pwInv
  sqrt := fun x => |x|

theorem chebW_ok (rhs : ℚ → ℚ → ℚ) (tb : Option ℚ) (dir maxStep : ℚ) (rho : ℚ → ℚ → ℚ)
    (en : ℚ → ℚ → ℚ → ENorm ℚ) (hd : dir = 1 ∨ dir = -1) (hm : 0 < maxStep) (hr : ∀ t y, 0 ≤ rho t y)
    (he : ∀ e y yn x, en e y yn = .num x → 0 ≤ x) : ChebOK (chebW rhs tb dir maxStep rho en) where
  dir := hd
  sqrtmin := by norm_num [chebW]
  uround := by norm_num [chebW]
  mmax := by norm_num [chebW]
  maxStep := hm
  hmin0 := by norm_num [chebW]
  rhoJac := by
    intro r h t y
    simp only [chebW, Option.some.injEq] at h
    rw [← h]; exact hr t y
  rho := by intro t y f v x h; simp [chebW] at h
  errNorm := he
  sqrt := fun x => abs_nonneg x
  pw := PowUp.inv

/-- Integration of `y' = 1` from 0 to 21 with `max_step = 10`. -/
def chebA : ChebCfg ℚ ℚ := chebW (fun _ _ => 1) (some 21) 1 10 (fun _ _ => 1) (fun e _ _ => .num |e|)

/-- The solver after `n` calls of `step()` (each with enough fuel). -/
def chebAfter (c : ChebCfg ℚ ℚ) (v0 : ChebSolver ℚ ℚ) : ℕ → ChebSolver ℚ ℚ
  | 0 => v0
  | n + 1 => match chebStep c 10 (chebAfter c v0 n) with
    | none => chebAfter c v0 n
    | some r => r.2

theorem chebAfter_reach (c : ChebCfg ℚ ℚ) (v0 : ChebSolver ℚ ℚ) (n : ℕ) : ChebReach c v0 (chebAfter c v0 n) := by
  induction n with
  | zero => exact .refl
  | succ n ih =>
    unfold chebAfter
    cases h : chebStep c 10 (chebAfter c v0 n) with
    | none => exact ih
    | some r => exact .tail ih h

theorem chebA_start (f : ℚ) (hf : 0 < f) : ChebStart chebA 0 (some f) :=
  ⟨chebW_ok _ _ _ _ _ _ (Or.inl rfl) (by norm_num) (fun _ _ => by norm_num)
    (fun e y yn x h => by cases h; exact abs_nonneg _),
   fun a ha => by cases ha; exact hf,
   fun b hb => by simp only [chebA, chebW, Option.some.injEq] at hb; rw [← hb]; norm_num [chebA, chebW]⟩

/-- **C43** (finding). A step may exceed `max_step` by 10 percent: with `max_step = 10` the second step is
of size 11. The hypotheses of the theorems on C42, C43 and C67 hold for this run. -/
theorem C43_exceeds_max_step : ChebStart chebA 0 (some 10) ∧
    ChebReach chebA (newCheb chebA 0 0 (some 10)) (chebAfter chebA (newCheb chebA 0 0 (some 10)) 2) ∧
    chebA.maxStep = 10 ∧
    (chebAfter chebA (newCheb chebA 0 0 (some 10)) 1).st.t = 10 ∧
    (chebAfter chebA (newCheb chebA 0 0 (some 10)) 2).st.t = 21 ∧
    (chebAfter chebA (newCheb chebA 0 0 (some 10)) 2).status = .finished :=
  ⟨chebA_start 10 (by norm_num), chebAfter_reach _ _ 2, by decide +kernel, by decide +kernel, by decide +kernel,
    by decide +kernel⟩

/-- The same problem with `max_step = 1`. -/
def chebB : ChebCfg ℚ ℚ := chebW (fun _ _ => 1) (some 21) 1 1 (fun _ _ => 1) (fun e _ _ => .num |e|)

/-- **C43** (finding). `first_step` is not limited by `max_step`: with `max_step = 1` and `first_step = 15` the
first step is of size 15. -/
theorem C43_first_step_not_limited :
    chebB.maxStep = 1 ∧ (chebAfter chebB (newCheb chebB 0 0 (some 15)) 1).st.t = 15 ∧
    (chebAfter chebB (newCheb chebB 0 0 (some 15)) 1).status = .running := by decide +kernel

/-- A run with a rejected attempt: the error norm is the size of the change. -/
def chebR : ChebCfg ℚ ℚ := chebW (fun _ _ => 1) (some 21) 1 10 (fun _ _ => 1) (fun _ y yn => .num |y - yn|)

/-- C43, C67: rejections occur in reachable states: the first attempt, of size 5, is rejected, the second, of size
0.8, accepted; both use the spectral radius of the current point. -/
theorem cheb_rejection_reachable : ChebStart chebR 0 (some 5) ∧
    ChebReach chebR (newCheb chebR 0 0 (some 5)) (chebAfter chebR (newCheb chebR 0 0 (some 5)) 1) ∧
    ((chebAfter chebR (newCheb chebR 0 0 (some 5)) 1).st.calls.map fun q => (q.t, q.h, q.m)) =
      [(0, 4 / 5, 2), (0, 5, 3)] ∧
    (chebAfter chebR (newCheb chebR 0 0 (some 5)) 1).st.t = 4 / 5 ∧
    (chebAfter chebR (newCheb chebR 0 0 (some 5)) 1).st.nrej = 1 :=
  ⟨⟨chebW_ok _ _ _ _ _ _ (Or.inl rfl) (by norm_num) (fun _ _ => by norm_num)
      (fun e y yn x h => by cases h; exact abs_nonneg _),
    fun a ha => by cases ha; norm_num,
    fun b hb => by simp only [chebR, chebW, Option.some.injEq] at hb; rw [← hb]; norm_num [chebR, chebW]⟩,
   chebAfter_reach _ _ 1, by decide +kernel, by decide +kernel, by decide +kernel⟩

/-- Backward integration from 0 to -1 of problems which are equal for `t ≤ 0`. -/
def chebBack (x : ℚ) : ChebCfg ℚ ℚ :=
  chebW (fun t _ => if t > 0 then x else 1) (some (-1)) (-1) 1 (fun _ _ => 1) (fun e _ _ => .num |e|)

/-- **C43** (finding). The initial step of a backward integration depends on the right-hand side outside the
interval of integration, at times after `t0`: the two problems agree for `t ≤ 0`, and the first step of an
integration from 0 to -1 is different. -/
theorem C43_initial_step_wrong_side :
    (∀ t ≤ 0, ∀ y, (chebBack 1).rhs t y = (chebBack 100).rhs t y) ∧
    (chebAfter (chebBack 1) (newCheb (chebBack 1) 0 0 none) 1).st.t = -1 ∧
    (chebAfter (chebBack 100) (newCheb (chebBack 100) 0 0 none) 1).st.t = -(1 / 990) := by
  refine ⟨?_, by decide +kernel, by decide +kernel⟩
  intro t ht y
  simp only [chebBack, chebW]
  rw [if_neg (not_lt.mpr ht), if_neg (not_lt.mpr ht)]

/-- A `rho_jac` which is positive at the start, where the constructor checks it, and negative later. -/
def chebNeg : ChebCfg ℚ ℚ :=
  chebW (fun _ _ => 1) (some 21) 1 10 (fun t _ => if t = 0 then 1 else -1) (fun e _ _ => .num |e|)

/-- **C42** (finding). `rho_jac` is checked at the start only. If it is negative later, `step()` raises a math
domain error. -/
theorem C42_negative_rho_jac :
    (chebAfter chebNeg (newCheb chebNeg 0 0 (some 10)) 1).st.t = 10 ∧
    (chebStep chebNeg 10 (chebAfter chebNeg (newCheb chebNeg 0 0 (some 10)) 1)).map (·.1) = some .domain := by
  decide +kernel

/-- C80, C81: a run with a rejected attempt; the evaluations are `1 + 3 + 2`, and those of the second step. -/
example : (chebAfter chebR (newCheb chebR 0 0 (some 5)) 1).st.nfev = 1 + 0 + (3 + 2) ∧
    (chebAfter chebR (newCheb chebR 0 0 (some 5)) 1).st.maxm = 3 ∧
    (chebAfter chebR (newCheb chebR 0 0 (some 5)) 2).st.calls.length = 3 ∧
    (chebAfter chebR (newCheb chebR 0 0 (some 5)) 1).st.absh.isSome ∧
    (chebAfter chebR (newCheb chebR 0 0 (some 5)) 2).status = .running := by decide +kernel

/-- The same problem with the power method (three evaluations each time) instead of `rho_jac`. -/
def chebP : ChebCfg ℚ ℚ := { chebR with
  rhoJac := none, rho := fun _ y _ _ => ⟨some 1, 3, some y⟩, maxStep := 1 / 10 }

theorem chebP_start : ChebStart chebP 0 none :=
  ⟨{ dir := Or.inl rfl
     sqrtmin := by norm_num [chebP, chebR, chebW]
     uround := by norm_num [chebP, chebR, chebW]
     mmax := by norm_num [chebP, chebR, chebW]
     maxStep := by norm_num [chebP]
     hmin0 := by norm_num [chebP, chebR, chebW]
     rhoJac := by intro r h; cases h
     rho := by intro t y f v x h; cases h; norm_num
     errNorm := by intro e y yn x h; cases h; exact abs_nonneg _
     sqrt := fun x => abs_nonneg x
     pw := PowUp.inv },
   (fun a ha => by cases ha),
   (fun b hb => by simp only [chebP, chebR, chebW, Option.some.injEq] at hb; rw [← hb]; norm_num [chebP, chebR, chebW])⟩

/-- C80 with the power method and the automatic initial step: 30 steps, in which the spectral radius is estimated
twice, the second time with the vector found by the first; one evaluation for the initial step size. -/
example : ChebReach chebP (newCheb chebP 0 0 none) (chebAfter chebP (newCheb chebP 0 0 none) 30) ∧
    (chebAfter chebP (newCheb chebP 0 0 none) 30).st.calls.length = 30 ∧
    (chebAfter chebP (newCheb chebP 0 0 none) 30).st.nfev = 1 + 1 + 30 * 2 ∧
    (chebAfter chebP (newCheb chebP 0 0 none) 30).st.maxm = 2 ∧
    (chebAfter chebP (newCheb chebP 0 0 none) 30).st.nfesig = 6 ∧
    ((chebAfter chebP (newCheb chebP 0 0 none) 30).st.rhos.map fun r => r.2.2.2) = [some 0, none] :=
  ⟨chebAfter_reach _ _ 30, by decide +kernel, by decide +kernel, by decide +kernel, by decide +kernel, by decide +kernel⟩

end Extensisq
