import Verif.Lemmas.BSeriesNT
import Verif.Props.Nystrom
import Mathlib.Analysis.SpecialFunctions.Trigonometric.Deriv

/-!
# C71: order of the Nystrom methods

All order conditions of the rational Nystrom tables, and the resulting local error for every smooth
acceleration.
-/

set_option linter.unusedSectionVars false
set_option maxRecDepth 100000

namespace Extensisq
open scoped ContDiff
open Finset

/-- The Nystrom classes with rational tables. -/
def rationalNy : List NyTable := [MR6NN, Fi4N, Fi5N]

namespace NyTable

/-- Matrices and nodes extended by the evaluation at the new point, as lists. -/
def lA (R : NyTable) : List (List ℚ) := R.A ++ [R.B]
def lAp (R : NyTable) : List (List ℚ) := (if R.hasAp then R.Ap else R.A.map fun _ => []) ++ [R.Bp]
def lC (R : NyTable) : List ℚ := R.C ++ [1]

/-- The lists agree with the extended tableau. -/
theorem full_eq (R : NyTable) (hR : R ∈ rationalNy) :
    (∀ i, i < R.s + 1 → ∀ j, j < R.s + 1 → (R.tab ℚ).fullA i j = matOf R.lA i j) ∧
    (∀ i, i < R.s + 1 → ∀ j, j < R.s + 1 → (R.tab ℚ).fullAp i j = matOf R.lAp i j) ∧
    (∀ i, i < R.s + 1 → (R.tab ℚ).fullC i = vecOf R.lC i) ∧
    (∀ i, i < R.s + 1 → (R.tab ℚ).mainB i = vecOf R.B i) ∧
    (∀ i, i < R.s + 1 → (R.tab ℚ).mainBp i = vecOf R.Bp i) ∧
    R.lA.length = R.lC.length ∧ R.lAp.length = R.lC.length ∧ R.lC.length = R.s + 1 := by
  have key : ∀ R ∈ rationalNy,
    (∀ i, i < R.s + 1 → ∀ j, j < R.s + 1 → (R.tab ℚ).fullA i j = matOf R.lA i j) ∧
    (∀ i, i < R.s + 1 → ∀ j, j < R.s + 1 → (R.tab ℚ).fullAp i j = matOf R.lAp i j) ∧
    (∀ i, i < R.s + 1 → (R.tab ℚ).fullC i = vecOf R.lC i) ∧
    (∀ i, i < R.s + 1 → (R.tab ℚ).mainB i = vecOf R.B i) ∧
    (∀ i, i < R.s + 1 → (R.tab ℚ).mainBp i = vecOf R.Bp i) ∧
    R.lA.length = R.lC.length ∧ R.lAp.length = R.lC.length ∧ R.lC.length = R.s + 1 := by
    decide +kernel
  exact key R hR

/-- Casts of the extended tableau. -/
theorem full_cast (R : NyTable) (K : Type*) [Field K] [CharZero K] (i j : ℕ) :
    (R.tab K).fullA i j = (((R.tab ℚ).fullA i j : ℚ) : K) ∧
    (R.tab K).fullAp i j = (((R.tab ℚ).fullAp i j : ℚ) : K) ∧
    (R.tab K).fullC i = (((R.tab ℚ).fullC i : ℚ) : K) ∧
    (R.tab K).mainB i = (((R.tab ℚ).mainB i : ℚ) : K) ∧
    (R.tab K).mainBp i = (((R.tab ℚ).mainBp i : ℚ) : K) := by
  have eA : (R.tab K).A i j = (((R.tab ℚ).A i j : ℚ) : K) := by simp [NyTable.tab]
  have eAp : (R.tab K).Ap i j = (((R.tab ℚ).Ap i j : ℚ) : K) := by simp [NyTable.tab]
  have eB : ∀ i, (R.tab K).B i = (((R.tab ℚ).B i : ℚ) : K) := by intro i; simp [NyTable.tab]
  have eBp : ∀ i, (R.tab K).Bp i = (((R.tab ℚ).Bp i : ℚ) : K) := by intro i; simp [NyTable.tab]
  have eC : (R.tab K).C i = (((R.tab ℚ).C i : ℚ) : K) := by simp [NyTable.tab]
  unfold NTableau.fullA NTableau.fullAp NTableau.fullC NTableau.mainB NTableau.mainBp
  by_cases h2 : i < R.s
  · have h2K : i < (R.tab K).s := h2
    have h2Q : i < (R.tab ℚ).s := h2
    simp only [h2K, h2Q, if_true, eA, eAp, eB, eBp, eC]
    by_cases h1 : j < i <;> simp only [h1, if_true, if_false, Rat.cast_zero, and_self]
  · have h2K : ¬ i < (R.tab K).s := h2
    have h2Q : ¬ i < (R.tab ℚ).s := h2
    simp only [h2K, h2Q, if_false]
    by_cases h3 : i = R.s
    · have h3K : i = (R.tab K).s := h3
      have h3Q : i = (R.tab ℚ).s := h3
      rw [if_pos h3K, if_pos h3Q, if_pos h3K, if_pos h3Q, eB, eBp]
      by_cases h1 : j < i <;>
        simp only [h1, if_true, if_false, Rat.cast_zero, Rat.cast_one, and_self]
    · have h3K : ¬ i = (R.tab K).s := h3
      have h3Q : ¬ i = (R.tab ℚ).s := h3
      rw [if_neg h3K, if_neg h3Q, if_neg h3K, if_neg h3Q]
      by_cases h1 : j < i <;>
        simp only [h1, if_true, if_false, Rat.cast_zero, Rat.cast_one, and_self]

end NyTable

theorem rationalNy_check : ∀ R ∈ rationalNy,
    nCheck R.hasAp R.lA R.lAp R.lC (orderTest R.B R.Bp R.order) R.order = true ∧
    nCheck R.hasAp R.lA R.lAp R.lC (errorTest R.E R.Ep R.orderSec) R.orderSec = true := by
  decide +kernel

/-- **C71**. Over any field of characteristic zero, the weights of `MR6NN`, `Fi4N` and `Fi5N` satisfy all
Nystrom order conditions up to the advertised order (`MR6NN`: those of velocity independent problems). -/
theorem C71_main_order (K : Type*) [Field K] [CharZero K] (R : NyTable) (hR : R ∈ rationalNy) :
    NyOrder (okVd R.hasAp) (R.s + 1) (R.tab K).fullA (R.tab K).fullAp (R.tab K).fullC (R.tab K).mainB
      (R.tab K).mainBp R.order := by
  obtain ⟨h1, h2, h3, h4, h5, h6, h7, h8⟩ := R.full_eq hR
  have h := nyOrder_of_check (K := K) h6 (fun _ => h7) (rationalNy_check R hR).1
  rw [h8] at h
  intro q hq
  obtain ⟨e1, e2⟩ := h q hq
  have ew : ∀ i, i < R.s + 1 → q.weight (R.s + 1) (R.tab K).fullA (R.tab K).fullAp (R.tab K).fullC i =
      q.weight (R.s + 1) (fun i j => ((matOf R.lA i j : ℚ) : K)) (fun i j => ((matOf R.lAp i j : ℚ) : K))
        (fun i => ((vecOf R.lC i : ℚ) : K)) i := fun i hi =>
    NForest.weight_congr
      (fun i hi j hj => by rw [(R.full_cast K i j).1, h1 i hi j hj])
      (fun i hi j hj => by rw [(R.full_cast K i j).2.1, h2 i hi j hj])
      (fun i hi => by rw [(R.full_cast K i 0).2.2.1, h3 i hi]) q i hi
  constructor
  · intro ho
    rw [← e1 ho]
    apply sum_congr rfl
    intro i hi
    rw [mem_range] at hi
    rw [ew i hi, (R.full_cast K i 0).2.2.2.1, h4 i hi]
  · intro ho
    rw [← e2 ho]
    apply sum_congr rfl
    intro i hi
    rw [mem_range] at hi
    rw [ew i hi, (R.full_cast K i 0).2.2.2.2, h5 i hi]

/-- **C71**. The error weights annihilate all conditions up to the order of the embedded method. -/
theorem C71_error_order (K : Type*) [Field K] [CharZero K] (R : NyTable) (hR : R ∈ rationalNy) :
    NyError (okVd R.hasAp) (R.s + 1) (R.tab K).fullA (R.tab K).fullAp (R.tab K).fullC (R.tab K).E
      (R.tab K).Ep R.orderSec := by
  obtain ⟨h1, h2, h3, h4, h5, h6, h7, h8⟩ := R.full_eq hR
  have h := nyError_of_check (K := K) h6 (fun _ => h7) (rationalNy_check R hR).2
  rw [h8] at h
  intro q hq
  obtain ⟨e1, e2⟩ := h q hq
  have ew : ∀ i, i < R.s + 1 → q.weight (R.s + 1) (R.tab K).fullA (R.tab K).fullAp (R.tab K).fullC i =
      q.weight (R.s + 1) (fun i j => ((matOf R.lA i j : ℚ) : K)) (fun i j => ((matOf R.lAp i j : ℚ) : K))
        (fun i => ((vecOf R.lC i : ℚ) : K)) i := fun i hi =>
    NForest.weight_congr
      (fun i hi j hj => by rw [(R.full_cast K i j).1, h1 i hi j hj])
      (fun i hi j hj => by rw [(R.full_cast K i j).2.1, h2 i hi j hj])
      (fun i hi => by rw [(R.full_cast K i 0).2.2.1, h3 i hi]) q i hi
  constructor
  · intro ho
    rw [← e1 ho]
    apply sum_congr rfl
    intro i hi
    rw [mem_range] at hi
    rw [ew i hi]; rfl
  · intro ho
    rw [← e2 ho]
    apply sum_congr rfl
    intro i hi
    rw [mem_range] at hi
    rw [ew i hi]; rfl

/-! ## Local error -/

open Asymptotics Filter Topology

variable {E : Type*} [NormedAddCommGroup E] [NormedSpace ℝ E]

theorem sum_fullA {T : NTableau ℝ} (i : ℕ) (hi : i ≤ T.s) (k : ℕ → E) :
    ∑ j ∈ range (T.s + 1), T.fullA i j • k j =
      (if i < T.s then ∑ j ∈ range i, T.A i j • k j else ∑ j ∈ range T.s, T.B j • k j) ∧
    ∑ j ∈ range (T.s + 1), T.fullAp i j • k j =
      (if i < T.s then ∑ j ∈ range i, T.Ap i j • k j else ∑ j ∈ range T.s, T.Bp j • k j) := by
  have hsub : range i ⊆ range (T.s + 1) := by
    intro j hj; rw [mem_range] at *; omega
  constructor
  all_goals
    rw [← sum_subset hsub]
    · split_ifs with h
      · apply sum_congr rfl
        intro j hj
        first | unfold NTableau.fullA | unfold NTableau.fullAp
        rw [if_pos (mem_range.mp hj), if_pos h]
      · obtain rfl : i = T.s := by omega
        apply sum_congr rfl
        intro j hj
        first | unfold NTableau.fullA | unfold NTableau.fullAp
        rw [if_pos (mem_range.mp hj), if_neg h, if_pos rfl]
    · intro j _ hj
      rw [mem_range] at hj
      first | unfold NTableau.fullA | unfold NTableau.fullAp
      rw [if_neg hj, zero_smul]

/-- **C71**. Let the acceleration be smooth at the starting point (for `MR6NN`: and independent of the
velocity), and `y = (u, u')` the solution of `u'' = acc(t, u, u')` through it. The position and velocity
computed by a step of size `h` differ from `y(t0 + h)` by `O(h^(order+1))`, and the error estimate is
`O(h^(order_secondary+1))`. -/
theorem C71_local_error_order (R : NyTable) (hR : R ∈ rationalNy) {acc : ℝ → E × E → E} {t0 : ℝ}
    {y0 : E × E} (ha : ContDiffAt ℝ ∞ (fun z : ℝ × (E × E) => acc z.1 z.2) (t0, y0))
    (hv : R.hasAp = false → ∀ t u v w, acc t (u, v) = acc t (u, w))
    {k : ℝ → ℕ → E} {yNew : ℝ → E × E} (hk : ∀ h, IsNyStep (R.tab ℝ) acc t0 y0 h (k h) (yNew h)) :
    (∀ y : ℝ → E × E, y t0 = y0 → (∀ᶠ t in 𝓝 t0, HasDerivAt y ((y t).2, acc t (y t)) t) →
      (fun h => yNew h - y (t0 + h)) =O[𝓝 0] fun h : ℝ => h ^ (R.order + 1)) ∧
    (fun h => nyErrorEstimate (R.tab ℝ) h (k h)) =O[𝓝 0] fun h : ℝ => h ^ (R.orderSec + 1) := by
  set T := R.tab ℝ with hT
  have hst : ∀ i, i < T.s + 1 → ∀ᶠ h in 𝓝 (0 : ℝ), k h i = acc (t0 + T.fullC i * h)
      (y0.1 + (T.fullC i * h) • y0.2 + h ^ 2 • ∑ j ∈ range (T.s + 1), T.fullA i j • k h j,
       y0.2 + h • ∑ j ∈ range (T.s + 1), T.fullAp i j • k h j) := by
    intro i hi
    apply Eventually.of_forall
    intro h
    rw [(sum_fullA i (by omega) (k h)).1, (sum_fullA i (by omega) (k h)).2]
    unfold NTableau.fullC
    split_ifs with hs
    · exact (hk h).stage i hs
    · obtain rfl : i = T.s := by omega
      rw [one_mul, ← (hk h).pos, ← (hk h).vel]
      exact (hk h).last
  have hA0 : ∀ i, i < T.s + 1 → ∀ j, j < T.s + 1 → i ≤ j → T.fullA i j = 0 ∧ T.fullAp i j = 0 := by
    intro i _ j _ hj
    unfold NTableau.fullA NTableau.fullAp
    rw [if_neg (by omega), if_neg (by omega)]
    exact ⟨rfl, rfl⟩
  obtain ⟨h1, h2⟩ := local_error_ny R.hasAp ha hv hst (explicit_bounded_ny hA0 ha.continuousAt hst)
  have ho : ∀ R ∈ rationalNy, 1 ≤ R.order := by decide +kernel
  refine ⟨?_, h2 _ _ _ (C71_error_order ℝ R hR)⟩
  intro y hy0 hy
  have := h1 _ _ _ (ho R hR) (C71_main_order ℝ R hR) y hy0 hy
  refine this.congr_left ?_
  intro h
  have e : ∀ c : ℕ → ℝ, ∑ j ∈ range (T.s + 1), (if j < T.s then c j else 0) • k h j =
      ∑ j ∈ range T.s, c j • k h j := by
    intro c
    rw [sum_range_succ, if_neg (lt_irrefl _), zero_smul, add_zero]
    apply sum_congr rfl
    intro j hj
    rw [if_pos (mem_range.mp hj)]
  have e1 := e T.B
  have e2 := e T.Bp
  have : (y0.1 + h • y0.2 + h ^ 2 • ∑ j ∈ range (T.s + 1), T.mainB j • k h j,
      y0.2 + h • ∑ j ∈ range (T.s + 1), T.mainBp j • k h j) = yNew h := by
    unfold NTableau.mainB NTableau.mainBp
    rw [e1, e2, ← (hk h).pos, ← (hk h).vel]
  rw [← this]

/-- **C71** for the attempt made by the driver. -/
theorem C71_attempt (R : NyTable) (hR : R ∈ rationalNy) {acc : ℝ → E × E → E} {t0 : ℝ}
    {y0 : E × E} (ha : ContDiffAt ℝ ∞ (fun z : ℝ × (E × E) => acc z.1 z.2) (t0, y0))
    (hv : R.hasAp = false → ∀ t u v w, acc t (u, v) = acc t (u, w))
    (errNorm : E × E → E × E → E × E → ENorm ℝ) (Ks : ℝ → ℕ → E) (y : ℝ → E × E) (hy0 : y t0 = y0)
    (hy : ∀ᶠ t in 𝓝 t0, HasDerivAt y ((y t).2, acc t (y t)) t) :
    (fun h => (nyTrial (R.tab ℝ) acc errNorm t0 y0 (acc t0 y0) h (Ks h)).yNew - y (t0 + h))
      =O[𝓝 0] fun h : ℝ => h ^ (R.order + 1) := by
  have key : ∀ R ∈ rationalNy, R.C.getD 0 0 = 0 ∧ 0 < R.s := by decide +kernel
  have h3 : (R.tab ℝ).C 0 = 0 := by
    have := congrArg (fun q : ℚ => (q : ℝ)) (key R hR).1
    simpa [NyTable.tab] using this
  exact (C71_local_error_order R hR ha hv
    (fun h => (nyTrial_isNyStep (R.tab ℝ) acc errNorm t0 y0 h (Ks h) h3 (key R hR).2).1)).1 y hy0 hy

/-- C71: the hypotheses are met by the harmonic oscillator, with solution `(cos, -sin)`. -/
example : ContDiffAt ℝ ∞ (fun z : ℝ × (ℝ × ℝ) => -z.2.1) (0, (1, 0)) ∧
    ((Real.cos 0, -Real.sin 0) : ℝ × ℝ) = (1, 0) ∧
    ∀ᶠ t in 𝓝 (0 : ℝ), HasDerivAt (fun t => ((Real.cos t, -Real.sin t) : ℝ × ℝ)) (-Real.sin t, -Real.cos t) t :=
  ⟨ContDiff.contDiffAt (by fun_prop), by simp,
    Eventually.of_forall fun t => (Real.hasDerivAt_cos t).prodMk (Real.hasDerivAt_sin t).neg⟩

end Extensisq
