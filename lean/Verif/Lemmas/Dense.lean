import Verif.Model.Dense
import Mathlib.Data.List.GetD
import Mathlib.Tactic.Ring
import Mathlib.Tactic.FieldSimp
import Mathlib.Tactic.Module
import Mathlib.Tactic.LinearCombination
import Mathlib.Analysis.Calculus.Deriv.Pow
import Mathlib.Analysis.Calculus.Deriv.Mul
import Mathlib.Analysis.Calculus.Deriv.Add
import Mathlib.Analysis.Calculus.Deriv.Shift

/-! # Horner's rule -/

set_option linter.unusedSectionVars false

namespace Extensisq
open Finset

section
variable {K V : Type*} [Field K] [AddCommGroup V] [Module K V]

theorem hornerLoop_foldl (x : K) : ∀ (l : List V) (y : V),
    hornerLoop x l y = l.foldl (fun y q => x • (y + q)) y
  | [], _ => rfl
  | q :: r, y => by rw [hornerLoop, hornerLoop_foldl x r]; rfl

theorem hornerEval_foldr (x : K) (Q : List V) :
    hornerEval x Q = Q.foldr (fun q y => x • (y + q)) 0 := by
  have h : hornerEval x Q = Q.reverse.foldl (fun y q => x • (y + q)) 0 := by
    unfold hornerEval
    cases hq : Q.reverse with
    | nil => rfl
    | cons q r =>
      dsimp only
      rw [hornerLoop_foldl, List.foldl_cons, zero_add]
  rw [h, List.foldl_reverse]

theorem hornerEval_eq (x : K) (Q : List V) :
    hornerEval x Q = ∑ j ∈ range Q.length, x ^ (j + 1) • Q.getD j 0 := by
  rw [hornerEval_foldr]
  induction Q with
  | nil => simp
  | cons q r ih =>
    rw [List.foldr_cons, ih, List.length_cons, sum_range_succ', smul_add, smul_sum]
    congr 1
    · apply sum_congr rfl
      intro j _
      rw [smul_smul, List.getD_cons_succ]
      congr 1
      ring
    · simp

theorem hornerLoop'_foldl (x : K) : ∀ (l : List V) (y : V),
    hornerLoop' x l y = l.foldl (fun y q => x • y + q) y
  | [], _ => rfl
  | q :: r, y => by rw [hornerLoop', hornerLoop'_foldl x r]; rfl

theorem hornerEval'_eq (x : K) (Q : List V) :
    hornerEval' x Q = ∑ j ∈ range Q.length, x ^ j • Q.getD j 0 := by
  have h : hornerEval' x Q = Q.foldr (fun q y => x • y + q) 0 := by
    rw [← List.foldl_reverse]
    unfold hornerEval'
    cases hq : Q.reverse with
    | nil => rfl
    | cons q r =>
      dsimp only
      rw [hornerLoop'_foldl, List.foldl_cons, smul_zero, zero_add]
  rw [h]
  clear h
  induction Q with
  | nil => simp
  | cons q r ih =>
    rw [List.foldr_cons, ih, List.length_cons, sum_range_succ', smul_sum]
    congr 1
    · apply sum_congr rfl
      intro j _
      rw [smul_smul, List.getD_cons_succ]
      congr 1
      ring
    · simp

theorem horner_eq (tOld t : K) (yOld : V) (Q : List V) (τ : K) :
    horner tOld t yOld Q τ = yOld + (t - tOld) •
      ∑ j ∈ range Q.length, ((τ - tOld) / (t - tOld)) ^ (j + 1) • Q.getD j 0 := by
  unfold horner
  rw [hornerEval_eq, add_comm, List.length_map, smul_sum]
  congr 1
  apply sum_congr rfl
  intro j _
  rw [smul_comm]
  congr 1
  rw [List.getD_eq_getElem?_getD, List.getD_eq_getElem?_getD, List.getElem?_map]
  cases Q[j]? <;> simp

theorem denseQ_length (P : List (List ℚ)) (n : ℕ) (Ks : ℕ → V) : (denseQ K P n Ks).length = cols P := by
  simp [denseQ]

theorem denseQ_getD (P : List (List ℚ)) (n : ℕ) (Ks : ℕ → V) {j : ℕ} (hj : j < cols P) :
    (denseQ K P n Ks).getD j 0 = ∑ i ∈ range n, entry K P i j • Ks i := by
  rw [List.getD_eq_getElem?_getD, denseQ, List.getElem?_map, List.getElem?_range hj]
  rfl

/-- Interpolation weight of stage `i` at the scaled time `x`. -/
def pWeight (K : Type*) [DivisionRing K] (P : List (List ℚ)) (i : ℕ) (x : K) : K :=
  ∑ j ∈ range (cols P), entry K P i j * x ^ (j + 1)

/-- The dense output is a Runge-Kutta formula with weights depending on the scaled time. -/
theorem horner_denseQ (tOld t : K) (yOld : V) (P : List (List ℚ)) (n : ℕ) (Ks : ℕ → V) (τ : K) :
    horner tOld t yOld (denseQ K P n Ks) τ = yOld + (t - tOld) •
      ∑ i ∈ range n, pWeight K P i ((τ - tOld) / (t - tOld)) • Ks i := by
  rw [horner_eq, denseQ_length]
  congr 2
  rw [sum_congr rfl fun j hj => by rw [denseQ_getD P n Ks (mem_range.mp hj), smul_sum]]
  rw [sum_comm]
  apply sum_congr rfl
  intro i _
  unfold pWeight
  rw [sum_smul]
  apply sum_congr rfl
  intro j _
  rw [smul_smul, mul_comm]

/-- Extra stages do not touch earlier stages. -/
theorem extraStages_lt (rhs : K → V → V) (tOld : K) (yOld : V) (h : K) :
    ∀ (l : List (List ℚ × ℚ)) (s : ℕ) (Ks : ℕ → V) (i : ℕ), i < s →
      extraStages rhs tOld yOld h s l Ks i = Ks i
  | [], _, _, _, _ => rfl
  | (a, c) :: r, s, Ks, i, hi => by
    rw [extraStages, extraStages_lt rhs tOld yOld h r (s + 1) _ i (by omega),
      Function.update_of_ne (by omega)]

/-- Every extra stage satisfies its stage equation. -/
theorem extraStages_eq (rhs : K → V → V) (tOld : K) (yOld : V) (h : K) :
    ∀ (l : List (List ℚ × ℚ)) (s : ℕ) (Ks : ℕ → V) (m : ℕ) (hm : m < l.length),
      let k := extraStages rhs tOld yOld h s l Ks
      k (s + m) = rhs (tOld + ((l[m].2 : ℚ) : K) * h)
        (yOld + h • ∑ j ∈ range (s + m), ((l[m].1.getD j 0 : ℚ) : K) • k j)
  | [], _, _, _, hm => absurd hm (by simp)
  | (a, c) :: r, s, Ks, 0, _ => by
    dsimp only
    rw [extraStages, add_zero, extraStages_lt rhs tOld yOld h r (s + 1) _ s (by omega),
      Function.update_self]
    simp only [List.getElem_cons_zero]
    congr 3
    apply sum_congr rfl
    intro j hj
    have hj := mem_range.mp hj
    rw [extraStages_lt rhs tOld yOld h r (s + 1) _ j (by omega), Function.update_of_ne (by omega)]
  | (a, c) :: r, s, Ks, m + 1, hm => by
    have := extraStages_eq rhs tOld yOld h r (s + 1)
      (Function.update Ks s
        (rhs (tOld + (c : K) * h) (yOld + h • ∑ j ∈ range s, ((a.getD j 0 : ℚ) : K) • Ks j))) m
      (by simpa using hm)
    dsimp only at this ⊢
    rw [extraStages]
    rw [show s + 1 + m = s + (m + 1) by omega] at this
    simpa only [List.getElem_cons_succ] using this

end

section
variable {E : Type*} [NormedAddCommGroup E] [NormedSpace ℝ E]

/-- Derivative of the Horner output. -/
theorem horner_hasDerivAt (tOld t : ℝ) (ht : t ≠ tOld) (yOld : E) (Q : List E) (τ : ℝ) :
    HasDerivAt (horner tOld t yOld Q)
      (∑ j ∈ range Q.length, (((j : ℝ) + 1) * ((τ - tOld) / (t - tOld)) ^ j) • Q.getD j 0) τ := by
  have hne : t - tOld ≠ 0 := sub_ne_zero.mpr ht
  have hfun : horner tOld t yOld Q = fun τ => yOld + (t - tOld) •
      ∑ j ∈ range Q.length, ((τ - tOld) / (t - tOld)) ^ (j + 1) • Q.getD j 0 := by
    funext τ; exact horner_eq _ _ _ _ _
  rw [hfun]
  have hx : HasDerivAt (fun τ : ℝ => (τ - tOld) / (t - tOld)) (1 / (t - tOld)) τ :=
    ((hasDerivAt_id τ).sub_const tOld).div_const _
  have hs : HasDerivAt (fun τ : ℝ => ∑ j ∈ range Q.length,
      ((τ - tOld) / (t - tOld)) ^ (j + 1) • Q.getD j 0)
      (∑ j ∈ range Q.length, (((j + 1 : ℕ) : ℝ) * ((τ - tOld) / (t - tOld)) ^ j * (1 / (t - tOld)))
        • Q.getD j 0) τ := by
    apply HasDerivAt.fun_sum
    intro j _
    have := (hx.pow (j + 1)).smul_const (Q.getD j 0)
    simpa using this
  have := (hs.const_smul (t - tOld)).const_add yOld
  refine this.congr_deriv ?_
  rw [smul_sum]
  apply sum_congr rfl
  intro j _
  rw [smul_smul]
  congr 1
  push_cast
  field_simp

end
end Extensisq
