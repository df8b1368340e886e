import Verif.Model.RK
import Verif.Lemmas.Driver
import Mathlib.Tactic.Ring

/-! Helper lemmas about the Runge-Kutta attempt. -/

set_option linter.unusedSectionVars false

namespace Extensisq
open Finset

section
variable {K V : Type*} [Field K] [LinearOrder K] [AddCommGroup V] [Module K V]

theorem rkStages_zero (T : Tableau K) (rhs : K → V → V) (t : K) (y : V) (h : K) (n : ℕ)
    (Ks : ℕ → V) : rkStages T rhs t y h n Ks 0 = Ks 0 := by
  induction n with
  | zero => rfl
  | succ n ih =>
    cases n with
    | zero => rfl
    | succ n => simp only [rkStages]; rw [Function.update_of_ne (by omega)]; exact ih

theorem rkStages_ge (T : Tableau K) (rhs : K → V → V) (t : K) (y : V) (h : K) (n : ℕ)
    (Ks : ℕ → V) (i : ℕ) (hi : n ≤ i) : rkStages T rhs t y h n Ks i = Ks i := by
  induction n with
  | zero => rfl
  | succ n ih =>
    cases n with
    | zero => rfl
    | succ n =>
      simp only [rkStages]; rw [Function.update_of_ne (by omega)]; exact ih (by omega)

theorem rkStage_congr (T : Tableau K) (rhs : K → V → V) (t : K) (y : V) (h : K)
    (K1 K2 : ℕ → V) (i : ℕ) (hk : ∀ j, j < i → K1 j = K2 j) :
    rkStage T rhs t y h K1 i = rkStage T rhs t y h K2 i := by
  unfold rkStage
  congr 3
  apply sum_congr rfl
  intro j hj
  rw [hk j (mem_range.mp hj)]

/-- The filled array satisfies all stage equations. -/
theorem rkStages_eq (T : Tableau K) (rhs : K → V → V) (t : K) (y : V) (h : K) (n : ℕ)
    (Ks : ℕ → V) (i : ℕ) (h0 : 0 < i) (hi : i < n) :
    rkStages T rhs t y h n Ks i = rkStage T rhs t y h (rkStages T rhs t y h n Ks) i := by
  induction n with
  | zero => omega
  | succ n ih =>
    cases n with
    | zero => omega
    | succ n =>
      simp only [rkStages]
      have hc : ∀ j, j < i → Function.update (rkStages T rhs t y h (n + 1) Ks) (n + 1)
          (rkStage T rhs t y h (rkStages T rhs t y h (n + 1) Ks) (n + 1)) j =
          rkStages T rhs t y h (n + 1) Ks j := by
        intro j hj; rw [Function.update_of_ne (by omega)]
      rw [rkStage_congr T rhs t y h _ _ i hc]
      by_cases he : i = n + 1
      · subst he; rw [Function.update_self]
      · rw [Function.update_of_ne he]; exact ih (by omega)

/-- Stages, solution and error vector of an attempt do not depend on the old array contents. -/
theorem rkStages_indep (T : Tableau K) (rhs : K → V → V) (t : K) (y : V) (h : K) (n : ℕ)
    (K1 K2 : ℕ → V) (h0 : K1 0 = K2 0) (i : ℕ) (hi : i < n) :
    rkStages T rhs t y h n K1 i = rkStages T rhs t y h n K2 i := by
  induction i using Nat.strong_induction_on with
  | _ i ih =>
    by_cases hz : i = 0
    · subst hz; rw [rkStages_zero, rkStages_zero, h0]
    · rw [rkStages_eq T rhs t y h n K1 i (by omega) hi, rkStages_eq T rhs t y h n K2 i (by omega) hi]
      exact rkStage_congr _ _ _ _ _ _ _ _ (fun j hj => ih j hj (by omega))

end
end Extensisq
