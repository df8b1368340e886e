import Verif.Props.HStartEstimate
import Mathlib.Algebra.Order.BigOperators.Group.Finset

/-!
# C15, continued: tolerance parameter, sampling point, evaluations
-/

set_option linter.unusedSectionVars false

namespace Extensisq
open Finset

variable {𝕜 : Type*} [RCLike 𝕜] {n : ℕ}

theorem logb_rpow_div {x : ℝ} (hx : 0 < x) (m : ℕ) : (10 : ℝ) ^ (Real.logb 10 x / (m + 1)) = x ^ (1 / ((m : ℝ) + 1)) := by
  rw [div_eq_mul_one_div, Real.rpow_mul (by norm_num), Real.rpow_logb (by norm_num) (by norm_num) hx]

/-- **C15**. The tolerance parameter that limits the first step lies between the `(morder+1)`-th roots of the smallest and the largest
tolerance; with one tolerance for all components it is the root of that number. (`tolmin` is the logarithm of the smallest
tolerance.) -/
theorem C15_tolerance_parameter (hn : 0 < n) {etol : Fin n → ℝ} {lo hi : ℝ} (h0 : 0 < lo) (hlo : ∀ i, lo ≤ etol i)
    (hhi : ∀ i, etol i ≤ hi) (m : ℕ) :
    lo ^ (1 / ((m : ℝ) + 1)) ≤ hsTolp etol (Real.logb 10 lo) m ∧ hsTolp etol (Real.logb 10 lo) m ≤ hi ^ (1 / ((m : ℝ) + 1)) ∧
    ∀ tol, 0 < tol → hsTolp (fun _ : Fin n => tol) (Real.logb 10 tol) m = tol ^ (1 / ((m : ℝ) + 1)) := by
  have hn' : (0 : ℝ) < n := by exact_mod_cast hn
  have hm : (0 : ℝ) < (m : ℝ) + 1 := by positivity
  have i0 : Fin n := ⟨0, hn⟩
  have hhi0 : 0 < hi := h0.trans_le ((hlo i0).trans (hhi i0))
  have h1 : (n : ℝ) * Real.logb 10 lo ≤ ∑ i, Real.logb 10 (etol i) := by
    have := Finset.card_nsmul_le_sum (univ : Finset (Fin n)) (fun i => Real.logb 10 (etol i)) (Real.logb 10 lo)
      (fun i _ => Real.logb_le_logb_of_le (by norm_num) h0 (hlo i))
    simpa using this
  have h2 : ∑ i, Real.logb 10 (etol i) ≤ (n : ℝ) * Real.logb 10 hi := by
    have := Finset.sum_le_card_nsmul (univ : Finset (Fin n)) (fun i => Real.logb 10 (etol i)) (Real.logb 10 hi)
      (fun i _ => Real.logb_le_logb_of_le (by norm_num) (h0.trans_le (hlo i)) (hhi i))
    simpa using this
  have h3 : Real.logb 10 lo ≤ (∑ i, Real.logb 10 (etol i)) / n := by rw [le_div_iff₀ hn']; linarith
  have h4 : (∑ i, Real.logb 10 (etol i)) / n ≤ Real.logb 10 hi := by rw [div_le_iff₀ hn']; linarith
  have h5 : Real.logb 10 lo ≤ Real.logb 10 hi := h3.trans h4
  refine ⟨?_, ?_, fun tol htol => ?_⟩
  · rw [← logb_rpow_div h0]
    unfold hsTolp
    refine Real.rpow_le_rpow_of_exponent_le (by norm_num) (div_le_div_of_nonneg_right ?_ hm.le)
    linarith
  · rw [← logb_rpow_div hhi0]
    unfold hsTolp
    refine Real.rpow_le_rpow_of_exponent_le (by norm_num) (div_le_div_of_nonneg_right ?_ hm.le)
    linarith
  · rw [← logb_rpow_div htol]
    unfold hsTolp
    congr 2
    rw [sum_const, card_univ, Fintype.card_fin, nsmul_eq_mul, mul_div_cancel_left₀ _ hn'.ne']
    ring

/-- **C15**. The time at which the dependence of `fun` on the time is sampled lies in the direction of `b`, at a distance of
`relper * |a|`, limited to the interval from above and to `100 small |a|` from below (or `relper * |b - a|` if `a = 0`). -/
theorem C15_sampling_point {relper small a b : ℝ} (hr : 0 < relper) (hs : 0 < small) (hab : a ≠ b) :
    0 < (b - a) * hsDa relper small a (b - a) ∧
    (a = 0 → hsDa relper small a (b - a) = relper * b) ∧
    (a ≠ 0 → |hsDa relper small a (b - a)| = max (min (relper * |a|) |b - a|) (100 * small * |a|)) := by
  have hdx : b - a ≠ 0 := sub_ne_zero.mpr fun h => hab h.symm
  have habs : ∀ x d : ℝ, 0 ≤ x → |copysign x d| = x := by
    intro x d hx
    unfold copysign
    split_ifs
    · exact abs_of_nonneg hx
    · rw [abs_neg, abs_of_nonneg hx]
  by_cases ha : a = 0
  · have e : hsDa relper small a (b - a) = relper * (b - a) := by
      unfold hsDa pyOr
      rw [if_pos]
      rw [ha, abs_zero, mul_zero, mul_zero, min_eq_left (abs_nonneg _), max_self]
      unfold copysign
      simp
    refine ⟨?_, fun _ => by rw [e, ha, sub_zero], fun h => absurd ha h⟩
    rw [e]
    have := mul_self_pos.mpr hdx
    nlinarith
  · have hpos : 0 < max (min (relper * |a|) |b - a|) (100 * small * |a|) :=
      lt_max_of_lt_right (by have := abs_pos.mpr ha; positivity)
    have hne : copysign (max (min (relper * |a|) |b - a|) (100 * small * |a|)) (b - a) ≠ 0 := by
      intro h
      have := habs _ (b - a) hpos.le
      rw [h, abs_zero] at this
      exact hpos.ne this
    have e : hsDa relper small a (b - a) = copysign (max (min (relper * |a|) |b - a|) (100 * small * |a|)) (b - a) := by
      unfold hsDa pyOr
      rw [if_neg hne]
    rw [e]
    refine ⟨?_, fun h => absurd h ha, fun _ => habs _ _ hpos.le⟩
    unfold copysign
    split_ifs with hd
    · exact mul_pos (lt_of_le_of_ne hd (Ne.symm hdx)) hpos
    · push Not at hd; nlinarith

theorem hsLoop_evals_lower (df : ℝ → (Fin n → 𝕜) → Fin n → 𝕜) (a da dely relper big : ℝ) (y yprime sf : Fin n → 𝕜) (lk : ℕ) :
    ∀ (m k : ℕ) (st : HsState 𝕜 n), m ≠ 0 →
      st.evals + 1 ≤ (hsLoop df a da dely relper big y yprime sf lk m k st).evals := by
  intro m
  induction m with
  | zero => intro k st h; exact absurd rfl h
  | succ m ih =>
    intro k st _
    unfold hsLoop
    dsimp only
    generalize (if k = 2 then df (a + da) fun i => y i + ((dely / st.delf : ℝ) : 𝕜) * st.yp i
      else df a fun i => y i + ((dely / st.delf : ℝ) : 𝕜) * st.yp i) = yp
    generalize (if k = 2 then yp - sf else yp - yprime) = pv1
    by_cases h1 : big * |dely| ≤ rmsNorm pv1
    · rw [if_pos h1]
    · rw [if_neg h1]
      by_cases h2 : k = lk
      · rw [if_pos h2]
      · rw [if_neg h2]
        rcases Nat.eq_zero_or_pos m with h | h
        · subst h; unfold hsLoop; exact le_rfl
        · exact le_trans (Nat.le_succ (st.evals + 1)) (ih (k + 1) ⟨_, _, _, _, _, st.evals + 1⟩ h.ne')

/-- **C15**. Evaluations of `fun`: exactly one if only the Jacobian is given, at least two if neither the Jacobian nor the time
derivative is given. -/
theorem C15_evaluations {small big relper : ℝ} (df : ℝ → (Fin n → 𝕜) → Fin n → 𝕜) (a b : ℝ) (y yprime : Fin n → 𝕜)
    (morder : ℕ) (etol : Fin n → ℝ) (tolmin J : ℝ) :
    (hStart small big relper df a b y yprime morder etol tolmin (some J) none).evals = 1 ∧
    2 ≤ (hStart small big relper df a b y yprime morder etol tolmin none none).evals := by
  refine ⟨rfl, ?_⟩
  unfold hStart
  dsimp only
  refine le_trans ?_ (hsLoop_evals_lower _ _ _ _ _ _ _ _ _ _ _ _ _ (by omega))
  unfold hsInit
  split <;> exact le_rfl

theorem hsLoop_add (df : ℝ → (Fin n → 𝕜) → Fin n → 𝕜) (a da dely relper big : ℝ) (y yprime sf : Fin n → 𝕜) (lk j : ℕ) :
    ∀ (m k : ℕ) (st : HsState 𝕜 n),
      hsLoop df a da dely relper big y yprime sf lk m k { st with evals := st.evals + j } =
        { hsLoop df a da dely relper big y yprime sf lk m k st with
          evals := (hsLoop df a da dely relper big y yprime sf lk m k st).evals + j } := by
  intro m
  induction m with
  | zero => intro k st; rfl
  | succ m ih =>
    intro k st
    unfold hsLoop
    dsimp only
    generalize (if k = 2 then df (a + da) fun i => y i + ((dely / st.delf : ℝ) : 𝕜) * st.yp i
      else df a fun i => y i + ((dely / st.delf : ℝ) : 𝕜) * st.yp i) = yp
    generalize (if k = 2 then yp - sf else yp - yprime) = pv1
    have e : st.evals + j + 1 = st.evals + 1 + j := by omega
    by_cases h1 : big * |dely| ≤ rmsNorm pv1
    · simp only [if_pos h1, e]
    · by_cases h2 : k = lk
      · simp only [if_neg h1, if_pos h2, e]
      · simp only [if_neg h1, if_neg h2, e]
        exact ih (k + 1) ⟨_, _, _, _, _, st.evals + 1⟩

/-- **C15**. For a right-hand side that is affine in time, giving its time derivative changes neither the step nor the Lipschitz
estimate, and saves one evaluation. -/
theorem C15_given_time_derivative {small big relper : ℝ} {f0 T : (Fin n → 𝕜) → Fin n → 𝕜} {df : ℝ → (Fin n → 𝕜) → Fin n → 𝕜}
    (hdf : ∀ t y i, df t y i = f0 y i + (t : 𝕜) * T y i) (a b : ℝ) (y : Fin n → 𝕜) (morder : ℕ) (etol : Fin n → ℝ) (tolmin : ℝ)
    (Jn : Option ℝ) :
    let r := hStart small big relper df a b y (df a y) morder etol tolmin Jn (some (T y))
    let r' := hStart small big relper df a b y (df a y) morder etol tolmin Jn none
    r.h = r'.h ∧ r.dfdub = r'.dfdub ∧ r'.evals = r.evals + 1 := by
  have hsf : hsSf df a (hsDa relper small a (b - a)) y (df a y) (some (T y)) =
      hsSf df a (hsDa relper small a (b - a)) y (df a y) none := by
    funext i
    simp only [hsSf, hdf]
    push_cast
    ring
  unfold hStart
  dsimp only
  rw [hsf]
  cases Jn with
  | some J => exact ⟨rfl, rfl, rfl⟩
  | none =>
    dsimp only
    have e : hsInit (rmsNorm (hsSf df a (hsDa relper small a (b - a)) y (df a y) none)) (df a y)
        (hsE0 (none : Option (Fin n → 𝕜))) =
        { hsInit (rmsNorm (hsSf df a (hsDa relper small a (b - a)) y (df a y) none)) (df a y) (hsE0 (some (T y))) with
          evals := (hsInit (rmsNorm (hsSf df a (hsDa relper small a (b - a)) y (df a y) none)) (df a y)
            (hsE0 (some (T y)))).evals + 1 } := by
      unfold hsInit
      split <;> rfl
    rw [e, hsLoop_add]
    exact ⟨rfl, rfl, rfl⟩

/-- Concrete case: `y' = t y` on `[1, 2]`, whose time derivative is `y`. -/
example : ∀ t (y : Fin 2 → ℝ) i, (fun (t : ℝ) (y : Fin 2 → ℝ) i => t * y i) t y i =
    (fun (_ : Fin 2 → ℝ) (_ : Fin 2) => (0 : ℝ)) y i + ((t : ℝ) : ℝ) * (fun (y : Fin 2 → ℝ) i => y i) y i := by
  intro t y i; simp

end Extensisq
