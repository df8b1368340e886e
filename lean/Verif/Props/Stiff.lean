import Verif.Model.Stiff
import Mathlib.Analysis.Complex.Norm
import Mathlib.Tactic.LinearCombination
import Mathlib.Tactic.FieldSimp

/-!
# The stiffness test: C29, C62, C63
-/

set_option linter.unusedSectionVars false

namespace Extensisq
open scoped RealInnerProductSpace

/-- The complex number stored in a list `[re, im]`. -/
def Root.toC (r : Root) : ℂ := ⟨r.1, r.2⟩

theorem stiffC_real {t b s : ℝ} (hs : 0 < s) (hd : t ^ 2 - b = s ^ 2) :
    let r1 := if t > 0 then -t - s else -t + s
    r1 ≠ 0 ∧ r1 + b / r1 = -(2 * t) ∧ r1 * (b / r1) = b ∧ |b / r1| ≤ |r1| := by
  intro r1
  have h0 : r1 ≠ 0 := by
    simp only [r1]
    split_ifs with h
    · linarith
    · push Not at h; linarith
  have hb : b = r1 * (-(2 * t) - r1) := by
    simp only [r1]
    split_ifs <;> nlinarith
  have e : b / r1 = -(2 * t) - r1 := by rw [hb]; field_simp
  refine ⟨h0, by rw [e]; ring, mul_div_cancel₀ _ h0, ?_⟩
  rw [e]
  simp only [r1]
  rw [← sq_le_sq]
  split_ifs with h <;> nlinarith

/-- **C29**. `stiff_c(alpha, beta)` returns the two complex roots of `x^2 + alpha x + beta`, the first of
the larger (or equal) magnitude, for all real `alpha`, `beta`. -/
theorem C29_quadratic_roots (alpha beta : ℝ) :
    (∀ x : ℂ, x ^ 2 + alpha * x + beta =
      (x - Root.toC (stiffC alpha beta).1) * (x - Root.toC (stiffC alpha beta).2)) ∧
    ‖Root.toC (stiffC alpha beta).2‖ ≤ ‖Root.toC (stiffC alpha beta).1‖ := by
  unfold stiffC
  obtain ⟨t, rfl⟩ : ∃ t, alpha = 2 * t := ⟨alpha / 2, by ring⟩
  simp only [show 2 * t / 2 = t by ring]
  by_cases h0 : t ^ 2 - beta = 0
  · simp only [h0, if_true, le_refl, and_true]
    intro x
    have hb : beta = t ^ 2 := by linarith
    have : Root.toC (-t, 0) = -(t : ℂ) := by apply Complex.ext <;> simp [Root.toC]
    rw [this, hb]
    push_cast
    ring
  · simp only [h0, if_false]
    by_cases hn : t ^ 2 - beta < 0
    · simp only [hn, if_true]
      set s := Real.sqrt |t ^ 2 - beta| with hs
      have hs2 : s ^ 2 = beta - t ^ 2 := by
        rw [hs, Real.sq_sqrt (abs_nonneg _), abs_of_neg hn]; ring
      have e1 : Root.toC (-t, s) = -(t : ℂ) + s * Complex.I := by
        apply Complex.ext <;> simp [Root.toC]
      have e2 : Root.toC (-t, -s) = -(t : ℂ) - s * Complex.I := by
        apply Complex.ext <;> simp [Root.toC]
      constructor
      · intro x
        rw [e1, e2]
        have hb : (beta : ℂ) = s ^ 2 + t ^ 2 := by
          have : beta = s ^ 2 + t ^ 2 := by linarith
          rw [this]; push_cast; rfl
        rw [hb]
        push_cast
        linear_combination (s : ℂ) ^ 2 * Complex.I_sq
      · apply le_of_eq
        rw [Complex.norm_def, Complex.norm_def]
        simp [Complex.normSq_apply, Root.toC]
    · simp only [hn, if_false]
      have hp : 0 < t ^ 2 - beta := lt_of_le_of_ne (not_lt.mp hn) (Ne.symm h0)
      set s := Real.sqrt |t ^ 2 - beta| with hs
      have hs2 : t ^ 2 - beta = s ^ 2 := by
        rw [hs, Real.sq_sqrt (abs_nonneg _), abs_of_pos hp]
      have hs0 : 0 < s := Real.sqrt_pos.mpr (abs_pos.mpr h0)
      obtain ⟨_, q1, q2, q3⟩ := stiffC_real hs0 hs2
      generalize (if t > 0 then -t - s else -t + s) = r1 at *
      generalize beta / r1 = r2 at *
      have e : ∀ r : ℝ, Root.toC (r, 0) = (r : ℂ) := fun r => by apply Complex.ext <;> simp [Root.toC]
      rw [e, e]
      constructor
      · intro x
        have c1 : (r1 : ℂ) + r2 = -(2 * t) := by exact_mod_cast congrArg ((↑) : ℝ → ℂ) q1
        have c2 : (r1 : ℂ) * r2 = beta := by exact_mod_cast congrArg ((↑) : ℝ → ℂ) q2
        push_cast
        linear_combination x * c1 - c2
      · simpa using q3

example : stiffC (-3) 2 = ((2, 0), (1, 0)) := by
  unfold stiffC
  dsimp only
  rw [show ((-3 : ℝ) / 2) ^ 2 - 2 = (1 / 2) ^ 2 by norm_num, abs_of_pos (by norm_num),
    Real.sqrt_sq (by norm_num)]
  norm_num

section
variable {V : Type*} [NormedAddCommGroup V] [InnerProductSpace ℝ V]

/-! ## C62: cost and divisions -/

theorem tryB_evals (p : StiffIn V) (first : Bool) (v0 v1 : V) (a b c d : ℝ) :
    (tryB p first v0 v1 a b c d).2.1 ≤ 2 := by
  unfold tryB
  dsimp only
  split_ifs <;> simp

theorem stiffTry_evals (p : StiffIn V) (first : Bool) (v0 : V) (rold : ℝ) :
    (stiffTry p first v0 rold).2.1 ≤ 3 := by
  unfold stiffTry
  dsimp only
  have := fun a b c d => tryB_evals p first v0 (stiffD v0 p.havg p.x p.y p.f p.fxy p.scale 1).1 a b c d
  split_ifs
  · simp
  · simp
  · dsimp only; have := this 1 (stiffD v0 p.havg p.x p.y p.f p.fxy p.scale 1).2
      (⟪v0, (stiffD v0 p.havg p.x p.y p.f p.fxy p.scale 1).1⟫)
      (⟪v0, (stiffD v0 p.havg p.x p.y p.f p.fxy p.scale 1).1⟫ / 1); omega
  · simp
  · dsimp only
    refine (Nat.add_le_add_left (this _ _ _ _) 1)

theorem stiffLoop_evals (p : StiffIn V) : ∀ (n : ℕ) (first : Bool) (v0 : V) (rold : ℝ),
    (stiffLoop p n first v0 rold).2.1 ≤ 3 * n
  | 0, _, _, _ => le_refl _
  | n + 1, first, v0, rold => by
    have h1 := stiffTry_evals p first v0 rold
    unfold stiffLoop
    dsimp only
    split
    · dsimp only; omega
    · dsimp only; omega
    · rename_i v0' rold' _
      have := stiffLoop_evals p n false v0' rold'
      dsimp only; omega

/-- **C62**. One stiffness test makes at most 24 evaluations of `fun`, whatever the right-hand side. -/
theorem C62_cost (f : ℝ → V → V) (x : ℝ) (y : V) (hnow havg xend maxfcn : ℝ) (fxy v0 one : V)
    (cost epsneg : ℝ) : (stiffA f x y hnow havg xend maxfcn fxy v0 one cost epsneg).2.1 ≤ 24 := by
  unfold stiffA
  split_ifs
  · simp
  · simp
  · dsimp only
    unfold stiffMain
    dsimp only
    split_ifs <;> first | exact Nat.zero_le _ | exact stiffLoop_evals _ 8 _ _ _

/-- **C62**. When the last step differs by more than a factor of five from the average step, or the rest of the
integration is predicted to need no more than `maxfcn` evaluations, the problem is declared not stiff without any
evaluation of `fun`. -/
theorem C62_free_answer (f : ℝ → V → V) (x : ℝ) (y : V) {hnow havg xend maxfcn : ℝ} (fxy v0 one : V)
    {cost epsneg : ℝ} (hh : havg ≠ 0)
    (h : 5 * |havg| < |hnow| ∨ 5 * |hnow| < |havg| ∨ cost * |xend - x| ≤ maxfcn * |havg|) :
    (stiffA f x y hnow havg xend maxfcn fxy v0 one cost epsneg).1 = ⟨some false, none, none⟩ ∧
    (stiffA f x y hnow havg xend maxfcn fxy v0 one cost epsneg).2.1 = 0 := by
  have hp : 0 < |havg| := abs_pos.mpr hh
  unfold stiffA
  by_cases h1 : |hnow / havg| > 5 ∨ |hnow / havg| < 1 / 5
  · rw [if_pos h1]; exact ⟨rfl, rfl⟩
  · rw [if_neg h1, if_pos]
    · exact ⟨rfl, rfl⟩
    · rw [abs_div, gt_iff_lt, lt_div_iff₀ hp, div_lt_iff₀ hp] at h1
      push Not at h1
      rcases h with h | h | h
      · linarith [h1.1]
      · linarith [h1.2]
      · rw [abs_div, ← mul_div_assoc, div_le_iff₀ hp]; exact h

/-- Otherwise the power iteration is made. -/
theorem C62_iterates (f : ℝ → V → V) (x : ℝ) (y : V) {hnow havg xend maxfcn : ℝ} (fxy v0 one : V)
    {cost epsneg : ℝ} (hh : havg ≠ 0) (h1 : |hnow| ≤ 5 * |havg|) (h2 : |havg| ≤ 5 * |hnow|)
    (h3 : maxfcn * |havg| < cost * |xend - x|) :
    (stiffA f x y hnow havg xend maxfcn fxy v0 one cost epsneg).1 = (stiffMain f x y fxy havg v0 one epsneg).1 ∧
    (stiffA f x y hnow havg xend maxfcn fxy v0 one cost epsneg).2.1 = (stiffMain f x y fxy havg v0 one epsneg).2.1 := by
  have hp : 0 < |havg| := abs_pos.mpr hh
  unfold stiffA
  rw [if_neg, if_neg]
  · exact ⟨rfl, rfl⟩
  · rw [abs_div, ← mul_div_assoc, div_le_iff₀ hp]; push Not; exact h3
  · rw [abs_div, gt_iff_lt, lt_div_iff₀ hp, div_lt_iff₀ hp]
    push Not
    exact ⟨by linarith, by linarith⟩

/-- The vector and the Rayleigh quotient with which pass `k` of the iteration starts; `none` if it is not reached. -/
noncomputable def passStart (p : StiffIn V) (v0 : V) (rold : ℝ) : ℕ → Option (V × ℝ)
  | 0 => some (v0, rold)
  | k + 1 =>
    match passStart p v0 rold k with
    | none => none
    | some (v, r) =>
      match (stiffTry p (decide (k = 0)) v r).1 with
      | .next v' r' => some (v', r')
      | _ => none

/-- A pass which does not end the iteration makes three evaluations. -/
theorem stiffTry_next {p : StiffIn V} {first : Bool} {v0 v' : V} {rold r' : ℝ}
    (h : (stiffTry p first v0 rold).1 = .next v' r') : (stiffTry p first v0 rold).2.1 = 3 := by
  have hB : ∀ v1 a b c d v' r', (tryB p first v0 v1 a b c d).1 = .next v' r' → (tryB p first v0 v1 a b c d).2.1 = 2 := by
    intro v1 a b c d v' r' h
    unfold tryB at h ⊢
    dsimp only at h ⊢
    split_ifs at h ⊢
    rfl
  unfold stiffTry at h ⊢
  dsimp only at h ⊢
  split_ifs at h ⊢
  · dsimp only at h ⊢; rw [hB _ _ _ _ _ _ _ h]
  · dsimp only at h ⊢; rw [hB _ _ _ _ _ _ _ h]

theorem stiffLoop_from (p : StiffIn V) (v0 : V) (rold : ℝ) : ∀ (n k : ℕ) {v : V} {r : ℝ},
    passStart p v0 rold k = some (v, r) →
    (∀ j v' r', k ≤ j → j < k + n → passStart p v0 rold j = some (v', r') →
      (∀ v'' r'', (stiffTry p (decide (j = 0)) v' r').1 ≠ .next v'' r'') →
      (stiffLoop p n (decide (k = 0)) v r).2.1 = 3 * (j - k) + (stiffTry p (decide (j = 0)) v' r').2.1) ∧
    (passStart p v0 rold (k + n) ≠ none → (stiffLoop p n (decide (k = 0)) v r).2.1 = 3 * n ∧
      (stiffLoop p n (decide (k = 0)) v r).1 = ⟨none, none, none⟩)
  | 0, k, v, r, _ => ⟨fun j _ _ h1 h2 => by omega, fun _ => ⟨rfl, rfl⟩⟩
  | n + 1, k, v, r, h => by
    have hk : passStart p v0 rold (k + 1) = match (stiffTry p (decide (k = 0)) v r).1 with
        | .next v' r' => some (v', r')
        | _ => none := by
      conv_lhs => unfold passStart
      rw [h]
    have hdead : ∀ m, passStart p v0 rold (k + 1) = none → passStart p v0 rold (k + 1 + m) = none := by
      intro m h0
      induction m with
      | zero => exact h0
      | succ m ih => show passStart p v0 rold (k + 1 + m + 1) = none; unfold passStart; rw [ih]
    cases ht : (stiffTry p (decide (k = 0)) v r).1 with
    | ret o =>
      rw [ht] at hk
      refine ⟨fun j v' r' h1 h2 h3 _ => ?_, fun h0 => absurd (by rw [← hdead n hk]; congr 1; omega) h0⟩
      have : j = k := by
        by_contra hne
        have := hdead (j - (k + 1)) hk
        rw [show k + 1 + (j - (k + 1)) = j by omega, h3] at this
        cases this
      subst this
      rw [h] at h3; cases h3
      unfold stiffLoop; dsimp only; rw [ht]; simp
    | brk a b cc d =>
      rw [ht] at hk
      refine ⟨fun j v' r' h1 h2 h3 _ => ?_, fun h0 => absurd (by rw [← hdead n hk]; congr 1; omega) h0⟩
      have : j = k := by
        by_contra hne
        have := hdead (j - (k + 1)) hk
        rw [show k + 1 + (j - (k + 1)) = j by omega, h3] at this
        cases this
      subst this
      rw [h] at h3; cases h3
      unfold stiffLoop; dsimp only; rw [ht]; simp
    | next w q =>
      rw [ht] at hk
      have h3 := stiffTry_next ht
      obtain ⟨i1, i2⟩ := stiffLoop_from p v0 rold n (k + 1) hk
      have e : decide (k + 1 = 0) = false := by simp
      rw [e] at i1 i2
      constructor
      · intro j v' r' h1 h2 hj hn
        by_cases hjk : j = k
        · subst hjk
          rw [h] at hj; cases hj
          exact absurd ht (hn w q)
        · unfold stiffLoop; dsimp only; rw [ht]; dsimp only
          rw [h3, i1 j v' r' (by omega) (by omega) hj hn]; omega
      · intro h0
        have := i2 (by rw [show k + 1 + n = k + (n + 1) by omega]; exact h0)
        unfold stiffLoop; dsimp only; rw [ht]; dsimp only
        rw [h3, this.1]; exact ⟨by omega, this.2⟩

/-- **C62**. The number of evaluations is exact: three for each pass of the power iteration which did not end it, plus
those of the last pass; 24 if none of the eight passes ended the iteration, and then nothing is reported. -/
theorem C62_exact_cost (p : StiffIn V) (v0 : V) (rold : ℝ) :
    (∀ j v r, j < 8 → passStart p v0 rold j = some (v, r) →
      (∀ v' r', (stiffTry p (decide (j = 0)) v r).1 ≠ .next v' r') →
      (stiffLoop p 8 true v0 rold).2.1 = 3 * j + (stiffTry p (decide (j = 0)) v r).2.1 ∧
      1 ≤ (stiffTry p (decide (j = 0)) v r).2.1 ∧ (stiffTry p (decide (j = 0)) v r).2.1 ≤ 3) ∧
    (passStart p v0 rold 8 ≠ none → (stiffLoop p 8 true v0 rold).2.1 = 24 ∧
      (stiffLoop p 8 true v0 rold).1 = ⟨none, none, none⟩) := by
  obtain ⟨h1, h2⟩ := stiffLoop_from p v0 rold 8 0 (v := v0) (r := rold) rfl
  refine ⟨fun j v r hj h hn => ⟨h1 j v r (Nat.zero_le _) (by omega) h hn, ?_, stiffTry_evals _ _ _ _⟩, fun h => h2 h⟩
  unfold stiffTry
  dsimp only
  split_ifs <;> dsimp only <;> omega

/-- All recorded divisions have a non-zero divisor, except possibly the one by `det1` in the first try. -/
def DivsOK (l : List (Bool × ℝ)) : Prop := ∀ d ∈ l, d.1 = false → d.2 ≠ 0

theorem DivsOK.append {l m : List (Bool × ℝ)} (h : DivsOK l) (h' : DivsOK m) : DivsOK (l ++ m) := by
  intro d hd
  rcases List.mem_append.mp hd with hd | hd
  · exact h d hd
  · exact h' d hd

theorem divsOK_single {b : Bool} {x : ℝ} (h : b = false → x ≠ 0) : DivsOK [(b, x)] := by
  intro d hd hb
  rw [List.mem_singleton] at hd
  subst hd
  exact h hb

theorem divsOK_D {scale vv : ℝ} (hs : scale ≠ 0) (hv : 0 < vv) : DivsOK (divsD scale vv) := by
  have h1 : Real.sqrt vv ≠ 0 := (Real.sqrt_pos.mpr hv).ne'
  exact (divsOK_single fun _ => h1).append (divsOK_single fun _ => div_ne_zero hs h1)

theorem stiffB_false {v1v1 v0v1 v0v0 rold : ℝ} (h : ¬ (stiffB v1v1 v0v1 v0v0 rold).rootre = true) :
    v0v0 * v1v1 - v0v1 ^ 2 ≠ 0 := by
  intro h0
  apply h
  unfold stiffB
  simp [h0]

theorem stiffD_snd (v : V) (havg x : ℝ) (y : V) (f : ℝ → V → V) (fxy : V) (scale vv : ℝ) :
    (stiffD v havg x y f fxy scale vv).2 =
      ⟪(stiffD v havg x y f fxy scale vv).1, (stiffD v havg x y f fxy scale vv).1⟫ := rfl

theorem inner_pos_of_det {a b : V} (h : ⟪a, a⟫ * ⟪b, b⟫ - ⟪a, b⟫ ^ 2 ≠ (0 : ℝ)) : (0 : ℝ) < ⟪b, b⟫ := by
  have : b ≠ 0 := by
    rintro rfl
    simp at h
  rw [real_inner_self_eq_norm_sq]
  positivity

theorem tryC_divs {v1 v2 v3 : V} {alpha1 beta1 rold : ℝ} (h2 : (0 : ℝ) < ⟪v2, v2⟫)
    (hd : ⟪v1, v1⟫ * ⟪v2, v2⟫ - ⟪v1, v2⟫ ^ 2 ≠ (0 : ℝ)) :
    DivsOK (tryC v1 v2 v3 ⟪v1, v1⟫ ⟪v2, v2⟫ ⟪v3, v3⟫ ⟪v1, v2⟫ alpha1 beta1 rold).2 := by
  unfold tryC
  dsimp only
  have hb : DivsOK (divsB ⟪v2, v2⟫) := divsOK_single fun _ => h2.ne'
  split_ifs with hr
  · exact hb
  all_goals
    have h3 := Real.sqrt_pos.mpr (inner_pos_of_det (stiffB_false hr))
    dsimp only
    first
    | exact hb.append (divsOK_single fun _ => hd)
    | exact (hb.append (divsOK_single fun _ => hd)).append (divsOK_single fun _ => h3.ne')

theorem tryB_divs {p : StiffIn V} {first : Bool} {v0 v1 : V} {rold : ℝ} (hs : p.scale ≠ 0)
    (h1 : (0 : ℝ) < ⟪v1, v1⟫) (hf : first = false → (1 * ⟪v1, v1⟫ - ⟪v0, v1⟫ ^ 2 : ℝ) ≠ 0) :
    DivsOK (tryB p first v0 v1 1 ⟪v1, v1⟫ ⟪v0, v1⟫ rold).2.2 := by
  unfold tryB
  dsimp only
  have hb : DivsOK (divsB ⟪v1, v1⟫) := divsOK_single fun _ => h1.ne'
  split_ifs with hr
  · exact (divsOK_D hs h1).append hb
  · have hd := stiffB_false hr
    rw [stiffD_snd] at hd
    have h2 := inner_pos_of_det hd
    dsimp only
    refine ((((divsOK_D hs h1).append hb).append (divsOK_single hf)).append (divsOK_D hs ?_)).append ?_
    · exact h2
    · exact tryC_divs h2 hd

theorem stiffTry_divs {p : StiffIn V} {first : Bool} {v0 : V} {rold : ℝ} (hs : p.scale ≠ 0)
    (he : 0 < p.epsneg) : DivsOK (stiffTry p first v0 rold).2.2 := by
  have h1 : DivsOK (divsD p.scale 1) := divsOK_D hs one_pos
  unfold stiffTry
  dsimp only
  split_ifs with a b c d
  · exact h1
  · exact h1
  · dsimp only
    refine h1.append (tryB_divs (v1 := (stiffD v0 p.havg p.x p.y p.f p.fxy p.scale 1).1) hs ?_ ?_)
    · have h0 : (0 : ℝ) < p.epsneg ^ (1 / 3 : ℝ) := Real.rpow_pos_of_pos he _
      have : (stiffD v0 p.havg p.x p.y p.f p.fxy p.scale 1).1 ≠ 0 := by
        intro hz
        apply c
        rw [hz]
        simpa using h0
      rw [real_inner_self_eq_norm_sq]
      positivity
    · intro h; rw [b] at h; cases h
  · exact h1.append (divsOK_single fun _ => one_ne_zero)
  · have hd := stiffB_false d
    dsimp only
    refine (h1.append (divsOK_single fun _ => one_ne_zero)).append
      (tryB_divs (v1 := (stiffD v0 p.havg p.x p.y p.f p.fxy p.scale 1).1) hs ?_ fun _ => hd)
    have : (stiffD v0 p.havg p.x p.y p.f p.fxy p.scale 1).1 ≠ 0 := by
      intro hz
      rw [stiffD_snd, hz] at hd
      simp at hd
    rw [real_inner_self_eq_norm_sq]
    positivity

theorem stiffLoop_divs {p : StiffIn V} (hs : p.scale ≠ 0) (he : 0 < p.epsneg) :
    ∀ (n : ℕ) (first : Bool) (v0 : V) (rold : ℝ), DivsOK (stiffLoop p n first v0 rold).2.2
  | 0, _, _, _ => by intro d hd; cases hd
  | n + 1, first, v0, rold => by
    have h1 := stiffTry_divs (first := first) (v0 := v0) (rold := rold) hs he
    unfold stiffLoop
    dsimp only
    split
    · exact h1
    · exact h1
    · exact h1.append (stiffLoop_divs hs he n _ _ _)

/-- **C62**. In exact arithmetic the stiffness test never divides by zero, for any right-hand side (also
for a zero solution or a zero error estimate), except possibly by `det1` in its first try. `havg` is a mean
of steps of one sign and `one` the vector of ones of a non-empty problem. -/
theorem C62_no_division_by_zero (f : ℝ → V → V) (x : ℝ) (y : V) {hnow havg xend maxfcn : ℝ} (fxy v0 : V)
    {one : V} {cost epsneg : ℝ} (hh : havg ≠ 0) (h1 : one ≠ 0) (he : 0 < epsneg) :
    ∀ d ∈ (stiffA f x y hnow havg xend maxfcn fxy v0 one cost epsneg).2.2, d.1 = false → d.2 ≠ 0 := by
  have hd : DivsOK [(false, havg)] := divsOK_single fun _ => hh
  unfold stiffA
  split_ifs
  · exact hd
  · exact hd
  · change DivsOK ([(false, havg)] ++ _)
    refine hd.append ?_
    unfold stiffMain
    dsimp only
    split_ifs
    all_goals first
      | (intro d hd; cases hd; done)
      | (change DivsOK ([(false, _)] ++ _)
         refine DivsOK.append (divsOK_single fun _ => ?_) (stiffLoop_divs ?_ he _ _ _ _)
         · apply ne_of_gt
           apply Real.sqrt_pos.mpr
           rw [real_inner_self_eq_norm_sq]
           first
           | positivity
           | (have : v0 ≠ 0 := by
                intro hz; simp_all
              positivity)
         · assumption)

/-- **C62**, the exception: for a nonlinear right-hand side the division by `det1` in the first try can
be a division by zero (numpy then continues with inf or nan). Here the problem lives in the plane, identified with the complex numbers. -/
theorem C62_first_try_witness : ∃ (f : ℝ → ℂ → ℂ) (y v0 one : ℂ), one ≠ 0 ∧ y ≠ 0 ∧ v0 ≠ 0 ∧
    (true, (0 : ℝ)) ∈ (stiffA f 0 y 1 1 100 0 (f 0 y) v0 one 1 (1 / 4)).2.2 := by
  refine ⟨fun _ u => if u = 3 / 2 then -1 else if u = 1 / 2 then Complex.I else 0, 1, 1, 1,
    one_ne_zero, one_ne_zero, one_ne_zero, ?_⟩
  set f : ℝ → ℂ → ℂ := fun _ u => if u = 3 / 2 then -1 else if u = 1 / 2 then Complex.I else 0 with hf
  have hf1 : f 0 1 = 0 := by
    simp only [hf]; norm_num
  have hin : (⟪(1 : ℂ), 1⟫ : ℝ) = 1 := by simp
  have hsq : Real.sqrt (1 / 4 : ℝ) = 1 / 2 := by
    rw [show (1 / 4 : ℝ) = (1 / 2) ^ 2 by norm_num, Real.sqrt_sq (by norm_num)]
  have hs4 : Real.sqrt (4 : ℝ) = 2 := by
    rw [show (4 : ℝ) = 2 ^ 2 by norm_num, Real.sqrt_sq (by norm_num)]
  have hv : startVector (1 : ℂ) 1 = 1 := by
    unfold startVector; simp
  rw [hf1]
  set p : StiffIn ℂ := { f := f, x := 0, y := 1, fxy := 0, havg := 1, scale := 1 / 2, epsneg := 1 / 4 } with hp
  have d1 : stiffD (1 : ℂ) 1 0 1 f 0 (1 / 2) 1 = (-2, 4) := by
    have hz : f 0 (1 + (1 / 2 : ℝ) • (1 : ℂ)) = -1 := by
      have : (1 + (1 / 2 : ℝ) • (1 : ℂ)) = 3 / 2 := by
        rw [Complex.real_smul]; push_cast; norm_num
      rw [this]; simp [hf]
    have e : ((1 : ℝ) / (1 / 2)) • ((-1 : ℂ) - 0) = -2 := by
      rw [Complex.real_smul]; push_cast; norm_num
    unfold stiffD
    simp only [Real.sqrt_one, div_one]
    rw [hz, e]
    refine Prod.ext rfl ?_
    simp only [Complex.inner]
    norm_num
  have d2 : stiffD (-2 : ℂ) 1 0 1 f 0 (1 / 2) 4 = (4 * Complex.I, 16) := by
    have hz : f 0 (1 + (1 / 2 / 2 : ℝ) • (-2 : ℂ)) = Complex.I := by
      have : (1 + (1 / 2 / 2 : ℝ) • (-2 : ℂ)) = 1 / 2 := by
        rw [Complex.real_smul]; push_cast; norm_num
      rw [this]; simp only [hf]; norm_num
    have e : ((1 : ℝ) / (1 / 2 / 2)) • (Complex.I - 0) = 4 * Complex.I := by
      rw [Complex.real_smul]; push_cast; norm_num
    unfold stiffD
    simp only [hs4]
    rw [hz, e]
    refine Prod.ext rfl ?_
    simp only [Complex.inner]
    norm_num
  have i1 : (⟪(1 : ℂ), -2⟫ : ℝ) = -2 := by simp only [Complex.inner]; norm_num
  have i2 : (⟪(-2 : ℂ), 4 * Complex.I⟫ : ℝ) = 0 := by simp only [Complex.inner]; norm_num
  have hB : (true, (0 : ℝ)) ∈ (tryB p true 1 (-2) 1 4 (-2) (-2 / 1)).2.2 := by
    unfold tryB
    simp only [hp, d2, i2]
    have : (stiffB 16 0 4 (-2 / 1)).rootre = false := by
      unfold stiffB
      simp only [decide_eq_false_iff_not]
      norm_num
    simp only [this, Bool.false_eq_true, if_false]
    simp
    norm_num
  have hT : (true, (0 : ℝ)) ∈ (stiffTry p true 1 0).2.2 := by
    unfold stiffTry
    have e : stiffD (1 : ℂ) p.havg p.x p.y p.f p.fxy p.scale 1 = (-2, 4) := d1
    simp only [e, i1]
    have c1 : ¬ (Real.sqrt 4 > 10 ^ 10 * Real.sqrt 1) := by rw [hs4, Real.sqrt_one]; norm_num
    have c2 : ¬ (|(-2 : ℝ) / 1| < p.epsneg ^ (1 / 3 : ℝ)) := by
      have : p.epsneg ^ (1 / 3 : ℝ) ≤ 1 := Real.rpow_le_one (by norm_num [hp]) (by norm_num [hp]) (by norm_num)
      have h2 : |(-2 : ℝ) / 1| = 2 := by norm_num
      rw [h2]; linarith
    rw [if_neg c1]
    simp only [if_true]
    rw [if_neg c2]
    exact List.mem_append_right _ hB
  have hL : (true, (0 : ℝ)) ∈ (stiffLoop p 8 true 1 0).2.2 := by
    unfold stiffLoop
    dsimp only
    split
    · exact hT
    · exact hT
    · exact List.mem_append_left _ hT
  unfold stiffA stiffMain
  simp only [hin, hv, Real.sqrt_one, hsq]
  norm_num
  exact hL

/-! ## C63: linear problems -/

theorem norm_sub_sq_div {v w : V} (hv : v ≠ 0) :
    ‖w - ((⟪v, w⟫ : ℝ) / ⟪v, v⟫) • v‖ ^ 2 = ((⟪v, v⟫ : ℝ) * ⟪w, w⟫ - ⟪v, w⟫ ^ 2) / ⟪v, v⟫ := by
  have h0 : (⟪v, v⟫ : ℝ) ≠ 0 := by rw [real_inner_self_eq_norm_sq]; positivity
  rw [← real_inner_self_eq_norm_sq]
  simp only [inner_sub_left, inner_sub_right, inner_smul_left, inner_smul_right, real_inner_comm v w]
  simp only [RCLike.conj_to_real]
  field_simp
  ring

/-- `r` is an approximate eigenvalue of `hJ` with eigenvector `v`. -/
def ApproxEig (hJ : V → V) (r : ℝ) (v : V) : Prop :=
  v ≠ 0 ∧ ‖hJ v - r • v‖ ≤ 1 / 1000 * ‖hJ v‖

/-- `x^2 + a x + b` nearly annihilates `v`. -/
def ApproxQuad (hJ : V → V) (a b : ℝ) (v : V) : Prop :=
  v ≠ 0 ∧ ‖hJ (hJ v) + a • hJ v + b • v‖ ≤ 1 / 1000 * ‖hJ (hJ v)‖

/-- What a successful stiffness test has found. -/
def GoodRoots (hJ : V → V) (root1 root2 : Root) (rho : ℝ) : Prop :=
  rho = ‖Root.toC root1‖ ∧
  ((∃ v r, root1 = (r, 0) ∧ ApproxEig hJ r v) ∨
   (∃ (v : V) (a b : ℝ), (∀ x : ℂ, x ^ 2 + a * x + b = (x - Root.toC root1) * (x - Root.toC root2)) ∧
      ‖Root.toC root2‖ ≤ ‖Root.toC root1‖ ∧ ApproxQuad hJ a b v))

theorem stiffB_good {hJ : V → V} {v : V} (hv : v ≠ 0) {rold : ℝ}
    (h : (stiffB ⟪hJ v, hJ v⟫ ⟪v, hJ v⟫ ⟪v, v⟫ rold).rootre = true) :
    GoodRoots hJ (stiffB ⟪hJ v, hJ v⟫ ⟪v, hJ v⟫ ⟪v, v⟫ rold).root1
      (stiffB ⟪hJ v, hJ v⟫ ⟪v, hJ v⟫ ⟪v, v⟫ rold).root2
      (stiffB ⟪hJ v, hJ v⟫ ⟪v, hJ v⟫ ⟪v, v⟫ rold).rho := by
  have hn := norm_sub_sq_div (w := hJ v) hv
  unfold stiffB at h ⊢
  dsimp only at h ⊢
  rw [if_pos h]
  simp only [decide_eq_true_eq] at h
  refine ⟨?_, Or.inl ⟨v, (⟪v, hJ v⟫ : ℝ) / ⟪v, v⟫, rfl, hv, ?_⟩⟩
  · have : ∀ r : ℝ, Root.toC (r, 0) = (r : ℂ) := fun r => by apply Complex.ext <;> simp [Root.toC]
    rw [this, Complex.norm_real, Real.norm_eq_abs]
  · rw [← abs_of_nonneg (norm_nonneg (hJ v - _)), ← abs_of_nonneg (show 0 ≤ 1 / 1000 * ‖hJ v‖ by positivity),
      ← sq_le_sq, hn, mul_pow, ← real_inner_self_eq_norm_sq]
    rcases h with h | ⟨h, _⟩
    · rw [h, zero_div, real_inner_self_eq_norm_sq]; positivity
    · calc _ ≤ _ := le_abs_self _
        _ ≤ _ := h
        _ = _ := by norm_num

theorem quad_norm_sq (v1 v2 v3 : V) (a b : ℝ) :
    ‖v3 + a • v2 + b • v1‖ ^ 2 = ⟪v3, v3⟫ + ⟪v2, v2⟫ * a ^ 2 + ⟪v1, v1⟫ * b ^ 2 + 2 * ⟪v2, v3⟫ * a +
      2 * ⟪v1, v3⟫ * b + 2 * ⟪v1, v2⟫ * a * b := by
  rw [← real_inner_self_eq_norm_sq]
  simp only [inner_add_left, inner_add_right, inner_smul_left, inner_smul_right, real_inner_comm v1 v2,
    real_inner_comm v1 v3, real_inner_comm v2 v3]
  simp only [RCLike.conj_to_real]
  ring

/-- The vectors of one pass are successive images under `hJ`; results are good. -/
def TryGood (hJ : V → V) : Try V → Prop
  | .ret o => o.roots = none
  | .brk root1 root2 rho _ => GoodRoots hJ root1 root2 rho
  | .next v0 _ => (⟪v0, v0⟫ : ℝ) = 1

theorem tryC_good {hJ : V → V} {v1 : V} (h1 : v1 ≠ 0) (h2 : hJ v1 ≠ 0) {alpha1 beta1 rold : ℝ} :
    TryGood hJ (tryC v1 (hJ v1) (hJ (hJ v1)) ⟪v1, v1⟫ ⟪hJ v1, hJ v1⟫ ⟪hJ (hJ v1), hJ (hJ v1)⟫ ⟪v1, hJ v1⟫
      alpha1 beta1 rold).1 := by
  unfold tryC
  dsimp only
  split_ifs with a b c
  · exact stiffB_good h2 a
  · dsimp only [TryGood]
    obtain ⟨q1, q2⟩ := C29_quadratic_roots
      ((-⟪v1, v1⟫ * ⟪hJ v1, hJ (hJ v1)⟫ + ⟪v1, hJ v1⟫ * ⟪v1, hJ (hJ v1)⟫) /
        ((⟪v1, v1⟫ : ℝ) * ⟪hJ v1, hJ v1⟫ - ⟪v1, hJ v1⟫ ^ 2))
      ((⟪v1, hJ v1⟫ * ⟪hJ v1, hJ (hJ v1)⟫ - ⟪hJ v1, hJ v1⟫ * ⟪v1, hJ (hJ v1)⟫) /
        ((⟪v1, v1⟫ : ℝ) * ⟪hJ v1, hJ v1⟫ - ⟪v1, hJ v1⟫ ^ 2))
    refine ⟨?_, Or.inr ⟨v1, _, _, q1, q2, h1, ?_⟩⟩
    · rw [Complex.norm_def, Complex.normSq_apply]
      congr 1
      simp only [Root.toC]
      ring
    · rw [← abs_of_nonneg (norm_nonneg (hJ (hJ v1) + _ + _)),
        ← abs_of_nonneg (show 0 ≤ 1 / 1000 * ‖hJ (hJ v1)‖ by positivity),
        ← sq_le_sq, quad_norm_sq, mul_pow, ← real_inner_self_eq_norm_sq]
      exact ((le_abs_self _).trans b).trans (le_of_eq (by norm_num))
  all_goals
    have h3 := Real.sqrt_pos.mpr (inner_pos_of_det (stiffB_false a))
    have h3' := (inner_pos_of_det (stiffB_false a))
    dsimp only [TryGood]
    rw [inner_smul_left, inner_smul_right]
    simp only [RCLike.conj_to_real]
    have := Real.mul_self_sqrt h3'.le
    field_simp
    rw [sq, this]

variable {p : StiffIn V} {J : V →ₗ[ℝ] V}

theorem stiffD_linear (hJ : ∀ v, p.f p.x (p.y + v) = p.fxy + J v) (hs : p.scale ≠ 0) {v : V} {vv : ℝ}
    (hv : 0 < vv) : (stiffD v p.havg p.x p.y p.f p.fxy p.scale vv).1 = p.havg • J v := by
  have h1 : p.scale / Real.sqrt vv ≠ 0 := div_ne_zero hs (Real.sqrt_pos.mpr hv).ne'
  unfold stiffD
  dsimp only
  rw [hJ, add_sub_cancel_left, map_smul, smul_smul, div_mul_cancel₀ _ h1]

theorem tryB_good (hJ : ∀ v, p.f p.x (p.y + v) = p.fxy + J v) (hs : p.scale ≠ 0) {first : Bool} {v0 v1 : V}
    (h1 : v1 ≠ 0) {a b c : ℝ} : TryGood (fun v => p.havg • J v) (tryB p first v0 v1 a ⟪v1, v1⟫ b c).1 := by
  have h1' : (0 : ℝ) < ⟪v1, v1⟫ := by rw [real_inner_self_eq_norm_sq]; positivity
  have e2 := stiffD_linear hJ hs (v := v1) h1'
  unfold tryB
  dsimp only
  rw [stiffD_snd, e2]
  split_ifs with h
  · exact stiffB_good (hJ := fun v => p.havg • J v) h1 h
  · have h2 := inner_pos_of_det (stiffB_false h)
    have e3 := stiffD_linear hJ hs (v := p.havg • J v1) h2
    dsimp only
    rw [stiffD_snd, e3]
    refine tryC_good (hJ := fun v => p.havg • J v) h1 ?_
    intro hz
    rw [hz] at h2
    simp at h2

theorem stiffTry_good (hJ : ∀ v, p.f p.x (p.y + v) = p.fxy + J v) (hs : p.scale ≠ 0) (he : 0 < p.epsneg)
    {first : Bool} {v0 : V} (h0 : (⟪v0, v0⟫ : ℝ) = 1) {rold : ℝ} :
    TryGood (fun v => p.havg • J v) (stiffTry p first v0 rold).1 := by
  have hv0 : v0 ≠ 0 := by rintro rfl; simp at h0
  have e1 := stiffD_linear hJ hs (v := v0) one_pos
  unfold stiffTry
  dsimp only
  rw [stiffD_snd, e1]
  split_ifs with a b c d
  · rfl
  · rfl
  · refine tryB_good hJ hs ?_
    intro hz
    rw [hz] at c
    have h0 : (0 : ℝ) < p.epsneg ^ (1 / 3 : ℝ) := Real.rpow_pos_of_pos he _
    simp only [inner_zero_right, div_one, abs_zero, not_lt] at c
    linarith
  · dsimp only [TryGood]
    rw [← h0] at d ⊢
    exact stiffB_good (hJ := fun v => p.havg • J v) hv0 d
  · refine tryB_good hJ hs ?_
    intro hz
    have := stiffB_false d
    rw [hz] at this
    simp at this

theorem stiffLoop_good (hJ : ∀ v, p.f p.x (p.y + v) = p.fxy + J v) (hs : p.scale ≠ 0)
    (he : 0 < p.epsneg) : ∀ (n : ℕ) (first : Bool) (v0 : V) (rold : ℝ), (⟪v0, v0⟫ : ℝ) = 1 →
    ∀ r1 r2 rho, (stiffLoop p n first v0 rold).1.roots = some (r1, r2, rho) →
      GoodRoots (fun v => p.havg • J v) r1 r2 rho
  | 0, _, _, _, _, _, _, _, h => by simp [stiffLoop] at h
  | n + 1, first, v0, rold, h0, r1, r2, rho, h => by
    have ht := stiffTry_good hJ hs he (first := first) h0 (rold := rold)
    unfold stiffLoop at h
    dsimp only at h
    split at h
    · rename_i o ho
      rw [ho] at ht
      dsimp only [TryGood] at ht h
      rw [ht] at h; cases h
    · rename_i ho
      rw [ho] at ht
      cases h
      exact ht
    · rename_i v0' rold' ho
      rw [ho] at ht
      exact stiffLoop_good hJ hs he n false v0' rold' ht r1 r2 rho h

theorem startVector_unit {v0 one : V} (h1 : one ≠ 0) : (⟪startVector v0 one, startVector v0 one⟫ : ℝ) = 1 := by
  classical
  unfold startVector
  dsimp only
  have h : (if (⟪v0, v0⟫ : ℝ) = 0 then one else v0) ≠ 0 := by
    split_ifs with h
    · exact h1
    · rintro rfl; simp at h
  generalize (if (⟪v0, v0⟫ : ℝ) = 0 then one else v0) = v at h
  have hv : (0 : ℝ) < ⟪v, v⟫ := by rw [real_inner_self_eq_norm_sq]; positivity
  have h3 := Real.sqrt_pos.mpr hv
  rw [inner_smul_left, inner_smul_right]
  simp only [RCLike.conj_to_real]
  have := Real.mul_self_sqrt hv.le
  field_simp
  rw [sq, this]

/-- **C63**. For a problem that is linear near `(t, y)` (`fun(t, y + v) = fun(t, y) + J v`), the roots the
stiffness test reports are what they claim to be: either `root1` is a real number that is an eigenvalue of
`havg * J` up to a relative residual of 0.1 percent, or `root1`, `root2` are the roots of a quadratic that
annihilates some vector under `havg * J` up to a relative residual of 0.1 percent, `root1` being the larger;
`rho` is the modulus of `root1`. -/
theorem C63_reported_roots {f : ℝ → V → V} {x : ℝ} {y fxy : V} {J : V →ₗ[ℝ] V}
    (hJ : ∀ v, f x (y + v) = fxy + J v) {hnow havg xend maxfcn : ℝ} {v0 one : V} (h1 : one ≠ 0)
    {cost epsneg : ℝ} (he : 0 < epsneg) {r1 r2 : Root} {rho : ℝ}
    (h : (stiffA f x y hnow havg xend maxfcn fxy v0 one cost epsneg).1.roots = some (r1, r2, rho)) :
    GoodRoots (fun v => havg • J v) r1 r2 rho := by
  unfold stiffA at h
  split_ifs at h
  dsimp only at h
  unfold stiffMain at h
  dsimp only at h
  split_ifs at h
  all_goals first
    | (cases h; done)
    | exact stiffLoop_good (p := ⟨f, x, y, fxy, havg, _, epsneg⟩) hJ (by assumption) he _ _ _ _
        (startVector_unit h1) _ _ _ h

/-- **C63**. A linear problem is reported stiff only if the dominant root found lies in the closed left
half plane, not near the imaginary axis, at a distance of at least 0.9 times the stability radius. -/
theorem C63_reported_stiff {f : ℝ → V → V} {x : ℝ} {y fxy : V} {J : V →ₗ[ℝ] V}
    (hJ : ∀ v, f x (y + v) = fxy + J v) {hnow havg xend maxfcn : ℝ} {v0 one : V} (h1 : one ≠ 0)
    {cost epsneg : ℝ} (he : 0 < epsneg) {tanang stbrad : ℝ}
    (h : assessRoots tanang stbrad (stiffA f x y hnow havg xend maxfcn fxy v0 one cost epsneg).1 = some true) :
    ∃ r1 r2 rho, GoodRoots (fun v => havg • J v) r1 r2 rho ∧ (Root.toC r1).re ≤ 0 ∧
      |(Root.toC r1).im| ≤ |(Root.toC r1).re| * tanang ∧ 9 / 10 * stbrad ≤ ‖Root.toC r1‖ := by
  have hstif : ∀ o : StiffOut, assessRoots tanang stbrad o = some true → o.stif ≠ some true →
      ∃ r1 r2 rho, o.roots = some (r1, r2, rho) ∧ r1.1 ≤ 0 ∧ |r1.2| ≤ |r1.1| * tanang ∧
        9 / 10 * stbrad ≤ rho := by
    intro o ho hs
    unfold assessRoots at ho
    split at ho
    · exact absurd ho hs
    · rename_i r1 r2 rho hr
      by_cases a : r1.1 > 0
      · rw [if_pos a] at ho; cases ho
      rw [if_neg a] at ho
      dsimp only at ho
      split_ifs at ho with b c
      · cases ho
      · simp only [Option.some.injEq, decide_eq_true_eq] at ho
        exact ⟨r1, r2, rho, hr, not_lt.mp a, not_lt.mp c, ho⟩
  have hL : ∀ (p : StiffIn V) (n : ℕ) (first : Bool) (v0 : V) (rold : ℝ),
      (stiffLoop p n first v0 rold).1.stif ≠ some true := by
    intro p n
    induction n with
    | zero => intro _ _ _; simp [stiffLoop]
    | succ n ih =>
      intro first v0 rold
      unfold stiffLoop
      dsimp only
      split
      · rename_i o ho
        unfold stiffTry at ho
        dsimp only at ho
        split_ifs at ho
        all_goals first
          | (cases ho; simp; done)
          | (cases ho; done)
          | (exfalso; dsimp only at ho; unfold tryB tryC at ho; dsimp only at ho; split_ifs at ho <;> cases ho)
      · simp
      · exact ih _ _ _
  obtain ⟨r1, r2, rho, e, a, b, c⟩ := hstif _ h (by
    unfold stiffA
    split_ifs
    · simp
    · simp
    · dsimp only
      unfold stiffMain
      dsimp only
      split_ifs <;> first | exact hL _ _ _ _ _ | simp)
  have hg := C63_reported_roots hJ h1 he e
  exact ⟨r1, r2, rho, hg, a, b, by rw [← hg.1]; exact c⟩

end

/-- The hypotheses of C63 are met: `y' = -y` reports the root `-havg`. -/
theorem exStiff_roots : (stiffA (V := ℝ) (fun _ u => -u) 0 1 1 1 100 0 (-1) 1 1 1 (1 / 4)).1.roots =
    some ((-1, 0), (0, 0), 1) := by
  have hin : (⟪(1 : ℝ), 1⟫ : ℝ) = 1 := by simp
  have hsq : Real.sqrt (1 / 4 : ℝ) = 1 / 2 := by
    rw [show (1 / 4 : ℝ) = (1 / 2) ^ 2 by norm_num, Real.sqrt_sq (by norm_num)]
  have hv : startVector (1 : ℝ) 1 = 1 := by unfold startVector; simp
  set p : StiffIn ℝ := { f := fun _ u => -u, x := 0, y := 1, fxy := -1, havg := 1, scale := 1 / 2, epsneg := 1 / 4 } with hp
  have d1 : stiffD (1 : ℝ) 1 0 1 (fun _ u => -u) (-1) (1 / 2) 1 = (-1, 1) := by
    unfold stiffD; norm_num
  have d2 : stiffD (-1 : ℝ) 1 0 1 (fun _ u => -u) (-1) (1 / 2) 1 = (1, 1) := by
    unfold stiffD; norm_num
  have hT : (stiffTry p true 1 0).1 = .brk (-1, 0) (0, 0) 1 true := by
    unfold stiffTry
    have e : stiffD (1 : ℝ) p.havg p.x p.y p.f p.fxy p.scale 1 = (-1, 1) := d1
    have c2 : ¬ (|(-1 : ℝ) / 1| < p.epsneg ^ (1 / 3 : ℝ)) := by
      have : p.epsneg ^ (1 / 3 : ℝ) ≤ 1 := Real.rpow_le_one (by norm_num [hp]) (by norm_num [hp]) (by norm_num)
      have h2 : |(-1 : ℝ) / 1| = 1 := by norm_num
      rw [h2]; linarith
    have i1 : (⟪(1 : ℝ), -1⟫ : ℝ) = -1 := by simp
    have i2 : (⟪(-1 : ℝ), 1⟫ : ℝ) = -1 := by simp
    simp only [e, i1]
    rw [if_neg (by norm_num)]
    simp only [if_true]
    rw [if_neg c2]
    unfold tryB
    have e : stiffD (-1 : ℝ) p.havg p.x p.y p.f p.fxy p.scale 1 = (1, 1) := d2
    have hb : stiffB 1 (-1) 1 (-1 / 1) = ⟨-1, 1, (-1, 0), (0, 0), true⟩ := by
      unfold stiffB; norm_num
    simp only [e, i2, hb, if_true]
  unfold stiffA stiffMain
  simp only [hin, hv, Real.sqrt_one, hsq]
  norm_num
  change (stiffLoop p 8 true 1 0).1.roots = _
  unfold stiffLoop
  simp only [hT]

end Extensisq
