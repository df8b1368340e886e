import Verif.Model.EsdirkTables
import Mathlib.Analysis.Complex.PhragmenLindelof
import Mathlib.Analysis.SpecialFunctions.Pow.Real
import Mathlib.Algebra.BigOperators.Group.Finset.Basic
import Mathlib.Data.Real.Sqrt
import Mathlib.Data.List.GetD

/-!
# Stability functions of the ESDIRK methods

Polynomials with coefficients `a + b √2` as lists; the numerators of the stage values for `y' = λ y`; the proof of
`|R(z)| ≤ 1` in the left half plane from the values on the imaginary axis.
-/

set_option linter.unusedSectionVars false

namespace Extensisq
open Finset

/-! ## Polynomials as lists -/

section
variable {S : Type*} [CommRing S] (f : Q2 →+* S)

/-- Value of a polynomial, the list of its coefficients. -/
def lev : List Q2 → S → S
  | [], _ => 0
  | a :: p, x => f a + x * lev p x

def ladd : List Q2 → List Q2 → List Q2
  | [], q => q
  | p, [] => p
  | a :: p, b :: q => (a + b) :: ladd p q

def lsmul (c : Q2) (p : List Q2) : List Q2 := p.map (c * ·)

def lmul : List Q2 → List Q2 → List Q2
  | [], _ => []
  | a :: p, q => ladd (lsmul a q) (0 :: lmul p q)

def lsub (p q : List Q2) : List Q2 := ladd p (lsmul (-1) q)

def lpow (p : List Q2) : ℕ → List Q2
  | 0 => [1]
  | n + 1 => lmul p (lpow p n)

def lsum : List (List Q2) → List Q2
  | [] => []
  | p :: l => ladd p (lsum l)

theorem lev_add : ∀ (p q : List Q2) (x : S), lev f (ladd p q) x = lev f p x + lev f q x
  | [], q, x => by simp [ladd, lev]
  | a :: p, [], x => by simp [ladd, lev]
  | a :: p, b :: q, x => by simp only [ladd, lev, lev_add p q x, map_add]; ring

theorem lev_smul (c : Q2) : ∀ (p : List Q2) (x : S), lev f (lsmul c p) x = f c * lev f p x
  | [], x => by simp [lsmul, lev]
  | a :: p, x => by
    have h := lev_smul c p x
    unfold lsmul at h ⊢
    simp only [List.map_cons, lev, h, map_mul]
    ring

theorem lev_mul : ∀ (p q : List Q2) (x : S), lev f (lmul p q) x = lev f p x * lev f q x
  | [], q, x => by simp [lmul, lev]
  | a :: p, q, x => by
    simp only [lmul, lev_add, lev_smul, lev, lev_mul p q x, map_zero]
    ring

theorem lev_sub (p q : List Q2) (x : S) : lev f (lsub p q) x = lev f p x - lev f q x := by
  rw [lsub, lev_add, lev_smul, map_neg, map_one]; ring

theorem lev_pow (p : List Q2) : ∀ (n : ℕ) (x : S), lev f (lpow p n) x = lev f p x ^ n
  | 0, x => by simp [lpow, lev]
  | n + 1, x => by rw [lpow, lev_mul, lev_pow p n x, pow_succ]; ring

theorem lev_sum : ∀ (l : List (List Q2)) (x : S), lev f (lsum l) x = (l.map fun p => lev f p x).sum
  | [], x => by simp [lsum, lev]
  | p :: l, x => by rw [lsum, lev_add, lev_sum l x, List.map_cons, List.sum_cons]

theorem lev_zero_last (p : List Q2) (x : S) : lev f (p ++ [0]) x = lev f p x := by
  induction p with
  | nil => simp [lev]
  | cons a p ih => rw [List.cons_append, lev, ih, lev]

/-- Real and imaginary part (divided by `y`) in `i y`, as polynomials in `y^2`. -/
def lsplit : List Q2 → List Q2 × List Q2
  | [] => ([], [])
  | a :: p => (a :: lsmul (-1) (lsplit p).2, (lsplit p).1)

/-- The square of the absolute value in `i y`, as a polynomial in `y^2`. -/
def labs2 (p : List Q2) : List Q2 :=
  ladd (lmul (lsplit p).1 (lsplit p).1) (0 :: lmul (lsplit p).2 (lsplit p).2)

end

/-- The embedding of the numbers `a + b √2` in the real numbers. -/
noncomputable def homR : Q2 →+* ℝ := Q2.hom (√2) (Real.mul_self_sqrt (by norm_num))

theorem homR_val (x : Q2) : homR x = x.val (√2) := rfl

/-- ... and in the complex numbers. -/
noncomputable def homC : Q2 →+* ℂ := Complex.ofRealHom.comp homR

theorem homC_val (x : Q2) : homC x = ((x.val (√2) : ℝ) : ℂ) := rfl

theorem lev_real (p : List Q2) (x : ℝ) : lev homC p (x : ℂ) = ((lev homR p x : ℝ) : ℂ) := by
  induction p with
  | nil => simp [lev]
  | cons a p ih =>
    rw [lev, ih, lev]
    push_cast
    rfl

theorem lev_split (p : List Q2) (y : ℝ) : lev homC p (y * Complex.I) =
    ((lev homR (lsplit p).1 (y ^ 2) : ℝ) : ℂ) + ((y * lev homR (lsplit p).2 (y ^ 2) : ℝ) : ℂ) * Complex.I := by
  induction p with
  | nil => simp [lev, lsplit]
  | cons a p ih =>
    rw [lev, ih, lsplit, lev, lev_smul, map_neg, map_one]
    push_cast
    have hI : Complex.I * Complex.I = -1 := Complex.I_mul_I
    show (homR a : ℂ) + _ = _
    linear_combination ((y : ℂ) * y * (lev homR (lsplit p).2 (y ^ 2) : ℝ)) * hI

theorem lev_abs2 (p : List Q2) (y : ℝ) : ‖lev homC p (y * Complex.I)‖ ^ 2 = lev homR (labs2 p) (y ^ 2) := by
  rw [lev_split, ← Complex.normSq_eq_norm_sq, Complex.normSq_add_mul_I, labs2, lev_add, lev_mul, lev, lev_mul, map_zero]
  ring

/-! ## Signs -/

/-- Is `a + b √2 ≥ 0`? -/
def q2nonneg (x : Q2) : Bool :=
  (decide (0 ≤ x.a) && decide (0 ≤ x.b)) || (decide (0 ≤ x.a) && decide (2 * (x.b * x.b) ≤ x.a * x.a)) ||
    (decide (0 ≤ x.b) && decide (x.a * x.a ≤ 2 * (x.b * x.b)))

theorem q2nonneg_spec {x : Q2} (h : q2nonneg x = true) : 0 ≤ homR x := by
  rw [homR_val, Q2.val]
  have hs : (√2 : ℝ) * √2 = 2 := Real.mul_self_sqrt (by norm_num)
  have h0 : (0 : ℝ) ≤ √2 := Real.sqrt_nonneg 2
  simp only [q2nonneg, Bool.or_eq_true, Bool.and_eq_true, decide_eq_true_eq] at h
  rcases h with (⟨h1, h2⟩ | ⟨h1, h2⟩) | ⟨h1, h2⟩
  · have h1' : (0 : ℝ) ≤ x.a := by exact_mod_cast h1
    have h2' : (0 : ℝ) ≤ x.b := by exact_mod_cast h2
    positivity
  · have h1' : (0 : ℝ) ≤ x.a := by exact_mod_cast h1
    have h2' : 2 * ((x.b : ℝ) * x.b) ≤ x.a * x.a := by exact_mod_cast h2
    have h3 : |(x.b : ℝ) * √2| ≤ x.a := by
      apply abs_le_of_sq_le_sq _ h1'
      nlinarith
    linarith [(abs_le.mp h3).1]
  · have h1' : (0 : ℝ) ≤ x.b := by exact_mod_cast h1
    have h2' : (x.a : ℝ) * x.a ≤ 2 * (x.b * x.b) := by exact_mod_cast h2
    have h3 : |(x.a : ℝ)| ≤ x.b * √2 := by
      apply abs_le_of_sq_le_sq _ (by positivity)
      nlinarith
    linarith [(abs_le.mp h3).1]

/-- A sufficient condition for a polynomial to be non-negative on the positive axis: all coefficients are, except
perhaps the last but one, when the last three form a non-negative quadratic polynomial. -/
def posCheck : List Q2 → Bool
  | [] => true
  | [a, b, c] => q2nonneg a && q2nonneg c && (q2nonneg b || (q2nonneg (4 * (a * c) - b * b) && !decide (c = 0)))
  | a :: p => q2nonneg a && posCheck p

theorem posCheck_spec : ∀ {p : List Q2}, posCheck p = true → ∀ {u : ℝ}, 0 ≤ u → 0 ≤ lev homR p u
  | [], _, u, _ => by simp [lev]
  | [a], h, u, hu => by
    simp only [posCheck, Bool.and_eq_true] at h
    have := q2nonneg_spec h.1
    simpa [lev] using this
  | [a, b], h, u, hu => by
    simp only [posCheck, Bool.and_eq_true] at h
    have h1 := q2nonneg_spec h.1
    have h2 := q2nonneg_spec h.2.1
    simp only [lev, mul_zero, add_zero]
    positivity
  | [a, b, c], h, u, hu => by
    simp only [posCheck, Bool.and_eq_true, Bool.or_eq_true, Bool.not_eq_true', decide_eq_false_iff_not] at h
    have h1 := q2nonneg_spec h.1.1
    have h2 := q2nonneg_spec h.1.2
    simp only [lev, mul_zero, add_zero]
    rcases h.2 with h3 | ⟨h3, _⟩
    · have h3 := q2nonneg_spec h3
      positivity
    · have h3 := q2nonneg_spec h3
      have h4 : homR (4 * (a * c) - b * b) = 4 * (homR a * homR c) - homR b * homR b := by
        rw [map_sub, map_mul, map_mul, map_mul]
        congr 2
        exact map_ofNat homR 4
      rw [h4] at h3
      rcases h2.eq_or_lt with h5 | h5
      · rw [← h5] at h3 ⊢
        have h6 : homR b = 0 := by nlinarith
        rw [h6]; simpa using h1
      · have h7 : 0 ≤ 4 * homR c * (homR a + u * (homR b + u * homR c)) := by
          nlinarith [sq_nonneg (2 * homR c * u + homR b)]
        exact (mul_nonneg_iff_of_pos_left (by positivity)).mp h7
  | a :: b :: c :: d :: p, h, u, hu => by
    rw [posCheck] at h
    · simp only [Bool.and_eq_true] at h
      have h1 := q2nonneg_spec h.1
      have h2 := posCheck_spec h.2 hu
      rw [lev]
      positivity
    · simp

/-! ## Stage values for `y' = λ y` -/

/-- The denominators `(1 - d z)^i`. -/
def stabDen (R : ESTable) (i : ℕ) : List Q2 := lpow [1, -R.d] i

/-- The numerators of the stages `0, ..., i`. -/
def stagePolys (R : ESTable) : ℕ → List (List Q2)
  | 0 => [[1]]
  | i + 1 => stagePolys R i ++ [ladd (stabDen R i) (0 :: lsum ((List.range (i + 1)).map fun j =>
      lsmul ((R.A.getD (i + 1) []).getD j 0) (lmul (stabDen R (i - j)) ((stagePolys R i).getD j []))))]

def stabNum (R : ESTable) (i : ℕ) : List Q2 := (stagePolys R i).getD i []

theorem stagePolys_length (R : ESTable) : ∀ i, (stagePolys R i).length = i + 1
  | 0 => rfl
  | i + 1 => by rw [stagePolys, List.length_append, stagePolys_length R i]; rfl

theorem stagePolys_get (R : ESTable) {j : ℕ} : ∀ {i : ℕ}, j ≤ i → (stagePolys R i).getD j [] = stabNum R j
  | 0, h => by obtain rfl : j = 0 := by omega
               rfl
  | i + 1, h => by
    rcases Nat.lt_or_ge i j with h1 | h1
    · obtain rfl : j = i + 1 := by omega
      rfl
    · rw [stagePolys, List.getD_append _ _ _ _ (by rw [stagePolys_length]; omega)]
      exact stagePolys_get R h1

theorem stabNum_succ (R : ESTable) (i : ℕ) : stabNum R (i + 1) = ladd (stabDen R i)
    (0 :: lsum ((List.range (i + 1)).map fun j =>
      lsmul ((R.A.getD (i + 1) []).getD j 0) (lmul (stabDen R (i - j)) (stabNum R j)))) := by
  rw [stabNum, stagePolys, List.getD_append_right _ _ _ _ (by rw [stagePolys_length]), stagePolys_length,
    Nat.sub_self, List.getD_cons_zero]
  congr 3
  apply List.map_congr_left
  intro j hj
  rw [stagePolys_get R (by have := List.mem_range.mp hj; omega)]

theorem lev_den (R : ESTable) (i : ℕ) (z : ℂ) : lev homC (stabDen R i) z = (1 - homC R.d * z) ^ i := by
  rw [stabDen, lev_pow]
  simp only [lev, map_one, map_neg, mul_zero, add_zero]
  ring

theorem list_sum_range {S : Type*} [AddCommMonoid S] (g : ℕ → S) :
    ∀ n, ((List.range n).map g).sum = ∑ j ∈ range n, g j
  | 0 => by simp
  | n + 1 => by rw [List.range_succ, List.map_append, List.sum_append, list_sum_range g n, sum_range_succ]; simp

theorem lev_num_succ (R : ESTable) (i : ℕ) (z : ℂ) : lev homC (stabNum R (i + 1)) z =
    (1 - homC R.d * z) ^ i + z * ∑ j ∈ range (i + 1), homC ((R.A.getD (i + 1) []).getD j 0) *
      ((1 - homC R.d * z) ^ (i - j) * lev homC (stabNum R j) z) := by
  rw [stabNum_succ, lev_add, lev_den, lev, map_zero, zero_add, lev_sum, List.map_map, list_sum_range]
  congr 2
  apply sum_congr rfl
  intro j _
  rw [Function.comp_apply, lev_smul, lev_mul, lev_den]

/-- The stage values `Y_i` of a step for `y' = λ y`, `z = h λ`: `Y_i (1 - d z)^i` is the numerator times `y`. -/
theorem stage_num (R : ESTable) {z y : ℂ} {Y : ℕ → ℂ} {n : ℕ} (h0 : Y 0 = y)
    (hd : ∀ i, 1 ≤ i → i < n → (R.A.getD i []).getD i 0 = R.d)
    (hY : ∀ i, 1 ≤ i → i < n → Y i = y + z * ∑ j ∈ range (i + 1), homC ((R.A.getD i []).getD j 0) * Y j) :
    ∀ i < n, Y i * (1 - homC R.d * z) ^ i = lev homC (stabNum R i) z * y := by
  intro i
  induction i using Nat.strong_induction_on with
  | _ i ih =>
    intro hi
    rcases i with _ | i
    · simp [h0, stabNum, stagePolys, lev]
    · have e := hY (i + 1) (by omega) hi
      rw [sum_range_succ, hd (i + 1) (by omega) hi] at e
      have e2 : Y (i + 1) * (1 - homC R.d * z) = y + z * ∑ j ∈ range (i + 1), homC ((R.A.getD (i + 1) []).getD j 0) * Y j := by
        linear_combination e
      rw [pow_succ', ← mul_assoc, e2, lev_num_succ, add_mul, add_mul, mul_comm y, mul_assoc z, mul_assoc z, sum_mul, sum_mul]
      congr 2
      apply sum_congr rfl
      intro j hj
      have hj' := mem_range.mp hj
      have e3 := ih j (by omega) (by omega)
      rw [mul_assoc _ _ y, mul_assoc ((1 - homC R.d * z) ^ (i - j)), ← e3, mul_assoc]
      congr 1
      rw [← mul_assoc, mul_comm _ (Y j), mul_assoc, ← pow_add]
      congr 2
      omega

/-! ## Bounds in the half plane -/

theorem den_bounds {d : ℝ} (hd : 0 < d) {z : ℂ} (hz : z.re ≤ 0) : 1 ≤ ‖1 - (d : ℂ) * z‖ ∧ d * ‖z‖ ≤ ‖1 - (d : ℂ) * z‖ := by
  have h1 : (1 - (d : ℂ) * z).re = 1 - d * z.re := by simp
  have h2 : (1 - (d : ℂ) * z).im = -(d * z.im) := by simp
  constructor
  · calc (1 : ℝ) ≤ 1 - d * z.re := by nlinarith
      _ ≤ ‖1 - (d : ℂ) * z‖ := by rw [← h1]; exact Complex.re_le_norm _
  · have : d * ‖z‖ = ‖(d : ℂ) * z‖ := by rw [norm_mul, Complex.norm_real, Real.norm_of_nonneg hd.le]
    rw [this]
    apply le_of_sq_le_sq _ (norm_nonneg _)
    rw [← Complex.normSq_eq_norm_sq, ← Complex.normSq_eq_norm_sq, Complex.normSq_apply, Complex.normSq_apply, h1, h2]
    simp only [Complex.mul_re, Complex.mul_im, Complex.ofReal_re, Complex.ofReal_im, zero_mul, sub_zero, add_zero]
    nlinarith

theorem lev_bound {d : ℝ} (hd : 0 < d) : ∀ (p : List Q2) (m : ℕ), p.length ≤ m + 1 →
    ∃ C : ℝ, 0 ≤ C ∧ ∀ (z : ℂ) (W : ℝ), 1 ≤ W → d * ‖z‖ ≤ W → ‖lev homC p z‖ ≤ C * W ^ m
  | [], m, _ => ⟨0, le_rfl, fun z W _ _ => by simp [lev]⟩
  | a :: p, m, h => by
    rcases m with _ | m
    · have : p = [] := by simpa using h
      subst this
      exact ⟨‖homC a‖, norm_nonneg _, fun z W _ _ => by simp [lev]⟩
    · obtain ⟨C, hC, hb⟩ := lev_bound hd p m (by simpa using h)
      refine ⟨‖homC a‖ + C / d, by positivity, fun z W hW hz => ?_⟩
      have h1 := hb z W hW hz
      have hz' : ‖z‖ ≤ W / d := by rw [le_div_iff₀ hd]; linarith
      have hW1 : 1 ≤ W ^ (m + 1) := one_le_pow₀ hW
      calc ‖lev homC (a :: p) z‖ ≤ ‖homC a‖ + ‖z‖ * ‖lev homC p z‖ := by
            rw [lev]; exact (norm_add_le _ _).trans (by rw [norm_mul])
        _ ≤ ‖homC a‖ * W ^ (m + 1) + W / d * (C * W ^ m) := by
            apply add_le_add
            · exact le_mul_of_one_le_right (norm_nonneg _) hW1
            · exact mul_le_mul hz' h1 (norm_nonneg _) (by positivity)
        _ = (‖homC a‖ + C / d) * W ^ (m + 1) := by rw [pow_succ]; ring

theorem lev_differentiable (p : List Q2) : Differentiable ℂ (lev homC p) := by
  induction p with
  | nil => exact differentiable_const _
  | cons a p ih => exact (differentiable_const _).add (differentiable_id.mul ih)

/-- The maximum principle: a rational function `P / (1 - d z)^m`, with `deg P ≤ m`, which is at most one on the imaginary
axis is at most one in the left half plane. -/
theorem half_plane {d : Q2} (hd : 0 < homR d) {P : List Q2} {m : ℕ} (hP : P.length ≤ m + 1)
    (hI : ∀ y : ℝ, ‖lev homC P (y * Complex.I)‖ ≤ ‖(1 - homC d * (y * Complex.I)) ^ m‖) {z : ℂ} (hz : z.re ≤ 0) :
    ‖lev homC P z‖ ≤ ‖(1 - homC d * z) ^ m‖ := by
  have hne : ∀ w : ℂ, w.re ≤ 0 → 0 < ‖1 - homC d * w‖ := fun w hw =>
    lt_of_lt_of_le one_pos (den_bounds hd hw).1
  obtain ⟨C, hC, hb⟩ := lev_bound hd P m hP
  let f : ℂ → ℂ := fun w => lev homC P (-w) / (1 - homC d * (-w)) ^ m
  have hbound : ∀ w : ℂ, 0 ≤ w.re → ‖f w‖ ≤ C := by
    intro w hw
    have hw' : (-w).re ≤ 0 := by simpa using hw
    obtain ⟨b1, b2⟩ := den_bounds hd hw'
    show ‖_ / _‖ ≤ C
    rw [norm_div, norm_pow, div_le_iff₀ (pow_pos (hne _ hw') _)]
    exact hb (-w) _ b1 b2
  have hdiff : DifferentiableOn ℂ f (closure {w : ℂ | 0 < w.re}) := by
    intro w hw
    have hw0 : 0 ≤ w.re := by
      rw [Complex.closure_setOf_lt_re] at hw; exact hw
    have hw' : (-w).re ≤ 0 := by simpa using hw0
    apply DifferentiableAt.differentiableWithinAt
    apply DifferentiableAt.div
    · exact (lev_differentiable P).differentiableAt.comp w differentiableAt_id.neg
    · fun_prop
    · exact pow_ne_zero _ (norm_pos_iff.mp (hne _ hw'))
  have h := PhragmenLindelof.right_half_plane_of_bounded_on_real (f := f) (C := 1) (z := -z) hdiff.diffContOnCl
    ⟨1, by norm_num, 0, by
      refine Asymptotics.IsBigO.of_bound C ?_
      rw [Filter.eventually_inf_principal]
      refine Filter.Eventually.of_forall fun w hw => ?_
      simpa using hbound w (le_of_lt hw)⟩
    (Filter.isBoundedUnder_of_eventually_le (a := C) (by
      filter_upwards [Filter.eventually_ge_atTop (0 : ℝ)] with x hx
      exact hbound _ (by simpa using hx)))
    (fun x => by
      have e : -((x : ℂ) * Complex.I) = ((-x : ℝ) : ℂ) * Complex.I := by push_cast; ring
      show ‖_ / _‖ ≤ 1
      rw [e, norm_div]
      have hp : 0 < ‖(1 - homC d * (((-x : ℝ) : ℂ) * Complex.I)) ^ m‖ := by
        rw [norm_pow]; exact pow_pos (hne _ (by simp)) _
      rw [div_le_one hp]
      exact hI (-x))
    (by simpa using hz)
  have h' : ‖lev homC P z / (1 - homC d * z) ^ m‖ ≤ 1 := by
    have e : f (-z) = lev homC P z / (1 - homC d * z) ^ m := by
      show lev homC P (- -z) / (1 - homC d * (- -z)) ^ m = _
      rw [neg_neg]
    rwa [e] at h
  rw [norm_div, div_le_one (by rw [norm_pow]; exact pow_pos (hne _ hz) _)] at h'
  exact h'

end Extensisq
