import Verif.Lemmas.StabPoly
import Verif.Props.Nystrom
import Verif.Model.NyStiffConst
import Mathlib.Analysis.Complex.Basic
import Mathlib.Analysis.Complex.Polynomial.Basic
import Mathlib.Analysis.SpecificLimits.Normed
import Mathlib.Data.List.GetD

/-!
# Stability of Nystrom methods

One step for `u'' = a u + b u'` is a linear map of `(u, h u')` with entries that are polynomials of `h² a` and `h b`. Proof machinery for `Props/NystromStability.lean`.
-/

set_option linter.unusedSectionVars false

namespace Extensisq
open Finset

/-! ## The polynomials -/

/-- Linear combination of polynomials of two variables. -/
def comb2 : List ℚ → List (List (List ℚ)) → List (List ℚ)
  | x :: row, p :: ps => add2 (smul2 x p) (comb2 row ps)
  | _, _ => []

/-- The stages, times `h²`, as multiples of `u` (with `U = 1`, `W = 0`) or of `h u'` (with `U = C`, `W = 1`); `a` and `b` stand for `h² a` and `h b`. -/
def nyStP (R : NyTable) (a b : List (List ℚ)) (U : List ℚ) (W : ℚ) : ℕ → List (List (List ℚ))
  | 0 => []
  | i + 1 => nyStP R a b U W i ++ [add2 (mul2 a (add2 [[U.getD i 0]] (comb2 (R.A.getD i []) (nyStP R a b U W i))))
      (mul2 b (add2 [[W]] (comb2 (R.Ap.getD i []) (nyStP R a b U W i))))]

/-- The entries of the map. -/
def nyM11 (R : NyTable) (a b : List (List ℚ)) : List (List ℚ) := add2 [[1]] (comb2 R.B (nyStP R a b (List.replicate R.s 1) 0 R.s))
def nyM12 (R : NyTable) (a b : List (List ℚ)) : List (List ℚ) := add2 [[1]] (comb2 R.B (nyStP R a b R.C 1 R.s))
def nyM21 (R : NyTable) (a b : List (List ℚ)) : List (List ℚ) := comb2 R.Bp (nyStP R a b (List.replicate R.s 1) 0 R.s)
def nyM22 (R : NyTable) (a b : List (List ℚ)) : List (List ℚ) := add2 [[1]] (comb2 R.Bp (nyStP R a b R.C 1 R.s))

section
variable {K : Type*} [Field K] [CharZero K]

theorem ev2_comb (row : List ℚ) (ps : List (List (List ℚ))) (x c : K) :
    ev2 (comb2 row ps) x c = ∑ j ∈ range ps.length, ((row.getD j 0 : ℚ) : K) * ev2 (ps.getD j []) x c := by
  induction row generalizing ps with
  | nil => simp [comb2, ev2]
  | cons a row ih =>
    cases ps with
    | nil => simp [comb2, ev2]
    | cons p ps =>
      rw [comb2, ev2_add, ev2_smul, ih, List.length_cons, sum_range_succ']
      simp [add_comm]

theorem nyStP_length (R : NyTable) (a b : List (List ℚ)) (U : List ℚ) (W : ℚ) (i : ℕ) : (nyStP R a b U W i).length = i := by
  induction i with
  | zero => rfl
  | succ i ih => simp [nyStP, ih]

theorem nyStP_getD (R : NyTable) (a b : List (List ℚ)) (U : List ℚ) (W : ℚ) {i j : ℕ} (h : j < i) : (nyStP R a b U W i).getD j [] =
    add2 (mul2 a (add2 [[U.getD j 0]] (comb2 (R.A.getD j []) (nyStP R a b U W j)))) (mul2 b (add2 [[W]] (comb2 (R.Ap.getD j []) (nyStP R a b U W j)))) := by
  induction i with
  | zero => omega
  | succ i ih =>
    rw [nyStP]
    rcases Nat.lt_succ_iff_lt_or_eq.mp h with h' | rfl
    · rw [List.getD_append _ _ _ _ (by rw [nyStP_length]; exact h'), ih h']
    · rw [List.getD_append_right _ _ _ _ (by rw [nyStP_length])]
      simp [nyStP_length]

/-- The value of stage `j`. -/
theorem nyStP_ev (R : NyTable) (a b : List (List ℚ)) (U : List ℚ) (W : ℚ) {i j : ℕ} (h : j < i) (x c : K) :
    ev2 ((nyStP R a b U W i).getD j []) x c =
      ev2 a x c * (U.getD j 0 + ∑ m ∈ range j, (((R.A.getD j []).getD m 0 : ℚ) : K) * ev2 ((nyStP R a b U W i).getD m []) x c) +
      ev2 b x c * (W + ∑ m ∈ range j, (((R.Ap.getD j []).getD m 0 : ℚ) : K) * ev2 ((nyStP R a b U W i).getD m []) x c) := by
  have e : ∀ m ∈ range j, ev2 ((nyStP R a b U W i).getD m []) x c = ev2 ((nyStP R a b U W j).getD m []) x c := by
    intro m hm
    rw [nyStP_getD R a b U W ((mem_range.mp hm).trans h), nyStP_getD R a b U W (mem_range.mp hm)]
  rw [nyStP_getD R a b U W h, ev2_add, ev2_mul, ev2_mul, ev2_add, ev2_add, ev2_comb, ev2_comb, nyStP_length]
  have e1 : ∀ row : List ℚ, ∑ m ∈ range j, ((row.getD m 0 : ℚ) : K) * ev2 ((nyStP R a b U W i).getD m []) x c =
      ∑ m ∈ range j, ((row.getD m 0 : ℚ) : K) * ev2 ((nyStP R a b U W j).getD m []) x c := fun row =>
    sum_congr rfl fun m hm => by rw [e m hm]
  rw [e1, e1]
  simp [ev2, evP]

end

/-! ## One step on a mode -/

/-- The recursion of the stages for one mode. -/
theorem ny_scalar {R : NyTable} {a b : List (List ℚ)} {x c : ℝ} {α β u w : ℂ} {k : ℕ → ℂ} (ha : ((ev2 a x c : ℝ) : ℂ) = α) (hb : ((ev2 b x c : ℝ) : ℂ) = β)
    (hk : ∀ i, i < R.s → k i = α * (u + (((R.tab ℝ).C i : ℝ) : ℂ) * w + ∑ j ∈ range i, (((R.tab ℝ).A i j : ℝ) : ℂ) * k j) +
      β * (w + ∑ j ∈ range i, (((R.tab ℝ).Ap i j : ℝ) : ℂ) * k j)) :
    u + w + ∑ i ∈ range R.s, (((R.tab ℝ).B i : ℝ) : ℂ) * k i = ((ev2 (nyM11 R a b) x c : ℝ) : ℂ) * u + ((ev2 (nyM12 R a b) x c : ℝ) : ℂ) * w ∧
    w + ∑ i ∈ range R.s, (((R.tab ℝ).Bp i : ℝ) : ℂ) * k i = ((ev2 (nyM21 R a b) x c : ℝ) : ℂ) * u + ((ev2 (nyM22 R a b) x c : ℝ) : ℂ) * w := by
  set P := fun i => ev2 ((nyStP R a b (List.replicate R.s 1) 0 R.s).getD i []) x c with hP
  set Q := fun i => ev2 ((nyStP R a b R.C 1 R.s).getD i []) x c with hQ
  have comb : ∀ (row : List ℚ) (n : ℕ), (∀ j, j < n → k j = ((P j : ℝ) : ℂ) * u + ((Q j : ℝ) : ℂ) * w) →
      ∑ j ∈ range n, ((((row.getD j 0 : ℚ) : ℝ)) : ℂ) * k j =
        ((∑ j ∈ range n, ((row.getD j 0 : ℚ) : ℝ) * P j : ℝ) : ℂ) * u + ((∑ j ∈ range n, ((row.getD j 0 : ℚ) : ℝ) * Q j : ℝ) : ℂ) * w := by
    intro row n h
    push_cast
    rw [sum_mul, sum_mul, ← sum_add_distrib]
    refine sum_congr rfl fun j hj => ?_
    rw [h j (mem_range.mp hj)]
    ring
  have hst : ∀ i, i < R.s → k i = ((P i : ℝ) : ℂ) * u + ((Q i : ℝ) : ℂ) * w := by
    intro i
    induction i using Nat.strong_induction_on with
    | _ i ih =>
      intro hi
      have h1 : k i = α * (u + ((((R.C.getD i 0 : ℚ) : ℝ)) : ℂ) * w + ∑ j ∈ range i, (((((R.A.getD i []).getD j 0 : ℚ) : ℝ)) : ℂ) * k j) +
          β * (w + ∑ j ∈ range i, (((((R.Ap.getD i []).getD j 0 : ℚ) : ℝ)) : ℂ) * k j) := hk i hi
      rw [comb _ i fun j hj => ih j hj (hj.trans hi), comb _ i fun j hj => ih j hj (hj.trans hi)] at h1
      have p1 : P i = ev2 a x c * (1 + ∑ m ∈ range i, (((R.A.getD i []).getD m 0 : ℚ) : ℝ) * P m) +
          ev2 b x c * (0 + ∑ m ∈ range i, (((R.Ap.getD i []).getD m 0 : ℚ) : ℝ) * P m) := by
        have := nyStP_ev R a b (List.replicate R.s 1) 0 hi x c
        have er : (List.replicate R.s (1 : ℚ)).getD i 0 = 1 := by
          rw [List.getD_eq_getElem _ _ (by simpa using hi)]
          simp
        rw [er] at this
        push_cast at this
        exact this
      have q1 : Q i = ev2 a x c * (((R.C.getD i 0 : ℚ) : ℝ) + ∑ m ∈ range i, (((R.A.getD i []).getD m 0 : ℚ) : ℝ) * Q m) +
          ev2 b x c * (1 + ∑ m ∈ range i, (((R.Ap.getD i []).getD m 0 : ℚ) : ℝ) * Q m) := by
        have := nyStP_ev R a b R.C 1 hi x c
        push_cast at this
        exact this
      rw [h1, p1, q1, ← ha, ← hb]
      push_cast
      ring
  have h1 := comb R.B R.s hst
  have h2 := comb R.Bp R.s hst
  constructor
  · show u + w + ∑ i ∈ range R.s, ((((R.B.getD i 0 : ℚ) : ℝ)) : ℂ) * k i = _
    rw [h1, nyM11, nyM12, ev2_add, ev2_add, ev2_comb, ev2_comb, nyStP_length, nyStP_length]
    simp only [ev2, evP]
    push_cast
    ring
  · show w + ∑ i ∈ range R.s, ((((R.Bp.getD i 0 : ℚ) : ℝ)) : ℂ) * k i = _
    rw [h2, nyM21, nyM22, ev2_add, ev2_comb, ev2_comb, nyStP_length, nyStP_length]
    simp only [ev2, evP]
    push_cast
    ring

/-! ## Two by two matrices -/

/-- The conditions of Schur and Cohn for `μ² - T μ + D`. -/
theorem schur_cohn_strict {T D : ℝ} (h1 : D < 1) (h2 : 0 < 1 - T + D) (h3 : 0 < 1 + T + D) {μ : ℂ} (h : μ ^ 2 - T * μ + D = 0) : ‖μ‖ < 1 := by
  have hre := congrArg Complex.re h
  have him := congrArg Complex.im h
  simp [pow_two] at hre him
  have hn : ‖μ‖ ^ 2 = μ.re ^ 2 + μ.im ^ 2 := by
    rw [← Complex.normSq_eq_norm_sq, Complex.normSq_apply]
    ring
  refine (sq_lt_one_iff₀ (norm_nonneg _)).mp ?_
  rw [hn]
  by_cases hi : μ.im = 0
  · rw [hi] at hre ⊢
    have hq : μ.re * μ.re - T * μ.re + D = 0 := by linarith
    have hle : μ.re < 1 := by
      by_contra hcon
      push Not at hcon
      nlinarith
    have hge : -1 < μ.re := by
      by_contra hcon
      push Not at hcon
      nlinarith
    nlinarith
  · have hT : T = 2 * μ.re := by
      have : μ.im * (2 * μ.re - T) = 0 := by linarith
      rcases mul_eq_zero.mp this with h' | h'
      · exact absurd h' hi
      · linarith
    rw [hT] at hre
    nlinarith

/-- A recurrence of two terms with both roots inside the unit circle. -/
theorem recurrence_decay {T D : ℝ} (h1 : D < 1) (h2 : 0 < 1 - T + D) (h3 : 0 < 1 + T + D) {z : ℕ → ℂ}
    (hz : ∀ n, z (n + 2) = T * z (n + 1) - D * z n) : Filter.Tendsto z Filter.atTop (nhds 0) := by
  obtain ⟨s, hs⟩ := IsAlgClosed.exists_eq_mul_self ((T : ℂ) ^ 2 - 4 * D)
  set μ := ((T : ℂ) + s) / 2 with hμ
  set ν := ((T : ℂ) - s) / 2 with hν
  have e1 : μ + ν = T := by rw [hμ, hν]; ring
  have e2 : μ * ν = D := by rw [hμ, hν]; linear_combination (1 / 4) * hs
  have n1 : ‖μ‖ < 1 := schur_cohn_strict h1 h2 h3 (by rw [← e1, ← e2]; ring)
  have n2 : ‖ν‖ < 1 := schur_cohn_strict h1 h2 h3 (by rw [← e1, ← e2]; ring)
  have hd : ∀ n, z (n + 1) - μ * z n = ν ^ n * (z 1 - μ * z 0) := by
    intro n
    induction n with
    | zero => simp
    | succ n ih =>
      rw [hz n, ← e1, ← e2, pow_succ]
      linear_combination ν * ih
  set q := max (max ‖μ‖ ‖ν‖) (1 / 2) with hq
  have q1 : q < 1 := by rw [hq]; exact max_lt (max_lt n1 n2) (by norm_num)
  have q0 : 0 < q := lt_of_lt_of_le (by norm_num) (le_max_right _ _)
  have qμ : ‖μ‖ ≤ q := (le_max_left _ _).trans (le_max_left _ _)
  have qν : ‖ν‖ ≤ q := (le_max_right _ _).trans (le_max_left _ _)
  set c := ‖z 1 - μ * z 0‖
  have hb : ∀ n : ℕ, q * ‖z n‖ ≤ q ^ n * (q * ‖z 0‖) + (n * q ^ n) * c := by
    intro n
    induction n with
    | zero => simp
    | succ n ih =>
      have e : z (n + 1) = μ * z n + ν ^ n * (z 1 - μ * z 0) := by rw [← hd n]; ring
      have b1 : ‖z (n + 1)‖ ≤ q * ‖z n‖ + q ^ n * c := by
        rw [e]
        refine (norm_add_le _ _).trans (add_le_add ?_ ?_)
        · rw [norm_mul]
          exact mul_le_mul_of_nonneg_right qμ (norm_nonneg _)
        · rw [norm_mul, norm_pow]
          exact mul_le_mul_of_nonneg_right (pow_le_pow_left₀ (norm_nonneg _) qν n) (norm_nonneg _)
      have b2 := mul_le_mul_of_nonneg_left (b1.trans (add_le_add_left ih _)) q0.le
      refine b2.trans (le_of_eq ?_)
      push_cast
      rw [pow_succ]
      ring
  have l1 : Filter.Tendsto (fun n : ℕ => q ^ n * (q * ‖z 0‖) + (n * q ^ n) * c) Filter.atTop (nhds 0) := by
    have a1 := (tendsto_pow_atTop_nhds_zero_of_lt_one q0.le q1).mul_const (q * ‖z 0‖)
    have a2 := (tendsto_self_mul_const_pow_of_lt_one q0.le q1).mul_const c
    simpa using a1.add a2
  have l2 : Filter.Tendsto (fun n => q * ‖z n‖) Filter.atTop (nhds 0) :=
    squeeze_zero (fun n => mul_nonneg q0.le (norm_nonneg _)) hb l1
  have l3 := l2.const_mul q⁻¹
  rw [mul_zero] at l3
  refine tendsto_zero_iff_norm_tendsto_zero.mpr (l3.congr fun n => ?_)
  field_simp

/-- An eigenvalue of modulus larger than one if one of the conditions fails. -/
theorem schur_cohn_fails {m11 m12 m21 m22 : ℝ} (h12 : m12 ≠ 0) {σ : ℝ} (hσ : σ = 1 ∨ σ = -1)
    (h : 1 - σ * (m11 + m22) + (m11 * m22 - m12 * m21) < 0) :
    ∃ μ u w : ℝ, u ≠ 0 ∧ 1 < |μ| ∧ m11 * u + m12 * w = μ * u ∧ m21 * u + m22 * w = μ * w := by
  set T := m11 + m22 with hT
  set D := m11 * m22 - m12 * m21 with hD
  have hσ2 : σ * σ = 1 := by rcases hσ with h | h <;> rw [h] <;> ring
  have hd : 0 ≤ T ^ 2 - 4 * D := by nlinarith [sq_nonneg (σ * T - 2)]
  set s := Real.sqrt (T ^ 2 - 4 * D) with hs
  have hss : s * s = T ^ 2 - 4 * D := Real.mul_self_sqrt hd
  have hs0 : 0 ≤ s := Real.sqrt_nonneg _
  set μ := (T + σ * s) / 2 with hμ
  have hchar : μ * μ - T * μ + D = 0 := by
    rw [hμ]
    linear_combination (1 / 4) * s * s * hσ2 + (1 / 4) * hss
  have hbig : 1 < σ * μ := by
    have e : σ * μ = (σ * T + s) / 2 := by rw [hμ]; linear_combination (1 / 2) * s * hσ2
    rw [e]
    by_contra hcon
    have h1 : s ≤ 2 - σ * T := by linarith
    have h2 : s * s ≤ (2 - σ * T) * (2 - σ * T) := mul_le_mul h1 h1 hs0 (hs0.trans h1)
    have h3 : (2 - σ * T) * (2 - σ * T) = 4 - 4 * (σ * T) + T ^ 2 := by linear_combination T ^ 2 * hσ2
    linarith
  refine ⟨μ, m12, μ - m11, h12, ?_, by ring, ?_⟩
  · have : |σ * μ| = |μ| := by
      rw [abs_mul]
      rcases hσ with h | h <;> rw [h] <;> simp
    rw [← this]
    exact lt_of_lt_of_le hbig (le_abs_self _)
  · rw [hD, hT] at hchar
    linear_combination (-1) * hchar

/-! ## The checks -/

/-- All coefficients are zero. -/
def zero2 (M : List (List ℚ)) : Bool := M.all fun p => p.all fun x => decide (x = 0)

theorem zero1_ev {p : List ℚ} (h : (p.all fun x => decide (x = 0)) = true) (x : ℝ) : evP p x = 0 := by
  induction p with
  | nil => rfl
  | cons a p ih =>
    simp only [List.all_cons, Bool.and_eq_true, decide_eq_true_eq] at h
    simp [evP, h.1, ih h.2]

theorem zero2_ev {M : List (List ℚ)} (h : zero2 M = true) (x c : ℝ) : ev2 M x c = 0 := by
  induction M with
  | nil => rfl
  | cons a M ih =>
    simp only [zero2, List.all_cons, Bool.and_eq_true] at h
    rw [ev2, zero1_ev h.1, ih h.2]
    simp

theorem ev2_shiftRows (k : ℕ) (M : List (List ℚ)) (x c : ℝ) : ev2 (List.replicate k [] ++ M) x c = x ^ k * ev2 M x c := by
  induction k with
  | zero => simp
  | succ k ih =>
    rw [List.replicate_succ, List.cons_append, ev2, ih, evP, pow_succ]
    ring

theorem evP_monomial (e : ℕ) (c : ℝ) : evP (List.replicate e 0 ++ [1]) c = c ^ e := by
  induction e with
  | zero => simp [evP]
  | succ e ih =>
    rw [List.replicate_succ, List.cons_append, evP, ih, pow_succ]
    push_cast
    ring

/-- `1 - det`, `1 - trace + det`, `1 + trace + det`. -/
def nyDet (R : NyTable) (a b : List (List ℚ)) : List (List ℚ) := add2 (mul2 (nyM11 R a b) (nyM22 R a b)) (smul2 (-1) (mul2 (nyM12 R a b) (nyM21 R a b)))
def nyTr (R : NyTable) (a b : List (List ℚ)) : List (List ℚ) := add2 (nyM11 R a b) (nyM22 R a b)
def nyJ1 (R : NyTable) (a b : List (List ℚ)) : List (List ℚ) := add2 [[1]] (smul2 (-1) (nyDet R a b))
def nyJ2 (R : NyTable) (a b : List (List ℚ)) : List (List ℚ) := add2 [[1]] (add2 (smul2 (-1) (nyTr R a b)) (nyDet R a b))
def nyJ3 (R : NyTable) (a b : List (List ℚ)) : List (List ℚ) := add2 [[1]] (add2 (nyTr R a b) (nyDet R a b))

/-- Repeated application of the map decays, if the three polynomials are positive. -/
theorem ny_decay {R : NyTable} {a b : List (List ℚ)} {x c : ℝ} (h1 : 0 < ev2 (nyJ1 R a b) x c) (h2 : 0 < ev2 (nyJ2 R a b) x c) (h3 : 0 < ev2 (nyJ3 R a b) x c)
    {u w : ℕ → ℂ} (e1 : ∀ n, u (n + 1) = ((ev2 (nyM11 R a b) x c : ℝ) : ℂ) * u n + ((ev2 (nyM12 R a b) x c : ℝ) : ℂ) * w n)
    (e2 : ∀ n, w (n + 1) = ((ev2 (nyM21 R a b) x c : ℝ) : ℂ) * u n + ((ev2 (nyM22 R a b) x c : ℝ) : ℂ) * w n) :
    Filter.Tendsto u Filter.atTop (nhds 0) ∧ Filter.Tendsto w Filter.atTop (nhds 0) := by
  simp only [nyJ1, nyJ2, nyJ3, nyTr, nyDet, ev2_add, ev2_smul, ev2_mul, ev2, evP] at h1 h2 h3
  set m11 := ev2 (nyM11 R a b) x c
  set m12 := ev2 (nyM12 R a b) x c
  set m21 := ev2 (nyM21 R a b) x c
  set m22 := ev2 (nyM22 R a b) x c
  push_cast at h1 h2 h3
  have key : ∀ z : ℕ → ℂ, (∀ n, z (n + 2) = ((m11 + m22 : ℝ) : ℂ) * z (n + 1) - ((m11 * m22 - m12 * m21 : ℝ) : ℂ) * z n) →
      Filter.Tendsto z Filter.atTop (nhds 0) := fun z hz =>
    recurrence_decay (T := m11 + m22) (D := m11 * m22 - m12 * m21) (by linarith) (by linarith) (by linarith) hz
  refine ⟨key u fun n => ?_, key w fun n => ?_⟩
  · have a1 := e1 (n + 1)
    have a2 := e1 n
    have a3 := e2 n
    push_cast
    rw [show n + 1 + 1 = n + 2 from rfl] at a1
    linear_combination a1 - m22 * a2 + m12 * a3
  · have a1 := e2 (n + 1)
    have a2 := e1 n
    have a3 := e2 n
    push_cast
    rw [show n + 1 + 1 = n + 2 from rfl] at a1
    linear_combination a1 - m11 * a3 + m21 * a2

/-- The variables `h² a` and `h b`. -/
def varA : List (List ℚ) := [[], [1]]
def varB : List (List ℚ) := [[0, 1]]

/-- `N P = Z`. -/
def eqQ (P : List (List ℚ)) (N : ℕ) (Z : List (List ℤ)) : Bool := zero2 (add2 (smul2 N P) (smul2 (-1) (cast2 Z)))

theorem eqQ_sound {P : List (List ℚ)} {N : ℕ} {Z : List (List ℤ)} (h : eqQ P N Z = true) (x c : ℝ) : (N : ℝ) * ev2 P x c = ev2 (cast2 Z) x c := by
  have h4 := zero2_ev h x c
  rw [ev2_add, ev2_smul, ev2_smul] at h4
  push_cast at h4
  linarith

/-- Substitution of polynomials. -/
noncomputable def compRow (b : List (List ℤ)) (row : List ℤ) : List (List ℤ) :=
  List.rec (motive := fun _ => List (List ℤ)) [] (fun x _ ih => add2Z [[x]] (mul2Z b ih)) row

noncomputable def comp2Z (a b : List (List ℤ)) (T : List (List ℤ)) : List (List ℤ) :=
  List.rec (motive := fun _ => List (List ℤ)) [] (fun row _ ih => add2Z (compRow b row) (mul2Z a ih)) T

theorem ev2_compRow (b : List (List ℤ)) (row : List ℤ) (x c : ℝ) : ev2 (cast2 (compRow b row)) x c = evP (castP row) (ev2 (cast2 b) x c) := by
  induction row with
  | nil => rfl
  | cons r row ih =>
    have e : compRow b (r :: row) = add2Z [[r]] (mul2Z b (compRow b row)) := rfl
    have e1 : castP (r :: row) = (r : ℚ) :: castP row := rfl
    have e2 : cast2 [[r]] = [[(r : ℚ)]] := rfl
    rw [e, cast2_add, cast2_mul, ev2_add, ev2_mul, ih, e1, e2]
    simp [ev2, evP]

theorem ev2_comp2 (a b T : List (List ℤ)) (x c : ℝ) : ev2 (cast2 (comp2Z a b T)) x c = ev2 (cast2 T) (ev2 (cast2 a) x c) (ev2 (cast2 b) x c) := by
  induction T with
  | nil => rfl
  | cons r T ih =>
    have e : comp2Z a b (r :: T) = add2Z (compRow b r) (mul2Z a (comp2Z a b T)) := rfl
    have e1 : cast2 (r :: T) = castP r :: cast2 T := rfl
    rw [e, cast2_add, cast2_mul, ev2_add, ev2_mul, ih, e1, ev2_compRow, ev2]

/-- After the substitution the polynomial is `x^k c^e Z`, with `Z` positive on the rectangle. -/
noncomputable def posChart (T a b : List (List ℤ)) (k e : ℕ) (Z : List (List ℤ)) (I J : Iv) (n m : ℕ) (S : Split) : Bool :=
  (add2Z (comp2Z a b T) (smul2Z (-1) (List.replicate k [] ++ mapR (mulPZ (List.replicate e 0 ++ [1])) Z))).all (fun p => p.all fun x => decide (x = 0)) &&
    posRect Z I J n m S

theorem zero2Z_ev {M : List (List ℤ)} (h : (M.all fun p => p.all fun x => decide (x = 0)) = true) (x c : ℝ) : ev2 (cast2 M) x c = 0 := by
  induction M with
  | nil => rfl
  | cons a M ih =>
    simp only [List.all_cons, Bool.and_eq_true] at h
    have e : cast2 (a :: M) = castP a :: cast2 M := rfl
    rw [e, ev2, evP_zeroZ (by simpa using h.1), ih h.2]
    simp

theorem posChart_sound {T a b : List (List ℤ)} {k e : ℕ} {Z : List (List ℤ)} {I J : Iv} {n m : ℕ} {S : Split} (h : posChart T a b k e Z I J n m S = true) {x c : ℝ}
    (hx : I.Mem x) (hc : J.Mem c) (x0 : 0 < x) (c0 : 0 < c ∨ e = 0) : 0 < ev2 (cast2 T) (ev2 (cast2 a) x c) (ev2 (cast2 b) x c) := by
  rw [posChart, Bool.and_eq_true] at h
  obtain ⟨h2, h3⟩ := h
  have h4 := zero2Z_ev h2 x c
  have e1 : ∀ Z : List (List ℤ), cast2 (List.replicate k [] ++ Z) = List.replicate k [] ++ cast2 Z := by
    intro Z
    simp [cast2, castP]
  have e2 : castP (List.replicate e 0 ++ [1]) = List.replicate e 0 ++ [1] := by simp [castP]
  rw [cast2_add, cast2_smul, e1, mapR_eq, cast2_map_mul, e2, ev2_add, ev2_smul, ev2_shiftRows, ev2_map_mul, evP_monomial, ev2_comp2] at h4
  have h5 := posRect_sound h3 hx hc
  push_cast at h4
  have hce : 0 < c ^ e := by
    rcases c0 with h | h
    · exact pow_pos h _
    · rw [h, pow_zero]
      exact one_pos
  have h6 : ev2 (cast2 T) (ev2 (cast2 a) x c) (ev2 (cast2 b) x c) = x ^ k * (c ^ e * ev2 (cast2 Z) x c) := by linarith
  rw [h6]
  positivity

/-- The three conditions with integers, from `N` times the trace and the determinant. -/
noncomputable def j1Z (N : ℕ) (D : List (List ℤ)) : List (List ℤ) := add2Z [[(N : ℤ)]] (smul2Z (-1) D)
noncomputable def j2Z (N : ℕ) (T D : List (List ℤ)) : List (List ℤ) := add2Z [[(N : ℤ)]] (add2Z (smul2Z (-1) T) D)
noncomputable def j3Z (N : ℕ) (T D : List (List ℤ)) : List (List ℤ) := add2Z [[(N : ℤ)]] (add2Z T D)

theorem j_sound {R : NyTable} {N : ℕ} {T D : List (List ℤ)} (hT : eqQ (nyTr R varA varB) N T = true) (hD : eqQ (nyDet R varA varB) N D = true) {α β : ℝ}
    (h1 : 0 < ev2 (cast2 (j1Z N D)) α β) (h2 : 0 < ev2 (cast2 (j2Z N T D)) α β) (h3 : 0 < ev2 (cast2 (j3Z N T D)) α β) :
    0 < ev2 (nyJ1 R varA varB) α β ∧ 0 < ev2 (nyJ2 R varA varB) α β ∧ 0 < ev2 (nyJ3 R varA varB) α β := by
  have eT := eqQ_sound hT α β
  have eD := eqQ_sound hD α β
  have f : ev2 (cast2 [[(N : ℤ)]]) α β = N := by simp [cast2, castP, ev2, evP]
  have hN : (0 : ℝ) ≤ N := Nat.cast_nonneg N
  simp only [j1Z, j2Z, j3Z, cast2_add, cast2_smul, ev2_add, ev2_smul, f, ← eT, ← eD] at h1 h2 h3
  simp only [nyJ1, nyJ2, nyJ3, ev2_add, ev2_smul, ev2, evP]
  push_cast at h1 h2 h3 ⊢
  refine ⟨pos_of_mul_pos_right (a := (N : ℝ)) ?_ hN, pos_of_mul_pos_right (a := (N : ℝ)) ?_ hN, pos_of_mul_pos_right (a := (N : ℝ)) ?_ hN⟩
  · linarith
  · linarith
  · linarith

/-- Evaluation at rational points. -/
theorem ev2_cast (M : List (List ℚ)) (x c : ℚ) : ((ev2 M x c : ℚ) : ℝ) = ev2 M (x : ℝ) (c : ℝ) := by
  have h1 : ∀ p : List ℚ, ((evP p c : ℚ) : ℝ) = evP p (c : ℝ) := by
    intro p
    induction p with
    | nil => simp [evP]
    | cons a p ih => simp [evP, ih]
  induction M with
  | nil => simp [ev2]
  | cons a M ih => simp [ev2, ih, h1]

end Extensisq
