import Verif.Lemmas.Dense
import Verif.Props.RKStep
import Verif.Props.Order
import Mathlib.Algebra.Order.Field.Basic
import Mathlib.Analysis.Calculus.Deriv.Prod

/-!
# C23-C26: the dense output objects
-/

set_option linter.unusedSectionVars false

namespace Extensisq
open Finset

section
variable {K V : Type*} [Field K] [AddCommGroup V] [Module K V]

/-! ## C23 -/

/-- **C23**. `HornerDenseOutput(t_old, t, y_old, Q)` is the polynomial
`y_old + h * sum_j Q_j x^(j+1)` with `x = (τ - t_old)/h`, `h = t - t_old`. -/
theorem C23_horner_polynomial (tOld t : K) (yOld : V) (Q : List V) (τ : K) :
    horner tOld t yOld Q τ = yOld + (t - tOld) •
      ∑ j ∈ range Q.length, ((τ - tOld) / (t - tOld)) ^ (j + 1) • Q.getD j 0 :=
  horner_eq tOld t yOld Q τ

/-- **C23**. At `t_old` the output is `y_old`. -/
theorem C23_horner_start (tOld t : K) (yOld : V) (Q : List V) : horner tOld t yOld Q tOld = yOld := by
  rw [horner_eq, sub_self, zero_div, sum_eq_zero, smul_zero, add_zero]
  intro j _
  rw [zero_pow (by omega), zero_smul]

/-- **C23**. At `t` the output is `y_old + h * K^T (row sums of P)`. -/
theorem C23_horner_end {tOld t : K} (ht : t ≠ tOld) (yOld : V) (P : List (List ℚ)) (n : ℕ) (Ks : ℕ → V) :
    horner tOld t yOld (denseQ K P n Ks) t = yOld + (t - tOld) •
      ∑ i ∈ range n, (∑ j ∈ range (cols P), entry K P i j) • Ks i := by
  rw [horner_denseQ, div_self (sub_ne_zero.mpr ht)]
  simp only [pWeight, one_pow, mul_one]

/-- **C23**. If the row sums of `P` are the weights `B` (and zero for the rows that follow), the output
at the end of the step is the new solution. -/
theorem C23_horner_end_solution {tOld t : K} (ht : t ≠ tOld) {T : Tableau K} {rhs : K → V → V} {yOld y : V}
    {k : ℕ → V} (hk : IsRKStep T rhs tOld yOld (t - tOld) k y) (P : List (List ℚ)) (n : ℕ) (hn : T.s ≤ n)
    (hP : ∀ i, i < n → ∑ j ∈ range (cols P), entry K P i j = if i < T.s then T.B i else 0) :
    horner tOld t yOld (denseQ K P n k) t = y := by
  rw [C23_horner_end ht, hk.sol]
  congr 2
  rw [← sum_subset (range_subset_range.mpr hn)]
  · apply sum_congr rfl
    intro i hi
    rw [hP i (by have := mem_range.mp hi; omega), if_pos (mem_range.mp hi)]
  · intro i hi hi'
    rw [hP i (mem_range.mp hi), if_neg (by simpa using hi'), zero_smul]

/-! ## C24 -/

/-- **C24**. `CubicDenseOutput` takes the given values at the ends. -/
theorem C24_cubic_ends {tOld t : K} (ht : t ≠ tOld) (yOld y fOld f : V) :
    cubic tOld t yOld y fOld f tOld = yOld ∧ cubic tOld t yOld y fOld f t = y := by
  have hne : t - tOld ≠ 0 := sub_ne_zero.mpr ht
  constructor
  · simp only [cubic, sub_self, zero_div]
    module
  · simp only [cubic, div_self hne]
    module

/-- **C24**. `CubicDenseOutput` reproduces every cubic polynomial (with coefficients in the state
space) exactly, at every time. -/
theorem C24_cubic_exact {tOld t : K} (ht : t ≠ tOld) (a0 a1 a2 a3 : V) (τ : K) :
    let p : K → V := fun s => a0 + s • a1 + s ^ 2 • a2 + s ^ 3 • a3
    let p' : K → V := fun s => a1 + (2 * s) • a2 + (3 * s ^ 2) • a3
    cubic tOld t (p tOld) (p t) (p' tOld) (p' t) τ = p τ := by
  intro p p'
  have hne : t - tOld ≠ 0 := sub_ne_zero.mpr ht
  simp only [cubic, p, p']
  generalize hh : t - tOld = h at *
  obtain rfl : t = tOld + h := by rw [← hh]; ring
  generalize hx : (τ - tOld) / h = x
  obtain rfl : τ = tOld + x * h := by rw [← hx]; field_simp; ring
  module

/-! ## C25 -/

/-- **C25**. The implementation of `QuinticHermiteDenseOutput` by a coefficient matrix agrees with the
alternative formula `_call_impl_old`. -/
theorem C25_quintic_eq_old {tOld t : K} (ht : t ≠ tOld) (h2 : (2 : K) ≠ 0) (yOld y : V × V) (aOld a : V)
    (τ : K) : quintic tOld t yOld y aOld a τ = quinticOld tOld t yOld y aOld a τ := by
  have hne : t - tOld ≠ 0 := sub_ne_zero.mpr ht
  simp only [quintic, quinticOld, hornerEval'_eq, quinticQ, quinticQp]
  simp only [List.zipIdx_cons, List.zipIdx_nil, List.map_cons, List.map_nil, List.length_cons,
    List.length_nil, sum_range_succ, sum_range_zero, List.getD_cons_zero, List.getD_cons_succ]
  generalize hh : t - tOld = h at *
  generalize (τ - tOld) / h = x
  rw [Prod.ext_iff]
  constructor
  · dsimp only
    match_scalars <;> field_simp <;> ring
  · dsimp only
    push_cast
    match_scalars <;> field_simp <;> ring

/-- **C25**. Position and velocity are reproduced at both ends. -/
theorem C25_quintic_ends {tOld t : K} (ht : t ≠ tOld) (h2 : (2 : K) ≠ 0) (yOld y : V × V) (aOld a : V) :
    quintic tOld t yOld y aOld a tOld = yOld ∧ quintic tOld t yOld y aOld a t = y := by
  have hne : t - tOld ≠ 0 := sub_ne_zero.mpr ht
  rw [C25_quintic_eq_old ht h2, C25_quintic_eq_old ht h2]
  constructor
  · simp only [quinticOld, sub_self, zero_div]
    rw [Prod.ext_iff]
    constructor <;> dsimp only <;> match_scalars <;> field_simp <;> ring
  · simp only [quinticOld, div_self hne]
    rw [Prod.ext_iff]
    constructor <;> dsimp only <;> match_scalars <;> field_simp <;> ring

/-- **C25**. Quintic polynomials are reproduced exactly: position and velocity. -/
theorem C25_quintic_exact {tOld t : K} (ht : t ≠ tOld) (h2 : (2 : K) ≠ 0) (a0 a1 a2 a3 a4 a5 : V) (τ : K) :
    let p : K → V := fun s =>
      a0 + s • a1 + s ^ 2 • a2 + s ^ 3 • a3 + s ^ 4 • a4 + s ^ 5 • a5
    let p' : K → V := fun s =>
      a1 + (2 * s) • a2 + (3 * s ^ 2) • a3 + (4 * s ^ 3) • a4 + (5 * s ^ 4) • a5
    let p'' : K → V := fun s =>
      (2 : K) • a2 + (6 * s) • a3 + (12 * s ^ 2) • a4 + (20 * s ^ 3) • a5
    quintic tOld t (p tOld, p' tOld) (p t, p' t) (p'' tOld) (p'' t) τ = (p τ, p' τ) := by
  intro p p' p''
  have hne : t - tOld ≠ 0 := sub_ne_zero.mpr ht
  rw [C25_quintic_eq_old ht h2]
  simp only [quinticOld, p, p', p'']
  generalize hh : t - tOld = h at *
  obtain rfl : t = tOld + h := by rw [← hh]; ring
  generalize hx : (τ - tOld) / h = x
  obtain rfl : τ = tOld + x * h := by rw [← hx]; field_simp; ring
  rw [Prod.ext_iff]
  constructor
  · dsimp only
    match_scalars <;> field_simp <;> ring
  · dsimp only
    match_scalars <;> field_simp <;> ring

/-! ## C26 -/

/-- **C26**. `HornerDenseOutputNystrom` in closed form. -/
theorem C26_nystrom_polynomial (tOld t : K) (yOld : V × V) (Q Qp : List V) (τ : K) :
    hornerNystrom tOld t yOld Q Qp τ =
      (yOld.1 + ((τ - tOld) / (t - tOld) * (t - tOld)) • yOld.2 + (t - tOld) ^ 2 •
          ∑ j ∈ range Q.length, ((τ - tOld) / (t - tOld)) ^ (j + 2) • Q.getD j 0,
       yOld.2 + (t - tOld) •
          ∑ j ∈ range Qp.length, ((τ - tOld) / (t - tOld)) ^ (j + 1) • Qp.getD j 0) := by
  have hg : ∀ (c : K) (Q : List V) (j : ℕ), (Q.map fun q => c • q).getD j 0 = c • Q.getD j 0 := by
    intro c Q j
    rw [List.getD_eq_getElem?_getD, List.getD_eq_getElem?_getD, List.getElem?_map]
    cases Q[j]? <;> simp
  simp only [hornerNystrom, hornerEval_eq, List.length_map, hg]
  rw [Prod.ext_iff]
  generalize (τ - tOld) / (t - tOld) = x
  constructor
  · dsimp only
    rw [smul_add, smul_sum, smul_sum, smul_smul, add_comm, add_assoc, add_comm (∑ j ∈ _, _)]
    congr 2
    apply sum_congr rfl
    intro j _
    rw [smul_smul, smul_smul, smul_smul]
    congr 1; ring
  · dsimp only
    rw [smul_sum, add_comm]
    congr 1
    apply sum_congr rfl
    intro j _
    rw [smul_smul, smul_smul]
    congr 1; ring

/-- **C26**. The old state is returned at `t_old`. -/
theorem C26_nystrom_start (tOld t : K) (yOld : V × V) (Q Qp : List V) :
    hornerNystrom tOld t yOld Q Qp tOld = yOld := by
  rw [C26_nystrom_polynomial, sub_self, zero_div]
  rw [sum_eq_zero fun j _ => by rw [zero_pow (by omega), zero_smul],
    sum_eq_zero fun j _ => by rw [zero_pow (by omega), zero_smul]]
  simp

/-- **C26**. If the row sums of `P` and `Pp` are the weights `B` and `Bp`, the output at `t` is
`x + h v + h^2 K^T B`, `v + h K^T Bp`, which is the new state of a Nystrom step. -/
theorem C26_nystrom_end {tOld t : K} (ht : t ≠ tOld) (yOld : V × V) (P Pp : List (List ℚ)) (n : ℕ)
    (Ks : ℕ → V) (B Bp : ℕ → K)
    (hP : ∀ i, i < n → ∑ j ∈ range (cols P), entry K P i j = B i)
    (hPp : ∀ i, i < n → ∑ j ∈ range (cols Pp), entry K Pp i j = Bp i) :
    hornerNystrom tOld t yOld (denseQ K P n Ks) (denseQ K Pp n Ks) t =
      (yOld.1 + (t - tOld) • yOld.2 + (t - tOld) ^ 2 • ∑ i ∈ range n, B i • Ks i,
       yOld.2 + (t - tOld) • ∑ i ∈ range n, Bp i • Ks i) := by
  have hsum : ∀ (P : List (List ℚ)) (B : ℕ → K),
      (∀ i, i < n → ∑ j ∈ range (cols P), entry K P i j = B i) →
      ∑ j ∈ range (cols P), (denseQ K P n Ks).getD j 0 = ∑ i ∈ range n, B i • Ks i := by
    intro P B hP
    rw [sum_congr rfl fun j hj => by rw [denseQ_getD P n Ks (mem_range.mp hj)], sum_comm]
    apply sum_congr rfl
    intro i hi
    rw [← sum_smul, hP i (mem_range.mp hi)]
  rw [C26_nystrom_polynomial, div_self (sub_ne_zero.mpr ht)]
  simp only [one_pow, one_smul, one_mul, denseQ_length]
  rw [hsum P B hP, hsum Pp Bp hPp]

end

section
variable {E : Type*} [NormedAddCommGroup E] [NormedSpace ℝ E]

theorem hasDerivAt_scaled {tOld t τ : ℝ} (g : ℝ → E) (g' : E)
    (hg : HasDerivAt g g' ((τ - tOld) / (t - tOld))) :
    HasDerivAt (fun τ => g ((τ - tOld) / (t - tOld))) ((t - tOld)⁻¹ • g') τ := by
  have hx : HasDerivAt (fun τ : ℝ => (τ - tOld) / (t - tOld)) ((t - tOld)⁻¹) τ := by
    simpa using ((hasDerivAt_id τ).sub_const tOld).div_const (t - tOld)
  exact hg.scomp τ hx

/-- Derivative of a polynomial with vector coefficients. -/
theorem poly5_hasDerivAt (c0 c1 c2 c3 c4 c5 : E) (x : ℝ) :
    HasDerivAt (fun x : ℝ => c0 + x • c1 + x ^ 2 • c2 + x ^ 3 • c3 + x ^ 4 • c4 + x ^ 5 • c5)
      (c1 + (2 * x) • c2 + (3 * x ^ 2) • c3 + (4 * x ^ 3) • c4 + (5 * x ^ 4) • c5) x := by
  have h1 : ∀ (n : ℕ) (c : E), HasDerivAt (fun x : ℝ => x ^ n • c) ((n * x ^ (n - 1)) • c) x :=
    fun n c => (hasDerivAt_pow n x).smul_const c
  have := ((((((hasDerivAt_const x c0).add (h1 1 c1)).add (h1 2 c2)).add (h1 3 c3)).add (h1 4 c4)).add
    (h1 5 c5))
  refine (this.congr_of_eventuallyEq (Filter.Eventually.of_forall ?_)).congr_deriv ?_
  · intro z
    simp only [Pi.add_apply, pow_one]
  · norm_num

/-- **C24**. `CubicDenseOutput` has the given derivatives at the ends: consecutive pieces with
matching data join continuously differentiably. -/
theorem C24_cubic_derivatives {tOld t : ℝ} (ht : t ≠ tOld) (yOld y fOld f : E) :
    HasDerivAt (cubic tOld t yOld y fOld f) fOld tOld ∧ HasDerivAt (cubic tOld t yOld y fOld f) f t := by
  have hne : t - tOld ≠ 0 := sub_ne_zero.mpr ht
  have hfun : cubic tOld t yOld y fOld f = fun τ => (fun x : ℝ =>
      yOld + x • ((t - tOld) • fOld) +
      x ^ 2 • ((-3 : ℝ) • yOld + (-2 * (t - tOld)) • fOld + (3 : ℝ) • y + (-(t - tOld)) • f) +
      x ^ 3 • ((2 : ℝ) • yOld + (t - tOld) • fOld + (-2 : ℝ) • y + (t - tOld) • f) +
      x ^ 4 • (0 : E) + x ^ 5 • (0 : E))
      ((τ - tOld) / (t - tOld)) := by
    funext τ
    simp only [cubic]
    generalize (τ - tOld) / (t - tOld) = x
    module
  rw [hfun]
  constructor
  · refine (hasDerivAt_scaled _ _ (poly5_hasDerivAt _ _ _ _ _ _ _)).congr_deriv ?_
    rw [sub_self, zero_div]
    match_scalars <;> field_simp <;> ring
  · refine (hasDerivAt_scaled _ _ (poly5_hasDerivAt _ _ _ _ _ _ _)).congr_deriv ?_
    rw [div_self hne]
    match_scalars <;> field_simp <;> ring

/-- The position of the quintic output as a polynomial of the scaled time. -/
theorem quintic_pos_eq {tOld t : ℝ} (ht : t ≠ tOld) (yOld y : E × E) (aOld a : E) (τ : ℝ) :
    (quintic tOld t yOld y aOld a τ).1 = (fun x : ℝ =>
      yOld.1 + x • ((t - tOld) • yOld.2) + x ^ 2 • (((t - tOld) ^ 2 / 2) • aOld) +
      x ^ 3 • ((-10 : ℝ) • yOld.1 + (10 : ℝ) • y.1 + (-6 * (t - tOld)) • yOld.2 + (-4 * (t - tOld)) • y.2 +
        (-3 / 2 * (t - tOld) ^ 2) • aOld + (1 / 2 * (t - tOld) ^ 2) • a) +
      x ^ 4 • ((15 : ℝ) • yOld.1 + (-15 : ℝ) • y.1 + (8 * (t - tOld)) • yOld.2 + (7 * (t - tOld)) • y.2 +
        (3 / 2 * (t - tOld) ^ 2) • aOld + (-(t - tOld) ^ 2) • a) +
      x ^ 5 • ((-6 : ℝ) • yOld.1 + (6 : ℝ) • y.1 + (-3 * (t - tOld)) • yOld.2 + (-3 * (t - tOld)) • y.2 +
        (-1 / 2 * (t - tOld) ^ 2) • aOld + (1 / 2 * (t - tOld) ^ 2) • a))
      ((τ - tOld) / (t - tOld)) := by
  rw [C25_quintic_eq_old ht two_ne_zero]
  simp only [quinticOld]
  generalize (τ - tOld) / (t - tOld) = x
  module

theorem quintic_vel_eq {tOld t : ℝ} (ht : t ≠ tOld) (yOld y : E × E) (aOld a : E) (τ : ℝ) :
    (quintic tOld t yOld y aOld a τ).2 = (fun x : ℝ =>
      yOld.2 + x • ((t - tOld) • aOld) +
      x ^ 2 • ((-30 / (t - tOld)) • yOld.1 + (30 / (t - tOld)) • y.1 + (-18 : ℝ) • yOld.2 + (-12 : ℝ) • y.2 +
        (-9 / 2 * (t - tOld)) • aOld + (3 / 2 * (t - tOld)) • a) +
      x ^ 3 • ((60 / (t - tOld)) • yOld.1 + (-60 / (t - tOld)) • y.1 + (32 : ℝ) • yOld.2 + (28 : ℝ) • y.2 +
        (6 * (t - tOld)) • aOld + (-4 * (t - tOld)) • a) +
      x ^ 4 • ((-30 / (t - tOld)) • yOld.1 + (30 / (t - tOld)) • y.1 + (-15 : ℝ) • yOld.2 + (-15 : ℝ) • y.2 +
        (-5 / 2 * (t - tOld)) • aOld + (5 / 2 * (t - tOld)) • a) + x ^ 5 • (0 : E))
      ((τ - tOld) / (t - tOld)) := by
  rw [C25_quintic_eq_old ht two_ne_zero]
  simp only [quinticOld]
  generalize (τ - tOld) / (t - tOld) = x
  generalize t - tOld = h
  module

/-- **C25**. The velocity component is the derivative of the position component, at every time. -/
theorem C25_quintic_velocity_is_derivative {tOld t : ℝ} (ht : t ≠ tOld) (yOld y : E × E) (aOld a : E)
    (τ : ℝ) : HasDerivAt (fun τ => (quintic tOld t yOld y aOld a τ).1)
      (quintic tOld t yOld y aOld a τ).2 τ := by
  have hne : t - tOld ≠ 0 := sub_ne_zero.mpr ht
  rw [funext (quintic_pos_eq ht yOld y aOld a)]
  refine (hasDerivAt_scaled _ _ (poly5_hasDerivAt _ _ _ _ _ _ _)).congr_deriv ?_
  rw [quintic_vel_eq ht]
  generalize (τ - tOld) / (t - tOld) = x
  match_scalars <;> field_simp <;> ring

/-- **C25**. The acceleration (derivative of the velocity component) is reproduced at both ends. -/
theorem C25_quintic_acceleration {tOld t : ℝ} (ht : t ≠ tOld) (yOld y : E × E) (aOld a : E) :
    HasDerivAt (fun τ => (quintic tOld t yOld y aOld a τ).2) aOld tOld ∧
    HasDerivAt (fun τ => (quintic tOld t yOld y aOld a τ).2) a t := by
  have hne : t - tOld ≠ 0 := sub_ne_zero.mpr ht
  rw [funext (quintic_vel_eq ht yOld y aOld a)]
  constructor
  · refine (hasDerivAt_scaled _ _ (poly5_hasDerivAt _ _ _ _ _ _ _)).congr_deriv ?_
    rw [sub_self, zero_div]
    match_scalars <;> field_simp <;> ring
  · refine (hasDerivAt_scaled _ _ (poly5_hasDerivAt _ _ _ _ _ _ _)).congr_deriv ?_
    rw [div_self hne]
    match_scalars <;> field_simp <;> ring

/-- **C26**. If `Qp = Q * (2, 3, ...)` (which follows from `Pp = P * (2, 3, ...)`), the velocity is the derivative of the position at every time. -/
theorem C26_nystrom_velocity_is_derivative {tOld t : ℝ} (ht : t ≠ tOld) (yOld : E × E) (Q Qp : List E)
    (hlen : Qp.length = Q.length) (hQ : ∀ j, j < Q.length → Qp.getD j 0 = ((j : ℝ) + 2) • Q.getD j 0)
    (τ : ℝ) : HasDerivAt (fun τ => (hornerNystrom tOld t yOld Q Qp τ).1)
      (hornerNystrom tOld t yOld Q Qp τ).2 τ := by
  have hne : t - tOld ≠ 0 := sub_ne_zero.mpr ht
  have hfun : (fun τ => (hornerNystrom tOld t yOld Q Qp τ).1) = fun τ => (fun x : ℝ =>
      yOld.1 + (x * (t - tOld)) • yOld.2 + (t - tOld) ^ 2 •
        ∑ j ∈ range Q.length, x ^ (j + 2) • Q.getD j 0) ((τ - tOld) / (t - tOld)) := by
    funext τ; rw [C26_nystrom_polynomial]
  rw [hfun, C26_nystrom_polynomial]
  refine (hasDerivAt_scaled (tOld := tOld) (t := t) (τ := τ) (fun x : ℝ =>
      yOld.1 + (x * (t - tOld)) • yOld.2 + (t - tOld) ^ 2 •
        ∑ j ∈ range Q.length, x ^ (j + 2) • Q.getD j 0) ((t - tOld) • yOld.2 + (t - tOld) ^ 2 •
      ∑ j ∈ range Q.length, (((j : ℝ) + 2) * ((τ - tOld) / (t - tOld)) ^ (j + 1)) • Q.getD j 0)
      ?_).congr_deriv ?_
  · generalize (τ - tOld) / (t - tOld) = x
    have h1 : HasDerivAt (fun x : ℝ => ∑ j ∈ range Q.length, x ^ (j + 2) • Q.getD j 0)
        (∑ j ∈ range Q.length, (((j : ℝ) + 2) * x ^ (j + 1)) • Q.getD j 0) x := by
      apply HasDerivAt.fun_sum
      intro j _
      have := (hasDerivAt_pow (j + 2) x).smul_const (Q.getD j 0)
      simpa using this
    have h2 : HasDerivAt (fun x : ℝ => (x * (t - tOld)) • yOld.2) ((t - tOld) • yOld.2) x := by
      have := ((hasDerivAt_id x).mul_const (t - tOld)).smul_const yOld.2
      simpa using this
    exact (h2.const_add yOld.1).add (h1.const_smul _)
  · rw [smul_add, smul_smul, smul_smul, inv_mul_cancel₀ hne, one_smul, hlen]
    dsimp only
    congr 1
    rw [show (t - tOld)⁻¹ * (t - tOld) ^ 2 = t - tOld by field_simp]
    congr 1
    apply sum_congr rfl
    intro j hj
    rw [hQ j (mem_range.mp hj), smul_smul]
    congr 1; ring

end

/-- C24, C25: a concrete case. The cubic output reproduces `s^3` between 0 and 2 at `s = 1`, and the
quintic output reproduces `s^5`. -/
example : cubic (0 : ℚ) 2 (0 : ℚ) 8 0 12 1 = 1 ∧
    quintic (0 : ℚ) 2 ((0 : ℚ), 0) (32, 80) 0 160 1 = (1, 5) := by
  decide +kernel

/-- C26: a concrete case with matching coefficients, `u = 1 + 2x + x^2 + x^3`. -/
example : hornerNystrom (0 : ℚ) 1 ((1 : ℚ), 2) [1, 1] [2, 3] 1 = (5, 7) := by decide +kernel

end Extensisq
