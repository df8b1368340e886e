import Verif.Lemmas.SwagMesh
import Mathlib.Algebra.Polynomial.Derivative
import Mathlib.LinearAlgebra.Lagrange

/-!
# Integrals of the Newton form
-/

set_option linter.unusedSectionVars false

namespace Extensisq
open Finset Polynomial

section
variable {K : Type*} [Field K] [LinearOrder K] [IsStrictOrderedRing K]

/-- An antiderivative. -/
noncomputable def pint (p : K[X]) : K[X] := ∑ i ∈ range (p.natDegree + 1), C (p.coeff i / ((i : K) + 1)) * X ^ (i + 1)

theorem derivative_pint (p : K[X]) : derivative (pint p) = p := by
  conv_rhs => rw [p.as_sum_range_C_mul_X_pow]
  rw [pint, derivative_sum]
  refine Finset.sum_congr rfl fun i _ => ?_
  have h : ((i : K) + 1) ≠ 0 := by positivity
  rw [derivative_C_mul, derivative_X_pow, ← mul_assoc]
  simp only [add_tsub_cancel_right]
  rw [← C_mul]
  congr 2
  push_cast
  field_simp

/-- The integral from `a` to `b`. -/
noncomputable def inc (p : K[X]) (a b : K) : K := (pint p).eval b - (pint p).eval a

theorem inc_of_deriv {S p : K[X]} (h : derivative S = p) (a b : K) : inc p a b = S.eval b - S.eval a := by
  have h1 : derivative (S - pint p) = 0 := by rw [derivative_sub, h, derivative_pint, sub_self]
  have h2 := eq_C_of_derivative_eq_zero h1
  have h3 : ∀ x, S.eval x = (pint p).eval x + (S - pint p).coeff 0 := by
    intro x
    have := congrArg (Polynomial.eval x) h2
    rw [eval_sub, eval_C] at this
    linear_combination this
  rw [inc, h3 a, h3 b]
  ring

theorem inc_add (p q : K[X]) (a b : K) : inc (p + q) a b = inc p a b + inc q a b := by
  rw [inc_of_deriv (S := pint p + pint q) (by rw [derivative_add, derivative_pint, derivative_pint]), inc, inc,
    eval_add, eval_add]
  ring

theorem inc_C_mul (c : K) (p : K[X]) (a b : K) : inc (C c * p) a b = c * inc p a b := by
  rw [inc_of_deriv (S := C c * pint p) (by rw [derivative_C_mul, derivative_pint]), inc]
  simp only [eval_mul, eval_C]
  ring

theorem inc_sub (p q : K[X]) (a b : K) : inc (p - q) a b = inc p a b - inc q a b := by
  have : p - q = p + C (-1) * q := by rw [C_neg, C_1]; ring
  rw [this, inc_add, inc_C_mul]
  ring

theorem inc_zero (a b : K) : inc (0 : K[X]) a b = 0 := by
  rw [inc_of_deriv (S := 0) (by simp)]; simp

theorem inc_sum {ι : Type*} (s : Finset ι) (p : ι → K[X]) (a b : K) :
    inc (∑ i ∈ s, p i) a b = ∑ i ∈ s, inc (p i) a b := by
  classical
  induction s using Finset.induction_on with
  | empty => simp [inc_zero]
  | insert i s hi ih => rw [Finset.sum_insert hi, Finset.sum_insert hi, inc_add, ih]

theorem inc_pow (t x : K) (q : ℕ) : inc ((C x - X) ^ q) t x = (x - t) ^ (q + 1) / ((q : K) + 1) := by
  have h : ((q : K) + 1) ≠ 0 := by positivity
  rw [inc_of_deriv (S := C (-1 / ((q : K) + 1)) * (C x - X) ^ (q + 1))]
  · simp only [eval_mul, eval_C, eval_pow, eval_sub, eval_X, sub_self]
    rw [zero_pow (by omega)]
    field_simp
    ring
  · rw [derivative_C_mul, derivative_pow]
    simp only [add_tsub_cancel_right, derivative_sub, derivative_C, derivative_X]
    push_cast
    have : (C (-1 / ((q : K) + 1)) * (C ((q : K) + 1) * (C x - X) ^ q * (0 - 1)))
        = C (-1 / ((q : K) + 1)) * C (-((q : K) + 1)) * (C x - X) ^ q := by
      rw [C_neg]
      ring
    rw [this, ← C_mul]
    rw [show -1 / ((q : K) + 1) * -((q : K) + 1) = 1 by field_simp, C_1, one_mul]

/-! ## Basis polynomials -/

/-- The basis polynomial `ab`. -/
noncomputable def abP (X0 : ℕ → K) (t' : K) (j : ℕ) : K[X] := ∏ l ∈ range j, C (t' - X0 l)⁻¹ * (X - C (X0 l))

theorem eval_abP (X0 : ℕ → K) (t' : K) (j : ℕ) (x : K) : (abP X0 t' j).eval x = ab X0 t' j x := by
  rw [abP, eval_prod, ab]
  refine Finset.prod_congr rfl fun l _ => ?_
  simp only [eval_mul, eval_C, eval_sub, eval_X]
  rw [div_eq_inv_mul]

theorem abP_succ (X0 : ℕ → K) (t' : K) (j : ℕ) :
    abP X0 t' (j + 1) = abP X0 t' j * (C (t' - X0 j)⁻¹ * (X - C (X0 j))) := by
  rw [abP, Finset.prod_range_succ, ← abP]

theorem natDegree_abP (X0 : ℕ → K) (t' : K) (j : ℕ) : (abP X0 t' j).natDegree ≤ j := by
  induction j with
  | zero => simp [abP]
  | succ j ih =>
    rw [abP_succ]
    refine natDegree_mul_le.trans (Nat.add_le_add ih ?_)
    exact natDegree_C_mul_le _ _ |>.trans (natDegree_X_sub_C_le _)

/-- `g_{i,q}` of the interpolant. -/
def genW (alpha : ℕ → K) (xi : K) : ℕ → ℕ → K
  | 0, q => xi ^ (q + 1) / ((q : K) + 1)
  | i + 1, q => (1 + (xi - 1) * alpha i) * genW alpha xi i q - alpha i * genW alpha xi i (q + 1)

theorem genW_one (alpha : ℕ → K) : ∀ i q, genW alpha 1 i q = genG alpha i q
  | 0, q => by simp [genW, genG]
  | i + 1, q => by rw [genW, genG, genW_one, genW_one]; ring

theorem inc_ab {X0 : ℕ → K} {t h xi : K} {alpha : ℕ → K} (hh : h ≠ 0) :
    ∀ {j : ℕ}, (∀ i < j, t + h - X0 i ≠ 0) → (∀ i < j, alpha i = h / (t + h - X0 i)) → ∀ q,
    inc ((C (t + xi * h) - X) ^ q * abP X0 (t + h) j) t (t + xi * h) = h ^ (q + 1) * genW alpha xi j q
  | 0, _, _, q => by
    rw [abP, Finset.prod_range_zero, mul_one, inc_pow, genW]
    have : t + xi * h - t = xi * h := by ring
    rw [this, mul_pow]
    ring
  | j + 1, hne, ha, q => by
    have ih := inc_ab hh (xi := xi) (fun i hi => hne i (by omega)) (fun i hi => ha i (by omega)) (j := j)
    have hj := hne j (by omega)
    have e : (C (t + xi * h) - X) ^ q * abP X0 (t + h) (j + 1)
        = C (1 + (xi - 1) * alpha j) * ((C (t + xi * h) - X) ^ q * abP X0 (t + h) j)
          - C (alpha j / h) * ((C (t + xi * h) - X) ^ (q + 1) * abP X0 (t + h) j) := by
      have h1 : (C (t + h - X0 j)⁻¹ * (X - C (X0 j)) : K[X])
          = C (1 + (xi - 1) * alpha j) - C (alpha j / h) * (C (t + xi * h) - X) := by
        rw [ha j (by omega)]
        have e1 : h / (t + h - X0 j) / h = (t + h - X0 j)⁻¹ := by field_simp
        have e2 : 1 + (xi - 1) * (h / (t + h - X0 j)) = (t + h - X0 j)⁻¹ * (t + xi * h - X0 j) := by
          field_simp; ring
        rw [e1, e2]
        simp only [C_mul, C_sub, C_add]
        ring
      rw [abP_succ, h1]
      ring
    rw [e, inc_sub, inc_C_mul, inc_C_mul, ih q, ih (q + 1), genW]
    field_simp
    ring

/-- The integral over the whole step. -/
theorem inc_ab_one {X0 : ℕ → K} {t h : K} {alpha : ℕ → K} (hh : h ≠ 0) {j : ℕ}
    (hne : ∀ i < j, t + h - X0 i ≠ 0) (ha : ∀ i < j, alpha i = h / (t + h - X0 i)) (q : ℕ) :
    inc ((C (t + h) - X) ^ q * abP X0 (t + h) j) t (t + h) = h ^ (q + 1) * genG alpha j q := by
  have := inc_ab hh (xi := 1) hne ha q
  rwa [one_mul, genW_one] at this

/-- Two polynomials of degree below `k` which agree in `k` distinct points have the same integral. -/
theorem eq_of_points {p q : K[X]} {k : ℕ} {X0 : ℕ → K} (hp : p.degree < k) (hq : q.degree < k)
    (hinj : ∀ i < k, ∀ j < k, X0 i = X0 j → i = j) (he : ∀ i < k, p.eval (X0 i) = q.eval (X0 i)) : p = q := by
  refine eq_of_degrees_lt_of_eval_index_eq (s := range k) (v := X0) ?_ (by simpa using hp) (by simpa using hq) ?_
  · intro i hi j hj h
    exact hinj i (by simpa using hi) j (by simpa using hj) h
  · intro i hi; exact he i (by simpa using hi)

theorem degree_lt_of_natDegree_deriv {q : K[X]} {k : ℕ} (hk : 1 ≤ k) (h : q.natDegree ≤ k) :
    (derivative q).degree < k := by
  rw [degree_lt_iff_coeff_zero]
  intro m hm
  rw [coeff_derivative, coeff_eq_zero_of_natDegree_lt (by omega), zero_mul]

/-- The Newton form as a polynomial. -/
noncomputable def newtonP (X0 : ℕ → K) (t' : K) (k : ℕ) (a : ℕ → K) : K[X] :=
  ∑ j ∈ range k, C (nb X0 j t' * a j) * abP X0 t' j

theorem eval_newtonP {X0 : ℕ → K} {t' : K} {k : ℕ} {a : ℕ → K} (hne : ∀ i < k, t' - X0 i ≠ 0) (x : K) :
    (newtonP X0 t' k a).eval x = ∑ j ∈ range k, nb X0 j x * a j := by
  rw [newtonP, eval_finsetSum]
  refine Finset.sum_congr rfl fun j hj => ?_
  have := Finset.mem_range.mp hj
  rw [eval_mul, eval_C, eval_abP, nb_ab (t' := t') (fun i hi => hne i (by omega)) x]
  ring

theorem degree_newtonP (X0 : ℕ → K) (t' : K) (k : ℕ) (a : ℕ → K) : (newtonP X0 t' k a).degree < k := by
  rw [degree_lt_iff_coeff_zero]
  intro m hm
  rw [newtonP, finsetSum_coeff]
  refine Finset.sum_eq_zero fun j hj => ?_
  have := Finset.mem_range.mp hj
  rw [coeff_C_mul, coeff_eq_zero_of_natDegree_lt ((natDegree_abP X0 t' j).trans_lt (by omega)), mul_zero]

theorem inc_newtonP {X0 : ℕ → K} {t h : K} {k : ℕ} {a alpha : ℕ → K} (hh : h ≠ 0)
    (hne : ∀ i < k, t + h - X0 i ≠ 0) (ha : ∀ i < k, alpha i = h / (t + h - X0 i)) :
    inc (newtonP X0 (t + h) k a) t (t + h) = h * ∑ j ∈ range k, genG alpha j 0 * (nb X0 j (t + h) * a j) := by
  rw [newtonP, inc_sum, Finset.mul_sum]
  refine Finset.sum_congr rfl fun j hj => ?_
  have := Finset.mem_range.mp hj
  have h1 := inc_ab_one hh (j := j) (fun i hi => hne i (by omega)) (fun i hi => ha i (by omega)) 0
  rw [pow_zero, one_mul] at h1
  rw [inc_C_mul, h1]
  ring

/-! ## The arrays of the interpolant -/

theorem wLoop_spec {alpha : ℕ → K} {kold : ℕ} {xi : K} : ∀ (n i : ℕ) (w g : ℕ → K), i + n < kold →
    (∀ q ≤ kold - i, w q = genW alpha xi (i + 1) q) → (∀ j ≤ i + 1, g j = genW alpha xi j 0) →
    (∀ q ≤ kold - (i + n), (wLoop alpha kold xi n i (w, g)).1 q = genW alpha xi (i + n + 1) q) ∧
    (∀ j ≤ i + n + 1, (wLoop alpha kold xi n i (w, g)).2 j = genW alpha xi j 0) := by
  intro n
  induction n with
  | zero => intro i w g _ hw hg; exact ⟨hw, hg⟩
  | succ n ih =>
    intro i w g hi hw hg
    have hw' : ∀ q ≤ kold - (i + 1), (fun q => if q < kold - i then
        (1 + (xi - 1) * alpha (i + 1)) * w q - alpha (i + 1) * w (q + 1) else w q) q
          = genW alpha xi (i + 1 + 1) q := by
      intro q hq
      simp only
      rw [if_pos (by omega), hw q (by omega), hw (q + 1) (by omega)]
      rfl
    have h := ih (i + 1) _ (Function.update g (i + 2) ((fun q => if q < kold - i then
        (1 + (xi - 1) * alpha (i + 1)) * w q - alpha (i + 1) * w (q + 1) else w q) 0)) (by omega) hw' (by
      intro j hj
      by_cases hc : j = i + 2
      · subst hc
        rw [Function.update_self, hw' 0 (by omega)]
      · rw [Function.update_of_ne hc, hg j (by omega)])
    rw [show i + (n + 1) = i + 1 + n by omega]
    exact h

theorem denseWG_spec {alpha : ℕ → K} {kold : ℕ} (h0 : alpha 0 = 1) (hk : 1 ≤ kold) (xi : K) :
    (∀ q ≤ 1, (denseWG alpha kold xi).1 q = genW alpha xi kold q) ∧
    (∀ j ≤ kold, (denseWG alpha kold xi).2 j = genW alpha xi j 0) := by
  have h1 : ∀ q, genW alpha xi 1 q = xi * (xi ^ (q + 1) * iqq q) := by
    intro q
    have a1 : ((q : K) + 1) ≠ 0 := by positivity
    have a2 : ((q : K) + 2) ≠ 0 := by positivity
    have a3 : ((q : K) + 1 + 1) ≠ 0 := by positivity
    rw [genW, genW, genW, h0, iqq]
    push_cast
    field_simp
    ring
  have h := wLoop_spec (alpha := alpha) (kold := kold) (xi := xi) (kold - 1) 0
    (fun q => xi * (xi ^ (q + 1) * iqq q)) (fun i => if i = 0 then xi else 1 / 2 * xi * xi) (by omega)
    (fun q _ => (h1 q).symm) (by
      intro j hj
      rcases Nat.le_one_iff_eq_zero_or_eq_one.mp hj with rfl | rfl
      · simp [genW]
      · rw [h1, if_neg (by omega), iqq]; norm_num; ring)
  rw [show 0 + (kold - 1) + 1 = kold by omega] at h
  rw [denseWG]
  exact ⟨fun q hq => h.1 q (by omega), h.2⟩

end
end Extensisq
