import Verif.Lemmas.Trees
import Verif.Model.Methods
import Verif.Props.RKStep
import Mathlib.Algebra.Module.LinearMap.End
import Mathlib.Data.Nat.Factorial.Basic
import Mathlib.Data.Nat.Choose.Sum

/-! # C20 (quadrature), C21 (linear problems), C22 (order conditions) -/

set_option linter.unusedSectionVars false
set_option maxRecDepth 100000

namespace Extensisq
open Finset

/-- The shipped explicit Runge-Kutta methods whose coefficients are exact rationals. -/
def rationalRK : List RKTable := [Me4, CK5, BS5, CFMR7osc, Pr7]

/-! ## C22 -/

/-- `T.full` of a table as a list matrix. -/
def fullL (R : RKTable) : List (List ℚ) := R.A.map (· ++ [0]) ++ [R.B ++ [0]]

theorem OTree.weight_congr {K : Type*} [CommSemiring K] (n : ℕ) {A A' : ℕ → ℕ → K}
    (h : ∀ i, i < n → ∀ j, j < n → A i j = A' i j) (t : OTree) :
    ∀ i, i < n → t.weight n A i = t.weight n A' i := by
  induction t with
  | node k c ih =>
    intro i hi
    simp only [OTree.weight]
    apply prod_congr rfl
    intro l _
    apply sum_congr rfl
    intro j hj
    rw [mem_range] at hj
    rw [h i hi j hj, ih l j hj]

section
variable (K : Type*) [Field K] [CharZero K]

theorem tab_full_cast (R : RKTable) (i j : ℕ) :
    (R.tab K).full i j = (((R.tab ℚ).full i j : ℚ) : K) := by
  unfold Tableau.full RKTable.tab
  split_ifs <;> simp

theorem tab_main_cast (R : RKTable) (i : ℕ) : (R.tab K).main i = (((R.tab ℚ).main i : ℚ) : K) := by
  unfold Tableau.main RKTable.tab
  split_ifs <;> simp

theorem tab_embedded_cast (R : RKTable) (i : ℕ) :
    (R.tab K).embedded i = (((R.tab ℚ).embedded i : ℚ) : K) := by
  unfold Tableau.embedded RKTable.tab
  split_ifs <;> simp

theorem cond_of_check {R : RKTable} {b : ℕ → ℚ} {bl : List ℚ} {c : ℚ} {p : ℕ}
    (hlen : (fullL R).length = R.s + 1)
    (hM : ∀ i, i < R.s + 1 → ∀ j, j < R.s + 1 → (R.tab ℚ).full i j = matOf (fullL R) i j)
    (hb : ∀ i, i < R.s + 1 → b i = bl.getD i 0)
    (hc : orderCheck (fullL R) bl c p = true) (τ : OTree) (hτ : τ.size ≤ p) :
    (∑ i ∈ range (R.s + 1), ((b i : ℚ) : K) * τ.weight (R.s + 1) (R.tab K).full i) * (τ.dens : K) =
      (c : K) := by
  have h1 := orderCheck_sound hc τ hτ
  rw [hlen] at h1
  have h2 : (R.tab K).full = fun i j => (((R.tab ℚ).full i j : ℚ) : K) := by
    funext i j; exact tab_full_cast K R i j
  rw [h2, ← h1]
  push_cast
  congr 1
  apply sum_congr rfl
  intro i hi
  rw [mem_range] at hi
  rw [OTree.weight_cast, OTree.weight_congr _ hM τ i hi, hb i hi]

set_option maxHeartbeats 0 in
/-- Kernel evaluation of all order conditions. -/
theorem rationalRK_main : ∀ R ∈ rationalRK, (fullL R).length = R.s + 1 ∧
      (∀ i, i < R.s + 1 → ∀ j, j < R.s + 1 → (R.tab ℚ).full i j = matOf (fullL R) i j) ∧
      (∀ i, i < R.s + 1 → (R.tab ℚ).main i = R.B.getD i 0) ∧
      orderCheck (fullL R) R.B 1 R.order = true := by decide +kernel

/-- **C22**. Every shipped rational explicit method satisfies the order condition of *every* rooted tree
with at most `order` vertices. -/
theorem C22_main_order (R : RKTable) (hR : R ∈ rationalRK) :
    OrderCond (R.s + 1) (R.tab K).full (R.tab K).main R.order := by
  have key : ∀ R ∈ rationalRK, (fullL R).length = R.s + 1 ∧
      (∀ i, i < R.s + 1 → ∀ j, j < R.s + 1 → (R.tab ℚ).full i j = matOf (fullL R) i j) ∧
      (∀ i, i < R.s + 1 → (R.tab ℚ).main i = R.B.getD i 0) ∧
      orderCheck (fullL R) R.B 1 R.order = true := rationalRK_main
  obtain ⟨h1, h2, h3, h4⟩ := key R hR
  intro τ hτ
  have := cond_of_check K h1 h2 h3 h4 τ hτ
  have hd : (τ.dens : K) ≠ 0 := by exact_mod_cast τ.dens_pos.ne'
  rw [eq_div_iff hd]
  have h5 := tab_main_cast K R
  simp only [h5]
  rw [this]; norm_num

set_option maxHeartbeats 0 in
/-- **C22**. The embedded weights `B + E` satisfy all order conditions up to `order_secondary`. -/
theorem C22_embedded_order (R : RKTable) (hR : R ∈ rationalRK) :
    OrderCond (R.s + 1) (R.tab K).full (R.tab K).embedded R.orderSec := by
  have key : ∀ R ∈ rationalRK, (fullL R).length = R.s + 1 ∧
      (∀ i, i < R.s + 1 → ∀ j, j < R.s + 1 → (R.tab ℚ).full i j = matOf (fullL R) i j) ∧
      (∀ i, i < R.s + 1 → (R.tab ℚ).embedded i =
        ((List.zipWith (· + ·) (R.B ++ [0]) R.E).getD i 0)) ∧
      orderCheck (fullL R) (List.zipWith (· + ·) (R.B ++ [0]) R.E) 1 R.orderSec = true := by
    decide +kernel
  obtain ⟨h1, h2, h3, h4⟩ := key R hR
  intro τ hτ
  have := cond_of_check K h1 h2 h3 h4 τ hτ
  have hd : (τ.dens : K) ≠ 0 := by exact_mod_cast τ.dens_pos.ne'
  rw [eq_div_iff hd]
  have h5 := tab_embedded_cast K R
  simp only [h5]
  rw [this]; norm_num

/-- **C22**. The error weights annihilate all trees up to `order_secondary`. -/
theorem C22_error_order (R : RKTable) (hR : R ∈ rationalRK) :
    ErrorCond (R.s + 1) (R.tab K).full (R.tab K).E R.orderSec := by
  have key : ∀ R ∈ rationalRK, (fullL R).length = R.s + 1 ∧
      (∀ i, i < R.s + 1 → ∀ j, j < R.s + 1 → (R.tab ℚ).full i j = matOf (fullL R) i j) ∧
      (∀ i, i < R.s + 1 → (R.tab ℚ).E i = R.E.getD i 0) ∧
      orderCheck (fullL R) R.E 0 R.orderSec = true := by decide +kernel
  obtain ⟨h1, h2, h3, h4⟩ := key R hR
  intro τ hτ
  have := cond_of_check K h1 h2 h3 h4 τ hτ
  have hd : (τ.dens : K) ≠ 0 := by exact_mod_cast τ.dens_pos.ne'
  have h5 : ∀ i, (R.tab K).E i = (((R.tab ℚ).E i : ℚ) : K) := by
    intro i; simp [RKTable.tab]
  simp only [h5]
  rw [Rat.cast_zero] at this
  exact (mul_eq_zero.mp this).resolve_right hd

/-- The tree with `k+1` vertices in a chain, and the root with `k` leaves. -/
def OTree.chain : ℕ → OTree
  | 0 => .node 0 Fin.elim0
  | k + 1 => .node 1 fun _ => OTree.chain k

def OTree.bush (k : ℕ) : OTree := .node k fun _ => .node 0 Fin.elim0

/-- **C22**. The error weights do not annihilate all trees with `order_secondary + 1` vertices: the
estimate is not of higher order than claimed. -/
theorem C22_error_order_sharp (R : RKTable) (hR : R ∈ rationalRK) :
    ¬ ErrorCond (R.s + 1) (R.tab K).full (R.tab K).E (R.orderSec + 1) := by
  have key : ∀ R ∈ rationalRK,
      (∑ i ∈ range (R.s + 1), (R.tab ℚ).E i *
        (OTree.chain R.orderSec).weight (R.s + 1) (R.tab ℚ).full i ≠ 0 ∧
        (OTree.chain R.orderSec).size = R.orderSec + 1) ∨
      (∑ i ∈ range (R.s + 1), (R.tab ℚ).E i *
        (OTree.bush R.orderSec).weight (R.s + 1) (R.tab ℚ).full i ≠ 0 ∧
        (OTree.bush R.orderSec).size = R.orderSec + 1) := by decide +kernel
  have cast : ∀ τ : OTree, ∑ i ∈ range (R.s + 1), (R.tab K).E i *
      τ.weight (R.s + 1) (R.tab K).full i = ((∑ i ∈ range (R.s + 1), (R.tab ℚ).E i *
        τ.weight (R.s + 1) (R.tab ℚ).full i : ℚ) : K) := by
    intro τ
    have h2 : (R.tab K).full = fun i j => (((R.tab ℚ).full i j : ℚ) : K) := by
      funext i j; exact tab_full_cast K R i j
    rw [h2]
    push_cast
    apply sum_congr rfl
    intro i _
    rw [OTree.weight_cast]
    simp [RKTable.tab]
  intro hE
  rcases key R hR with ⟨h1, h2⟩ | ⟨h1, h2⟩
  · have := hE _ h2.le
    rw [cast] at this
    exact h1 (by exact_mod_cast this)
  · have := hE _ h2.le
    rw [cast] at this
    exact h1 (by exact_mod_cast this)

/-- C22, preliminary error estimate of BS5: fourth order as well. -/
theorem C22_BS5_preliminary :
    ErrorCond (BS5.s + 1) (BS5.tab K).full (weights K BS5_E_pre) 4 := by
  have key : (fullL BS5).length = BS5.s + 1 ∧
      (∀ i, i < BS5.s + 1 → ∀ j, j < BS5.s + 1 → (BS5.tab ℚ).full i j = matOf (fullL BS5) i j) ∧
      (∀ i, i < BS5.s + 1 → weights ℚ BS5_E_pre i = BS5_E_pre.getD i 0) ∧
      orderCheck (fullL BS5) BS5_E_pre 0 4 = true := by decide +kernel
  obtain ⟨h1, h2, h3, h4⟩ := key
  intro τ hτ
  have := cond_of_check K h1 h2 h3 h4 τ hτ
  have hd : (τ.dens : K) ≠ 0 := by exact_mod_cast τ.dens_pos.ne'
  have h5 : ∀ i, weights K BS5_E_pre i = ((weights ℚ BS5_E_pre i : ℚ) : K) := by
    intro i; simp [weights]
  simp only [h5]
  rw [Rat.cast_zero] at this
  exact (mul_eq_zero.mp this).resolve_right hd

/-- C22, CFMR7osc: the preliminary estimate uses the same error vector as the final one (the last two
error weights are zero). -/
theorem C22_CFMR7osc_preliminary (V : Type*) [AddCommGroup V] [Module K V] (h : K) (k : ℕ → V) :
    h • ∑ i ∈ range 8, (CFMR7osc.tab K).E i • k i = errorEstimate (CFMR7osc.tab K) h k := by
  unfold errorEstimate
  have hs : (CFMR7osc.tab K).s + 1 = 8 + 1 + 1 := rfl
  rw [hs, sum_range_succ _ (8 + 1), sum_range_succ _ 8]
  have h8 : (CFMR7osc.tab K).E 8 = 0 := by simp [RKTable.tab, CFMR7osc]
  have h9 : (CFMR7osc.tab K).E 9 = 0 := by simp [RKTable.tab, CFMR7osc]
  rw [h8, h9]
  simp

end

/-! ## C20 -/

section
variable {K V : Type*} [Field K] [LinearOrder K] [IsStrictOrderedRing K] [AddCommGroup V] [Module K V]

/-- Antiderivative of `τ ↦ ∑_{m<p} τ^m v_m`, as a polynomial. -/
def polyInt (p : ℕ) (v : ℕ → V) (τ : K) : V := ∑ m ∈ range p, (τ ^ (m + 1) / ((m : K) + 1)) • v m

/-- Binomial expansion of the increment of a power. -/
theorem pow_increment (t h : K) (m : ℕ) :
    (t + h) ^ (m + 1) / ((m : K) + 1) - t ^ (m + 1) / ((m : K) + 1) =
      ∑ q ∈ range (m + 1), (h ^ (q + 1) * t ^ (m - q)) * ((m.choose q : K) * (1 / ((q : K) + 1))) := by
  have hm : ((m : K) + 1) ≠ 0 := by positivity
  rw [← sub_div, div_eq_iff hm, add_comm t h, add_pow, sum_range_succ', sum_mul]
  simp only [pow_zero, Nat.sub_zero, one_mul, Nat.choose_zero_right, Nat.cast_one, mul_one,
    add_sub_cancel_right]
  apply sum_congr rfl
  intro q hq
  have hq' : ((q : K) + 1) ≠ 0 := by positivity
  have h1 : ((m + 1).choose (q + 1) : K) * ((q : K) + 1) = ((m : K) + 1) * (m.choose q : K) := by
    have := Nat.add_one_mul_choose_eq m q
    exact_mod_cast this.symm
  rw [show m + 1 - (q + 1) = m - q by omega]
  field_simp
  rw [mul_assoc, mul_assoc, h1]
  ring

theorem stage_power (t c h : K) (m : ℕ) :
    h * (t + c * h) ^ m = ∑ q ∈ range (m + 1), (h ^ (q + 1) * t ^ (m - q)) * ((m.choose q : K) * c ^ q) := by
  rw [add_comm, add_pow, mul_sum]
  apply sum_congr rfl
  intro q _
  rw [mul_pow]; ring

theorem quadrature_general (s p : ℕ) (b c : ℕ → K) (t h : K) (v : ℕ → V)
    (hq : ∀ m, m < p → ∑ i ∈ range s, b i * c i ^ m = 1 / ((m : K) + 1)) :
    h • ∑ i ∈ range s, b i • ∑ m ∈ range p, (t + c i * h) ^ m • v m =
      polyInt p v (t + h) - polyInt p v t := by
  unfold polyInt
  rw [← sum_sub_distrib]
  simp only [smul_sum]
  rw [sum_comm]
  apply sum_congr rfl
  intro m hm
  rw [mem_range] at hm
  rw [← sub_smul, pow_increment]
  simp only [smul_smul]
  rw [← sum_smul]
  congr 1
  have e : ∀ i, h * (b i * (t + c i * h) ^ m) = ∑ q ∈ range (m + 1),
      (h ^ (q + 1) * t ^ (m - q) * (m.choose q : K)) * (b i * c i ^ q) := by
    intro i
    rw [show h * (b i * (t + c i * h) ^ m) = b i * (h * (t + c i * h) ^ m) by ring, stage_power,
      mul_sum]
    apply sum_congr rfl
    intro q _; ring
  simp only [e]
  rw [sum_comm]
  apply sum_congr rfl
  intro q hq'
  rw [mem_range] at hq'
  rw [← mul_sum, hq q (by omega)]
  ring

theorem quadrature_zero (s p : ℕ) (b c : ℕ → K) (t h : K) (v : ℕ → V)
    (hq : ∀ m, m < p → ∑ i ∈ range s, b i * c i ^ m = 0) :
    h • ∑ i ∈ range s, b i • ∑ m ∈ range p, (t + c i * h) ^ m • v m = 0 := by
  simp only [smul_sum]
  rw [sum_comm]
  apply sum_eq_zero
  intro m hm
  rw [mem_range] at hm
  simp only [smul_smul]
  rw [← sum_smul]
  have e : ∀ i, h * (b i * (t + c i * h) ^ m) = ∑ q ∈ range (m + 1),
      (h ^ (q + 1) * t ^ (m - q) * (m.choose q : K)) * (b i * c i ^ q) := by
    intro i
    rw [show h * (b i * (t + c i * h) ^ m) = b i * (h * (t + c i * h) ^ m) by ring, stage_power,
      mul_sum]
    apply sum_congr rfl
    intro q _; ring
  simp only [e]
  rw [sum_comm]
  have : ∑ q ∈ range (m + 1), ∑ i ∈ range s,
      (h ^ (q + 1) * t ^ (m - q) * (m.choose q : K)) * (b i * c i ^ q) = 0 := by
    apply sum_eq_zero
    intro q hq'
    rw [mem_range] at hq'
    rw [← mul_sum, hq q (by omega), mul_zero]
  rw [this, zero_smul]

/-- **C20**. For `y' = g(t)` with `g(τ) = ∑_{m<order} τ^m v_m` (vector valued), a step of a shipped
rational method adds exactly the integral of `g` over the step. -/
theorem C20_quadrature_exact (R : RKTable) (hR : R ∈ rationalRK) (v : ℕ → V) {t h : K} {y yNew : V}
    {k : ℕ → V}
    (hk : IsRKStep (R.tab K) (fun τ _ => ∑ m ∈ range R.order, τ ^ m • v m) t y h k yNew) :
    yNew = y + (polyInt R.order v (t + h) - polyInt R.order v t) := by
  have key : ∀ R ∈ rationalRK, ∀ m, m < R.order →
      ∑ i ∈ range R.s, (R.tab ℚ).B i * (R.tab ℚ).C i ^ m = 1 / ((m : ℚ) + 1) := by decide +kernel
  rw [hk.sol]
  congr 1
  rw [← quadrature_general R.s R.order (R.tab K).B (R.tab K).C t h v]
  · congr 1
    apply sum_congr rfl
    intro i hi
    rw [hk.stage i (mem_range.mp hi)]
  · intro m hm
    have := key R hR m hm
    have h2 : ((∑ i ∈ range R.s, (R.tab ℚ).B i * (R.tab ℚ).C i ^ m : ℚ) : K) =
      ((1 / ((m : ℚ) + 1) : ℚ) : K) := by rw [this]
    push_cast at h2
    simpa [RKTable.tab] using h2

/-- **C20**. The error estimate is exactly zero if `g` has degree below `order_secondary`. -/
theorem C20_error_zero (R : RKTable) (hR : R ∈ rationalRK) (v : ℕ → V) {t h : K} {y yNew : V}
    {k : ℕ → V}
    (hk : IsRKStep (R.tab K) (fun τ _ => ∑ m ∈ range R.orderSec, τ ^ m • v m) t y h k yNew) :
    errorEstimate (R.tab K) h k = 0 := by
  have key : ∀ R ∈ rationalRK, ∀ m, m < R.orderSec →
      ∑ i ∈ range (R.s + 1), (R.tab ℚ).E i * (if i < R.s then (R.tab ℚ).C i else 1) ^ m = 0 := by
    decide +kernel
  unfold errorEstimate
  rw [← quadrature_zero (R.s + 1) R.orderSec (R.tab K).E
    (fun i => if i < R.s then (R.tab K).C i else 1) t h v]
  · congr 1
    apply sum_congr rfl
    intro i hi
    have hi' := mem_range.mp hi
    by_cases hs : i < R.s
    · rw [hk.stage i hs, if_pos hs]
    · obtain rfl : i = R.s := by
        have : (R.tab K).s = R.s := rfl
        omega
      rw [if_neg hs, one_mul]
      have := hk.last
      exact congrArg _ this
  · intro m hm
    have := key R hR m hm
    have h2 : ((∑ i ∈ range (R.s + 1), (R.tab ℚ).E i *
        (if i < R.s then (R.tab ℚ).C i else 1) ^ m : ℚ) : K) = ((0 : ℚ) : K) := by rw [this]
    push_cast at h2
    rw [← h2]
    apply sum_congr rfl
    intro i _
    split_ifs <;> simp [RKTable.tab]

/-- C20: the hypothesis holds for the stages actually computed; a concrete instance. -/
example : ∃ k yNew, IsRKStep (Me4.tab ℚ)
    (fun τ (_ : ℚ) => ∑ m ∈ range Me4.order, τ ^ m • ((m : ℚ) + 1)) 1 5 2 k yNew :=
  ⟨_, _, (rkTrial_isRKStep (Me4.tab ℚ) (fun τ (_ : ℚ) => ∑ m ∈ range Me4.order, τ ^ m • ((m : ℚ) + 1))
    (fun _ _ _ => .num 0) 1 5 2 (fun _ => 0) (by decide +kernel) (by decide +kernel)).1⟩

/-! ## C21 -/

/-- `(A^k 1)_i` for a strictly lower triangular `A`. -/
def stabAlpha (T : Tableau K) : ℕ → ℕ → K
  | 0, _ => 1
  | k + 1, i => ∑ j ∈ range i, T.A i j * stabAlpha T k j

/-- Coefficients of the stability polynomial: `c_0 = 1`, `c_{k+1} = B^T A^k 1`. -/
def stabCoef (T : Tableau K) : ℕ → K
  | 0 => 1
  | k + 1 => ∑ i ∈ range T.s, T.B i * stabAlpha T k i

theorem stabAlpha_zero (T : Tableau K) (k i : ℕ) (h : i < k) : stabAlpha T k i = 0 := by
  induction k generalizing i with
  | zero => omega
  | succ k ih =>
    simp only [stabAlpha]
    apply sum_eq_zero
    intro j hj
    rw [mem_range] at hj
    rw [ih j (by omega), mul_zero]

theorem stabAlpha_stage {T : Tableau K} {L : V →ₗ[K] V} {t h : K} {y yNew : V} {k : ℕ → V}
    (hk : IsRKStep T (fun _ z => L z) t y h k yNew) (i : ℕ) (hi : i < T.s) :
    k i = ∑ q ∈ range T.s, (h ^ q * stabAlpha T q i) • (L ^ (q + 1)) y := by
  induction i using Nat.strong_induction_on with
  | _ i ih =>
    obtain ⟨n, hn⟩ : ∃ n, T.s = n + 1 := ⟨T.s - 1, by omega⟩
    rw [hk.stage i hi, map_add, map_smul, map_sum, hn, sum_range_succ']
    simp only [pow_zero, stabAlpha, mul_one, one_smul, zero_add, pow_one]
    rw [add_comm]
    congr 1
    have e : ∀ j ∈ range i, L (T.A i j • k j) =
        ∑ q ∈ range n, (T.A i j * (h ^ q * stabAlpha T q j)) • (L ^ (q + 2)) y := by
      intro j hj
      rw [mem_range] at hj
      rw [map_smul, ih j hj (by omega), hn, sum_range_succ, stabAlpha_zero T n j (by omega),
        mul_zero, zero_smul, add_zero, map_sum, smul_sum]
      apply sum_congr rfl
      intro q _
      rw [map_smul, smul_smul, pow_succ' L (q + 1)]
      rfl
    rw [sum_congr rfl e, sum_comm, smul_sum]
    apply sum_congr rfl
    intro q _
    rw [← sum_smul, smul_smul]
    congr 1
    rw [mul_sum, mul_sum]
    apply sum_congr rfl
    intro j _
    ring

/-- On a linear problem every explicit method is a polynomial in `h L`. -/
theorem linear_step {T : Tableau K} {L : V →ₗ[K] V} {t h : K} {y yNew : V} {k : ℕ → V}
    (hk : IsRKStep T (fun _ z => L z) t y h k yNew) :
    yNew = ∑ q ∈ range (T.s + 1), (stabCoef T q * h ^ q) • (L ^ q) y := by
  rw [hk.sol, sum_range_succ']
  simp only [stabCoef, pow_zero, mul_one, one_smul]
  rw [add_comm]
  congr 1
  have e : ∀ i ∈ range T.s, T.B i • k i =
      ∑ q ∈ range T.s, (T.B i * (h ^ q * stabAlpha T q i)) • (L ^ (q + 1)) y := by
    intro i hi
    rw [stabAlpha_stage hk i (mem_range.mp hi), smul_sum]
    simp only [smul_smul]
  rw [sum_congr rfl e, sum_comm, smul_sum]
  apply sum_congr rfl
  intro q _
  rw [← sum_smul, smul_smul]
  congr 1
  rw [mul_sum, sum_mul]
  apply sum_congr rfl
  intro i _
  ring

theorem stabAlpha_cast (R : RKTable) (k : ℕ) :
    ∀ i, stabAlpha (R.tab K) k i = ((stabAlpha (R.tab ℚ) k i : ℚ) : K) := by
  induction k with
  | zero => intro i; simp [stabAlpha]
  | succ k ih =>
    intro i
    simp only [stabAlpha]
    push_cast
    apply sum_congr rfl
    intro j _
    rw [ih]
    simp [RKTable.tab]

/-- **C21**. For `y' = L y` with any linear operator `L` on any vector space, a step of a shipped rational
method is `∑_{q≤s} c_q (h L)^q y` with coefficients depending on the method only and `c_q = 1/q!` up to
the order. -/
theorem C21_linear_taylor (R : RKTable) (hR : R ∈ rationalRK) :
    ∃ c : ℕ → K, (∀ q, q ≤ R.order → c q = 1 / (q.factorial : K)) ∧
      ∀ {L : V →ₗ[K] V} {t h : K} {y yNew : V} {k : ℕ → V},
        IsRKStep (R.tab K) (fun _ z => L z) t y h k yNew →
        yNew = ∑ q ∈ range (R.s + 1), (c q * h ^ q) • (L ^ q) y := by
  refine ⟨stabCoef (R.tab K), ?_, fun hk => linear_step hk⟩
  have key : ∀ R ∈ rationalRK, ∀ q, q < R.order + 1 → stabCoef (R.tab ℚ) q = 1 / (q.factorial : ℚ) := by
    decide +kernel
  intro q hq
  have h1 : stabCoef (R.tab K) q = ((stabCoef (R.tab ℚ) q : ℚ) : K) := by
    cases q with
    | zero => simp [stabCoef]
    | succ q =>
      simp only [stabCoef]
      push_cast
      apply sum_congr rfl
      intro i _
      rw [stabAlpha_cast]
      simp [RKTable.tab]
  rw [h1, key R hR q (by omega)]
  push_cast
  rfl

end
end Extensisq
