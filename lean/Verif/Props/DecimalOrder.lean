import Verif.Props.DecimalPr9
import Verif.Props.DenseMethods
import Verif.Lemmas.BSeriesRes

/-!
# C86: order of the methods with rounded decimal coefficients (Ts5, Pr8, Pr9)

The coefficients of these methods are written as decimals in the source. With the numbers as written, the order
conditions of every rooted tree up to the order hold up to the rounding, and so do those of the error estimate and of
the interpolant.
-/

set_option linter.unusedSectionVars false
set_option maxRecDepth 100000

namespace Extensisq
open scoped ContDiff
open Finset Asymptotics Filter Topology

/-- Method, common denominator of the coefficients, order of the interpolant, and the sizes of the defects:
`en / ed` for the solution and the error estimate, `dn / dd` for the coefficients of the interpolant. -/
structure DecEntry where
  R : RKTable
  D : ℕ
  q : ℕ
  en : ℕ
  ed : ℕ
  dn : ℕ
  dd : ℕ

/-- Defects: Ts5 `2e-15` and `4e-14`; Pr8 `4e-29` and `5e-27`; Pr9 `1e-29` and `6e-26`. -/
def decimalOrders : List DecEntry :=
  [⟨Ts5, 33 * 10 ^ 17, 4, 2, 10 ^ 15, 4, 10 ^ 14⟩, ⟨Pr8, 10 ^ 32, 7, 4, 10 ^ 29, 5, 10 ^ 27⟩,
   ⟨Pr9, 10 ^ 34, 8, 1, 10 ^ 29, 6, 10 ^ 26⟩]

set_option maxHeartbeats 0 in
theorem ts5_pr8_check : decCheck Ts5 (33 * 10 ^ 17) 4 2 (10 ^ 15) 4 (10 ^ 14) = true ∧
    decCheck Pr8 (10 ^ 32) 7 4 (10 ^ 29) 5 (10 ^ 27) = true := by decide +kernel

theorem decimalOrders_shape : ∀ e ∈ decimalOrders, decShape e.R e.D e.q ∧ 0 < e.ed ∧ 0 < e.dd := by
  have h : (decShape Ts5 (33 * 10 ^ 17) 4 ∧ 0 < 10 ^ 15 ∧ 0 < 10 ^ 14) ∧
    (decShape Pr8 (10 ^ 32) 7 ∧ 0 < 10 ^ 29 ∧ 0 < 10 ^ 27) := by decide +kernel
  intro e he
  simp only [decimalOrders, List.mem_cons, List.not_mem_nil, or_false] at he
  rcases he with rfl | rfl | rfl
  · exact h.1
  · exact h.2
  · exact ⟨pr9_shape, by norm_num, by norm_num⟩

theorem decimalOrders_check : ∀ e ∈ decimalOrders, decCheck e.R e.D e.q e.en e.ed e.dn e.dd = true := by
  intro e he
  simp only [decimalOrders, List.mem_cons, List.not_mem_nil, or_false] at he
  rcases he with rfl | rfl | rfl
  · exact ts5_pr8_check.1
  · exact ts5_pr8_check.2
  · exact pr9_check

/-- **C86.** Ts5, Pr8 and Pr9 satisfy the order condition of every rooted tree with at most `order` (5, 8, 9) vertices,
up to the rounding of their coefficients (`2e-15`, `4e-29`, `1e-29`). -/
theorem C86_main_order {e : DecEntry} (he : e ∈ decimalOrders) (τ : OTree) (hτ : τ.size ≤ e.R.order) :
    |∑ i ∈ range (e.R.s + 1), (e.R.tab ℝ).main i * τ.weight (e.R.s + 1) (e.R.tab ℝ).full i - 1 / (τ.dens : ℝ)|
      ≤ (e.en : ℝ) / e.ed := by
  obtain ⟨hs, h1, h2⟩ := decimalOrders_shape e he
  exact (dec_sound hs h1 h2 (decimalOrders_check e he)).1 τ hτ

/-- **C86.** The error weights vanish on all trees up to `order_secondary` (4, 6, 7), with the same tolerance. -/
theorem C86_error_order {e : DecEntry} (he : e ∈ decimalOrders) (τ : OTree) (hτ : τ.size ≤ e.R.orderSec) :
    |∑ i ∈ range (e.R.s + 1), (e.R.tab ℝ).E i * τ.weight (e.R.s + 1) (e.R.tab ℝ).full i| ≤ (e.en : ℝ) / e.ed := by
  obtain ⟨hs, h1, h2⟩ := decimalOrders_shape e he
  exact (dec_sound hs h1 h2 (decimalOrders_check e he)).2.1 τ hτ

/-- **C86.** The interpolation weights at the scaled time `x ∈ [-1, 1]` satisfy the order conditions up to order
4 (Ts5), 7 (Pr8), 8 (Pr9), with the tolerance times the number of columns of the table. -/
theorem C86_interpolant_order {e : DecEntry} (he : e ∈ decimalOrders) (τ : OTree) (hτ : τ.size ≤ e.q) {x : ℝ}
    (hx : |x| ≤ 1) :
    |∑ i ∈ range (e.R.s + 1), pWeight ℝ e.R.P i x * τ.weight (e.R.s + 1) (e.R.tab ℝ).full i -
      x ^ τ.size / (τ.dens : ℝ)| ≤ (cols e.R.P : ℝ) * ((e.dn : ℝ) / e.dd) := by
  obtain ⟨hs, h1, h2⟩ := decimalOrders_shape e he
  have h := (dec_sound hs h1 h2 (decimalOrders_check e he)).2.2 τ hτ
  obtain ⟨-, -, -, ⟨-, -, hc, -⟩, -⟩ := hs
  have e1 : ∑ i ∈ range (e.R.s + 1), pWeight ℝ e.R.P i x * τ.weight (e.R.s + 1) (e.R.tab ℝ).full i =
      ∑ j ∈ range (cols e.R.P), x ^ (j + 1) *
        ∑ i ∈ range (e.R.s + 1), entry ℝ e.R.P i j * τ.weight (e.R.s + 1) (e.R.tab ℝ).full i := by
    unfold pWeight
    simp only [sum_mul, mul_sum]
    rw [sum_comm]
    apply sum_congr rfl
    intro j _
    apply sum_congr rfl
    intro i _
    ring
  have e2 : x ^ τ.size / (τ.dens : ℝ) =
      ∑ j ∈ range (cols e.R.P), x ^ (j + 1) * (if j + 1 = τ.size then 1 / (τ.dens : ℝ) else 0) := by
    have hsz := τ.size_pos
    rw [sum_eq_single (τ.size - 1)]
    · rw [if_pos (by omega), show τ.size - 1 + 1 = τ.size by omega]; ring
    · intro j _ hj
      rw [if_neg (by omega), mul_zero]
    · intro hj
      exact absurd (mem_range.mpr (by omega)) hj
  rw [e1, e2, ← sum_sub_distrib]
  refine (abs_sum_le_sum_abs _ _).trans ?_
  refine (sum_le_sum (g := fun _ => (e.dn : ℝ) / e.dd) fun j hj => ?_).trans (by simp)
  rw [← mul_sub, abs_mul, abs_pow]
  exact (mul_le_of_le_one_left (abs_nonneg _) (pow_le_one₀ (abs_nonneg _) hx)).trans (h j (mem_range.mp hj))

/-- Defect of at least `c` in the condition of a tree. -/
def farQ (R : RKTable) (b : ℕ → ℚ) (a c : ℚ) (τ : OTree) : Prop :=
  c < |∑ i ∈ range (R.s + 1), b i * τ.weight (R.s + 1) (R.tab ℚ).full i - a / (τ.dens : ℚ)|

instance (R : RKTable) (b : ℕ → ℚ) (a c : ℚ) (τ : OTree) : Decidable (farQ R b a c τ) := by
  unfold farQ; infer_instance

theorem far_sound {R : RKTable} {b : ℕ → ℚ} {a c : ℚ} {τ : OTree} (h : farQ R b a c τ) :
    (c : ℝ) < |∑ i ∈ range (R.s + 1), ((b i : ℚ) : ℝ) * τ.weight (R.s + 1) (R.tab ℝ).full i - a / (τ.dens : ℝ)| := by
  have h1 : (c : ℝ) < ((|∑ i ∈ range (R.s + 1), b i * τ.weight (R.s + 1) (R.tab ℚ).full i - a / (τ.dens : ℚ)| : ℚ) : ℝ) := by
    exact_mod_cast h
  push_cast at h1
  have h2 : (R.tab ℝ).full = fun i j => (((R.tab ℚ).full i j : ℚ) : ℝ) := by
    funext i j; exact tab_full_cast ℝ R i j
  simp only [h2, OTree.weight_cast]
  exact h1

set_option maxHeartbeats 0 in
/-- **C86.** The orders are not higher: trees with one more vertex have defects that are no rounding errors. -/
theorem C86_sharp {e : DecEntry} (he : e ∈ decimalOrders) :
    (∃ τ : OTree, τ.size = e.R.order + 1 ∧ 1 / 10 ^ 11 <
      |∑ i ∈ range (e.R.s + 1), (e.R.tab ℝ).main i * τ.weight (e.R.s + 1) (e.R.tab ℝ).full i - 1 / (τ.dens : ℝ)|) ∧
    ∃ τ : OTree, τ.size = e.R.orderSec + 1 ∧ 1 / 10 ^ 11 <
      |∑ i ∈ range (e.R.s + 1), (e.R.tab ℝ).E i * τ.weight (e.R.s + 1) (e.R.tab ℝ).full i| := by
  have h : ∀ R ∈ [Ts5, Pr8, Pr9],
      (∃ τ ∈ [OTree.chain R.order, OTree.bush R.order], τ.size = R.order + 1 ∧ farQ R (R.tab ℚ).main 1 (1 / 10 ^ 11) τ) ∧
      ∃ τ ∈ [OTree.chain R.orderSec, OTree.bush R.orderSec], τ.size = R.orderSec + 1 ∧
        farQ R (R.tab ℚ).E 0 (1 / 10 ^ 11) τ := by decide +kernel
  have hR : e.R ∈ [Ts5, Pr8, Pr9] := by
    simp only [decimalOrders, List.mem_cons, List.not_mem_nil, or_false] at he
    rcases he with rfl | rfl | rfl <;> simp
  obtain ⟨⟨τ, -, s1, f1⟩, τ', -, s2, f2⟩ := h e.R hR
  have g1 := far_sound f1
  have g2 := far_sound f2
  push_cast at g1 g2
  rw [zero_div, sub_zero] at g2
  refine ⟨⟨τ, s1, ?_⟩, τ', s2, ?_⟩
  · simpa only [tab_main_cast ℝ e.R] using g1
  · exact g2

/-! ## Local errors -/

section
variable {E : Type*} [NormedAddCommGroup E] [NormedSpace ℝ E]

/-- The parts of `C86_local_error`, from bounds of the Taylor coefficients of a general scheme. -/
theorem decimal_local {e : DecEntry} (he : e ∈ decimalOrders) {f : E → E} {y0 : E} {t0 : ℝ}
    (hf : ContDiffAt ℝ ∞ f y0) {k : ℝ → ℕ → E} {yNew : ℝ → E}
    (hk : ∀ h, IsRKStep (e.R.tab ℝ) (fun _ => f) t0 y0 h (k h) (yNew h)) :
    (∀ i, i < e.R.s + 1 → (fun h => k h i -
      f (y0 + h • ∑ j ∈ range (e.R.s + 1), (e.R.tab ℝ).full i j • k h j)) =O[𝓝 0] fun h : ℝ => h ^ e.R.order) ∧
    ∀ i, i < e.R.s + 1 → (fun h => k h i) =O[𝓝 0] fun _ : ℝ => (1 : ℝ) := by
  have hst : ∀ h i, i < e.R.s + 1 → k h i = f (y0 + h • ∑ j ∈ range (e.R.s + 1), (e.R.tab ℝ).full i j • k h j) :=
    fun h i hi => full_stage (hk h) i hi
  constructor
  · intro i hi
    refine (isBigO_zero _ _).congr_left fun h => ?_
    rw [← hst h i hi, sub_self]
  · have hA0 : ∀ i, i < e.R.s + 1 → ∀ j, j < e.R.s + 1 → i ≤ j → (e.R.tab ℝ).full i j = 0 := by
      intro i _ j _ hj
      unfold Tableau.full
      rw [if_neg (by omega)]
    have hf2 : ContinuousAt (fun z : ℝ × E => (fun (_ : ℝ) => f) z.1 z.2) (0, y0) := by
      refine ContinuousAt.comp (g := f) (f := Prod.snd) ?_ continuousAt_snd
      exact hf.continuousAt
    exact explicit_bounded_rk (c := fun _ => 0) (t0 := 0) (f := fun _ => f) hA0 hf2
      (fun i hi => Eventually.of_forall fun h => hst h i hi)

/-- **C86.** Local errors for autonomous problems. For every smooth `f` there is a constant `M` which depends on `f`
and the starting point only, such that: the difference between the result of a step `h` and the exact solution has Taylor
coefficients of at most `M` times the defect up to `h^order`, and is `O(h^(order+1))` apart from them; the error
estimate, up to `h^order_secondary`; the dense output at the point `t0 + θ h` (`|θ| ≤ 1`) up to the order of the
interpolant. -/
theorem C86_local_error {f : E → E} {y0 : E} (hf : ContDiffAt ℝ ∞ f y0) :
    ∃ M : ℝ, 0 ≤ M ∧ ∀ e ∈ decimalOrders, ∀ (t0 : ℝ) (k : ℝ → ℕ → E) (yNew : ℝ → E),
      (∀ h, IsRKStep (e.R.tab ℝ) (fun _ => f) t0 y0 h (k h) (yNew h)) →
      NearOrder (fun h => errorEstimate (e.R.tab ℝ) h (k h)) e.R.orderSec ((e.en : ℝ) / e.ed * M) ∧
      ∀ y : ℝ → E, y t0 = y0 → (∀ᶠ t in 𝓝 t0, HasDerivAt y (f (y t)) t) →
        NearOrder (fun h => yNew h - y (t0 + h)) e.R.order ((e.en : ℝ) / e.ed * M) ∧
        ∀ θ : ℝ, |θ| ≤ 1 →
          NearOrder (fun h => horner t0 (t0 + h) y0 (denseQ ℝ e.R.P (e.R.s + 1) (k h)) (t0 + θ * h) - y (t0 + θ * h))
            e.q ((cols e.R.P : ℝ) * ((e.dn : ℝ) / e.dd) * M) := by
  have ex : ∀ n : ℕ, ∃ M : ℝ, 0 ≤ M ∧ ∀ q, q < n → ∀ (n : ℕ) (A : ℕ → ℕ → ℝ) (k : ℝ → ℕ → E),
      (∀ i, i < n → (fun h => k h i - f (y0 + h • ∑ j ∈ range n, A i j • k h j)) =O[𝓝 0] fun h : ℝ => h ^ q) →
      (∀ i, i < n → (fun h => k h i) =O[𝓝 0] fun _ : ℝ => (1 : ℝ)) →
      (∀ (b : ℕ → ℝ) (θ ε : ℝ), 0 ≤ ε →
        (∀ τ : OTree, τ.size ≤ q → |∑ i ∈ range n, b i * τ.weight n A i - θ ^ τ.size / (τ.dens : ℝ)| ≤ ε) →
        ∀ y : ℝ → E, y 0 = y0 → (∀ᶠ t in 𝓝 0, HasDerivAt y (f (y t)) t) →
        NearOrder (fun h => y0 + h • ∑ i ∈ range n, b i • k h i - y (θ * h)) q (ε * M)) ∧
      (∀ (e : ℕ → ℝ) (ε : ℝ), 0 ≤ ε → (∀ τ : OTree, τ.size ≤ q → |∑ i ∈ range n, e i * τ.weight n A i| ≤ ε) →
        NearOrder (fun h => h • ∑ i ∈ range n, e i • k h i) q (ε * M)) := by
    intro n
    induction n with
    | zero => exact ⟨0, le_rfl, fun q hq => absurd hq (by omega)⟩
    | succ n ih =>
      obtain ⟨M, hM, h1⟩ := ih
      obtain ⟨M', hM', h2⟩ := local_error_approx hf n
      refine ⟨M + M', by linarith, fun q hq m A k hk hb => ?_⟩
      rcases Nat.lt_succ_iff_lt_or_eq.mp hq with hq | rfl
      · obtain ⟨a, b⟩ := h1 q hq m A k hk hb
        refine ⟨fun b' θ ε hε hc y hy0 hy => (a b' θ ε hε hc y hy0 hy).mono ?_, fun e' ε hε hc => (b e' ε hε hc).mono ?_⟩
        · exact mul_le_mul_of_nonneg_left (by linarith) hε
        · exact mul_le_mul_of_nonneg_left (by linarith) hε
      · obtain ⟨a, b⟩ := h2 m A k hk hb
        refine ⟨fun b' θ ε hε hc y hy0 hy => (a b' θ ε hε hc y hy0 hy).mono ?_, fun e' ε hε hc => (b e' ε hε hc).mono ?_⟩
        · exact mul_le_mul_of_nonneg_left (by linarith) hε
        · exact mul_le_mul_of_nonneg_left (by linarith) hε
  obtain ⟨M, hM, main⟩ := ex 10
  refine ⟨M, hM, fun e he t0 k yNew hk => ?_⟩
  obtain ⟨hst, hb⟩ := decimal_local he hf hk
  have hO : ∀ {q : ℕ}, q ≤ e.R.order → ∀ i, i < e.R.s + 1 → (fun h => k h i -
      f (y0 + h • ∑ j ∈ range (e.R.s + 1), (e.R.tab ℝ).full i j • k h j)) =O[𝓝 0] fun h : ℝ => h ^ q :=
    fun hq i hi => (hst i hi).trans (isBigO_pow_pow hq)
  have hle : e.R.order < 10 := by
    simp only [decimalOrders, List.mem_cons, List.not_mem_nil, or_false] at he
    rcases he with rfl | rfl | rfl <;> decide
  obtain ⟨⟨-, -, -, ⟨ho, hq, -⟩, -⟩, -⟩ := decimalOrders_shape e he
  have hε : (0 : ℝ) ≤ (e.en : ℝ) / e.ed := by positivity
  refine ⟨?_, fun y hy0 hy => ?_⟩
  · exact (main e.R.orderSec (by omega) _ _ k (hO ho) hb).2 _ _ hε (C86_error_order he)
  · have hadd : Tendsto (fun h : ℝ => t0 + h) (𝓝 0) (𝓝 t0) := by
      have : ContinuousAt (fun h : ℝ => t0 + h) 0 := by fun_prop
      simpa [ContinuousAt] using this
    have hy' : ∀ᶠ h in 𝓝 (0 : ℝ), HasDerivAt (fun h => y (t0 + h)) (f (y (t0 + h))) h := by
      filter_upwards [hadd.eventually hy] with h hh
      exact HasDerivAt.comp_const_add t0 h hh
    refine ⟨?_, fun θ hθ => ?_⟩
    · have := (main e.R.order hle _ _ k (hO le_rfl) hb).1 (e.R.tab ℝ).main 1 _ hε
        (fun τ hτ => by rw [one_pow]; exact C86_main_order he τ hτ) (fun h => y (t0 + h)) (by simp [hy0]) hy'
      obtain ⟨v, hv, hv'⟩ := this
      refine ⟨v, hv, hv'.congr_left fun h => ?_⟩
      dsimp only
      rw [(hk h).sol, sum_range_succ, one_mul]
      simp only [Tableau.main]
      rw [if_neg (show ¬ e.R.s < (e.R.tab ℝ).s from lt_irrefl _), zero_smul, add_zero]
      congr 4
      apply sum_congr rfl
      intro j hj
      rw [if_pos (show j < (e.R.tab ℝ).s from mem_range.mp hj)]
    · have := (main e.q (by omega) _ _ k (hO hq) hb).1 (fun i => pWeight ℝ e.R.P i θ) θ _ (by positivity)
        (fun τ hτ => C86_interpolant_order he τ hτ hθ) (fun h => y (t0 + h)) (by simp [hy0]) hy'
      obtain ⟨v, hv, hv'⟩ := this
      refine ⟨v, hv, hv'.congr_left fun h => ?_⟩
      dsimp only
      rw [horner_scaled]

/-- A last stage that no other stage uses does not change the weights of the others. -/
theorem OTree.weight_drop {K : Type*} [CommRing K] {n : ℕ} {A : ℕ → ℕ → K} (hA : ∀ i, i < n → A i n = 0) (t : OTree) :
    ∀ i, i < n → t.weight (n + 1) A i = t.weight n A i := by
  induction t with
  | node k c ih =>
    intro i hi
    simp only [OTree.weight]
    apply prod_congr rfl
    intro l _
    rw [sum_range_succ, hA i hi, zero_mul, add_zero]
    apply sum_congr rfl
    intro j hj
    rw [ih l j (mem_range.mp hj)]

/-- **C86.** Ts5 for non-autonomous problems (the rows of its matrix sum exactly to the stage times): the same for the
solution. -/
theorem C86_Ts5 {f : ℝ → E → E} {t0 : ℝ} {y0 : E} (hf : ContDiffAt ℝ ∞ (fun z : ℝ × E => f z.1 z.2) (t0, y0)) :
    ∃ M : ℝ, 0 ≤ M ∧ ∀ (k : ℝ → ℕ → E) (yNew : ℝ → E), (∀ h, IsRKStep (Ts5.tab ℝ) f t0 y0 h (k h) (yNew h)) →
      ∀ y : ℝ → E, y t0 = y0 → (∀ᶠ t in 𝓝 t0, HasDerivAt y (f t (y t)) t) →
        NearOrder (fun h => yNew h - y (t0 + h)) 5 (2 / 10 ^ 15 * M) := by
  obtain ⟨M, hM, main⟩ := local_error_approx_rk hf 5
  refine ⟨M, hM, fun k yNew hk y hy0 hy => ?_⟩
  have he : (⟨Ts5, 33 * 10 ^ 17, 4, 2, 10 ^ 15, 4, 10 ^ 14⟩ : DecEntry) ∈ decimalOrders := by simp [decimalOrders]
  have key : ∀ i, i < Ts5.s → ∑ j ∈ range Ts5.s, (Ts5.tab ℚ).full i j = (Ts5.tab ℚ).C i := by decide +kernel
  have rows : ∀ i, i < Ts5.s → ∑ j ∈ range Ts5.s, (Ts5.tab ℝ).full i j = (Ts5.tab ℝ).C i := by
    intro i hi
    have := congrArg (fun q : ℚ => (q : ℝ)) (key i hi)
    push_cast at this
    simp only [tab_full_cast ℝ Ts5]
    exact this
  have hA0 : ∀ i, i < Ts5.s + 1 → ∀ j, j < Ts5.s + 1 → i ≤ j → (Ts5.tab ℝ).full i j = 0 := by
    intro i _ j _ hj
    unfold Tableau.full
    rw [if_neg (by omega)]
  have hst : ∀ h i, i < Ts5.s → k h i = f (t0 + (Ts5.tab ℝ).C i * h)
      (y0 + h • ∑ j ∈ range Ts5.s, (Ts5.tab ℝ).full i j • k h j) := by
    intro h i hi
    have h1 := full_stage (hk h) i (show i < Ts5.s + 1 by omega)
    rw [if_pos (show i < (Ts5.tab ℝ).s from hi), sum_range_succ,
      hA0 i (by omega) (Ts5.tab ℝ).s (show Ts5.s < Ts5.s + 1 by omega) hi.le, zero_smul, add_zero] at h1
    exact h1
  have hb := explicit_bounded_rk (n := Ts5.s) (fun i hi j hj hij => hA0 i (by omega) j (by omega) hij)
    hf.continuousAt (k := k) (fun i hi => Eventually.of_forall fun h => hst h i hi)
  have hms : (Ts5.tab ℝ).main Ts5.s = 0 := by
    unfold Tableau.main
    rw [if_neg (show ¬ Ts5.s < (Ts5.tab ℝ).s from lt_irrefl _)]
  have := (main Ts5.s (Ts5.tab ℝ).full _ k rows (fun i hi => by
    refine (isBigO_zero _ _).congr_left fun h => ?_
    rw [← hst h i hi, sub_self]) hb).1 (Ts5.tab ℝ).main 1 (2 / 10 ^ 15) (by norm_num)
    (fun τ hτ => by
      have := C86_main_order he τ hτ
      rw [one_pow]
      simp only at this
      rw [sum_range_succ, hms, zero_mul, add_zero, sum_congr rfl fun i hi => by
        rw [OTree.weight_drop (fun i hi => hA0 i (by omega) _ (by omega) hi.le) τ i (mem_range.mp hi)]] at this
      refine this.trans (le_of_eq ?_)
      norm_num) y hy0 hy
  obtain ⟨v, hv, hv'⟩ := this
  refine ⟨v, hv, hv'.congr_left fun h => ?_⟩
  dsimp only
  rw [(hk h).sol, one_mul]
  have e : ∑ i ∈ range Ts5.s, (Ts5.tab ℝ).main i • k h i = ∑ i ∈ range (Ts5.tab ℝ).s, (Ts5.tab ℝ).B i • k h i := by
    apply sum_congr rfl
    intro j hj
    rw [Tableau.main, if_pos (show j < (Ts5.tab ℝ).s from mem_range.mp hj)]
  rw [e]

/-- C86: the hypotheses are met by `y' = y` on `ℝ`: every starting value and step size has a step. -/
example : ContDiffAt ℝ ∞ (fun y : ℝ => y) 1 ∧ (∀ᶠ t in 𝓝 (0 : ℝ), HasDerivAt Real.exp (Real.exp t) t) ∧
    ∀ e ∈ decimalOrders, ∃ (k : ℝ → ℕ → ℝ) (yNew : ℝ → ℝ),
      ∀ h, IsRKStep (e.R.tab ℝ) (fun _ y => y) 0 1 h (k h) (yNew h) := by
  refine ⟨contDiffAt_id, Eventually.of_forall Real.hasDerivAt_exp, fun e he => ?_⟩
  obtain ⟨⟨-, -, -, ⟨-, -, -, -, h3, h4⟩, -⟩, -⟩ := decimalOrders_shape e he
  have h3' : (e.R.tab ℝ).C 0 = 0 := by simp only [RKTable.tab, h3, Rat.cast_zero]
  exact ⟨_, _, fun h => (rkTrial_isRKStep (e.R.tab ℝ) (fun _ y => y) (fun _ _ _ => .num 0) 0 1 h (fun _ => 0) h3' h4).1⟩

end

end Extensisq
