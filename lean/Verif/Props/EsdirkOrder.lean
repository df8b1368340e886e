import Verif.Lemmas.TreeCheckG
import Verif.Lemmas.BSeriesRes
import Verif.Lemmas.Stability
import Verif.Props.Order
import Verif.Props.EsdirkStage

/-!
# Order of the ESDIRK methods (C85)
-/

set_option linter.unusedSectionVars false
set_option maxRecDepth 100000

namespace Extensisq
open scoped ContDiff
open Finset Asymptotics Filter Topology

/-! ## Specification -/

/-- Butcher matrix of a diagonally implicit method. -/
def ETab.mat {K : Type*} [Zero K] (T : ETab K) (i j : ℕ) : K := if j ≤ i then T.A i j else 0

section
variable {E : Type*} [NormedAddCommGroup E] [NormedSpace ℝ E]

/-- Defect of stage `i`: `f(t + c_i h, Y_i) - M K_i`. -/
noncomputable def stageDefect (T : ETab ℝ) (M : E → E) (f : ℝ → E → E) (t0 : ℝ) (y0 : E) (h : ℝ) (Ks : ℕ → E) (i : ℕ) : E :=
  f (t0 + T.C i * h) (stageVal T y0 h Ks i) - M (Ks i)

/-- Solution after the step. -/
noncomputable def eSolution (T : ETab ℝ) (y0 : E) (h : ℝ) (Ks : ℕ → E) : E := y0 + h • ∑ j ∈ range T.n, T.B j • Ks j

/-- Error estimate before filtering. -/
noncomputable def eEstimate (T : ETab ℝ) (h : ℝ) (Ks : ℕ → E) : E := h • ∑ j ∈ range T.n, T.E j • Ks j

end

/-- The order conditions hold up to a defect of `ε`. -/
def OrderCondNear (n : ℕ) (A : ℕ → ℕ → ℝ) (b : ℕ → ℝ) (p : ℕ) (ε : ℝ) : Prop :=
  ∀ τ : OTree, τ.size ≤ p → |∑ i ∈ range n, b i * τ.weight n A i - 1 / (τ.dens : ℝ)| ≤ ε

def ErrorCondNear (n : ℕ) (A : ℕ → ℕ → ℝ) (e : ℕ → ℝ) (p : ℕ) (ε : ℝ) : Prop :=
  ∀ τ : OTree, τ.size ≤ p → |∑ i ∈ range n, e i * τ.weight n A i| ≤ ε

/-! ## The checks of the tables -/

instance : DecidableEq Q2 := fun x y => decidable_of_iff (x.a = y.a ∧ x.b = y.b) (by
  constructor
  · rintro ⟨h1, h2⟩; cases x; cases y; simp only at h1 h2; rw [h1, h2]
  · rintro rfl; exact ⟨rfl, rfl⟩)

/-- `|x| ≤ ε`. -/
def q2abs (ε : ℚ) (x : Q2) : Bool := q2nonneg (⟨ε, 0⟩ - x) && q2nonneg (⟨ε, 0⟩ + x)

theorem q2abs_spec {ε : ℚ} {x : Q2} (h : q2abs ε x = true) : |homR x| ≤ (ε : ℝ) := by
  rw [q2abs, Bool.and_eq_true] at h
  have h1 := q2nonneg_spec h.1
  have h2 := q2nonneg_spec h.2
  rw [map_sub] at h1
  rw [map_add] at h2
  have e : homR ⟨ε, 0⟩ = (ε : ℝ) := by rw [homR_val, Q2.val]; simp
  rw [e] at h1 h2
  rw [abs_le]
  constructor <;> linarith

/-- Row sums, shape of the matrix. -/
def shapeCheck (R : ESTable) : Bool :=
  decide (R.A.length = R.n) && decide (∀ i < R.n, ∀ j < R.n, i < j → matOfG R.A i j = 0)

def rowsCheck (R : ESTable) : Bool :=
  decide (∀ i < R.n, dotLG (R.A.getD i []) (List.replicate R.n 1) = R.C.getD i 0)

def exactCheck (R : ESTable) (b : List Q2) (c : Q2) (p : ℕ) : Bool :=
  treeCheckG R.A (fun _ v g => decide (dotLG b v * (g : Q2) = c)) p

def nearCheck (R : ESTable) (b : List Q2) (c ε : ℚ) (p : ℕ) : Bool :=
  treeCheckG R.A (fun _ v g => q2abs ε (dotLG b v - ⟨c / (g : ℚ), 0⟩)) p

/-- Weights of the embedded method. -/
def ESTable.Bh (R : ESTable) : List Q2 := List.zipWith (· + ·) R.B R.E

theorem shape_weight {R : ESTable} (h : shapeCheck R = true) (τ : OTree) (b : List Q2) :
    R.A.length = R.n ∧ homR (dotLG b (weightLG R.A τ)) =
      ∑ i ∈ range R.n, homR (b.getD i 0) * τ.weight R.n (R.tab ℝ (√2)).mat i := by
  simp only [shapeCheck, Bool.and_eq_true, decide_eq_true_eq] at h
  refine ⟨h.1, ?_⟩
  rw [dotLG_hom, h.1]
  apply sum_congr rfl
  intro i hi
  congr 1
  refine OTree.weight_congr _ (fun i hi j hj => ?_) τ i (mem_range.mp hi)
  unfold ETab.mat
  split_ifs with hji
  · rfl
  · rw [h.2 i hi j hj (by omega), map_zero]

theorem exact_sound {R : ESTable} (hs : shapeCheck R = true) {b : List Q2} {c : Q2} {p : ℕ}
    (h : exactCheck R b c p = true) (τ : OTree) (hτ : τ.size ≤ p) :
    (∑ i ∈ range R.n, homR (b.getD i 0) * τ.weight R.n (R.tab ℝ (√2)).mat i) * (τ.dens : ℝ) = homR c := by
  have h1 := treeCheckG_sound h τ hτ
  rw [decide_eq_true_eq] at h1
  rw [← (shape_weight hs τ b).2, ← h1, map_mul, map_natCast]

theorem near_sound {R : ESTable} (hs : shapeCheck R = true) {b : List Q2} {c ε : ℚ} {p : ℕ}
    (h : nearCheck R b c ε p = true) (τ : OTree) (hτ : τ.size ≤ p) :
    |∑ i ∈ range R.n, homR (b.getD i 0) * τ.weight R.n (R.tab ℝ (√2)).mat i - (c : ℝ) / (τ.dens : ℝ)| ≤ (ε : ℝ) := by
  have h1 := q2abs_spec (treeCheckG_sound h τ hτ)
  rw [map_sub, (shape_weight hs τ b).2] at h1
  have e : homR ⟨c / (τ.dens : ℚ), 0⟩ = (c : ℝ) / (τ.dens : ℝ) := by rw [homR_val, Q2.val]; push_cast; simp
  rwa [e] at h1

theorem esdirk_shape : ∀ R ∈ [TRBDF2, TRX2, KC3I, KC4I, KC4Ia, Kv3I], shapeCheck R = true := by
  intro R hR
  simp only [List.mem_cons, List.not_mem_nil, or_false] at hR
  rcases hR with rfl | rfl | rfl | rfl | rfl | rfl <;> decide +kernel

theorem esdirk_rows : ∀ R ∈ [TRBDF2, TRX2, KC3I, KC4I, Kv3I], rowsCheck R = true := by
  intro R hR
  simp only [List.mem_cons, List.not_mem_nil, or_false] at hR
  rcases hR with rfl | rfl | rfl | rfl | rfl <;> decide +kernel

theorem sub_all {R : ESTable} (hR : R ∈ [TRBDF2, TRX2, KC3I, KC4I, Kv3I]) :
    R ∈ [TRBDF2, TRX2, KC3I, KC4I, KC4Ia, Kv3I] := by
  simp only [List.mem_cons, List.not_mem_nil, or_false] at hR ⊢
  tauto

/-- **C85.** TRBDF2 and TRX2 have order 2, KC3I and Kv3I order 3, KC4I order 4: all order conditions hold exactly. -/
theorem C85_main_order {R : ESTable} (hR : R ∈ [TRBDF2, TRX2, KC3I, KC4I, Kv3I]) :
    OrderCond R.n (R.tab ℝ (√2)).mat (R.tab ℝ (√2)).B R.order := by
  have h : ∀ R ∈ [TRBDF2, TRX2, KC3I, KC4I, Kv3I], exactCheck R R.B 1 R.order = true := by
    intro R hR
    simp only [List.mem_cons, List.not_mem_nil, or_false] at hR
    rcases hR with rfl | rfl | rfl | rfl | rfl <;> decide +kernel
  intro τ hτ
  have hd : (τ.dens : ℝ) ≠ 0 := by exact_mod_cast τ.dens_pos.ne'
  rw [eq_div_iff hd]
  have := exact_sound (esdirk_shape R (sub_all hR)) (h R hR) τ hτ
  rw [map_one] at this
  exact this

/-- **C85.** The embedded methods of TRBDF2 and TRX2 have order 3, that of Kv3I order 2. -/
theorem C85_embedded_order {R : ESTable} (hR : R ∈ [TRBDF2, TRX2, Kv3I]) :
    OrderCond R.n (R.tab ℝ (√2)).mat (fun i => (R.tab ℝ (√2)).B i + (R.tab ℝ (√2)).E i) R.orderSec := by
  have h : ∀ R ∈ [TRBDF2, TRX2, Kv3I], exactCheck R R.Bh 1 R.orderSec = true ∧
      ∀ i < R.n, R.Bh.getD i 0 = R.B.getD i 0 + R.E.getD i 0 := by
    intro R hR
    simp only [List.mem_cons, List.not_mem_nil, or_false] at hR
    rcases hR with rfl | rfl | rfl <;> decide +kernel
  have hR' : R ∈ [TRBDF2, TRX2, KC3I, KC4I, KC4Ia, Kv3I] := by
    simp only [List.mem_cons, List.not_mem_nil, or_false] at hR ⊢
    tauto
  intro τ hτ
  have hd : (τ.dens : ℝ) ≠ 0 := by exact_mod_cast τ.dens_pos.ne'
  rw [eq_div_iff hd]
  have := exact_sound (esdirk_shape R hR') (h R hR).1 τ hτ
  rw [map_one] at this
  rw [← this]
  congr 1
  apply sum_congr rfl
  intro i hi
  rw [(h R hR).2 i (mem_range.mp hi), map_add]
  rfl

/-- **C85.** The error estimates of TRBDF2, TRX2 and Kv3I vanish up to order 2. -/
theorem C85_error_order {R : ESTable} (hR : R ∈ [TRBDF2, TRX2, Kv3I]) :
    ErrorCond R.n (R.tab ℝ (√2)).mat (R.tab ℝ (√2)).E 2 := by
  have h : ∀ R ∈ [TRBDF2, TRX2, Kv3I], exactCheck R R.E 0 2 = true := by
    intro R hR
    simp only [List.mem_cons, List.not_mem_nil, or_false] at hR
    rcases hR with rfl | rfl | rfl <;> decide +kernel
  have hR' : R ∈ [TRBDF2, TRX2, KC3I, KC4I, KC4Ia, Kv3I] := by
    simp only [List.mem_cons, List.not_mem_nil, or_false] at hR ⊢
    tauto
  intro τ hτ
  have hd : (τ.dens : ℝ) ≠ 0 := by exact_mod_cast τ.dens_pos.ne'
  have := exact_sound (esdirk_shape R hR') (h R hR) τ hτ
  rw [map_zero] at this
  exact (mul_eq_zero.mp this).resolve_right hd

/-- **C85.** KC4Ia, whose coefficients are rounded, satisfies the conditions of order 4 up to `3e-26`. -/
theorem C85_KC4Ia_order : OrderCondNear KC4Ia.n (KC4Ia.tab ℝ (√2)).mat (KC4Ia.tab ℝ (√2)).B 4 (3 / 10 ^ 26) := by
  have h : nearCheck KC4Ia KC4Ia.B 1 (3 / 10 ^ 26) 4 = true := by decide +kernel
  intro τ hτ
  have := near_sound (esdirk_shape KC4Ia (by simp)) h τ hτ
  push_cast at this
  exact this

/-- **C85.** The error estimates of KC3I, KC4I and KC4Ia vanish up to `order_secondary` (2, 3 and 3) apart from the
rounding of the embedded weights. -/
theorem C85_KC_error {R : ESTable} (hR : R ∈ [KC3I, KC4I, KC4Ia]) :
    ErrorCondNear R.n (R.tab ℝ (√2)).mat (R.tab ℝ (√2)).E R.orderSec (4 / 10 ^ 26) := by
  have h : ∀ R ∈ [KC3I, KC4I, KC4Ia], nearCheck R R.E 0 (4 / 10 ^ 26) R.orderSec = true := by
    intro R hR
    simp only [List.mem_cons, List.not_mem_nil, or_false] at hR
    rcases hR with rfl | rfl | rfl <;> decide +kernel
  have hR' : R ∈ [TRBDF2, TRX2, KC3I, KC4I, KC4Ia, Kv3I] := by
    simp only [List.mem_cons, List.not_mem_nil, or_false] at hR ⊢
    tauto
  intro τ hτ
  have := near_sound (esdirk_shape R hR') (h R hR) τ hτ
  push_cast at this
  rwa [zero_div, sub_zero] at this

/-- Defect of at least `1.5e-4` in the condition of a tree. -/
def bigCheck (R : ESTable) (b : List Q2) (c : ℚ) (τ : OTree) : Bool :=
  let x := dotLG b (weightLG R.A τ) - ⟨c / (τ.dens : ℚ), 0⟩
  q2nonneg (x - ⟨3 / 20000, 0⟩) || q2nonneg (-x - ⟨3 / 20000, 0⟩)

theorem big_sound {R : ESTable} (hs : shapeCheck R = true) {b : List Q2} {c : ℚ} {τ : OTree}
    (h : bigCheck R b c τ = true) :
    1 / 10 ^ 4 < |∑ i ∈ range R.n, homR (b.getD i 0) * τ.weight R.n (R.tab ℝ (√2)).mat i - (c : ℝ) / (τ.dens : ℝ)| := by
  have e : homR ⟨c / (τ.dens : ℚ), 0⟩ = (c : ℝ) / (τ.dens : ℝ) := by rw [homR_val, Q2.val]; push_cast; simp
  have e2 : homR ⟨3 / 20000, 0⟩ = 3 / 20000 := by rw [homR_val, Q2.val]; push_cast; simp
  rw [← (shape_weight hs τ b).2, ← e, ← map_sub]
  have h0 : (1 : ℝ) / 10 ^ 4 < 3 / 20000 := by norm_num
  simp only [bigCheck, Bool.or_eq_true] at h
  rcases h with h | h <;> have h := q2nonneg_spec h <;> rw [map_sub, e2] at h
  · exact h0.trans_le ((by linarith : _ ≤ _).trans (le_abs_self _))
  · rw [map_neg] at h
    exact h0.trans_le ((by linarith : _ ≤ _).trans (neg_le_abs _))

/-- Some trees with `k + 1` vertices. -/
def someTrees (k : ℕ) : List OTree := [.chain k, .bush k]

/-- **C85.** The orders are not higher than stated: there are trees with one more vertex whose conditions fail, for the
main method and for the error estimate. -/
theorem C85_sharp {R : ESTable} (hR : R ∈ [TRBDF2, TRX2, KC3I, KC4I, KC4Ia, Kv3I]) :
    (∃ τ : OTree, τ.size = R.order + 1 ∧
      1 / 10 ^ 4 < |∑ i ∈ range R.n, (R.tab ℝ (√2)).B i * τ.weight R.n (R.tab ℝ (√2)).mat i - 1 / (τ.dens : ℝ)|) ∧
    ∃ τ : OTree, τ.size = min R.order R.orderSec + 1 ∧
      1 / 10 ^ 4 < |∑ i ∈ range R.n, (R.tab ℝ (√2)).E i * τ.weight R.n (R.tab ℝ (√2)).mat i| := by
  have h : ∀ R ∈ [TRBDF2, TRX2, KC3I, KC4I, KC4Ia, Kv3I],
      (∃ τ ∈ someTrees R.order, τ.size = R.order + 1 ∧ bigCheck R R.B 1 τ = true) ∧
      ∃ τ ∈ someTrees (min R.order R.orderSec), τ.size = min R.order R.orderSec + 1 ∧ bigCheck R R.E 0 τ = true := by
    intro R hR
    simp only [List.mem_cons, List.not_mem_nil, or_false] at hR
    rcases hR with rfl | rfl | rfl | rfl | rfl | rfl <;> decide +kernel
  obtain ⟨⟨τ, -, s1, b1⟩, τ', -, s2, b2⟩ := h R hR
  have h1 := big_sound (esdirk_shape R hR) b1
  have h2 := big_sound (esdirk_shape R hR) b2
  rw [Rat.cast_one] at h1
  rw [Rat.cast_zero, zero_div, sub_zero] at h2
  exact ⟨⟨τ, s1, h1⟩, τ', s2, h2⟩

/-! ## Local errors -/

section
variable {E : Type*} [NormedAddCommGroup E] [NormedSpace ℝ E]

theorem stageVal_mat {T : ETab ℝ} {y0 : E} {h : ℝ} {Ks : ℕ → E} {i : ℕ} (hi : i < T.n) :
    stageVal T y0 h Ks i = y0 + h • ∑ j ∈ range T.n, T.mat i j • Ks j := by
  unfold stageVal
  congr 2
  have hsub : range (i + 1) ⊆ range T.n := by
    intro j hj; rw [mem_range] at *; omega
  rw [← sum_subset hsub]
  · apply sum_congr rfl
    intro j hj
    rw [mem_range] at hj
    rw [ETab.mat, if_pos (by omega)]
  · intro j _ hj
    rw [mem_range] at hj
    rw [ETab.mat, if_neg (by omega), zero_smul]

theorem rows_sound {R : ESTable} (hs : shapeCheck R = true) (hr : rowsCheck R = true) {i : ℕ} (hi : i < R.n) :
    ∑ j ∈ range R.n, (R.tab ℝ (√2)).mat i j = (R.tab ℝ (√2)).C i := by
  simp only [shapeCheck, rowsCheck, Bool.and_eq_true, decide_eq_true_eq] at hs hr
  have h1 := congrArg homR (hr i hi)
  rw [dotL_eqG _ _ R.n (by left; simp), map_sum] at h1
  rw [show (R.tab ℝ (√2)).C i = homR (R.C.getD i 0) from rfl, ← h1]
  apply sum_congr rfl
  intro j hj
  rw [mem_range] at hj
  rw [map_mul, List.getD_eq_getElem (List.replicate R.n 1) _ (by simpa using hj), List.getElem_replicate, map_one, mul_one]
  unfold ETab.mat
  split_ifs with hji
  · rfl
  · have := hs.2 i hi j hj (by omega)
    unfold matOfG at this
    rw [this, map_zero]

/-- Hypotheses of the theorems on local errors: the stages of the steps of size `h` from `(t0, y0)` solve their
equations up to `O(h^q)` and stay bounded as `h → 0` (the equations can have other, far away, solutions). -/
structure StageFamily (T : ETab ℝ) (M : E → E) (f : ℝ → E → E) (t0 : ℝ) (y0 : E) (q : ℕ) (k : ℝ → ℕ → E) : Prop where
  solved : ∀ i, i < T.n → (fun h => stageDefect T M f t0 y0 h (k h) i) =O[𝓝 0] fun h : ℝ => h ^ q
  bounded : ∀ i, i < T.n → (fun h => k h i) =O[𝓝 0] fun _ : ℝ => (1 : ℝ)

theorem StageFamily.mono {T : ETab ℝ} {M : E → E} {f : ℝ → E → E} {t0 : ℝ} {y0 : E} {q r : ℕ} {k : ℝ → ℕ → E}
    (h : StageFamily T M f t0 y0 q k) (hr : r ≤ q) : StageFamily T M f t0 y0 r k :=
  ⟨fun i hi => (h.solved i hi).trans (isBigO_pow_pow hr), h.bounded⟩

theorem StageFamily.residual {T : ETab ℝ} {M : E ≃L[ℝ] E} {f : ℝ → E → E} {t0 : ℝ} {y0 : E} {q : ℕ} {k : ℝ → ℕ → E}
    (hk : StageFamily T M f t0 y0 q k) {i : ℕ} (hi : i < T.n) :
    (fun h => k h i - M.symm (f (t0 + T.C i * h) (y0 + h • ∑ j ∈ range T.n, T.mat i j • k h j)))
      =O[𝓝 0] fun h : ℝ => h ^ q := by
  have h1 := ((M.symm : E →L[ℝ] E).isBigO_comp (fun h => stageDefect T M f t0 y0 h (k h) i) (𝓝 0)).trans (hk.solved i hi)
  refine h1.neg_left.congr_left fun h => ?_
  simp only [stageDefect, map_sub]
  rw [stageVal_mat hi]
  simp

/-- **C85.** Local error of TRBDF2, TRX2, KC3I, KC4I and Kv3I for `M y' = f(t, y)` with a regular mass matrix and an
smooth right-hand side: when the stage equations are solved up to `O(h^order)`, the solution after a step of size `h`
differs from the exact one by `O(h^(order+1))`. -/
theorem C85_local_error {R : ESTable} (hR : R ∈ [TRBDF2, TRX2, KC3I, KC4I, Kv3I]) {M : E ≃L[ℝ] E} {f : ℝ → E → E}
    {t0 : ℝ} {y0 : E} (hf : ContDiffAt ℝ ∞ (fun z : ℝ × E => f z.1 z.2) (t0, y0)) {k : ℝ → ℕ → E}
    (hk : StageFamily (R.tab ℝ (√2)) M f t0 y0 R.order k) {y : ℝ → E} (hy0 : y t0 = y0)
    (hy : ∀ᶠ t in 𝓝 t0, HasDerivAt y (M.symm (f t (y t))) t) :
    (fun h => eSolution (R.tab ℝ (√2)) y0 h (k h) - y (t0 + h)) =O[𝓝 0] fun h : ℝ => h ^ (R.order + 1) := by
  have hs := esdirk_shape R (sub_all hR)
  have hg : ContDiffAt ℝ ∞ (fun z : ℝ × E => M.symm (f z.1 z.2)) (t0, y0) :=
    ((M.symm : E →L[ℝ] E).contDiff.contDiffAt).comp (t0, y0) hf
  obtain ⟨h1, -⟩ := local_error_res (f := fun t y => M.symm (f t y))
    (fun i hi => rows_sound hs (esdirk_rows R hR) hi) hg (fun i hi => hk.residual hi) hk.bounded
  have := h1 (R.tab ℝ (√2)).B 1 (fun τ hτ => by rw [one_pow]; exact C85_main_order hR τ hτ) y hy0 hy
  simp only [one_mul] at this
  exact this

/-- **C85.** The unfiltered error estimate of TRBDF2, TRX2 and Kv3I is `O(h^3)`; that of the embedded solution of
TRBDF2 and TRX2 agrees with the local error up to `O(h^4)`. -/
theorem C85_estimate {R : ESTable} (hR : R ∈ [TRBDF2, TRX2, Kv3I]) {M : E ≃L[ℝ] E} {f : ℝ → E → E}
    {t0 : ℝ} {y0 : E} (hf : ContDiffAt ℝ ∞ (fun z : ℝ × E => f z.1 z.2) (t0, y0)) {k : ℝ → ℕ → E} :
    (StageFamily (R.tab ℝ (√2)) M f t0 y0 2 k →
      (fun h => eEstimate (R.tab ℝ (√2)) h (k h)) =O[𝓝 0] fun h : ℝ => h ^ 3) ∧
    (StageFamily (R.tab ℝ (√2)) M f t0 y0 R.orderSec k → ∀ y : ℝ → E, y t0 = y0 →
      (∀ᶠ t in 𝓝 t0, HasDerivAt y (M.symm (f t (y t))) t) →
      (fun h => eSolution (R.tab ℝ (√2)) y0 h (k h) + eEstimate (R.tab ℝ (√2)) h (k h) - y (t0 + h))
        =O[𝓝 0] fun h : ℝ => h ^ (R.orderSec + 1)) := by
  have hR' : R ∈ [TRBDF2, TRX2, KC3I, KC4I, Kv3I] := by
    simp only [List.mem_cons, List.not_mem_nil, or_false] at hR ⊢
    tauto
  have hs := esdirk_shape R (sub_all hR')
  have hg : ContDiffAt ℝ ∞ (fun z : ℝ × E => M.symm (f z.1 z.2)) (t0, y0) :=
    ((M.symm : E →L[ℝ] E).contDiff.contDiffAt).comp (t0, y0) hf
  refine ⟨fun hk => ?_, fun hk y hy0 hy => ?_⟩
  · obtain ⟨-, h2⟩ := local_error_res (f := fun t y => M.symm (f t y))
      (fun i hi => rows_sound hs (esdirk_rows R hR') hi) hg (fun i hi => hk.residual hi) hk.bounded
    exact h2 _ (C85_error_order hR)
  · obtain ⟨h1, -⟩ := local_error_res (f := fun t y => M.symm (f t y))
      (fun i hi => rows_sound hs (esdirk_rows R hR') hi) hg (fun i hi => hk.residual hi) hk.bounded
    have := h1 (fun i => (R.tab ℝ (√2)).B i + (R.tab ℝ (√2)).E i) 1
      (fun τ hτ => by rw [one_pow]; exact C85_embedded_order hR τ hτ) y hy0 hy
    refine this.congr_left fun h => ?_
    simp only [eSolution, eEstimate, add_smul, sum_add_distrib, smul_add, one_mul]
    show _ = y0 + h • ∑ j ∈ range R.n, _ + h • ∑ j ∈ range R.n, _ - _
    abel

/-- **C85.** Filtering an error estimate (solving `x - h d J x = err`, for the identity as mass matrix) keeps its order. -/
theorem C85_filter {d : ℝ} {J : E →L[ℝ] E} {err x : ℝ → E} {q : ℕ} (he : err =O[𝓝 0] fun h : ℝ => h ^ q)
    (hx : ∀ᶠ h in 𝓝 (0 : ℝ), x h - (h * d) • J (x h) = err h) : x =O[𝓝 0] fun h : ℝ => h ^ q := by
  obtain ⟨C, hC⟩ := he.bound
  have hs : Tendsto (fun h : ℝ => ‖h * d‖ * ‖J‖) (𝓝 0) (𝓝 0) := by
    have : ContinuousAt (fun h : ℝ => ‖h * d‖ * ‖J‖) 0 := by fun_prop
    simpa [ContinuousAt] using this
  apply IsBigO.of_bound (2 * C)
  filter_upwards [hC, hx, hs.eventually (gt_mem_nhds (show (0 : ℝ) < 1 / 2 by norm_num))] with h h1 h2 h3
  have h4 : ‖x h‖ ≤ ‖err h‖ + ‖h * d‖ * ‖J‖ * ‖x h‖ := by
    have e : x h = err h + (h * d) • J (x h) := by rw [← h2]; abel
    have h5 : ‖(h * d) • J (x h)‖ ≤ ‖h * d‖ * ‖J‖ * ‖x h‖ := by
      rw [norm_smul, mul_assoc]
      gcongr
      exact J.le_opNorm _
    calc ‖x h‖ = ‖err h + (h * d) • J (x h)‖ := by rw [← e]
      _ ≤ _ := (norm_add_le _ _).trans (by linarith)
  have h6 : ‖h * d‖ * ‖J‖ * ‖x h‖ ≤ 1 / 2 * ‖x h‖ := mul_le_mul_of_nonneg_right h3.le (norm_nonneg _)
  linarith

/-- **C85.** KC4Ia, and the error estimates of KC3I, KC4I and KC4Ia, for autonomous problems: the rounding of the
coefficients leaves Taylor coefficients of the local error up to the order of at most `3e-26 M` (`4e-26 M` for the
estimates), where `M` depends only on the problem; the remainder is `O(h^(q+1))`. -/
theorem C85_rounded {f : E → E} {y0 : E} (hf : ContDiffAt ℝ ∞ f y0) :
    ∃ M : ℝ, 0 ≤ M ∧
      (∀ k : ℝ → ℕ → E, StageFamily (KC4Ia.tab ℝ (√2)) id (fun _ => f) 0 y0 4 k → ∀ y : ℝ → E, y 0 = y0 →
        (∀ᶠ t in 𝓝 0, HasDerivAt y (f (y t)) t) →
          NearOrder (fun h => eSolution (KC4Ia.tab ℝ (√2)) y0 h (k h) - y h) 4 (3 / 10 ^ 26 * M)) ∧
      ∀ R ∈ [KC3I, KC4I, KC4Ia], ∀ k : ℝ → ℕ → E, StageFamily (R.tab ℝ (√2)) id (fun _ => f) 0 y0 R.orderSec k →
        NearOrder (fun h => eEstimate (R.tab ℝ (√2)) h (k h)) R.orderSec (4 / 10 ^ 26 * M) := by
  obtain ⟨M4, p4, h4⟩ := local_error_approx hf 4
  obtain ⟨M3, p3, h3⟩ := local_error_approx hf 3
  obtain ⟨M2, p2, h2⟩ := local_error_approx hf 2
  have hres : ∀ {T : ETab ℝ} {q : ℕ} {k : ℝ → ℕ → E}, StageFamily T id (fun _ => f) 0 y0 q k → ∀ i, i < T.n →
      (fun h => k h i - f (y0 + h • ∑ j ∈ range T.n, T.mat i j • k h j)) =O[𝓝 0] fun h : ℝ => h ^ q := by
    intro T q k hk i hi
    refine (hk.solved i hi).neg_left.congr_left fun h => ?_
    simp only [stageDefect, id]
    rw [stageVal_mat hi]
    abel
  refine ⟨M4 + M3 + M2, by linarith, fun k hk y hy0 hy => ?_, fun R hR k hk => ?_⟩
  · obtain ⟨a, -⟩ := h4 _ _ k (hres hk) hk.bounded
    have := a (KC4Ia.tab ℝ (√2)).B 1 (3 / 10 ^ 26) (by norm_num)
      (fun τ hτ => by rw [one_pow]; exact C85_KC4Ia_order τ hτ) y hy0 hy
    simp only [one_mul] at this
    exact this.mono (mul_le_mul_of_nonneg_left (by linarith) (by norm_num))
  · have hE := C85_KC_error hR
    simp only [List.mem_cons, List.not_mem_nil, or_false] at hR
    rcases hR with rfl | rfl | rfl
    · obtain ⟨-, a⟩ := h2 _ _ k (hres hk) hk.bounded
      exact (a _ _ (by norm_num) hE).mono (mul_le_mul_of_nonneg_left (by linarith) (by norm_num))
    · obtain ⟨-, a⟩ := h3 _ _ k (hres hk) hk.bounded
      exact (a _ _ (by norm_num) hE).mono (mul_le_mul_of_nonneg_left (by linarith) (by norm_num))
    · obtain ⟨-, a⟩ := h3 _ _ k (hres hk) hk.bounded
      exact (a _ _ (by norm_num) hE).mono (mul_le_mul_of_nonneg_left (by linarith) (by norm_num))

end

end Extensisq
