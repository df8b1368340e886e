import Verif.Props.DenseMethods
import Verif.Model.Example

/-!
# C27 (continuous, C1), C16 (dense part), C28 (effect of `dense_output`), C61
-/

set_option linter.unusedSectionVars false

namespace Extensisq
open Finset

section
variable {K V : Type*} [Field K] [AddCommGroup V] [Module K V]

/-- Weight of stage `i` in the time derivative of the output at scaled time `x`. -/
def dWeight (K : Type*) [DivisionRing K] (P : List (List ℚ)) (i : ℕ) (x : K) : K :=
  ∑ j ∈ range (cols P), entry K P i j * (((j : K) + 1) * x ^ j)

theorem pWeight_cast [CharZero K] (P : List (List ℚ)) (i : ℕ) (x : ℚ) :
    pWeight K P i (x : K) = ((pWeight ℚ P i x : ℚ) : K) := by
  unfold pWeight entry
  push_cast
  rfl

theorem dWeight_cast [CharZero K] (P : List (List ℚ)) (i : ℕ) (x : ℚ) :
    dWeight K P i (x : K) = ((dWeight ℚ P i x : ℚ) : K) := by
  unfold dWeight entry
  push_cast
  rfl

theorem sum_ite_unit {n e : ℕ} (he : e < n) (w : ℕ → K) (hw : ∀ i, i < n → w i = if i = e then 1 else 0)
    (k : ℕ → V) : ∑ i ∈ range n, w i • k i = k e := by
  rw [sum_congr rfl fun i hi => by rw [hw i (mem_range.mp hi)]]
  simp [ite_smul, sum_ite_eq', he]

end

section
variable {E : Type*} [NormedAddCommGroup E] [NormedSpace ℝ E]

/-- Derivative of the dense output as a weighted sum of stages. -/
theorem horner_denseQ_deriv {tOld t : ℝ} (ht : t ≠ tOld) (yOld : E) (P : List (List ℚ)) (n : ℕ)
    (k : ℕ → E) (τ : ℝ) : HasDerivAt (horner tOld t yOld (denseQ ℝ P n k))
      (∑ i ∈ range n, dWeight ℝ P i ((τ - tOld) / (t - tOld)) • k i) τ := by
  refine (horner_hasDerivAt tOld t ht yOld _ τ).congr_deriv ?_
  rw [denseQ_length]
  rw [sum_congr rfl fun j hj => by rw [denseQ_getD P n k (mem_range.mp hj), smul_sum]]
  rw [sum_comm]
  apply sum_congr rfl
  intro i _
  unfold dWeight
  rw [sum_smul]
  apply sum_congr rfl
  intro j _
  rw [smul_smul, mul_comm]

/-- A function joins the states `(t0, y0)`, `(t1, y1)` with slopes `s0`, `s1`. -/
structure Joins (u : ℝ → E) (t0 : ℝ) (y0 s0 : E) (t1 : ℝ) (y1 s1 : E) : Prop where
  start : u t0 = y0
  stop : u t1 = y1
  slope0 : HasDerivAt u s0 t0
  slope1 : HasDerivAt u s1 t1

/-- Coefficient conditions for a forward interpolant over `n` stages, of which stage `e` is the
evaluation at the new point. -/
structure FwdOK (B : ℕ → ℚ) (P : List (List ℚ)) (n e : ℕ) : Prop where
  pos : 0 < n
  lt : e < n
  val : ∀ i, i < n → pWeight ℚ P i 1 = B i
  d0 : ∀ i, i < n → dWeight ℚ P i 0 = if i = 0 then 1 else 0
  d1 : ∀ i, i < n → dWeight ℚ P i 1 = if i = e then 1 else 0

instance (B : ℕ → ℚ) (P : List (List ℚ)) (n e : ℕ) : Decidable (FwdOK B P n e) :=
  decidable_of_iff (_ ∧ _ ∧ _ ∧ _ ∧ _)
    ⟨fun h => ⟨h.1, h.2.1, h.2.2.1, h.2.2.2.1, h.2.2.2.2⟩, fun h => ⟨h.1, h.2, h.3, h.4, h.5⟩⟩

theorem forward_joins {B : ℕ → ℚ} {P : List (List ℚ)} {n e : ℕ} (hP : FwdOK B P n e) {tOld t : ℝ}
    (ht : t ≠ tOld) {yOld y : E} {k : ℕ → E}
    (hy : y = yOld + (t - tOld) • ∑ i ∈ range n, ((B i : ℚ) : ℝ) • k i) :
    Joins (horner tOld t yOld (denseQ ℝ P n k)) tOld yOld (k 0) t y (k e) := by
  have hne : t - tOld ≠ 0 := sub_ne_zero.mpr ht
  have h1 : ∀ i, i < n → pWeight ℝ P i 1 = ((B i : ℚ) : ℝ) := by
    intro i hi
    have := pWeight_cast (K := ℝ) P i 1
    rw [Rat.cast_one] at this
    rw [this, hP.val i hi]
  have h2 : ∀ i, i < n → dWeight ℝ P i 0 = if i = 0 then 1 else 0 := by
    intro i hi
    have := dWeight_cast (K := ℝ) P i 0
    rw [Rat.cast_zero] at this
    rw [this, hP.d0 i hi]
    split_ifs <;> simp
  have h3 : ∀ i, i < n → dWeight ℝ P i 1 = if i = e then 1 else 0 := by
    intro i hi
    have := dWeight_cast (K := ℝ) P i 1
    rw [Rat.cast_one] at this
    rw [this, hP.d1 i hi]
    split_ifs <;> simp
  refine ⟨C23_horner_start _ _ _ _, ?_, ?_, ?_⟩
  · rw [horner_denseQ, div_self hne, hy]
    congr 2
    exact sum_congr rfl fun i hi => by rw [h1 i (mem_range.mp hi)]
  · refine (horner_denseQ_deriv ht yOld P n k tOld).congr_deriv ?_
    rw [sub_self, zero_div]
    exact sum_ite_unit hP.pos _ h2 k
  · refine (horner_denseQ_deriv ht yOld P n k t).congr_deriv ?_
    rw [div_self hne]
    exact sum_ite_unit hP.lt _ h3 k

theorem sum_main {R : RKTable} (k : ℕ → E) (n : ℕ) (hn : R.s ≤ n) :
    ∑ i ∈ range R.s, (R.tab ℝ).B i • k i =
      ∑ i ∈ range n, ((((R.tab ℚ).main i : ℚ)) : ℝ) • k i := by
  rw [← sum_subset (range_subset_range.mpr hn)]
  · apply sum_congr rfl
    intro i hi
    have hi : i < (R.tab ℚ).s := mem_range.mp hi
    unfold Tableau.main
    rw [if_pos hi]
    simp [RKTable.tab]
  · intro i _ hi
    have hi : ¬ i < (R.tab ℚ).s := fun h => hi (mem_range.mpr h)
    unfold Tableau.main
    rw [if_neg hi, Rat.cast_zero, zero_smul]

theorem rationalRK_fwd : ∀ R ∈ rationalRK, FwdOK (R.tab ℚ).main R.P (R.s + 1) R.s := by decide +kernel

variable {c : Cfg ℝ E E}

/-- A successful step of a solver and what `dense_output()` reads. -/
theorem step_dense_data (hc : CfgOK c) {T : Tableau ℝ} {rhs : ℝ → E → E} {errNorm : E → E → E → ENorm ℝ}
    {Pt : PreTest ℝ E} (hm : c.m = rkMethod T rhs errNorm Pt) (hC : T.C 0 = 0) (hs : 0 < T.s)
    {t0 : ℝ} {y0 : E} {h0 : ℝ} {e0 : ℕ} {Ks0 : ℕ → E} {v v' : Solver ℝ E E}
    (hr : Reach c (newSolver c t0 y0 h0 e0 Ks0) v) {fuel : ℕ} (hne : c.tb ≠ some v.st.t)
    (h : step c fuel v = some (.ok, v')) :
    ∃ k : ℕ → E, v'.st.t ≠ v.st.t ∧ v'.tOld = some v.st.t ∧ v'.st.yOld = some v.st.y ∧
      v'.st.hPrev = some (v'.st.t - v.st.t) ∧ (Pt.early = false → v'.st.fOld = some (rhs v.st.t v.st.y)) ∧
      IsRKStep T rhs v.st.t v.st.y (v'.st.t - v.st.t) k v'.st.y ∧ (∀ i, i ≤ T.s → v'.st.Ks i = k i) ∧
      v'.st.f = rhs v'.st.t v'.st.y ∧ k 0 = rhs v.st.t v.st.y ∧ k T.s = rhs v'.st.t v'.st.y := by
  have hadv := (C02_strict_advance hc hne h).2
  obtain ⟨_, _, htO⟩ := step_ok_impl hne h
  obtain ⟨hh, k, x, hk, ht, _, _, hKs, hf, hyO, hfO, hhP⟩ :=
    C05_successful_step_is_rk_step hm hC hs hr hne h
  have e : v'.st.t - v.st.t = hh := by rw [ht]; ring
  have hlast : k T.s = rhs v'.st.t v'.st.y := by rw [hk.last, ht]
  refine ⟨k, ?_, htO, hyO, by rw [e]; exact hhP, ?_, by rw [e]; exact hk, hKs, ?_, ?_, hlast⟩
  · intro he
    rw [he, sub_self, mul_zero] at hadv
    exact lt_irrefl _ hadv
  · intro hE
    rw [hfO hE, C10_stored_derivative_current hm hr]
  · rw [hf, hlast]
  · rw [hk.stage 0 hs, hC, zero_mul, add_zero, sum_range_zero, smul_zero, add_zero]

theorem denseQ_congr {P : List (List ℚ)} {n : ℕ} {k k' : ℕ → E} (h : ∀ i, i < n → k i = k' i) :
    denseQ ℝ P n k = denseQ ℝ P n k' := by
  unfold denseQ
  apply List.map_congr_left
  intro j _
  exact sum_congr rfl fun i hi => by rw [h i (mem_range.mp hi)]

theorem denseOutput_eq {impl : ℝ → E → (ℝ → E) × (ℕ → E) × ℕ} {v : Solver ℝ E E} {tO : ℝ} {yO : E}
    (h1 : v.tOld = some tO) (h2 : v.st.t ≠ tO) (h3 : v.st.yOld = some yO) :
    denseOutput impl v = some ((impl tO yO).1,
      { v with st := { v.st with Ks := (impl tO yO).2.1, nfev := v.st.nfev + (impl tO yO).2.2 } }) := by
  obtain ⟨status, tOld, t, y, f, a1, a2, a3, a4, a5, yOld, a6⟩ := v
  dsimp only at h1 h2 h3
  subst h1 h3
  simp only [denseOutput, if_neg h2]

theorem rkDense_eq {R : RKTable} {v : Solver ℝ E E} {tO : ℝ} {yO : E}
    (h1 : v.tOld = some tO) (h2 : v.st.t ≠ tO) (h3 : v.st.yOld = some yO) :
    rkDense R v = some (horner tO v.st.t yO (denseQ ℝ R.P (R.s + 1) v.st.Ks), v) :=
  denseOutput_eq h1 h2 h3

/-! ## C27 -/

/-- **C27**. After every successful step of a solver with a shipped rational tableau (`Me4`, `CK5`,
`CFMR7osc`, `Pr7`, or `BS5` with `interpolant='free'`), `dense_output()` returns an interpolant that
agrees with the solution at both ends of the step and whose derivatives there are `fun(t_old, y_old)` and
`fun(t, y)`: the dense output over several steps is continuously differentiable. -/
theorem C27_dense_output_C1 (R : RKTable) (hR : R ∈ rationalRK) (hc : CfgOK c) {rhs : ℝ → E → E}
    {errNorm : E → E → E → ENorm ℝ} {Pt : PreTest ℝ E} (hm : c.m = rkMethod (R.tab ℝ) rhs errNorm Pt)
    {t0 : ℝ} {y0 : E} {h0 : ℝ} {e0 : ℕ} {Ks0 : ℕ → E} {v v' : Solver ℝ E E}
    (hr : Reach c (newSolver c t0 y0 h0 e0 Ks0) v) {fuel : ℕ} (hne : c.tb ≠ some v.st.t)
    (h : step c fuel v = some (.ok, v')) :
    ∃ u, rkDense R v' = some (u, v') ∧ Joins u v.st.t v.st.y (rhs v.st.t v.st.y)
      v'.st.t v'.st.y (rhs v'.st.t v'.st.y) := by
  obtain ⟨_, _, hC, hs⟩ := rationalRK_rows R hR
  obtain ⟨k, ht, htO, hyO, _, _, hk, hKs, _, hk0, hks⟩ := step_dense_data hc hm hC hs hr hne h
  refine ⟨horner v.st.t v'.st.t v.st.y (denseQ ℝ R.P (R.s + 1) v'.st.Ks), rkDense_eq htO ht hyO, ?_⟩
  · rw [denseQ_congr (k' := k) (fun i hi => hKs i (by change i ≤ R.s; omega))]
    have := forward_joins (rationalRK_fwd R hR) ht (yOld := v.st.y) (y := v'.st.y) (k := k) (by
      rw [← sum_main k (R.s + 1) (by omega)]; exact hk.sol)
    rw [hk0] at this
    have hks' : k R.s = rhs v'.st.t v'.st.y := hks
    rw [hks'] at this
    exact this

/-- **C27** without interpolation table (cubic Hermite output, any tableau). -/
theorem C27_cubic_C1 {T : Tableau ℝ} (hc : CfgOK c) {rhs : ℝ → E → E}
    {errNorm : E → E → E → ENorm ℝ} (hm : c.m = rkMethod T rhs errNorm) (hC : T.C 0 = 0)
    (hs : 0 < T.s) {t0 : ℝ} {y0 : E} {h0 : ℝ} {e0 : ℕ} {Ks0 : ℕ → E} {v v' : Solver ℝ E E}
    (hr : Reach c (newSolver c t0 y0 h0 e0 Ks0) v) {fuel : ℕ} (hne : c.tb ≠ some v.st.t)
    (h : step c fuel v = some (.ok, v')) :
    ∃ u, rkDenseCubic v' = some (u, v') ∧ Joins u v.st.t v.st.y (rhs v.st.t v.st.y)
      v'.st.t v'.st.y (rhs v'.st.t v'.st.y) := by
  obtain ⟨k, ht, htO, hyO, _, hfO, hk, hKs, hf, hk0, hks⟩ := step_dense_data hc hm hC hs hr hne h
  refine ⟨cubic v.st.t v'.st.t v.st.y v'.st.y (rhs v.st.t v.st.y) v'.st.f, ?_, ?_⟩
  · unfold rkDenseCubic
    rw [hfO rfl]
    dsimp only
    exact denseOutput_eq htO ht hyO
  · rw [hf]
    obtain ⟨h1, h2⟩ := C24_cubic_ends ht v.st.y v'.st.y (rhs v.st.t v.st.y) (rhs v'.st.t v'.st.y)
    obtain ⟨h3, h4⟩ := C24_cubic_derivatives ht v.st.y v'.st.y (rhs v.st.t v.st.y) (rhs v'.st.t v'.st.y)
    exact ⟨h1, h2, h3, h4⟩

theorem bs5_low_fwd : FwdOK (fun i => (BS5.tab ℚ).main i) BS5_Plow 9 7 := by decide +kernel

theorem bs5_best_bwd : (∀ i, i < 11 → pWeight ℚ BS5_Pbest i (-1) = -(BS5.tab ℚ).main i) ∧
    (∀ i, i < 11 → dWeight ℚ BS5_Pbest i (-1) = if i = 0 then 1 else 0) ∧
    (∀ i, i < 11 → dWeight ℚ BS5_Pbest i 0 = if i = 7 then 1 else 0) := by decide +kernel

/-- **C27** for the three interpolants of `BS5`. -/
theorem C27_BS5_C1 (o : BS5Interp) (hc : CfgOK c) {rhs : ℝ → E → E} {errNorm : E → E → E → ENorm ℝ}
    (hm : c.m = bs5Method ℝ rhs errNorm)
    {t0 : ℝ} {y0 : E} {h0 : ℝ} {e0 : ℕ} {Ks0 : ℕ → E} {v v' : Solver ℝ E E}
    (hr : Reach c (newSolver c t0 y0 h0 e0 Ks0) v) {fuel : ℕ} (hne : c.tb ≠ some v.st.t)
    (h : step c fuel v = some (.ok, v')) :
    ∃ u w, bs5Dense o rhs v' = some (u, w) ∧ Joins u v.st.t v.st.y (rhs v.st.t v.st.y)
      v'.st.t v'.st.y (rhs v'.st.t v'.st.y) := by
  have hR : BS5 ∈ rationalRK := by simp [rationalRK]
  obtain ⟨_, _, hC, hs⟩ := rationalRK_rows BS5 hR
  obtain ⟨k, ht, htO, hyO, hhP, _, hk, hKs, _, hk0, hks⟩ := step_dense_data hc hm hC hs hr hne h
  have hK8 : ∀ i, i < 8 → v'.st.Ks i = k i := fun i hi => hKs i (by change i ≤ 7; omega)
  have hks' : k 7 = rhs v'.st.t v'.st.y := hks
  have hsol : v'.st.y = v.st.y + (v'.st.t - v.st.t) • ∑ i ∈ range 7, (BS5.tab ℝ).B i • k i := hk.sol
  have hd : ∃ w, bs5Dense o rhs v' = some ((bs5DenseImpl o rhs v'.st.t v'.st.y v'.st.Ks
      (v'.st.t - v.st.t) v.st.t v.st.y).1, w) := by
    unfold bs5Dense
    rw [hhP]
    dsimp only
    exact ⟨_, denseOutput_eq htO ht hyO⟩
  obtain ⟨w, hw⟩ := hd
  refine ⟨_, w, hw, ?_⟩
  cases o with
  | free =>
    simp only [bs5DenseImpl]
    rw [denseQ_congr hK8]
    have := forward_joins (rationalRK_fwd BS5 hR) ht (yOld := v.st.y) (y := v'.st.y) (k := k) (by
      rw [← sum_main k (BS5.s + 1) (by omega)]; exact hsol)
    rw [hk0] at this
    rw [show k BS5.s = _ from hks'] at this
    exact this
  | low =>
    simp only [bs5DenseImpl]
    generalize hke : extraStages rhs v.st.t v.st.y (v'.st.t - v.st.t) 8
      ((BS5_A_extra.zip BS5_C_extra).take 1) v'.st.Ks = ke
    have hl : ∀ i, i < 8 → ke i = k i := fun i hi => by
      rw [← hke, extraStages_lt _ _ _ _ _ _ _ _ hi, hK8 i hi]
    have := forward_joins bs5_low_fwd ht (yOld := v.st.y) (y := v'.st.y) (k := ke) (by
      rw [← sum_main (R := BS5) ke 9 (by decide), hsol]
      congr 2
      refine sum_congr rfl fun i hi => ?_
      have hi : i < 7 := mem_range.mp hi
      rw [hl i (by omega)])
    rw [hl 0 (by omega), hl 7 (by omega), hk0, hks'] at this
    exact this
  | best =>
    simp only [bs5DenseImpl]
    generalize hke : extraStages rhs v.st.t v.st.y (v'.st.t - v.st.t) 8
      (BS5_A_extra.zip BS5_C_extra) v'.st.Ks = ke
    have hl : ∀ i, i < 8 → ke i = k i := fun i hi => by
      rw [← hke, extraStages_lt _ _ _ _ _ _ _ _ hi, hK8 i hi]
    rw [bs5BestQ_eq]
    obtain ⟨b1, b2, b3⟩ := bs5_best_bwd
    have hne' : v'.st.t - v.st.t ≠ 0 := sub_ne_zero.mpr ht
    have ht' : v'.st.t + (v'.st.t - v.st.t) ≠ v'.st.t := by
      intro he; apply hne'; linarith
    have hx0 : (v.st.t - v'.st.t) / (v'.st.t + (v'.st.t - v.st.t) - v'.st.t) = -1 := by
      rw [add_sub_cancel_left]
      field_simp
      ring
    refine ⟨?_, C23_horner_start _ _ _ _, ?_, ?_⟩
    · rw [horner_denseQ, hx0, add_sub_cancel_left]
      have e1 : ∑ i ∈ range 11, pWeight ℝ BS5_Pbest i (-1) • ke i =
          -∑ i ∈ range 7, (BS5.tab ℝ).B i • k i := by
        have e2 := sum_main (R := BS5) ke 11 (by decide)
        have e3 : ∑ i ∈ range BS5.s, (BS5.tab ℝ).B i • ke i = ∑ i ∈ range 7, (BS5.tab ℝ).B i • k i :=
          sum_congr rfl fun i hi => by
            have hi : i < 7 := mem_range.mp hi
            rw [hl i (by omega)]
        rw [← e3, e2, ← sum_neg_distrib]
        refine sum_congr rfl fun i hi => ?_
        have := pWeight_cast (K := ℝ) BS5_Pbest i (-1)
        rw [Rat.cast_neg, Rat.cast_one] at this
        rw [this, b1 i (mem_range.mp hi), Rat.cast_neg, neg_smul]
      rw [e1, hsol, smul_neg, add_neg_cancel_right]
    · refine (horner_denseQ_deriv ht' v'.st.y BS5_Pbest 11 ke v.st.t).congr_deriv ?_
      rw [hx0, sum_ite_unit (e := 0) (by omega) _ (fun i hi => ?_) ke, hl 0 (by omega), hk0]
      have := dWeight_cast (K := ℝ) BS5_Pbest i (-1)
      rw [Rat.cast_neg, Rat.cast_one] at this
      rw [this, b2 i hi]
      split_ifs <;> simp
    · refine (horner_denseQ_deriv ht' v'.st.y BS5_Pbest 11 ke v'.st.t).congr_deriv ?_
      rw [sub_self, zero_div, sum_ite_unit (e := 7) (by omega) _ (fun i hi => ?_) ke, hl 7 (by omega), hks']
      have := dWeight_cast (K := ℝ) BS5_Pbest i 0
      rw [Rat.cast_zero] at this
      rw [this, b3 i hi]
      split_ifs <;> simp

/-- The methods with decimal coefficients and the size of the defects of their interpolation tables. -/
def decimalRK : List (RKTable × ℚ) := [(Ts5, 3 / 10 ^ 14), (Pr8, 4 / 10 ^ 26), (Pr9, 5 / 10 ^ 26)]

theorem decimalRK_check : ∀ p ∈ decimalRK, p.1.C.getD 0 0 = 0 ∧ 0 < p.1.s ∧
    (∀ i, i < p.1.s + 1 → |pWeight ℚ p.1.P i 1 - (p.1.tab ℚ).main i| ≤ p.2) ∧
    (∀ i, i < p.1.s + 1 → dWeight ℚ p.1.P i 0 = if i = 0 then 1 else 0) ∧
    (∀ i, i < p.1.s + 1 → |dWeight ℚ p.1.P i 1 - (if i = p.1.s then 1 else 0)| ≤ p.2) := by
  decide +kernel

/-- **C27** for the methods with rounded decimal coefficients (`Ts5`, `Pr8`, `Pr9`; the coefficients as
written in the source): exact at the start of the step, and a jump of at most `eps |h| sum |k_i|` in value
and `eps sum |k_i|` in slope at the end, with `eps` of the size of the rounding of the coefficients. -/
theorem C27_decimal_defect {R : RKTable} {ε : ℚ} (hR : (R, ε) ∈ decimalRK) (hc : CfgOK c)
    {rhs : ℝ → E → E} {errNorm : E → E → E → ENorm ℝ} (hm : c.m = rkMethod (R.tab ℝ) rhs errNorm)
    {t0 : ℝ} {y0 : E} {h0 : ℝ} {e0 : ℕ} {Ks0 : ℕ → E} {v v' : Solver ℝ E E}
    (hr : Reach c (newSolver c t0 y0 h0 e0 Ks0) v) {fuel : ℕ} (hne : c.tb ≠ some v.st.t)
    (h : step c fuel v = some (.ok, v')) :
    ∃ u u', rkDense R v' = some (u, v') ∧ u v.st.t = v.st.y ∧ HasDerivAt u (rhs v.st.t v.st.y) v.st.t ∧
      ‖u v'.st.t - v'.st.y‖ ≤ |v'.st.t - v.st.t| * (ε * ∑ i ∈ range (R.s + 1), ‖v'.st.Ks i‖) ∧
      HasDerivAt u u' v'.st.t ∧
      ‖u' - rhs v'.st.t v'.st.y‖ ≤ ε * ∑ i ∈ range (R.s + 1), ‖v'.st.Ks i‖ := by
  obtain ⟨hC0, hs, d1, d2, d3⟩ := decimalRK_check _ hR
  have hC : (R.tab ℝ).C 0 = 0 := by simp only [RKTable.tab, hC0, Rat.cast_zero]
  obtain ⟨k, ht, htO, hyO, _, _, hk, hKs, _, hk0, hks⟩ := step_dense_data hc hm hC hs hr hne h
  have hne' : v'.st.t - v.st.t ≠ 0 := sub_ne_zero.mpr ht
  have hKk : ∀ i, i < R.s + 1 → v'.st.Ks i = k i := fun i hi => hKs i (by change i ≤ R.s; omega)
  have bound : ∀ (w w' : ℕ → ℝ), (∀ i, i < R.s + 1 → |w i - w' i| ≤ (ε : ℝ)) →
      ‖∑ i ∈ range (R.s + 1), w i • k i - ∑ i ∈ range (R.s + 1), w' i • k i‖ ≤
        ε * ∑ i ∈ range (R.s + 1), ‖v'.st.Ks i‖ := by
    intro w w' hw
    rw [← sum_sub_distrib, mul_sum]
    refine (norm_sum_le _ _).trans (sum_le_sum fun i hi => ?_)
    rw [← sub_smul, norm_smul, hKk i (mem_range.mp hi)]
    exact mul_le_mul_of_nonneg_right (hw i (mem_range.mp hi)) (norm_nonneg _)
  refine ⟨horner v.st.t v'.st.t v.st.y (denseQ ℝ R.P (R.s + 1) v'.st.Ks), _, ?_,
    C23_horner_start _ _ _ _, ?_, ?_, horner_denseQ_deriv ht _ _ _ _ _, ?_⟩
  · exact rkDense_eq htO ht hyO
  · refine (horner_denseQ_deriv ht v.st.y R.P (R.s + 1) v'.st.Ks v.st.t).congr_deriv ?_
    rw [sub_self, zero_div, sum_ite_unit (e := 0) (by omega) _ (fun i hi => ?_) _, hKk 0 (by omega), hk0]
    have := dWeight_cast (K := ℝ) R.P i 0
    rw [Rat.cast_zero] at this
    rw [this, d2 i hi]
    split_ifs <;> simp
  · rw [denseQ_congr hKk, horner_denseQ, div_self hne']
    have e1 : v'.st.y = v.st.y + (v'.st.t - v.st.t) •
        ∑ i ∈ range (R.s + 1), ((((R.tab ℚ).main i : ℚ)) : ℝ) • k i := by
      rw [← sum_main k (R.s + 1) (by omega)]; exact hk.sol
    rw [e1, add_sub_add_left_eq_sub, ← smul_sub, norm_smul, Real.norm_eq_abs]
    refine mul_le_mul_of_nonneg_left (bound _ _ fun i hi => ?_) (abs_nonneg _)
    have := pWeight_cast (K := ℝ) R.P i 1
    rw [Rat.cast_one] at this
    rw [this]
    exact_mod_cast d1 i hi
  · rw [div_self hne', sum_congr rfl fun i hi => by rw [hKk i (mem_range.mp hi)]]
    have e1 : rhs v'.st.t v'.st.y = ∑ i ∈ range (R.s + 1), ((if i = R.s then 1 else 0 : ℚ) : ℝ) • k i := by
      rw [sum_ite_unit (e := R.s) (by omega) _ (fun i _ => by split_ifs <;> simp) k]
      exact hks.symm
    rw [e1]
    refine bound _ _ fun i hi => ?_
    have := dWeight_cast (K := ℝ) R.P i 1
    rw [Rat.cast_one] at this
    rw [this]
    have := d3 i hi
    exact_mod_cast this

/-- The pieces of the dense output of two consecutive steps join with the same value and slope. -/
theorem C27_pieces_join (R : RKTable) (hR : R ∈ rationalRK) (hc : CfgOK c) {rhs : ℝ → E → E}
    {errNorm : E → E → E → ENorm ℝ} {Pt : PreTest ℝ E} (hm : c.m = rkMethod (R.tab ℝ) rhs errNorm Pt)
    {t0 : ℝ} {y0 : E} {h0 : ℝ} {e0 : ℕ} {Ks0 : ℕ → E} {v v' v'' : Solver ℝ E E}
    (hr : Reach c (newSolver c t0 y0 h0 e0 Ks0) v) {fuel fuel' : ℕ} (hne : c.tb ≠ some v.st.t)
    (h : step c fuel v = some (.ok, v')) (hne' : c.tb ≠ some v'.st.t)
    (h' : step c fuel' v' = some (.ok, v'')) :
    ∃ u u' d, rkDense R v' = some (u, v') ∧ rkDense R v'' = some (u', v'') ∧
      u v'.st.t = u' v'.st.t ∧ HasDerivAt u d v'.st.t ∧ HasDerivAt u' d v'.st.t := by
  obtain ⟨u, e1, j1⟩ := C27_dense_output_C1 R hR hc hm hr hne h
  obtain ⟨u', e2, j2⟩ := C27_dense_output_C1 R hR hc hm (.tail hr h) hne' h'
  exact ⟨u, u', _, e1, e2, by rw [j1.stop, j2.start], j1.slope1, j2.slope0⟩

end

/-! ## C28: what `dense_output()` changes -/

section
variable {K V : Type*} [Field K] [DecidableEq K] [AddCommGroup V] [Module K V]

/-- `w` is `v` up to the work array and the evaluation counter: a `dense` move of `RunD`. -/
def OnlyWork (v w : Solver K V V) : Prop :=
  ∃ Ks e, w = { v with st := { v.st with Ks := Ks, nfev := v.st.nfev + e } }

theorem denseOutput_work {impl : K → V → (K → V) × (ℕ → V) × ℕ} {v w : Solver K V V} {u : K → V}
    (h : denseOutput impl v = some (u, w)) : OnlyWork v w := by
  unfold denseOutput at h
  split at h
  · cases h
  · split at h
    · cases h
      exact ⟨v.st.Ks, 0, rfl⟩
    · split at h
      · cases h
      · cases h
        exact ⟨_, _, rfl⟩

/-- **C28**. `dense_output()` of a Runge-Kutta solver with interpolation table or cubic output, and of
`BS5` with any of its interpolants, writes only the work array `K` and the evaluation counter; so every
interleaving of `step()` and `dense_output()` is a `RunD` history, to which
`C28_dense_output_harmless` applies. -/
theorem C28_dense_output_effect {v w : Solver K V V} {u : K → V} :
    (∀ R, rkDense R v = some (u, w) → OnlyWork v w) ∧
    (rkDenseCubic v = some (u, w) → OnlyWork v w) ∧
    (∀ o rhs, bs5Dense o rhs v = some (u, w) → OnlyWork v w) := by
  refine ⟨fun R h => denseOutput_work h, fun h => ?_, fun o rhs h => ?_⟩
  · unfold rkDenseCubic at h
    split at h
    · cases h
    · exact denseOutput_work h
  · unfold bs5Dense at h
    split at h
    · cases h
    · exact denseOutput_work h

/-! ## C61 -/

end

section
variable {K V : Type*} [Field K] [LinearOrder K] [IsStrictOrderedRing K] [AddCommGroup V] [Module K V]

theorem step_fail_tOld {c : Cfg K V V} {v v' : Solver K V V} {fuel : ℕ} {m : Msg}
    (h : step c fuel v = some (.fail m, v')) : v'.tOld = v.tOld := by
  unfold step at h
  split at h
  · split at h
    · cases h
    · split at h
      · cases h
      · cases h
      · cases h; rfl
      · cases h
  · cases h

/-- **C61**. A failed `step()` keeps `t`, `y`, `f`, `t_old`, `y_old`, `f_old`: the cubic dense output,
which reads only these, still describes the last successful step. -/
theorem C61_cubic_after_failure {c : Cfg K V V} {v v' : Solver K V V} {fuel : ℕ}
    {m : Msg} (h : step c fuel v = some (.fail m, v')) :
    (rkDenseCubic v').map (·.1) = (rkDenseCubic v).map (·.1) := by
  have hT := step_fail_tOld h
  have key : v'.st.t = v.st.t ∧ v'.st.y = v.st.y ∧ v'.st.f = v.st.f ∧ v'.st.yOld = v.st.yOld ∧
      v'.st.fOld = v.st.fOld := by
    rcases step_impl_or h with ⟨h1, _⟩ | ⟨_, hi⟩
    · rw [h1]; exact ⟨rfl, rfl, rfl, rfl, rfl⟩
    · rcases stepImpl_effect hi with ⟨k, Ks, e, j, ho, hs⟩ |
        ⟨k, ch, x, f0, std, s1, hmin, hpre, herr, hx, haf, hs1, ho⟩
      · rw [hs]; exact ⟨rfl, rfl, rfl, rfl, rfl⟩
      · rcases ho with ⟨h, _⟩ | ⟨h, _⟩ <;> cases h
  obtain ⟨h1, h2, h3, h4, h5⟩ := key
  unfold rkDenseCubic denseOutput
  rw [hT, h1, h2, h3, h4, h5]
  split
  · rfl
  · split
    · rfl
    · split_ifs
      · simp
      · split <;> simp

/-- A right-hand side that jumps at `t = 1/2`. -/
def exJump : Cfg ℚ ℚ ℚ :=
  exCfg (fun t y => if t ≤ 1 / 2 then -y else 10 ^ 20) (scalarErr (1 / 1000) (1 / 1000)) (some 1) 1 none 0

def exJumpStart : Solver ℚ ℚ ℚ := newSolver exJump 0 1 (1 / 2) 1 (fun _ => 0)

/-- **C61**, witness. With `Me4` the first `step()` succeeds and its dense output ends in `y`; the second
`step()` fails (its attempts overwrite the stages), after which `dense_output()` still returns an object
over the last step, but it no longer ends in `y`. -/
theorem C61_interpolant_after_failure :
    ∃ v1 v2 u1 u2 w1 w2, step exJump 5 exJumpStart = some (.ok, v1) ∧
      rkDense Me4 v1 = some (u1, w1) ∧ u1 v1.st.t = v1.st.y ∧
      step exJump 50 v1 = some (.fail .tooSmall, v2) ∧ v2.st.t = v1.st.t ∧ v2.st.y = v1.st.y ∧
      rkDense Me4 v2 = some (u2, w2) ∧ u2 v2.st.t ≠ v2.st.y := by
  have h : (match step exJump 5 exJumpStart with
      | some (.ok, v1) =>
        (match rkDense Me4 v1, step exJump 50 v1 with
         | some (u1, _), some (.fail .tooSmall, v2) =>
           (match rkDense Me4 v2 with
            | some (u2, _) => decide (u1 v1.st.t = v1.st.y ∧ v2.st.t = v1.st.t ∧ v2.st.y = v1.st.y ∧
                u2 v2.st.t ≠ v2.st.y)
            | none => false)
         | _, _ => false)
      | _ => false) = true := by decide +kernel
  split at h
  · rename_i v1 e1
    split at h
    · rename_i u1 w1 v2 e2 e3
      split at h
      · rename_i u2 w2 e4
        obtain ⟨a, b, c, d⟩ := of_decide_eq_true h
        exact ⟨v1, v2, u1, u2, w1, w2, e1, e2, a, e3, b, c, e4, d⟩
      · cases h
    · cases h
  · cases h

/-! ## C16 at the dense output -/

theorem stages_linear_zero {U : Type*} [AddCommGroup U] [Module K U] {l : V →ₗ[K] U} {tOld t : K}
    {yOld : V} (P : List (List ℚ)) (n : ℕ) {k : ℕ → V} (hk : ∀ i, i < n → l (k i) = 0) (τ : K) :
    l (horner tOld t yOld (denseQ K P n k) τ) = l yOld := by
  rw [horner_denseQ, map_add, map_smul, map_sum, sum_eq_zero, smul_zero, add_zero]
  intro i hi
  rw [map_smul, hk i (mem_range.mp hi), smul_zero]

/-- **C16** at every point of the dense output: a linear invariant has its initial value at every `τ`, for
every tableau and interpolation table (exact or rounded) and for all interpolants of `BS5`. -/
theorem C16_dense_output {c : Cfg K V V} {T : Tableau K} {rhs : K → V → V}
    {errNorm : V → V → V → ENorm K} {P : PreTest K V} (hm : c.m = rkMethod T rhs errNorm P) {U : Type*} [AddCommGroup U]
    [Module K U] (l : V →ₗ[K] U) (hl : ∀ t y, l (rhs t y) = 0) (hC : T.C 0 = 0) (hs : 0 < T.s)
    {t0 : K} {y0 : V} {h0 : K} {e0 : ℕ} {Ks0 : ℕ → V} {v v' : Solver K V V}
    (hr : Reach c (newSolver c t0 y0 h0 e0 Ks0) v) {fuel : ℕ} (hne : c.tb ≠ some v.st.t)
    (h : step c fuel v = some (.ok, v')) :
    (∀ (R : RKTable) u w, R.s = T.s → rkDense R v' = some (u, w) → ∀ τ, l (u τ) = l y0) ∧
    (T.s = 7 → ∀ o u w, bs5Dense o rhs v' = some (u, w) → ∀ τ, l (u τ) = l y0) := by
  have hy := C16_linear_invariant_conserved hm l hl hr
  have hy' := C16_linear_invariant_conserved hm l hl (.tail hr h)
  obtain ⟨_, _, htO⟩ := step_ok_impl hne h
  obtain ⟨hh, k, x, hk, ht, _, _, hKs, hf, hyO, hfO, hhP⟩ :=
    C05_successful_step_is_rk_step hm hC hs hr hne h
  have hz : ∀ i, i < T.s + 1 → l (v'.st.Ks i) = 0 := by
    intro i hi
    rw [hKs i (by omega)]
    rcases Nat.lt_succ_iff_lt_or_eq.mp hi with hi | rfl
    · rw [hk.stage i hi]; exact hl _ _
    · rw [hk.last]; exact hl _ _
  constructor
  · intro R u w hR hd τ
    unfold rkDense denseOutput at hd
    rw [htO, hyO] at hd
    dsimp only at hd
    split at hd
    · cases hd; exact hy'
    · cases hd
      rw [stages_linear_zero R.P (R.s + 1) (by rw [hR]; exact hz), hy]
  · intro h7 o u w hd τ
    rw [h7] at hz
    unfold bs5Dense denseOutput at hd
    rw [htO, hyO, hhP] at hd
    dsimp only at hd
    split at hd
    · cases hd; exact hy'
    · cases hd
      have hze : ∀ (n : ℕ) (r : List (List ℚ × ℚ)) (hr : 8 + r.length = n) (i : ℕ), i < n →
          l (extraStages rhs v.st.t v.st.y hh 8 r v'.st.Ks i) = 0 := by
        intro n r hn i hi
        rcases lt_or_ge i 8 with h8 | h8
        · rw [extraStages_lt _ _ _ _ _ _ _ _ h8]; exact hz i h8
        · obtain ⟨m, rfl⟩ := Nat.exists_eq_add_of_le h8
          rw [extraStages_eq rhs v.st.t v.st.y hh r 8 v'.st.Ks m (by omega)]
          exact hl _ _
      cases o with
      | free => exact (stages_linear_zero BS5.P 8 hz τ).trans hy
      | low => exact (stages_linear_zero BS5_Plow 9 (hze 9 ((BS5_A_extra.zip BS5_C_extra).take 1) (by decide)) τ).trans hy
      | best =>
        simp only [bs5DenseImpl]
        rw [bs5BestQ_eq]
        exact (stages_linear_zero BS5_Pbest 11 (hze 11 (BS5_A_extra.zip BS5_C_extra) (by decide)) τ).trans hy'

end

/-! ## The hypotheses are met -/

/-- A real configuration for `y' = -y` on `[0, 1]` whose error test always reports 1/2. -/
noncomputable def exCfgR (R : RKTable) : Cfg ℝ ℝ ℝ where
  m := rkMethod (R.tab ℝ) (fun _ y => -y) (fun _ _ _ => .num (1 / 2))
  tb := some 1
  dir := 1
  maxStep := none
  hMinA := 1 / 10 ^ 14
  hMinB := 1 / 10 ^ 100
  tinyErr := 1 / 10 ^ 100
  minFactor := 1 / 5
  errExp := -1 / 4
  minbeta1 := -1 / 4
  minbeta2 := 0
  minalpha := 0
  safety := 9 / 10
  safetySc := 9 / 10
  pw := fun x e => x ^ e
  nfevStiff := 0

theorem exCfgR_ok (R : RKTable) : CfgOK (exCfgR R) where
  dir := Or.inl rfl
  hMinA := by norm_num [exCfgR]
  hMinB := by norm_num [exCfgR]
  tiny := by norm_num [exCfgR]
  minF0 := by norm_num [exCfgR]
  minF1 := by norm_num [exCfgR]
  errExp := by norm_num [exCfgR]
  safety0 := by norm_num [exCfgR]
  safety1 := by norm_num [exCfgR]
  safetySc := by norm_num [exCfgR]
  pw := PowOK.rpow
  maxStep := fun m h => by simp [exCfgR] at h

theorem loop_accepts {K V W : Type*} [Field K] [LinearOrder K] {c : Cfg K V W} {n : ℕ} {s : St K V W}
    {h ms x : K} {rej : Bool} (h1 : ¬ h < ms) (h2 : (c.m.trial s.t s.y s.f (h * c.dir) s.Ks).pre.gt 1 = false)
    (h3 : (c.m.trial s.t s.y s.f (h * c.dir) s.Ks).err = .num x) (h4 : x < 1) (h5 : s.stdSc = true)
    (h6 : c.nfevStiff = 0) : ∃ s', loop c (n + 1) s h ms rej = some (.ok, s') := by
  unfold loop
  simp only [h1, if_false, h2, Bool.false_eq_true, h3, h4, if_true, diagnose, h6]
  unfold acceptFactor
  split_ifs <;> exact ⟨_, rfl⟩

/-- A first successful step exists, so the hypotheses of the theorems of this file are met. -/
theorem exCfgR_step (R : RKTable) : ∃ v', step (exCfgR R) 1
    (newSolver (exCfgR R) 0 1 (1 / 2) 1 (fun _ => 0)) = some (.ok, v') := by
  have hms : minStepOf (exCfgR R) 0 (1 / 2) < 1 / 2 := by
    simp only [minStepOf, exCfgR]
    norm_num
  have hre : reassess (exCfgR R) (newSolver (exCfgR R) 0 1 (1 / 2) 1 (fun _ => 0)).st =
      (1 / 2, minStepOf (exCfgR R) 0 (1 / 2), true) := by
    have e1 : (newSolver (exCfgR R) 0 1 (1 / 2) 1 (fun _ => 0)).st.hAbs = 1 / 2 := rfl
    have e2 : (newSolver (exCfgR R) 0 1 (1 / 2) 1 (fun _ => 0)).st.t = 0 := rfl
    have e3 : (newSolver (exCfgR R) 0 1 (1 / 2) 1 (fun _ => 0)).st.stdSc = true := rfl
    have e4 : (exCfgR R).tb = some 1 := rfl
    have e5 : (exCfgR R).maxStep = none := rfl
    unfold reassess
    simp only [e1, e2, e3, e4, e5, overMax, not_lt.mpr hms.le, decide_false, Bool.or_false,
      Bool.false_eq_true, if_false]
    norm_num
  obtain ⟨s', hs'⟩ := loop_accepts (c := exCfgR R) (n := 0)
    (s := { (newSolver (exCfgR R) 0 1 (1 / 2) 1 (fun _ => 0)).st with stdSc := true }) (h := 1 / 2)
    (ms := minStepOf (exCfgR R) 0 (1 / 2)) (x := 1 / 2) (rej := false) (not_lt.mpr hms.le)
    (by simp [exCfgR, rkMethod, rkTrial, PreTest.none, ENorm.gt]) rfl (by norm_num) rfl rfl
  refine ⟨{ status := if reached (exCfgR R) s'.t then .finished else .running,
            tOld := some 0, st := s' }, ?_⟩
  have h0 : (exCfgR R).tb ≠ some (0 : ℝ) := by simp [exCfgR]
  unfold step
  change (if (exCfgR R).tb = some 0 then _ else _) = _
  rw [if_neg h0]
  unfold stepImpl
  rw [hre]
  dsimp only
  rw [hs']
  rfl

example : ∃ (v' : Solver ℝ ℝ ℝ) (u : ℝ → ℝ), Joins u 0 1 (-1) v'.st.t v'.st.y (-v'.st.y) ∧ rkDense Pr7 v' = some (u, v') := by
  obtain ⟨v', h⟩ := exCfgR_step Pr7
  obtain ⟨u, h1, h2⟩ := C27_dense_output_C1 Pr7 (by simp [rationalRK]) (exCfgR_ok Pr7) rfl .refl
    (by simp [exCfgR, newSolver]) h
  exact ⟨v', u, h2, h1⟩

end Extensisq
