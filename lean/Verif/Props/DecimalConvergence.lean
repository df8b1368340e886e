import Verif.Lemmas.NearConv
import Verif.Props.DecimalOrder

/-!
# C99: convergence of the methods with rounded decimal coefficients (Ts5, Pr8, Pr9)

The coefficients satisfy the order conditions up to their rounding only, so the error does not tend to zero with the step
size. It is at most `C H^order` plus a floor, which is given explicitly in terms of the size of the rounding, of the
problem (length of the interval, Lipschitz constant, elementary differentials along the solution) and of the weights.
-/

set_option linter.unusedSectionVars false
set_option maxRecDepth 100000

namespace Extensisq
open Finset Asymptotics Filter Topology

variable {E : Type*} [NormedAddCommGroup E] [NormedSpace ℝ E]

/-! ## Any explicit method -/

/-- A growth factor: errors committed at rate `D` over an interval of length `ℓ` grow to `D ℓ exp(Λ ℓ)`. -/
noncomputable def spread (Λ ℓ : ℝ) : ℝ := ℓ * Real.exp (Λ * ℓ)

theorem spread_nonneg (Λ : ℝ) {ℓ : ℝ} (h : 0 ≤ ℓ) : 0 ≤ spread Λ ℓ := mul_nonneg h (Real.exp_pos _).le

/-- The sum of the moduli of the weights. -/
noncomputable def weightSum (T : Tableau ℝ) : ℝ := ∑ i ∈ range T.s, |T.B i|

theorem weightSum_nonneg (T : Tableau ℝ) : 0 ≤ weightSum T := sum_nonneg fun _ _ => abs_nonneg _

/-- The floor of the error of a tableau with defects `δ` (order conditions) and `γ` (row sums), for a problem with Lipschitz
constant `L`, differentials bounded by `M`, on an interval of length `ℓ`. -/
noncomputable def errorFloor (T : Tableau ℝ) (q : ℕ) (L M δ γ ℓ : ℝ) : ℝ :=
  (nearConst q * M * δ + 2 * L * weightSum T * γ) * spread (2 * L * weightSum T) ℓ

theorem errorFloor_nonneg (T : Tableau ℝ) (q : ℕ) {L M δ γ ℓ : ℝ} (hL : 0 ≤ L) (hM : 0 ≤ M) (hδ : 0 ≤ δ) (hγ : 0 ≤ γ)
    (hℓ : 0 ≤ ℓ) : 0 ≤ errorFloor T q L M δ γ ℓ := by
  have := nearConst_nonneg q
  have := weightSum_nonneg T
  have := spread_nonneg (2 * L * weightSum T) hℓ
  unfold errorFloor
  positivity

theorem lowA_comp (T : Tableau ℝ) : ∀ i, i < T.s + 1 → ∀ j, j < T.s + 1 → T.full i j = lowA (compA T) i j := by
  intro i hi j _
  unfold Tableau.full lowA compA
  by_cases h : j < i
  · rw [if_pos h, if_pos h]
    by_cases h2 : i < T.s
    · rw [if_pos h2, if_pos h2]
    · rw [if_neg h2, if_neg h2, if_pos (by omega)]
  · rw [if_neg h, if_neg h]

/-- Defects of a tableau: the order conditions up to `q` hold up to `δ`, and the nodes are the row sums up to `γ`. -/
structure NearTableau (T : Tableau ℝ) (q : ℕ) (δ γ : ℝ) : Prop where
  order : ∀ τ : OTree, τ.size ≤ q →
    |∑ i ∈ range (T.s + 1), T.main i * τ.weight (T.s + 1) T.full i - 1 / (τ.dens : ℝ)| ≤ δ
  nodes : ∀ i, i < T.s → |T.C i - ∑ j ∈ range i, T.A i j| ≤ γ
  last : |1 - ∑ j ∈ range T.s, T.B j| ≤ γ

theorem NearTableau.row {T : Tableau ℝ} {q : ℕ} {δ γ : ℝ} (h : NearTableau T q δ γ) :
    ∀ i, i < T.s + 1 → |compC T i - rowC (compA T) i| ≤ γ := by
  intro i hi
  unfold compC rowC compA
  by_cases h2 : i < T.s
  · simp only [h2, if_true]
    exact h.nodes i h2
  · have : i = T.s := by omega
    subst this
    simp only [lt_irrefl, if_false]
    exact h.last

/-- One step of a near-order method. -/
theorem near_rk_step [CompleteSpace E] {f : ℝ → E → E} {y : ℝ → E} {t0 b : ℝ} {q : ℕ} {ρ L B M : ℝ}
    (hp : ProblemBounds f y t0 b q ρ L B M) (hy : SolvesOn f y t0 b) {T : Tableau ℝ} {δ γ : ℝ} (hδ : 0 ≤ δ) (hγ : 0 ≤ γ)
    (hT : NearTableau T q δ γ) :
    ∃ ε C : ℝ, 0 < ε ∧ 0 ≤ C ∧ ∀ t ∈ Set.uIcc t0 b, ∀ (u u' : E) (h : ℝ) (k : ℕ → E), IsRKStep T f t u h k u' →
      ‖u - y t‖ < ρ / 2 → |h| < ε →
      ‖u' - y (t + h)‖ ≤ (1 + 2 * L * weightSum T * |h|) * ‖u - y t‖ +
        (nearConst q * M * δ + 2 * L * weightSum T * γ) * |h| + C * |h| ^ (q + 1) := by
  obtain ⟨ε, C, h1, h2, h3⟩ := near_step hp hy (n := T.s + 1) (A := compA T) (c := compC T) (w := fun i _ => T.main i)
    (Θ := {1}) (β := weightSum T) isCompact_singleton hδ hγ (fun i => contDiff_const)
    (by
      rintro θ rfl τ hτ
      rw [one_pow]
      refine le_of_eq_of_le ?_ (hT.order τ hτ)
      congr 2
      apply sum_congr rfl
      intro i hi
      rw [OTree.weight_congr _ (lowA_comp T) τ i (mem_range.mp hi)])
    (by
      intro θ _
      unfold weightSum
      rw [sum_range_succ]
      unfold Tableau.main
      rw [if_neg (lt_irrefl _), abs_zero, add_zero]
      refine le_of_eq (sum_congr rfl fun i hi => ?_)
      rw [if_pos (mem_range.mp hi)])
    hT.row
  refine ⟨ε, C, h1, h2, fun t ht u u' h k hk hu hh => ?_⟩
  have h4 := h3 t ht 1 rfl u h hu hh
  rw [one_mul] at h4
  have e : u' = u + h • stageComb (T.s + 1) (compA T) (compC T) (fun i _ => T.main i) f 1 (t, u, h) := by
    rw [hk.sol]
    congr 2
    unfold stageComb
    rw [sum_range_succ]
    unfold Tableau.main
    dsimp only
    rw [if_neg (lt_irrefl _), zero_smul, add_zero]
    apply sum_congr rfl
    intro i hi
    rw [if_pos (mem_range.mp hi), hk.stages_eq i (mem_range.mp hi).le]
  rw [e]
  exact h4

/-- **C99** for any explicit Runge-Kutta tableau. If the floor of the error is less than half the radius of the tube around the
solution for which the constants of the problem hold, the error of every run with steps of at most `H ≤ h*` is at most
`C H^q` plus the floor. -/
theorem C99_any_tableau [CompleteSpace E] {f : ℝ → E → E} {y : ℝ → E} {t0 b : ℝ} {q : ℕ} {ρ L B M : ℝ} (hq : 1 ≤ q)
    (hp : ProblemBounds f y t0 b q ρ L B M) (hy : SolvesOn f y t0 b) {T : Tableau ℝ} {δ γ : ℝ} (hδ : 0 ≤ δ) (hγ : 0 ≤ γ)
    (hT : NearTableau T q δ γ) (hC0 : T.C 0 = 0) (hs0 : 0 < T.s)
    (hsmall : errorFloor T q L M δ γ |b - t0| < ρ / 2) :
    ∃ C hstar : ℝ, 0 ≤ C ∧ 0 < hstar ∧
      ∀ (c : Cfg ℝ E E) (errNorm : E → E → E → ENorm ℝ) (P : PreTest ℝ E) (h0 H : ℝ) (e0 : ℕ) (Ks0 : ℕ → E)
        (v : Solver ℝ E E), CfgOK c → c.m = rkMethod T f errNorm P → 0 ≤ c.dir * (b - t0) →
        0 ≤ H → H ≤ hstar → ReachWithin c (newSolver c t0 (y t0) h0 e0 Ks0) t0 b H v →
        ‖v.st.y - y v.st.t‖ ≤ C * H ^ q + errorFloor T q L M δ γ |b - t0| := by
  obtain ⟨ε, C, h1, h2, h3⟩ := near_rk_step hp hy hδ hγ hT
  set ℓ := |b - t0| with hℓ
  have hℓ0 : 0 ≤ ℓ := abs_nonneg _
  set Λ := 2 * L * weightSum T with hΛ
  have hΛ0 : 0 ≤ Λ := mul_nonneg (mul_nonneg zero_le_two hp.lip) (weightSum_nonneg T)
  have hS0 : 0 ≤ spread Λ ℓ := spread_nonneg _ hℓ0
  set F := errorFloor T q L M δ γ ℓ with hF
  set D0 := nearConst q * M * δ + 2 * L * weightSum T * γ with hD0
  have hD00 : 0 ≤ D0 := by
    have := nearConst_nonneg q
    have := weightSum_nonneg T
    have := hp.lip
    have := hp.diff
    positivity
  have hFD : F = D0 * spread Λ ℓ := rfl
  set η := ρ / 2 - F with hη
  have hη0 : 0 < η := by rw [hη]; linarith
  refine ⟨C * spread Λ ℓ, min 1 (min (ε / 2) (min (ρ / 4) (η / (2 * (C * spread Λ ℓ + 1))))), by positivity,
    lt_min one_pos (lt_min (by linarith) (lt_min (by linarith [hp.rho]) (by positivity))), ?_⟩
  intro c errNorm P h0 H e0 Ks0 v hc hm hdir hH0 hH hr
  simp only [le_min_iff] at hH
  obtain ⟨hH1, hH2, hH3, hH4⟩ := hH
  rw [le_div_iff₀ (by positivity)] at hH4
  have hpow : H ^ q ≤ H := by
    calc H ^ q ≤ H ^ 1 := pow_le_pow_of_le_one hH0 hH1 hq
      _ = H := pow_one H
  have hHq : 0 ≤ H ^ q := by positivity
  have hCS : 0 ≤ C * spread Λ ℓ := by positivity
  have hCH : C * spread Λ ℓ * H ^ q < η := by
    have : C * spread Λ ℓ * H ^ q ≤ C * spread Λ ℓ * H := mul_le_mul_of_nonneg_left hpow hCS
    nlinarith
  have hDe : (C * H ^ q + D0) * spread Λ ℓ = C * spread Λ ℓ * H ^ q + F := by rw [hFD]; ring
  have hmain := driver_global_error (y := y) (t0 := t0) (b := b) (ε := ρ / 2) (Λ := Λ) (D := C * H ^ q + D0) (H := H)
    (Step := fun t u h u' => ∃ k, IsRKStep T f t u h k u') hΛ0 (by positivity) (by linarith [hp.rho])
    (by
      change (C * H ^ q + D0) * spread Λ ℓ < ρ / 2
      rw [hDe]; linarith)
    (by
      rintro t ht u u' h ⟨k, hk⟩ hu _ hhH
      refine (h3 t ht u u' h k hk hu (by linarith)).trans ?_
      have : C * |h| ^ (q + 1) ≤ C * H ^ q * |h| := by
        rw [pow_succ, ← mul_assoc]
        exact mul_le_mul_of_nonneg_right (mul_le_mul_of_nonneg_left (pow_le_pow_left₀ (abs_nonneg _) hhH _) h2) (abs_nonneg _)
      linarith)
    hc hdir (v0 := newSolver c t0 (y t0) h0 e0 Ks0) rfl rfl
    (by
      intro w w' fuel o hr' hs
      rcases rk_step_or hm hC0 hs0 hr' hs with e | ⟨h, k, hk, et⟩
      · exact Or.inl e
      · exact Or.inr ⟨h, et, k, hk⟩)
    hr
  refine hmain.trans (le_of_eq ?_)
  exact hDe

/-! ## Ts5, Pr8 and Pr9 -/

/-- The size of the rounding of the coefficients: `2e-15` (Ts5), `4e-29` (Pr8), `1e-29` (Pr9). -/
noncomputable def DecEntry.defect (e : DecEntry) : ℝ := (e.en : ℝ) / e.ed

theorem DecEntry.defect_nonneg (e : DecEntry) : 0 ≤ e.defect := by unfold DecEntry.defect; positivity

/-- Defects of the rows in exact rational arithmetic. -/
def nodesQ (e : DecEntry) : Prop :=
  (∀ i, i < e.R.s → |(e.R.tab ℚ).C i - ∑ j ∈ range i, (e.R.tab ℚ).A i j| ≤ 10 * ((e.en : ℚ) / e.ed)) ∧
  |1 - ∑ j ∈ range e.R.s, (e.R.tab ℚ).B j| ≤ 10 * ((e.en : ℚ) / e.ed)

instance (e : DecEntry) : Decidable (nodesQ e) := by unfold nodesQ; infer_instance

set_option maxHeartbeats 0 in
theorem decimal_nodes : ∀ e ∈ decimalOrders, nodesQ e := by decide +kernel

/-- **C99.** The rows of the matrices of Ts5, Pr8 and Pr9 sum to the stage times, and the weights to one, up to ten times
the size of the rounding (exactly for the rows of Ts5, see C86). -/
theorem C99_row_sums {e : DecEntry} (he : e ∈ decimalOrders) :
    (∀ i, i < e.R.s → |(e.R.tab ℝ).C i - ∑ j ∈ range i, (e.R.tab ℝ).A i j| ≤ 10 * e.defect) ∧
    |1 - ∑ j ∈ range e.R.s, (e.R.tab ℝ).B j| ≤ 10 * e.defect := by
  obtain ⟨h1, h2⟩ := decimal_nodes e he
  unfold DecEntry.defect
  constructor
  · intro i hi
    have := (Rat.cast_le (K := ℝ)).mpr (h1 i hi)
    push_cast [RKTable.tab] at this
    simpa [RKTable.tab] using this
  · have := (Rat.cast_le (K := ℝ)).mpr h2
    push_cast [RKTable.tab] at this
    simpa [RKTable.tab] using this

def weightsQ (R : RKTable) (n : ℕ) : Prop := ∑ i ∈ range R.s, |(R.tab ℚ).B i| ≤ n

instance (R : RKTable) (n : ℕ) : Decidable (weightsQ R n) := by unfold weightsQ; infer_instance

/-- **C99.** The weights of Ts5, Pr8 and Pr9 are moderate: the sums of their moduli are at most 8, 2 and 1. -/
theorem C99_weights : weightSum (Ts5.tab ℝ) ≤ 8 ∧ weightSum (Pr8.tab ℝ) ≤ 2 ∧ weightSum (Pr9.tab ℝ) ≤ 1 := by
  have key : weightsQ Ts5 8 ∧ weightsQ Pr8 2 ∧ weightsQ Pr9 1 := by decide +kernel
  have cast : ∀ {R : RKTable} {n : ℕ}, weightsQ R n → weightSum (R.tab ℝ) ≤ n := by
    intro R n h
    have := (Rat.cast_le (K := ℝ)).mpr h
    unfold weightSum
    push_cast [RKTable.tab] at this
    simpa [RKTable.tab] using this
  have h1 := cast key.1
  have h2 := cast key.2.1
  have h3 := cast key.2.2
  push_cast at h1 h2 h3
  exact ⟨h1, h2, h3⟩

theorem decimal_near {e : DecEntry} (he : e ∈ decimalOrders) :
    NearTableau (e.R.tab ℝ) e.R.order e.defect (10 * e.defect) :=
  ⟨fun τ hτ => C86_main_order he τ hτ, (C99_row_sums he).1, (C99_row_sums he).2⟩

theorem decimal_start {e : DecEntry} (he : e ∈ decimalOrders) :
    (e.R.tab ℝ).C 0 = 0 ∧ 0 < (e.R.tab ℝ).s ∧ 1 ≤ e.R.order ∧ e.q + 1 ≤ e.R.order := by
  obtain ⟨⟨-, -, -, ⟨-, -, -, -, h3, h4⟩, -⟩, -⟩ := decimalOrders_shape e he
  have h3' : (e.R.tab ℝ).C 0 = 0 := by simp only [RKTable.tab, h3, Rat.cast_zero]
  refine ⟨h3', h4, ?_⟩
  simp only [decimalOrders, List.mem_cons, List.not_mem_nil, or_false] at he
  rcases he with rfl | rfl | rfl <;> decide

/-- The floor of the error of a method for a problem on an interval of length `ℓ`. -/
noncomputable def DecEntry.floor (e : DecEntry) (L M ℓ : ℝ) : ℝ :=
  errorFloor (e.R.tab ℝ) e.R.order L M e.defect (10 * e.defect) ℓ

/-- **C99.** Convergence of Ts5, Pr8 and Pr9 down to the floor caused by the rounding of their coefficients. -/
theorem C99_global_error [CompleteSpace E] {e : DecEntry} (he : e ∈ decimalOrders) {f : ℝ → E → E} {y : ℝ → E} {t0 b : ℝ}
    (hy : SolvesOn f y t0 b) {ρ L B M : ℝ} (hp : ProblemBounds f y t0 b e.R.order ρ L B M)
    (hsmall : e.floor L M |b - t0| < ρ / 2) :
    ∃ C hstar : ℝ, 0 ≤ C ∧ 0 < hstar ∧
      ∀ (c : Cfg ℝ E E) (errNorm : E → E → E → ENorm ℝ) (P : PreTest ℝ E) (h0 H : ℝ) (e0 : ℕ) (Ks0 : ℕ → E)
        (v : Solver ℝ E E), CfgOK c → c.m = rkMethod (e.R.tab ℝ) f errNorm P → 0 ≤ c.dir * (b - t0) →
        0 ≤ H → H ≤ hstar → ReachWithin c (newSolver c t0 (y t0) h0 e0 Ks0) t0 b H v →
        ‖v.st.y - y v.st.t‖ ≤ C * H ^ e.R.order + e.floor L M |b - t0| := by
  obtain ⟨h1, h2, h3, -⟩ := decimal_start he
  have hd := e.defect_nonneg
  exact C99_any_tableau h3 hp hy hd (by linarith) (decimal_near he) h1 h2 hsmall

/-- **C99.** The floor written out, with the size `δ` of the rounding (`2e-15`, `4e-29`, `1e-29`), the sum `β` of the moduli of
the weights (at most 8, 2, 1), the constants of the problem and the length `ℓ` of the interval. -/
theorem C99_floor (e : DecEntry) (L M ℓ : ℝ) :
    e.floor L M ℓ = e.defect * ((∑ m ∈ range e.R.order, ((m + 1).factorial : ℝ)) * M + 20 * L * weightSum (e.R.tab ℝ)) *
      (ℓ * Real.exp (2 * L * weightSum (e.R.tab ℝ) * ℓ)) := by
  unfold DecEntry.floor errorFloor nearConst spread
  ring

/-- **C99** with `max_step`. -/
theorem C99_max_step_error [CompleteSpace E] {e : DecEntry} (he : e ∈ decimalOrders) {f : ℝ → E → E} {y : ℝ → E}
    {t0 b : ℝ} (hy : SolvesOn f y t0 b) {ρ L B M : ℝ} (hp : ProblemBounds f y t0 b e.R.order ρ L B M)
    (hsmall : e.floor L M |b - t0| < ρ / 2) :
    ∃ C hstar : ℝ, 0 ≤ C ∧ 0 < hstar ∧
      ∀ (c : Cfg ℝ E E) (errNorm : E → E → E → ENorm ℝ) (P : PreTest ℝ E) (h0 H : ℝ) (e0 : ℕ) (Ks0 : ℕ → E)
        (v : Solver ℝ E E), CfgOK c → c.m = rkMethod (e.R.tab ℝ) f errNorm P → c.tb = some b →
        0 ≤ c.dir * (b - t0) → c.maxStep = some H → H ≤ hstar →
        (∀ w, Reach c (newSolver c t0 (y t0) h0 e0 Ks0) w → MaxStepUsable c w.st) →
        Reach c (newSolver c t0 (y t0) h0 e0 Ks0) v →
        ‖v.st.y - y v.st.t‖ ≤ C * H ^ e.R.order + e.floor L M |b - t0| := by
  obtain ⟨C, hstar, h1, h2, h3⟩ := C99_global_error he hy hp hsmall
  refine ⟨C, hstar, h1, h2, ?_⟩
  intro c errNorm P h0 H e0 Ks0 v hc hm hb hdir hmax hH hu hr
  refine h3 c errNorm P h0 H e0 Ks0 v hc hm hdir (hc.maxStep H hmax).le hH ?_
  induction hr with
  | refl => exact .refl
  | @tail w w' o fuel hr hs ih =>
    refine .tail ih hs (C03_max_step hc hmax (hu w hr) hs) ?_
    obtain ⟨a1, a2⟩ := C01_never_past_t_bound hc hb (v0 := newSolver c t0 (y t0) h0 e0 Ks0) hdir hu (hr.tail hs)
    have a1 : 0 ≤ c.dir * (w'.st.t - t0) := a1
    rcases hc.dir with hd | hd <;> rw [hd] at a1 a2
    · exact Set.mem_uIcc.mpr (Or.inl ⟨by linarith, by linarith⟩)
    · exact Set.mem_uIcc.mpr (Or.inr ⟨by linarith, by linarith⟩)

/-! ## Dense output -/

/-- The sum of the moduli of the interpolation table. -/
noncomputable def tableSum (R : RKTable) : ℝ := ∑ i ∈ range (R.s + 1), ∑ j ∈ range (cols R.P), |entry ℝ R.P i j|

theorem tableSum_nonneg (R : RKTable) : 0 ≤ tableSum R := sum_nonneg fun _ _ => sum_nonneg fun _ _ => abs_nonneg _

/-- Defect of the interpolant. -/
noncomputable def DecEntry.denseDefect (e : DecEntry) : ℝ := (cols e.R.P : ℝ) * ((e.dn : ℝ) / e.dd)

theorem ProblemBounds.mono {f : ℝ → E → E} {y : ℝ → E} {t0 b : ℝ} {q q' : ℕ} {ρ L B M : ℝ}
    (h : ProblemBounds f y t0 b q ρ L B M) (hq : q' ≤ q) : ProblemBounds f y t0 b q' ρ L B M := by
  refine { h with series := fun t ht => ?_ }
  obtain ⟨p, h1, h2⟩ := h.series t ht
  refine ⟨p, h1, le_trans ?_ h2⟩
  unfold diffSum
  refine sum_le_sum_of_subset_of_nonneg (fun τ hτ => ?_) fun _ _ _ => norm_nonneg _
  rw [mem_trees] at hτ ⊢
  omega

/-- **C99** for the dense output: on every successful step of such a history the interpolant differs from the exact solution by
at most `C H^(q+1)` (`q` the order of the interpolant), plus twice the floor of the error of the solution, plus
a term proportional to `H` and to the defects of the interpolant and the nodes. -/
theorem C99_dense_error [CompleteSpace E] {e : DecEntry} (he : e ∈ decimalOrders) {f : ℝ → E → E} {y : ℝ → E} {t0 b : ℝ}
    (hy : SolvesOn f y t0 b) {ρ L B M : ℝ} (hp : ProblemBounds f y t0 b e.R.order ρ L B M)
    (hsmall : e.floor L M |b - t0| < ρ / 2) :
    ∃ C hstar : ℝ, 0 ≤ C ∧ 0 < hstar ∧
      ∀ (c : Cfg ℝ E E) (errNorm : E → E → E → ENorm ℝ) (P : PreTest ℝ E) (h0 H : ℝ) (e0 : ℕ) (Ks0 : ℕ → E)
        (v v' : Solver ℝ E E) (fuel : ℕ), CfgOK c → c.m = rkMethod (e.R.tab ℝ) f errNorm P → 0 ≤ c.dir * (b - t0) →
        0 ≤ H → H ≤ hstar → ReachWithin c (newSolver c t0 (y t0) h0 e0 Ks0) t0 b H v → v.st.t ∈ Set.uIcc t0 b →
        c.tb ≠ some v.st.t → step c fuel v = some (.ok, v') → |v'.st.t - v.st.t| ≤ H →
        ∃ u, rkDense e.R v' = some (u, v') ∧ ∀ τ ∈ Set.uIcc v.st.t v'.st.t,
          ‖u τ - y τ‖ ≤ C * H ^ (e.q + 1) + 2 * e.floor L M |b - t0| +
            (nearConst e.q * M * e.denseDefect + 20 * L * tableSum e.R * e.defect) * H := by
  obtain ⟨r1, r2, r3, r4⟩ := decimal_start he
  have hd := e.defect_nonneg
  obtain ⟨C, hstar, h1, h2, h3⟩ := C99_global_error he hy hp hsmall
  have hdd : 0 ≤ e.denseDefect := by unfold DecEntry.denseDefect; positivity
  have hts := tableSum_nonneg e.R
  have hL := hp.lip
  have hM := hp.diff
  have hnc := nearConst_nonneg e.q
  obtain ⟨ε, C', g1, g2, g3⟩ := near_step (hp.mono (q' := e.q) (by omega)) hy (n := e.R.s + 1) (A := compA (e.R.tab ℝ))
    (c := compC (e.R.tab ℝ)) (w := fun i θ => pWeight ℝ e.R.P i θ) (Θ := Set.Icc (0 : ℝ) 1) (β := tableSum e.R)
    (γ := 10 * e.defect) (δ := e.denseDefect) isCompact_Icc hdd (by linarith)
    (fun i => by
      unfold pWeight
      apply ContDiff.sum
      intro j _
      exact contDiff_const.mul (contDiff_id.pow _))
    (by
      intro θ hθ τ hτ
      refine le_of_eq_of_le ?_ (C86_interpolant_order he τ hτ (x := θ) (by rw [abs_of_nonneg hθ.1]; exact hθ.2))
      congr 2
      apply sum_congr rfl
      intro i hi
      have := OTree.weight_congr _ (lowA_comp (e.R.tab ℝ)) τ i (mem_range.mp hi)
      exact congrArg (pWeight ℝ e.R.P i θ * ·) this.symm)
    (by
      intro θ hθ
      unfold tableSum pWeight
      apply sum_le_sum
      intro i _
      refine (abs_sum_le_sum_abs _ _).trans (sum_le_sum fun j _ => ?_)
      rw [abs_mul, abs_pow, abs_of_nonneg hθ.1]
      exact mul_le_of_le_one_right (abs_nonneg _) (pow_le_one₀ hθ.1 hθ.2))
    (decimal_near he).row
  set F := e.floor L M |b - t0| with hF
  have hF0 : 0 ≤ F := errorFloor_nonneg _ _ hL hM hd (by linarith) (abs_nonneg _)
  have hη : 0 < ρ / 2 - F := by linarith
  refine ⟨2 * C + C', min hstar (min 1 (min (ε / 2) (min (1 / (2 * L * tableSum e.R + 1)) ((ρ / 2 - F) / (2 * (C + 1)))))),
    by positivity, lt_min h2 (lt_min one_pos (lt_min (by linarith) (lt_min (by positivity) (by positivity)))), ?_⟩
  intro c errNorm P h0 H e0 Ks0 v v' fuel hc hm hdir hH0 hH hr hmemv hne hs hle
  simp only [le_min_iff] at hH
  obtain ⟨hHs, hH1, hH2, hH3, hH4⟩ := hH
  rw [le_div_iff₀ (by positivity)] at hH3 hH4
  have hev := h3 c errNorm P h0 H e0 Ks0 v hc hm hdir hH0 hHs hr
  have hpow : H ^ e.R.order ≤ H ^ (e.q + 1) := pow_le_pow_of_le_one hH0 hH1 r4
  have hpow1 : H ^ e.R.order ≤ H := by
    calc H ^ e.R.order ≤ H ^ 1 := pow_le_pow_of_le_one hH0 hH1 r3
      _ = H := pow_one H
  have heε : ‖v.st.y - y v.st.t‖ < ρ / 2 := by
    have : C * H ^ e.R.order ≤ C * H := mul_le_mul_of_nonneg_left hpow1 h1
    nlinarith
  obtain ⟨k, ht, htO, hyO, _, _, hk, hKs, _, _, _⟩ := step_dense_data hc hm r1 r2 hr.reach hne hs
  refine ⟨horner v.st.t v'.st.t v.st.y (denseQ ℝ e.R.P (e.R.s + 1) v'.st.Ks), rkDense_eq htO ht hyO, ?_⟩
  intro τ hτ
  have hne' : v'.st.t - v.st.t ≠ 0 := sub_ne_zero.mpr ht
  obtain ⟨θ, hθ, eτ⟩ : ∃ θ ∈ Set.Icc (0 : ℝ) 1, τ = v.st.t + θ * (v'.st.t - v.st.t) := by
    refine ⟨(τ - v.st.t) / (v'.st.t - v.st.t), ?_, by field_simp; ring⟩
    rcases lt_or_gt_of_ne hne' with hneg | hpos
    · rw [Set.uIcc_of_ge (by linarith)] at hτ
      exact ⟨div_nonneg_of_nonpos (by linarith [hτ.2]) hneg.le,
        (div_le_one_of_neg hneg).mpr (by linarith [hτ.1])⟩
    · rw [Set.uIcc_of_le (by linarith)] at hτ
      exact ⟨div_nonneg (by linarith [hτ.1]) hpos.le, (div_le_one hpos).mpr (by linarith [hτ.2])⟩
  have hb := g3 v.st.t hmemv θ hθ v.st.y (v'.st.t - v.st.t) heε (by linarith)
  have e1 : horner v.st.t v'.st.t v.st.y (denseQ ℝ e.R.P (e.R.s + 1) v'.st.Ks) τ =
      v.st.y + (v'.st.t - v.st.t) • stageComb (e.R.s + 1) (compA (e.R.tab ℝ)) (compC (e.R.tab ℝ))
        (fun i θ => pWeight ℝ e.R.P i θ) f θ (v.st.t, v.st.y, v'.st.t - v.st.t) := by
    rw [denseQ_congr (k' := k) (fun i hi => hKs i (by change i ≤ e.R.s; omega)), eτ]
    have := horner_scaled v.st.t (v'.st.t - v.st.t) θ v.st.y e.R.P (e.R.s + 1) k
    rw [show v.st.t + (v'.st.t - v.st.t) = v'.st.t by ring] at this
    rw [this]
    congr 2
    unfold stageComb
    apply sum_congr rfl
    intro i hi
    rw [hk.stages_eq i (by rw [mem_range] at hi; exact Nat.lt_succ_iff.mp hi)]
  rw [e1]
  rw [← eτ] at hb
  refine hb.trans ?_
  set h := v'.st.t - v.st.t with hh
  have q1 : 2 * L * tableSum e.R * |h| ≤ 1 := by
    have : 2 * L * tableSum e.R * |h| ≤ 2 * L * tableSum e.R * H := mul_le_mul_of_nonneg_left hle (by positivity)
    nlinarith
  have q2 : (1 + 2 * L * tableSum e.R * |h|) * ‖v.st.y - y v.st.t‖ ≤ 2 * (C * H ^ (e.q + 1) + F) := by
    apply mul_le_mul (by linarith) _ (norm_nonneg _) (by norm_num)
    have : C * H ^ e.R.order ≤ C * H ^ (e.q + 1) := mul_le_mul_of_nonneg_left hpow h1
    linarith
  have q3 : C' * |h| ^ (e.q + 1) ≤ C' * H ^ (e.q + 1) :=
    mul_le_mul_of_nonneg_left (pow_le_pow_left₀ (abs_nonneg _) hle _) g2
  have q4 : (nearConst e.q * M * e.denseDefect + 2 * L * tableSum e.R * (10 * e.defect)) * |h| ≤
      (nearConst e.q * M * e.denseDefect + 2 * L * tableSum e.R * (10 * e.defect)) * H :=
    mul_le_mul_of_nonneg_left hle (by positivity)
  calc _ ≤ 2 * (C * H ^ (e.q + 1) + F) +
      (nearConst e.q * M * e.denseDefect + 2 * L * tableSum e.R * (10 * e.defect)) * H + C' * H ^ (e.q + 1) :=
        add_le_add (add_le_add q2 q4) q3
    _ = _ := by ring

/-! ## The hypotheses are met -/

/-- For `y' = -y` the constants hold with every radius of the tube. -/
theorem exDecay_bounds (q : ℕ) : ∃ M, ∀ ρ : ℝ, 0 < ρ →
    ProblemBounds (fun (_ : ℝ) (u : ℝ) => -u) (fun t => Real.exp (-t)) 0 1 q ρ 1 (1 + ρ) M := by
  obtain ⟨_, _, _, M, hM⟩ := exists_problemBounds exDecay_solves q
  refine ⟨M, fun ρ hρ => ⟨hρ, zero_le_one, by linarith, hM.diff, fun t ht z z' hz hz' => ⟨?_, ?_⟩, hM.series⟩⟩
  · rw [one_mul, neg_sub_neg, ← dist_eq_norm, dist_comm, Prod.dist_eq]
    exact le_max_right _ _
  · rw [norm_neg]
    have h1 : dist z.2 (Real.exp (-t)) < ρ := lt_of_le_of_lt (le_max_right _ _) hz
    rw [Set.uIcc_of_le zero_le_one] at ht
    have h2 : Real.exp (-t) ≤ 1 := Real.exp_le_one_iff.mpr (by linarith [ht.1])
    have h3 : ‖z.2‖ ≤ dist z.2 (Real.exp (-t)) + ‖Real.exp (-t)‖ := by
      rw [dist_eq_norm]
      calc ‖z.2‖ = ‖(z.2 - Real.exp (-t)) + Real.exp (-t)‖ := by rw [sub_add_cancel]
        _ ≤ _ := norm_add_le _ _
    rw [Real.norm_eq_abs (Real.exp (-t)), abs_of_pos (Real.exp_pos _)] at h3
    linarith

/-- C99: all hypotheses are met by a run of Ts5, Pr8 and Pr9 on `y' = -y` which makes a successful step, for every small
`max_step`. -/
example (e : DecEntry) (he : e ∈ decimalOrders) : ∃ M C hstar : ℝ, 0 < hstar ∧ ∀ η, 0 < η → η ≤ hstar →
    ∃ v', step (exCfgH e.R η) 1 (newSolver (exCfgH e.R η) 0 1 η 1 (fun _ => 0)) = some (.ok, v') ∧
      |v'.st.y - Real.exp (-v'.st.t)| ≤ C * η ^ e.R.order + e.floor 1 M |1 - 0| := by
  obtain ⟨M, hM⟩ := exDecay_bounds e.R.order
  have hd := e.defect_nonneg
  have hf : 0 ≤ e.floor 1 M |1 - 0| :=
    errorFloor_nonneg _ _ zero_le_one (hM 1 one_pos).diff hd (by linarith) (abs_nonneg _)
  obtain ⟨C, hstar, _, h2, h3⟩ := C99_max_step_error he exDecay_solves
    (hM (2 * e.floor 1 M |1 - 0| + 1) (by linarith)) (by linarith)
  refine ⟨M, C, min hstar (1 / 2), lt_min h2 (by norm_num), fun η hη hle => ?_⟩
  obtain ⟨v', hv⟩ := exCfgH_step e.R hη (hle.trans (min_le_right _ _))
  refine ⟨v', hv, ?_⟩
  have e1 : Real.exp (-0) = 1 := by simp
  have := h3 (exCfgH e.R η) _ _ η η 1 (fun _ => 0) v' (exCfgH_ok e.R hη) rfl rfl (by norm_num [exCfgH, exCfgR]) rfl
    (hle.trans (min_le_left _ _))
    (fun w _ m hm => by
      simp only [exCfgH, Option.some.injEq] at hm
      simp only [minStepOf, exCfgH, zero_mul]
      rw [← hm]
      exact max_le hη.le le_rfl)
    (by rw [e1]; exact .tail .refl hv)
  exact this

end Extensisq
