import Verif.Props.Convergence

/-!
# C87 for the interpolants of BS5 that use extra stages

`BS5` is the default method of the sensitivity functions and its default interpolant `best` uses three extra evaluations.
-/

set_option linter.unusedSectionVars false

namespace Extensisq
open scoped ContDiff
open Finset Asymptotics Filter Topology

variable {E : Type*} [NormedAddCommGroup E] [NormedSpace ℝ E]

theorem extA_upper {R : RKTable} {l : List (List ℚ × ℚ)} (hx : ExtOK R l) {i j : ℕ} (hi : i < R.s + 1 + l.length)
    (hj : j < R.s + 1 + l.length) (hij : i ≤ j) : extA R l i j = 0 := by
  by_cases his : i < R.s + 1
  · rw [extA, hx.stage i his j hj]
    split_ifs
    · unfold Tableau.full; rw [if_neg (by omega), Rat.cast_zero]
    · exact Rat.cast_zero
  · obtain ⟨m, rfl⟩ : ∃ m, i = R.s + 1 + m := ⟨i - (R.s + 1), by omega⟩
    rw [extA, hx.extra m (by omega) j hj, if_neg (by omega), Rat.cast_zero]

/-- Nodes of the extended scheme. -/
def extC (R : RKTable) (l : List (List ℚ × ℚ)) (i : ℕ) : ℝ := ∑ j ∈ range (R.s + 1 + l.length), extA R l i j

/-- The extra stages are determined by the starting point and the step size. -/
theorem ext_stages_eq {R : RKTable} {l : List (List ℚ × ℚ)} (hx : ExtOK R l)
    (hrows : (∀ i, i < (R.tab ℝ).s → ∑ j ∈ range i, (R.tab ℝ).A i j = (R.tab ℝ).C i) ∧
      ∑ i ∈ range (R.tab ℝ).s, (R.tab ℝ).B i = 1)
    {f : ℝ → E → E} {t h : ℝ} {u u' : E} {k : ℕ → E} (hk : IsRKStep (R.tab ℝ) f t u h k u') :
    ∀ i, i < R.s + 1 + l.length →
      extraStages f t u h (R.s + 1) l k i = exStage (extA R l) (extC R l) f i (t, u, h) := by
  intro i
  induction i using Nat.strong_induction_on with
  | _ i ih =>
    intro hi
    have h1 := ext_stage hx hrows hk i hi
    dsimp only at h1
    rw [h1, exStage_eq]
    dsimp only
    have hsub : range i ⊆ range (R.s + 1 + l.length) := range_subset_range.mpr hi.le
    have e1 : ∑ j ∈ range (R.s + 1 + l.length), extA R l i j • extraStages f t u h (R.s + 1) l k j =
        ∑ j ∈ range i, extA R l i j • extraStages f t u h (R.s + 1) l k j := by
      symm
      apply sum_subset hsub
      intro j hj hj'
      rw [extA_upper hx hi (mem_range.mp hj) (by simpa using hj'), zero_smul]
    have e2 : ∑ j ∈ range i, extA R l i j • extraStages f t u h (R.s + 1) l k j =
        ∑ j ∈ range i, extA R l i j • exStage (extA R l) (extC R l) f j (t, u, h) :=
      sum_congr rfl fun j hj => by rw [ih j (mem_range.mp hj) (by have := mem_range.mp hj; omega)]
    rw [e1, e2]
    rfl

/-- The extra stages of the three interpolants. -/
def BS5Interp.extra : BS5Interp → List (List ℚ × ℚ)
  | .free => []
  | .low => (BS5_A_extra.zip BS5_C_extra).take 1
  | .best => BS5_A_extra.zip BS5_C_extra

/-- The weights of the stages, as functions of the position in the step. -/
noncomputable def BS5Interp.weight : BS5Interp → ℕ → ℝ → ℝ
  | .free => fun i θ => pWeight ℝ BS5.P i θ
  | .low => fun i θ => pWeight ℝ BS5_Plow i θ
  | .best => fun i θ => ((BS5.B.getD i 0 : ℚ) : ℝ) + pWeight ℝ BS5_Pbest i (θ - 1)

theorem BS5Interp.extOK (o : BS5Interp) : ExtOK BS5 o.extra := by
  cases o with
  | free => exact (interpOrders_check (BS5, 4) (by simp [interpOrders])).2.1
  | low => exact bs5_low_check.1
  | best => exact bs5_best_check.1

theorem bs5Dense_scaled (o : BS5Interp) (f : ℝ → E → E) (t0 h θ : ℝ) {y0 yNew : E} {k : ℕ → E}
    (hk : IsRKStep (BS5.tab ℝ) f t0 y0 h k yNew) :
    (bs5DenseImpl o f (t0 + h) yNew k h t0 y0).1 (t0 + θ * h) =
      y0 + h • ∑ i ∈ range (BS5.s + 1 + o.extra.length), o.weight i θ • extraStages f t0 y0 h (BS5.s + 1) o.extra k i := by
  cases o with
  | free =>
    simp only [bs5DenseImpl]
    rw [horner_scaled]
    rfl
  | low =>
    simp only [bs5DenseImpl]
    rw [horner_scaled]
    rfl
  | best => exact bs5Dense_best_scaled f t0 h θ hk

theorem pWeight_contDiff (P : List (List ℚ)) (i : ℕ) {n : ℕ} : ContDiff ℝ n (fun θ : ℝ => pWeight ℝ P i θ) := by
  unfold pWeight
  apply ContDiff.sum
  intro j _
  exact contDiff_const.mul (contDiff_id.pow _)

theorem BS5Interp.weight_contDiff (o : BS5Interp) (i : ℕ) {n : ℕ} : ContDiff ℝ n (o.weight i) := by
  cases o with
  | free => exact pWeight_contDiff _ _
  | low => exact pWeight_contDiff _ _
  | best => exact contDiff_const.add ((pWeight_contDiff BS5_Pbest i).comp (contDiff_id.sub contDiff_const))

theorem bs5_dense_bound [CompleteSpace E] (o : BS5Interp) {f : ℝ → E → E} {y : ℝ → E} {t0 b : ℝ} (hy : SolvesOn f y t0 b) :
    ∃ ε C Λ : ℝ, 0 < ε ∧ 0 ≤ C ∧ 0 ≤ Λ ∧ ∀ t ∈ Set.uIcc t0 b, ∀ θ ∈ Set.Icc (0 : ℝ) 1,
      ∀ (u u' : E) (h : ℝ) (k : ℕ → E), IsRKStep (BS5.tab ℝ) f t u h k u' → ‖u - y t‖ < ε → |h| < ε →
      ‖(bs5DenseImpl o f (t + h) u' k h t u).1 (t + θ * h) - y (t + θ * h)‖ ≤
        (1 + Λ * |h|) * ‖u - y t‖ + C * |h| ^ (o.order + 1) := by
  obtain ⟨r1, r2, _, _⟩ := rationalRK_rows BS5 (by simp [rationalRK])
  have hcomb : ∀ (t u) (h θ : ℝ) (u' : E) (k : ℕ → E), IsRKStep (BS5.tab ℝ) f t u h k u' →
      (bs5DenseImpl o f (t + h) u' k h t u).1 (t + θ * h) =
        u + h • stageComb (BS5.s + 1 + o.extra.length) (extA BS5 o.extra) (extC BS5 o.extra) o.weight f θ (t, u, h) := by
    intro t u h θ u' k hk
    rw [bs5Dense_scaled o f t h θ hk]
    unfold stageComb
    rw [sum_congr rfl fun i hi => by rw [ext_stages_eq o.extOK ⟨r1, r2⟩ hk i (mem_range.mp hi)]]
  have hS : IsCompact ((Set.uIcc t0 b) ×ˢ (Set.Icc (0 : ℝ) 1)) := isCompact_uIcc.prod isCompact_Icc
  obtain ⟨ε, C, Λ, h1, h2, h3, h4⟩ := compact_bound (q := o.order) (n := BS5.s + 1 + o.extra.length) (A := extA BS5 o.extra)
    (c := extC BS5 o.extra) (w := o.weight) (f := f) (y := y) hS (fun i => o.weight_contDiff i)
    (fun x hx n => smooth_nat (hy.smooth x.1 hx.1) _) (fun x hx => hy.solves x.1 hx.1) (by
      rintro ⟨t, θ⟩ ⟨ht, _⟩
      have := C60_BS5_dense_accuracy o (hy.smooth t ht)
        (fun h => exStage_isRKStep (BS5.tab ℝ) f t (y t) h) (fun _ => θ) |θ| (fun _ => le_rfl) y rfl (hy.solves t ht)
      refine this.congr_left fun h => ?_
      rw [hcomb t (y t) h θ _ _ (exStage_isRKStep (BS5.tab ℝ) f t (y t) h)])
  refine ⟨ε, C, Λ, h1, h2, h3, fun t ht θ hθ u u' h k hk hu hh => ?_⟩
  have h5 := h4 (t, θ) ⟨ht, hθ⟩ u h hu hh
  rw [hcomb t u h θ u' k hk]
  exact h5

theorem extraStages_congr (f : ℝ → E → E) (tOld : ℝ) (yOld : E) (h : ℝ) :
    ∀ (l : List (List ℚ × ℚ)) (s : ℕ) (A B : ℕ → E), (∀ j, j < s → A j = B j) →
      ∀ i, i < s + l.length → extraStages f tOld yOld h s l A i = extraStages f tOld yOld h s l B i := by
  intro l
  induction l with
  | nil => intro s A B hAB i hi; exact hAB i hi
  | cons a r ih =>
    intro s A B hAB i hi
    obtain ⟨a, c⟩ := a
    simp only [extraStages]
    refine ih (s + 1) _ _ ?_ i (by simp only [List.length_cons] at hi; omega)
    intro j hj
    have : ∑ j ∈ range s, ((a.getD j 0 : ℚ) : ℝ) • A j = ∑ j ∈ range s, ((a.getD j 0 : ℚ) : ℝ) • B j :=
      sum_congr rfl fun j hj => by rw [hAB j (mem_range.mp hj)]
    rw [this]
    by_cases hjs : j = s
    · subst hjs; simp
    · rw [Function.update_of_ne hjs, Function.update_of_ne hjs, hAB j (by omega)]

/-- The interpolant depends on the stages of the step only. -/
theorem bs5DenseImpl_congr (o : BS5Interp) (f : ℝ → E → E) (t : ℝ) (y : E) {Ks k : ℕ → E} (h tOld : ℝ) (yOld : E)
    (hK : ∀ i, i < 8 → Ks i = k i) :
    (bs5DenseImpl o f t y Ks h tOld yOld).1 = (bs5DenseImpl o f t y k h tOld yOld).1 := by
  cases o with
  | free =>
    simp only [bs5DenseImpl]
    rw [denseQ_congr hK]
  | low =>
    have := extraStages_congr f tOld yOld h ((BS5_A_extra.zip BS5_C_extra).take 1) 8 Ks k hK
    simp only [bs5DenseImpl]
    rw [denseQ_congr (n := 9) (fun i hi => this i hi)]
  | best =>
    have := extraStages_congr f tOld yOld h (BS5_A_extra.zip BS5_C_extra) 8 Ks k hK
    simp only [bs5DenseImpl]
    rw [bs5BestQ_eq, bs5BestQ_eq, denseQ_congr (n := 11) (fun i hi => this i hi)]

/-- **C87** for the dense output of `BS5` with each of its interpolants: within `C H^5` of the exact solution. -/
theorem C87_BS5_dense_error [CompleteSpace E] (o : BS5Interp) {f : ℝ → E → E} {y : ℝ → E} {t0 b : ℝ} (hy : SolvesOn f y t0 b) :
    ∃ C hstar : ℝ, 0 ≤ C ∧ 0 < hstar ∧
      ∀ (c : Cfg ℝ E E) (errNorm : E → E → E → ENorm ℝ) (h0 H : ℝ) (e0 : ℕ) (Ks0 : ℕ → E)
        (v v' : Solver ℝ E E) (fuel : ℕ), CfgOK c → c.m = bs5Method ℝ f errNorm → 0 ≤ c.dir * (b - t0) →
        0 ≤ H → H ≤ hstar → ReachWithin c (newSolver c t0 (y t0) h0 e0 Ks0) t0 b H v → v.st.t ∈ Set.uIcc t0 b →
        c.tb ≠ some v.st.t → step c fuel v = some (.ok, v') → |v'.st.t - v.st.t| ≤ H →
        ∃ u w, bs5Dense o f v' = some (u, w) ∧ ∀ τ ∈ Set.uIcc v.st.t v'.st.t, ‖u τ - y τ‖ ≤ C * H ^ 5 := by
  have hR : BS5 ∈ rationalRK := by simp [rationalRK]
  obtain ⟨C, hstar, h1, h2, h3⟩ := C87_global_error BS5 hR hy
  obtain ⟨ε, C', Λ, g1, g2, g3, g4⟩ := bs5_dense_bound o hy
  obtain ⟨_, _, r1, r2⟩ := rationalRK_rows BS5 hR
  have ho : BS5.order = 5 := rfl
  rw [ho] at h3
  refine ⟨(1 + Λ) * C + C', min hstar (min 1 (ε / (2 * (C + 1)))), by positivity,
    lt_min h2 (lt_min one_pos (by positivity)), ?_⟩
  intro c errNorm h0 H e0 Ks0 v v' fuel hc hm hdir hH0 hH hr hmemv hne hs hle
  have hHs : H ≤ hstar := hH.trans (min_le_left _ _)
  have hH1 : H ≤ 1 := hH.trans ((min_le_right _ _).trans (min_le_left _ _))
  have hH2 : H * (2 * (C + 1)) ≤ ε :=
    (le_div_iff₀ (by positivity)).mp (hH.trans ((min_le_right _ _).trans (min_le_right _ _)))
  have hHε : H < ε := by nlinarith
  have he := h3 c errNorm _ h0 H e0 Ks0 v hc hm hdir hH0 hHs hr
  have hpow1 : H ^ 5 ≤ H := by
    calc H ^ 5 ≤ H ^ 1 := pow_le_pow_of_le_one hH0 hH1 (by omega)
      _ = H := pow_one H
  have heε : ‖v.st.y - y v.st.t‖ < ε := by
    have : C * H ^ 5 ≤ C * H := mul_le_mul_of_nonneg_left hpow1 h1
    nlinarith
  obtain ⟨k, ht, htO, hyO, hhP, _, hk, hKs, _, _, _⟩ := step_dense_data hc hm r1 r2 hr.reach hne hs
  have hd : ∃ w, bs5Dense o f v' = some ((bs5DenseImpl o f v'.st.t v'.st.y v'.st.Ks
      (v'.st.t - v.st.t) v.st.t v.st.y).1, w) := by
    unfold bs5Dense
    rw [hhP]
    dsimp only
    exact ⟨_, denseOutput_eq htO ht hyO⟩
  obtain ⟨w, hw⟩ := hd
  refine ⟨_, w, hw, ?_⟩
  intro τ hτ
  have hne' : v'.st.t - v.st.t ≠ 0 := sub_ne_zero.mpr ht
  obtain ⟨θ, hθ, eτ⟩ : ∃ θ ∈ Set.Icc (0 : ℝ) 1, τ = v.st.t + θ * (v'.st.t - v.st.t) := by
    refine ⟨(τ - v.st.t) / (v'.st.t - v.st.t), ?_, by field_simp; ring⟩
    rcases lt_or_gt_of_ne hne' with hneg | hpos
    · rw [Set.uIcc_of_ge (by linarith)] at hτ
      exact ⟨div_nonneg_of_nonpos (by linarith [hτ.2]) hneg.le,
        (div_le_one_of_neg hneg).mpr (by linarith [hτ.1])⟩
    · rw [Set.uIcc_of_le (by linarith)] at hτ
      exact ⟨div_nonneg (by linarith [hτ.1]) hpos.le, (div_le_one hpos).mpr (by linarith [hτ.2])⟩
  have hb := g4 v.st.t hmemv θ hθ _ _ _ k hk heε (hle.trans_lt hHε)
  rw [show v.st.t + (v'.st.t - v.st.t) = v'.st.t by ring, ← eτ] at hb
  rw [bs5DenseImpl_congr o f _ _ _ _ _ (fun i hi => hKs i (by change i ≤ 7; omega))]
  refine hb.trans ?_
  have p1 : (1 + Λ * |v'.st.t - v.st.t|) * ‖v.st.y - y v.st.t‖ ≤ (1 + Λ) * (C * H ^ 5) := by
    apply mul_le_mul _ he (norm_nonneg _) (by positivity)
    have : Λ * |v'.st.t - v.st.t| ≤ Λ * 1 := mul_le_mul_of_nonneg_left (hle.trans hH1) g3
    linarith
  have p2 : C' * |v'.st.t - v.st.t| ^ (o.order + 1) ≤ C' * H ^ 5 := by
    refine mul_le_mul_of_nonneg_left ((pow_le_pow_left₀ (abs_nonneg _) hle _).trans ?_) g2
    exact pow_le_pow_of_le_one hH0 hH1 (by cases o <;> simp [BS5Interp.order])
  calc _ ≤ (1 + Λ) * (C * H ^ 5) + C' * H ^ 5 := add_le_add p1 p2
    _ = _ := by ring

end Extensisq
