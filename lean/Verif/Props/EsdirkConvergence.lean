import Verif.Lemmas.PicardConv
import Verif.Props.DecimalConvergence
import Verif.Props.EsdirkOrderHist
import Verif.Props.EsdirkStabWitness
import Verif.Props.KcDense

/-!
# Convergence of the ESDIRK methods (C103)
-/

set_option linter.unusedSectionVars false
set_option maxRecDepth 100000

namespace Extensisq
open scoped ContDiff
open Finset Asymptotics Filter Topology

variable {E : Type*} [NormedAddCommGroup E] [NormedSpace ℝ E]

/-! ## Specification -/

/-- The residual of stage `i` of a step from the state `v` to the state `v'`: `f(t + c_i h, Y_i) - M K_i`. -/
noncomputable def stepResidual (c : ECfg ℝ E) (f : ℝ → E → E) (v v' : ESolver ℝ E) (i : ℕ) : E :=
  stageDefect c.T c.M f v.st.t v.st.y (v'.st.t - v.st.t) v'.st.Ks i

/-- Reachable by `step()` calls none of which was longer than `H` or left the interval from `t0` to `b`, and in which the
Newton iterations of the implicit stages left residuals of at most `δ`. -/
inductive EReachWithin (c : ECfg ℝ E) (f : ℝ → E → E) (v0 : ESolver ℝ E) (t0 b H δ : ℝ) : ESolver ℝ E → Prop
  | refl : EReachWithin c f v0 t0 b H δ v0
  | tail {v v' : ESolver ℝ E} {o : EOut} {fuel : ℕ} :
      EReachWithin c f v0 t0 b H δ v → eStep c fuel v = some (o, v') → o ≠ .exc .nanErr →
      |v'.st.t - v.st.t| ≤ H → v'.st.t ∈ Set.uIcc t0 b →
      (o = .ok → c.tb ≠ some v.st.t → ∀ i, 1 ≤ i → i < c.T.n → ‖stepResidual c f v v' i‖ ≤ δ) →
      EReachWithin c f v0 t0 b H δ v'

theorem EReachWithin.reach {c : ECfg ℝ E} {f : ℝ → E → E} {v0 v : ESolver ℝ E} {t0 b H δ : ℝ}
    (h : EReachWithin c f v0 t0 b H δ v) : EReach c v0 v := by
  induction h with
  | refl => exact .refl
  | tail _ hs ho _ _ _ ih => exact ih.tail hs ho

/-- Sum of the moduli of the weights. -/
noncomputable def eWeightSum (T : ETab ℝ) : ℝ := ∑ i ∈ range T.n, |T.B i|

theorem eWeightSum_nonneg (T : ETab ℝ) : 0 ≤ eWeightSum T := sum_nonneg fun _ _ => abs_nonneg _

/-! ## One history -/

/-- The derivative kept between steps: the residual of the first (explicit) stage is that of the last stage of the step
before. -/
theorem EReachWithin.kept {c : ECfg ℝ E} {f : ℝ → E → E} {v0 v : ESolver ℝ E} {t0 b H δ : ℝ} (hc : ECfgOK c)
    (hTok : ETabOK c.T) {y0 yp0 : E} {J0 : E →ₗ[ℝ] E} (hδ : 0 ≤ δ) (hn : IsNew v0 t0 y0 yp0 J0) (hyp0 : c.M yp0 = f t0 y0)
    (hr : EReachWithin c f v0 t0 b H δ v) : v.status = .running → ‖f v.st.t v.st.y - c.M v.st.yp‖ ≤ δ := by
  induction hr with
  | refl =>
    obtain ⟨h0, Ks0, nfev, njev, hh, rfl⟩ := hn.new
    intro _
    show ‖f t0 y0 - c.M yp0‖ ≤ δ
    rw [hyp0, sub_self, norm_zero]
    exact hδ
  | @tail w w' o fuel hr hs ho hle hmem hres ih =>
    intro hrun'
    rcases eStep_cases hs with ⟨h1, -, rfl⟩ | ⟨-, -, -, rfl⟩ | ⟨hrun, ht, s', hs', rfl, hcase⟩
    · exact absurd hrun' h1
    · cases hrun'
    · rcases hcase with ⟨rfl, -⟩ | ⟨-, h2⟩ | ⟨e, rfl, -⟩
      · obtain ⟨-, b2, b3, -⟩ := C38_solution hc hTok hn hr.reach ht hs
        have hn2 := hTok.n
        have := hres rfl ht (c.T.n - 1) (by omega) (by omega)
        unfold stepResidual stageDefect at this
        rw [← b2, ← b3, hTok.c1, one_mul, add_sub_cancel] at this
        exact this
      · rw [h2] at hrun'; cases hrun'
      · exact absurd (by rw [eStepImpl_exc hc ((hr.reach.inv hc hn.inv) hrun) ht hs']) ho

/-- A step of a history either leaves time and solution alone, or is a step of the implicit method all whose stages have
residuals of at most `δ`. -/
theorem EReachWithin.step {c : ECfg ℝ E} {f : ℝ → E → E} {v0 v v' : ESolver ℝ E} {t0 b H δ : ℝ} (hc : ECfgOK c)
    (hTok : ETabOK c.T) (hC0 : c.T.C 0 = 0) (hA0 : c.T.A 0 0 = 0) {y0 yp0 : E} {J0 : E →ₗ[ℝ] E} (hδ : 0 ≤ δ)
    (hn : IsNew v0 t0 y0 yp0 J0) (hyp0 : c.M yp0 = f t0 y0) (hr : EReachWithin c f v0 t0 b H δ v) {o : EOut} {fuel : ℕ}
    (hs : eStep c fuel v = some (o, v'))
    (hres : o = .ok → c.tb ≠ some v.st.t → ∀ i, 1 ≤ i → i < c.T.n → ‖stepResidual c f v v' i‖ ≤ δ) :
    (v'.st.t = v.st.t ∧ v'.st.y = v.st.y) ∨ ∃ h, 0 < c.dir * h ∧ v'.st.t = v.st.t + h ∧
      v'.st.y = v.st.y + h • ∑ j ∈ range c.T.n, c.T.B j • v'.st.Ks j ∧
      ∀ i, i < c.T.n → ‖stageDefect c.T c.M f v.st.t v.st.y h v'.st.Ks i‖ ≤ δ := by
  rcases eStep_time hc (hr.reach.inv hc hn.inv) hs with ⟨e1, e2, -⟩ | ⟨rfl, hrun, ht, h', -, hpos, -, e3⟩
  · exact Or.inl ⟨e1, e2⟩
  · right
    have hd : v'.st.t - v.st.t = h' * c.dir := by rw [e3]; ring
    obtain ⟨b1, -, -, b4⟩ := C38_solution hc hTok hn hr.reach ht hs
    rw [hd] at b1
    refine ⟨h' * c.dir, ?_, e3, b1, fun i hi => ?_⟩
    · have : c.dir * (h' * c.dir) = h' := by linear_combination h' * eDir_sq hc
      rw [this]; exact hpos
    · rcases Nat.eq_zero_or_pos i with rfl | h1
      · have := hr.kept hc hTok hδ hn hyp0 hrun
        rw [← b4] at this
        unfold stageDefect
        rw [hC0, zero_mul, add_zero]
        convert this using 3
        simp [stageVal, hA0]
      · have := hres rfl ht i h1 hi
        unfold stepResidual at this
        rwa [hd] at this

/-! ## Any table -/

/-- The order conditions hold up to `δ0`, the row sums up to `γ`. -/
structure ENearTable (T : ETab ℝ) (q : ℕ) (δ0 γ : ℝ) : Prop where
  order : OrderCondNear T.n T.mat T.B q δ0
  rows : ∀ i, i < T.n → |T.C i - ∑ j ∈ range T.n, T.mat i j| ≤ γ
  ok : ETabOK T
  C0 : T.C 0 = 0
  A0 : T.A 0 0 = 0

/-- The floor of the error: the effect of the defects of the table. -/
noncomputable def eFloor (T : ETab ℝ) (q : ℕ) (L M δ0 γ ℓ : ℝ) : ℝ :=
  (nearConst q * M * δ0 + 2 * L * eWeightSum T * γ) * spread (2 * L * eWeightSum T) ℓ

/-- A problem `Mm y' = f(t, y)` with a regular mass matrix, a right-hand side that satisfies a Lipschitz condition, and its
solution `y` from `t0` to `b`. -/
structure EProblem (Mm : E ≃L[ℝ] E) (f : ℝ → E → E) (y : ℝ → E) (t0 b L' : ℝ) : Prop where
  solves : SolvesOn (fun t x => Mm.symm (f t x)) y t0 b
  pos : 0 ≤ L'
  lip : ∀ t x x', ‖Mm.symm (f t x) - Mm.symm (f t x')‖ ≤ L' * ‖x - x'‖

/-- The solver `v0` has just been made for that problem. -/
structure ESolves (c : ECfg ℝ E) (Mm : E ≃L[ℝ] E) (f : ℝ → E → E) (v0 : ESolver ℝ E) (t0 : ℝ) (y0 : E) : Prop where
  ok : ECfgOK c
  fn : ∀ t x, c.fn t x = some (f t x)
  mass : ∀ x, c.M x = Mm x
  new : ∃ yp0 J0, IsNew v0 t0 y0 yp0 J0 ∧ c.M yp0 = f t0 y0

set_option maxHeartbeats 800000 in
/-- **C103**, any table. -/
theorem esdirk_global_error [CompleteSpace E] {Mm : E ≃L[ℝ] E} {f : ℝ → E → E} {y : ℝ → E} {t0 b L' : ℝ}
    (hP : EProblem Mm f y t0 b L') {q : ℕ} {ρ L B M : ℝ} (hq : 1 ≤ q)
    (hp : ProblemBounds (fun t x => Mm.symm (f t x)) y t0 b q ρ L B M) {T : ETab ℝ} {δ0 γ : ℝ} (hδ0 : 0 ≤ δ0) (hγ : 0 ≤ γ)
    (hT : ENearTable T q δ0 γ) (hsmall : eFloor T q L M δ0 γ |b - t0| < ρ / 2) :
    ∃ C hstar : ℝ, 0 ≤ C ∧ 0 < hstar ∧
      ∀ (c : ECfg ℝ E) (v0 v : ESolver ℝ E) (H δ : ℝ), ESolves c Mm f v0 t0 (y t0) → c.T = T →
        0 ≤ c.dir * (b - t0) → 0 ≤ H → H ≤ hstar → 0 ≤ δ → δ ≤ hstar → EReachWithin c f v0 t0 b H δ v →
        ‖v.st.y - y v.st.t‖ ≤ C * (H ^ q + δ) + eFloor T q L M δ0 γ |b - t0| := by
  have hn2 := hT.ok.n
  obtain ⟨ε, C, h1, h2, h3⟩ := implicit_step hp hP.solves hP.pos hP.lip (n := T.n) (by omega) (A := T.mat) (c := T.C)
    (w := T.B) (β := eWeightSum T) (γ := γ) (δ := δ0) hδ0 hγ hT.order le_rfl hT.rows
  set ℓ := |b - t0| with hℓ
  have hℓ0 : 0 ≤ ℓ := abs_nonneg _
  have hw0 := eWeightSum_nonneg T
  have hL0 := hp.lip
  have hM0 := hp.diff
  have hk0 := nearConst_nonneg q
  have hρ := hp.rho
  set Λ := 2 * L * eWeightSum T with hΛ
  have hΛ0 : 0 ≤ Λ := by positivity
  have hS0 : 0 ≤ spread Λ ℓ := spread_nonneg _ hℓ0
  set D0 := nearConst q * M * δ0 + 2 * L * eWeightSum T * γ with hD0
  have hD00 : 0 ≤ D0 := by positivity
  set F := eFloor T q L M δ0 γ ℓ with hF
  have hFD : F = D0 * spread Λ ℓ := rfl
  set R := 4 * eWeightSum T * T.n * ‖(Mm.symm : E →L[ℝ] E)‖ with hR
  have hR0 : 0 ≤ R := by positivity
  set S := (C + R) * spread Λ ℓ with hS
  have hSS : 0 ≤ S := by positivity
  set η := ρ / 2 - F with hη
  have hη0 : 0 < η := by rw [hη]; linarith
  refine ⟨S, min 1 (min (ε / 2) (η / (4 * (S + 1)))), hSS, by positivity, ?_⟩
  intro c v0 v H δ hsol hcT hdir hH0 hH hd0 hd hr
  subst hcT
  obtain ⟨yp0, J0, hn, hyp0⟩ := hsol.new
  have hc := hsol.ok
  simp only [le_min_iff] at hH hd
  obtain ⟨hH1, hH2, hH4⟩ := hH
  obtain ⟨-, -, hd4⟩ := hd
  rw [le_div_iff₀ (by positivity)] at hH4 hd4
  have hpow : H ^ q ≤ H := by
    calc H ^ q ≤ H ^ 1 := pow_le_pow_of_le_one hH0 hH1 hq
      _ = H := pow_one H
  have hHq : 0 ≤ H ^ q := by positivity
  set D := C * H ^ q + R * δ + D0 with hD
  have hDpos : 0 ≤ D := by positivity
  have hDS : D * spread Λ ℓ ≤ S * (H ^ q + δ) + F := by
    have : (C * H ^ q + R * δ) ≤ (C + R) * (H ^ q + δ) := by nlinarith [mul_nonneg h2 hd0, mul_nonneg hR0 hHq]
    rw [hFD, hD, add_mul, hS]
    have := mul_le_mul_of_nonneg_right this hS0
    linarith
  have hDlt : D * spread Λ ℓ < ρ / 2 := by
    have h5 : S * H ^ q ≤ S * H := mul_le_mul_of_nonneg_left hpow hSS
    nlinarith
  have hgrow : ∀ a, 0 ≤ a → a ≤ ℓ → D * (a * Real.exp (Λ * a)) ≤ D * spread Λ ℓ := by
    intro a ha haL
    apply mul_le_mul_of_nonneg_left _ hDpos
    apply mul_le_mul haL _ (Real.exp_pos _).le hℓ0
    exact Real.exp_le_exp.mpr (mul_le_mul_of_nonneg_left haL hΛ0)
  have habs : ∀ x, 0 ≤ c.dir * x → |x| = c.dir * x := by
    intro x hx
    rcases hc.dir with hd | hd <;> rw [hd] at hx ⊢
    · rw [one_mul] at hx ⊢; exact abs_of_nonneg hx
    · rw [abs_of_nonpos (by linarith)]; ring
  have key : v.st.t ∈ Set.uIcc t0 b ∧ 0 ≤ c.dir * (v.st.t - t0) ∧
      ‖v.st.y - y v.st.t‖ ≤ D * (|v.st.t - t0| * Real.exp (Λ * |v.st.t - t0|)) := by
    induction hr with
    | refl =>
      obtain ⟨h0, Ks0, nfev, njev, hh, rfl⟩ := hn.new
      refine ⟨Set.left_mem_uIcc, ?_, ?_⟩ <;> simp [newESolver]
    | @tail w w' o fuel hr hs ho hle hmem hres ih =>
      obtain ⟨i1, i2, i3⟩ := ih
      refine ⟨hmem, ?_⟩
      rcases hr.step hc hT.ok hT.C0 hT.A0 hd0 hn hyp0 hs hres with ⟨e1, e2⟩ | ⟨h, hpos, et, ey, hdef⟩
      · rw [e1, e2]; exact ⟨i2, i3⟩
      · have eh : w'.st.t - w.st.t = h := by rw [et]; ring
        rw [eh] at hle
        have hd' : c.dir * (w'.st.t - t0) = c.dir * (w.st.t - t0) + c.dir * h := by rw [et]; ring
        have hd0' : 0 ≤ c.dir * (w'.st.t - t0) := by rw [hd']; linarith
        refine ⟨hd0', ?_⟩
        have ha : |w'.st.t - t0| = |w.st.t - t0| + |h| := by
          rw [habs _ hd0', habs _ i2, habs _ hpos.le, hd']
        have hwL : |w.st.t - t0| ≤ ℓ := Set.abs_sub_left_of_mem_uIcc i1
        have he : ‖w.st.y - y w.st.t‖ < ρ / 2 := (i3.trans (hgrow _ (abs_nonneg _) hwL)).trans_lt hDlt
        have hb := h3 w.st.t i1 w.st.y h (‖(Mm.symm : E →L[ℝ] E)‖ * δ) w'.st.Ks he (by linarith) (by positivity)
          (by
            intro i hi
            have h6 := hdef i hi
            unfold stageDefect at h6
            rw [stageVal_mat hi, hsol.mass] at h6
            have h7 := ((Mm.symm : E →L[ℝ] E).le_opNorm _).trans (mul_le_mul_of_nonneg_left h6 (norm_nonneg _))
            rw [map_sub] at h7
            simpa using h7)
        rw [← ey, ← et] at hb
        rw [ha]
        refine accumulate_defect hDpos hΛ0 (abs_nonneg _) (abs_nonneg _) i3 (hb.trans ?_) rfl
        have : C * |h| ^ (q + 1) ≤ C * H ^ q * |h| := by
          rw [pow_succ, ← mul_assoc]
          exact mul_le_mul_of_nonneg_right (mul_le_mul_of_nonneg_left (pow_le_pow_left₀ (abs_nonneg _) hle _) h2)
            (abs_nonneg _)
        have e9 : (nearConst q * M * δ0 + 2 * L * eWeightSum c.T * γ +
            4 * eWeightSum c.T * c.T.n * (‖(Mm.symm : E →L[ℝ] E)‖ * δ)) = D0 + R * δ := by rw [hD0, hR]; ring
        have e10 : (C * H ^ q + R * δ + D0) * |h| = C * H ^ q * |h| + (D0 + R * δ) * |h| := by ring
        rw [e9, hD, e10]
        linarith
  obtain ⟨k1, _, k3⟩ := key
  exact (k3.trans (hgrow _ (abs_nonneg _) (Set.abs_sub_left_of_mem_uIcc k1))).trans hDS

/-! ## The methods -/

theorem esdirk_start : ∀ R ∈ [TRBDF2, TRX2, KC3I, KC4I, KC4Ia, Kv3I],
    (R.tab ℝ (√2)).C 0 = 0 ∧ (R.tab ℝ (√2)).A 0 0 = 0 := by
  have key : ∀ R ∈ [TRBDF2, TRX2, KC3I, KC4I, KC4Ia, Kv3I], R.C.getD 0 0 = 0 ∧ (R.A.getD 0 []).getD 0 0 = 0 := by
    intro R hR
    simp only [List.mem_cons, List.not_mem_nil, or_false] at hR
    rcases hR with rfl | rfl | rfl | rfl | rfl | rfl <;> decide +kernel
  intro R hR
  constructor
  · show homR (R.C.getD 0 0) = 0
    rw [(key R hR).1, map_zero]
  · show homR ((R.A.getD 0 []).getD 0 0) = 0
    rw [(key R hR).2, map_zero]

/-- The five methods with exact coefficients. -/
theorem exact_near {R : ESTable} (hR : R ∈ [TRBDF2, TRX2, KC3I, KC4I, Kv3I]) :
    ENearTable (R.tab ℝ (√2)) R.order 0 0 where
  order := fun τ hτ => by
    have := C85_main_order hR τ hτ
    rw [show (R.tab ℝ (√2)).n = R.n from rfl, this, sub_self, abs_zero]
  rows := fun i hi => by
    rw [show (R.tab ℝ (√2)).n = R.n from rfl, rows_sound (esdirk_shape R (sub_all hR)) (esdirk_rows R hR) hi, sub_self, abs_zero]
  ok := esdirk_tables_ok R (sub_all hR)
  C0 := (esdirk_start R (sub_all hR)).1
  A0 := (esdirk_start R (sub_all hR)).2

theorem order_pos {R : ESTable} (hR : R ∈ [TRBDF2, TRX2, KC3I, KC4I, Kv3I]) : 1 ≤ R.order := by
  simp only [List.mem_cons, List.not_mem_nil, or_false] at hR
  rcases hR with rfl | rfl | rfl | rfl | rfl <;> decide

/-- **C103.** TRBDF2, TRX2, KC3I, KC4I and Kv3I, used on `M y' = f(t, y)` with a regular mass matrix and a right-hand side that
is smooth along the solution and satisfies a Lipschitz condition: the error of every history of steps of length at most `H`,
whatever their sizes, with residuals of the stage equations of at most `δ`, is at most `C (H^order + δ)`. -/
theorem C103_global_error [CompleteSpace E] {R : ESTable} (hR : R ∈ [TRBDF2, TRX2, KC3I, KC4I, Kv3I]) {Mm : E ≃L[ℝ] E}
    {f : ℝ → E → E} {y : ℝ → E} {t0 b L' : ℝ} (hP : EProblem Mm f y t0 b L') :
    ∃ C hstar : ℝ, 0 ≤ C ∧ 0 < hstar ∧
      ∀ (c : ECfg ℝ E) (v0 v : ESolver ℝ E) (H δ : ℝ), ESolves c Mm f v0 t0 (y t0) → c.T = R.tab ℝ (√2) →
        0 ≤ c.dir * (b - t0) → 0 ≤ H → H ≤ hstar → 0 ≤ δ → δ ≤ hstar → EReachWithin c f v0 t0 b H δ v →
        ‖v.st.y - y v.st.t‖ ≤ C * (H ^ R.order + δ) := by
  obtain ⟨ρ, L, B, M, hp⟩ := exists_problemBounds hP.solves R.order
  have h0 : eFloor (R.tab ℝ (√2)) R.order L M 0 0 |b - t0| = 0 := by unfold eFloor; ring
  have := esdirk_global_error hP (order_pos hR) hp le_rfl le_rfl (exact_near hR) (by rw [h0]; linarith [hp.rho])
  simpa only [h0, add_zero] using this

/-- The residuals of the implicit stages of all successful steps are at most `δ`. -/
def ResidualsWithin (c : ECfg ℝ E) (f : ℝ → E → E) (v0 : ESolver ℝ E) (δ : ℝ) : Prop :=
  ∀ (w w' : ESolver ℝ E) (fuel : ℕ), EReach c v0 w → c.tb ≠ some w.st.t → eStep c fuel w = some (.ok, w') →
    ∀ i, 1 ≤ i → i < c.T.n → ‖stepResidual c f w w' i‖ ≤ δ

/-- With `max_step` and `t_bound` the steps stay within the interval by themselves. -/
theorem eReach_within {c : ECfg ℝ E} (hc : ECfgOK c) {f : ℝ → E → E} {v0 v : ESolver ℝ E} {t0 b m δ : ℝ} {y0 yp0 : E}
    {J0 : E →ₗ[ℝ] E} (hn : IsNew v0 t0 y0 yp0 J0) (hb : c.tb = some b) (hdir : 0 ≤ c.dir * (b - t0))
    (hm : c.maxStep = some m) (hres : ResidualsWithin c f v0 δ) (hr : EReach c v0 v) :
    EReachWithin c f v0 t0 b (101 / 100 * m) δ v := by
  have ht0 : v0.st.t = t0 := by obtain ⟨h0, Ks0, nfev, njev, hh, rfl⟩ := hn.new; rfl
  induction hr with
  | refl => exact .refl
  | @tail w w' o fuel hr hs ho ih =>
    refine .tail ih hs ho (C34_max_step hc hm hn hr hs) ?_ ?_
    · obtain ⟨a1, a2⟩ := C34_never_past_t_bound hc hb hn (by rw [ht0]; exact hdir) (hr.tail hs ho)
      rw [ht0] at a1
      rcases hc.dir with hd | hd <;> rw [hd] at a1 a2
      · exact Set.mem_uIcc.mpr (Or.inl ⟨by linarith, by linarith⟩)
      · exact Set.mem_uIcc.mpr (Or.inr ⟨by linarith, by linarith⟩)
    · rintro rfl ht
      exact hres w w' fuel hr ht hs

/-- **C103** with `max_step = m` and `t_bound = b`: every solution the solver ever shows differs from the exact one by at most
`C (m^order + δ)`. -/
theorem C103_max_step_error [CompleteSpace E] {R : ESTable} (hR : R ∈ [TRBDF2, TRX2, KC3I, KC4I, Kv3I]) {Mm : E ≃L[ℝ] E}
    {f : ℝ → E → E} {y : ℝ → E} {t0 b L' : ℝ} (hP : EProblem Mm f y t0 b L') :
    ∃ C mstar : ℝ, 0 ≤ C ∧ 0 < mstar ∧
      ∀ (c : ECfg ℝ E) (v0 v : ESolver ℝ E) (m δ : ℝ), ESolves c Mm f v0 t0 (y t0) → c.T = R.tab ℝ (√2) →
        c.tb = some b → 0 ≤ c.dir * (b - t0) → c.maxStep = some m → m ≤ mstar → 0 ≤ δ → δ ≤ mstar →
        ResidualsWithin c f v0 δ → EReach c v0 v → ‖v.st.y - y v.st.t‖ ≤ C * (m ^ R.order + δ) := by
  obtain ⟨C, hstar, h1, h2, h3⟩ := C103_global_error hR hP
  refine ⟨C * (101 / 100) ^ R.order, hstar * (100 / 101), by positivity, by positivity, ?_⟩
  intro c v0 v m δ hs hT hb hdir hm hmle hd0 hd hres hr
  obtain ⟨yp0, J0, hn, hyp0⟩ := hs.new
  have hm0 := hs.ok.maxStep m hm
  have := h3 c v0 v (101 / 100 * m) δ hs hT hdir (by positivity) (by linarith) hd0 (by linarith)
    (eReach_within hs.ok hn hb hdir hm hres hr)
  refine this.trans ?_
  have h5 : (1 : ℝ) ≤ (101 / 100) ^ R.order := one_le_pow₀ (by norm_num)
  rw [mul_pow, mul_assoc]
  refine mul_le_mul_of_nonneg_left ?_ h1
  rw [mul_add]
  nlinarith

/-- **C103** in linear mode (no Jacobian function): for `M y' = J y + r(t)` there are no residuals, so the error is at most
`C max_step^order` for every history, without any assumption on the iterations. -/
theorem C103_linear_mode [CompleteSpace E] {R : ESTable} (hR : R ∈ [TRBDF2, TRX2, KC3I, KC4I, Kv3I]) {Mm : E ≃L[ℝ] E}
    {J : E →L[ℝ] E} {r : ℝ → E} {y : ℝ → E} {t0 b : ℝ} (hy : SolvesOn (fun t x => Mm.symm (J x + r t)) y t0 b) :
    ∃ C mstar : ℝ, 0 ≤ C ∧ 0 < mstar ∧
      ∀ (c : ECfg ℝ E) (v0 v : ESolver ℝ E) (yp0 : E) (m : ℝ), ECfgOK c → c.T = R.tab ℝ (√2) → c.jac = none → LinSolves c →
        (∀ t x, c.fn t x = some (J x + r t)) → (∀ x, c.M x = Mm x) → (∀ h, 0 < h → Regular c (h * c.dir) J) →
        IsNew v0 t0 (y t0) yp0 J → Mm yp0 = J (y t0) + r t0 →
        c.tb = some b → 0 ≤ c.dir * (b - t0) → c.maxStep = some m → m ≤ mstar → EReach c v0 v →
        ‖v.st.y - y v.st.t‖ ≤ C * m ^ R.order := by
  have hP : EProblem Mm (fun t x => J x + r t) y t0 b ‖(Mm.symm : E →L[ℝ] E).comp J‖ :=
    ⟨hy, norm_nonneg _, fun t x x' => by
      have := ((Mm.symm : E →L[ℝ] E).comp J).le_opNorm (x - x')
      rw [← map_sub, add_sub_add_right_eq_sub, ← map_sub]
      exact this⟩
  obtain ⟨C, mstar, h1, h2, h3⟩ := C103_max_step_error hR hP
  refine ⟨C, mstar, h1, h2, ?_⟩
  intro c v0 v yp0 m hc hT hj hlin hfn hM hreg hn hyp0 hb hdir hm hmle hr
  have := h3 c v0 v m 0 ⟨hc, hfn, hM, yp0, J, hn, by rw [hM]; exact hyp0⟩ hT hb hdir hm hmle le_rfl h2.le
    (by
      intro w w' fuel hw ht hs i _ hi
      have := (C85_linear_mode (sub_all hR) hc (hT ▸ esdirk_tables_ok R (sub_all hR)) hT hj hlin (J0 := (J : E →ₗ[ℝ] E))
        (r := r) hfn hreg hn (by rw [hM]; exact hyp0) hw ht hs).1 i (by rw [hT] at hi; exact hi)
      unfold stepResidual
      rw [hT]
      exact le_of_eq (norm_eq_zero.mpr this)) hr
  simpa using this

/-! ## KC4Ia -/

/-- Row sums up to `ε`. -/
def rowsNear (R : ESTable) (ε : ℚ) : Bool :=
  decide (∀ i < R.n, q2abs ε (dotLG (R.A.getD i []) (List.replicate R.n 1) - R.C.getD i 0) = true)

theorem rowsNear_sound {R : ESTable} {ε : ℚ} (hs : shapeCheck R = true) (hr : rowsNear R ε = true) {i : ℕ} (hi : i < R.n) :
    |(R.tab ℝ (√2)).C i - ∑ j ∈ range R.n, (R.tab ℝ (√2)).mat i j| ≤ (ε : ℝ) := by
  simp only [shapeCheck, rowsNear, Bool.and_eq_true, decide_eq_true_eq] at hs hr
  have h1 := q2abs_spec (hr i hi)
  rw [map_sub, dotL_eqG _ _ R.n (by left; simp), map_sum, abs_sub_comm] at h1
  rw [show (R.tab ℝ (√2)).C i = homR (R.C.getD i 0) from rfl]
  convert h1 using 3
  apply sum_congr rfl
  intro j hj
  rw [mem_range] at hj
  rw [map_mul, List.getD_eq_getElem (List.replicate R.n 1) _ (by simpa using hj), List.getElem_replicate, map_one, mul_one]
  unfold ETab.mat
  split_ifs with hji
  · rfl
  · have := hs.2 i hi j hj (by omega)
    unfold matOfG at this
    rw [this, map_zero]

/-- KC4Ia: the defects of the order conditions are at most `3e-26`, those of the row sums at most `1e-25`. -/
theorem kc4ia_near : ENearTable (KC4Ia.tab ℝ (√2)) 4 (3 / 10 ^ 26) (1 / 10 ^ 25) where
  order := C85_KC4Ia_order
  rows := fun i hi => by
    have := rowsNear_sound (R := KC4Ia) (ε := 1 / 10 ^ 25) (esdirk_shape KC4Ia (by simp)) (by decide +kernel) hi
    push_cast at this
    exact this
  ok := esdirk_tables_ok KC4Ia (by simp)
  C0 := (esdirk_start KC4Ia (by simp)).1
  A0 := (esdirk_start KC4Ia (by simp)).2

/-- The floor of the error of KC4Ia. -/
noncomputable def kc4iaFloor (L M ℓ : ℝ) : ℝ := eFloor (KC4Ia.tab ℝ (√2)) 4 L M (3 / 10 ^ 26) (1 / 10 ^ 25) ℓ

/-- **C103.** KC4Ia, whose coefficients are rounded: the same with order 4, up to a floor due to the rounding. The constants of
the problem exist (`exists_problemBounds`). -/
theorem C103_KC4Ia [CompleteSpace E] {Mm : E ≃L[ℝ] E} {f : ℝ → E → E} {y : ℝ → E} {t0 b L' : ℝ}
    (hP : EProblem Mm f y t0 b L') {ρ L B M : ℝ}
    (hp : ProblemBounds (fun t x => Mm.symm (f t x)) y t0 b 4 ρ L B M) (hsmall : kc4iaFloor L M |b - t0| < ρ / 2) :
    ∃ C hstar : ℝ, 0 ≤ C ∧ 0 < hstar ∧
      ∀ (c : ECfg ℝ E) (v0 v : ESolver ℝ E) (H δ : ℝ), ESolves c Mm f v0 t0 (y t0) → c.T = KC4Ia.tab ℝ (√2) →
        0 ≤ c.dir * (b - t0) → 0 ≤ H → H ≤ hstar → 0 ≤ δ → δ ≤ hstar → EReachWithin c f v0 t0 b H δ v →
        ‖v.st.y - y v.st.t‖ ≤ C * (H ^ 4 + δ) + kc4iaFloor L M |b - t0| :=
  esdirk_global_error hP (by norm_num) hp (by positivity) (by positivity) kc4ia_near hsmall

/-- **C103.** The floor written out, with the sum `β` of the moduli of the weights. -/
theorem C103_KC4Ia_floor (L M ℓ : ℝ) :
    kc4iaFloor L M ℓ = (33 * M * (3 / 10 ^ 26) + 2 * L * eWeightSum (KC4Ia.tab ℝ (√2)) * (1 / 10 ^ 25)) *
      (ℓ * Real.exp (2 * L * eWeightSum (KC4Ia.tab ℝ (√2)) * ℓ)) := by
  unfold kc4iaFloor eFloor nearConst spread
  simp [sum_range_succ, Nat.factorial]
  norm_num

/-! ## The residuals -/

/-- **C103.** What the residuals are: if `f` satisfies a Lipschitz condition with constant `Lf` and the stored Jacobian is bounded
by `LJ`, then the residual of an implicit stage is at most `d (Lf + |h_LU / h| LJ)` times the last Newton update `u` of that
stage; and `u` passed the convergence test: it is negligible, or its norm times `q / (1 - q)` is below `kappa`, for an
estimated rate of convergence `q < 1`. -/
theorem C103_residual {c : ECfg ℝ E} (hc : ECfgOK c) (hT : ETabOK c.T) (hd : 0 ≤ c.T.d) (hj : c.linear = false)
    (hlin : LinSolves c) {f : ℝ → E → E} (hfn : ∀ t x, c.fn t x = some (f t x)) {v0 v v' : ESolver ℝ E} {t0 : ℝ}
    {y0 yp0 : E} {J0 : E →ₗ[ℝ] E} (hn : IsNew v0 t0 y0 yp0 J0) (hr : EReach c v0 v) {fuel : ℕ} (ht : c.tb ≠ some v.st.t)
    (h : eStep c fuel v = some (.ok, v')) (hreg : RegularAt c v'.st) {Lf LJ : ℝ}
    (hLf : ∀ t x x', ‖f t x - f t x'‖ ≤ Lf * ‖x - x'‖) (hLJ : ∀ x, ‖v'.st.J x‖ ≤ LJ * ‖x‖) {i : ℕ} (h1 : 1 ≤ i)
    (h2 : i < c.T.n) :
    ∃ (u : E) (hLU : ℝ), v'.st.hLU = some hLU ∧
      ‖stepResidual c f v v' i‖ ≤ c.T.d * (Lf + |hLU / (v'.st.t - v.st.t)| * LJ) * ‖u‖ ∧
      (c.dzNorm v.st.y (stageVal c.T v.st.y (v'.st.t - v.st.t) v'.st.Ks i - c.T.d • u) u ≤ c.tinyErr ∨
        ∃ q, q < 1 ∧ c.dzNorm v.st.y (stageVal c.T v.st.y (v'.st.t - v.st.t) v'.st.Ks i - c.T.d • u) u * q / (1 - q)
          < c.T.kappa) := by
  obtain ⟨l, a, hv, hL, ha, hcv, hrun, e1, e2, e3, e4, e5, e6, -⟩ :=
    eStep_accepted hc (hr.inv hc hn.inv) ht h
  have hh : v'.st.t - v.st.t = l.hAbs * c.dir := by rw [e1]; ring
  unfold stepResidual stageDefect
  rw [hh]
  have hne : l.hAbs * c.dir ≠ 0 := by
    rcases hc.dir with hd | hd <;> rw [hd] <;> simp [hL.pos.ne']
  obtain ⟨s1, s2⟩ := stages_spec ha hcv
  obtain ⟨o, o1, o2, o3, -⟩ := s2 i (by omega) (by omega)
  obtain ⟨-, -, h4⟩ := newton_contract (z0 := _) o1 rfl
  obtain ⟨-, z1, g, -, hf, hz, htest⟩ := h4 o2
  obtain ⟨hLU, q1, q2, -, q4⟩ := C37_factors_current hc hlin hn hr hrun ht hv
  have hy : (s1Of c l).y = v.st.y := (factors_y _ _ _).trans hL.y
  have htt : (s1Of c l).t = v.st.t := (factors_t _ _ _).trans hL.t
  have hJ : (s1Of c l).J = v'.st.J := by rw [e5]; exact factors_J _ _ _
  have hval := stageVal_eq hT (y := v.st.y) h1 h2 hne o3
  rw [e3]
  rw [hJ] at q4
  have hq := q4 (hreg _ (e6.trans q1)) ((l.hAbs * c.dir) • g - c.M z1)
  set u : E := c.lin (scOf c l) (factOf c l) ((l.hAbs * c.dir) • g - c.M z1) with hu
  have hz' : o.z = z1 + u := hz
  have hpt : stageVal c.T v.st.y (l.hAbs * c.dir) a.Ks i - c.T.d • u =
      ePsi c.T (s1Of c l).y (l.hAbs * c.dir) a.Ks i + c.T.d • z1 := by
    rw [← hval, hz', hy, smul_add]; abel
  have hg : g = f (v.st.t + c.T.C i * (l.hAbs * c.dir)) (stageVal c.T v.st.y (l.hAbs * c.dir) a.Ks i - c.T.d • u) := by
    have hf' : c.fn ((s1Of c l).t + c.T.C i * (l.hAbs * c.dir))
      (ePsi c.T (s1Of c l).y (l.hAbs * c.dir) a.Ks i + c.T.d • z1) = some g := hf
    rw [hfn, htt, ← hpt] at hf'
    exact (Option.some.inj hf').symm
  have hMK : c.M (a.Ks i) = g + (hLU * c.T.d / (l.hAbs * c.dir)) • v'.st.J u := by
    rw [o3, hz', map_smul, map_add]
    have : c.M z1 + c.M u = (l.hAbs * c.dir) • g + (hLU * c.T.d) • v'.st.J u := by
      have : c.M u = (l.hAbs * c.dir) • g - c.M z1 + (hLU * c.T.d) • v'.st.J u := by rw [← hq]; abel
      rw [this]; abel
    rw [this, smul_add, smul_smul, smul_smul, inv_mul_cancel₀ hne, one_smul]
    congr 2
    field_simp
  refine ⟨u, hLU, by rw [e6, q1], ?_, ?_⟩
  · rw [hMK, ← sub_sub, hg]
    refine (norm_sub_le _ _).trans ?_
    have a1 := hLf (v.st.t + c.T.C i * (l.hAbs * c.dir)) (stageVal c.T v.st.y (l.hAbs * c.dir) a.Ks i)
      (stageVal c.T v.st.y (l.hAbs * c.dir) a.Ks i - c.T.d • u)
    rw [sub_sub_cancel, norm_smul, Real.norm_eq_abs, abs_of_nonneg hd] at a1
    have a2 : ‖(hLU * c.T.d / (l.hAbs * c.dir)) • v'.st.J u‖ ≤ |hLU / (l.hAbs * c.dir)| * c.T.d * (LJ * ‖u‖) := by
      rw [norm_smul, Real.norm_eq_abs, show hLU * c.T.d / (l.hAbs * c.dir) = hLU / (l.hAbs * c.dir) * c.T.d by ring,
        abs_mul, abs_of_nonneg hd]
      exact mul_le_mul_of_nonneg_left (hLJ u) (mul_nonneg (abs_nonneg _) hd)
    calc _ ≤ _ := add_le_add a1 a2
      _ = _ := by ring
  · rw [hpt, ← hy]
    rcases htest with hl | hl | ⟨q, -, hq1, -, hl⟩
    · rw [hj] at hl; cases hl
    · exact Or.inl hl
    · refine Or.inr ⟨q, hq1, ?_⟩
      rw [div_lt_iff₀ (by linarith)]
      exact hl

/-! ## Witness -/

/-- The decay equation `y' = -y` in linear mode with a `max_step`. -/
noncomputable def exConv (R : ESTable) (m : ℝ) : ECfg ℝ ℂ := { exStab R (-1) with maxStep := some m }

theorem exConv_ok (R : ESTable) {m : ℝ} (hm : 0 < m) : ECfgOK (exConv R m) :=
  { exStab_ok R (-1) with maxStep := fun m' h => by cases h; exact hm }

/-- It meets the hypotheses of `C103_linear_mode` (and so of `C103_max_step_error`): its error is at most `C max_step^4` with
KC4I. -/
example : ∃ C mstar : ℝ, 0 ≤ C ∧ 0 < mstar ∧ ∀ m, 0 < m → m ≤ mstar → ∀ v,
    EReach (exConv KC4I m) (newESolver 0 1 (-1) (mulC (-1)) (1 / 2) (fun _ => 0) 1 0) v →
    ‖v.st.y - Complex.exp (-v.st.t)‖ ≤ C * m ^ 4 := by
  let J : ℂ →L[ℝ] ℂ := -(ContinuousLinearMap.id ℝ ℂ)
  have hJ : (J : ℂ →ₗ[ℝ] ℂ) = mulC (-1) := by ext <;> simp [J, mulC]
  have hy : SolvesOn (fun t x => (ContinuousLinearEquiv.refl ℝ ℂ).symm (J x + (fun _ => 0) t))
      (fun t : ℝ => Complex.exp (-(t : ℂ))) 0 10 := by
    constructor
    · intro t _
      refine ContDiffAt.add ?_ contDiffAt_const
      exact (J.contDiff.contDiffAt).comp _ contDiffAt_snd
    · intro t _
      refine Filter.Eventually.of_forall fun s => ?_
      have h1 : HasDerivAt (fun z : ℂ => Complex.exp (-z)) (Complex.exp (-(s : ℂ)) * -1) (s : ℂ) :=
        (hasDerivAt_neg (s : ℂ)).cexp
      have h2 := h1.comp_ofReal
      simpa [J] using h2
  obtain ⟨C, mstar, h1, h2, h3⟩ := C103_linear_mode (R := KC4I) (by simp) hy
  refine ⟨C, mstar, h1, h2, fun m hm hle v hr => ?_⟩
  have := h3 (exConv KC4I m) (newESolver 0 1 (-1) (mulC (-1)) (1 / 2) (fun _ => 0) 1 0) v (-1) m (exConv_ok _ hm) rfl rfl
    (exStab_solves KC4I (-1)) (fun t x => by simp [exConv, exStab, J]) (fun x => by simp [exConv, exStab, mulC])
    (fun h hh => by
      rw [hJ]
      have hd : 0 < (KC4I.tab ℝ (√2)).d := by
        have := q2nonneg_spec (x := KC4I.d - ⟨1 / 10, 0⟩) (by decide +kernel)
        rw [map_sub, homR_val ⟨1 / 10, 0⟩, Q2.val] at this
        show 0 < homR KC4I.d
        norm_num at this
        linarith
      intro x
      refine ⟨x / (1 + h * (KC4I.tab ℝ (√2)).d : ℝ), ?_⟩
      have hne : ((1 + h * (KC4I.tab ℝ (√2)).d : ℝ) : ℂ) ≠ 0 := by
        rw [Ne, Complex.ofReal_eq_zero]; positivity
      simp only [exConv, exStab, mulC, LinearMap.coe_mk, AddHom.coe_mk, Complex.real_smul]
      field_simp
      push_cast
      ring)
    ⟨1 / 2, fun _ => 0, 1, 0, by norm_num, by simp [hJ]⟩ (by simp [J]) rfl (by simp [exConv, exStab]) rfl hle hr
  exact this

/-- The hypotheses of `C103_KC4Ia` are met by `y' = -y` on `[0, 1]`. -/
example : ∃ ρ B M L' : ℝ, EProblem (ContinuousLinearEquiv.refl ℝ ℝ) (fun _ x => -x) (fun t => Real.exp (-t)) 0 1 L' ∧
    ProblemBounds (fun (_ : ℝ) (x : ℝ) => -x) (fun t => Real.exp (-t)) 0 1 4 ρ 1 B M ∧ kc4iaFloor 1 M |1 - 0| < ρ / 2 := by
  obtain ⟨M, hM⟩ := exDecay_bounds 4
  have hf : 0 ≤ kc4iaFloor 1 M |1 - 0| := by
    have h1 := nearConst_nonneg 4
    have h2 := eWeightSum_nonneg (KC4Ia.tab ℝ (√2))
    have h3 := (hM 1 one_pos).diff
    have h4 := spread_nonneg (2 * 1 * eWeightSum (KC4Ia.tab ℝ (√2))) (abs_nonneg ((1 : ℝ) - 0))
    unfold kc4iaFloor eFloor
    positivity
  refine ⟨2 * kc4iaFloor 1 M |1 - 0| + 1, _, M, 1, ⟨exDecay_solves, zero_le_one, fun t x x' => ?_⟩, hM _ (by linarith), by linarith⟩
  rw [one_mul]
  show ‖-x - -x'‖ ≤ ‖x - x'‖
  rw [neg_sub_neg, norm_sub_rev]

end Extensisq
