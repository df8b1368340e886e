import Verif.Props.EsdirkConvergence
import Verif.Props.ChebDense
import Verif.Props.EsdirkDenseWitness

/-!
# Convergence of the dense output of the ESDIRK methods (C106)
-/

set_option linter.unusedSectionVars false
set_option maxRecDepth 100000

namespace Extensisq
open scoped ContDiff
open Finset Asymptotics Filter Topology

variable {E : Type*} [NormedAddCommGroup E] [NormedSpace ℝ E]

/-! ## Any table, any weights -/

theorem EReachWithin.mem {c : ECfg ℝ E} {f : ℝ → E → E} {v0 v : ESolver ℝ E} {t0 b H δ : ℝ} (h0 : v0.st.t = t0)
    (h : EReachWithin c f v0 t0 b H δ v) : v.st.t ∈ Set.uIcc t0 b := by
  cases h with
  | refl => rw [h0]; exact Set.left_mem_uIcc
  | tail _ _ _ _ h _ => exact h

/-- A successful step from `v` to `v'`, not longer than `H`, with residuals of the implicit stages of at most `δ`. -/
structure EStepWithin (c : ECfg ℝ E) (f : ℝ → E → E) (H δ : ℝ) (v v' : ESolver ℝ E) : Prop where
  step : ∃ fuel, eStep c fuel v = some (.ok, v')
  time : c.tb ≠ some v.st.t
  short : |v'.st.t - v.st.t| ≤ H
  res : ∀ i, 1 ≤ i → i < c.T.n → ‖stepResidual c f v v' i‖ ≤ δ

/-- The weights `w i θ` of the stages satisfy the order conditions at all scaled times of `Θ` up to `δd`. -/
structure EDenseTable (T : ETab ℝ) (q : ℕ) (w : ℕ → ℝ → ℝ) (Θ : Set ℝ) (β δd : ℝ) : Prop where
  compact : IsCompact Θ
  smooth : ∀ i, ContDiff ℝ (q + 1 : ℕ) (w i)
  order : ∀ θ ∈ Θ, ∀ τ : OTree, τ.size ≤ q →
    |∑ i ∈ range T.n, w i θ * τ.weight T.n T.mat i - θ ^ τ.size / (τ.dens : ℝ)| ≤ δd
  sum : ∀ θ ∈ Θ, ∑ i ∈ range T.n, |w i θ| ≤ β

set_option maxHeartbeats 800000 in
/-- **C106**, any table and any weights. -/
theorem esdirk_dense_error [CompleteSpace E] {Mm : E ≃L[ℝ] E} {f : ℝ → E → E} {y : ℝ → E} {t0 b L' : ℝ}
    (hP : EProblem Mm f y t0 b L') {q : ℕ} {ρ L B M : ℝ} (hq : 1 ≤ q)
    (hp : ProblemBounds (fun t x => Mm.symm (f t x)) y t0 b q ρ L B M) {T : ETab ℝ} {δ0 γ : ℝ} (hδ0 : 0 ≤ δ0) (hγ : 0 ≤ γ)
    (hT : ENearTable T q δ0 γ) (hsmall : eFloor T q L M δ0 γ |b - t0| < ρ / 2)
    {w : ℕ → ℝ → ℝ} {Θ : Set ℝ} {β δd : ℝ} (hβ : 0 ≤ β) (hδd : 0 ≤ δd) (hw : EDenseTable T q w Θ β δd) :
    ∃ C hstar : ℝ, 0 ≤ C ∧ 0 < hstar ∧
      ∀ (c : ECfg ℝ E) (v0 v v' : ESolver ℝ E) (H δ : ℝ), ESolves c Mm f v0 t0 (y t0) → c.T = T →
        0 ≤ c.dir * (b - t0) → 0 ≤ H → H ≤ hstar → 0 ≤ δ → δ ≤ hstar → EReachWithin c f v0 t0 b H δ v →
        EStepWithin c f H δ v v' → ∀ θ ∈ Θ,
        ‖v.st.y + (v'.st.t - v.st.t) • ∑ i ∈ range T.n, w i θ • v'.st.Ks i - y (v.st.t + θ * (v'.st.t - v.st.t))‖ ≤
          C * (H ^ q + δ) + 2 * eFloor T q L M δ0 γ |b - t0| + (nearConst q * M * δd + 2 * L * β * γ) * H := by
  have hn2 := hT.ok.n
  obtain ⟨C1, h1, a1, a2, a3⟩ := esdirk_global_error hP hq hp hδ0 hγ hT hsmall
  obtain ⟨ε, C2, b1, b2, b3⟩ := implicit_step_dense hp hP.solves hP.pos hP.lip (n := T.n) (by omega) (A := T.mat) (c := T.C)
    (w := w) hw.compact hw.smooth (β := β) (γ := γ) (δ := δd) hδd hγ hw.order hw.sum hT.rows
  have hL0 := hp.lip
  have hM0 := hp.diff
  have hk0 := nearConst_nonneg q
  set F := eFloor T q L M δ0 γ |b - t0| with hF
  have hF0 : 0 ≤ F := by
    have := spread_nonneg (2 * L * eWeightSum T) (abs_nonneg (b - t0))
    have := eWeightSum_nonneg T
    rw [hF]; unfold eFloor; positivity
  set η := ρ / 2 - F with hη
  have hη0 : 0 < η := by rw [hη]; linarith
  set R := 4 * β * T.n * ‖(Mm.symm : E →L[ℝ] E)‖ with hR
  have hR0 : 0 ≤ R := by positivity
  refine ⟨2 * C1 + C2 + R, min h1 (min 1 (min (ε / 2) (min (η / (4 * (C1 + 1))) (1 / (2 * L * β + 1))))), by positivity,
    by positivity, ?_⟩
  intro c v0 v v' H δ hsol hcT hdir hH0 hH hd0 hd hr hstep θ hθ
  subst hcT
  obtain ⟨yp0, J0, hn, hyp0⟩ := hsol.new
  have hc := hsol.ok
  simp only [le_min_iff] at hH hd
  obtain ⟨c1, c2, c3, c4, c5⟩ := hH
  obtain ⟨d1, -, -, d4, -⟩ := hd
  rw [le_div_iff₀ (by positivity)] at c4 d4 c5
  have hpow : H ^ q ≤ H := by
    calc H ^ q ≤ H ^ 1 := pow_le_pow_of_le_one hH0 c2 hq
      _ = H := pow_one H
  have hHq : 0 ≤ H ^ q := by positivity
  have herr := a3 c v0 v H δ hsol rfl hdir hH0 c1 hd0 d1 hr
  have ht0 : v0.st.t = t0 := by obtain ⟨h0, Ks0, nfev, njev, hh, rfl⟩ := hn.new; rfl
  have hlt : ‖v.st.y - y v.st.t‖ < ρ / 2 := by
    refine herr.trans_lt ?_
    have : C1 * H ^ q ≤ C1 * H := mul_le_mul_of_nonneg_left hpow a1
    nlinarith
  obtain ⟨fuel, hs⟩ := hstep.step
  obtain ⟨-, -, -, hpos'⟩ := eStep_history hc (hr.reach.inv hc hn.inv) hstep.time hs
  rcases hr.step hc hT.ok hT.C0 hT.A0 hd0 hn hyp0 hs (fun _ _ => hstep.res) with ⟨e1, e2⟩ | ⟨h, hpos, et, ey, hdef⟩
  · rw [e1, sub_self, zero_mul] at hpos'
    exact absurd hpos' (lt_irrefl _)
  have eh : v'.st.t - v.st.t = h := by rw [et]; ring
  have hle := hstep.short
  rw [eh] at hle ⊢
  have hb := b3 v.st.t (hr.mem ht0) θ hθ v.st.y h (‖(Mm.symm : E →L[ℝ] E)‖ * δ) v'.st.Ks hlt (by linarith) (by positivity)
    (by
      intro i hi
      have h6 := hdef i hi
      unfold stageDefect at h6
      rw [stageVal_mat hi, hsol.mass] at h6
      have h7 := ((Mm.symm : E →L[ℝ] E).le_opNorm _).trans (mul_le_mul_of_nonneg_left h6 (norm_nonneg _))
      rw [map_sub] at h7
      simpa using h7)
  refine hb.trans ?_
  have hh0 := abs_nonneg h
  have hLβ : 0 ≤ L * β := by positivity
  have t1 : (1 + 2 * L * β * |h|) * ‖v.st.y - y v.st.t‖ ≤ 2 * (C1 * (H ^ q + δ) + F) := by
    refine mul_le_mul ?_ herr (norm_nonneg _) (by norm_num)
    have : L * β * |h| ≤ L * β * H := mul_le_mul_of_nonneg_left hle hLβ
    nlinarith
  have t2 : (nearConst q * M * δd + 2 * L * β * γ) * |h| ≤ (nearConst q * M * δd + 2 * L * β * γ) * H :=
    mul_le_mul_of_nonneg_left hle (by positivity)
  have t3 : 4 * β * c.T.n * (‖(Mm.symm : E →L[ℝ] E)‖ * δ) * |h| ≤ R * δ := by
    have e : 4 * β * c.T.n * (‖(Mm.symm : E →L[ℝ] E)‖ * δ) = R * δ := by rw [hR]; ring
    rw [e]
    exact mul_le_of_le_one_right (by positivity) (by linarith)
  have t4 : C2 * |h| ^ (q + 1) ≤ C2 * H ^ q := by
    apply mul_le_mul_of_nonneg_left _ b2
    rw [pow_succ]
    refine (mul_le_of_le_one_right (by positivity) (by linarith)).trans (pow_le_pow_left₀ hh0 hle _)
  have t5 : 0 ≤ C2 * δ := by positivity
  have t6 : 0 ≤ R * H ^ q := by positivity
  nlinarith

/-! ## The polynomial interpolants -/

/-- Column `j` of the interpolant. -/
def pCol (P : List (List Q2)) (j : ℕ) : List Q2 := P.map fun row => row.getD j 0

theorem pCol_getD (P : List (List Q2)) (i j : ℕ) : (pCol P j).getD i 0 = (P.getD i []).getD j 0 := by
  unfold pCol
  by_cases hi : i < P.length
  · rw [List.getD_eq_getElem _ _ (by simpa using hi), List.getD_eq_getElem _ _ hi, List.getElem_map]
  · rw [List.getD_eq_default _ _ (by simpa using hi), List.getD_eq_default P _ (by simpa using hi)]
    simp

/-- The continuous order conditions, coefficient by coefficient: `sum_i P_ij Phi_i(τ)` is `1 / γ(τ)` for `j + 1 = |τ|` and
zero otherwise, up to `ε`, for all trees up to order `q`. -/
def denseNear (R : ESTable) (P : List (List Q2)) (ε : ℚ) (q : ℕ) : Bool :=
  decide (q ≤ (P.getD 0 []).length) && (List.range (P.getD 0 []).length).all fun j =>
    treeCheckG R.A (fun k v g => q2abs ε (dotLG (pCol P j) v - ⟨if k = j + 1 then 1 / (g : ℚ) else 0, 0⟩)) q

/-- Sum of the moduli of the coefficients of the interpolant. -/
noncomputable def eDenseSum (n : ℕ) (P : List (List Q2)) : ℝ :=
  ∑ i ∈ range n, ∑ j ∈ range (P.getD 0 []).length, |((P.getD i []).getD j 0).val √2|

theorem eDenseSum_nonneg (n : ℕ) (P : List (List Q2)) : 0 ≤ eDenseSum n P :=
  sum_nonneg fun _ _ => sum_nonneg fun _ _ => abs_nonneg _

theorem denseNear_sound {R : ESTable} (hs : shapeCheck R = true) {P : List (List Q2)} {ε : ℚ} {q : ℕ}
    (h : denseNear R P ε q = true) :
    EDenseTable (R.tab ℝ (√2)) q (eWeight ℝ (√2) P) (Set.Icc 0 1) (eDenseSum R.n P) ((P.getD 0 []).length * (ε : ℝ)) := by
  simp only [denseNear, Bool.and_eq_true, decide_eq_true_eq, List.all_eq_true, List.mem_range] at h
  obtain ⟨hlen, h⟩ := h
  refine ⟨isCompact_Icc, fun i => ?_, fun θ hθ τ hτ => ?_, fun θ hθ => ?_⟩
  · unfold eWeight
    exact ContDiff.sum fun j _ => (contDiff_id.pow _).mul contDiff_const
  · show |∑ i ∈ range R.n, eWeight ℝ (√2) P i θ * τ.weight R.n (R.tab ℝ (√2)).mat i - θ ^ τ.size / (τ.dens : ℝ)| ≤ _
    have hpos : 1 ≤ τ.size := by cases τ; simp [OTree.size]
    have e1 : ∑ i ∈ range R.n, eWeight ℝ (√2) P i θ * τ.weight R.n (R.tab ℝ (√2)).mat i =
        ∑ j ∈ range (P.getD 0 []).length, θ ^ (j + 1) *
          ∑ i ∈ range R.n, homR ((pCol P j).getD i 0) * τ.weight R.n (R.tab ℝ (√2)).mat i := by
      simp only [eWeight, sum_mul, mul_sum]
      rw [sum_comm]
      refine sum_congr rfl fun j _ => sum_congr rfl fun i _ => ?_
      rw [pCol_getD, homR_val]; ring
    have e2 : θ ^ τ.size / (τ.dens : ℝ) = ∑ j ∈ range (P.getD 0 []).length, θ ^ (j + 1) *
        (if τ.size = j + 1 then 1 / (τ.dens : ℝ) else 0) := by
      rw [sum_eq_single (τ.size - 1)]
      · rw [if_pos (by omega), show τ.size - 1 + 1 = τ.size by omega]; ring
      · intro j _ hj
        rw [if_neg (by omega), mul_zero]
      · intro hj
        exact absurd (mem_range.mpr (by omega)) hj
    rw [e1, e2, ← sum_sub_distrib]
    refine (abs_sum_le_sum_abs _ _).trans ?_
    refine (sum_le_sum (g := fun _ => (ε : ℝ)) fun j hj => ?_).trans (by rw [sum_const, card_range, nsmul_eq_mul])
    have h1 := q2abs_spec (treeCheckG_sound (h j (mem_range.mp hj)) τ hτ)
    rw [map_sub, (shape_weight hs τ _).2] at h1
    have e : homR ⟨if τ.size = j + 1 then 1 / (τ.dens : ℚ) else 0, 0⟩ = if τ.size = j + 1 then 1 / (τ.dens : ℝ) else 0 := by
      rw [homR_val, Q2.val]
      split_ifs <;> simp
    rw [e] at h1
    rw [← mul_sub, abs_mul, abs_of_nonneg (pow_nonneg hθ.1 _)]
    exact (mul_le_of_le_one_left (abs_nonneg _) (pow_le_one₀ hθ.1 hθ.2)).trans h1
  · refine sum_le_sum fun i _ => ?_
    unfold eWeight
    refine (abs_sum_le_sum_abs _ _).trans (sum_le_sum fun j _ => ?_)
    rw [abs_mul, abs_of_nonneg (pow_nonneg hθ.1 _)]
    exact mul_le_of_le_one_left (abs_nonneg _) (pow_le_one₀ hθ.1 hθ.2)

/-- The tables: KC3I satisfies the continuous order conditions exactly, the others up to the rounding of their interpolants. -/
theorem C106_conditions :
    (denseNear KC3I KC3I.P0 0 3 && denseNear KC3I KC3I.P1 0 3 && denseNear KC4I KC4I.P0 (1 / 10 ^ 25) 4
      && denseNear KC4I KC4I.P1 (2 / 10 ^ 14) 4 && denseNear KC4Ia KC4Ia.P0 (2 / 10 ^ 14) 4
      && denseNear KC4Ia KC4Ia.P1 (1 / 10 ^ 14) 4 && denseNear Kv3I Kv3I.P0 (1 / 10 ^ 14) 3
      && denseNear Kv3I Kv3I.P1 (7 / 10 ^ 14) 3) = true := by decide +kernel

/-- The dense output of a step in terms of the scaled time. -/
theorem kcDense_step {c : ECfg ℝ E} {R : ESTable} (hc : ECfgOK c) {v0 v v' : ESolver ℝ E} {t0 : ℝ} {y0 yp0 : E}
    {J0 : E →ₗ[ℝ] E} (hn : IsNew v0 t0 y0 yp0 J0) (hr : EReach c v0 v) {fuel : ℕ} (ht : c.tb ≠ some v.st.t)
    (h : eStep c fuel v = some (.ok, v')) (P : List (List Q2)) :
    ∃ o, kcDense √2 R.n P v' = some o ∧ ∀ x ∈ Set.uIcc v.st.t v'.st.t, ∃ θ ∈ Set.Icc (0 : ℝ) 1,
      x = v.st.t + θ * (v'.st.t - v.st.t) ∧
      o.eval x = v.st.y + (v'.st.t - v.st.t) • ∑ i ∈ range R.n, eWeight ℝ (√2) P i θ • v'.st.Ks i := by
  obtain ⟨hne, e⟩ := kcDense_eq hc (hr.inv hc hn.inv) ht h √2 R.n P
  refine ⟨_, e, fun x hx => ⟨(x - v.st.t) / (v'.st.t - v.st.t), ?_, ?_, ?_⟩⟩
  · have hne' : v'.st.t - v.st.t ≠ 0 := sub_ne_zero.mpr hne
    rcases Set.mem_uIcc.mp hx with ⟨a, b⟩ | ⟨a, b⟩
    · have : 0 < v'.st.t - v.st.t := lt_of_le_of_ne (by linarith) hne'.symm
      exact ⟨div_nonneg (by linarith) this.le, (div_le_one this).mpr (by linarith)⟩
    · have : v'.st.t - v.st.t < 0 := lt_of_le_of_ne (by linarith) hne'
      exact ⟨div_nonneg_of_nonpos (by linarith) this.le, (div_le_one_of_neg this).mpr (by linarith)⟩
  · rw [div_mul_cancel₀ _ (sub_ne_zero.mpr hne)]; ring
  · dsimp only
    rw [horner_eDenseQ]

theorem kc_dense_near {R : ESTable} (hR : R ∈ kcMethods) {opt : String} {P : List (List Q2)}
    (hP : kcInterpolant R opt = some P) : denseNear R P (7 / 10 ^ 14) R.order = true ∧ (P.getD 0 []).length ≤ 4 := by
  have h : ∀ R ∈ kcMethods, ∀ P ∈ [R.P0, R.P1], denseNear R P (7 / 10 ^ 14) R.order = true ∧ (P.getD 0 []).length ≤ 4 := by
    intro R hR P hP
    simp only [kcMethods, List.mem_cons, List.not_mem_nil, or_false] at hR hP
    rcases hR with rfl | rfl | rfl | rfl <;> rcases hP with rfl | rfl <;> decide +kernel
  apply h R hR
  unfold kcInterpolant at hP
  split_ifs at hP <;> cases hP <;> simp

theorem EDenseTable.mono {T : ETab ℝ} {q : ℕ} {w : ℕ → ℝ → ℝ} {Θ : Set ℝ} {β δ δ' : ℝ} (h : EDenseTable T q w Θ β δ)
    (hle : δ ≤ δ') : EDenseTable T q w Θ β δ' :=
  ⟨h.compact, h.smooth, fun θ hθ τ hτ => (h.order θ hθ τ hτ).trans hle, h.sum⟩

theorem kc_dense_table {R : ESTable} (hR : R ∈ kcMethods) {opt : String} {P : List (List Q2)}
    (hP : kcInterpolant R opt = some P) :
    EDenseTable (R.tab ℝ (√2)) R.order (eWeight ℝ (√2) P) (Set.Icc 0 1) (eDenseSum R.n P) (3 / 10 ^ 13) := by
  obtain ⟨h1, h2⟩ := kc_dense_near hR hP
  refine (denseNear_sound (esdirk_shape R ?_) h1).mono ?_
  · simp only [kcMethods, List.mem_cons, List.not_mem_nil, or_false] at hR ⊢
    tauto
  · push_cast
    have : ((P.getD 0 []).length : ℝ) ≤ 4 := by exact_mod_cast h2
    nlinarith

/-- **C106.** Dense output of KC3I, KC4I and Kv3I with either interpolant: within every step of length at most `H` of a history
of such steps with residuals of at most `δ`, the output differs from the solution by at most `C (H^order + δ)`, plus
`(sum of factorials) M 3e-13 H` due to the rounding of the interpolants. The constants of the problem exist
(`exists_problemBounds`). -/
theorem C106_KC_dense [CompleteSpace E] {R : ESTable} (hR : R ∈ [KC3I, KC4I, Kv3I]) {opt : String} {P : List (List Q2)}
    (hopt : kcInterpolant R opt = some P) {Mm : E ≃L[ℝ] E}
    {f : ℝ → E → E} {y : ℝ → E} {t0 b L' : ℝ} (hP : EProblem Mm f y t0 b L') {ρ L B M : ℝ}
    (hp : ProblemBounds (fun t x => Mm.symm (f t x)) y t0 b R.order ρ L B M) :
    ∃ C hstar : ℝ, 0 ≤ C ∧ 0 < hstar ∧
      ∀ (c : ECfg ℝ E) (v0 v v' : ESolver ℝ E) (H δ : ℝ), ESolves c Mm f v0 t0 (y t0) → c.T = R.tab ℝ (√2) →
        0 ≤ c.dir * (b - t0) → 0 ≤ H → H ≤ hstar → 0 ≤ δ → δ ≤ hstar → EReachWithin c f v0 t0 b H δ v →
        EStepWithin c f H δ v v' →
        ∃ o, kcDense √2 R.n P v' = some o ∧ ∀ x ∈ Set.uIcc v.st.t v'.st.t,
          ‖o.eval x - y x‖ ≤ C * (H ^ R.order + δ) + nearConst R.order * M * (3 / 10 ^ 13) * H := by
  have hR' : R ∈ [TRBDF2, TRX2, KC3I, KC4I, Kv3I] := by
    simp only [List.mem_cons, List.not_mem_nil, or_false] at hR ⊢; tauto
  have hR'' : R ∈ kcMethods := by
    simp only [kcMethods, List.mem_cons, List.not_mem_nil, or_false] at hR ⊢; tauto
  have h0 : eFloor (R.tab ℝ (√2)) R.order L M 0 0 |b - t0| = 0 := by unfold eFloor; ring
  obtain ⟨C, hstar, h1, h2, h3⟩ := esdirk_dense_error hP (order_pos hR') hp le_rfl le_rfl (exact_near hR')
    (by rw [h0]; linarith [hp.rho]) (eDenseSum_nonneg R.n P) (by positivity) (kc_dense_table hR'' hopt)
  refine ⟨C, hstar, h1, h2, fun c v0 v v' H δ hs hT hdir hH0 hH hd0 hd hr hst => ?_⟩
  obtain ⟨yp0, J0, hn, hyp0⟩ := hs.new
  obtain ⟨fuel, hst'⟩ := hst.step
  obtain ⟨o, o1, o2⟩ := kcDense_step (R := R) hs.ok hn hr.reach hst.time hst' P
  refine ⟨o, o1, fun x hx => ?_⟩
  obtain ⟨θ, hθ, ex, eo⟩ := o2 x hx
  have := h3 c v0 v v' H δ hs hT hdir hH0 hH hd0 hd hr hst θ hθ
  rw [eo, ex]
  rw [h0] at this
  simp only [mul_zero, add_zero, zero_mul] at this
  exact this

/-- **C106.** For KC3I, whose interpolants are exact, `C (H^3 + δ)`. -/
theorem C106_KC3I_dense [CompleteSpace E] {opt : String} {P : List (List Q2)}
    (hopt : kcInterpolant KC3I opt = some P) {Mm : E ≃L[ℝ] E}
    {f : ℝ → E → E} {y : ℝ → E} {t0 b L' : ℝ} (hP : EProblem Mm f y t0 b L') :
    ∃ C hstar : ℝ, 0 ≤ C ∧ 0 < hstar ∧
      ∀ (c : ECfg ℝ E) (v0 v v' : ESolver ℝ E) (H δ : ℝ), ESolves c Mm f v0 t0 (y t0) → c.T = KC3I.tab ℝ (√2) →
        0 ≤ c.dir * (b - t0) → 0 ≤ H → H ≤ hstar → 0 ≤ δ → δ ≤ hstar → EReachWithin c f v0 t0 b H δ v →
        EStepWithin c f H δ v v' →
        ∃ o, kcDense √2 KC3I.n P v' = some o ∧ ∀ x ∈ Set.uIcc v.st.t v'.st.t, ‖o.eval x - y x‖ ≤ C * (H ^ 3 + δ) := by
  have hR' : KC3I ∈ [TRBDF2, TRX2, KC3I, KC4I, Kv3I] := by simp
  obtain ⟨ρ, L, B, M, hp⟩ := exists_problemBounds hP.solves KC3I.order
  have h0 : eFloor (KC3I.tab ℝ (√2)) KC3I.order L M 0 0 |b - t0| = 0 := by unfold eFloor; ring
  have hd : denseNear KC3I P 0 3 = true := by
    have h1 : denseNear KC3I KC3I.P0 0 3 = true := by decide +kernel
    have h2 : denseNear KC3I KC3I.P1 0 3 = true := by decide +kernel
    unfold kcInterpolant at hopt
    split_ifs at hopt <;> cases hopt <;> assumption
  have hd' := denseNear_sound (esdirk_shape KC3I (by simp)) hd
  rw [Rat.cast_zero, mul_zero] at hd'
  obtain ⟨C, hstar, h1, h2, h3⟩ := esdirk_dense_error hP (order_pos hR') hp le_rfl le_rfl (exact_near hR')
    (by rw [h0]; linarith [hp.rho]) (eDenseSum_nonneg KC3I.n P) le_rfl hd'
  refine ⟨C, hstar, h1, h2, fun c v0 v v' H δ hs hT hdir hH0 hH hd0 hd hr hst => ?_⟩
  obtain ⟨yp0, J0, hn, hyp0⟩ := hs.new
  obtain ⟨fuel, hst'⟩ := hst.step
  obtain ⟨o, o1, o2⟩ := kcDense_step (R := KC3I) hs.ok hn hr.reach hst.time hst' P
  refine ⟨o, o1, fun x hx => ?_⟩
  obtain ⟨θ, hθ, ex, eo⟩ := o2 x hx
  have := h3 c v0 v v' H δ hs hT hdir hH0 hH hd0 hd hr hst θ hθ
  rw [eo, ex]
  rw [h0] at this
  simp only [mul_zero, add_zero, zero_mul] at this
  exact this

/-- **C106.** KC4Ia, whose coefficients are rounded too. -/
theorem C106_KC4Ia_dense [CompleteSpace E] {opt : String} {P : List (List Q2)}
    (hopt : kcInterpolant KC4Ia opt = some P) {Mm : E ≃L[ℝ] E}
    {f : ℝ → E → E} {y : ℝ → E} {t0 b L' : ℝ} (hP : EProblem Mm f y t0 b L') {ρ L B M : ℝ}
    (hp : ProblemBounds (fun t x => Mm.symm (f t x)) y t0 b 4 ρ L B M) (hsmall : kc4iaFloor L M |b - t0| < ρ / 2) :
    ∃ C hstar : ℝ, 0 ≤ C ∧ 0 < hstar ∧
      ∀ (c : ECfg ℝ E) (v0 v v' : ESolver ℝ E) (H δ : ℝ), ESolves c Mm f v0 t0 (y t0) → c.T = KC4Ia.tab ℝ (√2) →
        0 ≤ c.dir * (b - t0) → 0 ≤ H → H ≤ hstar → 0 ≤ δ → δ ≤ hstar → EReachWithin c f v0 t0 b H δ v →
        EStepWithin c f H δ v v' →
        ∃ o, kcDense √2 KC4Ia.n P v' = some o ∧ ∀ x ∈ Set.uIcc v.st.t v'.st.t,
          ‖o.eval x - y x‖ ≤ C * (H ^ 4 + δ) + 2 * kc4iaFloor L M |b - t0| +
            (33 * M * (3 / 10 ^ 13) + 2 * L * eDenseSum KC4Ia.n P * (1 / 10 ^ 25)) * H := by
  obtain ⟨C, hstar, h1, h2, h3⟩ := esdirk_dense_error hP (by norm_num) hp (by positivity) (by positivity) kc4ia_near hsmall
    (eDenseSum_nonneg KC4Ia.n P) (by positivity) (kc_dense_table (R := KC4Ia) (by simp [kcMethods]) hopt)
  refine ⟨C, hstar, h1, h2, fun c v0 v v' H δ hs hT hdir hH0 hH hd0 hd hr hst => ?_⟩
  obtain ⟨yp0, J0, hn, hyp0⟩ := hs.new
  obtain ⟨fuel, hst'⟩ := hst.step
  obtain ⟨o, o1, o2⟩ := kcDense_step (R := KC4Ia) hs.ok hn hr.reach hst.time hst' P
  refine ⟨o, o1, fun x hx => ?_⟩
  obtain ⟨θ, hθ, ex, eo⟩ := o2 x hx
  have := h3 c v0 v v' H δ hs hT hdir hH0 hH hd0 hd hr hst θ hθ
  rw [eo, ex]
  have e33 : nearConst 4 = 33 := by
    unfold nearConst; simp [sum_range_succ, Nat.factorial]; norm_num
  rw [e33] at this
  exact this

/-! ## The cubic splines of TRBDF2 and TRX2 -/

/-- The cubic Hermite polynomial does not depend on the order of its nodes. -/
theorem cubic_symm {K V : Type*} [Field K] [AddCommGroup V] [Module K V] {a b : K} (hab : a ≠ b) (ya yb fa fb : V) (τ : K) :
    cubic a b ya yb fa fb τ = cubic b a yb ya fb fa τ := by
  have h1 : b - a ≠ 0 := sub_ne_zero.mpr hab.symm
  have h2 : a - b ≠ 0 := sub_ne_zero.mpr hab
  have e : (τ - b) / (a - b) = 1 - (τ - a) / (b - a) := by field_simp; ring
  unfold cubic
  dsimp only
  rw [e]
  generalize (τ - a) / (b - a) = x
  module

/-- Weights of the stages in the first piece of the spline; `s = θ / c_1`. -/
noncomputable def hsW1 (T : ETab ℝ) (i : ℕ) (θ : ℝ) : ℝ :=
  (θ / T.C 1) ^ 2 * (3 - 2 * (θ / T.C 1)) * T.mat 1 i +
    T.C 1 * (θ / T.C 1 * (1 - θ / T.C 1) ^ 2 * (if i = 0 then 1 else 0) +
      (θ / T.C 1) ^ 2 * (θ / T.C 1 - 1) * (if i = 1 then 1 else 0))

/-- Weights of the stages in the second piece; `s = (θ - c_1) / (1 - c_1)`. -/
noncomputable def hsW2 (T : ETab ℝ) (i : ℕ) (θ : ℝ) : ℝ :=
  let s := (θ - T.C 1) / (1 - T.C 1)
  (1 + 2 * s) * (1 - s) ^ 2 * T.mat 1 i + s ^ 2 * (3 - 2 * s) * T.B i +
    (1 - T.C 1) * (s * (1 - s) ^ 2 * (if i = 1 then 1 else 0) + s ^ 2 * (s - 1) * (if i = 2 then 1 else 0))

/-- What the accuracy of the splines rests on: the first stage is the trapezoidal rule, the method has order two. -/
structure HsTable (T : ETab ℝ) : Prop where
  mid : MidOK T
  C0 : T.C 0 = 0
  C2 : T.C 2 = 1
  mat1 : T.mat 1 0 = T.C 1 / 2 ∧ T.mat 1 1 = T.C 1 / 2 ∧ T.mat 1 2 = 0
  rows : ∀ i, i < T.n → ∑ j ∈ range T.n, T.mat i j = T.C i
  B1 : ∑ i ∈ range 3, T.B i = 1
  B2 : ∑ i ∈ range 3, T.B i * T.C i = 1 / 2

theorem exists_sum_bound {n : ℕ} {w : ℕ → ℝ → ℝ} {Θ : Set ℝ} (hΘ : IsCompact Θ) (hw : ∀ i, Continuous (w i)) :
    ∃ β, 0 ≤ β ∧ ∀ θ ∈ Θ, ∑ i ∈ range n, |w i θ| ≤ β := by
  have hc : Continuous fun θ => ∑ i ∈ range n, |w i θ| := continuous_finset_sum _ fun i _ => (hw i).abs
  obtain ⟨β, hβ⟩ := hΘ.exists_bound_of_continuousOn hc.continuousOn
  refine ⟨|β|, abs_nonneg _, fun θ hθ => ?_⟩
  have := hβ θ hθ
  rw [Real.norm_eq_abs] at this
  exact (le_abs_self _).trans (this.trans (le_abs_self _))

theorem hs_table1 {T : ETab ℝ} (hT : HsTable T) : ∃ β, 0 ≤ β ∧ EDenseTable T 2 (hsW1 T) (Set.Icc 0 1) β 0 := by
  have hw : ∀ i, ContDiff ℝ (2 + 1 : ℕ) (hsW1 T i) := by intro i; unfold hsW1; fun_prop
  obtain ⟨β, h1, h2⟩ := exists_sum_bound (n := T.n) (w := hsW1 T) (Θ := Set.Icc 0 1) isCompact_Icc fun i => (hw i).continuous
  obtain ⟨m0, m1, m2⟩ := hT.mat1
  have c0 : T.C 1 ≠ 0 := hT.mid.c0.ne'
  refine ⟨β, h1, isCompact_Icc, hw, fun θ _ τ hτ => ?_, h2⟩
  rw [order_two_var hT.rows (b := fun i => hsW1 T i θ) (θ := θ) ?_ ?_ τ hτ, sub_self, abs_zero]
  · rw [hT.mid.n]
    simp only [sum_range_succ, sum_range_zero, hsW1, m0, m1, m2]
    norm_num
    field_simp
    ring
  · rw [hT.mid.n]
    simp only [sum_range_succ, sum_range_zero, hsW1, m0, m1, m2, hT.C0, hT.C2]
    norm_num
    field_simp
    ring

theorem hs_table2 {T : ETab ℝ} (hT : HsTable T) : ∃ β, 0 ≤ β ∧ EDenseTable T 2 (hsW2 T) (Set.Icc 0 1) β 0 := by
  have hw : ∀ i, ContDiff ℝ (2 + 1 : ℕ) (hsW2 T i) := by intro i; unfold hsW2; fun_prop
  obtain ⟨β, h1, h2⟩ := exists_sum_bound (n := T.n) (w := hsW2 T) (Θ := Set.Icc 0 1) isCompact_Icc fun i => (hw i).continuous
  obtain ⟨m0, m1, m2⟩ := hT.mat1
  have c1 : 1 - T.C 1 ≠ 0 := by have := hT.mid.c1; exact (by linarith : 0 < 1 - T.C 1).ne'
  have b1 := hT.B1
  have b2 := hT.B2
  simp only [sum_range_succ, sum_range_zero, zero_add, hT.C0, hT.C2, mul_zero, mul_one] at b1 b2
  have e : ∀ θ, θ = T.C 1 + (θ - T.C 1) / (1 - T.C 1) * (1 - T.C 1) := by intro θ; field_simp; ring
  refine ⟨β, h1, isCompact_Icc, hw, fun θ _ τ hτ => ?_, h2⟩
  rw [order_two_var hT.rows (b := fun i => hsW2 T i θ) (θ := θ) ?_ ?_ τ hτ, sub_self, abs_zero]
  · rw [hT.mid.n]
    simp only [sum_range_succ, sum_range_zero, hsW2, m0, m1, m2]
    conv_rhs => rw [e θ]
    generalize (θ - T.C 1) / (1 - T.C 1) = s
    norm_num
    linear_combination s ^ 2 * (3 - 2 * s) * b1
  · rw [hT.mid.n]
    simp only [sum_range_succ, sum_range_zero, hsW2, m0, m1, m2, hT.C0, hT.C2]
    conv_rhs => rw [e θ]
    generalize (θ - T.C 1) / (1 - T.C 1) = s
    norm_num
    linear_combination s ^ 2 * (3 - 2 * s) * b2

/-- The two pieces in terms of the scaled time. -/
theorem hs_piece1 {T : ETab ℝ} (hT : HsTable T) {t h : ℝ} (hh : h ≠ 0) (y : E) (k : ℕ → E) (θ : ℝ) :
    cubic t (t + T.C 1 * h) y (stageVal T y h k 1) (k 0) (k 1) (t + θ * h) =
      y + h • ∑ i ∈ range T.n, hsW1 T i θ • k i := by
  obtain ⟨m0, m1, m2⟩ := hT.mat1
  have c0 : T.C 1 ≠ 0 := hT.mid.c0.ne'
  rw [stageVal_mat (by rw [hT.mid.n]; omega)]
  unfold cubic
  dsimp only
  have e : (t + θ * h - t) / (t + T.C 1 * h - t) = θ / T.C 1 := by
    rw [add_sub_cancel_left, add_sub_cancel_left]; field_simp
  rw [e, hT.mid.n]
  simp only [sum_range_succ, sum_range_zero, zero_add, hsW1, m0, m1, m2]
  generalize θ / T.C 1 = s
  norm_num
  module

theorem hs_piece2 {T : ETab ℝ} (hT : HsTable T) {t h : ℝ} (hh : h ≠ 0) (y : E) (k : ℕ → E) (θ : ℝ) :
    cubic (t + T.C 1 * h) (t + h) (stageVal T y h k 1) (y + h • ∑ i ∈ range T.n, T.B i • k i) (k 1) (k 2) (t + θ * h) =
      y + h • ∑ i ∈ range T.n, hsW2 T i θ • k i := by
  obtain ⟨m0, m1, m2⟩ := hT.mat1
  have c1 : 1 - T.C 1 ≠ 0 := by have := hT.mid.c1; exact (by linarith : 0 < 1 - T.C 1).ne'
  rw [stageVal_mat (by rw [hT.mid.n]; omega)]
  unfold cubic
  dsimp only
  have e0 : t + h - (t + T.C 1 * h) = (1 - T.C 1) * h := by ring
  have e : (t + θ * h - (t + T.C 1 * h)) / (t + h - (t + T.C 1 * h)) = (θ - T.C 1) / (1 - T.C 1) := by
    rw [e0]; field_simp; ring
  rw [e, e0, hT.mid.n]
  simp only [sum_range_succ, sum_range_zero, zero_add, hsW2, m0, m1, m2]
  generalize (θ - T.C 1) / (1 - T.C 1) = s
  norm_num
  module

/-- The dense output of a step: at every time of the step one of the two combinations of the stages. -/
theorem hsDense_step {c : ECfg ℝ E} (hc : ECfgOK c) (hTok : ETabOK c.T) (hT : HsTable c.T) {v0 v v' : ESolver ℝ E} {t0 : ℝ}
    {y0 yp0 : E} {J0 : E →ₗ[ℝ] E} (hn : IsNew v0 t0 y0 yp0 J0) (hr : EReach c v0 v) {fuel : ℕ} (ht : c.tb ≠ some v.st.t)
    (h : eStep c fuel v = some (.ok, v')) :
    ∃ o, hsDense c v' = some o ∧ ∀ x ∈ Set.uIcc v.st.t v'.st.t, ∃ θ ∈ Set.Icc (0 : ℝ) 1,
      x = v.st.t + θ * (v'.st.t - v.st.t) ∧
      (o.eval x = v.st.y + (v'.st.t - v.st.t) • ∑ i ∈ range c.T.n, hsW1 c.T i θ • v'.st.Ks i ∨
       o.eval x = v.st.y + (v'.st.t - v.st.t) • ∑ i ∈ range c.T.n, hsW2 c.T i θ • v'.st.Ks i) := by
  have hd := hsDense_eq hc hTok hT.mid hn hr ht h
  obtain ⟨b1, -, b3, b4⟩ := C38_solution hc hTok hn hr ht h
  obtain ⟨-, -, -, hpos⟩ := eStep_history hc (hr.inv hc hn.inv) ht h
  dsimp only at hd
  have hne' : v'.st.t - v.st.t ≠ 0 := by intro e; rw [e, zero_mul] at hpos; exact lt_irrefl _ hpos
  have p1 := fun θ => hs_piece1 hT (t := v.st.t) hne' v.st.y v'.st.Ks θ
  have p2 := fun θ => hs_piece2 hT (t := v.st.t) hne' v.st.y v'.st.Ks θ
  rw [b4] at p1
  rw [← b1, add_sub_cancel, show v'.st.Ks 2 = v'.st.yp by rw [b3, hT.mid.n]] at p2
  have hth : ∀ x ∈ Set.uIcc v.st.t v'.st.t, (x - v.st.t) / (v'.st.t - v.st.t) ∈ Set.Icc (0 : ℝ) 1 := by
    intro x hx
    rcases Set.mem_uIcc.mp hx with ⟨a, b⟩ | ⟨a, b⟩
    · have : 0 < v'.st.t - v.st.t := lt_of_le_of_ne (by linarith) hne'.symm
      exact ⟨div_nonneg (by linarith) this.le, (div_le_one this).mpr (by linarith)⟩
    · have : v'.st.t - v.st.t < 0 := lt_of_le_of_ne (by linarith) hne'
      exact ⟨div_nonneg_of_nonpos (by linarith) this.le, (div_le_one_of_neg this).mpr (by linarith)⟩
  have hx0 : ∀ x, x = v.st.t + (x - v.st.t) / (v'.st.t - v.st.t) * (v'.st.t - v.st.t) := by
    intro x; rw [div_mul_cancel₀ _ hne']; ring
  split_ifs at hd with hdir
  · obtain ⟨a1, a2, e⟩ := hd
    refine ⟨_, e, fun x hx => ⟨_, hth x hx, hx0 x, ?_⟩⟩
    dsimp only
    split_ifs with hlt
    · left; rw [← p1, ← hx0]
    · right; rw [← p2, ← hx0]
  · obtain ⟨a1, a2, e⟩ := hd
    refine ⟨_, e, fun x hx => ⟨_, hth x hx, hx0 x, ?_⟩⟩
    dsimp only
    split_ifs with hlt
    · right; rw [← p2, ← hx0, cubic_symm a1.ne]
    · left; rw [← p1, ← hx0, cubic_symm a2.ne]

theorem hs_tables {R : ESTable} (hR : R ∈ [TRBDF2, TRX2]) : HsTable (R.tab ℝ (√2)) ∧ R.order = 2 := by
  have hR' : R ∈ [TRBDF2, TRX2, KC3I, KC4I, Kv3I] := by
    simp only [List.mem_cons, List.not_mem_nil, or_false] at hR ⊢; tauto
  have hmid : MidOK (R.tab ℝ (√2)) := by
    simp only [List.mem_cons, List.not_mem_nil, or_false] at hR
    rcases hR with rfl | rfl
    · exact TRBDF2_mid _ sqrt2_mul (by positivity)
    · exact TRX2_mid _
  have hord : R.order = 2 := by
    simp only [List.mem_cons, List.not_mem_nil, or_false] at hR
    rcases hR with rfl | rfl <;> rfl
  have hrows : ∀ i, i < (R.tab ℝ (√2)).n → ∑ j ∈ range (R.tab ℝ (√2)).n, (R.tab ℝ (√2)).mat i j = (R.tab ℝ (√2)).C i := by
    intro i hi
    exact (rows_sound (esdirk_shape R (sub_all hR')) (esdirk_rows R hR') hi)
  have h1 := C85_main_order hR' .leaf (by rw [hord]; simp [OTree.leaf, OTree.size])
  have h2 := C85_main_order hR' (.node 1 fun _ => .leaf) (by rw [hord]; simp [OTree.leaf, OTree.size])
  have hn : R.n = 3 := hmid.n
  have hok := esdirk_tables_ok R (sub_all hR')
  obtain ⟨c0, a00⟩ := esdirk_start R (sub_all hR')
  have key : (R.A.getD 1 []).getD 0 0 = (R.A.getD 1 []).getD 1 0 ∧ (R.A.getD 1 []).getD 2 0 = 0 := by
    simp only [List.mem_cons, List.not_mem_nil, or_false] at hR
    rcases hR with rfl | rfl <;> decide +kernel
  have k0 : (R.tab ℝ (√2)).mat 1 0 = (R.tab ℝ (√2)).mat 1 1 := by
    show homR ((R.A.getD 1 []).getD 0 0) = homR ((R.A.getD 1 []).getD 1 0)
    rw [key.1]
  have k2 : (R.tab ℝ (√2)).mat 1 2 = 0 := by
    unfold ETab.mat
    split_ifs with hh
    · show homR ((R.A.getD 1 []).getD 2 0) = 0
      rw [key.2, map_zero]
    · rfl
  have r1 := hrows 1 (by rw [hmid.n]; omega)
  rw [hmid.n] at r1
  simp only [sum_range_succ, sum_range_zero, zero_add] at r1
  refine ⟨⟨hmid, c0, ?_, ⟨by linarith, by linarith, k2⟩, hrows, ?_, ?_⟩, hord⟩
  · have := hok.c1
    rwa [hmid.n] at this
  · rw [hn] at h1
    simp only [OTree.leaf_weight, mul_one] at h1
    rw [h1]; simp [OTree.leaf, OTree.dens]
  · have : ∀ i ∈ range R.n, (R.tab ℝ (√2)).B i * (OTree.node 1 (fun _ => OTree.leaf)).weight R.n (R.tab ℝ (√2)).mat i =
        (R.tab ℝ (√2)).B i * (R.tab ℝ (√2)).C i := by
      intro i hi
      simp only [OTree.weight, Fin.prod_univ_one, OTree.leaf_weight, mul_one]
      rw [← hrows i (mem_range.mp hi)]
      rfl
    rw [sum_congr rfl this, hn] at h2
    rw [h2]
    simp [OTree.leaf, OTree.dens, OTree.size]

/-- **C106.** Dense output of TRBDF2 and TRX2 (cubic splines through the intermediate stage): within every step of length at
most `H` of a history of such steps with residuals of at most `δ`, forward or backward, the output differs from the solution by
at most `C (H^2 + δ)`. -/
theorem C106_HS_dense [CompleteSpace E] {R : ESTable} (hR : R ∈ [TRBDF2, TRX2]) {Mm : E ≃L[ℝ] E}
    {f : ℝ → E → E} {y : ℝ → E} {t0 b L' : ℝ} (hP : EProblem Mm f y t0 b L') :
    ∃ C hstar : ℝ, 0 ≤ C ∧ 0 < hstar ∧
      ∀ (c : ECfg ℝ E) (v0 v v' : ESolver ℝ E) (H δ : ℝ), ESolves c Mm f v0 t0 (y t0) → c.T = R.tab ℝ (√2) →
        0 ≤ c.dir * (b - t0) → 0 ≤ H → H ≤ hstar → 0 ≤ δ → δ ≤ hstar → EReachWithin c f v0 t0 b H δ v →
        EStepWithin c f H δ v v' →
        ∃ o, hsDense c v' = some o ∧ ∀ x ∈ Set.uIcc v.st.t v'.st.t, ‖o.eval x - y x‖ ≤ C * (H ^ 2 + δ) := by
  have hR' : R ∈ [TRBDF2, TRX2, KC3I, KC4I, Kv3I] := by
    simp only [List.mem_cons, List.not_mem_nil, or_false] at hR ⊢; tauto
  obtain ⟨hT, hord⟩ := hs_tables hR
  obtain ⟨β1, p1, q1⟩ := hs_table1 hT
  obtain ⟨β2, p2, q2⟩ := hs_table2 hT
  obtain ⟨ρ, L, B, M, hp⟩ := exists_problemBounds hP.solves 2
  have hnear := exact_near hR'
  rw [hord] at hnear
  have h0 : eFloor (R.tab ℝ (√2)) 2 L M 0 0 |b - t0| = 0 := by unfold eFloor; ring
  obtain ⟨C1, s1, a1, a2, a3⟩ := esdirk_dense_error hP (by norm_num) hp le_rfl le_rfl hnear
    (by rw [h0]; linarith [hp.rho]) p1 le_rfl q1
  obtain ⟨C2, s2, b1, b2, b3⟩ := esdirk_dense_error hP (by norm_num) hp le_rfl le_rfl hnear
    (by rw [h0]; linarith [hp.rho]) p2 le_rfl q2
  refine ⟨max C1 C2, min s1 s2, le_max_of_le_left a1, lt_min a2 b2, fun c v0 v v' H δ hs hTT hdir hH0 hH hd0 hd hr hst => ?_⟩
  obtain ⟨yp0, J0, hn, hyp0⟩ := hs.new
  obtain ⟨fuel, hst'⟩ := hst.step
  simp only [le_min_iff] at hH hd
  obtain ⟨o, o1, o2⟩ := hsDense_step hs.ok (hTT ▸ hnear.ok) (hTT ▸ hT) hn hr.reach hst.time hst'
  refine ⟨o, o1, fun x hx => ?_⟩
  obtain ⟨θ, hθ, ex, eo⟩ := o2 x hx
  have hX : 0 ≤ H ^ 2 + δ := by positivity
  rcases eo with eo | eo <;> rw [eo, ex, hTT]
  · have := a3 c v0 v v' H δ hs hTT hdir hH0 hH.1 hd0 hd.1 hr hst θ hθ
    rw [h0] at this
    simp only [mul_zero, add_zero, zero_mul] at this
    exact this.trans (mul_le_mul_of_nonneg_right (le_max_left _ _) hX)
  · have := b3 c v0 v v' H δ hs hTT hdir hH0 hH.2 hd0 hd.2 hr hst θ hθ
    rw [h0] at this
    simp only [mul_zero, add_zero, zero_mul] at this
    exact this.trans (mul_le_mul_of_nonneg_right (le_max_right _ _) hX)

/-! ## With `max_step` and `t_bound` -/

/-- **C106** with `max_step = m` and `t_bound = b`: the dense output of every successful step, anywhere in that step. -/
theorem C106_HS_max_step [CompleteSpace E] {R : ESTable} (hR : R ∈ [TRBDF2, TRX2]) {Mm : E ≃L[ℝ] E}
    {f : ℝ → E → E} {y : ℝ → E} {t0 b L' : ℝ} (hP : EProblem Mm f y t0 b L') :
    ∃ C mstar : ℝ, 0 ≤ C ∧ 0 < mstar ∧
      ∀ (c : ECfg ℝ E) (v0 v v' : ESolver ℝ E) (m δ : ℝ) (fuel : ℕ), ESolves c Mm f v0 t0 (y t0) → c.T = R.tab ℝ (√2) →
        c.tb = some b → 0 ≤ c.dir * (b - t0) → c.maxStep = some m → m ≤ mstar → 0 ≤ δ → δ ≤ mstar →
        ResidualsWithin c f v0 δ → EReach c v0 v → v.st.t ≠ b → eStep c fuel v = some (.ok, v') →
        ∃ o, hsDense c v' = some o ∧ ∀ x ∈ Set.uIcc v.st.t v'.st.t, ‖o.eval x - y x‖ ≤ C * (m ^ 2 + δ) := by
  obtain ⟨C, hstar, h1, h2, h3⟩ := C106_HS_dense hR hP
  refine ⟨C * (101 / 100) ^ 2, hstar * (100 / 101), by positivity, by positivity, ?_⟩
  intro c v0 v v' m δ fuel hs hT hb hdir hm hmle hd0 hd hres hr hne hst
  obtain ⟨yp0, J0, hn, hyp0⟩ := hs.new
  have hm0 := hs.ok.maxStep m hm
  have ht : c.tb ≠ some v.st.t := by rw [hb]; intro e; exact hne (Option.some.inj e).symm
  obtain ⟨o, o1, o2⟩ := h3 c v0 v v' (101 / 100 * m) δ hs hT hdir (by positivity) (by linarith) hd0 (by linarith)
    (eReach_within hs.ok hn hb hdir hm hres hr)
    ⟨⟨fuel, hst⟩, ht, C34_max_step hs.ok hm hn hr hst, hres v v' fuel hr ht hst⟩
  refine ⟨o, o1, fun x hx => (o2 x hx).trans ?_⟩
  rw [mul_pow, mul_assoc]
  refine mul_le_mul_of_nonneg_left ?_ h1
  nlinarith

/-- **C106** with `max_step = m` and `t_bound = b` for KC3I, KC4I and Kv3I. -/
theorem C106_KC_max_step [CompleteSpace E] {R : ESTable} (hR : R ∈ [KC3I, KC4I, Kv3I]) {opt : String} {P : List (List Q2)}
    (hopt : kcInterpolant R opt = some P) {Mm : E ≃L[ℝ] E}
    {f : ℝ → E → E} {y : ℝ → E} {t0 b L' : ℝ} (hP : EProblem Mm f y t0 b L') {ρ L B M : ℝ}
    (hp : ProblemBounds (fun t x => Mm.symm (f t x)) y t0 b R.order ρ L B M) :
    ∃ C mstar : ℝ, 0 ≤ C ∧ 0 < mstar ∧
      ∀ (c : ECfg ℝ E) (v0 v v' : ESolver ℝ E) (m δ : ℝ) (fuel : ℕ), ESolves c Mm f v0 t0 (y t0) → c.T = R.tab ℝ (√2) →
        c.tb = some b → 0 ≤ c.dir * (b - t0) → c.maxStep = some m → m ≤ mstar → 0 ≤ δ → δ ≤ mstar →
        ResidualsWithin c f v0 δ → EReach c v0 v → v.st.t ≠ b → eStep c fuel v = some (.ok, v') →
        ∃ o, kcDense √2 R.n P v' = some o ∧ ∀ x ∈ Set.uIcc v.st.t v'.st.t,
          ‖o.eval x - y x‖ ≤ C * (m ^ R.order + δ) + nearConst R.order * M * (3 / 10 ^ 13) * (101 / 100 * m) := by
  obtain ⟨C, hstar, h1, h2, h3⟩ := C106_KC_dense hR hopt hP hp
  refine ⟨C * (101 / 100) ^ R.order, hstar * (100 / 101), by positivity, by positivity, ?_⟩
  intro c v0 v v' m δ fuel hs hT hb hdir hm hmle hd0 hd hres hr hne hst
  obtain ⟨yp0, J0, hn, hyp0⟩ := hs.new
  have hm0 := hs.ok.maxStep m hm
  have ht : c.tb ≠ some v.st.t := by rw [hb]; intro e; exact hne (Option.some.inj e).symm
  obtain ⟨o, o1, o2⟩ := h3 c v0 v v' (101 / 100 * m) δ hs hT hdir (by positivity) (by linarith) hd0 (by linarith)
    (eReach_within hs.ok hn hb hdir hm hres hr)
    ⟨⟨fuel, hst⟩, ht, C34_max_step hs.ok hm hn hr hst, hres v v' fuel hr ht hst⟩
  refine ⟨o, o1, fun x hx => (o2 x hx).trans ?_⟩
  have h5 : (1 : ℝ) ≤ (101 / 100) ^ R.order := one_le_pow₀ (by norm_num)
  rw [mul_pow, mul_assoc C]
  refine add_le_add_left (mul_le_mul_of_nonneg_left ?_ h1) _
  rw [mul_add]
  nlinarith

/-- In linear mode (`M y' = J y + r(t)`, no Jacobian function) there are no residuals. -/
theorem linear_residuals {R : ESTable} (hR : R ∈ [TRBDF2, TRX2, KC3I, KC4I, KC4Ia, Kv3I])
    {J : E →L[ℝ] E} {r : ℝ → E} {c : ECfg ℝ E} {v0 : ESolver ℝ E} {t0 : ℝ} {y0 yp0 : E} (hc : ECfgOK c)
    (hT : c.T = R.tab ℝ (√2)) (hj : c.jac = none) (hlin : LinSolves c)
    (hfn : ∀ t x, c.fn t x = some (J x + r t)) (hreg : ∀ h, 0 < h → Regular c (h * c.dir) J)
    (hn : IsNew v0 t0 y0 yp0 J) (hyp : c.M yp0 = J y0 + r t0) :
    ResidualsWithin c (fun t x => J x + r t) v0 0 := by
  intro w w' fuel hw ht hs i _ hi
  have := (C85_linear_mode hR hc (hT ▸ esdirk_tables_ok R hR) hT hj hlin (J0 := (J : E →ₗ[ℝ] E))
    (r := r) hfn hreg hn hyp hw ht hs).1 i (by rw [hT] at hi; exact hi)
  unfold stepResidual
  rw [hT]
  exact le_of_eq (norm_eq_zero.mpr this)

/-! ## Witness: `y' = -y` in linear mode -/

theorem exConv_problem : EProblem (ContinuousLinearEquiv.refl ℝ ℂ) (fun _ x => -x) (fun t : ℝ => Complex.exp (-(t : ℂ)))
    0 10 1 where
  solves := by
    constructor
    · intro t _
      exact contDiffAt_snd.neg
    · intro t _
      refine Filter.Eventually.of_forall fun s => ?_
      have h1 : HasDerivAt (fun z : ℂ => Complex.exp (-z)) (Complex.exp (-(s : ℂ)) * -1) (s : ℂ) :=
        (hasDerivAt_neg (s : ℂ)).cexp
      have h2 := h1.comp_ofReal
      simpa using h2
  pos := zero_le_one
  lip := fun t x x' => by
    rw [one_mul]
    show ‖-x - -x'‖ ≤ ‖x - x'‖
    rw [neg_sub_neg, norm_sub_rev]

noncomputable def exConvStart : ESolver ℝ ℂ := newESolver 0 1 (-1) (mulC (-1)) (1 / 2) (fun _ => 0) 1 0

theorem exConv_d {R : ESTable} (hR : R ∈ [TRBDF2, TRX2, KC3I, KC4I, KC4Ia, Kv3I]) : 0 < (R.tab ℝ (√2)).d := by
  have h : ∀ R ∈ [TRBDF2, TRX2, KC3I, KC4I, KC4Ia, Kv3I], q2nonneg (R.d - ⟨1 / 10, 0⟩) = true := by
    intro R hR
    simp only [List.mem_cons, List.not_mem_nil, or_false] at hR
    rcases hR with rfl | rfl | rfl | rfl | rfl | rfl <;> decide +kernel
  have := q2nonneg_spec (h R hR)
  rw [map_sub, homR_val ⟨1 / 10, 0⟩, Q2.val] at this
  show 0 < homR R.d
  norm_num at this
  linarith

theorem exConv_residuals {R : ESTable} (hR : R ∈ [TRBDF2, TRX2, KC3I, KC4I, KC4Ia, Kv3I]) {m : ℝ} (hm : 0 < m) :
    ResidualsWithin (exConv R m) (fun _ x => -x) exConvStart 0 := by
  let J : ℂ →L[ℝ] ℂ := -(ContinuousLinearMap.id ℝ ℂ)
  have hJ : (J : ℂ →ₗ[ℝ] ℂ) = mulC (-1) := by ext <;> simp [J, mulC]
  have := linear_residuals hR (J := J) (r := fun _ => 0) (c := exConv R m) (v0 := exConvStart) (t0 := 0) (y0 := 1) (yp0 := -1)
    (exConv_ok R hm) rfl rfl (exStab_solves R (-1)) (fun t x => by simp [exConv, exStab, J])
    (fun h hh => by
      rw [hJ]
      have hd := exConv_d hR
      intro x
      refine ⟨x / (1 + h * (R.tab ℝ (√2)).d : ℝ), ?_⟩
      have hne : ((1 + h * (R.tab ℝ (√2)).d : ℝ) : ℂ) ≠ 0 := by
        rw [Ne, Complex.ofReal_eq_zero]; positivity
      simp only [exConv, exStab, mulC, LinearMap.coe_mk, AddHom.coe_mk, Complex.real_smul]
      field_simp
      push_cast
      ring)
    ⟨1 / 2, fun _ => 0, 1, 0, by norm_num, by rw [hJ]; rfl⟩ (by simp [J, exConv, exStab, mulC])
  simpa [J] using this

theorem exConv_solves (R : ESTable) {m : ℝ} (hm : 0 < m) :
    ESolves (exConv R m) (ContinuousLinearEquiv.refl ℝ ℂ) (fun _ x => -x) exConvStart 0 (Complex.exp (-((0 : ℝ) : ℂ))) where
  ok := exConv_ok R hm
  fn := fun t x => by simp [exConv, exStab]
  mass := fun x => by simp [exConv, exStab, mulC]
  new := ⟨-1, mulC (-1), ⟨1 / 2, fun _ => 0, 1, 0, by norm_num, by simp [exConvStart]⟩, by simp [exConv, exStab, mulC]⟩

/-- The hypotheses of C106 are met: TRBDF2 and KC4I for `y' = -y`. -/
example : ∃ C mstar : ℝ, 0 ≤ C ∧ 0 < mstar ∧ ∀ (m : ℝ) (v v' : ESolver ℝ ℂ) (fuel : ℕ), 0 < m → m ≤ mstar →
    EReach (exConv TRBDF2 m) exConvStart v → v.st.t ≠ 10 → eStep (exConv TRBDF2 m) fuel v = some (.ok, v') →
    ∃ o, hsDense (exConv TRBDF2 m) v' = some o ∧ ∀ x ∈ Set.uIcc v.st.t v'.st.t,
      ‖o.eval x - Complex.exp (-(x : ℂ))‖ ≤ C * m ^ 2 := by
  obtain ⟨C, mstar, h1, h2, h3⟩ := C106_HS_max_step (R := TRBDF2) (by simp) exConv_problem
  refine ⟨C, mstar, h1, h2, fun m v v' fuel hm hle hr hne hs => ?_⟩
  have := h3 (exConv TRBDF2 m) exConvStart v v' m 0 fuel (exConv_solves _ hm) rfl rfl (by simp [exConv, exStab]) rfl hle
    le_rfl h2.le (exConv_residuals (by simp) hm) hr hne hs
  simpa using this

example : ∃ C M mstar : ℝ, 0 ≤ C ∧ 0 < mstar ∧ ∀ (m : ℝ) (v v' : ESolver ℝ ℂ) (fuel : ℕ), 0 < m → m ≤ mstar →
    EReach (exConv KC4I m) exConvStart v → v.st.t ≠ 10 → eStep (exConv KC4I m) fuel v = some (.ok, v') →
    ∃ o, kcDense √2 KC4I.n KC4I.P1 v' = some o ∧ ∀ x ∈ Set.uIcc v.st.t v'.st.t,
      ‖o.eval x - Complex.exp (-(x : ℂ))‖ ≤ C * m ^ 4 + nearConst 4 * M * (3 / 10 ^ 13) * (101 / 100 * m) := by
  obtain ⟨ρ, L, B, M, hp⟩ := exists_problemBounds exConv_problem.solves KC4I.order
  obtain ⟨C, mstar, h1, h2, h3⟩ := C106_KC_max_step (R := KC4I) (by simp) (opt := "C1") rfl exConv_problem hp
  refine ⟨C, M, mstar, h1, h2, fun m v v' fuel hm hle hr hne hs => ?_⟩
  obtain ⟨o, o1, o2⟩ := h3 (exConv KC4I m) exConvStart v v' m 0 fuel (exConv_solves _ hm) rfl rfl
    (by simp [exConv, exStab]) rfl hle le_rfl h2.le (exConv_residuals (by simp) hm) hr hne hs
  refine ⟨o, o1, fun x hx => ?_⟩
  have := o2 x hx
  rw [add_zero] at this
  exact this

end Extensisq
