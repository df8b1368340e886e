import Verif.Lemmas.Stability
import Verif.Props.EsdirkStage

/-!
# Stability of the ESDIRK methods (C41)
-/

set_option linter.unusedSectionVars false
set_option maxRecDepth 100000

namespace Extensisq
open Finset

/-! ## Specification -/

/-- `Ks` are the exact stage derivatives of a step of size `h` from `y` for the test equation `y' = λ y`: the first is
the derivative in `y`, the others that in the stage values `y + h ∑_{j ≤ i} a_ij K_j`. -/
def LinStages (T : ETab ℝ) (lam y : ℂ) (h : ℝ) (Ks : ℕ → ℂ) : Prop :=
  Ks 0 = lam * y ∧ ∀ i, 1 ≤ i → i < T.n → Ks i = lam * stageVal T y h Ks i

/-- The solution after the step. -/
noncomputable def linStep (T : ETab ℝ) (y : ℂ) (h : ℝ) (Ks : ℕ → ℂ) : ℂ := y + h • ∑ j ∈ range T.n, T.B j • Ks j

/-! ## The checks of the tables -/

/-- Constant diagonal, stiffly accurate, and `|R(iy)| ≤ 1` for all real `y`. -/
def stabCheck (R : ESTable) : Bool :=
  decide (2 ≤ R.n) && decide (∀ i < R.n, 1 ≤ i → (R.A.getD i []).getD i 0 = R.d) &&
    decide (∀ j < R.n, (R.A.getD (R.n - 1) []).getD j 0 = R.B.getD j 0) &&
    decide (R.C.getD (R.n - 1) 0 = 1) && q2nonneg (R.d - ⟨1 / 100, 0⟩) && decide ((stabNum R (R.n - 1)).length ≤ R.n - 1 + 1) &&
    posCheck (lsub (labs2 (stabDen R (R.n - 1))) (labs2 (stabNum R (R.n - 1))))

/-- The numerator minus `ρ` times the denominator has a lower degree. -/
def infCheck (R : ESTable) (rho : Q2) : Bool :=
  let p := lsub (stabNum R (R.n - 1)) (lsmul rho (stabDen R (R.n - 1)))
  decide (p.length = R.n) && decide (p.getLast? = some 0)

structure StabOK (R : ESTable) : Prop where
  n : 2 ≤ R.n
  diag : ∀ i < R.n, 1 ≤ i → (R.A.getD i []).getD i 0 = R.d
  stiff : ∀ j < R.n, (R.A.getD (R.n - 1) []).getD j 0 = R.B.getD j 0
  c1 : R.C.getD (R.n - 1) 0 = 1
  d : 0 < homR R.d
  len : (stabNum R (R.n - 1)).length ≤ R.n - 1 + 1
  axis : ∀ u : ℝ, 0 ≤ u → lev homR (labs2 (stabNum R (R.n - 1))) u ≤ lev homR (labs2 (stabDen R (R.n - 1))) u

theorem stabCheck_spec {R : ESTable} (h : stabCheck R = true) : StabOK R := by
  simp only [stabCheck, Bool.and_eq_true, decide_eq_true_eq] at h
  obtain ⟨⟨⟨⟨⟨⟨h1, h2⟩, h3⟩, h3'⟩, h4⟩, h5⟩, h6⟩ := h
  refine ⟨h1, h2, h3, h3', ?_, h5, fun u hu => ?_⟩
  · have := q2nonneg_spec h4
    rw [map_sub] at this
    have e : homR ⟨1 / 100, 0⟩ = 1 / 100 := by rw [homR_val, Q2.val]; push_cast; ring
    rw [e] at this
    linarith
  · have := posCheck_spec h6 hu
    rw [lev_sub] at this
    linarith

/-! ## The stability function -/

theorem linStep_last {R : ESTable} (ok : StabOK R) {y : ℂ} {h : ℝ} {Ks : ℕ → ℂ} :
    linStep (R.tab ℝ (√2)) y h Ks = stageVal (R.tab ℝ (√2)) y h Ks (R.n - 1) := by
  have h2 := ok.n
  unfold linStep stageVal
  rw [show R.n - 1 + 1 = R.n by omega]
  show y + h • ∑ j ∈ range R.n, _ = _
  congr 2
  apply sum_congr rfl
  intro j hj
  have := ok.stiff j (mem_range.mp hj)
  show Q2.val (√2) (R.B.getD j 0) • Ks j = Q2.val (√2) ((R.A.getD (R.n - 1) []).getD j 0) • Ks j
  rw [this]

/-- The solution is a rational function of `z = h λ` times `y`. -/
theorem linStep_num {R : ESTable} (ok : StabOK R) {lam y : ℂ} {h : ℝ} {Ks : ℕ → ℂ}
    (hK : LinStages (R.tab ℝ (√2)) lam y h Ks) :
    linStep (R.tab ℝ (√2)) y h Ks * (1 - homC R.d * (h * lam)) ^ (R.n - 1) =
      lev homC (stabNum R (R.n - 1)) (h * lam) * y := by
  have h2 := ok.n
  rw [linStep_last ok]
  have key := stage_num R (z := h * lam) (y := y)
    (Y := fun i => if i = 0 then y else stageVal (R.tab ℝ (√2)) y h Ks i) (n := R.n) (by simp)
    (fun i h1 h2 => ok.diag i h2 h1) (fun i h1 hi => ?_) (R.n - 1) (by omega)
  · simp only [show R.n - 1 ≠ 0 by omega, if_false] at key
    exact key
  · rw [if_neg (by omega)]
    rw [stageVal]
    congr 1
    rw [mul_assoc, Complex.real_smul]
    congr 1
    rw [mul_sum]
    apply sum_congr rfl
    intro j hj
    have hj' := mem_range.mp hj
    rw [Complex.real_smul, homC_val]
    show ((Q2.val (√2) ((R.A.getD i []).getD j 0) : ℝ) : ℂ) * Ks j = _
    rw [mul_left_comm]
    congr 1
    by_cases h0 : j = 0
    · rw [if_pos h0, h0]; exact hK.1
    · rw [if_neg h0]; exact hK.2 j (by omega) (by show j < R.n; omega)

theorem a_stable {R : ESTable} (ok : StabOK R) {lam y : ℂ} {h : ℝ} {Ks : ℕ → ℂ}
    (hK : LinStages (R.tab ℝ (√2)) lam y h Ks) (hz : ((h : ℂ) * lam).re ≤ 0) :
    ‖linStep (R.tab ℝ (√2)) y h Ks‖ ≤ ‖y‖ := by
  have e := congrArg norm (linStep_num ok hK)
  rw [norm_mul, norm_mul] at e
  have hb := half_plane ok.d ok.len (fun x => by
    apply le_of_sq_le_sq _ (norm_nonneg _)
    rw [lev_abs2, ← lev_den, lev_abs2]
    exact ok.axis _ (sq_nonneg _)) hz
  have hp : 0 < ‖(1 - homC R.d * (h * lam)) ^ (R.n - 1)‖ := by
    rw [norm_pow]
    exact pow_pos (lt_of_lt_of_le one_pos (den_bounds ok.d hz).1) _
  by_contra hc
  push Not at hc
  have h1 : ‖y‖ * ‖(1 - homC R.d * (h * lam)) ^ (R.n - 1)‖ <
    ‖linStep (R.tab ℝ (√2)) y h Ks‖ * ‖(1 - homC R.d * (h * lam)) ^ (R.n - 1)‖ := mul_lt_mul_of_pos_right hc hp
  have h2 : ‖lev homC (stabNum R (R.n - 1)) (h * lam)‖ * ‖y‖ ≤ ‖(1 - homC R.d * (h * lam)) ^ (R.n - 1)‖ * ‖y‖ :=
    mul_le_mul_of_nonneg_right hb (norm_nonneg _)
  linarith [mul_comm ‖y‖ ‖(1 - homC R.d * (h * lam)) ^ (R.n - 1)‖]

theorem at_infinity {R : ESTable} (ok : StabOK R) {rho : Q2} (hi : infCheck R rho = true) :
    ∃ C : ℝ, ∀ (lam y : ℂ) (h : ℝ) (Ks : ℕ → ℂ), LinStages (R.tab ℝ (√2)) lam y h Ks → ((h : ℂ) * lam).re ≤ 0 →
      ‖(h : ℂ) * lam‖ * ‖linStep (R.tab ℝ (√2)) y h Ks - homC rho * y‖ ≤ C * ‖y‖ := by
  have hn := ok.n
  simp only [infCheck, Bool.and_eq_true, decide_eq_true_eq] at hi
  obtain ⟨i1, i2⟩ := hi
  set p := lsub (stabNum R (R.n - 1)) (lsmul rho (stabDen R (R.n - 1))) with hp
  have hsplit : p = p.dropLast ++ [0] := by
    have hne : p ≠ [] := by intro h0; rw [h0] at i2; simp at i2
    rw [List.getLast?_eq_some_getLast hne, Option.some.injEq] at i2
    rw [← i2]
    exact (List.dropLast_append_getLast hne).symm
  obtain ⟨C, hC, hb⟩ := lev_bound ok.d p.dropLast (R.n - 2) (by rw [List.length_dropLast, i1]; omega)
  have hd := ok.d
  refine ⟨C / homR R.d, fun lam y h Ks hK hz => ?_⟩
  have e := linStep_num ok hK
  set z : ℂ := (h : ℂ) * lam with hzdef
  obtain ⟨b1, b2⟩ := den_bounds ok.d hz
  have b1' : 1 ≤ ‖1 - homC R.d * z‖ := b1
  have b2' : homR R.d * ‖z‖ ≤ ‖1 - homC R.d * z‖ := b2
  set W := ‖1 - homC R.d * z‖ with hW
  have e2 : (linStep (R.tab ℝ (√2)) y h Ks - homC rho * y) * (1 - homC R.d * z) ^ (R.n - 1) =
      lev homC p.dropLast z * y := by
    have : lev homC p.dropLast z = lev homC (stabNum R (R.n - 1)) z - homC rho * (1 - homC R.d * z) ^ (R.n - 1) := by
      rw [← lev_zero_last, ← hsplit, hp, lev_sub, lev_smul, lev_den]
    rw [this, sub_mul, sub_mul, e]; ring
  have e3 := congrArg norm e2
  rw [norm_mul, norm_mul, norm_pow, ← hW] at e3
  have h1 := hb z W b1' b2'
  have hWpos : 0 < W := by linarith
  have hpow : W ^ (R.n - 1) = W * W ^ (R.n - 2) := by rw [← pow_succ']; congr 1; omega
  have h2 : ‖linStep (R.tab ℝ (√2)) y h Ks - homC rho * y‖ * W ≤ C * ‖y‖ := by
    have h3 : ‖linStep (R.tab ℝ (√2)) y h Ks - homC rho * y‖ * W * W ^ (R.n - 2) ≤ C * ‖y‖ * W ^ (R.n - 2) := by
      calc _ = ‖lev homC p.dropLast z‖ * ‖y‖ := by rw [← e3, hpow]; ring
        _ ≤ C * W ^ (R.n - 2) * ‖y‖ := mul_le_mul_of_nonneg_right h1 (norm_nonneg _)
        _ = _ := by ring
    exact le_of_mul_le_mul_right h3 (pow_pos hWpos _)
  rw [div_mul_eq_mul_div, le_div_iff₀ hd]
  calc ‖z‖ * ‖linStep (R.tab ℝ (√2)) y h Ks - homC rho * y‖ * homR R.d
      = ‖linStep (R.tab ℝ (√2)) y h Ks - homC rho * y‖ * (homR R.d * ‖z‖) := by ring
    _ ≤ ‖linStep (R.tab ℝ (√2)) y h Ks - homC rho * y‖ * W := mul_le_mul_of_nonneg_left b2' (norm_nonneg _)
    _ ≤ C * ‖y‖ := h2

theorem stab_ok : ∀ R ∈ [TRBDF2, TRX2, KC3I, KC4I, KC4Ia, Kv3I], StabOK R := by
  have h : ∀ R ∈ [TRBDF2, TRX2, KC3I, KC4I, KC4Ia, Kv3I], stabCheck R = true := by
    intro R hR
    simp only [List.mem_cons, List.not_mem_nil, or_false] at hR
    rcases hR with rfl | rfl | rfl | rfl | rfl | rfl <;> decide +kernel
  exact fun R hR => stabCheck_spec (h R hR)

/-- **C41.** All ESDIRK methods are A-stable: a step with exact stages for `y' = λ y` does not enlarge the solution when
`Re(h λ) ≤ 0`. -/
theorem C41_A_stable {R : ESTable} (hR : R ∈ [TRBDF2, TRX2, KC3I, KC4I, KC4Ia, Kv3I]) {lam y : ℂ} {h : ℝ} {Ks : ℕ → ℂ}
    (hK : LinStages (R.tab ℝ (√2)) lam y h Ks) (hz : ((h : ℂ) * lam).re ≤ 0) :
    ‖linStep (R.tab ℝ (√2)) y h Ks‖ ≤ ‖y‖ :=
  a_stable (stab_ok R hR) hK hz

/-- **C41.** TRBDF2 and the methods of Kennedy and Carpenter are L-stable: with growing `|h λ|` the solution after one
step tends to zero. -/
theorem C41_L_stable {R : ESTable} (hR : R ∈ [TRBDF2, KC3I, KC4I, KC4Ia]) :
    ∃ C : ℝ, ∀ (lam y : ℂ) (h : ℝ) (Ks : ℕ → ℂ), LinStages (R.tab ℝ (√2)) lam y h Ks → ((h : ℂ) * lam).re ≤ 0 →
      ‖(h : ℂ) * lam‖ * ‖linStep (R.tab ℝ (√2)) y h Ks‖ ≤ C * ‖y‖ := by
  have h0 : ∀ R ∈ [TRBDF2, KC3I, KC4I, KC4Ia], infCheck R 0 = true := by
    intro R hR
    simp only [List.mem_cons, List.not_mem_nil, or_false] at hR
    rcases hR with rfl | rfl | rfl | rfl <;> decide +kernel
  have hR' : R ∈ [TRBDF2, TRX2, KC3I, KC4I, KC4Ia, Kv3I] := by
    simp only [List.mem_cons, List.not_mem_nil, or_false] at hR ⊢
    tauto
  obtain ⟨C, hC⟩ := at_infinity (stab_ok R hR') (h0 R hR)
  refine ⟨C, fun lam y h Ks hK hz => ?_⟩
  have := hC lam y h Ks hK hz
  rwa [map_zero, zero_mul, sub_zero] at this

/-- **C41.** For Kv3I the limit is not exactly zero, because of the rounding of the published coefficients to 16
digits, but less than `10^-17`. -/
theorem C41_Kv3I_limit : ∃ rho : ℝ, 0 < |rho| ∧ |rho| ≤ 1 / 10 ^ 17 ∧ ∃ C : ℝ, ∀ (lam y : ℂ) (h : ℝ) (Ks : ℕ → ℂ),
    LinStages (Kv3I.tab ℝ (√2)) lam y h Ks → ((h : ℂ) * lam).re ≤ 0 →
      ‖(h : ℂ) * lam‖ * ‖linStep (Kv3I.tab ℝ (√2)) y h Ks - rho * y‖ ≤ C * ‖y‖ := by
  let q : ℚ := ((stabNum Kv3I 3).getD 3 0).a / (-Kv3I.d.a) ^ 3
  have hq : 0 < |q| ∧ |q| ≤ 1 / 10 ^ 17 := by decide +kernel
  have hi : infCheck Kv3I ⟨q, 0⟩ = true := by decide +kernel
  have e : homR ⟨q, 0⟩ = (q : ℝ) := by rw [homR_val, Q2.val]; simp
  refine ⟨(q : ℝ), by exact_mod_cast hq.1, ?_, ?_⟩
  · have h1 : ((|q| : ℚ) : ℝ) ≤ ((1 / 10 ^ 17 : ℚ) : ℝ) := Rat.cast_le.mpr hq.2
    rw [Rat.cast_abs] at h1
    push_cast at h1
    exact h1
  obtain ⟨C, hC⟩ := at_infinity (stab_ok Kv3I (by simp)) hi
  refine ⟨C, fun lam y h Ks hK hz => ?_⟩
  have := hC lam y h Ks hK hz
  rw [show homC ⟨q, 0⟩ = ((q : ℝ) : ℂ) by rw [← e]; rfl] at this
  exact this

/-- **C41.** TRX2 is not L-stable: with growing `|h λ|` the solution after one step tends to that before. -/
theorem C41_TRX2_limit : ∃ C : ℝ, ∀ (lam y : ℂ) (h : ℝ) (Ks : ℕ → ℂ),
    LinStages (TRX2.tab ℝ (√2)) lam y h Ks → ((h : ℂ) * lam).re ≤ 0 →
      ‖(h : ℂ) * lam‖ * ‖linStep (TRX2.tab ℝ (√2)) y h Ks - y‖ ≤ C * ‖y‖ := by
  obtain ⟨C, hC⟩ := at_infinity (stab_ok TRX2 (by simp)) (rho := 1) (by decide +kernel)
  refine ⟨C, fun lam y h Ks hK hz => ?_⟩
  have := hC lam y h Ks hK hz
  rwa [map_one, one_mul] at this

/-- **C41.** On the imaginary axis TRX2 does not damp at all. -/
theorem C41_TRX2_imaginary {x h : ℝ} {y : ℂ} {Ks : ℕ → ℂ} (hK : LinStages (TRX2.tab ℝ (√2)) (x * Complex.I) y h Ks) :
    ‖linStep (TRX2.tab ℝ (√2)) y h Ks‖ = ‖y‖ := by
  have ok := stab_ok TRX2 (by simp)
  have e := congrArg norm (linStep_num ok hK)
  rw [norm_mul, norm_mul] at e
  have hz : ((h : ℂ) * (x * Complex.I)) = ((h * x : ℝ) : ℂ) * Complex.I := by push_cast; ring
  rw [hz, ← lev_den] at e
  have h1 : ‖lev homC (stabNum TRX2 (TRX2.n - 1)) (((h * x : ℝ) : ℂ) * Complex.I)‖ =
      ‖lev homC (stabDen TRX2 (TRX2.n - 1)) (((h * x : ℝ) : ℂ) * Complex.I)‖ := by
    have : ‖lev homC (stabNum TRX2 (TRX2.n - 1)) (((h * x : ℝ) : ℂ) * Complex.I)‖ ^ 2 =
        ‖lev homC (stabDen TRX2 (TRX2.n - 1)) (((h * x : ℝ) : ℂ) * Complex.I)‖ ^ 2 := by
      rw [lev_abs2, lev_abs2]
      have : labs2 (stabNum TRX2 (TRX2.n - 1)) = labs2 (stabDen TRX2 (TRX2.n - 1)) := by decide +kernel
      rw [this]
    exact (pow_left_inj₀ (norm_nonneg _) (norm_nonneg _) two_ne_zero).mp this
  have hp : 0 < ‖lev homC (stabDen TRX2 (TRX2.n - 1)) (((h * x : ℝ) : ℂ) * Complex.I)‖ := by
    rw [lev_den, norm_pow]
    exact pow_pos (lt_of_lt_of_le one_pos (den_bounds ok.d (by simp)).1) _
  rw [h1, mul_comm ‖lev homC (stabDen TRX2 (TRX2.n - 1)) _‖ ‖y‖] at e
  exact mul_right_cancel₀ hp.ne' e

/-- The stage equations have a solution when `Re(h λ) ≤ 0`: the hypotheses can be met for every `λ`, `y` and `h`. -/
theorem exists_stages {R : ESTable} (ok : StabOK R) {lam y : ℂ} {h : ℝ} (hz : ((h : ℂ) * lam).re ≤ 0) :
    ∃ Ks, LinStages (R.tab ℝ (√2)) lam y h Ks := by
  have hne : (1 : ℂ) - homC R.d * (h * lam) ≠ 0 :=
    norm_pos_iff.mp (lt_of_lt_of_le one_pos (den_bounds ok.d hz).1)
  have main : ∀ m, m ≤ R.n → ∃ Ks : ℕ → ℂ, Ks 0 = lam * y ∧
      ∀ i, 1 ≤ i → i < m → Ks i = lam * stageVal (R.tab ℝ (√2)) y h Ks i := by
    intro m
    induction m with
    | zero => exact fun _ => ⟨fun _ => lam * y, rfl, fun i _ h => absurd h (by omega)⟩
    | succ m ih =>
      intro hm
      obtain ⟨Ks, k0, hk⟩ := ih (by omega)
      by_cases h0 : m = 0
      · subst h0; exact ⟨Ks, k0, fun i h1 h2 => by omega⟩
      · let psi : ℂ := ePsi (R.tab ℝ (√2)) y h Ks m
        refine ⟨Function.update Ks m (lam * psi / (1 - homC R.d * (h * lam))), ?_, fun i h1 h2 => ?_⟩
        · rw [Function.update_of_ne (Ne.symm h0)]; exact k0
        · have hsame : ∀ j < m, Function.update Ks m (lam * psi / (1 - homC R.d * (h * lam))) j = Ks j :=
            fun j hj => Function.update_of_ne (by omega) _ _
          by_cases hi : i = m
          · subst hi
            rw [Function.update_self, stageVal, sum_range_succ, Function.update_self, smul_add, ← add_assoc]
            have e1 : y + h • ∑ j ∈ range i, (R.tab ℝ (√2)).A i j •
                Function.update Ks i (lam * psi / (1 - homC R.d * (h * lam))) j = psi := by
              show _ = y + h • _
              congr 2
              exact sum_congr rfl fun j hj => by rw [hsame j (mem_range.mp hj)]
            have e2 : (R.tab ℝ (√2)).A i i = homR R.d := by
              show Q2.val (√2) ((R.A.getD i []).getD i 0) = _
              rw [ok.diag i (by omega) h1]; rfl
            rw [e1, e2, Complex.real_smul, Complex.real_smul]
            show _ = lam * (psi + (h : ℂ) * (homC R.d * _))
            have hk := div_mul_cancel₀ (lam * psi) hne
            linear_combination hk
          · rw [hsame i (by omega), hk i h1 (by omega)]
            unfold stageVal
            congr 3
            exact sum_congr rfl fun j hj => by rw [hsame j (by have := mem_range.mp hj; omega)]
  obtain ⟨Ks, k0, hk⟩ := main R.n le_rfl
  exact ⟨Ks, k0, hk⟩

/-- A stiff and oscillating example. -/
example : ∃ Ks, LinStages (KC4I.tab ℝ (√2)) (-1000 + 5 * Complex.I) (1 + Complex.I) (1 / 10) Ks ∧
    ‖linStep (KC4I.tab ℝ (√2)) (1 + Complex.I) (1 / 10) Ks‖ ≤ ‖1 + Complex.I‖ := by
  have hz : (((1 / 10 : ℝ) : ℂ) * (-1000 + 5 * Complex.I)).re ≤ 0 := by
    rw [Complex.re_ofReal_mul]; norm_num
  obtain ⟨Ks, hK⟩ := exists_stages (stab_ok KC4I (by simp)) (y := 1 + Complex.I) hz
  exact ⟨Ks, hK, C41_A_stable (by simp) hK hz⟩

/-! ## Histories in linear mode -/

theorem stab_tab {R : ESTable} (ok : StabOK R) : ETabOK (R.tab ℝ (√2)) := by
  refine ⟨ok.n, fun s h1 h2 => ?_, fun j hj => ?_, ?_⟩
  · show Q2.val (√2) ((R.A.getD s []).getD s 0) = Q2.val (√2) R.d
    rw [ok.diag s h2 h1]
  · show Q2.val (√2) ((R.A.getD (R.n - 1) []).getD j 0) = Q2.val (√2) (R.B.getD j 0)
    rw [ok.stiff j hj]
  · show Q2.val (√2) (R.C.getD (R.n - 1) 0) = 1
    rw [ok.c1]; exact homR.map_one

section
variable {V : Type*} [AddCommGroup V] [Module ℝ V] {c : ECfg ℝ V}

/-- **C41.** A solver in linear mode (constant Jacobian) for a linear system `y' = J y` computes exact stages: in every
successful step of every history, every (left) eigencomponent `g(y)`, `g(J x) = λ g(x)`, follows the scalar method for
`y' = λ y`. -/
theorem C41_linear_mode {R : ESTable} (hR : R ∈ [TRBDF2, TRX2, KC3I, KC4I, KC4Ia, Kv3I]) (hc : ECfgOK c)
    (hT : c.T = R.tab ℝ (√2)) (hj : c.jac = none) (hlin : LinSolves c) (hM : ∀ x, c.M x = x) {J0 : V →ₗ[ℝ] V}
    (hf : ∀ t y, c.fn t y = some (J0 y)) (hreg : ∀ h, 0 < h → Regular c (h * c.dir) J0)
    {v0 v v' : ESolver ℝ V} {t0 : ℝ} {y0 : V} (hn : IsNew v0 t0 y0 (J0 y0) J0) (hr : EReach c v0 v) {fuel : ℕ}
    (ht : c.tb ≠ some v.st.t) (h : eStep c fuel v = some (.ok, v')) {g : V →ₗ[ℝ] ℂ} {lam : ℂ}
    (hg : ∀ x, g (J0 x) = lam * g x) :
    LinStages (R.tab ℝ (√2)) lam (g v.st.y) (v'.st.t - v.st.t) (fun i => g (v'.st.Ks i)) ∧
      g v'.st.y = linStep (R.tab ℝ (√2)) (g v.st.y) (v'.st.t - v.st.t) (fun i => g (v'.st.Ks i)) := by
  have ok := stab_ok R hR
  have hTok : ETabOK c.T := by rw [hT]; exact stab_tab ok
  have hnn : c.T.n = R.n := by rw [hT]; rfl
  -- exact stages in every step
  have exact : ∀ {w w' : ESolver ℝ V} {fuel : ℕ}, EReach c v0 w → c.tb ≠ some w.st.t →
      eStep c fuel w = some (.ok, w') → ∀ i, 1 ≤ i → i < c.T.n →
      w'.st.Ks i = J0 (stageVal c.T w.st.y (w'.st.t - w.st.t) w'.st.Ks i) := by
    intro w w' fuel hr ht h i h1 h2
    have hreg' : RegularAt c w'.st := by
      obtain ⟨l, a, hv, hL, ha, hcv, hrun, e1, e2, e3, e4, e5, e6, -⟩ := eStep_accepted hc (hr.inv hc hn.inv) ht h
      obtain ⟨-, -, hJJ⟩ := C36_linear_mode hc hj hn hr hrun h
      obtain ⟨j1, -, -, j2⟩ := hJJ rfl
      obtain ⟨hLU', q1, q2, q3, -⟩ := C37_factors_current hc hlin hn hr hrun ht hv
      intro hh hhe
      rw [e6, q1] at hhe
      cases hhe
      rw [q3 hj, j1, j2]
      exact hreg _ hL.pos
    have := C36_linear_exact hc hTok hj hlin hn (r := fun _ => 0) (fun t y => by rw [hf, add_zero]) hr ht h hreg' h1 h2
    rw [hf, hM] at this
    exact (Option.some.inj this).symm
  -- the stored derivative is that of the stored solution
  have hyp : ∀ {w : ESolver ℝ V}, EReach c v0 w → w.status = .running → w.st.yp = J0 w.st.y := by
    intro w hw
    induction hw with
    | refl => obtain ⟨h0, Ks0, nfev, njev, hh, rfl⟩ := hn.new; exact fun _ => rfl
    | @tail w w' o fuel hr hs ho ih =>
      intro hrun'
      rcases eStep_cases hs with ⟨h1, -, rfl⟩ | ⟨-, -, -, rfl⟩ | ⟨hrun, ht, s', hs', rfl, hcase⟩
      · exact absurd hrun' h1
      · cases hrun'
      · rcases hcase with ⟨rfl, -⟩ | ⟨-, h2⟩ | ⟨e, rfl, -⟩
        · obtain ⟨-, b2, b3, -⟩ := C38_solution hc hTok hn hr ht hs
          have hn2 := hTok.n
          rw [b3, b2]
          exact exact hr ht hs _ (by omega) (by omega)
        · rw [h2] at hrun'; cases hrun'
        · exact absurd (by rw [eStepImpl_exc hc ((hr.inv hc hn.inv) hrun) ht hs']) ho
  obtain ⟨l, a, hv, hL, ha, hcv, hrun, -⟩ := eStep_accepted hc (hr.inv hc hn.inv) ht h
  obtain ⟨b1, b2, b3, b4⟩ := C38_solution hc hTok hn hr ht h
  have hsv : ∀ i, g (stageVal c.T v.st.y (v'.st.t - v.st.t) v'.st.Ks i) =
      stageVal c.T (g v.st.y) (v'.st.t - v.st.t) (fun i => g (v'.st.Ks i)) i := by
    intro i
    unfold stageVal
    rw [map_add, map_smul, map_sum]
    simp only [map_smul]
  refine ⟨⟨?_, fun i h1 h2 => ?_⟩, ?_⟩
  · show g (v'.st.Ks 0) = _
    rw [b4, hyp hr hrun, hg]
  · show g (v'.st.Ks i) = _
    rw [exact hr ht h i h1 (by rw [hnn]; exact h2), hg, hsv, hT]
  · rw [b1, map_add, map_smul, map_sum, hT]
    simp only [map_smul]
    rfl

/-- **C41.** Consequently no history of a solver in linear mode amplifies a component with `Re λ ≤ 0` (in the
direction of integration), whatever step sizes the error control chooses. -/
theorem C41_histories {R : ESTable} (hR : R ∈ [TRBDF2, TRX2, KC3I, KC4I, KC4Ia, Kv3I]) (hc : ECfgOK c)
    (hT : c.T = R.tab ℝ (√2)) (hj : c.jac = none) (hlin : LinSolves c) (hM : ∀ x, c.M x = x) {J0 : V →ₗ[ℝ] V}
    (hf : ∀ t y, c.fn t y = some (J0 y)) (hreg : ∀ h, 0 < h → Regular c (h * c.dir) J0)
    {v0 v : ESolver ℝ V} {t0 : ℝ} {y0 : V} (hn : IsNew v0 t0 y0 (J0 y0) J0) (hr : EReach c v0 v) {g : V →ₗ[ℝ] ℂ} {lam : ℂ}
    (hg : ∀ x, g (J0 x) = lam * g x) (hlam : c.dir * lam.re ≤ 0) : ‖g v.st.y‖ ≤ ‖g y0‖ := by
  induction hr with
  | refl => obtain ⟨h0, Ks0, nfev, njev, hh, rfl⟩ := hn.new; exact le_rfl
  | @tail w w' o fuel hr hs ho ih =>
    by_cases hok : o = .ok
    swap
    · rw [(C34_failed_step_keeps_solution hc hn hr hs hok).2.1]; exact ih
    subst hok
    by_cases ht : c.tb = some w.st.t
    · rcases eStep_cases hs with ⟨h1, h2, -⟩ | ⟨-, -, -, rfl⟩ | ⟨-, ht', -⟩
      · cases h2
      · exact ih
      · exact absurd ht ht'
    · obtain ⟨s1, s2⟩ := C41_linear_mode hR hc hT hj hlin hM hf hreg hn hr ht hs hg
      refine le_trans ?_ ih
      rw [s2]
      refine C41_A_stable hR s1 ?_
      obtain ⟨l, a, hv, hL, ha, hcv, hrun, e1, -⟩ := eStep_accepted hc (hr.inv hc hn.inv) ht hs
      rw [Complex.re_ofReal_mul, e1, add_sub_cancel_left, mul_assoc]
      exact mul_nonpos_of_nonneg_of_nonpos hL.pos.le hlam

end

/-- **C41.** The scalar test equation `y' = λ y`: the matrices are regular, so that no history in linear mode amplifies
the solution. -/
theorem C41_test_equation {c : ECfg ℝ ℂ} {R : ESTable} (hR : R ∈ [TRBDF2, TRX2, KC3I, KC4I, KC4Ia, Kv3I]) (hc : ECfgOK c)
    (hT : c.T = R.tab ℝ (√2)) (hj : c.jac = none) (hlin : LinSolves c) (hM : ∀ x, c.M x = x) {lam : ℂ}
    (hlam : c.dir * lam.re ≤ 0) (hf : ∀ t y, c.fn t y = some (lam * y)) {J0 : ℂ →ₗ[ℝ] ℂ} (hJ : ∀ x, J0 x = lam * x)
    {v0 v : ESolver ℝ ℂ} {t0 : ℝ} {y0 : ℂ} (hn : IsNew v0 t0 y0 (lam * y0) J0) (hr : EReach c v0 v) :
    ‖v.st.y‖ ≤ ‖y0‖ := by
  have ok := stab_ok R hR
  refine C41_histories hR hc hT hj hlin hM (fun t y => by rw [hf, hJ]) (fun h hh b => ?_) (by rw [hJ]; exact hn) hr
    (g := LinearMap.id) (lam := lam) (fun x => hJ x) hlam
  have hne : (1 : ℂ) - homC R.d * ((h * c.dir : ℝ) * lam) ≠ 0 := by
    refine norm_pos_iff.mp (lt_of_lt_of_le one_pos (den_bounds ok.d ?_).1)
    rw [Complex.re_ofReal_mul, mul_assoc]
    exact mul_nonpos_of_nonneg_of_nonpos hh.le hlam
  refine ⟨b / (1 - homC R.d * ((h * c.dir : ℝ) * lam)), ?_⟩
  have hd : c.T.d = homR R.d := by rw [hT]; rfl
  show c.M _ - (h * c.dir * c.T.d) • J0 _ = b
  rw [hM, hJ, hd, Complex.real_smul]
  have hk := div_mul_cancel₀ b hne
  have e : ((h * c.dir * homR R.d : ℝ) : ℂ) = ((h * c.dir : ℝ) : ℂ) * homC R.d := by push_cast; rfl
  rw [e]
  linear_combination hk

end Extensisq
