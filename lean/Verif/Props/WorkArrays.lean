import Verif.Props.Work
import Verif.Props.ToleranceWitness
import Verif.Model.Methods

/-!
# C113 for the error norms and controllers of the package

The preliminary tests of `BS5` and `CFMR7osc` are covered; the accuracy (C112) and the work (C113) of one run in terms of the tolerance.
-/

set_option linter.unusedSectionVars false

namespace Extensisq
open scoped ContDiff
open Finset Asymptotics Filter Topology

/-! ## The preliminary tests -/

/-- No preliminary test. -/
theorem preWeights_none (R : RKTable) : PreWeights R 0 (fun _ => 0) where
  le := Nat.zero_le _
  zero _ _ := rfl
  cond _ _ := by simp

/-- **C113**. The preliminary test of `BS5` is covered. -/
theorem C113_BS5_pre : PreWeights BS5 6 (weights ℝ BS5_E_pre) where
  le := by decide
  zero i hi := by
    have : BS5_E_pre.getD i 0 = 0 := List.getD_eq_default _ _ hi
    simpa [weights] using this
  cond := C22_BS5_preliminary ℝ

/-- **C113**. The preliminary test of `CFMR7osc` is covered. -/
theorem C113_CFMR7osc_pre : PreWeights CFMR7osc 8 (CFMR7osc.tab ℝ).E where
  le := by decide
  zero i hi := by
    have : CFMR7osc.E.getD i 0 = 0 := by
      rcases lt_or_ge i 10 with h | h
      · have : ∀ i, 8 ≤ i → i < 10 → CFMR7osc.E.getD i 0 = 0 := by decide +kernel
        exact this i hi h
      · exact List.getD_eq_default _ _ h
    simpa [RKTable.tab] using this
  cond := C22_error_order ℝ CFMR7osc (by simp [rationalRK])

/-! ## Arrays, the scaled norm and the power function -/

set_option maxHeartbeats 1000000 in
/-- **C113** for arrays, with the scaled norm (C31) and the power function in the controller, together with C112: let the tolerances be proportional to `tol`
(`a tol <= atol <= tol`, `rtol <= tol`). With constants which depend on the problem, the method and the controller only, for every `tol` and every first step: the
integration ends on `t_bound`, the error is at most `C tol^(order/(order_secondary+1))`, the number `n` of steps is at most `2 |t_bound - t0| / σ` with
`σ = min(first_step, max_step, |t_bound - t0|, κ tol^(1/(order_secondary+1)))`, and the number of rejected attempts is at most `L n + L log(L first_step / σ)`. -/
theorem C113_arrays {𝕜 : Type*} [RCLike 𝕜] {nd : ℕ} (R : RKTable) (hR : R ∈ rationalRK) {f : ℝ → (Fin nd → 𝕜) → Fin nd → 𝕜} {y : ℝ → Fin nd → 𝕜}
    {t0 b : ℝ} (hy : SolvesOn f y t0 b) (hsm : SmoothNear f y t0 b) (hg : EstimateGeneric (R.tab ℝ) R.orderSec f y t0 b) {pn : ℕ} {Ep : ℕ → ℝ}
    (hp : PreWeights R pn Ep) {a : ℝ} (ha : 0 < a)
    {safety safetySc errExp b1 b2 al tiny minF : ℝ} (hs : 0 < safety) (hs1 : safety < 1) (hs' : 0 < safetySc) (he : errExp < 0) (hb1 : b1 < 0)
    (ht : 0 < tiny) (hF : 0 < minF) (hF1 : minF < 1) :
    ∃ C hstar κ L X : ℝ, 0 ≤ C ∧ 0 < hstar ∧ 0 < κ ∧ 0 < L ∧
      ∀ (c : Cfg ℝ (Fin nd → 𝕜) (Fin nd → 𝕜)) (atol : Fin nd → ℝ) (rtol tol : ℝ) (P : PreTest ℝ (Fin nd → 𝕜)) (h0 H σ : ℝ) (e0 : ℕ)
        (Ks0 : ℕ → Fin nd → 𝕜), CfgOK c → StiffOK c.nfevStiff c.m →
        0 < tol → (∀ i, a * tol ≤ atol i) → (∀ i, atol i ≤ tol) → 0 ≤ rtol → rtol ≤ tol →
        c.m = rkMethod (R.tab ℝ) f (fun y y' e => .num (scaledNorm atol rtol y y' e)) P →
        (P = PreTest.none ∨ ∃ Bp cnt, P = PreTest.linear pn Bp Ep (fun y y' e => .num (scaledNorm atol rtol y y' e)) cnt) →
        c.safety = safety → c.safetySc = safetySc → c.errExp = errExp → c.minbeta1 = b1 → c.minbeta2 = b2 → c.minalpha = al → c.tinyErr = tiny →
        c.minFactor = minF → c.pw = (fun x e => x ^ e) →
        c.tb = some b → 0 ≤ c.dir * (b - t0) → c.maxStep = some H → H ≤ hstar →
        σ = min h0 (min H (min |b - t0| (κ * tol ^ (1 / (R.orderSec + 1 : ℝ))))) →
        c.hMinB ≤ σ / 2 → c.hMinA * (max |t0| |b| + max h0 (X * H)) ≤ σ / 2 →
        (∃ n w, WhileRunning (step c) (fun v => v.status = .running) Out.raised (newSolver c t0 (y t0) h0 e0 Ks0) n none w) ∧
        ∀ n r w, WhileRunning (step c) (fun v => v.status = .running) Out.raised (newSolver c t0 (y t0) h0 e0 Ks0) n r w →
          r = none ∧ w.status = .finished ∧ w.st.t = b ∧ ‖w.st.y - y b‖ ≤ C * tol ^ (R.order / (R.orderSec + 1 : ℝ)) ∧
          n * σ ≤ 2 * |b - t0| ∧ w.st.nfs ≤ L * n + L * Real.log (L * h0 / σ) := by
  obtain ⟨B, hB0, hB⟩ : ∃ B : ℝ, 0 ≤ B ∧ ∀ t ∈ Set.uIcc t0 b, ‖y t‖ + 1 ≤ B := by
    have hcont : ContinuousOn y (Set.uIcc t0 b) := fun t ht => (hy.solves t ht).self_of_nhds.continuousAt.continuousWithinAt
    obtain ⟨B, hB⟩ := isCompact_uIcc.exists_bound_of_continuousOn hcont
    refine ⟨B + 1, ?_, fun t ht => by linarith [hB t ht]⟩
    have := (norm_nonneg _).trans (hB t0 Set.left_mem_uIcc)
    linarith
  obtain ⟨C, h1, c1, c2, c3⟩ := C112_tolerance_error R hR hy hg (A := Real.sqrt nd * (1 + B)) (B := B) (by positivity) hB
  obtain ⟨θ, Rf, hθ, hst⟩ := C113_controller_steers (E := Fin nd → 𝕜) (W := Fin nd → 𝕜) safety safetySc errExp b1 b2 al tiny minF hs hs' he hb1 ht hF
  set m := min minF safety with hm
  have hm0 : 0 < m := lt_min hF hs
  set μ := max minF safety with hμ
  have hμ1 : μ < 1 := max_lt hF1 hs1
  have hμ0 : 0 < μ := lt_max_of_lt_left hF
  obtain ⟨_, h2, κ, _, k2, k3, k4⟩ := C113_work R hR hy hsm hp (M := 1 / a) (θ := θ) (m := m) (μ := μ) (Rf := Rf) (by positivity) hθ hm0 hμ1
  set lam := Real.log (1 / μ) with hlam
  have hlam0 : 0 < lam := Real.log_pos (by rw [lt_div_iff₀ hμ0]; linarith)
  set L := max (max (Real.log Rf / lam) (1 / lam)) (2 / m) with hL
  have hL1 : Real.log Rf ≤ L * lam := by
    rw [← div_le_iff₀ hlam0]; exact (le_max_left _ _).trans (le_max_left _ _)
  have hL2 : 1 ≤ L * lam := by
    rw [← div_le_iff₀ hlam0]; exact (le_max_right _ _).trans (le_max_left _ _)
  have hL3 : 2 / m ≤ L := le_max_right _ _
  have hL0 : 0 < L := lt_of_lt_of_le (by positivity) hL3
  refine ⟨C, min h1 h2, κ, L, Rf, c1, lt_min c2 k2, k3, hL0, ?_⟩
  intro c atol rtol tol P h0 H σ e0 Ks0 hc hso htol hat1 hat2 hr0 hr hmm hP e1 e2 e3 e4 e5 e6 e7 e8 e9 hb hdir hmax hH hσ hm1 hm2
  have hE : ErrBound (fun (y y' e : Fin nd → 𝕜) => .num (scaledNorm atol rtol y y' e)) (1 / a / tol) := by
    rw [div_div]
    exact C111_err_bound (by positivity) hat1 hr0
  have hat0 : ∀ i, 0 < atol i := fun i => lt_of_lt_of_le (by positivity) (hat1 i)
  have hN := C112_norm_controls (𝕜 := 𝕜) hat0 hat2 hr0 hr hB0
  obtain ⟨w1, w2⟩ := k4 c _ P h0 H tol σ e0 Ks0 hc hso hmm htol hE hP (hst c e1 e2 e3 e4 e5 e6 e7 e8 e9)
    (e8 ▸ le_max_left _ _) (e1 ▸ le_max_right _ _) hb hdir hmax (hH.trans (min_le_right _ _)) hσ hm1 hm2
  refine ⟨w1, fun n r w hw => ?_⟩
  obtain ⟨q1, q2, q3, q4, -, q5, q6⟩ := w2 n r w hw
  have hmono : ∀ {w}, ReachWithin c (newSolver c t0 (y t0) h0 e0 Ks0) t0 b H w → ReachWithin c (newSolver c t0 (y t0) h0 e0 Ks0) t0 b h1 w := by
    intro w hw
    induction hw with
    | refl => exact .refl
    | tail _ a1 a2 a3 ih => exact ih.tail a1 (a2.trans (hH.trans (min_le_left _ _))) a3
  have herr := (c3 c _ P h0 tol e0 Ks0 w hc hmm hdir htol.le hN (hmono q4)).1
  rw [q3] at herr
  refine ⟨q1, q2, q3, herr, q5, ?_⟩
  have hσ0 : 0 < σ := by linarith [hc.hMinB]
  have hσh : σ ≤ h0 := hσ ▸ min_le_left _ _
  have hh0 : 0 < h0 := hσ0.trans_le hσh
  have hm1 : m < 1 := (min_le_left _ _).trans_lt hF1
  have z1 : 2 * h0 / (m * σ) ≤ L * h0 / σ := by
    rw [show 2 * h0 / (m * σ) = 2 / m * (h0 / σ) by field_simp, mul_div_assoc]
    exact mul_le_mul_of_nonneg_right hL3 (by positivity)
  have z2 : Real.log (2 * h0 / (m * σ)) ≤ Real.log (L * h0 / σ) := Real.log_le_log (by positivity) z1
  have z3 : 0 ≤ Real.log (2 * h0 / (m * σ)) := by
    refine Real.log_nonneg ?_
    rw [le_div_iff₀ (by positivity)]
    nlinarith
  have z4 : (n : ℝ) * Real.log Rf ≤ n * (L * lam) := mul_le_mul_of_nonneg_left hL1 (Nat.cast_nonneg n)
  have z5 : Real.log (L * h0 / σ) ≤ L * lam * Real.log (L * h0 / σ) := le_mul_of_one_le_left (z3.trans z2) hL2
  refine le_of_mul_le_mul_right ?_ hlam0
  calc (w.st.nfs : ℝ) * lam ≤ n * Real.log Rf + Real.log (2 * h0 / (m * σ)) := q6
    _ ≤ n * (L * lam) + L * lam * Real.log (L * h0 / σ) := by linarith
    _ = _ := by ring

/-! ## A run -/

/-- The number of steps of the decay problem: a configuration with `max_step = H`, `first_step = H / 2` and a minimal step which every tolerance allows. -/
noncomputable def exCfgWork (R : RKTable) (tol H hm : ℝ) : Cfg ℝ ℝ ℝ := { exCfgTol R tol H with hMinB := hm }

/-- **C113** applied: for every tolerance up to 1 there is a run of the method on `y' = -y` up to `t = 1` which meets all hypotheses; its number of steps is at most
`C tol^(-1/(order_secondary+1))` and its error at most `C tol^(order/(order_secondary+1))`, with one constant and one `max_step` for all tolerances. -/
theorem C113_decay (R : RKTable) (hR : R ∈ rationalRK) (h3 : R.orderSec ≠ 3) : ∃ C H : ℝ, ∀ tol : ℝ, 0 < tol → tol ≤ 1 →
    ∃ hm n w, WhileRunning (step (exCfgWork R tol H hm)) (fun v => v.status = .running) Out.raised
        (newSolver (exCfgWork R tol H hm) 0 1 (H / 2) 1 (fun _ => 0)) n none w ∧
      w.status = .finished ∧ w.st.t = 1 ∧ |w.st.y - Real.exp (-1)| ≤ C * tol ^ (R.order / (R.orderSec + 1 : ℝ)) ∧
      n * tol ^ (1 / (R.orderSec + 1 : ℝ)) ≤ C := by
  obtain ⟨C, h1, c1, c2, c3⟩ := C112_tolerance_error R hR exDecay_solves (decay_generic R hR h3) (A := 1) (B := 2) zero_le_one (by
    intro t ht
    rw [Set.uIcc_of_le zero_le_one] at ht
    have : Real.exp (-t) ≤ 1 := Real.exp_le_one_iff.mpr (by linarith [ht.1])
    rw [Real.norm_eq_abs, abs_of_pos (Real.exp_pos _)]
    linarith)
  obtain ⟨θ, Rf, hθ, hst⟩ := C113_controller_steers (E := ℝ) (W := ℝ) (9 / 10) (9 / 10) (-1 / 5) (-7 / 50) (4 / 50) (-1 / 4) (1 / 10 ^ 100) (1 / 5)
    (by norm_num) (by norm_num) (by norm_num) (by norm_num) (by norm_num) (by norm_num)
  have hsm : SmoothNear (fun (_ : ℝ) (u : ℝ) => -u) (fun t => Real.exp (-t)) 0 1 := fun _ _ => Eventually.of_forall fun _ => contDiffAt_snd.neg
  obtain ⟨_, h2, κ, _, k2, k3, k4⟩ := C113_work R hR exDecay_solves hsm (preWeights_none R) (M := 1) (θ := θ) (m := min (1 / 5) (9 / 10)) (μ := 9 / 10)
    (Rf := Rf) one_pos hθ (by norm_num) (by norm_num)
  set H := min (min h1 h2) 1 with hHdef
  have hH0 : 0 < H := by positivity
  have hH1 : H ≤ 1 := min_le_right _ _
  set lam := min (H / 2) κ with hlam
  have hlam0 : 0 < lam := by positivity
  refine ⟨max C (2 / lam), H, fun tol htol htol1 => ?_⟩
  set τ := tol ^ (1 / (R.orderSec + 1 : ℝ)) with hτ
  have hτ0 : 0 < τ := Real.rpow_pos_of_pos htol _
  have hτ1 : τ ≤ 1 := Real.rpow_le_one htol.le htol1 (by positivity)
  set σ := min (H / 2) (min H (min |(1 : ℝ) - 0| (κ * τ))) with hσ
  have hσ0 : 0 < σ := by
    have : 0 < |(1 : ℝ) - 0| := by norm_num
    positivity
  have hσl : lam * τ ≤ σ := by
    have a1 : lam * τ ≤ H / 2 := by
      calc lam * τ ≤ lam * 1 := mul_le_mul_of_nonneg_left hτ1 hlam0.le
        _ ≤ H / 2 := by rw [mul_one]; exact min_le_left _ _
    refine le_min a1 (le_min (by linarith) (le_min ?_ (mul_le_mul_of_nonneg_right (min_le_right _ _) hτ0.le)))
    rw [sub_zero, abs_one]
    linarith
  have hσH : σ ≤ H / 2 := min_le_left _ _
  set c := exCfgWork R tol H (σ / 2) with hcdef
  have hc : CfgOK c := { exCfgTol_ok R tol hH0 with hMinB := half_pos hσ0 }
  have hdir : c.dir = 1 := by
    show direction (0 : ℝ) 1 = 1
    unfold direction
    norm_num
  have key := k4 c (fun _ _ e => .num (|e| / tol)) PreTest.none (H / 2) H tol σ 1 (fun _ => 0) hc (Or.inl rfl) rfl htol
    (fun _ _ e => ⟨|e| / tol, rfl, by rw [Real.norm_eq_abs]; exact (by ring : |e| / tol = 1 / tol * |e|).le⟩)
    (Or.inl rfl) (hst _ rfl rfl rfl rfl rfl rfl rfl rfl rfl) (by norm_num [c, exCfgWork, exCfgTol, easyCfg]) (by norm_num [c, exCfgWork, exCfgTol, easyCfg])
    rfl (by rw [hdir]; norm_num) rfl ((min_le_left _ _).trans (min_le_right _ _)) rfl le_rfl
    (by
      show (0 : ℝ) * _ ≤ σ / 2
      rw [zero_mul]
      positivity)
  simp only [neg_zero, Real.exp_zero] at key
  obtain ⟨⟨n, w, hw⟩, key⟩ := key
  obtain ⟨-, q1, q2, q3, -, q4, -⟩ := key n none w hw
  refine ⟨σ / 2, n, w, hw, q1, q2, ?_, ?_⟩
  · have hmono : ∀ {w}, ReachWithin c (newSolver c 0 1 (H / 2) 1 (fun _ => 0)) 0 1 H w → ReachWithin c (newSolver c 0 1 (H / 2) 1 (fun _ => 0)) 0 1 h1 w := by
      intro w hw
      induction hw with
      | refl => exact .refl
      | tail _ a1 a2 a3 ih => exact ih.tail a1 (a2.trans ((min_le_left _ _).trans (min_le_left _ _))) a3
    have := (c3 c (fun _ _ e => .num (|e| / tol)) PreTest.none (H / 2) tol 1 (fun _ => 0) w hc rfl (by rw [hdir]; norm_num) htol.le
      (fun _ _ e x _ _ hx hx1 => by
        have hx : |e| / tol = x := by injection hx
        rw [← hx, div_lt_one htol] at hx1
        rw [one_mul, Real.norm_eq_abs]
        exact hx1.le) (by simp only [neg_zero, Real.exp_zero]; exact hmono q3)).1
    rw [q2] at this
    exact this.trans (mul_le_mul_of_nonneg_right (le_max_left _ _) (by positivity))
  · refine le_trans ?_ (le_max_right _ _)
    rw [le_div_iff₀ hlam0]
    have hn : (0 : ℝ) ≤ n := Nat.cast_nonneg n
    calc n * τ * lam = n * (lam * τ) := by ring
      _ ≤ n * σ := mul_le_mul_of_nonneg_left hσl hn
      _ ≤ 2 := by simpa using q4

/-- The methods with a preliminary test, and those of the applied theorem. -/
example : BS5 ∈ rationalRK ∧ CFMR7osc ∈ rationalRK ∧ ∀ R ∈ [CK5, BS5, CFMR7osc, Pr7], R.orderSec ≠ 3 :=
  ⟨by simp [rationalRK], by simp [rationalRK], by decide +kernel⟩

end Extensisq
