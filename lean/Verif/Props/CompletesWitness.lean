import Verif.Props.Completes
import Verif.Lemmas.FullRun

/-!
# C111: user level form, and cases which meet the hypotheses
-/

set_option linter.unusedSectionVars false

namespace Extensisq
open scoped ContDiff
open Finset Asymptotics Filter Topology

/-- **C111** for real and complex arrays with the error norm of the code (`scaledNorm`: root mean square, `atol + rtol max(|y|, |y_new|)`) and the
real power function in the controller: for every smooth problem whose solution exists on the closed interval, every tolerance with `atol >= a > 0`, every
controller with negative exponents of the current error norm, the integration with a small `max_step` finishes on `t_bound` without rejections, with an error of
order `max_step^order`. The preliminary test is absent, or one with the weights `Ep` on the first `q` stages (`BS5`: six, `CFMR7osc`: eight). -/
theorem C111_arrays {𝕜 : Type*} [RCLike 𝕜] {n : ℕ} (R : RKTable) (hR : R ∈ rationalRK) {f : ℝ → (Fin n → 𝕜) → Fin n → 𝕜} {y : ℝ → Fin n → 𝕜}
    {t0 b : ℝ} (hy : SolvesOn f y t0 b) {a : ℝ} (ha : 0 < a) {q : ℕ} (hq : q ≤ (R.tab ℝ).s - 1) (Bp Ep : ℕ → ℝ)
    {safety safetySc errExp b1 b2 al tiny : ℝ} (hs : 0 < safety) (hs' : 0 < safetySc) (he : errExp < 0) (hb1 : b1 < 0) (ht : 0 < tiny) :
    ∃ C hstar Rf : ℝ, 0 ≤ C ∧ 0 < hstar ∧
      ∀ (c : Cfg ℝ (Fin n → 𝕜) (Fin n → 𝕜)) (atol : Fin n → ℝ) (rtol : ℝ) (P : PreTest ℝ (Fin n → 𝕜)) (h0 H : ℝ) (e0 : ℕ) (Ks0 : ℕ → Fin n → 𝕜),
        CfgOK c → (∀ i, a ≤ atol i) → 0 ≤ rtol →
        c.m = rkMethod (R.tab ℝ) f (fun y y' e => .num (scaledNorm atol rtol y y' e)) P →
        (P = PreTest.none ∨ ∃ cnt, P = PreTest.linear q Bp Ep (fun y y' e => .num (scaledNorm atol rtol y y' e)) cnt) →
        StiffOK c.nfevStiff c.m → c.safety < 1 →
        c.safety = safety → c.safetySc = safetySc → c.errExp = errExp → c.minbeta1 = b1 → c.minbeta2 = b2 → c.minalpha = al → c.tinyErr = tiny →
        c.pw = (fun x e => x ^ e) →
        c.tb = some b → 0 ≤ c.dir * (b - t0) → c.maxStep = some H → H ≤ hstar →
        c.hMinB ≤ min h0 (min H |b - t0|) / 2 → c.hMinA * (max |t0| |b| + max h0 (Rf * H)) ≤ min h0 (min H |b - t0|) / 2 →
        (∃ k w, WhileRunning (step c) (fun v => v.status = .running) Out.raised (newSolver c t0 (y t0) h0 e0 Ks0) k none w) ∧
        ∀ k r w, WhileRunning (step c) (fun v => v.status = .running) Out.raised (newSolver c t0 (y t0) h0 e0 Ks0) k r w →
          r = none ∧ w.status = .finished ∧ w.st.t = b ∧ w.st.nfs = 0 ∧ ‖w.st.y - y b‖ ≤ C * H ^ R.order ∧
          k * (min h0 (min H |b - t0|) / 2) ≤ |b - t0| := by
  obtain ⟨θ, Rf, hθ, hg⟩ := C111_controller_grows (E := Fin n → 𝕜) (W := Fin n → 𝕜) safety safetySc errExp b1 b2 al tiny hs hs' he hb1 ht
  set M := max (1 / a) (1 / a * ∑ i ∈ range q, |Ep i|) with hM
  have hM0 : 0 ≤ M := le_max_of_le_left (by positivity)
  obtain ⟨C, hstar, h1, h2, h3⟩ := C111_finishes R hR hy (M := M) (θ := θ) (Rf := Rf) hM0 hθ
  refine ⟨C, hstar, Rf, h1, h2, ?_⟩
  intro c atol rtol P h0 H e0 Ks0 hc hat hr hm hP hst hsafe e1 e2 e3 e4 e5 e6 e7 e8 hb hdir hmax hH hmin1 hmin2
  have hE : ErrBound (fun (y y' e : Fin n → 𝕜) => .num (scaledNorm atol rtol y y' e)) (1 / a) := C111_err_bound ha hat hr
  refine h3 c _ P h0 H e0 Ks0 hc hsafe hst hm (hE.mono (le_max_left _ _)) ?_ (hg c e1 e2 e3 e4 e5 e6 e7 e8) hb hdir hmax hH hmin1 hmin2
  rcases hP with rfl | ⟨cnt, rfl⟩
  · intro h; cases h
  · exact (C111_pre_bound (by positivity) hE hq Bp Ep cnt).mono (le_max_right _ _)

/-- `BS5` and `CFMR7osc` are covered. -/
example : BS5 ∈ rationalRK ∧ 6 ≤ BS5.s - 1 ∧ CFMR7osc ∈ rationalRK ∧ 8 ≤ CFMR7osc.s - 1 :=
  ⟨by simp [rationalRK], by decide, by simp [rationalRK], by decide⟩

/-- Options for `y' = -y` on `[0, 1]` with a second order controller (`sc_params = (0.7, -0.4, 0.25, 0.9)`, order five), `max_step = H`, and positive minimal steps. -/
noncomputable def exCfgC (R : RKTable) (H Rf : ℝ) : Cfg ℝ ℝ ℝ :=
  { easyCfg (rkMethod (R.tab ℝ) (fun _ u => -u) (fun _ _ e => .num |e|)) 0 1 H with
    hMinA := H / (8 * (1 + Rf)), hMinB := H / 4, errExp := -1 / 5, minbeta1 := -7 / 50, minbeta2 := 4 / 50, minalpha := -1 / 4 }

theorem exCfgC_ok (R : RKTable) {H Rf : ℝ} (hH : 0 < H) (hR : 10 ≤ Rf) : CfgOK (exCfgC R H Rf) where
  dir := direction_cases 0 1
  hMinA := by show 0 ≤ H / (8 * (1 + Rf)); positivity
  hMinB := by show 0 < H / 4; positivity
  tiny := by norm_num [exCfgC, easyCfg]
  minF0 := by norm_num [exCfgC, easyCfg]
  minF1 := by norm_num [exCfgC, easyCfg]
  errExp := by norm_num [exCfgC, easyCfg]
  safety0 := by norm_num [exCfgC, easyCfg]
  safety1 := by norm_num [exCfgC, easyCfg]
  safetySc := by norm_num [exCfgC, easyCfg]
  pw := PowOK.rpow
  maxStep := fun m h => by
    have : H = m := Option.some.inj h
    exact this ▸ hH

/-- The theorem applied: with every rational method and every small `max_step` the solver reaches `t = 1` with an error of order `max_step^order`. -/
theorem C111_decay (R : RKTable) (hR : R ∈ rationalRK) : ∃ C hstar Rf : ℝ, 0 < hstar ∧ ∀ H, 0 < H → H ≤ hstar →
    ∃ k w, WhileRunning (step (exCfgC R H Rf)) (fun v => v.status = .running) Out.raised (newSolver (exCfgC R H Rf) 0 1 (H / 2) 1 (fun _ => 0)) k none w ∧
      w.status = .finished ∧ w.st.t = 1 ∧ |w.st.y - Real.exp (-1)| ≤ C * H ^ R.order := by
  obtain ⟨θ, Rf, hθ, hg⟩ := C111_controller_grows (E := ℝ) (W := ℝ) (9 / 10) (9 / 10) (-1 / 5) (-7 / 50) (4 / 50) (-1 / 4) (1 / 10 ^ 100)
    (by norm_num) (by norm_num) (by norm_num) (by norm_num) (by norm_num)
  have hten : 10 ≤ Rf := (hg (exCfgC R 1 1) rfl rfl rfl rfl rfl rfl rfl rfl).ten
  obtain ⟨C, hstar, h1, h2, h3⟩ := C111_finishes R hR exDecay_solves (M := 1) (θ := θ) (Rf := Rf) zero_le_one hθ
  refine ⟨C, min hstar 1, Rf, lt_min h2 one_pos, fun H hH0 hH => ?_⟩
  have hH1 : H ≤ 1 := hH.trans (min_le_right _ _)
  have hdir : (exCfgC R H Rf).dir = 1 := by
    show direction (0 : ℝ) 1 = 1
    unfold direction
    norm_num
  have hη : min (H / 2) (min H |(1 : ℝ) - 0|) = H / 2 := by
    rw [sub_zero, abs_one, min_eq_left hH1, min_eq_left (by linarith)]
  have key := h3 (exCfgC R H Rf) (fun _ _ e => .num |e|) PreTest.none (H / 2) H 1 (fun _ => 0) (exCfgC_ok R hH0 hten) (by norm_num [exCfgC, easyCfg])
    (Or.inl rfl) rfl (fun _ _ e => ⟨|e|, rfl, by rw [one_mul]; exact le_rfl⟩) (fun h => by cases h) (hg _ rfl rfl rfl rfl rfl rfl rfl rfl) rfl
    (by rw [hdir]; norm_num) rfl (hH.trans (min_le_left _ _))
    (by rw [hη]; show H / 4 ≤ H / 2 / 2; linarith)
    (by
      rw [hη]
      show H / (8 * (1 + Rf)) * (max |(0 : ℝ)| |1| + max (H / 2) (Rf * H)) ≤ H / 2 / 2
      have e1 : max |(0 : ℝ)| |1| + max (H / 2) (Rf * H) ≤ 1 + Rf := by
        refine add_le_add (by norm_num) (max_le (by linarith) ?_)
        nlinarith
      calc H / (8 * (1 + Rf)) * (max |(0 : ℝ)| |1| + max (H / 2) (Rf * H)) ≤ H / (8 * (1 + Rf)) * (1 + Rf) :=
            mul_le_mul_of_nonneg_left e1 (by positivity)
        _ = H / 8 := by field_simp
        _ ≤ H / 2 / 2 := by linarith)
  simp only [neg_zero, Real.exp_zero] at key
  obtain ⟨⟨k, w, hw⟩, key⟩ := key
  obtain ⟨-, q1, q2, -, q3, -⟩ := key k none w hw
  exact ⟨k, w, hw, q1, q2, by simpa using q3⟩

/-- The Butcher tables to which it applies include the default method. -/
example : ∃ C hstar Rf : ℝ, 0 < hstar ∧ ∀ H, 0 < H → H ≤ hstar →
    ∃ k w, WhileRunning (step (exCfgC BS5 H Rf)) (fun v => v.status = .running) Out.raised
      (newSolver (exCfgC BS5 H Rf) 0 1 (H / 2) 1 (fun _ => 0)) k none w ∧
      w.status = .finished ∧ w.st.t = 1 ∧ |w.st.y - Real.exp (-1)| ≤ C * H ^ BS5.order := C111_decay BS5 (by simp [rationalRK])

end Extensisq
