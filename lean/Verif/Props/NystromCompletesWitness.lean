import Verif.Props.NystromCompletes
import Verif.Props.WorkArrays
import Verif.Props.CompletesWitness
import Mathlib.Data.Fin.Tuple.Basic

/-!
# C115 for the norm of the code, and runs which meet the hypotheses
-/

set_option linter.unusedSectionVars false

namespace Extensisq
open scoped ContDiff
open Finset Asymptotics Filter Topology

/-! ## The error norm of the code -/

section
variable {𝕜 : Type*} [RCLike 𝕜] {n : ℕ}

/-- The error norm of a Nystrom class: position and velocity are one array `y = concatenate((u, v))` (`common.py:1293, 1309`), `atol` has an entry for each of its
components, and `calculate_scale` and `norm` act on the whole array (`common.py:338-339, 1295, 1301`). -/
noncomputable def nyScaledNorm (atol : Fin (n + n) → ℝ) (rtol : ℝ) (y y' e : (Fin n → 𝕜) × (Fin n → 𝕜)) : ℝ :=
  scaledNorm atol rtol (Fin.append y.1 y.2) (Fin.append y'.1 y'.2) (Fin.append e.1 e.2)

theorem norm_append (e : (Fin n → 𝕜) × (Fin n → 𝕜)) : ‖Fin.append e.1 e.2‖ = ‖e‖ := by
  apply le_antisymm
  · rw [pi_norm_le_iff_of_nonneg (norm_nonneg _)]
    intro i
    refine Fin.addCases (fun j => ?_) (fun j => ?_) i
    · rw [Fin.append_left]; exact (norm_le_pi_norm e.1 j).trans (norm_fst_le e)
    · rw [Fin.append_right]; exact (norm_le_pi_norm e.2 j).trans (norm_snd_le e)
  · rw [Prod.norm_def]
    refine max_le ?_ ?_
    · rw [pi_norm_le_iff_of_nonneg (norm_nonneg _)]
      intro j
      have := norm_le_pi_norm (Fin.append e.1 e.2) (Fin.castAdd n j)
      rwa [Fin.append_left] at this
    · rw [pi_norm_le_iff_of_nonneg (norm_nonneg _)]
      intro j
      have := norm_le_pi_norm (Fin.append e.1 e.2) (Fin.natAdd n j)
      rwa [Fin.append_right] at this

/-- The error norm of the Nystrom classes, with every component of `atol` at least `a > 0`, satisfies the hypothesis on the error norm. -/
theorem C115_err_bound {atol : Fin (n + n) → ℝ} {rtol a : ℝ} (ha : 0 < a) (hat : ∀ i, a ≤ atol i) (hr : 0 ≤ rtol) :
    ErrBound (fun (y y' e : (Fin n → 𝕜) × (Fin n → 𝕜)) => .num (nyScaledNorm atol rtol y y' e)) (1 / a) := by
  intro y y' e
  obtain ⟨x, hx, hx1⟩ := C111_err_bound (𝕜 := 𝕜) ha hat hr (Fin.append y.1 y.2) (Fin.append y'.1 y'.2) (Fin.append e.1 e.2)
  rw [norm_append] at hx1
  exact ⟨x, hx, hx1⟩

/-- An error norm below one means an error of the size of the tolerances. -/
theorem C115_norm_controls {atol : Fin (n + n) → ℝ} {rtol tol B : ℝ} (ha : ∀ i, 0 < atol i) (hat : ∀ i, atol i ≤ tol)
    (hr0 : 0 ≤ rtol) (hr : rtol ≤ tol) (hB : 0 ≤ B) :
    NormControls (fun (y y' e : (Fin n → 𝕜) × (Fin n → 𝕜)) => .num (nyScaledNorm atol rtol y y' e)) B (Real.sqrt (n + n : ℕ) * (1 + B)) tol := by
  intro y y' e x hy hy' hx hx1
  have := C112_norm_controls (𝕜 := 𝕜) ha hat hr0 hr hB (Fin.append y.1 y.2) (Fin.append y'.1 y'.2) (Fin.append e.1 e.2) x
    (by rwa [norm_append]) (by rwa [norm_append]) hx hx1
  rwa [norm_append] at this

set_option maxHeartbeats 1000000 in
/-- **C115** for real and complex arrays, the norm of the code and the power function in the controller: let the tolerances be proportional to `tol`
(`a tol <= atol <= tol`, `rtol <= tol`). With constants which depend on the problem, the method and the controller only, for every `tol` and every first step: the
integration ends on `t_bound`, position and velocity are accurate to `C tol^(order/(order_secondary+1))`, the number `n` of steps is at most `2 |t_bound - t0| / σ` with
`σ = min(first_step, max_step, |t_bound - t0|, κ tol^(1/(order_secondary+1)))`, and the number of rejected attempts is at most `L n + L log(L first_step / σ)`. -/
theorem C115_arrays (R : NyTable) (hR : R ∈ rationalNy) {acc : ℝ → (Fin n → 𝕜) × (Fin n → 𝕜) → Fin n → 𝕜} {y : ℝ → (Fin n → 𝕜) × (Fin n → 𝕜)}
    {t0 b : ℝ} (hy : NySolvesOn acc y t0 b) (hv : R.hasAp = false → ∀ t u v w, acc t (u, v) = acc t (u, w)) (hsm : NySmoothNear acc y t0 b)
    (hg : NyEstimateGeneric (R.tab ℝ) R.orderSec acc y t0 b) {a : ℝ} (ha : 0 < a)
    {safety safetySc errExp b1 b2 al tiny minF : ℝ} (hs : 0 < safety) (hs1 : safety < 1) (hs' : 0 < safetySc) (he : errExp < 0) (hb1 : b1 < 0)
    (ht : 0 < tiny) (hF : 0 < minF) (hF1 : minF < 1) :
    ∃ C hstar κ L X : ℝ, 0 ≤ C ∧ 0 < hstar ∧ 0 < κ ∧ 0 < L ∧
      ∀ (c : Cfg ℝ ((Fin n → 𝕜) × (Fin n → 𝕜)) (Fin n → 𝕜)) (atol : Fin (n + n) → ℝ) (rtol tol : ℝ) (h0 H σ : ℝ) (e0 : ℕ)
        (Ks0 : ℕ → Fin n → 𝕜), CfgOK c → StiffOK c.nfevStiff c.m →
        0 < tol → (∀ i, a * tol ≤ atol i) → (∀ i, atol i ≤ tol) → 0 ≤ rtol → rtol ≤ tol →
        c.m = nyMethod (R.tab ℝ) acc (fun y y' e => .num (nyScaledNorm atol rtol y y' e)) →
        c.safety = safety → c.safetySc = safetySc → c.errExp = errExp → c.minbeta1 = b1 → c.minbeta2 = b2 → c.minalpha = al → c.tinyErr = tiny →
        c.minFactor = minF → c.pw = (fun x e => x ^ e) →
        c.tb = some b → 0 ≤ c.dir * (b - t0) → c.maxStep = some H → H ≤ hstar →
        σ = min h0 (min H (min |b - t0| (κ * tol ^ (1 / (R.orderSec + 1 : ℝ))))) →
        c.hMinB ≤ σ / 2 → c.hMinA * (max |t0| |b| + max h0 (X * H)) ≤ σ / 2 →
        (∃ n w, WhileRunning (step c) (fun v => v.status = .running) Out.raised (newSolver c t0 (y t0) h0 e0 Ks0) n none w) ∧
        ∀ n r w, WhileRunning (step c) (fun v => v.status = .running) Out.raised (newSolver c t0 (y t0) h0 e0 Ks0) n r w →
          r = none ∧ w.status = .finished ∧ w.st.t = b ∧ ‖w.st.y - y b‖ ≤ C * tol ^ (R.order / (R.orderSec + 1 : ℝ)) ∧
          n * σ ≤ 2 * |b - t0| ∧ w.st.nfs ≤ L * n + L * Real.log (L * h0 / σ) := by
  obtain ⟨B, hB0, hB⟩ : ∃ B : ℝ, 0 ≤ B ∧ ∀ t ∈ Set.uIcc t0 b, ‖y t‖ + 1 ≤ B := by
    have hcont : ContinuousOn y (Set.uIcc t0 b) := fun t ht => (hy.continuousAt ht).continuousWithinAt
    obtain ⟨B, hB⟩ := isCompact_uIcc.exists_bound_of_continuousOn hcont
    refine ⟨B + 1, ?_, fun t ht => by linarith [hB t ht]⟩
    have := (norm_nonneg _).trans (hB t0 Set.left_mem_uIcc)
    linarith
  obtain ⟨C, h1, c1, c2, c3⟩ := C115_tolerance_error R hR hy hv hg (A := Real.sqrt (n + n : ℕ) * (1 + B)) (B := B) (by positivity) hB
  obtain ⟨θ, Rf, hθ, hst⟩ := C113_controller_steers (E := (Fin n → 𝕜) × (Fin n → 𝕜)) (W := Fin n → 𝕜) safety safetySc errExp b1 b2 al tiny minF hs hs' he hb1 ht hF
  set m := min minF safety with hm
  have hm0 : 0 < m := lt_min hF hs
  set μ := max minF safety with hμ
  have hμ1 : μ < 1 := max_lt hF1 hs1
  have hμ0 : 0 < μ := lt_max_of_lt_left hF
  obtain ⟨_, h2, κ, _, k2, k3, k4⟩ := C115_work R hR hy hv hsm (M := 1 / a) (θ := θ) (m := m) (μ := μ) (Rf := Rf) (by positivity) hθ hm0 hμ1
  set lam := Real.log (1 / μ) with hlam
  have hlam0 : 0 < lam := Real.log_pos (by rw [lt_div_iff₀ hμ0]; linarith)
  set L := max (max (Real.log Rf / lam) (1 / lam)) (2 / m) with hL
  have hL1 : Real.log Rf ≤ L * lam := by
    rw [← div_le_iff₀ hlam0]; exact (le_max_left _ _).trans (le_max_left _ _)
  have hL2 : 1 ≤ L * lam := by
    rw [← div_le_iff₀ hlam0]; exact (le_max_right _ _).trans (le_max_left _ _)
  have hL3 : 2 / m ≤ L := le_max_right _ _
  have hL0 : 0 < L := lt_of_lt_of_le (by positivity) hL3
  refine ⟨C, min h1 h2, κ, L, Rf, c1, lt_min c2 k2, k3, hL0, ?_⟩
  intro c atol rtol tol h0 H σ e0 Ks0 hc hso htol hat1 hat2 hr0 hr hmm e1 e2 e3 e4 e5 e6 e7 e8 e9 hb hdir hmax hH hσ hm1 hm2
  have hE : ErrBound (fun (y y' e : (Fin n → 𝕜) × (Fin n → 𝕜)) => .num (nyScaledNorm atol rtol y y' e)) (1 / a / tol) := by
    rw [div_div]
    exact C115_err_bound (by positivity) hat1 hr0
  have hat0 : ∀ i, 0 < atol i := fun i => lt_of_lt_of_le (by positivity) (hat1 i)
  have hN := C115_norm_controls (𝕜 := 𝕜) hat0 hat2 hr0 hr hB0
  obtain ⟨w1, w2⟩ := k4 c _ h0 H tol σ e0 Ks0 hc hso hmm htol hE (hst c e1 e2 e3 e4 e5 e6 e7 e8 e9)
    (e8 ▸ le_max_left _ _) (e1 ▸ le_max_right _ _) hb hdir hmax (hH.trans (min_le_right _ _)) hσ hm1 hm2
  refine ⟨w1, fun n r w hw => ?_⟩
  obtain ⟨q1, q2, q3, q4, -, q5, q6⟩ := w2 n r w hw
  have hmono : ∀ {w}, ReachWithin c (newSolver c t0 (y t0) h0 e0 Ks0) t0 b H w → ReachWithin c (newSolver c t0 (y t0) h0 e0 Ks0) t0 b h1 w := by
    intro w hw
    induction hw with
    | refl => exact .refl
    | tail _ a1 a2 a3 ih => exact ih.tail a1 (a2.trans (hH.trans (min_le_left _ _))) a3
  have herr := (c3 c _ h0 tol e0 Ks0 w hc hmm hdir htol.le hN (hmono q4)).1
  rw [q3] at herr
  refine ⟨q1, q2, q3, herr, q5, ?_⟩
  have hσ0 : 0 < σ := by linarith [hc.hMinB]
  have hσh : σ ≤ h0 := hσ ▸ min_le_left _ _
  have hh0 : 0 < h0 := hσ0.trans_le hσh
  have hm1 : m < 1 := (min_le_left _ _).trans_lt hF1
  have z1 : 2 * h0 / (m * σ) ≤ L * h0 / σ := by
    rw [show 2 * h0 / (m * σ) = 2 / m * (h0 / σ) by field_simp, mul_div_assoc]
    exact mul_le_mul_of_nonneg_right hL3 (by positivity)
  have z2 : Real.log (2 * h0 / (m * σ)) ≤ Real.log (L * h0 / σ) := Real.log_le_log (by positivity) z1
  have z3 : 0 ≤ Real.log (2 * h0 / (m * σ)) := by
    refine Real.log_nonneg ?_
    rw [le_div_iff₀ (by positivity)]
    nlinarith
  have z4 : (n : ℝ) * Real.log Rf ≤ n * (L * lam) := mul_le_mul_of_nonneg_left hL1 (Nat.cast_nonneg n)
  have z5 : Real.log (L * h0 / σ) ≤ L * lam * Real.log (L * h0 / σ) := le_mul_of_one_le_left (z3.trans z2) hL2
  refine le_of_mul_le_mul_right ?_ hlam0
  calc (w.st.nfs : ℝ) * lam ≤ n * Real.log Rf + Real.log (2 * h0 / (m * σ)) := q6
    _ ≤ n * (L * lam) + L * lam * Real.log (L * h0 / σ) := by linarith
    _ = _ := by ring

end

/-! ## A problem with an estimate of generic order -/

/-- The moments of the error weights of the velocity. -/
def nyMoment (R : NyTable) (m : ℕ) : ℚ := ∑ i ∈ range (R.s + 1), R.Ep.getD i 0 * (if i < R.s then R.C.getD i 0 else 1) ^ m

theorem nyMoment_order : ∀ R ∈ rationalNy, (∀ m ∈ range R.orderSec, nyMoment R m = 0) ∧ nyMoment R R.orderSec ≠ 0 := by decide +kernel

/-- The double quadrature `u'' = t^order_secondary`: all methods have an estimate of generic order. -/
theorem ny_quadrature_generic (R : NyTable) (hR : R ∈ rationalNy) (y : ℝ → ℝ × ℝ) (t0 b : ℝ) :
    NyEstimateGeneric (R.tab ℝ) R.orderSec (fun t _ => t ^ R.orderSec) y t0 b := by
  intro t _ k yNew hk hcon
  obtain ⟨hz, hn⟩ := nyMoment_order R hR
  have hcon2 : (fun h => (nyErrorEstimate (R.tab ℝ) h (k h)).2) =o[𝓝 0] fun h : ℝ => h ^ (R.orderSec + 1) :=
    (IsBigO.of_bound 1 (Eventually.of_forall fun h => by rw [one_mul]; exact norm_snd_le _)).trans_isLittleO hcon
  refine not_isLittleO_of_factor (G := fun _ => (nyMoment R R.orderSec : ℝ)) (fun h => ?_) continuousAt_const (by exact_mod_cast hn) hcon2
  have e1 : ∀ i ∈ range (R.s + 1), (R.tab ℝ).Ep i • k h i =
      ∑ m ∈ range (R.orderSec + 1), (((R.Ep.getD i 0 * (if i < R.s then R.C.getD i 0 else 1) ^ m : ℚ)) : ℝ) *
        (h ^ m * t ^ (R.orderSec - m) * (R.orderSec.choose m : ℝ)) := by
    intro i hi
    rw [mem_range] at hi
    have hc : (R.tab ℝ).fullC i = (((if i < R.s then R.C.getD i 0 else 1 : ℚ)) : ℝ) := by
      unfold NTableau.fullC
      show (if i < R.s then ((R.C.getD i 0 : ℚ) : ℝ) else 1) = _
      split_ifs <;> simp
    rw [(hk h).full i hi, hc, smul_eq_mul, add_comm t, add_pow, mul_sum]
    refine sum_congr rfl fun m _ => ?_
    show ((R.Ep.getD i 0 : ℚ) : ℝ) * _ = _
    rw [mul_pow]
    push_cast
    ring
  unfold nyErrorEstimate
  show h • ∑ i ∈ range (R.s + 1), _ = _
  rw [sum_congr rfl e1, sum_comm, smul_eq_mul, sum_range_succ]
  have e2 : ∀ m, ∑ i ∈ range (R.s + 1), (((R.Ep.getD i 0 * (if i < R.s then R.C.getD i 0 else 1) ^ m : ℚ)) : ℝ) *
        (h ^ m * t ^ (R.orderSec - m) * (R.orderSec.choose m : ℝ)) = (nyMoment R m : ℝ) * (h ^ m * t ^ (R.orderSec - m) * (R.orderSec.choose m : ℝ)) := by
    intro m
    rw [← sum_mul, nyMoment]
    push_cast
    rfl
  rw [e2, sum_eq_zero (fun m hm => by rw [e2, hz m hm, Rat.cast_zero, zero_mul]), zero_add, Nat.sub_self, pow_zero, Nat.choose_self]
  push_cast
  ring

/-- Its solution from `u(0) = u'(0) = 0`. -/
theorem ny_quadrature_solves (q : ℕ) (t0 b : ℝ) : NySolvesOn (fun (t : ℝ) (_ : ℝ × ℝ) => t ^ q)
    (fun t => (t ^ (q + 2) / ((q + 1) * (q + 2)), t ^ (q + 1) / (q + 1))) t0 b where
  smooth _ _ := ContDiff.contDiffAt (by fun_prop)
  solves _ _ := Eventually.of_forall fun t => by
    refine HasDerivAt.prodMk ?_ ?_
    · refine ((hasDerivAt_pow (q + 2) t).div_const _).congr_deriv ?_
      push_cast
      show _ = t ^ (q + 1) / ((q : ℝ) + 1)
      field_simp
    · refine ((hasDerivAt_pow (q + 1) t).div_const _).congr_deriv ?_
      push_cast
      show _ = t ^ q
      field_simp

/-- Options for a problem on `[0, 1]` with the error norm `|e| / tol` and `max_step = H`. -/
noncomputable def exCfgNyTol (R : NyTable) (acc : ℝ → ℝ × ℝ → ℝ) (tol H hm : ℝ) : Cfg ℝ (ℝ × ℝ) ℝ where
  m := nyMethod (R.tab ℝ) acc (fun _ _ e => .num (‖e‖ / tol))
  tb := some 1
  dir := 1
  maxStep := some H
  hMinA := 0
  hMinB := hm
  tinyErr := 1 / 10 ^ 100
  minFactor := 1 / 5
  errExp := -1 / 5
  minbeta1 := -7 / 50
  minbeta2 := 4 / 50
  minalpha := -1 / 4
  safety := 9 / 10
  safetySc := 9 / 10
  pw := fun x e => x ^ e
  nfevStiff := 0

theorem exCfgNyTol_ok (R : NyTable) (acc : ℝ → ℝ × ℝ → ℝ) (tol : ℝ) {H hm : ℝ} (hH : 0 < H) (hhm : 0 < hm) : CfgOK (exCfgNyTol R acc tol H hm) where
  dir := Or.inl rfl
  hMinA := le_rfl
  hMinB := hhm
  tiny := by norm_num [exCfgNyTol]
  minF0 := by norm_num [exCfgNyTol]
  minF1 := by norm_num [exCfgNyTol]
  errExp := by norm_num [exCfgNyTol]
  safety0 := by norm_num [exCfgNyTol]
  safety1 := by norm_num [exCfgNyTol]
  safetySc := by norm_num [exCfgNyTol]
  pw := PowOK.rpow
  maxStep := fun m h => by simp only [exCfgNyTol, Option.some.injEq] at h; rw [← h]; exact hH

/-- **C115** applied: with every method and every small `max_step` the harmonic oscillator is integrated up to `t = 1`, without rejected steps, with an error of position
and velocity of order `max_step^order`. -/
theorem C115_oscillator (R : NyTable) (hR : R ∈ rationalNy) : ∃ C hstar : ℝ, 0 < hstar ∧ ∀ H, 0 < H → H ≤ hstar →
    ∃ k w, WhileRunning (step (exCfgNyTol R (fun _ y => -y.1) 1 H (H / 4))) (fun v => v.status = .running) Out.raised
        (newSolver (exCfgNyTol R (fun _ y => -y.1) 1 H (H / 4)) 0 (1, 0) (H / 2) 1 (fun _ => 0)) k none w ∧
      w.status = .finished ∧ w.st.t = 1 ∧ w.st.nfs = 0 ∧ ‖w.st.y - (Real.cos 1, -Real.sin 1)‖ ≤ C * H ^ R.order := by
  obtain ⟨θ, Rf, hθ, hg⟩ := C111_controller_grows (E := ℝ × ℝ) (W := ℝ) (9 / 10) (9 / 10) (-1 / 5) (-7 / 50) (4 / 50) (-1 / 4) (1 / 10 ^ 100)
    (by norm_num) (by norm_num) (by norm_num) (by norm_num) (by norm_num)
  obtain ⟨C, hstar, h1, h2, h3⟩ := C115_finishes R hR (exOscillator_solves 0 1) (fun _ _ _ _ _ => rfl) (M := 1) (θ := θ) (Rf := Rf) zero_le_one hθ
  refine ⟨C, min hstar 1, lt_min h2 one_pos, fun H hH0 hH => ?_⟩
  have hH1 : H ≤ 1 := hH.trans (min_le_right _ _)
  have hη : min (H / 2) (min H |(1 : ℝ) - 0|) = H / 2 := by
    rw [sub_zero, abs_one, min_eq_left hH1, min_eq_left (by linarith)]
  have key := h3 (exCfgNyTol R (fun _ y => -y.1) 1 H (H / 4)) (fun _ _ e => .num (‖e‖ / 1)) (H / 2) H 1 (fun _ => 0)
    (exCfgNyTol_ok R _ 1 hH0 (by linarith)) (by norm_num [exCfgNyTol])
    (Or.inl rfl) rfl (fun _ _ e => ⟨‖e‖ / 1, rfl, by rw [one_mul, div_one]⟩) (hg _ rfl rfl rfl rfl rfl rfl rfl rfl) rfl
    (by show (0 : ℝ) ≤ 1 * (1 - 0); norm_num) rfl (hH.trans (min_le_left _ _))
    (by rw [hη]; show H / 4 ≤ H / 2 / 2; linarith)
    (by
      rw [hη]
      show (0 : ℝ) * _ ≤ H / 2 / 2
      rw [zero_mul]
      positivity)
  simp only [Real.cos_zero, Real.sin_zero, neg_zero] at key
  obtain ⟨⟨k, w, hw⟩, key⟩ := key
  obtain ⟨-, q1, q2, q0, q3, -⟩ := key k none w hw
  exact ⟨k, w, hw, q1, q2, q0, q3⟩

/-- **C115** applied: for every tolerance up to 1 there is a run of the method on `u'' = t^order_secondary` up to `t = 1` which meets all hypotheses; its number of steps
is at most `C tol^(-1/(order_secondary+1))` and its error at most `C tol^(order/(order_secondary+1))`, with one constant and one `max_step` for all tolerances. -/
theorem C115_quadrature (R : NyTable) (hR : R ∈ rationalNy) : ∃ C H : ℝ, ∀ tol : ℝ, 0 < tol → tol ≤ 1 →
    ∃ hm n w, WhileRunning (step (exCfgNyTol R (fun t _ => t ^ R.orderSec) tol H hm)) (fun v => v.status = .running) Out.raised
        (newSolver (exCfgNyTol R (fun t _ => t ^ R.orderSec) tol H hm) 0 (0, 0) (H / 2) 1 (fun _ => 0)) n none w ∧
      w.status = .finished ∧ w.st.t = 1 ∧
      ‖w.st.y - ((1 / ((R.orderSec + 1 : ℝ) * (R.orderSec + 2)), 1 / (R.orderSec + 1 : ℝ)) : ℝ × ℝ)‖ ≤ C * tol ^ (R.order / (R.orderSec + 1 : ℝ)) ∧
      n * tol ^ (1 / (R.orderSec + 1 : ℝ)) ≤ C := by
  set q := R.orderSec with hq
  have hsol := ny_quadrature_solves q 0 1
  set y : ℝ → ℝ × ℝ := fun t => (t ^ (q + 2) / ((q + 1) * (q + 2)), t ^ (q + 1) / (q + 1)) with hy
  have hy0 : y 0 = (0, 0) := by simp [hy]
  have hy1 : y 1 = (1 / ((q + 1 : ℝ) * (q + 2)), 1 / (q + 1 : ℝ)) := by simp [hy]
  obtain ⟨B, hB⟩ : ∃ B : ℝ, ∀ t ∈ Set.uIcc (0 : ℝ) 1, ‖y t‖ + 1 ≤ B := by
    obtain ⟨B, hB⟩ := isCompact_uIcc.exists_bound_of_continuousOn
      (fun t ht => (hsol.continuousAt ht).continuousWithinAt : ContinuousOn y (Set.uIcc 0 1))
    exact ⟨B + 1, fun t ht => by linarith [hB t ht]⟩
  have hv : R.hasAp = false → ∀ (t u v w : ℝ), (fun (t : ℝ) (_ : ℝ × ℝ) => t ^ q) t (u, v) = (fun (t : ℝ) (_ : ℝ × ℝ) => t ^ q) t (u, w) :=
    fun _ _ _ _ _ => rfl
  obtain ⟨C, h1, c1, c2, c3⟩ := C115_tolerance_error R hR hsol hv (ny_quadrature_generic R hR y 0 1) (A := 1) (B := B) zero_le_one hB
  obtain ⟨θ, Rf, hθ, hst⟩ := C113_controller_steers (E := ℝ × ℝ) (W := ℝ) (9 / 10) (9 / 10) (-1 / 5) (-7 / 50) (4 / 50) (-1 / 4) (1 / 10 ^ 100) (1 / 5)
    (by norm_num) (by norm_num) (by norm_num) (by norm_num) (by norm_num) (by norm_num)
  have hsm : NySmoothNear (fun (t : ℝ) (_ : ℝ × ℝ) => t ^ q) y 0 1 := fun _ _ => Eventually.of_forall fun _ => contDiffAt_fst.pow _
  obtain ⟨_, h2, κ, _, k2, k3, k4⟩ := C115_work R hR hsol hv hsm (M := 1) (θ := θ) (m := min (1 / 5) (9 / 10)) (μ := 9 / 10)
    (Rf := Rf) one_pos hθ (by norm_num) (by norm_num)
  set H := min (min h1 h2) 1 with hHdef
  have hH0 : 0 < H := by positivity
  have hH1 : H ≤ 1 := min_le_right _ _
  set lam := min (H / 2) κ with hlam
  have hlam0 : 0 < lam := by positivity
  refine ⟨max C (2 / lam), H, fun tol htol htol1 => ?_⟩
  set τ := tol ^ (1 / (q + 1 : ℝ)) with hτ
  have hτ0 : 0 < τ := Real.rpow_pos_of_pos htol _
  have hτ1 : τ ≤ 1 := Real.rpow_le_one htol.le htol1 (by positivity)
  set σ := min (H / 2) (min H (min |(1 : ℝ) - 0| (κ * τ))) with hσ
  have hσ0 : 0 < σ := by
    have : 0 < |(1 : ℝ) - 0| := by norm_num
    positivity
  have hσl : lam * τ ≤ σ := by
    have a1 : lam * τ ≤ H / 2 := by
      calc lam * τ ≤ lam * 1 := mul_le_mul_of_nonneg_left hτ1 hlam0.le
        _ ≤ H / 2 := by rw [mul_one]; exact min_le_left _ _
    refine le_min a1 (le_min (by linarith) (le_min ?_ (mul_le_mul_of_nonneg_right (min_le_right _ _) hτ0.le)))
    rw [sub_zero, abs_one]
    linarith
  set c := exCfgNyTol R (fun t _ => t ^ q) tol H (σ / 2) with hcdef
  have hc : CfgOK c := exCfgNyTol_ok R _ tol hH0 (half_pos hσ0)
  have key := k4 c (fun _ _ e => .num (‖e‖ / tol)) (H / 2) H tol σ 1 (fun _ => 0) hc (Or.inl rfl) rfl htol
    (fun _ _ e => ⟨‖e‖ / tol, rfl, (by ring : ‖e‖ / tol = 1 / tol * ‖e‖).le⟩)
    (hst _ rfl rfl rfl rfl rfl rfl rfl rfl rfl) (by norm_num [c, exCfgNyTol]) (by norm_num [c, exCfgNyTol])
    rfl (by show (0 : ℝ) ≤ 1 * (1 - 0); norm_num) rfl ((min_le_left _ _).trans (min_le_right _ _)) rfl le_rfl
    (by
      show (0 : ℝ) * _ ≤ σ / 2
      rw [zero_mul]
      positivity)
  obtain ⟨⟨n, w, hw⟩, key⟩ := key
  obtain ⟨-, q1, q2, q3, -, q4, -⟩ := key n none w hw
  refine ⟨σ / 2, n, w, by rw [hy0] at hw; exact hw, q1, q2, ?_, ?_⟩
  · have hmono : ∀ {w}, ReachWithin c (newSolver c 0 (y 0) (H / 2) 1 (fun _ => 0)) 0 1 H w → ReachWithin c (newSolver c 0 (y 0) (H / 2) 1 (fun _ => 0)) 0 1 h1 w := by
      intro w hw
      induction hw with
      | refl => exact .refl
      | tail _ a1 a2 a3 ih => exact ih.tail a1 (a2.trans ((min_le_left _ _).trans (min_le_left _ _))) a3
    have := (c3 c (fun _ _ e => .num (‖e‖ / tol)) (H / 2) tol 1 (fun _ => 0) w hc rfl (by show (0 : ℝ) ≤ 1 * (1 - 0); norm_num) htol.le
      (fun _ _ e x _ _ hx hx1 => by
        have hx : ‖e‖ / tol = x := by injection hx
        rw [← hx, div_lt_one htol] at hx1
        rw [one_mul]
        exact hx1.le) (hmono q3)).1
    rw [q2, hy1] at this
    exact this.trans (mul_le_mul_of_nonneg_right (le_max_left _ _) (by positivity))
  · refine le_trans ?_ (le_max_right _ _)
    rw [le_div_iff₀ hlam0]
    have hn : (0 : ℝ) ≤ n := Nat.cast_nonneg n
    calc n * τ * lam = n * (lam * τ) := by ring
      _ ≤ n * σ := mul_le_mul_of_nonneg_left hσl hn
      _ ≤ 2 := by simpa using q4

end Extensisq
