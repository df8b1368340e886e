import Verif.Props.Ends
import Verif.Model.Example
import Verif.Props.CKdiscOrder
import Verif.Props.EsdirkWitness
import Verif.Props.SwagWitness
import Verif.Props.ChebWitness

/-!
# C110: cases which meet the hypotheses, and cases in which the loop does not end
-/

set_option maxRecDepth 100000

namespace Extensisq

/-- An explicit method: `y' = -y` from 0 to 1 with Me4. -/
example : ∃ n w, WhileRunning (step exDecay) (fun v => v.status = .running) Out.raised exStart n none w ∧
    (n : ℚ) * (1 / 10 ^ 100) ≤ 1 + 1 / 10 ^ 100 := by
  obtain ⟨⟨n, r, w, h⟩, h2⟩ := C110_explicit (c := exDecay) (exCfg_ok _ _ _ (.inl rfl) _ (fun _ h => by cases h) _)
    (by norm_num [exDecay, exCfg]) (Or.inl rfl) (b := 1) (t0 := 0) rfl (by norm_num [exDecay, exCfg]) 1 (1 / 2) 1 (fun _ => 0)
  obtain ⟨h3, rfl, -⟩ := h2 n r w h
  exact ⟨n, w, h, by simpa [exDecay, exCfg] using h3⟩

/-- CKdisc, with a jump of the right-hand side at `t = 1`. -/
example : ∃ n w, WhileRunning (ckStep exCkJump) (fun v => v.status = .running) Out.raised
    (ckNew exCkJump 0 0 (3 / 2) 1 (fun _ => 0)) n none w := by
  obtain ⟨⟨n, r, w, h⟩, h2⟩ := C110_CKdisc (a := exCkJump) (exCfg_ok _ _ _ (.inl rfl) _ (fun _ h => by cases h) _)
    (b := 2) (t0 := 0) rfl (by norm_num [exCkJump, exCk, exCfg]) 0 (3 / 2) 1 (fun _ => 0)
  obtain ⟨-, rfl, -⟩ := h2 n r w h
  exact ⟨n, w, h⟩

/-- An ESDIRK method for `y' = -y^2`. -/
example : ∃ n r w, WhileRunning (eStep exNon) (fun v => v.status = .running) EOut.raised exNonStart n r w :=
  (C110_esdirk exNon_ok (by norm_num [exNon, exE]) (b := 1) (t0 := 0) rfl (by norm_num [exNon, exE]) exNonStart_new).1

/-- SWAG, for `y' = t - y` from 1 to 10. -/
example : ∃ n w, WhileRunning (swStep cA) (fun v => v.status = .running) (fun _ => False) vA n none w ∧
    ((w.status = .finished ∧ w.st.t = 10) ∨ w.status = .failed) := by
  obtain ⟨⟨n, r, w, h⟩, h2⟩ := C110_swag (c := cA) (swQ_ok _ _) (b := 10) (t0 := 1) rfl (by norm_num [cA, swQ]) (by norm_num)
    (y0 := 1) (yp0 := 0) (hf := 1 / 4) (wt0 := fun _ => .num 0) (phi0 := 0) (co0 := emptyCo) (nfev := 1) (by norm_num [cA, swQ])
  obtain ⟨-, rfl, h3⟩ := h2 n r w h
  exact ⟨n, w, h, h3⟩

/-- **C110** (finding). The hypothesis that 0 is not in the interval of integration is needed for SWAG: from `t0 = 0` with a
right-hand side whose scaled norms are `nan` the first call of `step()` does not return, so that the loop does not end. -/
theorem C110_swag_needs_nonzero_time : SwOK (swQ (fun _ _ => 0) (fun _ => .nan)) ∧ vZ.status = .running ∧ vZ.st.t = 0 ∧
    ¬ ∃ n r w, WhileRunning (swStep (swQ (fun _ _ => 0) (fun _ => .nan))) (fun v => v.status = .running) (fun _ => False) vZ n r w := by
  refine ⟨swQ_ok _ _, rfl, rfl, ?_⟩
  have hang : ∀ fuel, swStep (swQ (fun _ _ => 0) (fun _ => .nan)) fuel vZ = none :=
    C46_hangs_at_zero rfl rfl (by intro b h; cases h; norm_num) (by decide +kernel) (fun _ _ _ => rfl)
  rintro ⟨n, r, w, h⟩
  cases h with
  | stop h => exact h rfl
  | raise _ h _ => rw [hang] at h; cases h
  | next _ h _ _ => rw [hang] at h; cases h

/-- SSV2stab, for `y' = 1` from 0 to 21 with `rho_jac = 1`. -/
example : ∃ n w, WhileRunning (chebStep chebA) (fun v => v.status = .running) ChebOut.raised (newCheb chebA 0 0 (some 10)) n none w ∧
    ((w.status = .finished ∧ w.st.t = 21) ∨ w.status = .failed) := by
  obtain ⟨⟨n, r, w, h⟩, h2⟩ := C110_ssv2stab (chebA_start 10 (by norm_num)) 0 (b := 21) rfl (rho := 1) (lo := 1 / 10 ^ 20)
    (fun t y x h => (show x = 1 from h).le) (by norm_num) (by norm_num [chebA, chebW]) (by norm_num [chebA, chebW])
    (by norm_num [chebA, chebW]) (by norm_num [chebA, chebW]) (fun f h => by cases h; norm_num)
  obtain ⟨-, rfl, h3⟩ := h2 n r w h
  exact ⟨n, w, h, h3⟩

/-- `y' = 1` from 0 to 21, with a spectral radius given by `rho_jac` which grows without bound before `t = 1`. -/
def chebZ : ChebCfg ℚ ℚ := chebW (fun _ _ => 1) (some 21) 1 10 (fun t _ => if t < 1 then 20000 / (1 - t) else 0) (fun e _ _ => .num |e|)

theorem chebZ_start (f : ℚ) (hf : 0 < f) : ChebStart chebZ 0 (some f) :=
  ⟨chebW_ok _ _ _ _ _ _ (Or.inl rfl) (by norm_num) (fun t _ => by
      split_ifs with h
      · have : 0 < 1 - t := by linarith
        positivity
      · norm_num)
    (fun e y yn x h => by cases h; exact abs_nonneg _),
   fun a ha => by cases ha; exact hf,
   fun b hb => by simp only [chebZ, chebW, Option.some.injEq] at hb; rw [← hb]; norm_num [chebZ, chebW]⟩

/-- The hypotheses of `C110_ssv2stab_needs_bound` are met: the loop does not end. -/
example : ¬ ∃ n o w, WhileRunning (chebStep chebZ) (fun v => v.status = .running) ChebOut.raised (newCheb chebZ 0 0 (some 1)) n o w := by
  refine (C110_ssv2stab_needs_bound (T := 1) (chebZ_start 1 (by norm_num)) 0 (r := fun t _ => if t < 1 then 20000 / (1 - t) else 0)
    rfl rfl rfl (by norm_num) (fun b h => by cases h; norm_num) (fun t y h => ?_)).2 (fun v h m hv => ?_)
  · have h1 : (0 : ℚ) < 1 - t := by linarith
    rw [if_pos h, mul_assoc, div_mul_cancel₀ _ h1.ne']
    norm_num [chebZ, chebW]
  · refine ⟨0, ?_, by norm_num⟩
    have hf : v.st.fn = 1 := (hv.inv (chebZ_start 1 (by norm_num))).fn
    unfold attemptErr
    rw [hf]
    show ENorm.num |(4 / 5 : ℚ) • (v.st.yn - (v.st.yn + h * 1)) + (2 / 5 * h) • (1 + (1 : ℚ))| = _
    congr 1
    rw [abs_eq_zero, smul_eq_mul, smul_eq_mul]
    ring

end Extensisq
