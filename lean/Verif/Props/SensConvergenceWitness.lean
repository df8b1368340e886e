import Verif.Props.SensConvergence
import Verif.Lemmas.FullRun

/-!
# Complete runs that meet the hypotheses of C109 (and of C87 for `BS5`)

`y' = p y`, `y(0) = 1`, `p = 1` on `[0, 1]`, `g = y`, solved with `max_step = η` for every small `η`.
-/

set_option linter.unusedSectionVars false

namespace Extensisq
open Matrix Set Filter Topology
open scoped ContDiff

theorem growth_sensOK : SensOK growth univ one1 0 1 growthY (fun _ _ => 1) 0 where
  deriv := growth_ok
  start := by
    have : matL (0 : Matrix (Fin 1) (Fin 1) ℝ) = 0 := by ext; simp
    rw [this]; exact hasFDerivAt_const _ _
  inU := Eventually.of_forall fun _ _ _ => mem_univ _
  sol := Eventually.of_forall growth_solves
  smooth := fun t _ => by
    refine contDiffAt_pi.mpr fun i => ?_
    simp only [growth]
    exact ContDiff.contDiffAt (by fun_prop)
  beyond := fun t _ => Eventually.of_forall fun s => by
    rw [hasDerivAt_pi]
    intro i
    have h := ((hasDerivAt_id s).const_mul (one1 0)).exp
    have hi : i = 0 := Subsingleton.elim _ _
    subst hi
    refine h.congr_deriv ?_
    simp [growth, growthY, mul_comm]

theorem growthOut_outputOK : OutputOK growthOut univ one1 0 1 growthY where
  deriv := growthOut_ok
  smooth := fun t _ => by
    simp only [growthOut]
    exact ContDiff.contDiffAt (by fun_prop)

/-- `C109_forward` applies to complete runs with every small `max_step`: the computed `e^1` and its derivative. -/
example (R : RKTable) (hR : R ∈ rationalRK) : ∃ (D : Matrix (Fin 1) (Fin 1) ℝ) (C hstar : ℝ), 0 < hstar ∧
    HasFDerivAt (fun q => growthY q 1) (matL D) one1 ∧
    ∀ η, 0 < η → η ≤ hstar → ∃ w : Solver ℝ (Fin (1 + 1 * 1) → ℝ) (Fin (1 + 1 * 1) → ℝ), w.st.t = 1 ∧
      |fwdY w.st.y 0 - Real.exp 1| ≤ C * η ^ R.order ∧ |fwdSens w.st.y 0 0 - D 0 0| ≤ C * η ^ R.order := by
  obtain ⟨D, hD, C, hstar, _, h2, h3⟩ := C109_forward R hR growth_sensOK
  refine ⟨D 1, C, min hstar 1, lt_min h2 one_pos, hD 1 right_mem_uIcc, fun η hη hle => ?_⟩
  have hη1 : η ≤ 1 := hle.trans (min_le_right _ _)
  obtain ⟨⟨w, hw, hwt⟩, -⟩ := full_run (c := easyCfg (rkMethod (R.tab ℝ) (totalFun growth one1) (fun _ _ _ => .num 0)
    PreTest.none) 0 1 η) (t0 := 0) (b := 1) (easyCfg_easy _ _ _ (fun _ _ _ => rfl) 0 1 hη) hη (direction_mul 0 1)
    (by norm_num; linarith) (totalY0 (fun _ => 1) 0) 1 (fun _ => 0)
  obtain ⟨r1, r2⟩ := h3 _ _ _ η η 1 _ w (easyCfg_ok _ 0 1 hη) rfl (direction_mul 0 1) hη.le (hle.trans (min_le_left _ _)) hw
  refine ⟨w, hwt, ?_, ?_⟩
  · have := r1 0
    rwa [hwt, show growthY one1 1 0 = Real.exp 1 by simp [growthY, one1]] at this
  · have := r2 0 0
    rwa [hwt] at this

/-- The continuous solution of a complete run of `BS5` with small steps. -/
theorem bs5_denseOfRun {E : Type*} [NormedAddCommGroup E] [NormedSpace ℝ E] [CompleteSpace E] (o : BS5Interp) {f : ℝ → E → E}
    {y : ℝ → E} {t0 b : ℝ} (hy : SolvesOn f y t0 b) : ∃ hstar : ℝ, 0 < hstar ∧ ∀ η, 0 < η → η ≤ hstar → η / 2 < |b - t0| →
      ∃ z, DenseOfRun (easyCfg (bs5Method ℝ f (fun _ _ _ => .num 0)) t0 b η) (bs5Dense o f)
        (newSolver (easyCfg (bs5Method ℝ f (fun _ _ _ => .num 0)) t0 b η) t0 (y t0) η 1 (fun _ => 0)) t0 b η z := by
  classical
  obtain ⟨C, hstar, _, h2, h3⟩ := C87_BS5_dense_error o hy
  refine ⟨hstar, h2, fun η hη hle hlen => ?_⟩
  set c := easyCfg (bs5Method ℝ f (fun _ _ _ => .num 0)) t0 b η with hc
  obtain ⟨-, hcov⟩ := full_run (c := c) (t0 := t0) (b := b) (easyCfg_easy _ _ _ (fun _ _ _ => rfl) t0 b hη) hη (direction_mul t0 b)
    hlen (y t0) 1 (fun _ => 0)
  have hex : ∀ t : uIcc t0 b, ∃ x : E, ∃ (v v' w : Solver ℝ E E) (fuel : ℕ) (u : ℝ → E),
      ReachWithin c (newSolver c t0 (y t0) η 1 (fun _ => 0)) t0 b η v ∧ v.st.t ∈ uIcc t0 b ∧
      c.tb ≠ some v.st.t ∧ step c fuel v = some (.ok, v') ∧ |v'.st.t - v.st.t| ≤ η ∧ bs5Dense o f v' = some (u, w) ∧
      t.1 ∈ uIcc v.st.t v'.st.t ∧ x = u t.1 := by
    intro t
    obtain ⟨v, v', r1, r2, r3, r4, r5, r6⟩ := hcov t.1 t.2
    obtain ⟨u, w, d1, -⟩ := h3 c _ η η 1 (fun _ => 0) v v' 1 (easyCfg_ok _ t0 b hη) rfl (direction_mul t0 b) hη.le hle r1 r2 r3 r4 r5
    exact ⟨u t.1, v, v', w, 1, u, r1, r2, r3, r4, r5, d1, r6, rfl⟩
  choose z hz using hex
  refine ⟨fun t => if ht : t ∈ uIcc t0 b then z ⟨t, ht⟩ else 0, fun t ht => ?_⟩
  obtain ⟨v, v', w, fuel, u, r1, r2, r3, r4, r5, r6, r7, r8⟩ := hz ⟨t, ht⟩
  exact ⟨v, v', w, fuel, u, r1, r2, r3, r4, r5, r6, r7, by dsimp only; rw [dif_pos ht]; exact r8⟩

/-- `C87_BS5_dense_error` applies to a complete run: the continuous solution of `y' = -y` is within `C η^5` on all of `[0, 1]`. -/
example (o : BS5Interp) : ∃ C hstar : ℝ, 0 < hstar ∧ ∀ η, 0 < η → η ≤ hstar → ∃ z : ℝ → ℝ,
    DenseOfRun (easyCfg (bs5Method ℝ (fun _ u => -u) (fun _ _ _ => .num 0)) 0 1 η) (bs5Dense o (fun _ u => -u))
        (newSolver (easyCfg (bs5Method ℝ (fun _ u => -u) (fun _ _ _ => .num 0)) 0 1 η) 0 1 η 1 (fun _ => 0)) 0 1 η z ∧
    ∀ t ∈ uIcc (0 : ℝ) 1, |z t - Real.exp (-t)| ≤ C * η ^ 5 := by
  obtain ⟨C, hs, _, h2, h3⟩ := C87_BS5_dense_error o exDecay_solves
  obtain ⟨hs', g2, g3⟩ := bs5_denseOfRun o exDecay_solves
  refine ⟨C, min (min hs hs') 1, lt_min (lt_min h2 g2) one_pos, fun η hη hle => ?_⟩
  have l1 : η ≤ hs := hle.trans ((min_le_left _ _).trans (min_le_left _ _))
  have l2 : η ≤ hs' := hle.trans ((min_le_left _ _).trans (min_le_right _ _))
  have l3 : η ≤ 1 := hle.trans (min_le_right _ _)
  obtain ⟨z, hz⟩ := g3 η hη l2 (by norm_num; linarith)
  refine ⟨z, by simpa using hz, fun t ht => ?_⟩
  obtain ⟨v, v', w, fuel, u, r1, r2, r3, r4, r5, r6, r7, r8⟩ := hz t ht
  obtain ⟨u', w', d1, d2⟩ := h3 _ _ η η 1 (fun _ => 0) v v' fuel (easyCfg_ok _ 0 1 hη) rfl (direction_mul 0 1) hη.le l1 r1 r2 r3 r4 r5
  rw [r6] at d1
  obtain ⟨rfl, -⟩ := Prod.ext_iff.mp (Option.some.inj d1)
  rw [r8]
  exact d2 t r7

/-- `C109_adjoint_end_BS5` applies to two complete runs, forward and backward, with every small `max_step`. -/
example (o : BS5Interp) : ∃ (D : Fin 1 → ℝ) (C hstar : ℝ), 0 < hstar ∧
    HasFDerivAt (fun q => growthOut.g 1 (growthY q 1) q) (vecL D) one1 ∧
    ∀ η, 0 < η → η ≤ hstar → ∃ (z : ℝ → Fin 1 → ℝ) (w : Solver ℝ (Fin (1 + 1) → ℝ) (Fin (1 + 1) → ℝ)),
      w.st.t = 0 ∧ |sensEnd growthOut one1 0 1 (z 1) w.st.y 0 - D 0| ≤ C * η ^ 5 := by
  obtain ⟨D, hD, C, hs, _, h2, h3⟩ := C109_adjoint_end_BS5 o growth_sensOK growthOut_outputOK
  obtain ⟨hs', g2, g3⟩ := bs5_denseOfRun o growth_sensOK.along.solvesOn
  refine ⟨D, C, min (min hs hs') 1, lt_min (lt_min h2 g2) one_pos, hD, fun η hη hle => ?_⟩
  have l1 : η ≤ hs := hle.trans ((min_le_left _ _).trans (min_le_left _ _))
  have l2 : η ≤ hs' := hle.trans ((min_le_left _ _).trans (min_le_right _ _))
  have l3 : η ≤ 1 := hle.trans (min_le_right _ _)
  obtain ⟨z, hz⟩ := g3 η hη l2 (by norm_num; linarith)
  rw [growth_sensOK.at_start] at hz
  obtain ⟨⟨w, hw, hwt⟩, -⟩ := full_run (c := easyCfg (bs5Method ℝ (funBwEnd growth one1 z) (fun _ _ _ => .num 0)) 1 0 η)
    (t0 := 1) (b := 0) (easyCfg_easy _ _ _ (fun _ _ _ => rfl) 1 0 hη) hη (direction_mul 1 0)
    (by norm_num; linarith) (startBwEnd growthOut one1 1 (z 1)) 1 (fun _ => 0)
  exact ⟨z, w, hwt, (h3 _ _ _ _ η η η 1 1 (fun _ => 0) (fun _ => 0) z w hη.le l1 (easyCfg_ok _ 0 1 hη) rfl (direction_mul 0 1) hz
    (easyCfg_ok _ 1 0 hη) rfl (direction_mul 1 0) hw hwt).1 0⟩

/-- The same for `C109_adjoint_int_BS5`. -/
example (o : BS5Interp) : ∃ (D : Fin 1 → ℝ) (C hstar : ℝ), 0 < hstar ∧
    HasFDerivAt (fun q => ∫ t in (0 : ℝ)..1, growthOut.g t (growthY q t) q) (vecL D) one1 ∧
    ∀ η, 0 < η → η ≤ hstar → ∃ (w : Solver ℝ (Fin (1 + 1 + 1) → ℝ) (Fin (1 + 1 + 1) → ℝ)),
      w.st.t = 0 ∧ |sensInt 0 w.st.y 0 - D 0| ≤ C * η ^ 5 := by
  obtain ⟨D, hD, C, hs, _, h2, h3⟩ := C109_adjoint_int_BS5 o growth_sensOK growthOut_outputOK
  obtain ⟨hs', g2, g3⟩ := bs5_denseOfRun o growth_sensOK.along.solvesOn
  refine ⟨D, C, min (min hs hs') 1, lt_min (lt_min h2 g2) one_pos, hD, fun η hη hle => ?_⟩
  have l1 : η ≤ hs := hle.trans ((min_le_left _ _).trans (min_le_left _ _))
  have l2 : η ≤ hs' := hle.trans ((min_le_left _ _).trans (min_le_right _ _))
  have l3 : η ≤ 1 := hle.trans (min_le_right _ _)
  obtain ⟨z, hz⟩ := g3 η hη l2 (by norm_num; linarith)
  rw [growth_sensOK.at_start] at hz
  obtain ⟨⟨w, hw, hwt⟩, -⟩ := full_run (c := easyCfg (bs5Method ℝ (funBwInt growth growthOut one1 z) (fun _ _ _ => .num 0)) 1 0 η)
    (t0 := 1) (b := 0) (easyCfg_easy _ _ _ (fun _ _ _ => rfl) 1 0 hη) hη (direction_mul 1 0)
    (by norm_num; linarith) 0 1 (fun _ => 0)
  exact ⟨w, hwt, (h3 _ _ _ _ η η η 1 1 (fun _ => 0) (fun _ => 0) z w hη.le l1 (easyCfg_ok _ 0 1 hη) rfl (direction_mul 0 1) hz
    (easyCfg_ok _ 1 0 hη) rfl (direction_mul 1 0) hw hwt).1 0⟩

end Extensisq
