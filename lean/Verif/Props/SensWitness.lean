import Verif.Props.SensCalculus
import Mathlib.Analysis.SpecialFunctions.ExpDeriv

/-!
# A concrete problem that satisfies the hypotheses of C51, C52, C65

`y' = p y`, `y(0) = 1`, `p = 1` on `[0, 1]`, `g = y`.
-/

namespace Extensisq
open Matrix Set Filter Topology

/-- `y' = p y` with its derivatives. -/
def growth : SensProb ℝ 1 1 where
  fn := fun _ y p i => p i * y i
  jac := fun _ _ p => !![p 0]
  dfdp := fun _ y _ => !![y 0]

/-- `g = y`. -/
def growthOut : SensOut ℝ 1 1 where
  g := fun _ y _ => y 0
  dgdy := fun _ _ _ _ => 1
  dgdp := fun _ _ _ _ => 0

theorem growth_ok : DerivOK growth univ where
  isOpen := isOpen_univ
  deriv := by
    intro t y p _
    rw [hasFDerivAt_pi']
    intro i
    have h1 : HasFDerivAt (fun z : (Fin 1 → ℝ) × (Fin 1 → ℝ) => z.1 i)
        ((ContinuousLinearMap.proj i).comp (ContinuousLinearMap.fst ℝ _ _)) (y, p) :=
      ((ContinuousLinearMap.proj (R := ℝ) (φ := fun _ : Fin 1 => ℝ) i).comp
        (ContinuousLinearMap.fst ℝ (Fin 1 → ℝ) (Fin 1 → ℝ))).hasFDerivAt
    have h2 : HasFDerivAt (fun z : (Fin 1 → ℝ) × (Fin 1 → ℝ) => z.2 i)
        ((ContinuousLinearMap.proj i).comp (ContinuousLinearMap.snd ℝ _ _)) (y, p) :=
      ((ContinuousLinearMap.proj (R := ℝ) (φ := fun _ : Fin 1 => ℝ) i).comp
        (ContinuousLinearMap.snd ℝ (Fin 1 → ℝ) (Fin 1 → ℝ))).hasFDerivAt
    refine (h2.mul h1).congr_fderiv ?_
    have hi : i = 0 := Subsingleton.elim _ _
    subst hi
    ext v <;> simp [growth, Matrix.mulVec, dotProduct]
  jac := by
    refine continuousOn_pi.mpr fun i => continuousOn_pi.mpr fun j => ?_
    simp only [growth, Matrix.of_apply, Matrix.cons_val', Matrix.cons_val_fin_one]
    fun_prop
  dfdp := by
    refine continuousOn_pi.mpr fun i => continuousOn_pi.mpr fun j => ?_
    simp only [growth, Matrix.of_apply, Matrix.cons_val', Matrix.cons_val_fin_one]
    fun_prop

theorem growthOut_ok : OutOK growthOut univ where
  deriv := by
    intro t y p _
    have h1 : HasFDerivAt (fun z : (Fin 1 → ℝ) × (Fin 1 → ℝ) => z.1 0)
        ((ContinuousLinearMap.proj 0).comp (ContinuousLinearMap.fst ℝ _ _)) (y, p) :=
      ((ContinuousLinearMap.proj (R := ℝ) (φ := fun _ : Fin 1 => ℝ) 0).comp
        (ContinuousLinearMap.fst ℝ (Fin 1 → ℝ) (Fin 1 → ℝ))).hasFDerivAt
    refine h1.congr_fderiv ?_
    ext v <;> simp [growthOut, dotProduct]
  g := by simp only [growthOut]; fun_prop
  dgdy := by simp only [growthOut]; fun_prop
  dgdp := by simp only [growthOut]; fun_prop

noncomputable def growthY (q : Fin 1 → ℝ) (t : ℝ) : Fin 1 → ℝ := fun _ => Real.exp (q 0 * t)
noncomputable def growthS (t : ℝ) : Matrix (Fin 1) (Fin 1) ℝ := !![t * Real.exp t]
/-- Parameter value. -/
def one1 : Fin 1 → ℝ := fun _ => 1

theorem growth_solves (q : Fin 1 → ℝ) :
    Solves (fun t x => growth.fn t x q) 0 1 0 (fun _ => 1) (growthY q) where
  init := by ext; simp [growthY]
  deriv := by
    intro t _
    rw [hasDerivWithinAt_pi]
    intro i
    have h := ((hasDerivAt_id t).const_mul (q 0)).exp
    have hi : i = 0 := Subsingleton.elim _ _
    subst hi
    refine (h.congr_deriv ?_).hasDerivWithinAt
    simp [growth, growthY, mul_comm]

theorem growth_variational : Variational growth one1 0 1 (growthY one1) 0 growthS where
  init := by ext i j; simp [growthS]
  deriv := by
    intro t _ i j
    have hi : i = 0 := Subsingleton.elim _ _
    have hj : j = 0 := Subsingleton.elim _ _
    subst hi hj
    have h := (hasDerivAt_id t).mul (Real.hasDerivAt_exp t)
    refine (h.congr_deriv ?_).hasDerivWithinAt
    simp [growth, growthY, growthS, one1]
    ring

/-- Exact backward solution for `sens_adjoint_end`: `mu = e^(1-t)`, `xi = (t - 1) e`. -/
noncomputable def growthBw (t : ℝ) : Fin (1 + 1) → ℝ :=
  Fin.append (fun _ => Real.exp (1 - t)) (fun _ => (t - 1) * Real.exp 1)

theorem growthBw_solves : Solves (funBwEnd growth one1 (growthY one1)) 0 1 1
    (startBwEnd growthOut one1 1 (growthY one1 1)) growthBw where
  init := by
    ext k
    refine Fin.addCases (fun i => ?_) (fun i => ?_) k
    · simp [growthBw, startBwEnd, growthOut]
    · simp only [growthBw, startBwEnd, Fin.append_right]; simp
  deriv := by
    intro t _
    rw [hasDerivWithinAt_pi]
    intro k
    refine Fin.addCases (fun i => ?_) (fun i => ?_) k
    · have h := ((hasDerivAt_id t).const_sub 1).exp
      have hi : i = 0 := Subsingleton.elim _ _
      subst hi
      simp only [growthBw, Fin.append_left, funBwEnd]
      refine (h.congr_deriv ?_).hasDerivWithinAt
      simp [growth, one1, Matrix.mulVec, dotProduct, headOf]
    · have h := ((hasDerivAt_id t).sub_const 1).mul_const (Real.exp 1)
      have hi : i = 0 := Subsingleton.elim _ _
      subst hi
      simp only [growthBw, Fin.append_right, funBwEnd]
      refine (h.congr_deriv ?_).hasDerivWithinAt
      simp [growth, one1, Matrix.mulVec, dotProduct, headOf, growthY]
      rw [← Real.exp_add]; ring_nf

/-- The adjoint result is `e`, the derivative of `p ↦ e^p` in `1`. -/
example : sensEnd growthOut one1 0 1 (growthY one1 1) (growthBw 0) 0 = Real.exp 1 := by
  simp only [sensEnd, growthOut, growthBw, headOf, tailOf, Fin.append_right, Fin.append_left, Pi.add_apply, Pi.neg_apply]
  simp

/-- All hypotheses of `C51_adjoint_is_derivative` hold. -/
example : HasFDerivAt (fun q => growthOut.g 1 (growthY q 1) q)
    (vecL (sensEnd growthOut one1 0 1 (growthY one1 1) (growthBw 0))) one1 :=
  C51_adjoint_is_derivative growth_ok growthOut_ok (y0 := fun _ _ => 1)
    (by
      have : matL (0 : Matrix (Fin 1) (Fin 1) ℝ) = 0 := by ext; simp
      rw [this]; exact hasFDerivAt_const _ _)
    (fun _ _ => mem_univ _) (Eventually.of_forall growth_solves) growth_variational growthBw_solves

/-- Exact solution of the combined problem of `sens_forward`: `(e^t, t e^t)`. -/
noncomputable def growthFw (t : ℝ) : Fin (1 + 1 * 1) → ℝ := totalY0 (growthY one1 t) (growthS t)

theorem growthFw_solves : Solves (totalFun growth one1) 0 1 0 (totalY0 (fun _ => 1) 0) growthFw where
  init := by
    unfold growthFw
    rw [(growth_solves one1).init, growth_variational.init]
  deriv := by
    intro t ht
    rw [hasDerivWithinAt_pi]
    intro k
    rcases pos_cases k with ⟨i, rfl⟩ | ⟨i, j, rfl⟩
    · have h := (hasDerivWithinAt_pi.mp ((growth_solves one1).deriv t ht)) i
      rw [(C49_equations growth one1 t _).1]
      simp only [growthFw, (C49_packing _ _).1]
      exact h
    · have h := growth_variational.deriv t ht i j
      rw [(C49_equations growth one1 t _).2]
      simp only [growthFw, (C49_packing _ _).1, (C49_packing _ _).2]
      exact h

/-- All hypotheses of `C65_sens_forward` hold. -/
example : HasFDerivAt (fun q => growthY q 1) (matL (fwdSens (growthFw 1))) one1 :=
  (C65_sens_forward growth_ok (y0 := fun _ _ => 1) (dy0dp := 0)
    (by
      have : matL (0 : Matrix (Fin 1) (Fin 1) ℝ) = 0 := by ext; simp
      rw [this]; exact hasFDerivAt_const _ _)
    (fun _ _ => mem_univ _) (Eventually.of_forall growth_solves) growthFw_solves).2

/-- Exact backward solution for `sens_adjoint_int`: `lambda = e^(1-t) - 1`, `xi = (t - 1) e - e^t + e`,
`zeta = e^t - e`. -/
noncomputable def growthBwInt (t : ℝ) : Fin (1 + 1 + 1) → ℝ :=
  Fin.append (Fin.append (fun _ => Real.exp (1 - t) - 1) (fun _ => (t - 1) * Real.exp 1 - Real.exp t + Real.exp 1))
    (fun _ => Real.exp t - Real.exp 1)

theorem growthBwInt_solves : Solves (funBwInt growth growthOut one1 (growthY one1)) 0 1 1 0 growthBwInt where
  init := by
    ext k
    refine Fin.addCases (fun k => Fin.addCases (fun i => ?a) (fun i => ?b) k) (fun i => ?c) k
    case a => simp only [growthBwInt, Fin.append_left]; simp
    case b => simp only [growthBwInt, Fin.append_left, Fin.append_right]; simp
    case c => simp only [growthBwInt, Fin.append_right]; simp
  deriv := by
    intro t _
    rw [hasDerivWithinAt_pi]
    intro k
    refine Fin.addCases (fun k => Fin.addCases (fun i => ?a) (fun i => ?b) k) (fun i => ?c) k
    case a =>
      have h := (((hasDerivAt_id t).const_sub 1).exp).sub_const 1
      have hi : i = 0 := Subsingleton.elim _ _
      subst hi
      simp only [growthBwInt, Fin.append_left, funBwInt]
      refine (h.congr_deriv ?_).hasDerivWithinAt
      simp [growth, growthOut, one1, Matrix.mulVec, dotProduct, headOf, Fin.append_left]
    case b =>
      have h := ((((hasDerivAt_id t).sub_const 1).mul_const (Real.exp 1)).sub (Real.hasDerivAt_exp t)).add_const (Real.exp 1)
      have hi : i = 0 := Subsingleton.elim _ _
      subst hi
      simp only [growthBwInt, Fin.append_left, Fin.append_right, funBwInt]
      refine (h.congr_deriv ?_).hasDerivWithinAt
      have : headOf (headOf (Fin.append (Fin.append (fun _ : Fin 1 => Real.exp (1 - t) - 1)
        (fun _ : Fin 1 => (t - 1) * Real.exp 1 - Real.exp t + Real.exp 1)) (fun _ : Fin 1 => Real.exp t - Real.exp 1))) =
          fun _ => Real.exp (1 - t) - 1 := by
        ext i; simp only [headOf, Fin.append_left]
      rw [this]
      simp [growth, growthOut, one1, Matrix.mulVec, dotProduct, growthY]
      rw [mul_sub, ← Real.exp_add]; ring_nf
    case c =>
      have h := (Real.hasDerivAt_exp t).sub_const (Real.exp 1)
      simp only [growthBwInt, Fin.append_right, funBwInt]
      refine (h.congr_deriv ?_).hasDerivWithinAt
      simp [growthOut, growthY, one1]

/-- All hypotheses of `C52_adjoint_is_derivative` hold. -/
example : HasFDerivAt (fun q => ∫ t in (0:ℝ)..1, growthOut.g t (growthY q t) q) (vecL (sensInt 0 (growthBwInt 0))) one1 :=
  C52_adjoint_is_derivative growth_ok growthOut_ok (y0 := fun _ _ => 1)
    (by
      have : matL (0 : Matrix (Fin 1) (Fin 1) ℝ) = 0 := by ext; simp
      rw [this]; exact hasFDerivAt_const _ _)
    (Eventually.of_forall fun _ _ _ => mem_univ _) (Eventually.of_forall growth_solves) growth_variational growthBwInt_solves

end Extensisq
