import Verif.Props.EsdirkStab
import Verif.Props.EsdirkWitness
import Mathlib.Analysis.SpecialFunctions.Pow.Real

/-!
# A solver for the test equation which meets the hypotheses of C41
-/

namespace Extensisq

/-- Multiplication by a complex number. -/
noncomputable def mulC (lam : ℂ) : ℂ →ₗ[ℝ] ℂ where
  toFun x := lam * x
  map_add' x y := by ring
  map_smul' m x := by simp only [Complex.real_smul, RingHom.id_apply]; ring

/-- A solver for `y' = λ y` in linear mode; the linear systems are solved exactly. -/
noncomputable def exStab (R : ESTable) (lam : ℂ) : ECfg ℝ ℂ where
  T := R.tab ℝ (√2)
  fn := fun _ y => some (lam * y)
  jac := none
  jacEach := false
  M := mulC 1
  dae := false
  lin := fun _ F => Function.invFun fun x => mulC 1 x - (F.h * (R.tab ℝ (√2)).d) • F.J x
  dzNorm := fun y yp v => ‖v‖ / (1 / 1000 + 1 / 1000 * max ‖y‖ ‖yp‖)
  errNorm := fun y yn e => .num (‖e‖ / (1 / 1000 + 1 / 1000 * max ‖y‖ ‖yn‖))
  tb := some 10
  dir := 1
  maxStep := none
  hMinA := 1 / 10 ^ 14
  hMinB := 1 / 10 ^ 100
  tinyErr := 1 / 10 ^ 100
  minFactor := 1 / 5
  errExp := -1 / 3
  minbeta1 := -2 / 3
  minbeta2 := 1 / 3
  minalpha := 1
  safety := 8 / 10
  safetySc := 8 / 10
  pw := fun x p => x ^ p

theorem exStab_ok (R : ESTable) (lam : ℂ) : ECfgOK (exStab R lam) where
  dir := Or.inl rfl
  hMinA := by norm_num [exStab]
  hMinB := by norm_num [exStab]
  tiny := by norm_num [exStab]
  minF0 := by norm_num [exStab]
  minF1 := by norm_num [exStab]
  errExp := by norm_num [exStab]
  safety0 := by norm_num [exStab]
  safety1 := by norm_num [exStab]
  safetySc := by norm_num [exStab]
  pw := PowOK.rpow
  maxStep := by intro m h; cases h

theorem exStab_solves (R : ESTable) (lam : ℂ) : LinSolves (exStab R lam) :=
  fun _ hreg b => Function.rightInverse_invFun hreg b

/-- For every `λ` with `Re λ ≤ 0`, every first step and initial value: the hypotheses of `C41_test_equation` hold. -/
example {lam : ℂ} (hlam : lam.re ≤ 0) {v : ESolver ℝ ℂ}
    (hr : EReach (exStab KC3I lam) (newESolver 0 1 lam (mulC lam) (1 / 2) (fun _ => 0) 1 0) v) : ‖v.st.y‖ ≤ 1 := by
  have h := C41_test_equation (c := exStab KC3I lam) (R := KC3I) (by simp) (exStab_ok _ _) rfl rfl (exStab_solves _ _)
    (fun x => one_mul x) (lam := lam) (by show 1 * lam.re ≤ 0; linarith) (fun _ _ => rfl) (J0 := mulC lam)
    (fun _ => rfl) (v0 := newESolver 0 1 lam (mulC lam) (1 / 2) (fun _ => 0) 1 0) (t0 := 0) (y0 := 1)
    ⟨1 / 2, fun _ => 0, 1, 0, by norm_num, by rw [mul_one]⟩ hr
  simpa using h

end Extensisq
