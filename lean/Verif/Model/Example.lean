import Verif.Model.Tables
import Verif.Lemmas.Driver

/-!
# A concrete solver used in the non-vacuity examples

Merson's method (`Me4`) for `y' = -y` over the rationals, controller "standard"; the power function
is replaced by the computable `pwInv` (`x ** e = 1/x` for `e < 0`), which satisfies `PowOK`.
-/

namespace Extensisq

/-- `norm(e / (atol + rtol*max(|y|,|y_new|)))` for a scalar problem. -/
def scalarErr (rtol atol : ℚ) (y yNew e : ℚ) : ENorm ℚ :=
  .num (|e| / (atol + rtol * max |y| |yNew|))

/-- Fixed fields of the example solver. -/
def exCfg (rhs : ℚ → ℚ → ℚ) (errNorm : ℚ → ℚ → ℚ → ENorm ℚ) (tb : Option ℚ) (dir : ℚ)
    (maxStep : Option ℚ) (nfevStiff : ℕ) : Cfg ℚ ℚ ℚ where
  m := rkMethod (Me4.tab ℚ) rhs errNorm
  tb := tb
  dir := dir
  maxStep := maxStep
  hMinA := 1 / 10 ^ 14
  hMinB := 1 / 10 ^ 100
  tinyErr := 1 / 10 ^ 100
  minFactor := 1 / 5
  errExp := -1 / 4
  minbeta1 := -1 / 4
  minbeta2 := 0
  minalpha := 0
  safety := 9 / 10
  safetySc := 9 / 10
  pw := pwInv
  nfevStiff := nfevStiff

theorem exCfg_ok (rhs : ℚ → ℚ → ℚ) (errNorm : ℚ → ℚ → ℚ → ENorm ℚ) (tb : Option ℚ) {dir : ℚ}
    (hd : dir = 1 ∨ dir = -1) (maxStep : Option ℚ) (hm : ∀ m, maxStep = some m → 0 < m)
    (nfevStiff : ℕ) : CfgOK (exCfg rhs errNorm tb dir maxStep nfevStiff) where
  dir := hd
  hMinA := by norm_num [exCfg]
  hMinB := by norm_num [exCfg]
  tiny := by norm_num [exCfg]
  minF0 := by norm_num [exCfg]
  minF1 := by norm_num [exCfg]
  errExp := by norm_num [exCfg]
  safety0 := by norm_num [exCfg]
  safety1 := by norm_num [exCfg]
  safetySc := by norm_num [exCfg]
  pw := PowOK.inv
  maxStep := hm

/-- `y' = -y` with `rtol = atol = 1/1000`, from 0 to 1. -/
def exDecay : Cfg ℚ ℚ ℚ :=
  exCfg (fun _ y => -y) (scalarErr (1 / 1000) (1 / 1000)) (some 1) 1 none 0

def exStart : Solver ℚ ℚ ℚ := newSolver exDecay 0 1 (1 / 2) 1 (fun _ => 0)

example : ((step exDecay 5 exStart).map fun p => (p.1, p.2.st.t, p.2.st.nfev, p.2.status)) =
    some (.ok, 1 / 2, 6, .running) := by decide +kernel

end Extensisq
