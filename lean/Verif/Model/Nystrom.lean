import Verif.Model.RK
import Mathlib.Data.Rat.Cast.Order

/-!
# Explicit Runge-Kutta-Nystrom methods

Models `RungeKuttaNystrom` (`common.py:1207-1310`): constructor checks, stages, solution and error
estimate. A state `y = [u, v]` is a pair (position, velocity); the stage array holds accelerations only.
The driver (`_step_impl`, `_reassess_stepsize`) is inherited from `RungeKutta`, see `Model/Driver.lean`;
the book-keeping of the stiffness detection is the same as well.
-/

namespace Extensisq
open Finset

/-- Coefficients `A, Ap, B, Bp, C, E, Ep` (`common.py:1216-1223`). -/
structure NTableau (K : Type*) where
  s : ℕ
  A : ℕ → ℕ → K
  Ap : ℕ → ℕ → K
  B : ℕ → K
  Bp : ℕ → K
  C : ℕ → K
  E : ℕ → K
  Ep : ℕ → K

section
variable {K X : Type*} [Field K] [LinearOrder K] [AddCommGroup X] [Module K X]

/-- Argument of `fun` in `_rk_stage` (`common.py:1283-1287`): `y + concatenate((du, dv))`. -/
def nyArg (T : NTableau K) (y : X × X) (h : K) (Ks : ℕ → X) (i : ℕ) : X × X :=
  (y.1 + (h ^ 2 • (∑ j ∈ range i, T.A i j • Ks j) + (T.C i * h) • y.2),
   y.2 + h • ∑ j ∈ range i, T.Ap i j • Ks j)

/-- `_rk_stage` (`common.py:1281-1287`); `acc` is `self.fun`, the accelerations (`common.py:1276-1279`). -/
def nyStage (T : NTableau K) (acc : K → X × X → X) (t : K) (y : X × X) (h : K) (Ks : ℕ → X) (i : ℕ) : X :=
  acc (t + T.C i * h) (nyArg T y h Ks i)

/-- `for i in range(1, n): self._rk_stage(h, i)` (`common.py:243-244`). -/
def nyStages (T : NTableau K) (acc : K → X × X → X) (t : K) (y : X × X) (h : K) :
    ℕ → (ℕ → X) → (ℕ → X)
  | 0, Ks => Ks
  | 1, Ks => Ks
  | n + 2, Ks =>
    let K1 := nyStages T acc t y h (n + 1) Ks
    Function.update K1 (n + 1) (nyStage T acc t y h K1 (n + 1))

/-- `FSAL` (`common.py:217`, `common.py:1268-1270`). -/
def NTableau.fsal (T : NTableau K) : Bool := decide (T.E T.s ≠ 0) || decide (T.Ep T.s ≠ 0)

/-- Number of rows used by the error estimate. -/
def NTableau.rows (T : NTableau K) : ℕ := T.s + if T.fsal then 1 else 0

/-- `_estimate_error` (`common.py:1304-1310`). -/
def nyError (T : NTableau K) (h : K) (Ks : ℕ → X) : X × X :=
  (h ^ 2 • ∑ i ∈ range T.rows, T.E i • Ks i, h • ∑ i ∈ range T.rows, T.Ep i • Ks i)

/-- New solution (`common.py:1290-1294`). -/
def nySolution (T : NTableau K) (y : X × X) (h : K) (Ks : ℕ → X) : X × X :=
  (y.1 + (h ^ 2 • (∑ i ∈ range T.s, T.B i • Ks i) + h • y.2),
   y.2 + h • ∑ i ∈ range T.s, T.Bp i • Ks i)

/-- One attempt of a step (`common.py:241-247, 1289-1302`); `a` is the stored `self.f`. -/
def nyTrial (T : NTableau K) (acc : K → X × X → X) (errNorm : X × X → X × X → X × X → ENorm K)
    (t : K) (y : X × X) (a : X) (h : K) (Ks : ℕ → X) : Trial K (X × X) X :=
  let K0 := Function.update Ks 0 a
  let K1 := nyStages T acc t y h T.s K0
  let yNew := nySolution T y h K1
  let K2 := if T.fsal then Function.update K1 T.s (acc (t + h) yNew) else K1
  { stages := K2, yNew := yNew, err := errNorm y yNew (nyError T h K2), pre := .num 0,
    preStages := K0 }

/-- A Nystrom method for the driver. -/
def nyMethod (T : NTableau K) (acc : K → X × X → X) (errNorm : X × X → X × X → X × X → ENorm K) :
    Method K (X × X) X where
  nStages := T.s
  fsal := T.fsal
  rhs := acc
  costPre := 0
  nfsOverflow := 1
  trial t y a h Ks := nyTrial T acc errNorm t y a h Ks

end

/-! ### Constructor checks -/

section
variable {K : Type*} [Field K] [DecidableEq K]

/-- `y_test` (`common.py:1258-1260, 1265-1267`): velocities perturbed by `v * (1 + 1e-8) + 1e-8`. -/
def nyPerturb (n : ℕ) (y : List K) : List K :=
  y.take n ++ (y.drop n).map fun v => v * (1 + 1 / 10 ^ 8) + 1 / 10 ^ 8

/-- The checks of `RungeKuttaNystrom.__init__` (`common.py:1250-1272`) on the values `fun(t0, ·)` of the
user's function: `false` is the `AssertionError`. `hasAp` tells whether the class defines `Ap`. The
function is supposed to return as many entries as it is given (scipy checks this). -/
def nyAccepts (hasAp : Bool) (fn : List K → List K) (y : List K) : Bool :=
  let n := y.length / 2
  let f := fn y
  if y.length % 2 = 1 ∨ y.drop n ≠ f.take n then false
  else if y.drop n = y.take n ∧ (fn (nyPerturb n y)).take n ≠ (nyPerturb n y).drop n then false
  else if hasAp = false ∧ (fn (nyPerturb n y)).drop n ≠ f.drop n then false
  else true

end

/-! ### Tables -/

/-- Class attributes of a Nystrom class. -/
structure NyTable where
  s : ℕ
  order : ℕ
  orderSec : ℕ
  hasAp : Bool
  A : List (List ℚ)
  Ap : List (List ℚ)
  B : List ℚ
  Bp : List ℚ
  C : List ℚ
  E : List ℚ
  Ep : List ℚ

/-- The tableau over any field. A class without `Ap` gets zeros (`common.py:1274`). -/
def NyTable.tab (R : NyTable) (K : Type*) [DivisionRing K] : NTableau K where
  s := R.s
  A i j := (((R.A.getD i []).getD j 0 : ℚ) : K)
  Ap i j := (((R.Ap.getD i []).getD j 0 : ℚ) : K)
  B i := ((R.B.getD i 0 : ℚ) : K)
  Bp i := ((R.Bp.getD i 0 : ℚ) : K)
  C i := ((R.C.getD i 0 : ℚ) : K)
  E i := ((R.E.getD i 0 : ℚ) : K)
  Ep i := ((R.Ep.getD i 0 : ℚ) : K)

end Extensisq
