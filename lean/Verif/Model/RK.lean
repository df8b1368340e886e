import Verif.Model.Driver
import Mathlib.Algebra.BigOperators.Fin
import Mathlib.Algebra.Module.Basic

/-!
# Explicit Runge-Kutta attempt

Models `RungeKutta._rk_stage`, `_comp_sol_err`, `_estimate_error` (`common.py:333-356`) and the
constructor `RungeKutta.__init__` (`common.py:187-220`).
-/

namespace Extensisq
open Finset

/-- A Butcher tableau as stored in the class attributes `n_stages, A, B, C, E`
(`common.py:87-108`). Entries outside the arrays are not used. -/
structure Tableau (K : Type*) where
  s : ℕ
  A : ℕ → ℕ → K
  B : ℕ → K
  C : ℕ → K
  E : ℕ → K

section
variable {K V : Type*} [Field K] [LinearOrder K] [AddCommGroup V] [Module K V]

/-- `_rk_stage` (`common.py:353-356`). -/
def rkStage (T : Tableau K) (rhs : K → V → V) (t : K) (y : V) (h : K) (Ks : ℕ → V) (i : ℕ) : V :=
  rhs (t + T.C i * h) (y + h • ∑ j ∈ range i, T.A i j • Ks j)

/-- `for i in range(1, n): self._rk_stage(h, i)` (`common.py:243-244`), filling `self.K`. -/
def rkStages (T : Tableau K) (rhs : K → V → V) (t : K) (y : V) (h : K) :
    ℕ → (ℕ → V) → (ℕ → V)
  | 0, Ks => Ks
  | 1, Ks => Ks
  | n + 2, Ks =>
    let K1 := rkStages T rhs t y h (n + 1) Ks
    Function.update K1 (n + 1) (rkStage T rhs t y h K1 (n + 1))

/-- `self.FSAL = 1 if self.E[self.n_stages] else 0` (`common.py:217`). -/
def Tableau.fsal (T : Tableau K) : Bool := decide (T.E T.s ≠ 0)

/-- `_estimate_error` (`common.py:333-336`). -/
def rkError (T : Tableau K) (h : K) (Ks : ℕ → V) : V :=
  h • ∑ i ∈ range (T.s + if T.fsal then 1 else 0), T.E i • Ks i

/-- `y + h * (K[:n].T @ B)` (`common.py:343`). -/
def rkSolution (T : Tableau K) (y : V) (h : K) (Ks : ℕ → V) : V :=
  y + h • ∑ i ∈ range T.s, T.B i • Ks i

/-- One attempt of `RungeKutta._step_impl` (`common.py:241-247, 341-351`). `errNorm y yNew e` is
`norm(e / calculate_scale(atol, rtol, y, yNew))`. -/
def rkTrial (T : Tableau K) (rhs : K → V → V) (errNorm : V → V → V → ENorm K)
    (t : K) (y f : V) (h : K) (Ks : ℕ → V) : Trial K V V :=
  let K0 := Function.update Ks 0 f
  let K1 := rkStages T rhs t y h T.s K0
  let yNew := rkSolution T y h K1
  let K2 := if T.fsal then Function.update K1 T.s (rhs (t + h) yNew) else K1
  { stages := K2, yNew := yNew, err := errNorm y yNew (rkError T h K2), pre := .num 0,
    preStages := K0 }

/-- Preliminary error test of an attempt: `norm y h Ks` is `_estimate_error_norm_pre`
(`bogacki.py:339-345`, `calvo.py:255-260`), `early` tells whether the class has one, and
`countOverflow` see `Method.nfsOverflow`. -/
structure PreTest (K V : Type*) where
  early : Bool
  norm : V → K → (ℕ → V) → ENorm K
  countOverflow : ℕ

/-- `RungeKutta` itself: no preliminary test. -/
def PreTest.none : PreTest K V := ⟨false, fun _ _ _ => .num 0, 1⟩

/-- `_estimate_error_norm_pre` (`bogacki.py:339-345`: weights `B_scale_pre`, `E_pre`, six stages;
`calvo.py:255-260`: weights `A[8, :8]`, `E[:8]`, eight stages). -/
def PreTest.linear (n : ℕ) (Bp Ep : ℕ → K) (errNorm : V → V → V → ENorm K) (cnt : ℕ) :
    PreTest K V where
  early := true
  norm y h Ks := errNorm y (y + h • ∑ i ∈ range n, Bp i • Ks i) (h • ∑ i ∈ range n, Ep i • Ks i)
  countOverflow := cnt

/-- The class `RungeKutta` with a given tableau (`P = PreTest.none`), or one of `BS5`,
`CFMR7osc`. (These two do not store `f_old`, which they never read; the model stores it.) -/
def rkMethod (T : Tableau K) (rhs : K → V → V) (errNorm : V → V → V → ENorm K)
    (P : PreTest K V := PreTest.none) : Method K V V where
  nStages := T.s
  fsal := T.fsal
  rhs := rhs
  costPre := T.s - 2
  nfsOverflow := P.countOverflow
  trial t y f h Ks :=
    let tr := rkTrial T rhs errNorm t y f h Ks
    let Kp := rkStages T rhs t y h (T.s - 1) (Function.update Ks 0 f)
    { tr with pre := if P.early then P.norm y h Kp else .num 0, preStages := Kp }

end

section
variable {K V W : Type*} [Field K] [LinearOrder K]

/-- scipy: `direction = np.sign(t_bound - t0) if t_bound != t0 else 1`, finite case. -/
def direction (t0 b : K) : K := if b = t0 then 1 else if t0 < b then 1 else -1

/-- The state left by `RungeKutta.__init__` (`common.py:187-220`); `h0` is the first step (user
supplied or from `h_start`), `e0` the number of evaluations spent so far, `Ks0` the uninitialised
array `self.K`. -/
def newSolver (c : Cfg K V W) (t0 : K) (y0 : V) (h0 : K) (e0 : ℕ) (Ks0 : ℕ → W) : Solver K V W where
  status := .running
  tOld := none
  st := { t := t0, y := y0, f := c.m.rhs t0 y0, hAbs := h0, maxFactor := MAX_FACTOR0,
          stdSc := true, hPrev := none, errOld := none, yOld := none, fOld := none, Ks := Ks0,
          nfev := e0, nfevTest := 0, nfs := 0, jflstp := 0, okstp := 0, havg := 0 }

end
end Extensisq
