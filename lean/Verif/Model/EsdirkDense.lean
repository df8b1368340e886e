import Verif.Model.EsdirkTables
import Verif.Model.Dense

/-!
# Dense output of the ESDIRK family

Models `HS._dense_output_impl`, `PiecewiseCubicDenseOutput` (`hosea.py:15-43`), `ESDIRK._dense_output_impl`
(`common.py:2234-2246`) and the `interpolant` option of `KC` (`kennedy.py:8-20`). scipy's `CubicHermiteSpline`
and `OdeSolver.dense_output` are external; their documented behaviour is modelled.
-/

namespace Extensisq
open Finset

section
variable {K V : Type*} [Field K] [LinearOrder K] [AddCommGroup V] [Module K V]

/-- scipy's `CubicHermiteSpline` for three nodes (external): `x` has to increase strictly (otherwise
`ValueError`, `none`); in each interval the cubic Hermite polynomial; outside the first or last polynomial. -/
def spline3 (T0 T1 T2 : K) (Y0 Y1 Y2 D0 D1 D2 : V) : Option (K → V) :=
  if T0 < T1 ∧ T1 < T2 then
    some fun τ => if τ < T1 then cubic T0 T1 Y0 Y1 D0 D1 τ else cubic T1 T2 Y1 Y2 D1 D2 τ
  else none

/-- A dense output object: its attributes `t_old`, `t` and its values. -/
structure DOut (K V : Type*) where
  tOld : K
  t : K
  eval : K → V

/-- `PiecewiseCubicDenseOutput(T, Y, dY)` (`hosea.py:29-43`). -/
def pwCubic (T0 T1 T2 : K) (Y0 Y1 Y2 D0 D1 D2 : V) : Option (DOut K V) :=
  (spline3 T0 T1 T2 Y0 Y1 Y2 D0 D1 D2).map fun g => ⟨T0, T2, g⟩

/-- `HS._dense_output_impl` (`hosea.py:15-27`); `h` is `self.h_previous`. -/
def hsDenseImpl (c : ECfg K V) (h tOld t : K) (yOld y : V) (Ks : ℕ → V) : Option (DOut K V) :=
  let tMid := tOld + c.T.C 1 * h
  let yMid := yOld + h • ∑ j ∈ range c.T.n, c.T.A 1 j • Ks j
  if 0 < c.dir then pwCubic tOld tMid t yOld yMid y (Ks 0) (Ks 1) (Ks 2)
  else pwCubic t tMid tOld y yMid yOld (Ks 2) (Ks 1) (Ks 0)

/-- scipy's `OdeSolver.dense_output` (external): `RuntimeError` before the first step, a constant after a step
of length zero. `none` is an exception. -/
def eDenseOutput (impl : K → K → V → Option (DOut K V)) (v : ESolver K V) : Option (DOut K V) :=
  match v.tOld with
  | none => none
  | some tOld =>
    if v.st.t = tOld then some ⟨tOld, v.st.t, fun _ => v.st.y⟩
    else
      match v.st.hPrev, v.st.yOld with
      | some h, some yOld => impl h tOld yOld
      | _, _ => none

/-- `dense_output()` of `TRBDF2` and `TRX2`. -/
def hsDense (c : ECfg K V) (v : ESolver K V) : Option (DOut K V) :=
  eDenseOutput (fun h tOld yOld => hsDenseImpl c h tOld v.st.t yOld v.st.y v.st.Ks) v

/-- `Q = K.T @ P` (`common.py:2240`) for a table with `n` rows of numbers `a + b r`, `r` a square root of two. -/
def eDenseQ (r : K) (P : List (List Q2)) (n : ℕ) (Ks : ℕ → V) : List V :=
  (List.range ((P.getD 0 []).length)).map fun j => ∑ i ∈ range n, ((P.getD i []).getD j 0).val r • Ks i

/-- `dense_output()` of a class with an interpolant `P` (`common.py:2238-2241`). -/
def kcDense (r : K) (n : ℕ) (P : List (List Q2)) (v : ESolver K V) : Option (DOut K V) :=
  eDenseOutput (fun _ tOld yOld => some ⟨tOld, v.st.t, horner tOld v.st.t yOld (eDenseQ r P n v.st.Ks)⟩) v

end

/-- The `interpolant` option of `KC` and `Kv3I` (`kennedy.py:11-18`): any string except `'C0'` and `'C1'` is a
`ValueError`. -/
def kcInterpolant (R : ESTable) (o : String) : Option (List (List Q2)) :=
  if o = "C0" then some R.P0 else if o = "C1" then some R.P1 else none

end Extensisq
