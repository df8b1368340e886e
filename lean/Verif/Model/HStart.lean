import Verif.Model.RK
import Mathlib.Analysis.RCLike.Basic
import Mathlib.Analysis.SpecialFunctions.Log.Base
import Mathlib.Analysis.SpecialFunctions.Pow.Real

/-!
# Error scale, RMS norm and the automatic first step

`calculate_scale`, `norm` (`common.py:57-66`) and `h_start` (`common.py:519-763`).
-/

namespace Extensisq
open Finset

section
variable {𝕜 : Type*} [RCLike 𝕜] {n : ℕ}

/-- `calculate_scale(atol, rtol, y, y_new)` (`common.py:61`). -/
noncomputable def errScale (atol : Fin n → ℝ) (rtol : ℝ) (y yNew : Fin n → 𝕜) (i : Fin n) : ℝ :=
  atol i + rtol * max ‖y i‖ ‖yNew i‖

/-- `calculate_scale(..., _mean=True)` (`common.py:59-60`). -/
noncomputable def errScaleMean (atol : Fin n → ℝ) (rtol : ℝ) (y yNew : Fin n → 𝕜) (i : Fin n) : ℝ :=
  atol i + rtol * (1 / 2) * (‖y i‖ + ‖yNew i‖)

/-- `norm(x) = (np.real(x @ x.conjugate()) / x.size) ** 0.5` (`common.py:64-66`). -/
noncomputable def rmsNorm (x : Fin n → 𝕜) : ℝ :=
  Real.sqrt (RCLike.re (∑ i, x i * (starRingEnd 𝕜) (x i)) / n)

/-- `norm(err / scale)` (`common.py:338-339`) as used by the driver. -/
noncomputable def scaledNorm (atol : Fin n → ℝ) (rtol : ℝ) (y yNew e : Fin n → 𝕜) : ℝ :=
  rmsNorm fun i => e i / ((errScale atol rtol y yNew i : ℝ) : 𝕜)

end

section
variable {𝕜 : Type*} [RCLike 𝕜] {n : ℕ}

/-- `copysign(x, d)` for `x >= 0` and `d` not a negative zero. -/
noncomputable def copysign (x d : ℝ) : ℝ := if 0 ≤ d then x else -x

open Classical in
/-- Python's `x or z` for numbers; `np.where(x, x, z)` for the entries of an array. -/
noncomputable def pyOr {α : Type*} [Zero α] (x z : α) : α := if x = 0 then z else x

/-- `da` (`common.py:617-618`). -/
noncomputable def hsDa (relper small a dx : ℝ) : ℝ :=
  pyOr (copysign (max (min (relper * |a|) |dx|) (100 * small * |a|)) dx) (relper * dx)

/-- `dfdxb` (`common.py:623-626`). -/
noncomputable def hsDfdxb (big delf da : ℝ) : ℝ := if delf < big * |da| then delf / |da| else big

/-- Loop state of the Lipschitz estimate: `dfdub, fbnd, yp, spy, delf` and the number of evaluations. -/
structure HsState (𝕜 : Type*) (n : ℕ) where
  dfdub : ℝ
  fbnd : ℝ
  yp : Fin n → 𝕜
  spy : Fin n → 𝕜
  delf : ℝ
  evals : ℕ

open Classical in
/-- An entry `d` of the perturbation with the signs of `s`, separately for the real and the imaginary part
(`common.py:709-712`); for real problems the imaginary part is zero. -/
noncomputable def hsDirect (s d : 𝕜) : 𝕜 :=
  if s ≠ 0 then (copysign |RCLike.re d| (RCLike.re s) : 𝕜) + (copysign |RCLike.im d| (RCLike.im s) : 𝕜) * RCLike.I
  else d

/-- The direction `dy` of the next perturbation before the signs are set (`common.py:699-706`). -/
noncomputable def hsDy (dely relper : ℝ) (y : Fin n → 𝕜) (k : ℕ) (pv : Fin n → 𝕜) (delf : ℝ) : Fin n → 𝕜 :=
  if k = 2 then fun i => pyOr (y i) ((dely / relper : ℝ) : 𝕜)
  else fun i => pyOr (pv i) ((pyOr delf 1 : ℝ) : 𝕜)

/-- Sampling loop `for k in range(1, lk+1)` (`common.py:671-716`); `m` iterations remain. -/
noncomputable def hsLoop (df : ℝ → (Fin n → 𝕜) → Fin n → 𝕜) (a da dely relper big : ℝ)
    (y yprime sf : Fin n → 𝕜) (lk : ℕ) : ℕ → ℕ → HsState 𝕜 n → HsState 𝕜 n
  | 0, _, st => st
  | m + 1, k, st =>
    let pv : Fin n → 𝕜 := fun i => y i + ((dely / st.delf : ℝ) : 𝕜) * st.yp i
    let yp := if k = 2 then df (a + da) pv else df a pv
    let pv1 := if k = 2 then yp - sf else yp - yprime
    let fbnd := max st.fbnd (rmsNorm yp)
    let delf := rmsNorm pv1
    if big * |dely| ≤ delf then
      { st with dfdub := big, fbnd := fbnd, yp := yp, delf := delf, evals := st.evals + 1 }
    else
      let dfdub := max st.dfdub (delf / |dely|)
      if k = lk then
        { st with dfdub := dfdub, fbnd := fbnd, yp := yp, delf := delf, evals := st.evals + 1 }
      else
        let dy := hsDy dely relper y k pv1 delf
        let spy : Fin n → 𝕜 := fun i => pyOr (st.spy i) (yp i)
        let yp2 : Fin n → 𝕜 := fun i => hsDirect (spy i) (dy i)
        hsLoop df a da dely relper big y yprime sf lk m (k + 1)
          { dfdub := dfdub, fbnd := fbnd, yp := yp2, spy := spy, delf := rmsNorm yp2,
            evals := st.evals + 1 }

/-- The final part (`common.py:735-763`). -/
noncomputable def hsFinal (small a b dfdub fbnd ydpb tolp : ℝ) : ℝ :=
  let dx := b - a
  let absdx := |dx|
  let h0 :=
    if ydpb = 0 ∧ fbnd = 0 then (if tolp < 1 then absdx * tolp else absdx)
    else if ydpb = 0 then (if tolp < fbnd * absdx then tolp / fbnd else absdx)
    else
      let sr := Real.sqrt (1 / 2 * ydpb)
      if tolp < sr * absdx then tolp / sr else absdx
  let h1 := if dfdub ≠ 0 then min h0 (1 / dfdub) else h0
  let h2 := max h1 (100 * small * |a|)
  copysign (pyOr h2 (small * |b|)) dx

/-- `tolp` (`common.py:724-728`); `tolmin` is the smallest `log10(etol)`. -/
noncomputable def hsTolp (etol : Fin n → ℝ) (tolmin : ℝ) (morder : ℕ) : ℝ :=
  (10 : ℝ) ^ (1 / 2 * ((∑ i, Real.logb 10 (etol i)) / n + tolmin) / (morder + 1))

/-- Result of `h_start`: the step, the Lipschitz estimate `dfdub` it used, the number of evaluations. -/
structure HsResult where
  h : ℝ
  dfdub : ℝ
  evals : ℕ

/-- `sf` (`common.py:619-622`): the derivative at the displaced time. -/
noncomputable def hsSf (df : ℝ → (Fin n → 𝕜) → Fin n → 𝕜) (a da : ℝ) (y yprime : Fin n → 𝕜) :
    Option (Fin n → 𝕜) → Fin n → 𝕜
  | none => df (a + da) y
  | some T => fun i => yprime i + (da : 𝕜) * T i

/-- Number of evaluations made by `hsSf`. -/
def hsE0 : Option (Fin n → 𝕜) → ℕ
  | none => 1
  | some _ => 0

/-- The size of the perturbations `dely` (`common.py:652-654`). -/
noncomputable def hsDely (relper dx : ℝ) (y : Fin n → 𝕜) : ℝ := copysign (pyOr (relper * rmsNorm y) relper) dx

open Classical in
/-- The state before the sampling loop (`common.py:655-668`). -/
noncomputable def hsInit (fb0 : ℝ) (yprime : Fin n → 𝕜) (e0 : ℕ) : HsState 𝕜 n :=
  if rmsNorm yprime ≠ 0 then
    { dfdub := 0, fbnd := max fb0 (rmsNorm yprime), yp := yprime, spy := yprime, delf := rmsNorm yprime, evals := e0 }
  else
    { dfdub := 0, fbnd := max fb0 (rmsNorm yprime), yp := fun _ => 1, spy := fun _ => 0,
      delf := rmsNorm (fun _ : Fin n => (1 : 𝕜)), evals := e0 }

/-- `h_start` for problems of size `n > 0` (`common.py:519-763`), real and complex. `Jn`, `Td`: the optional
norm of the Jacobian and time derivative. `small`, `big`, `relper` are machine constants; `tolmin` is
`min(min(log10(etol)), big)`. -/
noncomputable def hStart (small big relper : ℝ) (df : ℝ → (Fin n → 𝕜) → Fin n → 𝕜) (a b : ℝ)
    (y yprime : Fin n → 𝕜) (morder : ℕ) (etol : Fin n → ℝ) (tolmin : ℝ) (Jn : Option ℝ)
    (Td : Option (Fin n → 𝕜)) : HsResult :=
  let dx := b - a
  let da := hsDa relper small a dx
  let sf := hsSf df a da y yprime Td
  let dfdxb := hsDfdxb big (rmsNorm (sf - yprime)) da
  let fb0 := rmsNorm sf
  let lk := min (n + 1) 3
  let st : HsState 𝕜 n := match Jn with
    | some J => { dfdub := J, fbnd := fb0, yp := yprime, spy := yprime, delf := 0, evals := hsE0 Td }
    | none => hsLoop df a da (hsDely relper dx y) relper big y yprime sf lk lk 1 (hsInit fb0 yprime (hsE0 Td))
  { h := hsFinal small a b st.dfdub st.fbnd (dfdxb + st.dfdub * st.fbnd) (hsTolp etol tolmin morder),
    dfdub := st.dfdub, evals := st.evals }

/-- `h_start(..., returnT=True)` (`common.py:619-630`): the estimate of the derivative with respect to time. -/
noncomputable def hsReturnT (small relper : ℝ) (df : ℝ → (Fin n → 𝕜) → Fin n → 𝕜) (a b : ℝ)
    (y yprime : Fin n → 𝕜) : Fin n → 𝕜 :=
  fun i => (df (a + hsDa relper small a (b - a)) y i - yprime i) / ((hsDa relper small a (b - a) : ℝ) : 𝕜)

end
end Extensisq
