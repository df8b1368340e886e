import Verif.Model.Dense
import Verif.Model.EsdirkDense
import Verif.Model.Swag

/-!
# Dense output objects called with an array of times

The other files model a dense output object as the function of a scalar time. Here the calls are modelled as they are written, for a
scalar and for an array of times, with numpy's broadcasting of a column of `n` numbers (`q[:, np.newaxis]`) with a row of `m`
scaled times. A scalar time broadcasts like a row of length one. scipy's `DenseOutput.__call__` (external) turns the argument
into an array, refuses more than one dimension, and calls `_call_impl`.
-/

namespace Extensisq
open Finset

/-- The argument of a call: a scalar (array of shape `()`) or an array of shape `(m,)`. -/
inductive TArg (K : Type*) where
  | scalar (t : K)
  | array (m : ℕ) (ts : Fin m → K)

/-- What is returned: an array of shape `(n,)`, of shape `(n, m)`, or of shape `(0,)`. -/
inductive DVal (n : ℕ) (K : Type*) where
  | state (y : Fin n → K)
  | states (m : ℕ) (y : Fin n → Fin m → K)
  | nothing

namespace TArg
variable {K : Type*}

/-- `t.size`; also the length of the last axis after broadcasting with a column. -/
def size : TArg K → ℕ
  | scalar _ => 1
  | array m _ => m

/-- The entries, `np.atleast_1d(t)`. -/
def entries : (a : TArg K) → Fin a.size → K
  | scalar t => fun _ => t
  | array _ ts => ts

/-- `if t.shape: return y` `else: return y[:, 0]` (`common.py:787-790`, and the same lines in the other classes). -/
def finish {n : ℕ} : (a : TArg K) → (Fin n → Fin a.size → K) → DVal n K
  | scalar _, y => .state fun i => y i (⟨0, Nat.one_pos⟩ : Fin 1)
  | array m _, y => .states m y

end TArg

section
variable {K : Type*} [Field K] {n m : ℕ}

/-- `for q in reversed(Q.T[:-1]): y += q[:, np.newaxis]; y *= x` (`common.py:781-783`); the list is already reversed. -/
def hornerLoopV (x : Fin m → K) : List (Fin n → K) → (Fin n → Fin m → K) → Fin n → Fin m → K
  | [], y => y
  | q :: r, y => hornerLoopV x r fun i j => (y i j + q i) * x j

/-- `y = Q.T[-1, :, np.newaxis] * x` and the loop (`common.py:780-783`). -/
def hornerEvalV (x : Fin m → K) (Q : List (Fin n → K)) : Fin n → Fin m → K :=
  match Q.reverse with
  | [] => fun _ _ => 0
  | q :: r => hornerLoopV x r fun i j => q i * x j

/-- `HornerDenseOutput._call_impl` (`common.py:775-790`). -/
def hornerCall (tOld t : K) (yOld : Fin n → K) (Q : List (Fin n → K)) (a : TArg K) : DVal n K :=
  let h := t - tOld
  let x := fun j => (a.entries j - tOld) / h
  let y := hornerEvalV x (Q.map fun q i => q i * h)
  a.finish fun i j => y i j + yOld i

/-- `CubicDenseOutput._call_impl` (`common.py:804-821`). -/
def cubicCall (tOld t : K) (yOld y fOld f : Fin n → K) (a : TArg K) : DVal n K :=
  let h := t - tOld
  let x := fun j => (a.entries j - tOld) / h
  let h00 := fun j => (1 + 2 * x j) * (1 - x j) ^ 2
  let h10 := fun j => x j * (1 - x j) ^ 2 * h
  let h01 := fun j => x j ^ 2 * (3 - 2 * x j)
  let h11 := fun j => x j ^ 2 * (x j - 1) * h
  a.finish fun i j => h00 j * yOld i + h10 j * fOld i + h01 j * y i + h11 j * f i

/-- `HornerDenseOutputNystrom._call_impl` (`common.py:1500-1525`); the state has `n` positions and `n` velocities. -/
def hornerNystromCall (tOld t : K) (yOld : Fin (n + n) → K) (Q Qp : List (Fin n → K)) (a : TArg K) : DVal (n + n) K :=
  let h := t - tOld
  let xi := fun j => (a.entries j - tOld) / h
  let v₀ := hornerEvalV xi (Qp.map fun q i => q i * h)
  let v := fun i j => v₀ i j + yOld (Fin.natAdd n i)
  let u₀ := hornerEvalV xi (Q.map fun q i => q i * h ^ 2)
  let u := fun i j => (u₀ i j + yOld (Fin.natAdd n i) * h) * xi j + yOld (Fin.castAdd n i)
  a.finish (Fin.append u v)

/-- `for q in reversed(Q.T[:-1]): x *= xi; x += q[:, np.newaxis]` (`common.py:1564-1566`). -/
def hornerLoopV' (x : Fin m → K) : List (Fin n → K) → (Fin n → Fin m → K) → Fin n → Fin m → K
  | [], y => y
  | q :: r, y => hornerLoopV' x r fun i j => y i j * x j + q i

/-- `x = Q.T[-1, :, np.newaxis] * np.ones_like(xi)` and the loop (`common.py:1563-1566`). -/
def hornerEvalV' (x : Fin m → K) (Q : List (Fin n → K)) : Fin n → Fin m → K :=
  match Q.reverse with
  | [] => fun _ _ => 0
  | q :: r => hornerLoopV' x r fun i _ => q i * 1

/-- `QuinticHermiteDenseOutput._call_impl` (`common.py:1551-1577`). -/
def quinticCall (tOld t : K) (yOld y : Fin (n + n) → K) (aOld acc : Fin n → K) (a : TArg K) : DVal (n + n) K :=
  let h := t - tOld
  let xi := fun j => (a.entries j - tOld) / h
  let xOld := fun i => yOld (Fin.castAdd n i)
  let vOld := fun i => yOld (Fin.natAdd n i)
  let x := fun i => y (Fin.castAdd n i)
  let v := fun i => y (Fin.natAdd n i)
  let Q := quinticQ (K := K) xOld (fun i => vOld i * h) (fun i => aOld i * h ^ 2) x (fun i => v i * h) (fun i => acc i * h ^ 2)
  let Qp := quinticQp (K := K) (fun i => xOld i / h) vOld (fun i => aOld i * h) (fun i => x i / h) v (fun i => acc i * h)
  a.finish (Fin.append (hornerEvalV' xi Q) (hornerEvalV' xi Qp))

/-- `PiecewiseCubicDenseOutput._call_impl` (`hosea.py:39-43`): `np.array([self.interpolant(_t) for _t in t]).T`, which for an
empty list has shape `(0,)`. -/
def pwCubicCall (interpolant : K → Fin n → K) : TArg K → DVal n K
  | .scalar t => .state (interpolant t)
  | .array 0 _ => .nothing
  | .array (m + 1) ts => .states (m + 1) fun i j => interpolant (ts j) i

/-- `LinearDenseOutput._call_impl` (`shampine.py:602-612`). -/
def linDenseCall (ox x : K) (oy y : Fin n → K) (a : TArg K) : DVal n K :=
  let s := fun j => (a.entries j - ox) / (x - ox)
  a.finish fun i j => s j * (y i - oy i) + oy i

/-- One pass of `for it, xout in enumerate(np.atleast_1d(t))` (`shampine.py:543-582`): the values `yout` and the new contents of the
work array `g`, which is shared by the passes. -/
def swPoint (co : Coef K) (phi : ℕ → Fin n → K) (kold : ℕ) (ox x : K) (oy y : Fin n → K) (g : ℕ → K) (xout : K) :
    (Fin n → K) × (ℕ → K) :=
  let h := x - ox
  let xi := (xout - ox) / h
  let w := fun q => xi * (xi ^ (q + 1) * iqq q)
  let g₁ := Function.update (Function.update g 0 xi) 1 (1 / 2 * xi * xi)
  let wg := wLoop co.alpha kold xi (kold - 1) 0 (w, g₁)
  let sigma := (wg.1 1 - (xi - 1) * wg.1 0) / swGdi co kold
  let g₂ := diffP wg.2
  let gdif := diffP co.g
  (fun i => h * (∑ j ∈ range (kold + 1), phi j i * (g₂ j - sigma * gdif j)) + (sigma * y i + (1 - sigma) * oy i), g₂)

/-- The loop over the points; `out` is the array `yout_array`. -/
def swPoints (co : Coef K) (phi : ℕ → Fin n → K) (kold : ℕ) (ox x : K) (oy y : Fin n → K) (ts : Fin m → K) :
    List (Fin m) → (Fin n → Fin m → K) → (ℕ → K) → Fin n → Fin m → K
  | [], out, _ => out
  | it :: r, out, g =>
    let p := swPoint co phi kold ox x oy y g (ts it)
    swPoints co phi kold ox x oy y ts r (fun i => Function.update (out i) it (p.1 i)) p.2

/-- `SwagDenseOutput._call_impl` (`shampine.py:525-587`); `out₀`, `g₀` are the contents of the new arrays (`np.empty`). -/
def swDenseCall (co : Coef K) (phi : ℕ → Fin n → K) (kold : ℕ) (ox x : K) (oy y : Fin n → K)
    (g₀ : ℕ → K) (a : TArg K) (out₀ : Fin n → Fin a.size → K) : DVal n K :=
  a.finish (swPoints co phi kold ox x oy y a.entries (List.finRange a.size) out₀ g₀)

end
end Extensisq
