import Verif.Model.Methods
import Verif.Model.TablesDense

/-!
# Dense output objects

Models `HornerDenseOutput`, `CubicDenseOutput`, `HornerDenseOutputNystrom`, `QuinticHermiteDenseOutput`
(`common.py:766-821, 1489-1613`), `RungeKutta._dense_output_impl` (`common.py:358-368`) and
`BS5._dense_output_impl` (`bogacki.py:347-398`). An object is modelled as the function `t ↦ sol(t)` of a
scalar time; the vectorised call applies the same operations to each entry of the array.
-/

namespace Extensisq
open Finset

section
variable {K V : Type*} [Field K] [AddCommGroup V] [Module K V]

/-- The loop `for q in reversed(Q.T[:-1]): y += q; y *= x` (`common.py:782-784`); the list is already
reversed. -/
def hornerLoop (x : K) : List V → V → V
  | [], y => y
  | q :: r, y => hornerLoop x r (x • (y + q))

/-- `y = Q.T[-1] * x` followed by the loop (`common.py:780-784`). An empty `Q` would raise
`IndexError`; the model returns zero. -/
def hornerEval (x : K) (Q : List V) : V :=
  match Q.reverse with
  | [] => 0
  | q :: r => hornerLoop x r (x • q)

/-- `HornerDenseOutput(t_old, t, y_old, Q)` called at `τ` (`common.py:769-790`). -/
def horner (tOld t : K) (yOld : V) (Q : List V) (τ : K) : V :=
  hornerEval ((τ - tOld) / (t - tOld)) (Q.map fun q => (t - tOld) • q) + yOld

/-- `CubicDenseOutput(t_old, t, y_old, y, f_old, f)` called at `τ` (`common.py:796-816`). -/
def cubic (tOld t : K) (yOld y fOld f : V) (τ : K) : V :=
  let h := t - tOld
  let x := (τ - tOld) / h
  let h00 := (1 + 2 * x) * (1 - x) ^ 2
  let h10 := x * (1 - x) ^ 2 * h
  let h01 := x ^ 2 * (3 - 2 * x)
  let h11 := x ^ 2 * (x - 1) * h
  h00 • yOld + h10 • fOld + h01 • y + h11 • f

/-- `HornerDenseOutputNystrom(t_old, t, y_old, Q, Qp)` called at `τ` (`common.py:1492-1522`); a state is
the pair (position, velocity). -/
def hornerNystrom (tOld t : K) (yOld : V × V) (Q Qp : List V) (τ : K) : V × V :=
  let h := t - tOld
  let xi := (τ - tOld) / h
  let v := hornerEval xi (Qp.map fun q => h • q) + yOld.2
  let u := xi • (hornerEval xi (Q.map fun q => h ^ 2 • q) + h • yOld.2) + yOld.1
  (u, v)

/-- `QuinticHermiteDenseOutput.P` (`common.py:1532-1537`), columns `j = 0..5` of `Q = data.T @ P` for
data `d0..d5`. -/
def quinticQ (d0 d1 d2 d3 d4 d5 : V) : List V :=
  [d0, d1, (1 / 2 : K) • d2,
   (-10 : K) • d0 + (-6 : K) • d1 + (-3 / 2 : K) • d2 + (10 : K) • d3 + (-4 : K) • d4 + (1 / 2 : K) • d5,
   (15 : K) • d0 + (8 : K) • d1 + (3 / 2 : K) • d2 + (-15 : K) • d3 + (7 : K) • d4 + (-1 : K) • d5,
   (-6 : K) • d0 + (-3 : K) • d1 + (-1 / 2 : K) • d2 + (6 : K) • d3 + (-3 : K) • d4 + (1 / 2 : K) • d5]

/-- `Pp = P[:, 1:] * np.arange(1, 6)` (`common.py:1538`), columns of `Qp = data.T @ Pp`. -/
def quinticQp (d0 d1 d2 d3 d4 d5 : V) : List V :=
  match quinticQ (K := K) d0 d1 d2 d3 d4 d5 with
  | _ :: r => r.zipIdx.map fun p => ((p.2 + 1 : ℕ) : K) • p.1
  | [] => []

/-- `x = Q.T[-1]; for q in reversed(Q.T[:-1]): x *= xi; x += q` (`common.py:1563-1566`); the list is
already reversed. -/
def hornerLoop' (x : K) : List V → V → V
  | [], y => y
  | q :: r, y => hornerLoop' x r (x • y + q)

def hornerEval' (x : K) (Q : List V) : V :=
  match Q.reverse with
  | [] => 0
  | q :: r => hornerLoop' x r q

/-- `QuinticHermiteDenseOutput` called at `τ` (`common.py:1540-1577`). -/
def quintic (tOld t : K) (yOld y : V × V) (aOld a : V) (τ : K) : V × V :=
  let h := t - tOld
  let xi := (τ - tOld) / h
  let Q := quinticQ (K := K) yOld.1 (h • yOld.2) (h ^ 2 • aOld) y.1 (h • y.2) (h ^ 2 • a)
  let Qp := quinticQp (K := K) (h⁻¹ • yOld.1) yOld.2 (h • aOld) (h⁻¹ • y.1) y.2 (h • a)
  (hornerEval' xi Q, hornerEval' xi Qp)

/-- `QuinticHermiteDenseOutput._call_impl_old` (`common.py:1579-1613`). -/
def quinticOld (tOld t : K) (yOld y : V × V) (aOld a : V) (τ : K) : V × V :=
  let h := t - tOld
  let xi := (τ - tOld) / h
  let d1 := 1 - 10 * xi ^ 3 + 15 * xi ^ 4 - 6 * xi ^ 5
  let d2 := (xi - 6 * xi ^ 3 + 8 * xi ^ 4 - 3 * xi ^ 5) * h
  let d3 := (xi ^ 2 - 3 * xi ^ 3 + 3 * xi ^ 4 - xi ^ 5) * (1 / 2) * h ^ 2
  let d4 := (xi ^ 3 - 2 * xi ^ 4 + xi ^ 5) * (1 / 2) * h ^ 2
  let d5 := (-4 * xi ^ 3 + 7 * xi ^ 4 - 3 * xi ^ 5) * h
  let d6 := 10 * xi ^ 3 - 15 * xi ^ 4 + 6 * xi ^ 5
  let dp1 := (-30 * xi ^ 2 + 60 * xi ^ 3 - 30 * xi ^ 4) / h
  let dp2 := 1 - 18 * xi ^ 2 + 32 * xi ^ 3 - 15 * xi ^ 4
  let dp3 := (2 * xi - 9 * xi ^ 2 + 12 * xi ^ 3 - 5 * xi ^ 4) * (1 / 2) * h
  let dp4 := (3 * xi ^ 2 - 8 * xi ^ 3 + 5 * xi ^ 4) * (1 / 2) * h
  let dp5 := -12 * xi ^ 2 + 28 * xi ^ 3 - 15 * xi ^ 4
  let dp6 := (30 * xi ^ 2 - 60 * xi ^ 3 + 30 * xi ^ 4) / h
  (d1 • yOld.1 + d6 • y.1 + d2 • yOld.2 + d5 • y.2 + d3 • aOld + d4 • a,
   dp1 • yOld.1 + dp6 • y.1 + dp2 • yOld.2 + dp5 • y.2 + dp3 • aOld + dp4 • a)

/-- Entry `P[i, j]` of a table. -/
def entry (K : Type*) [DivisionRing K] (P : List (List ℚ)) (i j : ℕ) : K := (((P.getD i []).getD j 0 : ℚ) : K)

/-- Number of columns. -/
def cols (P : List (List ℚ)) : ℕ := (P.getD 0 []).length

/-- The columns of `Q = K.T @ P` (`common.py:363`), `P` having `n` rows. -/
def denseQ (K : Type*) {V : Type*} [Field K] [AddCommGroup V] [Module K V] (P : List (List ℚ)) (n : ℕ) (Ks : ℕ → V) : List V :=
  (List.range (cols P)).map fun j => ∑ i ∈ range n, entry K P i j • Ks i

/-- The loop over the extra stages of a dense output (`bogacki.py:363-366`): rows `a` of `A_extra`, nodes
`c` of `C_extra`, starting at stage `s`. -/
def extraStages (rhs : K → V → V) (tOld : K) (yOld : V) (h : K) :
    ℕ → List (List ℚ × ℚ) → (ℕ → V) → (ℕ → V)
  | _, [], Ks => Ks
  | s, (a, c) :: r, Ks =>
    extraStages rhs tOld yOld h (s + 1) r
      (Function.update Ks s
        (rhs (tOld + (c : K) * h) (yOld + h • ∑ j ∈ range s, ((a.getD j 0 : ℚ) : K) • Ks j)))

/-- The grouped sums of the accurate BS5 interpolant (`bogacki.py:371-389`). -/
def bs5BestQ (K : Type*) {V : Type*} [Field K] [AddCommGroup V] [Module K V] (Ks : ℕ → V) : List V :=
  let KP := fun (j i : ℕ) => entry K BS5_Pbest i j • Ks i
  [Ks 7,
   (let k := KP 1; k 4 + ((k 5 + k 7) + k 0) + ((k 2 + k 8) + k 9) + ((k 3 + k 10) + k 6)),
   (let k := KP 2; k 4 + k 5 + ((k 2 + k 8) + (k 9 + k 7) + k 0) + ((k 3 + k 10) + k 6)),
   (let k := KP 3; ((k 3 + k 7) + (k 6 + k 5) + k 4) + ((k 9 + k 8) + (k 2 + k 10) + k 0)),
   (let k := KP 4; (k 9 + k 8) + ((k 6 + k 5) + k 4) + ((k 3 + k 7) + (k 2 + k 10) + k 0)),
   (let k := KP 5; k 4 + ((k 9 + k 7) + (k 6 + k 5)) + ((k 3 + k 8) + (k 2 + k 10) + k 0))]

/-- The `interpolant` option of `BS5` (`bogacki.py:216-236`). -/
inductive BS5Interp where
  | best | low | free
  deriving DecidableEq, Repr

end

section
variable {K V : Type*} [Field K] [DecidableEq K] [AddCommGroup V] [Module K V]

/-- What `dense_output()` does when `_dense_output_impl` returns `o` and leaves the work array `Ks` with
`e` function evaluations: scipy's `OdeSolver.dense_output` raises if no step was made, and returns a
constant if `t == t_old`. `none` is an exception. -/
def denseOutput (impl : K → V → (K → V) × (ℕ → V) × ℕ) (v : Solver K V V) :
    Option ((K → V) × Solver K V V) :=
  match v.tOld with
  | none => none
  | some tOld =>
    if v.st.t = tOld then some (fun _ => v.st.y, v)
    else
      match v.st.yOld with
      | none => none
      | some yOld =>
        let r := impl tOld yOld
        some (r.1, { v with st := { v.st with Ks := r.2.1, nfev := v.st.nfev + r.2.2 } })

/-- `RungeKutta._dense_output_impl` with a table `P` (`common.py:361-364`). -/
def rkDense (R : RKTable) (v : Solver K V V) : Option ((K → V) × Solver K V V) :=
  denseOutput (fun tOld yOld => (horner tOld v.st.t yOld (denseQ K R.P (R.s + 1) v.st.Ks), v.st.Ks, 0)) v

/-- `RungeKutta._dense_output_impl` without interpolation table (`common.py:366-368`). -/
def rkDenseCubic (v : Solver K V V) : Option ((K → V) × Solver K V V) :=
  match v.st.fOld with
  | none => none
  | some fOld =>
    denseOutput (fun tOld yOld => (cubic tOld v.st.t yOld v.st.y fOld v.st.f, v.st.Ks, 0)) v

/-- `BS5._dense_output_impl` (`bogacki.py:347-394`); `h` is `self.h_previous`. The extended array
`K_extended` shares its first rows with `K`. Returned: the output object, the work array and the number of
evaluations. -/
def bs5DenseImpl (o : BS5Interp) (rhs : K → V → V) (t : K) (y : V) (Ks : ℕ → V) (h tOld : K) (yOld : V) :
    (K → V) × (ℕ → V) × ℕ :=
  match o with
  | .free => (horner tOld t yOld (denseQ K BS5.P 8 Ks), Ks, 0)
  | .low =>
    let Ke := extraStages rhs tOld yOld h 8 ((BS5_A_extra.zip BS5_C_extra).take 1) Ks
    (horner tOld t yOld (denseQ K BS5_Plow 9 Ke), Ke, 1)
  | .best =>
    let Ke := extraStages rhs tOld yOld h 8 (BS5_A_extra.zip BS5_C_extra) Ks
    (horner t (t + h) y (bs5BestQ K Ke), Ke, 3)

/-- `dense_output()` of `BS5`. -/
def bs5Dense (o : BS5Interp) (rhs : K → V → V) (v : Solver K V V) : Option ((K → V) × Solver K V V) :=
  match v.st.hPrev with
  | none => none
  | some h => denseOutput (bs5DenseImpl o rhs v.st.t v.st.y v.st.Ks h) v

end
end Extensisq
