/-
C102: a dense output object called with an array of times gives the values of the calls with the single times.
-/
import Verif.Model.DenseVec
import Mathlib.Tactic.Ring
import Mathlib.Tactic.FieldSimp
import Mathlib.Data.List.FinRange
import Mathlib.Data.Rat.Defs

namespace Extensisq
open Finset

/-- **Specification.** The object `call` has the value `f t` (an array of shape `(n,)`) at a time `t`, and for an array of `m` times it
returns an array of shape `(n, m)` whose column `j` is the value at time `j`. -/
def Vectorised {K : Type*} {n : ℕ} (call : TArg K → DVal n K) (f : K → Fin n → K) : Prop :=
  (∀ t, call (.scalar t) = .state (f t)) ∧ ∀ m (ts : Fin m → K), call (.array m ts) = .states m fun i j => f (ts j) i

section
variable {K : Type*} [Field K] {n m : ℕ}

theorem vectorised_of {call : TArg K → DVal n K} {f : K → Fin n → K}
    (h : ∀ a : TArg K, call a = a.finish fun i j => f (a.entries j) i) : Vectorised call f :=
  ⟨fun t => by rw [h]; rfl, fun m ts => by rw [h]; rfl⟩

theorem hornerLoopV_eq (x : Fin m → K) : ∀ (Q : List (Fin n → K)) (y : Fin n → Fin m → K) (z : Fin m → Fin n → K),
    (∀ i j, y i j = z j i) → ∀ i j, hornerLoopV x Q y i j = hornerLoop (x j) Q (z j) i
  | [], y, z, h, i, j => h i j
  | q :: r, y, z, h, i, j => by
    refine hornerLoopV_eq x r _ (fun j => x j • (z j + q)) (fun i j => ?_) i j
    simp [h, mul_comm]

theorem hornerEvalV_eq (x : Fin m → K) (Q : List (Fin n → K)) (i : Fin n) (j : Fin m) :
    hornerEvalV x Q i j = hornerEval (x j) Q i := by
  unfold hornerEvalV hornerEval
  cases Q.reverse with
  | nil => rfl
  | cons q r => exact hornerLoopV_eq x r _ (fun j => x j • q) (fun i j => by simp [mul_comm]) i j

theorem hornerLoopV'_eq (x : Fin m → K) : ∀ (Q : List (Fin n → K)) (y : Fin n → Fin m → K) (z : Fin m → Fin n → K),
    (∀ i j, y i j = z j i) → ∀ i j, hornerLoopV' x Q y i j = hornerLoop' (x j) Q (z j) i
  | [], y, z, h, i, j => h i j
  | q :: r, y, z, h, i, j => by
    refine hornerLoopV'_eq x r _ (fun j => x j • z j + q) (fun i j => ?_) i j
    simp [h, mul_comm]

theorem hornerEvalV'_eq (x : Fin m → K) (Q : List (Fin n → K)) (i : Fin n) (j : Fin m) :
    hornerEvalV' x Q i j = hornerEval' (x j) Q i := by
  unfold hornerEvalV' hornerEval'
  cases Q.reverse with
  | nil => rfl
  | cons q r => exact hornerLoopV'_eq x r _ (fun _ => q) (fun i j => by simp) i j

theorem colScale (h : K) : (fun (q : Fin n → K) i => q i * h) = fun q => h • q := by
  funext q i; simp [mul_comm]

/-- The Horner interpolants of the Runge-Kutta and ESDIRK methods. -/
theorem C102_horner (tOld t : K) (yOld : Fin n → K) (Q : List (Fin n → K)) :
    Vectorised (hornerCall tOld t yOld Q) (horner tOld t yOld Q) := by
  apply vectorised_of
  intro a
  unfold hornerCall horner
  simp only [hornerEvalV_eq, colScale, Pi.add_apply]

/-- The cubic interpolant of the Runge-Kutta methods without own interpolant, of CKdisc and of SSV2stab. -/
theorem C102_cubic (tOld t : K) (yOld y fOld f : Fin n → K) :
    Vectorised (cubicCall tOld t yOld y fOld f) (cubic tOld t yOld y fOld f) := by
  apply vectorised_of
  intro a
  unfold cubicCall cubic
  simp

/-- The state of a Nyström method: positions, then velocities. -/
def joinState (p : (Fin n → K) × (Fin n → K)) : Fin (n + n) → K := Fin.append p.1 p.2

theorem append_cols (u v : Fin n → Fin m → K) (f : Fin m → (Fin n → K) × (Fin n → K))
    (hu : ∀ i j, u i j = (f j).1 i) (hv : ∀ i j, v i j = (f j).2 i) :
    (Fin.append u v : Fin (n + n) → Fin m → K) = fun i j => joinState (f j) i := by
  funext i j
  unfold joinState
  refine Fin.addCases (fun i => ?_) (fun i => ?_) i
  · simp [hu]
  · simp [hv, -Fin.natAdd_eq_addNat]

/-- The Horner interpolants of the Nyström methods. -/
theorem C102_horner_nystrom (tOld t : K) (xOld vOld : Fin n → K) (Q Qp : List (Fin n → K)) :
    Vectorised (hornerNystromCall tOld t (joinState (xOld, vOld)) Q Qp)
      (fun τ => joinState (hornerNystrom tOld t (xOld, vOld) Q Qp τ)) := by
  apply vectorised_of
  intro a
  unfold hornerNystromCall
  dsimp only
  congr 1
  apply append_cols _ _ (fun j => hornerNystrom tOld t (xOld, vOld) Q Qp (a.entries j))
  · intro i j
    simp [hornerNystrom, hornerEvalV_eq, colScale, joinState, -Fin.natAdd_eq_addNat]
    ring
  · intro i j
    simp [hornerNystrom, hornerEvalV_eq, colScale, joinState, -Fin.natAdd_eq_addNat]

/-- The quintic interpolant of the Nyström methods. -/
theorem C102_quintic (tOld t : K) (xOld vOld x v aOld acc : Fin n → K) :
    Vectorised (quinticCall tOld t (joinState (xOld, vOld)) (joinState (x, v)) aOld acc)
      (fun τ => joinState (quintic tOld t (xOld, vOld) (x, v) aOld acc τ)) := by
  apply vectorised_of
  intro a
  unfold quinticCall
  dsimp only
  congr 1
  have hs (h : K) (q : Fin n → K) : (fun i => q i * h) = h • q := by funext i; simp [mul_comm]
  have hd (h : K) (q : Fin n → K) : (fun i => q i / h) = h⁻¹ • q := by funext i; simp [div_eq_inv_mul]
  apply append_cols _ _ (fun j => quintic tOld t (xOld, vOld) (x, v) aOld acc (a.entries j)) <;>
  · intro i j
    simp [quintic, hornerEvalV'_eq, joinState, hs, hd, -Fin.natAdd_eq_addNat]
    try rfl

/-- The piecewise cubic interpolant of `TRBDF2` and `TRX2`, for a non-empty array of times. -/
theorem C102_piecewise_cubic (f : K → Fin n → K) : (∀ t, pwCubicCall f (.scalar t) = .state (f t)) ∧
    ∀ m (ts : Fin m → K), 0 < m → pwCubicCall f (.array m ts) = .states m fun i j => f (ts j) i := by
  refine ⟨fun _ => rfl, fun m ts h => ?_⟩
  cases m with
  | zero => omega
  | succ m => rfl

/-- For an empty array of times it returns an array of shape `(0,)` instead of `(n, 0)`. -/
theorem C102_piecewise_cubic_empty (f : K → Fin n → K) (ts : Fin 0 → K) : pwCubicCall f (.array 0 ts) = .nothing := rfl

/-- The linear interpolant of `SWAG` after an extrapolated last step. -/
theorem C102_linear (ox x : K) (oy y : Fin n → K) : Vectorised (linDenseCall ox x oy y) (linDense ox x oy y) := by
  apply vectorised_of
  intro a
  unfold linDenseCall linDense
  simp

/-! ### SWAG: the work array is shared by the points -/

/-- The loop gives the same `w`, and the same `g` up to index `i + passes + 1`, if the start agrees up to index `i + 1`. -/
theorem wLoop_congr (alpha : ℕ → K) (kold : ℕ) (xi : K) : ∀ (p i : ℕ) (w g g' : ℕ → K), (∀ k ≤ i + 1, g k = g' k) →
    (wLoop alpha kold xi p i (w, g)).1 = (wLoop alpha kold xi p i (w, g')).1 ∧
    ∀ k ≤ i + p + 1, (wLoop alpha kold xi p i (w, g)).2 k = (wLoop alpha kold xi p i (w, g')).2 k
  | 0, i, w, g, g', h => ⟨rfl, h⟩
  | p + 1, i, w, g, g', h => by
    unfold wLoop
    dsimp only
    have := wLoop_congr alpha kold xi p (i + 1)
      (fun q => if q < kold - i then (1 + (xi - 1) * alpha (i + 1)) * w q - alpha (i + 1) * w (q + 1) else w q)
      (Function.update g (i + 2) ((fun q => if q < kold - i then (1 + (xi - 1) * alpha (i + 1)) * w q - alpha (i + 1) * w (q + 1) else w q) 0))
      (Function.update g' (i + 2) ((fun q => if q < kold - i then (1 + (xi - 1) * alpha (i + 1)) * w q - alpha (i + 1) * w (q + 1) else w q) 0))
      (by
        intro k hk
        by_cases e : k = i + 2
        · subst e; simp
        · rw [Function.update_of_ne e, Function.update_of_ne e]; exact h k (by omega))
    refine ⟨this.1, fun k hk => this.2 k (by omega)⟩

/-- The values at a point do not depend on what the work array contained. -/
theorem swPoint_eq (co : Coef K) (phi : ℕ → Fin n → K) {kold : ℕ} (hk : 1 ≤ kold) (ox x : K) (oy y : Fin n → K) (g : ℕ → K) (t : K) :
    (swPoint co phi kold ox x oy y g t).1 = swDense co phi kold ox x oy y t := by
  obtain ⟨hw, hg⟩ := wLoop_congr co.alpha kold ((t - ox) / (x - ox)) (kold - 1) 0
    (fun q => (t - ox) / (x - ox) * (((t - ox) / (x - ox)) ^ (q + 1) * iqq q))
    (Function.update (Function.update g 0 ((t - ox) / (x - ox))) 1 (1 / 2 * ((t - ox) / (x - ox)) * ((t - ox) / (x - ox))))
    (fun i => if i = 0 then (t - ox) / (x - ox) else 1 / 2 * ((t - ox) / (x - ox)) * ((t - ox) / (x - ox)))
    (by
      intro k hk
      rcases (show k = 0 ∨ k = 1 by omega) with rfl | rfl <;> simp)
  have hd : ∀ j ∈ range (kold + 1), diffP (wLoop co.alpha kold ((t - ox) / (x - ox)) (kold - 1) 0
      (fun q => (t - ox) / (x - ox) * (((t - ox) / (x - ox)) ^ (q + 1) * iqq q),
       Function.update (Function.update g 0 ((t - ox) / (x - ox))) 1 (1 / 2 * ((t - ox) / (x - ox)) * ((t - ox) / (x - ox))))).2 j
      = diffP (denseWG co.alpha kold ((t - ox) / (x - ox))).2 j := by
    intro j hj
    have hj := mem_range.1 hj
    unfold diffP denseWG
    rw [hg j (by omega), hg 0 (by omega), hg (j - 1) (by omega)]
  funext i
  unfold swPoint swDense swSigma
  dsimp only
  rw [hw]
  simp only [Pi.add_apply, Pi.smul_apply, Finset.sum_apply, smul_eq_mul]
  congr 2
  apply Finset.sum_congr rfl
  intro j hj
  rw [hd j hj]
  unfold denseWG
  ring

theorem swPoints_spec (co : Coef K) (phi : ℕ → Fin n → K) {kold : ℕ} (hk : 1 ≤ kold) (ox x : K) (oy y : Fin n → K) (ts : Fin m → K) :
    ∀ (l : List (Fin m)) (out : Fin n → Fin m → K) (g : ℕ → K) (i : Fin n) (j : Fin m),
      (j ∈ l → swPoints co phi kold ox x oy y ts l out g i j = swDense co phi kold ox x oy y (ts j) i) ∧
      (j ∉ l → swPoints co phi kold ox x oy y ts l out g i j = out i j)
  | [], out, g, i, j => ⟨(fun h => by cases h), fun _ => rfl⟩
  | it :: r, out, g, i, j => by
    unfold swPoints
    dsimp only
    obtain ⟨h1, h2⟩ := swPoints_spec co phi hk ox x oy y ts r
      (fun i => Function.update (out i) it ((swPoint co phi kold ox x oy y g (ts it)).1 i))
      (swPoint co phi kold ox x oy y g (ts it)).2 i j
    by_cases hj : j ∈ r
    · exact ⟨fun _ => h1 hj, fun h => absurd (List.mem_cons_of_mem _ hj) h⟩
    · rw [h2 hj]
      by_cases e : j = it
      · subst e
        exact ⟨fun _ => by rw [Function.update_self, swPoint_eq co phi hk], fun h => absurd List.mem_cons_self h⟩
      · exact ⟨fun h => absurd h (by simp [e, hj]), fun _ => Function.update_of_ne e _ _⟩

/-- The interpolant of `SWAG` (order at least one), whatever the new arrays contained. -/
theorem C102_swag (co : Coef K) (phi : ℕ → Fin n → K) {kold : ℕ} (hk : 1 ≤ kold) (ox x : K) (oy y : Fin n → K) (g₀ : ℕ → K)
    (out₀ : (a : TArg K) → Fin n → Fin a.size → K) :
    Vectorised (fun a => swDenseCall co phi kold ox x oy y g₀ a (out₀ a)) (swDense co phi kold ox x oy y) := by
  apply vectorised_of
  intro a
  unfold swDenseCall
  congr 1
  funext i j
  exact (swPoints_spec co phi hk ox x oy y a.entries (List.finRange a.size) (out₀ a) g₀ i j).1 (List.mem_finRange j)

end

/-- Two times, two components: a cubic polynomial is reproduced in both columns. -/
example : cubicCall (n := 2) (0 : ℚ) 2 ![0, 1] ![8, 5] ![0, 2] ![12, 2] (.array 2 ![1, 1 / 2]) = .states 2 ![![1, 1 / 8], ![3, 2]] := by
  rw [(C102_cubic _ _ _ _ _ _).2]
  congr 1
  funext i j
  fin_cases i <;> fin_cases j <;> norm_num [cubic]

end Extensisq
