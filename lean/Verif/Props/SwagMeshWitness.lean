import Verif.Props.SwagDense
import Verif.Props.SwagWitness

/-!
# SWAG: concrete runs for C47, C48 and C77
-/

set_option maxRecDepth 100000

namespace Extensisq
open Polynomial

/-- The runs of `cA` (with `max_step = 3`, `t_bound = 10`) never meet an infinite norm. -/
theorem cA_fin (p y x : ℚ) : cA.scale p y x ≠ .inf := by
  intro h; cases h

theorem cA_dir {b : ℚ} (h : cA.tb = some b) : 0 ≤ cA.dir * (b - 1) := by
  cases h; norm_num [cA, swQ]

theorem cA_ok : SwOK cA := swQ_ok _ _

/-- All times of those runs are distinct, so that the theorems of `SwagMesh` and `SwagDense` apply. -/
theorem cA_distinct {n : ℕ} {w : SwSolver ℚ ℚ} (h : swRunQ cA n vA = some w) (hs : w.status = .running) :
    Distinct w.st :=
  C46_distinct_times cA_ok cA_fin (by norm_num [cA, swQ]) (fun _ hb => cA_dir hb) (swRunQ_reach _ _ _ _ h) hs

/-- The state after `n` steps, if the run gets there. -/
def stA (n : ℕ) : SwSolver ℚ ℚ := (swRunQ cA n vA).getD vA

def histA (n : ℕ) : List (ℚ × ℚ) := (stA n).st.hist

/-- The mesh of that run is not uniform. -/
example : (histA 3).map Prod.fst = [11 / 4, 7 / 4, 5 / 4, 1] := by decide +kernel

/-- Whether the run with `n` steps is still running. -/
def runsA (n : ℕ) : Bool := (swRunQ cA n vA).isSome && decide ((stA n).status = .running)

def okA (n : ℕ) : Bool := match swStep cA 8 (stA n) with
  | some (.ok, w) => decide (w.status = .running) && decide (w.st.kold = 3) && decide (w.st.t = (stA (n + 1)).st.t)
  | _ => false

example : okA 2 = true := by decide +kernel

/-- The third step (order 3) satisfies the hypotheses of the theorems on the formulas and on the interpolant. -/
theorem caseA : ∃ w w' : SwSolver ℚ ℚ, SwReach cA vA w ∧ w.status = .running ∧ cA.tb ≠ some w.st.t ∧
    swStep cA 8 w = some (.ok, w') ∧ w'.st.kold = 3 ∧ Distinct w'.st := by
  have h1 : (swRunQ cA 2 vA).isSome = true := by decide +kernel
  obtain ⟨w, hw⟩ := Option.isSome_iff_exists.mp h1
  have hwA : stA 2 = w := by rw [stA, hw]; rfl
  have hst : (stA 2).status = .running := by decide +kernel
  have hne : cA.tb ≠ some (stA 2).st.t := by decide +kernel
  have h2 : okA 2 = true := by decide +kernel
  unfold okA at h2
  split at h2
  · rename_i w' hw'
    simp only [Bool.and_eq_true, decide_eq_true_eq] at h2
    rw [hwA] at hst hne hw'
    have hr := swRunQ_reach _ _ _ _ hw
    exact ⟨w, w', hr, hst, hne, hw', h2.1.2,
      C46_distinct_times cA_ok cA_fin (by norm_num [cA, swQ]) (fun _ hb => cA_dir hb) (hr.tail hw') h2.1.1⟩
  · cases h2

example : ∃ (D : ℚ[X]) (w w' : SwSolver ℚ ℚ), D.natDegree ≤ 5 ∧ (∀ x, swOutput w.st.t w'.st x = D.eval x) ∧
    D.eval w.st.t = w.st.y ∧ D.eval w'.st.t = w'.st.y := by
  obtain ⟨w, w', hr, hs, hb, h, hk, hd⟩ := caseA
  obtain ⟨D, d1, d2, d3, d4, _⟩ := C48_polynomial cA_ok (by norm_num [cA, swQ]) (fun _ hb => cA_dir hb) hr hs hb h
    (by omega) hd LinearMap.id
  rw [hk] at d1
  exact ⟨D, w, w', d1, d2, d3, d4⟩

/-- The values of the dense output of that step in some points: it is not a line. -/
def denseA (x : ℚ) : ℚ := swOutput (stA 2).st.t (stA 3).st x

example : denseA (7 / 4) = (stA 2).st.y ∧ denseA (11 / 4) = (stA 3).st.y := by decide +kernel
example : denseA (9 / 4) ≠ (denseA (7 / 4) + denseA (11 / 4)) / 2 := by decide +kernel

end Extensisq
