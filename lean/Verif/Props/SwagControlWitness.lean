import Verif.Props.SwagWork
import Verif.Props.SwagMeshWitness
import Mathlib.Tactic.IntervalCases
import Mathlib.Algebra.BigOperators.Intervals

/-!
# SWAG: the table of error constants, and concrete runs for C82, C83 and C84
-/

set_option maxRecDepth 100000

namespace Extensisq
open Finset

/-- **C82.** The table `gstr` contains, rounded to three significant digits, the error constants `γ_i - γ_{i+1}` of the
Adams-Moulton formulas, where the Adams-Bashforth constants `γ` are given by `∑_{m ≤ i} γ_m / (i + 1 - m) = 1`. -/
theorem C82_gstr (g : ℕ → ℚ) (hg : ∀ i ≤ 13, ∑ m ∈ range (i + 1), g m / ((i : ℚ) + 1 - m) = 1) (i : ℕ) (hi : i ≤ 12) :
    |gstrQ i - (g i - g (i + 1))| ≤ if i ≤ 6 then 1 / 20000 else 1 / 200000 := by
  have h0 := hg 0 (by omega)
  have h1 := hg 1 (by omega)
  have h2 := hg 2 (by omega)
  have h3 := hg 3 (by omega)
  have h4 := hg 4 (by omega)
  have h5 := hg 5 (by omega)
  have h6 := hg 6 (by omega)
  have h7 := hg 7 (by omega)
  have h8 := hg 8 (by omega)
  have h9 := hg 9 (by omega)
  have h10 := hg 10 (by omega)
  have h11 := hg 11 (by omega)
  have h12 := hg 12 (by omega)
  have h13 := hg 13 (by omega)
  clear hg
  norm_num [sum_range_succ] at h0 h1 h2 h3 h4 h5 h6 h7 h8 h9 h10 h11 h12 h13
  have e0 : g 0 = 1 := by linarith
  have e1 : g 1 = 1 / 2 := by linarith
  have e2 : g 2 = 5 / 12 := by linarith
  have e3 : g 3 = 3 / 8 := by linarith
  have e4 : g 4 = 251 / 720 := by linarith
  have e5 : g 5 = 95 / 288 := by linarith
  have e6 : g 6 = 19087 / 60480 := by linarith
  have e7 : g 7 = 5257 / 17280 := by linarith
  have e8 : g 8 = 1070017 / 3628800 := by linarith
  have e9 : g 9 = 25713 / 89600 := by linarith
  have e10 : g 10 = 26842253 / 95800320 := by linarith
  have e11 : g 11 = 4777223 / 17418240 := by linarith
  have e12 : g 12 = 703604254357 / 2615348736000 := by linarith
  have e13 : g 13 = 106364763817 / 402361344000 := by linarith
  clear h0 h1 h2 h3 h4 h5 h6 h7 h8 h9 h10 h11 h12 h13
  interval_cases i <;>
    norm_num [gstrQ, e0, e1, e2, e3, e4, e5, e6, e7, e8, e9, e10, e11, e12, e13, abs_le]

theorem cA_homog : Homog cA := by
  intro p y x a ha
  show ENorm.num (10 * |a * x|) = ENorm.num (|a| * (10 * |x|))
  rw [abs_mul]
  congr 1
  ring

/-- The third step of the run `cA` (of order 3) satisfies the hypotheses of `C82_step`. -/
example : ∃ (w w' : SwSolver ℚ ℚ) (p yl : ℚ), w'.st.kold = 3 ∧ IsPrediction w.st w'.st.t 3 p ∧
    IsCorrection w.st w'.st.t 2 (w'.st.t - p) yl ∧ IsCorrection w.st w'.st.t 3 (w'.st.t - p) w'.st.y ∧
    10 * |w'.st.y - yl| ≤ 1 := by
  obtain ⟨w, w', hr, hs, hb, h, hk, hd⟩ := caseA
  obtain ⟨p, yl, h1, h2, h3, h4⟩ := C82_step cA_ok cA_homog (by norm_num [cA, swQ]) (fun _ hb => cA_dir hb) hr hs hb h
    (by omega) hd
  rw [hk] at h1 h2 h3
  refine ⟨w, w', p, yl, hk, h1, h2, h3, ?_⟩
  simpa [cA, swQ, ENorm.leE] using h4

/-! ## Constant steps -/

/-- `y' = t^6` with `max_step = 1`: after two doublings all steps have this size. -/
def cP : SwCfg ℚ ℚ :=
  { swQ (fun t _ => t ^ 6) (fun x => .num (|x| / 1000000000)) with tb := some 100, maxStep := some 1 }
def vP : SwSolver ℚ ℚ := newSwag 1 1 1 (1 / 4) (fun _ => .num 0) 0 emptyCo 1

theorem cP_ok : SwOK cP where
  dir := Or.inl rfl
  fouru := by norm_num [cP, swQ]
  maxStep := by intro m h; cases h; norm_num
  sqrt_pos := fun x h => h
  sqrt_zero := rfl
  sqrt_half := fun x _ h => by show x ≤ 1 / 2; linarith
  kMax := by norm_num [cP, swQ]

theorem cP_homog : Homog cP := by
  intro p y x a ha
  show ENorm.num (|a * x| / 1000000000) = ENorm.num (|a| * (|x| / 1000000000))
  rw [abs_mul]
  congr 1
  ring

def stP (n : ℕ) : SwSolver ℚ ℚ := (swRunQ cP n vP).getD vP

def okP (n : ℕ) : Bool := match swStep cP 8 (stP n) with
  | some (.ok, w) => decide (w.status = .running) && decide (w.st.kold = 4) && decide (w.st.ns = 5)
  | _ => false

/-- The eighth step has order 4 and follows four of the same size: the hypotheses of `C83_selection` and
`C83_constant` hold, with the step size constant. -/
theorem caseP : ∃ w w' : SwSolver ℚ ℚ, SwReach cP vP w ∧ w.status = .running ∧ cP.tb ≠ some w.st.t ∧
    swStep cP 8 w = some (.ok, w') ∧ w'.st.kold = 4 ∧ w'.st.ns = 5 ∧ Distinct w'.st := by
  have h1 : (swRunQ cP 6 vP).isSome = true := by decide +kernel
  obtain ⟨w, hw⟩ := Option.isSome_iff_exists.mp h1
  have hwA : stP 6 = w := by rw [stP, hw]; rfl
  have hst : (stP 6).status = .running := by decide +kernel
  have hne : cP.tb ≠ some (stP 6).st.t := by decide +kernel
  have h2 : okP 6 = true := by decide +kernel
  unfold okP at h2
  split at h2
  · rename_i w' hw'
    simp only [Bool.and_eq_true, decide_eq_true_eq] at h2
    rw [hwA] at hst hne hw'
    have hr := swRunQ_reach _ _ _ _ hw
    exact ⟨w, w', hr, hst, hne, hw', h2.1.2, h2.2,
      C46_distinct_times cP_ok (by intro p y x h; cases h) (by norm_num [cP, swQ])
        (fun _ hb => by cases hb; norm_num [cP, swQ]) (hr.tail hw') h2.1.1⟩
  · cases h2

/-- The last six points of that run are equidistant. -/
example : ∃ (w w' : SwSolver ℚ ℚ), w'.st.kold = 4 ∧
    (∀ i ≤ 4, hx w'.st.hist i - hx w'.st.hist (i + 1) = w'.st.t - w.st.t) := by
  obtain ⟨w, w', hr, hs, hb, h, hk, hn, hd⟩ := caseP
  obtain ⟨p, _, h2, _⟩ := C83_selection cP_ok cP_homog (by norm_num [cP, swQ])
    (fun _ hb => by cases hb; norm_num [cP, swQ]) hr hs hb h (by omega) hd
  rw [hk, hn] at h2
  exact ⟨w, w', hk, h2 (by omega)⟩

/-! ## Failures -/

theorem cJ_ok : SwOK cJ := swQ_ok _ _

def stJ (n : ℕ) : SwSolver ℚ ℚ := (swRunQ cJ n vJ).getD vJ

/-- The fourth step of the run with a jump has four failed attempts: six evaluations; it ends with order one. -/
example : ((stJ 3).st.nfs, (stJ 3).st.nfev, (stJ 4).st.nfs, (stJ 4).st.nfev, (stJ 4).st.kold) = (0, 7, 4, 13, 1) := by
  decide +kernel

/-- The start phase of that run. -/
example : (stJ 3).st.phase1 = true ∧ (stJ 3).st.k = 4 ∧ (stJ 3).st.h = 2 ∧ (stJ 4).st.phase1 = false := by
  decide +kernel

/-- Whether the steps `0, ..., n - 1` of the run `cP` start running, before the end and with a last order of at most four. -/
def lowP : ℕ → Bool
  | 0 => true
  | n + 1 => lowP n && decide ((stP n).status = .running) && decide (cP.tb ≠ some (stP n).st.t) &&
      decide ((stP n).st.kold ≤ 4) && (swRunQ cP (n + 1) vP).isSome

theorem lowP_run : ∀ n, lowP n = true → LowRun cP n vP (stP n)
  | 0, _ => .refl _
  | n + 1, h => by
    simp only [lowP, Bool.and_eq_true, decide_eq_true_eq] at h
    obtain ⟨⟨⟨⟨h1, h2⟩, h3⟩, h4⟩, h5⟩ := h
    obtain ⟨w, hw⟩ := Option.isSome_iff_exists.mp h5
    have e : stP (n + 1) = w := by rw [stP, hw]; rfl
    rw [e]
    have ih := lowP_run n h1
    simp only [swRunQ] at hw
    split at hw
    · rename_i w1 hw1
      have e1 : stP n = w1 := by rw [stP, hw1]; rfl
      split at hw
      · rename_i w2 hw2
        cases hw
        rw [e1] at ih h2 h3 h4
        exact .tail ih h2 h3 h4 hw2
      · cases hw
    · cases hw

/-- With `k_max = 4` all steps have an order of at most four: the hypothesis of `C84_warnings` holds for a run. -/
example : LowRun cP 7 vP (stP 7) := lowP_run 7 (by decide +kernel)

/-- A solver close to the end of the interval: the step is extrapolated. -/
example : ((swStep cJ 8 { vJ with st := { vJ.st with t := 10 - 1 / 1000000 } }).map
    fun x => (x.2.st.t, x.2.st.y, x.2.st.kold, x.2.st.nfev)) = some (10, 1 + 1 / 1000000, 0, 1) := by decide +kernel

/-- A solver with a planned step that is too small. -/
example : ((swStep cJ 8 { vJ with st := { vJ.st with h := 1 / 10000000 } }).map
    fun x => (x.1, x.2.status)) = some (.tooSmall, .failed) := by decide +kernel

end Extensisq
