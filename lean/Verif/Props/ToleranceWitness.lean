import Verif.Props.ToleranceConvergence
import Verif.Props.CompletesWitness

/-!
# C112: cases which meet the hypotheses

The error estimates of all rational methods have their generic order on `y' = -y`, and runs to the end exist for every tolerance.
-/

set_option linter.unusedSectionVars false

namespace Extensisq
open scoped ContDiff
open Finset Asymptotics Filter Topology

/-- Coefficients of the stages of an explicit scheme on `y' = λ y`: stage `i` is `λ u Σ_m linCoef i m (λ h)^m`. -/
def linCoef (A : ℕ → ℕ → ℚ) : ℕ → ℕ → ℚ
  | _, 0 => 1
  | i, m + 1 => ∑ j ∈ range i, A i j * linCoef A j m

theorem linCoef_zero (A : ℕ → ℕ → ℚ) : ∀ m i, i < m → linCoef A i m = 0
  | 0, _, h => by omega
  | m + 1, i, h => by
    rw [linCoef]
    refine sum_eq_zero fun j hj => ?_
    rw [linCoef_zero A m j (by rw [mem_range] at hj; omega), mul_zero]

/-- The stages of a scheme on `y' = -y`. -/
theorem exStage_decay {A : ℕ → ℕ → ℝ} {A' : ℕ → ℕ → ℚ} (c : ℕ → ℝ) {n : ℕ} (hA : ∀ i ≤ n, ∀ j, A i j = (A' i j : ℝ)) (t u h : ℝ) :
    ∀ i, i ≤ n → exStage A c (fun _ u => -u) i (t, u, h) = -u * ∑ m ∈ range (n + 1), (linCoef A' i m : ℝ) * (-h) ^ m := by
  intro i
  induction i using Nat.strong_induction_on with
  | _ i ih =>
    intro hi
    rw [exStage_eq]
    have e1 : ∑ j ∈ range i, A i j • exStage A c (fun _ u => -u) j (t, u, h) =
        -u * ∑ m ∈ range n, (linCoef A' i (m + 1) : ℝ) * (-h) ^ m := by
      have e2 : ∀ j ∈ range i, A i j • exStage A c (fun _ u => -u) j (t, u, h) =
          -u * ∑ m ∈ range n, (A' i j : ℝ) * (linCoef A' j m : ℝ) * (-h) ^ m := by
        intro j hj
        rw [mem_range] at hj
        rw [ih j hj (by omega), hA i hi j, smul_eq_mul, sum_range_succ, linCoef_zero A' n j (by omega), mul_left_comm]
        congr 1
        rw [Rat.cast_zero, zero_mul, add_zero, mul_sum]
        exact sum_congr rfl fun m _ => by ring
      rw [sum_congr rfl e2, ← mul_sum, sum_comm]
      congr 1
      refine sum_congr rfl fun m _ => ?_
      rw [linCoef, ← sum_mul]
      push_cast
      rfl
    dsimp only
    rw [e1, sum_range_succ', pow_zero, mul_one, linCoef, smul_eq_mul]
    have e3 : ∑ m ∈ range n, (linCoef A' i (m + 1) : ℝ) * (-h) ^ (m + 1) = -h * ∑ m ∈ range n, (linCoef A' i (m + 1) : ℝ) * (-h) ^ m := by
      rw [mul_sum]
      exact sum_congr rfl fun m _ => by ring
    rw [e3]
    push_cast
    ring

/-- The completed matrix, rational. -/
def compAQ (R : RKTable) (i j : ℕ) : ℚ := if i < R.s then (R.A.getD i []).getD j 0 else R.B.getD j 0

/-- The coefficients of the error estimate on `y' = λ y`. -/
def estCoef (R : RKTable) (m : ℕ) : ℚ := ∑ i ∈ range (R.s + 1), R.E.getD i 0 * linCoef (compAQ R) i m

theorem estCoef_order : ∀ R ∈ rationalRK, (∀ m ∈ range R.orderSec, estCoef R m = 0) ∧ (R.orderSec ≠ 3 → estCoef R R.orderSec ≠ 0) ∧ R.orderSec ≤ R.s := by
  decide +kernel

/-- A function `h^n G(h)` with `G` continuous and not zero at zero is not of smaller order than `h^n`. -/
theorem not_isLittleO_of_factor {n : ℕ} {g G : ℝ → ℝ} (he : ∀ h, g h = h ^ n * G h) (hG : ContinuousAt G 0) (h0 : G 0 ≠ 0) :
    ¬ g =o[𝓝 0] fun h : ℝ => h ^ n := by
  intro hs
  have h1 : Tendsto (fun h => g h / h ^ n) (𝓝[≠] 0) (𝓝 0) := (hs.mono nhdsWithin_le_nhds).tendsto_div_nhds_zero
  have h2 : Tendsto (fun h => g h / h ^ n) (𝓝[≠] 0) (𝓝 (G 0)) := by
    refine (hG.tendsto.mono_left nhdsWithin_le_nhds).congr' ?_
    filter_upwards [self_mem_nhdsWithin] with h hh
    have : h ^ n ≠ 0 := pow_ne_zero n hh
    rw [he]
    field_simp
  exact h0 (tendsto_nhds_unique h2 h1)

/-- All rational methods but `Me4` (whose estimate is of higher order on linear problems) have an estimate of generic order on `y' = -y`. -/
theorem decay_generic (R : RKTable) (hR : R ∈ rationalRK) (h3 : R.orderSec ≠ 3) :
    EstimateGeneric (R.tab ℝ) R.orderSec (fun _ u => -u) (fun t => Real.exp (-t)) 0 1 := by
  intro t _ k yNew hk
  obtain ⟨hz, hn, hle⟩ := estCoef_order R hR
  have hst : ∀ h, errorEstimate (R.tab ℝ) h (k h) = h ^ (R.orderSec + 1) * (-Real.exp (-t) * (-1) ^ R.orderSec *
      ∑ m ∈ range (R.s + 1 - R.orderSec), (estCoef R (R.orderSec + m) : ℝ) * (-h) ^ m) := by
    intro h
    have e1 : ∀ i ∈ range (R.s + 1), (R.tab ℝ).E i • k h i =
        -Real.exp (-t) * ∑ m ∈ range (R.s + 1), ((R.E.getD i 0 * linCoef (compAQ R) i m : ℚ) : ℝ) * (-h) ^ m := by
      intro i hi
      rw [mem_range] at hi
      have hi' : i ≤ (R.tab ℝ).s := by show i ≤ R.s; omega
      rw [(hk h).stages_eq i hi', exStage_decay (A' := compAQ R) (n := R.s) (compC (R.tab ℝ)) (by
        intro i _ j
        unfold compA compAQ
        show (if i < R.s then _ else _) = _
        split_ifs <;> rfl) _ _ _ i hi', smul_eq_mul, mul_left_comm]
      congr 1
      rw [mul_sum]
      refine sum_congr rfl fun m _ => ?_
      show ((R.E.getD i 0 : ℚ) : ℝ) * _ = _
      push_cast
      ring
    have e2 : errorEstimate (R.tab ℝ) h (k h) = h * (-Real.exp (-t) * ∑ m ∈ range (R.s + 1), (estCoef R m : ℝ) * (-h) ^ m) := by
      unfold errorEstimate
      show h • ∑ i ∈ range (R.s + 1), _ = _
      rw [sum_congr rfl e1, ← mul_sum, sum_comm, smul_eq_mul]
      congr 2
      refine sum_congr rfl fun m _ => ?_
      rw [estCoef, ← sum_mul]
      push_cast
      rfl
    have e3 : R.s + 1 = R.orderSec + (R.s + 1 - R.orderSec) := by omega
    have e4 : ∑ m ∈ range R.orderSec, (estCoef R m : ℝ) * (-h) ^ m = 0 :=
      sum_eq_zero fun m hm => by rw [hz m hm, Rat.cast_zero, zero_mul]
    rw [e2, e3, sum_range_add, e4, zero_add, Nat.add_sub_cancel_left]
    have e5 : ∀ m ∈ range (R.s + 1 - R.orderSec), (estCoef R (R.orderSec + m) : ℝ) * (-h) ^ (R.orderSec + m) =
        (-1) ^ R.orderSec * h ^ R.orderSec * ((estCoef R (R.orderSec + m) : ℝ) * (-h) ^ m) := by
      intro m _
      rw [pow_add, neg_pow h R.orderSec]
      ring
    rw [sum_congr rfl e5, ← mul_sum]
    ring
  refine not_isLittleO_of_factor hst (by fun_prop) ?_
  have e6 : R.s + 1 - R.orderSec = (R.s - R.orderSec) + 1 := by omega
  rw [e6, sum_range_succ']
  have e7 : ∑ m ∈ range (R.s - R.orderSec), (estCoef R (R.orderSec + (m + 1)) : ℝ) * (-0) ^ (m + 1) = 0 :=
    sum_eq_zero fun m _ => by rw [neg_zero, zero_pow (by omega), mul_zero]
  rw [e7]
  have h4 : (estCoef R R.orderSec : ℝ) ≠ 0 := by exact_mod_cast hn h3
  simpa using h4

/-- The moments of the error weights. -/
def estMoment (R : RKTable) (m : ℕ) : ℚ := ∑ i ∈ range (R.s + 1), R.E.getD i 0 * (if i < R.s then R.C.getD i 0 else 1) ^ m

theorem estMoment_order : ∀ R ∈ rationalRK, (∀ m ∈ range R.orderSec, estMoment R m = 0) ∧ estMoment R R.orderSec ≠ 0 := by decide +kernel

/-- All rational methods have an estimate of generic order on the quadrature `y' = t^order_secondary`. -/
theorem quadrature_generic (R : RKTable) (hR : R ∈ rationalRK) (y : ℝ → ℝ) (t0 b : ℝ) :
    EstimateGeneric (R.tab ℝ) R.orderSec (fun t _ => t ^ R.orderSec) y t0 b := by
  intro t _ k yNew hk
  obtain ⟨hz, hn⟩ := estMoment_order R hR
  refine not_isLittleO_of_factor (G := fun _ => (estMoment R R.orderSec : ℝ)) (fun h => ?_) continuousAt_const (by exact_mod_cast hn)
  have e1 : ∀ i ∈ range (R.s + 1), (R.tab ℝ).E i • k h i =
      ∑ m ∈ range (R.orderSec + 1), (((R.E.getD i 0 * (if i < R.s then R.C.getD i 0 else 1) ^ m : ℚ)) : ℝ) *
        (h ^ m * t ^ (R.orderSec - m) * (R.orderSec.choose m : ℝ)) := by
    intro i hi
    rw [mem_range] at hi
    have hi' : i ≤ (R.tab ℝ).s := by show i ≤ R.s; omega
    have hc : compC (R.tab ℝ) i = (((if i < R.s then R.C.getD i 0 else 1 : ℚ)) : ℝ) := by
      unfold compC
      show (if i < R.s then ((R.C.getD i 0 : ℚ) : ℝ) else 1) = _
      split_ifs <;> simp
    rw [(hk h).stages_eq i hi', exStage_eq, smul_eq_mul]
    dsimp only
    rw [hc, add_comm t, add_pow, mul_sum]
    refine sum_congr rfl fun m _ => ?_
    show ((R.E.getD i 0 : ℚ) : ℝ) * _ = _
    rw [mul_pow]
    push_cast
    ring
  unfold errorEstimate
  show h • ∑ i ∈ range (R.s + 1), _ = _
  rw [sum_congr rfl e1, sum_comm, smul_eq_mul, sum_range_succ]
  have e2 : ∀ m, ∑ i ∈ range (R.s + 1), (((R.E.getD i 0 * (if i < R.s then R.C.getD i 0 else 1) ^ m : ℚ)) : ℝ) *
        (h ^ m * t ^ (R.orderSec - m) * (R.orderSec.choose m : ℝ)) = (estMoment R m : ℝ) * (h ^ m * t ^ (R.orderSec - m) * (R.orderSec.choose m : ℝ)) := by
    intro m
    rw [← sum_mul, estMoment]
    push_cast
    rfl
  rw [e2, sum_eq_zero (fun m hm => by rw [e2, hz m hm, Rat.cast_zero, zero_mul]), zero_add, Nat.sub_self, pow_zero, Nat.choose_self]
  push_cast
  ring

/-- Options for `y' = -y` on `[0, 1]` with the error norm `|e| / tol` and `max_step = H`. -/
noncomputable def exCfgTol (R : RKTable) (tol H : ℝ) : Cfg ℝ ℝ ℝ :=
  { easyCfg (rkMethod (R.tab ℝ) (fun _ u => -u) (fun _ _ e => .num (|e| / tol))) 0 1 H with
    hMinA := 0, hMinB := H / 4, errExp := -1 / 5, minbeta1 := -7 / 50, minbeta2 := 4 / 50, minalpha := -1 / 4 }

theorem exCfgTol_ok (R : RKTable) (tol : ℝ) {H : ℝ} (hH : 0 < H) : CfgOK (exCfgTol R tol H) where
  dir := direction_cases 0 1
  hMinA := le_rfl
  hMinB := by show 0 < H / 4; positivity
  tiny := by norm_num [exCfgTol, easyCfg]
  minF0 := by norm_num [exCfgTol, easyCfg]
  minF1 := by norm_num [exCfgTol, easyCfg]
  errExp := by norm_num [exCfgTol, easyCfg]
  safety0 := by norm_num [exCfgTol, easyCfg]
  safety1 := by norm_num [exCfgTol, easyCfg]
  safetySc := by norm_num [exCfgTol, easyCfg]
  pw := PowOK.rpow
  maxStep := fun m h => by
    have : H = m := Option.some.inj h
    exact this ▸ hH

/-- A loop over `step()` makes a history. -/
theorem WhileRunning.reach {K V W : Type*} [Field K] [LinearOrder K] [IsStrictOrderedRing K] {c : Cfg K V W} {v0 : Solver K V W} :
    ∀ {v n r w}, WhileRunning (step c) (fun v => v.status = .running) Out.raised v n r w → Reach c v0 v → Reach c v0 w := by
  intro v n r w hw
  induction hw with
  | stop _ => exact id
  | raise _ h2 _ => exact fun hi => .tail hi h2
  | next _ h2 _ _ ih => exact fun hi => ih (.tail hi h2)

/-- **C112** applied: for every tolerance there is a run of the method on `y' = -y` up to `t = 1` which meets all hypotheses; its error is at most
`C tol^(order/(order_secondary+1))` with one constant for all tolerances. -/
theorem C112_decay (R : RKTable) (hR : R ∈ rationalRK) (h3 : R.orderSec ≠ 3) : ∃ C : ℝ, ∀ tol : ℝ, 0 < tol →
    ∃ H k w, WhileRunning (step (exCfgTol R tol H)) (fun v => v.status = .running) Out.raised (newSolver (exCfgTol R tol H) 0 1 (H / 2) 1 (fun _ => 0)) k none w ∧
      w.status = .finished ∧ w.st.t = 1 ∧ |w.st.y - Real.exp (-1)| ≤ C * tol ^ (R.order / (R.orderSec + 1 : ℝ)) := by
  obtain ⟨C, hs, c1, c2, c3⟩ := C112_max_step R hR exDecay_solves (decay_generic R hR h3) (A := 1) (B := 2) zero_le_one (by
    intro t ht
    rw [Set.uIcc_of_le zero_le_one] at ht
    have : Real.exp (-t) ≤ 1 := Real.exp_le_one_iff.mpr (by linarith [ht.1])
    rw [Real.norm_eq_abs, abs_of_pos (Real.exp_pos _)]
    linarith)
  refine ⟨C, fun tol htol => ?_⟩
  obtain ⟨θ, Rf, hθ, hg⟩ := C111_controller_grows (E := ℝ) (W := ℝ) (9 / 10) (9 / 10) (-1 / 5) (-7 / 50) (4 / 50) (-1 / 4) (1 / 10 ^ 100)
    (by norm_num) (by norm_num) (by norm_num) (by norm_num) (by norm_num)
  obtain ⟨C', hstar, h1, h2, h3⟩ := C111_finishes R hR exDecay_solves (M := 1 / tol) (θ := θ) (Rf := Rf) (by positivity) hθ
  set H := min (min hstar hs) 1 with hHdef
  have hH0 : 0 < H := by positivity
  have hH1 : H ≤ 1 := min_le_right _ _
  have hdir : (exCfgTol R tol H).dir = 1 := by
    show direction (0 : ℝ) 1 = 1
    unfold direction
    norm_num
  have hη : min (H / 2) (min H |(1 : ℝ) - 0|) = H / 2 := by
    rw [sub_zero, abs_one, min_eq_left hH1, min_eq_left (by linarith)]
  have key := h3 (exCfgTol R tol H) (fun _ _ e => .num (|e| / tol)) PreTest.none (H / 2) H 1 (fun _ => 0) (exCfgTol_ok R tol hH0)
    (by norm_num [exCfgTol, easyCfg])
    (Or.inl rfl) rfl (fun _ _ e => ⟨|e| / tol, rfl, by rw [Real.norm_eq_abs]; exact (by ring : |e| / tol = 1 / tol * |e|).le⟩)
    (fun h => by cases h) (hg _ rfl rfl rfl rfl rfl rfl rfl rfl) rfl
    (by rw [hdir]; norm_num) rfl ((min_le_left _ _).trans (min_le_left _ _))
    (by rw [hη]; show H / 4 ≤ H / 2 / 2; linarith)
    (by
      rw [hη]
      show (0 : ℝ) * _ ≤ H / 2 / 2
      rw [zero_mul]
      positivity)
  simp only [neg_zero, Real.exp_zero] at key
  obtain ⟨⟨k, w, hw⟩, key⟩ := key
  obtain ⟨-, q1, q2, -, q3, -⟩ := key k none w hw
  refine ⟨H, k, w, hw, q1, q2, ?_⟩
  have := c3 (exCfgTol R tol H) (fun _ _ e => .num (|e| / tol)) PreTest.none (H / 2) H tol 1 (fun _ => 0) w (exCfgTol_ok R tol hH0) rfl rfl
    (by rw [hdir]; norm_num) rfl ((min_le_left _ _).trans (min_le_right _ _))
    (fun v _ m hm => by
      have : H = m := Option.some.inj hm
      subst this
      show max ((0 : ℝ) * _) (H / 4) ≤ H
      rw [zero_mul]
      exact max_le hH0.le (by linarith))
    htol.le (fun _ _ e x _ _ hx hx1 => by
      have hx : |e| / tol = x := by injection hx
      rw [← hx, div_lt_one htol] at hx1
      rw [one_mul, Real.norm_eq_abs]
      exact hx1.le)
    (by simp only [neg_zero, Real.exp_zero]; exact hw.reach .refl)
  have := this.1
  rw [q2] at this
  exact this

/-- The methods to which it applies, and one problem for the remaining one. -/
example : (∀ R ∈ [CK5, BS5, CFMR7osc, Pr7], R ∈ rationalRK ∧ R.orderSec ≠ 3) ∧ Me4 ∈ rationalRK ∧
    SolvesOn (fun (t : ℝ) (_ : ℝ) => t ^ Me4.orderSec) (fun t => t ^ 4 / 4) 0 1 := by
  refine ⟨?_, by simp [rationalRK], ⟨fun _ _ => contDiffAt_fst.pow _, fun _ _ => Eventually.of_forall fun s => ?_⟩⟩
  · intro R hR
    simp only [List.mem_cons, List.not_mem_nil, or_false] at hR
    rcases hR with rfl | rfl | rfl | rfl <;> exact ⟨by simp [rationalRK], by decide⟩
  · have := (hasDerivAt_pow 4 s).div_const 4
    refine this.congr_deriv ?_
    show _ = s ^ 3
    push_cast
    ring

end Extensisq
