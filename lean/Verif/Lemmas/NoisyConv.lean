import Verif.Props.DecimalConvergence

/-!
# Explicit Runge-Kutta methods with inexact right-hand sides

One step with a right-hand side `g` that differs from `f` by at most `δ` near the solution differs from the step with `f` by
`O(δ |h|)`; accumulation along histories that start `e0` away from the solution.
-/

set_option linter.unusedSectionVars false

namespace Extensisq
open Finset Asymptotics Filter Topology

variable {E : Type*} [NormedAddCommGroup E] [NormedSpace ℝ E]

/-- The stages of the two right-hand sides differ by at most `2 δ`. -/
theorem noisy_stages {f g : ℝ → E → E} {t : ℝ} {x : E} {ρ L B : ℝ} (hL : 0 ≤ L) (hB : 0 ≤ B)
    (hf : ∀ z z' : ℝ × E, dist z (t, x) < ρ → dist z' (t, x) < ρ →
      ‖f z.1 z.2 - f z'.1 z'.2‖ ≤ L * dist z z' ∧ ‖f z.1 z.2‖ ≤ B)
    {n : ℕ} {A : ℕ → ℕ → ℝ} {c : ℕ → ℝ} {Γ δ κ : ℝ} (hδ : 0 ≤ δ) (hΓ : ∀ i, i < n → |c i| ≤ Γ) {h : ℝ} (h1 : |h| * Γ < ρ)
    (h2 : |h| * (rowSums n A * (B + 2 * δ)) ≤ κ) (hκ : κ < ρ / 2) (h3 : |h| * (2 * L * rowSums n A) ≤ 1) {u : E}
    (hu : ‖u - x‖ < ρ / 2)
    (hg : ∀ i, i < n → ∀ z, ‖z - u‖ ≤ κ → ‖g (t + c i * h) z - f (t + c i * h) z‖ ≤ δ) :
    ∀ i, i < n → ‖exStage A c f i (t, u, h)‖ ≤ B ∧
      ‖exStage A c g i (t, u, h) - exStage A c f i (t, u, h)‖ ≤ 2 * δ := by
  intro i
  induction i using Nat.strong_induction_on with
  | _ i ih =>
    intro hi
    have hr0 := rowSums_nonneg n A
    have hh0 := abs_nonneg h
    have hri := rowSums_ge A hi
    have bound : ∀ (k : ℕ → E) (M : ℝ), 0 ≤ M → (∀ j, j < i → ‖k j‖ ≤ M) →
        ‖h • ∑ j ∈ range i, A i j • k j‖ ≤ |h| * (rowSums n A * M) := by
      intro k M hM hk
      rw [norm_smul, Real.norm_eq_abs]
      refine mul_le_mul_of_nonneg_left ?_ hh0
      calc _ ≤ ∑ j ∈ range i, |A i j| * M := by
            refine (norm_sum_le _ _).trans (sum_le_sum fun j hj => ?_)
            rw [norm_smul, Real.norm_eq_abs]
            exact mul_le_mul_of_nonneg_left (hk j (mem_range.mp hj)) (abs_nonneg _)
        _ = (∑ j ∈ range i, |A i j|) * M := by rw [sum_mul]
        _ ≤ _ := mul_le_mul_of_nonneg_right hri hM
    have hF : ∀ j, j < i → ‖exStage A c f j (t, u, h)‖ ≤ B := fun j hj => (ih j hj (by omega)).1
    have hG : ∀ j, j < i → ‖exStage A c g j (t, u, h)‖ ≤ B + 2 * δ := by
      intro j hj
      obtain ⟨a, b⟩ := ih j hj (by omega)
      have := norm_add_le (exStage A c g j (t, u, h) - exStage A c f j (t, u, h)) (exStage A c f j (t, u, h))
      rw [sub_add_cancel] at this
      linarith
    set XF := u + h • ∑ j ∈ range i, A i j • exStage A c f j (t, u, h) with hXF
    set XG := u + h • ∑ j ∈ range i, A i j • exStage A c g j (t, u, h) with hXG
    have dF : ‖XF - u‖ ≤ κ := by
      rw [hXF, add_sub_cancel_left]
      refine (bound _ B hB hF).trans (le_trans ?_ h2)
      exact mul_le_mul_of_nonneg_left (mul_le_mul_of_nonneg_left (by linarith) hr0) hh0
    have dG : ‖XG - u‖ ≤ κ := by
      rw [hXG, add_sub_cancel_left]
      exact (bound _ (B + 2 * δ) (by linarith) hG).trans h2
    have tube : ∀ X, ‖X - u‖ ≤ κ → dist (t + c i * h, X) (t, x) < ρ := by
      intro X hX
      rw [Prod.dist_eq]
      refine max_lt ?_ ?_
      · rw [Real.dist_eq, add_sub_cancel_left, abs_mul]
        refine lt_of_le_of_lt ?_ h1
        rw [mul_comm]
        exact mul_le_mul_of_nonneg_left (hΓ i hi) hh0
      · rw [dist_eq_norm]
        have := norm_add_le (X - u) (u - x)
        rw [sub_add_sub_cancel] at this
        linarith
    obtain ⟨l1, l2⟩ := hf _ _ (tube XF dF) (tube XG dG)
    obtain ⟨l3, -⟩ := hf _ _ (tube XG dG) (tube XF dF)
    have eF : exStage A c f i (t, u, h) = f (t + c i * h) XF := by rw [exStage_eq]
    have eG : exStage A c g i (t, u, h) = g (t + c i * h) XG := by rw [exStage_eq]
    rw [eF, eG]
    refine ⟨l2, ?_⟩
    have hd : dist ((t + c i * h, XG) : ℝ × E) (t + c i * h, XF) ≤ |h| * (rowSums n A * (2 * δ)) := by
      rw [Prod.dist_eq]
      refine max_le ?_ ?_
      · rw [dist_self]; positivity
      · rw [dist_eq_norm, hXF, hXG, add_sub_add_left_eq_sub, ← smul_sub, ← sum_sub_distrib]
        simp only [← smul_sub]
        exact bound _ (2 * δ) (by linarith) fun j hj => (ih j hj (by omega)).2
    have h4 := hg i hi XG dG
    have h5 := norm_add_le (g (t + c i * h) XG - f (t + c i * h) XG) (f (t + c i * h) XG - f (t + c i * h) XF)
    rw [sub_add_sub_cancel] at h5
    have h6 : L * dist ((t + c i * h, XG) : ℝ × E) (t + c i * h, XF) ≤ L * (|h| * (rowSums n A * (2 * δ))) :=
      mul_le_mul_of_nonneg_left hd hL
    have h7 : L * (|h| * (rowSums n A * (2 * δ))) = |h| * (2 * L * rowSums n A) * δ := by ring
    have h8 : |h| * (2 * L * rowSums n A) * δ ≤ 1 * δ := mul_le_mul_of_nonneg_right h3 hδ
    have l3' : ‖f (t + c i * h) XG - f (t + c i * h) XF‖ ≤ L * dist ((t + c i * h, XG) : ℝ × E) (t + c i * h, XF) := l3
    linarith

/-- The right-hand side `g` differs from `f` by at most `δ` within the distance `r` of the solution. -/
def Near (f g : ℝ → E → E) (y : ℝ → E) (t0 b r δ : ℝ) : Prop :=
  ∀ t ∈ Set.uIcc t0 b, ∀ x, ‖x - y t‖ ≤ r → ‖g t x - f t x‖ ≤ δ

/-- Nodes within the step. -/
def NodesIn (T : Tableau ℝ) : Prop := ∀ i, i < T.s → 0 ≤ T.C i ∧ T.C i ≤ 1

theorem node_mem {t0 b t h θ : ℝ} (ht : t ∈ Set.uIcc t0 b) (hth : t + h ∈ Set.uIcc t0 b) (h0 : 0 ≤ θ) (h1 : θ ≤ 1) :
    t + θ * h ∈ Set.uIcc t0 b := by
  have := (convex_uIcc t0 b) ht hth (a := 1 - θ) (b := θ) (by linarith) h0 (by ring)
  convert this using 1
  simp only [smul_eq_mul]; ring

/-- One step with the inexact right-hand side. -/
theorem noisy_step [CompleteSpace E] {f : ℝ → E → E} {y : ℝ → E} {t0 b : ℝ} (hy : SolvesOn f y t0 b) {ρ L B : ℝ} (hρ : 0 < ρ)
    (hL : 0 ≤ L) (hB : 0 ≤ B) (htube : ∀ t ∈ Set.uIcc t0 b, ∀ z z' : ℝ × E, dist z (t, y t) < ρ → dist z' (t, y t) < ρ →
      ‖f z.1 z.2 - f z'.1 z'.2‖ ≤ L * dist z z' ∧ ‖f z.1 z.2‖ ≤ B) {r : ℝ} (hr : 0 < r) {T : Tableau ℝ} (hT : NodesIn T) :
    ∃ ε : ℝ, 0 < ε ∧ ∀ t ∈ Set.uIcc t0 b, ∀ (g : ℝ → E → E) (u u' : E) (h δ : ℝ) (k : ℕ → E), Near f g y t0 b r δ →
      IsRKStep T g t u h k u' → t + h ∈ Set.uIcc t0 b → ‖u - y t‖ < ρ / 2 → ‖u - y t‖ < r / 2 → |h| < ε → 0 ≤ δ → δ ≤ 1 →
      ∃ k1 u1, IsRKStep T f t u h k1 u1 ∧ ‖u' - u1‖ ≤ 2 * weightSum T * δ * |h| := by
  set a := rowSums T.s (compA T) with ha
  have ha0 : 0 ≤ a := rowSums_nonneg _ _
  have hcont : ContinuousOn y (Set.uIcc t0 b) := fun s hs => (hy.solves s hs).self_of_nhds.continuousAt.continuousWithinAt
  have huc := (isCompact_uIcc (a := t0) (b := b)).uniformContinuousOn_of_continuous hcont
  obtain ⟨η, hη, huc⟩ := Metric.uniformContinuousOn_iff.mp huc (r / 4) (by linarith)
  set κ := min (ρ / 4) (r / 4) with hκ
  have hκ0 : 0 < κ := by positivity
  refine ⟨min (min η (ρ / 2)) (min (κ / (a * (B + 2) + 1)) (1 / (2 * L * a + 1))), by positivity, ?_⟩
  intro t ht g u u' h δ k hg hk hth hu hu2 hh hδ hδ1
  simp only [lt_min_iff] at hh
  obtain ⟨⟨b1, b2⟩, b3, b4⟩ := hh
  rw [lt_div_iff₀ (by positivity)] at b3 b4
  have hh0 := abs_nonneg h
  have hn : ∀ i, i < T.s → compC T i = T.C i := fun i hi => by unfold compC; rw [if_pos hi]
  have key := noisy_stages (f := f) (g := g) (t := t) (x := y t) (ρ := ρ) hL hB (htube t ht) (n := T.s) (A := compA T)
    (c := compC T) (Γ := 1) (δ := δ) (κ := κ) hδ
    (fun i hi => by rw [hn i hi, abs_of_nonneg (hT i hi).1]; exact (hT i hi).2) (h := h) (by linarith)
    (by
      have : rowSums T.s (compA T) * (B + 2 * δ) ≤ a * (B + 2) + 1 := by
        have := mul_le_mul_of_nonneg_left (show B + 2 * δ ≤ B + 2 by linarith) ha0
        linarith
      have := mul_le_mul_of_nonneg_left this hh0
      linarith)
    (by have := min_le_left (ρ / 4) (r / 4); linarith)
    (by rw [← ha]; nlinarith) (u := u) hu
    (by
      intro i hi z hz
      rw [hn i hi]
      have hmem := node_mem ht hth (hT i hi).1 (hT i hi).2
      refine hg _ hmem z ?_
      have h5 : dist (y t) (y (t + T.C i * h)) < r / 4 := by
        refine huc t ht _ hmem ?_
        rw [Real.dist_eq, sub_add_cancel_left, abs_neg, abs_mul, abs_of_nonneg (hT i hi).1]
        exact lt_of_le_of_lt (mul_le_of_le_one_left hh0 (hT i hi).2) b1
      rw [dist_eq_norm] at h5
      have h6 := norm_add₃_le (a := z - u) (b := u - y t) (c := y t - y (t + T.C i * h))
      rw [sub_add_sub_cancel, sub_add_sub_cancel] at h6
      have := min_le_right (ρ / 4) (r / 4)
      linarith)
  refine ⟨_, _, exStage_isRKStep T f t u h, ?_⟩
  rw [hk.sol, add_sub_add_left_eq_sub, ← smul_sub, ← sum_sub_distrib, norm_smul, Real.norm_eq_abs]
  have : ‖∑ i ∈ range T.s, (T.B i • k i - T.B i • exStage (compA T) (compC T) f i (t, u, h))‖ ≤ weightSum T * (2 * δ) := by
    unfold weightSum
    rw [sum_mul]
    refine (norm_sum_le _ _).trans (sum_le_sum fun i hi => ?_)
    rw [← smul_sub, norm_smul, Real.norm_eq_abs, hk.stages_eq i (mem_range.mp hi).le]
    exact mul_le_mul_of_nonneg_left (key i (mem_range.mp hi)).2 (abs_nonneg _)
  calc _ ≤ |h| * (weightSum T * (2 * δ)) := mul_le_mul_of_nonneg_left this hh0
    _ = _ := by ring

theorem accumulate_from {D Λ a e0 e e' h : ℝ} (hD : 0 ≤ D) (hΛ : 0 ≤ Λ) (ha : 0 ≤ a) (hh0 : 0 ≤ h) (he0 : 0 ≤ e0)
    (he : e ≤ (e0 + D * a) * Real.exp (Λ * a)) (hstep : e' ≤ (1 + Λ * h) * e + D * h) :
    e' ≤ (e0 + D * (a + h)) * Real.exp (Λ * (a + h)) := by
  have h1 : 1 + Λ * h ≤ Real.exp (Λ * h) := by linarith [Real.add_one_le_exp (Λ * h)]
  have h2 : 1 ≤ Real.exp (Λ * (a + h)) := Real.one_le_exp (by positivity)
  have h3 : Real.exp (Λ * (a + h)) = Real.exp (Λ * h) * Real.exp (Λ * a) := by rw [← Real.exp_add]; ring_nf
  have hX : 0 ≤ (e0 + D * a) * Real.exp (Λ * a) := by positivity
  have h4 : (1 + Λ * h) * e ≤ (1 + Λ * h) * ((e0 + D * a) * Real.exp (Λ * a)) :=
    mul_le_mul_of_nonneg_left he (by positivity)
  have h5 : (1 + Λ * h) * ((e0 + D * a) * Real.exp (Λ * a)) ≤ Real.exp (Λ * h) * ((e0 + D * a) * Real.exp (Λ * a)) :=
    mul_le_mul_of_nonneg_right h1 hX
  have h6 : D * h ≤ D * h * Real.exp (Λ * (a + h)) := le_mul_of_one_le_right (by positivity) h2
  have h7 : (e0 + D * (a + h)) * Real.exp (Λ * (a + h)) =
      Real.exp (Λ * h) * ((e0 + D * a) * Real.exp (Λ * a)) + D * h * Real.exp (Λ * (a + h)) := by rw [h3]; ring
  linarith

/-- Convergence of the driver with a one-step method, from a starting value that is `e0` away from the solution. -/
theorem driver_error_from {W : Type*} {y : ℝ → E} {t0 b : ℝ} {Step : ℝ → E → ℝ → E → Prop} {ε Λ D H e0 : ℝ}
    (hΛ : 0 ≤ Λ) (hD : 0 ≤ D) (he0 : 0 ≤ e0) (hDε : (e0 + D * |b - t0|) * Real.exp (Λ * |b - t0|) < ε)
    (hbound : ∀ t ∈ Set.uIcc t0 b, ∀ (u u' : E) (h : ℝ), Step t u h u' → t + h ∈ Set.uIcc t0 b → ‖u - y t‖ < ε → |h| ≤ H →
      ‖u' - y (t + h)‖ ≤ (1 + Λ * |h|) * ‖u - y t‖ + D * |h|)
    {c : Cfg ℝ E W} (hc : CfgOK c) (hdir : 0 ≤ c.dir * (b - t0)) {v0 v : Solver ℝ E W} (h0t : v0.st.t = t0)
    (h0y : ‖v0.st.y - y t0‖ ≤ e0)
    (hstep : ∀ (w w' : Solver ℝ E W) (fuel : ℕ) (o : Out), Reach c v0 w → step c fuel w = some (o, w') →
      (w'.st.t = w.st.t ∧ w'.st.y = w.st.y) ∨ ∃ h, w'.st.t = w.st.t + h ∧ Step w.st.t w.st.y h w'.st.y)
    (hr : ReachWithin c v0 t0 b H v) :
    ‖v.st.y - y v.st.t‖ ≤ (e0 + D * |b - t0|) * Real.exp (Λ * |b - t0|) := by
  set L := |b - t0| with hL
  have hL0 : 0 ≤ L := abs_nonneg _
  have hgrow : ∀ a, 0 ≤ a → a ≤ L → (e0 + D * a) * Real.exp (Λ * a) ≤ (e0 + D * L) * Real.exp (Λ * L) := by
    intro a ha haL
    apply mul_le_mul _ _ (Real.exp_pos _).le (by positivity)
    · exact add_le_add_right (mul_le_mul_of_nonneg_left haL hD) _
    · exact Real.exp_le_exp.mpr (mul_le_mul_of_nonneg_left haL hΛ)
  have key : v.st.t ∈ Set.uIcc t0 b ∧ 0 ≤ c.dir * (v.st.t - t0) ∧
      ‖v.st.y - y v.st.t‖ ≤ (e0 + D * |v.st.t - t0|) * Real.exp (Λ * |v.st.t - t0|) := by
    induction hr with
    | refl =>
      rw [h0t]
      refine ⟨Set.left_mem_uIcc, ?_, ?_⟩ <;> simp [h0y]
    | @tail w w' o fuel hr hs hle hmem ih =>
      obtain ⟨i1, i2, i3⟩ := ih
      refine ⟨hmem, ?_⟩
      have habs : ∀ x, 0 ≤ c.dir * x → |x| = c.dir * x := by
        intro x hx
        rcases hc.dir with hd | hd <;> rw [hd] at hx ⊢
        · rw [one_mul] at hx ⊢; exact abs_of_nonneg hx
        · rw [abs_of_nonpos (by linarith)]; ring
      have hd : 0 ≤ c.dir * (w'.st.t - w.st.t) := by
        rcases step_time hc hs with ⟨e, -⟩ | ⟨-, -, h', e1, e2, e3⟩
        · rw [e, sub_self, mul_zero]
        · have hpos : 0 < h' := lt_of_lt_of_le (minStep_pos hc _ _) e1
          have : c.dir * (w'.st.t - w.st.t) = h' := by rw [e3]; linear_combination h' * dir_sq hc
          rw [this]; exact hpos.le
      have hd' : c.dir * (w'.st.t - t0) = c.dir * (w.st.t - t0) + c.dir * (w'.st.t - w.st.t) := by ring
      have hd0 : 0 ≤ c.dir * (w'.st.t - t0) := by rw [hd']; linarith
      refine ⟨hd0, ?_⟩
      rcases hstep w w' fuel o hr.reach hs with ⟨e1, e2⟩ | ⟨h, et, hk⟩
      · rw [e1, e2]; exact i3
      · have eh : w'.st.t - w.st.t = h := by rw [et]; ring
        rw [eh] at hle hd
        have ha : |w'.st.t - t0| = |w.st.t - t0| + |h| := by
          rw [habs _ hd0, habs _ i2, habs _ hd, hd', eh]
        have hwL : |w.st.t - t0| ≤ L := Set.abs_sub_left_of_mem_uIcc i1
        have he : ‖w.st.y - y w.st.t‖ < ε := (i3.trans (hgrow _ (abs_nonneg _) hwL)).trans_lt hDε
        have hb := hbound w.st.t i1 _ _ h hk (et ▸ hmem) he hle
        rw [← et] at hb
        rw [ha]
        exact accumulate_from hD hΛ (abs_nonneg _) (abs_nonneg _) he0 i3 hb
  obtain ⟨k1, _, k3⟩ := key
  exact k3.trans (hgrow _ (abs_nonneg _) (Set.abs_sub_left_of_mem_uIcc k1))

/-- A tableau whose steps with the exact right-hand side have a local error of `D0 |h| + C |h|^(q+1)` within the distance `r0`. -/
def StepBound (T : Tableau ℝ) (f : ℝ → E → E) (y : ℝ → E) (t0 b : ℝ) (q : ℕ) (r0 ε C Λ D0 : ℝ) : Prop :=
  ∀ t ∈ Set.uIcc t0 b, ∀ (u u' : E) (h : ℝ) (k : ℕ → E), IsRKStep T f t u h k u' → ‖u - y t‖ < r0 → |h| < ε →
    ‖u' - y (t + h)‖ ≤ (1 + Λ * |h|) * ‖u - y t‖ + D0 * |h| + C * |h| ^ (q + 1)

set_option maxHeartbeats 800000 in
/-- Global error with inexact right-hand side and starting value. -/
theorem noisy_global_error [CompleteSpace E] {f : ℝ → E → E} {y : ℝ → E} {t0 b : ℝ} (hy : SolvesOn f y t0 b) {ρ L B : ℝ}
    (hρ : 0 < ρ) (hL : 0 ≤ L) (hB : 0 ≤ B)
    (htube : ∀ t ∈ Set.uIcc t0 b, ∀ z z' : ℝ × E, dist z (t, y t) < ρ → dist z' (t, y t) < ρ →
      ‖f z.1 z.2 - f z'.1 z'.2‖ ≤ L * dist z z' ∧ ‖f z.1 z.2‖ ≤ B) {r : ℝ} (hr : 0 < r) {T : Tableau ℝ} (hT : NodesIn T)
    (hC0 : T.C 0 = 0) (hs0 : 0 < T.s) {q : ℕ} (hq : 1 ≤ q) {r0 ε C Λ D0 : ℝ} (hr0 : 0 < r0) (hε : 0 < ε) (hC : 0 ≤ C)
    (hΛ : 0 ≤ Λ) (hD0 : 0 ≤ D0) (hS : StepBound T f y t0 b q r0 ε C Λ D0)
    (hsmall : D0 * spread Λ |b - t0| < r0 ∧ D0 * spread Λ |b - t0| < ρ / 2 ∧ D0 * spread Λ |b - t0| < r / 2) :
    ∃ K hstar : ℝ, 0 ≤ K ∧ 0 < hstar ∧
      ∀ (c : Cfg ℝ E E) (g : ℝ → E → E) (errNorm : E → E → E → ENorm ℝ) (P : PreTest ℝ E) (y0 : E) (h0 H δ : ℝ) (e0 : ℕ)
        (Ks0 : ℕ → E) (v : Solver ℝ E E), CfgOK c → c.m = rkMethod T g errNorm P → 0 ≤ c.dir * (b - t0) →
        0 ≤ H → H ≤ hstar → 0 ≤ δ → δ ≤ hstar → ‖y0 - y t0‖ ≤ δ → Near f g y t0 b r δ →
        ReachWithin c (newSolver c t0 y0 h0 e0 Ks0) t0 b H v →
        ‖v.st.y - y v.st.t‖ ≤ K * (H ^ q + δ) + D0 * spread Λ |b - t0| := by
  obtain ⟨ε1, he1, hstep1⟩ := noisy_step hy hρ hL hB htube hr hT
  set ℓ := |b - t0| with hℓ
  have hℓ0 : 0 ≤ ℓ := abs_nonneg _
  set X := Real.exp (Λ * ℓ) with hX
  have hX0 : 0 < X := Real.exp_pos _
  set F := D0 * spread Λ ℓ with hF
  set w := 2 * weightSum T with hw
  have hw0 : 0 ≤ w := by have := weightSum_nonneg T; positivity
  set K := (1 + (C + w) * ℓ) * X with hK
  have hK0 : 0 ≤ K := by positivity
  set rm := min r0 (min (ρ / 2) (r / 2)) with hrm
  have hη0 : 0 < rm - F := by
    have : F < rm := lt_min hsmall.1 (lt_min hsmall.2.1 hsmall.2.2)
    linarith
  refine ⟨K, min 1 (min (ε / 2) (min (ε1 / 2) ((rm - F) / (4 * (K + 1))))), hK0, by positivity, ?_⟩
  intro c g errNorm P y0 h0 H δ e0 Ks0 v hc hm hdir hH0 hH hδ0 hδ hy0 hg hreach
  simp only [le_min_iff] at hH hδ
  obtain ⟨a1, a2, a3, a4⟩ := hH
  obtain ⟨b1, -, -, b4⟩ := hδ
  rw [le_div_iff₀ (by positivity)] at a4 b4
  have hpow : H ^ q ≤ H := by
    calc H ^ q ≤ H ^ 1 := pow_le_pow_of_le_one hH0 a1 hq
      _ = H := pow_one H
  have hHq : 0 ≤ H ^ q := by positivity
  have hfin : (δ + (D0 + C * H ^ q + w * δ) * ℓ) * X ≤ K * (H ^ q + δ) + F := by
    have e1 : F = D0 * ℓ * X := by rw [hF]; unfold spread; ring
    have e2 : (δ + (D0 + C * H ^ q + w * δ) * ℓ) * X = (δ + (C * H ^ q + w * δ) * ℓ) * X + D0 * ℓ * X := by ring
    rw [e1, e2]
    refine add_le_add_left ?_ _
    have e3 : K * (H ^ q + δ) = ((H ^ q + δ) + (C + w) * (H ^ q + δ) * ℓ) * X := by rw [hK]; ring
    rw [e3]
    refine mul_le_mul_of_nonneg_right ?_ hX0.le
    have e4 : C * H ^ q + w * δ ≤ (C + w) * (H ^ q + δ) := by
      nlinarith [mul_nonneg hC hδ0, mul_nonneg hw0 hHq]
    have := mul_le_mul_of_nonneg_right e4 hℓ0
    linarith
  have hlt : (δ + (D0 + C * H ^ q + w * δ) * ℓ) * X < rm := by
    refine hfin.trans_lt ?_
    have : K * H ^ q ≤ K * H := mul_le_mul_of_nonneg_left hpow hK0
    nlinarith
  have hmain := driver_error_from (y := y) (t0 := t0) (b := b) (ε := rm) (Λ := Λ) (D := D0 + C * H ^ q + w * δ) (H := H)
    (e0 := δ) (Step := fun t u h u' => ∃ k, IsRKStep T g t u h k u') hΛ (by positivity) hδ0 hlt
    (by
      rintro t ht u u' h ⟨k, hk⟩ hth hu hhH
      obtain ⟨hu1, hu2, hu3⟩ : ‖u - y t‖ < r0 ∧ ‖u - y t‖ < ρ / 2 ∧ ‖u - y t‖ < r / 2 := by
        simpa only [hrm, lt_min_iff] using hu
      obtain ⟨k1, u1, hk1, hd⟩ := hstep1 t ht g u u' h δ k hg hk hth hu2 hu3 (by linarith) hδ0 b1
      have h5 := hS t ht u u1 h k1 hk1 hu1 (by linarith)
      have h6 := norm_add_le (u' - u1) (u1 - y (t + h))
      rw [sub_add_sub_cancel] at h6
      have h7 : C * |h| ^ (q + 1) ≤ C * H ^ q * |h| := by
        rw [pow_succ, ← mul_assoc]
        exact mul_le_mul_of_nonneg_right (mul_le_mul_of_nonneg_left (pow_le_pow_left₀ (abs_nonneg _) hhH _) hC) (abs_nonneg _)
      have h8 : (D0 + C * H ^ q + w * δ) * |h| = D0 * |h| + C * H ^ q * |h| + 2 * weightSum T * δ * |h| := by rw [hw]; ring
      rw [h8]
      linarith)
    hc hdir (v0 := newSolver c t0 y0 h0 e0 Ks0) rfl hy0
    (by
      intro w w' fuel o hr' hs
      rcases rk_step_or hm hC0 hs0 hr' hs with e | ⟨h, k, hk, et⟩
      · exact Or.inl e
      · exact Or.inr ⟨h, et, k, hk⟩)
    hreach
  exact hmain.trans hfin

end Extensisq
