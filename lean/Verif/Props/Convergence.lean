import Verif.Lemmas.Convergence
import Verif.Props.LocalError
import Verif.Props.DenseC1
import Verif.Props.Driver

/-!
# C87: convergence

On an interval on which the exact solution exists, the solution computed by any run of a shipped rational
Runge-Kutta method differs from the exact solution by at most a constant times the `order`-th power of the
largest step taken; the dense output by the power `q + 1` of its order of accuracy `q`. The constant depends on
the problem only, not on tolerances, step-size controller, initial step or the number of steps.
-/

set_option linter.unusedSectionVars false

namespace Extensisq
open scoped ContDiff
open Finset Asymptotics Filter Topology

/-! ## Every returning step is a Runge-Kutta step or no step -/

section
variable {K V : Type*} [Field K] [LinearOrder K] [IsStrictOrderedRing K] [AddCommGroup V] [Module K V]

/-- A returning `step()` (normal return, failure or exception) leaves the point unchanged or makes a
Runge-Kutta step. -/
theorem rk_step_or {c : Cfg K V V} {T : Tableau K} {rhs : K → V → V}
    {errNorm : V → V → V → ENorm K} {P : PreTest K V} (hm : c.m = rkMethod T rhs errNorm P) (hC : T.C 0 = 0)
    (hs : 0 < T.s) {t0 : K} {y0 : V} {h0 : K} {e0 : ℕ} {Ks0 : ℕ → V} {v v' : Solver K V V}
    (hr : Reach c (newSolver c t0 y0 h0 e0 Ks0) v) {fuel : ℕ} {o : Out} (h : step c fuel v = some (o, v')) :
    (v'.st.t = v.st.t ∧ v'.st.y = v.st.y) ∨
    ∃ (h : K) (k : ℕ → V), IsRKStep T rhs v.st.t v.st.y h k v'.st.y ∧ v'.st.t = v.st.t + h := by
  have hf := C10_stored_derivative_current hm hr
  rcases step_impl_or h with ⟨h1, _⟩ | ⟨_, hi⟩
  · exact Or.inl (by rw [h1]; exact ⟨rfl, rfl⟩)
  · rcases stepImpl_effect hi with ⟨k, Ks, e, j, ho, hs⟩ |
      ⟨k, ch, x, f0, std, s1, hmin, hpre, herr, hx, haf, hs1, ho⟩
    · exact Or.inl (by rw [hs]; exact ⟨rfl, rfl⟩)
    · right
      obtain ⟨hrk, _, _⟩ := rkTrial_isRKStep T rhs errNorm v.st.t v.st.y (ch.hs k * c.dir)
        (ch.Ks k) hC hs
      have e1 : (c.m.trial v.st.t v.st.y v.st.f (ch.hs k * c.dir) (ch.Ks k)).yNew =
          (rkTrial T rhs errNorm v.st.t v.st.y (rhs v.st.t v.st.y) (ch.hs k * c.dir) (ch.Ks k)).yNew := by
        rw [← hf]; generalize ch.hs k = hh; generalize ch.Ks k = KK; rw [hm]; rfl
      have ey : s1.y = (rkTrial T rhs errNorm v.st.t v.st.y (rhs v.st.t v.st.y) (ch.hs k * c.dir) (ch.Ks k)).yNew := by
        rw [← e1, hs1]; rfl
      have et : s1.t = v.st.t + ch.hs k * c.dir := by rw [hs1]; rfl
      have e2 : v'.st.y = s1.y ∧ v'.st.t = s1.t := by
        rcases ho with ⟨_, b, hd⟩ | ⟨_, _, hd⟩
        · rw [diagnose_same hd]; exact ⟨rfl, rfl⟩
        · rw [hd]; exact ⟨rfl, rfl⟩
      rw [← ey, ← e2.1] at hrk
      exact ⟨_, _, hrk, e2.2.trans et⟩

end

/-! ## The scheme as a function -/

section
variable {E : Type*} [NormedAddCommGroup E] [NormedSpace ℝ E]

/-- The Runge-Kutta matrix completed with the weights as last row. -/
def compA (T : Tableau ℝ) (i j : ℕ) : ℝ := if i < T.s then T.A i j else T.B j

/-- The nodes completed with one. -/
def compC (T : Tableau ℝ) (i : ℕ) : ℝ := if i < T.s then T.C i else 1

/-- The stages of a Runge-Kutta step are determined by the starting point and the step size. -/
theorem IsRKStep.stages_eq {T : Tableau ℝ} {f : ℝ → E → E} {t : ℝ} {u : E} {h : ℝ} {k : ℕ → E} {u' : E}
    (hk : IsRKStep T f t u h k u') : ∀ i, i ≤ T.s → k i = exStage (compA T) (compC T) f i (t, u, h) := by
  intro i
  induction i using Nat.strong_induction_on with
  | _ i ih =>
    intro hi
    rw [exStage_eq]
    have e : ∀ g : ℕ → ℝ, ∑ j ∈ range i, g j • exStage (compA T) (compC T) f j (t, u, h) =
        ∑ j ∈ range i, g j • k j := by
      intro g
      apply sum_congr rfl
      intro j hj
      rw [ih j (mem_range.mp hj) (by rw [mem_range] at hj; omega)]
    rw [e]
    by_cases h1 : i < T.s
    · rw [hk.stage i h1]
      simp only [compA, compC, h1, if_true]
    · have : i = T.s := by omega
      subst this
      rw [hk.last, hk.sol]
      simp only [compA, compC, lt_irrefl, if_false, one_mul]

/-- The Runge-Kutta step of a given size from a given point. -/
theorem exStage_isRKStep (T : Tableau ℝ) (f : ℝ → E → E) (t : ℝ) (u : E) (h : ℝ) :
    IsRKStep T f t u h (fun i => exStage (compA T) (compC T) f i (t, u, h))
      (u + h • ∑ i ∈ range T.s, T.B i • exStage (compA T) (compC T) f i (t, u, h)) := by
  refine ⟨fun i hi => ?_, rfl, ?_⟩
  · rw [exStage_eq]
    simp only [compA, compC, hi, if_true]
  · rw [exStage_eq]
    simp only [compA, compC, lt_irrefl, if_false, one_mul]

/-- The exact solution exists on the interval from `t0` to `b`, with a smooth problem along it. -/
structure SolvesOn (f : ℝ → E → E) (y : ℝ → E) (t0 b : ℝ) : Prop where
  smooth : ∀ t ∈ Set.uIcc t0 b, ContDiffAt ℝ ∞ (fun z : ℝ × E => f z.1 z.2) (t, y t)
  solves : ∀ t ∈ Set.uIcc t0 b, ∀ᶠ s in 𝓝 t, HasDerivAt y (f s (y s)) s

/-- Reachable by returning `step()` calls none of which was longer than `H` or left the interval
from `t0` to `b`. -/
inductive ReachWithin {W : Type*} (c : Cfg ℝ E W) (v0 : Solver ℝ E W) (t0 b H : ℝ) : Solver ℝ E W → Prop
  | refl : ReachWithin c v0 t0 b H v0
  | tail {v v' : Solver ℝ E W} {o : Out} {fuel : ℕ} :
      ReachWithin c v0 t0 b H v → step c fuel v = some (o, v') → |v'.st.t - v.st.t| ≤ H →
      v'.st.t ∈ Set.uIcc t0 b → ReachWithin c v0 t0 b H v'

theorem ReachWithin.reach {W : Type*} {c : Cfg ℝ E W} {v0 v : Solver ℝ E W} {t0 b H : ℝ}
    (h : ReachWithin c v0 t0 b H v) : Reach c v0 v := by
  induction h with
  | refl => exact .refl
  | tail _ hs _ _ ih => exact .tail ih hs

/-- Uniform consistency and stability of one step of a method along the exact solution. -/
theorem main_bound [CompleteSpace E] (R : RKTable) (hR : R ∈ rationalRK) {f : ℝ → E → E} {y : ℝ → E} {t0 b : ℝ}
    (hy : SolvesOn f y t0 b) :
    ∃ ε C Λ : ℝ, 0 < ε ∧ 0 ≤ C ∧ 0 ≤ Λ ∧ ∀ t ∈ Set.uIcc t0 b, ∀ (u u' : E) (h : ℝ) (k : ℕ → E),
      IsRKStep (R.tab ℝ) f t u h k u' → ‖u - y t‖ < ε → |h| < ε →
      ‖u' - y (t + h)‖ ≤ (1 + Λ * |h|) * ‖u - y t‖ + C * |h| ^ (R.order + 1) := by
  have hS : IsCompact ((Set.uIcc t0 b) ×ˢ ({1} : Set ℝ)) := isCompact_uIcc.prod isCompact_singleton
  obtain ⟨ε, C, Λ, h1, h2, h3, h4⟩ := compact_bound (q := R.order) (n := (R.tab ℝ).s) (A := compA (R.tab ℝ))
    (c := compC (R.tab ℝ)) (w := fun i _ => (R.tab ℝ).B i) (f := f) (y := y) hS (fun i => contDiff_const)
    (fun x hx n => ((smooth_nat (hy.smooth x.1 hx.1) _))) (fun x hx => hy.solves x.1 hx.1) (by
      rintro ⟨t, θ⟩ ⟨ht, hθ⟩
      have hθ : θ = 1 := hθ
      subst hθ
      have := (C59_local_error_order R hR (hy.smooth t ht)
        (fun h => exStage_isRKStep (R.tab ℝ) f t (y t) h)).1 y rfl (hy.solves t ht)
      refine this.congr_left fun h => ?_
      simp only [stageComb, one_mul])
  refine ⟨ε, C, Λ, h1, h2, h3, fun t ht u u' h k hk hu hh => ?_⟩
  have h5 := h4 (t, 1) ⟨ht, rfl⟩ u h hu hh
  rw [one_mul] at h5
  have e : u' = u + h • stageComb (R.tab ℝ).s (compA (R.tab ℝ)) (compC (R.tab ℝ)) (fun i _ => (R.tab ℝ).B i) f 1 (t, u, h) := by
    rw [hk.sol]
    congr 2
    apply sum_congr rfl
    intro i hi
    rw [hk.stages_eq i (mem_range.mp hi).le]
  rw [e]
  exact h5

/-- Uniform consistency and stability of the dense output along the exact solution. -/
theorem dense_bound [CompleteSpace E] {R : RKTable} {q : ℕ} (hR : (R, q) ∈ interpOrders) {f : ℝ → E → E} {y : ℝ → E} {t0 b : ℝ}
    (hy : SolvesOn f y t0 b) :
    ∃ ε C Λ : ℝ, 0 < ε ∧ 0 ≤ C ∧ 0 ≤ Λ ∧ ∀ t ∈ Set.uIcc t0 b, ∀ θ ∈ Set.Icc (0 : ℝ) 1,
      ∀ (u u' : E) (h : ℝ) (k : ℕ → E), IsRKStep (R.tab ℝ) f t u h k u' → ‖u - y t‖ < ε → |h| < ε →
      ‖horner t (t + h) u (denseQ ℝ R.P (R.s + 1) k) (t + θ * h) - y (t + θ * h)‖ ≤
        (1 + Λ * |h|) * ‖u - y t‖ + C * |h| ^ (q + 1) := by
  have hS : IsCompact ((Set.uIcc t0 b) ×ˢ (Set.Icc (0 : ℝ) 1)) := isCompact_uIcc.prod isCompact_Icc
  obtain ⟨ε, C, Λ, h1, h2, h3, h4⟩ := compact_bound (q := q) (n := R.s + 1) (A := compA (R.tab ℝ))
    (c := compC (R.tab ℝ)) (w := fun i θ => pWeight ℝ R.P i θ) (f := f) (y := y) hS
    (fun i => by
      unfold pWeight
      apply ContDiff.sum
      intro j _
      exact contDiff_const.mul (contDiff_id.pow _))
    (fun x hx n => ((smooth_nat (hy.smooth x.1 hx.1) _))) (fun x hx => hy.solves x.1 hx.1) (by
      rintro ⟨t, θ⟩ ⟨ht, _⟩
      have := C60_dense_accuracy hR (hy.smooth t ht)
        (fun h => exStage_isRKStep (R.tab ℝ) f t (y t) h) (fun _ => θ) |θ| (fun _ => le_rfl) y rfl (hy.solves t ht)
      refine this.congr_left fun h => ?_
      rw [horner_scaled]
      rfl)
  refine ⟨ε, C, Λ, h1, h2, h3, fun t ht θ hθ u u' h k hk hu hh => ?_⟩
  have h5 := h4 (t, θ) ⟨ht, hθ⟩ u h hu hh
  rw [horner_scaled]
  have e : ∑ i ∈ range (R.s + 1), pWeight ℝ R.P i θ • k i =
      stageComb (R.s + 1) (compA (R.tab ℝ)) (compC (R.tab ℝ)) (fun i θ => pWeight ℝ R.P i θ) f θ (t, u, h) := by
    unfold stageComb
    apply sum_congr rfl
    intro i hi
    rw [hk.stages_eq i (by rw [mem_range] at hi; exact Nat.lt_succ_iff.mp hi)]
  rw [e]
  exact h5

/-- **C87**. Convergence with the advertised order. For a problem whose exact solution exists on the closed
interval from `t0` to `b` there are constants `C` and `h*` such that, for every solver configuration and every
history of `step()` calls in which no step was longer than `H ≤ h*`, the computed solution differs from
the exact one by at most `C H^order`. -/
theorem C87_global_error [CompleteSpace E] (R : RKTable) (hR : R ∈ rationalRK) {f : ℝ → E → E} {y : ℝ → E} {t0 b : ℝ}
    (hy : SolvesOn f y t0 b) :
    ∃ C hstar : ℝ, 0 ≤ C ∧ 0 < hstar ∧
      ∀ (c : Cfg ℝ E E) (errNorm : E → E → E → ENorm ℝ) (P : PreTest ℝ E) (h0 H : ℝ) (e0 : ℕ) (Ks0 : ℕ → E)
        (v : Solver ℝ E E), CfgOK c → c.m = rkMethod (R.tab ℝ) f errNorm P → 0 ≤ c.dir * (b - t0) →
        0 ≤ H → H ≤ hstar →
        ReachWithin c (newSolver c t0 (y t0) h0 e0 Ks0) t0 b H v → ‖v.st.y - y v.st.t‖ ≤ C * H ^ R.order := by
  obtain ⟨ε, C, Λ, h1, h2, h3, h4⟩ := main_bound R hR hy
  obtain ⟨_, _, r1, r2⟩ := rationalRK_rows R hR
  have ho : 1 ≤ R.order := by
    have : ∀ R ∈ rationalRK, 1 ≤ R.order := by decide +kernel
    exact this R hR
  set L := |b - t0| with hL
  have hL0 : 0 ≤ L := abs_nonneg _
  set G := C * (L * Real.exp (Λ * L)) with hG
  have hG0 : 0 ≤ G := by positivity
  refine ⟨G, min 1 (ε / (2 * (G + 1))), hG0, lt_min one_pos (by positivity), ?_⟩
  intro c errNorm P h0 H e0 Ks0 v hc hm hdir hH0 hH hr
  have hH1 : H ≤ 1 := hH.trans (min_le_left _ _)
  have hH2 : H * (2 * (G + 1)) ≤ ε := (le_div_iff₀ (by positivity)).mp (hH.trans (min_le_right _ _))
  have hHε : H < ε := by nlinarith
  have hpow : H ^ R.order ≤ H := by
    calc H ^ R.order ≤ H ^ 1 := pow_le_pow_of_le_one hH0 hH1 ho
      _ = H := pow_one H
  have hGH : G * H ^ R.order < ε := by
    have : G * H ^ R.order ≤ G * H := mul_le_mul_of_nonneg_left hpow hG0
    nlinarith
  have hgrow : ∀ a, 0 ≤ a → a ≤ L → C * H ^ R.order * (a * Real.exp (Λ * a)) ≤ G * H ^ R.order := by
    intro a ha haL
    have : a * Real.exp (Λ * a) ≤ L * Real.exp (Λ * L) := by
      apply mul_le_mul haL _ (Real.exp_pos _).le hL0
      exact Real.exp_le_exp.mpr (mul_le_mul_of_nonneg_left haL h3)
    calc C * H ^ R.order * (a * Real.exp (Λ * a)) ≤ C * H ^ R.order * (L * Real.exp (Λ * L)) :=
          mul_le_mul_of_nonneg_left this (by positivity)
      _ = G * H ^ R.order := by rw [hG]; ring
  have key : v.st.t ∈ Set.uIcc t0 b ∧ 0 ≤ c.dir * (v.st.t - t0) ∧
      ‖v.st.y - y v.st.t‖ ≤ C * H ^ R.order * (|v.st.t - t0| * Real.exp (Λ * |v.st.t - t0|)) := by
    induction hr with
    | refl =>
      refine ⟨Set.left_mem_uIcc, ?_, ?_⟩
      · simp [newSolver]
      · simp [newSolver]
    | @tail w w' o fuel hr hs hle hmem ih =>
      obtain ⟨i1, i2, i3⟩ := ih
      refine ⟨hmem, ?_⟩
      have habs : ∀ x, 0 ≤ c.dir * x → |x| = c.dir * x := by
        intro x hx
        rcases hc.dir with hd | hd <;> rw [hd] at hx ⊢
        · rw [one_mul] at hx ⊢; exact abs_of_nonneg hx
        · rw [abs_of_nonpos (by linarith)]; ring
      have hd : 0 ≤ c.dir * (w'.st.t - w.st.t) := by
        rcases step_time hc hs with ⟨e, -⟩ | ⟨-, -, h', e1, e2, e3⟩
        · rw [e, sub_self, mul_zero]
        · have hpos : 0 < h' := lt_of_lt_of_le (minStep_pos hc _ _) e1
          have : c.dir * (w'.st.t - w.st.t) = h' := by rw [e3]; linear_combination h' * dir_sq hc
          rw [this]; exact hpos.le
      have hd' : c.dir * (w'.st.t - t0) = c.dir * (w.st.t - t0) + c.dir * (w'.st.t - w.st.t) := by ring
      have hd0 : 0 ≤ c.dir * (w'.st.t - t0) := by rw [hd']; linarith
      refine ⟨hd0, ?_⟩
      rcases rk_step_or hm r1 r2 hr.reach hs with ⟨e1, e2⟩ | ⟨h, k, hk, et⟩
      · rw [e1, e2]; exact i3
      · have eh : w'.st.t - w.st.t = h := by rw [et]; ring
        rw [eh] at hle hd
        have ha : |w'.st.t - t0| = |w.st.t - t0| + |h| := by
          rw [habs _ hd0, habs _ i2, habs _ hd, hd', eh]
        have hwL : |w.st.t - t0| ≤ L := Set.abs_sub_left_of_mem_uIcc i1
        have he : ‖w.st.y - y w.st.t‖ < ε := (i3.trans (hgrow _ (abs_nonneg _) hwL)).trans_lt hGH
        have hb := h4 w.st.t i1 _ _ h k hk he (hle.trans_lt hHε)
        rw [← et] at hb
        rw [ha]
        exact accumulate h2 h3 (abs_nonneg _) (abs_nonneg _) hle i3 hb
  obtain ⟨k1, _, k3⟩ := key
  exact k3.trans (hgrow _ (abs_nonneg _) (Set.abs_sub_left_of_mem_uIcc k1))

/-- **C87** with `max_step`: the error of every state reachable by `step()` calls is at most
`C max_step^order`, as long as `max_step` is small and is not below the minimal step in the visited states. -/
theorem C87_max_step_error [CompleteSpace E] (R : RKTable) (hR : R ∈ rationalRK) {f : ℝ → E → E} {y : ℝ → E}
    {t0 b : ℝ} (hy : SolvesOn f y t0 b) :
    ∃ C hstar : ℝ, 0 ≤ C ∧ 0 < hstar ∧
      ∀ (c : Cfg ℝ E E) (errNorm : E → E → E → ENorm ℝ) (P : PreTest ℝ E) (h0 H : ℝ) (e0 : ℕ) (Ks0 : ℕ → E)
        (v : Solver ℝ E E), CfgOK c → c.m = rkMethod (R.tab ℝ) f errNorm P → c.tb = some b →
        0 ≤ c.dir * (b - t0) → c.maxStep = some H → H ≤ hstar →
        (∀ w, Reach c (newSolver c t0 (y t0) h0 e0 Ks0) w → MaxStepUsable c w.st) →
        Reach c (newSolver c t0 (y t0) h0 e0 Ks0) v → ‖v.st.y - y v.st.t‖ ≤ C * H ^ R.order := by
  obtain ⟨C, hstar, h1, h2, h3⟩ := C87_global_error R hR hy
  refine ⟨C, hstar, h1, h2, ?_⟩
  intro c errNorm P h0 H e0 Ks0 v hc hm hb hdir hmax hH hu hr
  refine h3 c errNorm P h0 H e0 Ks0 v hc hm hdir (hc.maxStep H hmax).le hH ?_
  induction hr with
  | refl => exact .refl
  | @tail w w' o fuel hr hs ih =>
    refine .tail ih hs (C03_max_step hc hmax (hu w hr) hs) ?_
    obtain ⟨a1, a2⟩ := C01_never_past_t_bound hc hb (v0 := newSolver c t0 (y t0) h0 e0 Ks0) hdir hu (hr.tail hs)
    have a1 : 0 ≤ c.dir * (w'.st.t - t0) := a1
    rcases hc.dir with hd | hd <;> rw [hd] at a1 a2
    · exact Set.mem_uIcc.mpr (Or.inl ⟨by linarith, by linarith⟩)
    · exact Set.mem_uIcc.mpr (Or.inr ⟨by linarith, by linarith⟩)

theorem interp_le_order : ∀ p ∈ interpOrders, p.2 + 1 ≤ p.1.order := by decide +kernel

/-- **C87** for the dense output: on every successful step of such a history, `dense_output()` returns a function
which differs from the exact solution by at most `C H^(q+1)` on the whole step, with `q` the
order of accuracy of the interpolant. -/
theorem C87_dense_error [CompleteSpace E] {R : RKTable} {q : ℕ} (hR : (R, q) ∈ interpOrders) {f : ℝ → E → E}
    {y : ℝ → E} {t0 b : ℝ} (hy : SolvesOn f y t0 b) :
    ∃ C hstar : ℝ, 0 ≤ C ∧ 0 < hstar ∧
      ∀ (c : Cfg ℝ E E) (errNorm : E → E → E → ENorm ℝ) (P : PreTest ℝ E) (h0 H : ℝ) (e0 : ℕ) (Ks0 : ℕ → E)
        (v v' : Solver ℝ E E) (fuel : ℕ), CfgOK c → c.m = rkMethod (R.tab ℝ) f errNorm P → 0 ≤ c.dir * (b - t0) →
        0 ≤ H → H ≤ hstar → ReachWithin c (newSolver c t0 (y t0) h0 e0 Ks0) t0 b H v → v.st.t ∈ Set.uIcc t0 b →
        c.tb ≠ some v.st.t → step c fuel v = some (.ok, v') → |v'.st.t - v.st.t| ≤ H →
        ∃ u, rkDense R v' = some (u, v') ∧ ∀ τ ∈ Set.uIcc v.st.t v'.st.t, ‖u τ - y τ‖ ≤ C * H ^ (q + 1) := by
  obtain ⟨hmem, _, _, _, _⟩ := interpOrders_check _ hR
  have hq : q + 1 ≤ R.order := interp_le_order _ hR
  obtain ⟨C, hstar, h1, h2, h3⟩ := C87_global_error R hmem hy
  obtain ⟨ε, C', Λ, g1, g2, g3, g4⟩ := dense_bound hR hy
  obtain ⟨_, _, r1, r2⟩ := rationalRK_rows R hmem
  refine ⟨(1 + Λ) * C + C', min hstar (min 1 (ε / (2 * (C + 1)))), by positivity,
    lt_min h2 (lt_min one_pos (by positivity)), ?_⟩
  intro c errNorm P h0 H e0 Ks0 v v' fuel hc hm hdir hH0 hH hr hmemv hne hs hle
  have hHs : H ≤ hstar := hH.trans (min_le_left _ _)
  have hH1 : H ≤ 1 := hH.trans ((min_le_right _ _).trans (min_le_left _ _))
  have hH2 : H * (2 * (C + 1)) ≤ ε :=
    (le_div_iff₀ (by positivity)).mp (hH.trans ((min_le_right _ _).trans (min_le_right _ _)))
  have hHε : H < ε := by nlinarith
  have he := h3 c errNorm P h0 H e0 Ks0 v hc hm hdir hH0 hHs hr
  have hpow : H ^ R.order ≤ H ^ (q + 1) := pow_le_pow_of_le_one hH0 hH1 hq
  have hpow1 : H ^ R.order ≤ H := by
    calc H ^ R.order ≤ H ^ 1 := pow_le_pow_of_le_one hH0 hH1 (by omega)
      _ = H := pow_one H
  have heε : ‖v.st.y - y v.st.t‖ < ε := by
    have : C * H ^ R.order ≤ C * H := mul_le_mul_of_nonneg_left hpow1 h1
    nlinarith
  obtain ⟨k, ht, htO, hyO, _, _, hk, hKs, _, _, _⟩ := step_dense_data hc hm r1 r2 hr.reach hne hs
  refine ⟨horner v.st.t v'.st.t v.st.y (denseQ ℝ R.P (R.s + 1) v'.st.Ks), rkDense_eq htO ht hyO, ?_⟩
  intro τ hτ
  have hne' : v'.st.t - v.st.t ≠ 0 := sub_ne_zero.mpr ht
  obtain ⟨θ, hθ, eτ⟩ : ∃ θ ∈ Set.Icc (0 : ℝ) 1, τ = v.st.t + θ * (v'.st.t - v.st.t) := by
    refine ⟨(τ - v.st.t) / (v'.st.t - v.st.t), ?_, by field_simp; ring⟩
    rcases lt_or_gt_of_ne hne' with hneg | hpos
    · rw [Set.uIcc_of_ge (by linarith)] at hτ
      exact ⟨div_nonneg_of_nonpos (by linarith [hτ.2]) hneg.le,
        (div_le_one_of_neg hneg).mpr (by linarith [hτ.1])⟩
    · rw [Set.uIcc_of_le (by linarith)] at hτ
      exact ⟨div_nonneg (by linarith [hτ.1]) hpos.le, (div_le_one hpos).mpr (by linarith [hτ.2])⟩
  have hb := g4 v.st.t hmemv θ hθ _ _ _ k hk heε (hle.trans_lt hHε)
  rw [show v.st.t + (v'.st.t - v.st.t) = v'.st.t by ring, ← eτ] at hb
  rw [denseQ_congr (k' := k) (fun i hi => hKs i (by change i ≤ R.s; omega))]
  refine hb.trans ?_
  have p1 : (1 + Λ * |v'.st.t - v.st.t|) * ‖v.st.y - y v.st.t‖ ≤ (1 + Λ) * (C * H ^ (q + 1)) := by
    apply mul_le_mul _ (he.trans (mul_le_mul_of_nonneg_left hpow h1)) (norm_nonneg _) (by positivity)
    have : Λ * |v'.st.t - v.st.t| ≤ Λ * 1 := mul_le_mul_of_nonneg_left (hle.trans hH1) g3
    linarith
  have p2 : C' * |v'.st.t - v.st.t| ^ (q + 1) ≤ C' * H ^ (q + 1) :=
    mul_le_mul_of_nonneg_left (pow_le_pow_left₀ (abs_nonneg _) hle _) g2
  calc _ ≤ (1 + Λ) * (C * H ^ (q + 1)) + C' * H ^ (q + 1) := add_le_add p1 p2
    _ = _ := by ring

/-! ## The hypotheses are met -/

/-- The decaying exponential solves `y' = -y`. -/
theorem exDecay_solves : SolvesOn (fun (_ : ℝ) (u : ℝ) => -u) (fun t => Real.exp (-t)) 0 1 where
  smooth _ _ := contDiffAt_snd.neg
  solves _ _ := Eventually.of_forall fun s => by simpa using (hasDerivAt_neg s).exp

/-- The configuration of `y' = -y` on `[0, 1]` with `max_step = η`. -/
noncomputable def exCfgH (R : RKTable) (η : ℝ) : Cfg ℝ ℝ ℝ :=
  { exCfgR R with maxStep := some η, hMinA := 0, hMinB := η }

theorem exCfgH_ok (R : RKTable) {η : ℝ} (hη : 0 < η) : CfgOK (exCfgH R η) :=
  { exCfgR_ok R with
    hMinA := le_rfl
    hMinB := hη
    maxStep := fun m h => by simp only [exCfgH, Option.some.injEq] at h; rw [← h]; exact hη }

theorem exCfgH_step (R : RKTable) {η : ℝ} (hη : 0 < η) (hη1 : η ≤ 1 / 2) : ∃ v', step (exCfgH R η) 1
    (newSolver (exCfgH R η) 0 1 η 1 (fun _ => 0)) = some (.ok, v') := by
  have hms : minStepOf (exCfgH R η) 0 η = η := by
    simp only [minStepOf, exCfgH, zero_mul]
    exact max_eq_right hη.le
  have hre : reassess (exCfgH R η) (newSolver (exCfgH R η) 0 1 η 1 (fun _ => 0)).st = (η, η, true) := by
    have e1 : (newSolver (exCfgH R η) 0 1 η 1 (fun _ => 0)).st.hAbs = η := rfl
    have e2 : (newSolver (exCfgH R η) 0 1 η 1 (fun _ => 0)).st.t = 0 := rfl
    have e3 : (newSolver (exCfgH R η) 0 1 η 1 (fun _ => 0)).st.stdSc = true := rfl
    have e4 : (exCfgH R η).tb = some 1 := rfl
    have e5 : (exCfgH R η).maxStep = some η := rfl
    unfold reassess
    simp only [e1, e2, e3, e4, e5, hms, overMax, lt_irrefl, decide_false, Bool.or_false, Bool.false_eq_true, if_false]
    have : ¬ (|(1 : ℝ) - 0| < 2 * η) := by rw [sub_zero, abs_one]; linarith
    simp only [this, if_false]
  obtain ⟨s', hs'⟩ := loop_accepts (c := exCfgH R η) (n := 0)
    (s := { (newSolver (exCfgH R η) 0 1 η 1 (fun _ => 0)).st with stdSc := true }) (h := η)
    (ms := η) (x := 1 / 2) (rej := false) (lt_irrefl η)
    (by simp [exCfgH, exCfgR, rkMethod, rkTrial, PreTest.none, ENorm.gt]) rfl (by norm_num) rfl rfl
  refine ⟨{ status := if reached (exCfgH R η) s'.t then .finished else .running,
            tOld := some 0, st := s' }, ?_⟩
  have h0 : (exCfgH R η).tb ≠ some (0 : ℝ) := by simp [exCfgH, exCfgR]
  unfold step
  change (if (exCfgH R η).tb = some 0 then _ else _) = _
  rw [if_neg h0]
  unfold stepImpl
  rw [hre]
  dsimp only
  rw [hs']
  rfl

/-- C87: all hypotheses are met by a run of every rational method on `y' = -y` which makes a successful step;
so the error of that step is at most `C max_step^order`, for every small `max_step`. -/
example (R : RKTable) (hR : R ∈ rationalRK) : ∃ C hstar : ℝ, 0 < hstar ∧ ∀ η, 0 < η → η ≤ hstar →
    ∃ v', step (exCfgH R η) 1 (newSolver (exCfgH R η) 0 1 η 1 (fun _ => 0)) = some (.ok, v') ∧
      |v'.st.y - Real.exp (-v'.st.t)| ≤ C * η ^ R.order := by
  obtain ⟨C, hstar, _, h2, h3⟩ := C87_max_step_error R hR exDecay_solves
  refine ⟨C, min hstar (1 / 2), lt_min h2 (by norm_num), fun η hη hle => ?_⟩
  obtain ⟨v', hv⟩ := exCfgH_step R hη (hle.trans (min_le_right _ _))
  refine ⟨v', hv, ?_⟩
  have e : Real.exp (-0) = 1 := by simp
  have := h3 (exCfgH R η) _ _ η η 1 (fun _ => 0) v' (exCfgH_ok R hη) rfl rfl (by norm_num [exCfgH, exCfgR]) rfl
    (hle.trans (min_le_left _ _))
    (fun w _ m hm => by
      simp only [exCfgH, Option.some.injEq] at hm
      simp only [minStepOf, exCfgH, zero_mul]
      rw [← hm]
      exact max_le hη.le le_rfl)
    (by rw [e]; exact .tail .refl hv)
  exact this

end
end Extensisq
