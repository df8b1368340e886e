import Verif.Props.NystromRobustness

/-!
# C120: restarts and changes of method

An integration is often done in pieces: the state of one solver is handed to a new one, with other tolerances, another first step, another method, an output grid or an event
in between. Here: however many pieces there are, the error stays within the bound of a single run; small changes of the state at the restarts add up once.
-/

set_option linter.unusedSectionVars false
set_option maxRecDepth 100000

namespace Extensisq
open Finset Asymptotics Filter Topology

variable {E : Type*} [NormedAddCommGroup E] [NormedSpace ℝ E]

/-- Time and state that are reached by a chain of solvers that started at `(t0, y0)`. Every solver has a configuration with the property `Seg` and is started from the time and
state reached before; the state may be changed by `d` at a restart (the last argument is the sum of the changes). Every step is at most `H` long and stays between `t0` and `b`. -/
inductive RunChain {W : Type*} (Seg : Cfg ℝ E W → Prop) (t0 b H : ℝ) (y0 : E) : ℝ → E → ℝ → Prop
  | start : RunChain Seg t0 b H y0 t0 y0 0
  | piece {s : ℝ} {u u' : E} {total d : ℝ} {c : Cfg ℝ E W} {h0 : ℝ} {e0 : ℕ} {Ks0 : ℕ → W} {v : Solver ℝ E W} :
      RunChain Seg t0 b H y0 s u total → ‖u' - u‖ ≤ d → CfgOK c → Seg c → 0 ≤ c.dir * (b - t0) →
      ReachWithin c (newSolver c s u' h0 e0 Ks0) t0 b H v → RunChain Seg t0 b H y0 v.st.t v.st.y (total + d)

/-- One piece. -/
theorem piece_error {W : Type*} {y : ℝ → E} {t0 b : ℝ} {Step : ℝ → E → ℝ → E → Prop} {ε Λ D H e0 : ℝ}
    (hΛ : 0 ≤ Λ) (hD : 0 ≤ D) (he0 : 0 ≤ e0) (hDε : (e0 + D * |b - t0|) * Real.exp (Λ * |b - t0|) < ε)
    (hbound : ∀ t ∈ Set.uIcc t0 b, ∀ (u u' : E) (h : ℝ), Step t u h u' → ‖u - y t‖ < ε → |h| ≤ H →
      ‖u' - y (t + h)‖ ≤ (1 + Λ * |h|) * ‖u - y t‖ + D * |h|)
    {c : Cfg ℝ E W} (hc : CfgOK c) (hdir : 0 ≤ c.dir * (b - t0)) {v0 v : Solver ℝ E W} (h0t : v0.st.t ∈ Set.uIcc t0 b)
    (h0y : ‖v0.st.y - y v0.st.t‖ ≤ (e0 + D * |v0.st.t - t0|) * Real.exp (Λ * |v0.st.t - t0|))
    (hstep : ∀ (w w' : Solver ℝ E W) (fuel : ℕ) (o : Out), Reach c v0 w → step c fuel w = some (o, w') →
      (w'.st.t = w.st.t ∧ w'.st.y = w.st.y) ∨ ∃ h, w'.st.t = w.st.t + h ∧ Step w.st.t w.st.y h w'.st.y)
    (hr : ReachWithin c v0 t0 b H v) :
    v.st.t ∈ Set.uIcc t0 b ∧ ‖v.st.y - y v.st.t‖ ≤ (e0 + D * |v.st.t - t0|) * Real.exp (Λ * |v.st.t - t0|) := by
  set L := |b - t0| with hL
  have hL0 : 0 ≤ L := abs_nonneg _
  have hgrow : ∀ a, 0 ≤ a → a ≤ L → (e0 + D * a) * Real.exp (Λ * a) ≤ (e0 + D * L) * Real.exp (Λ * L) := by
    intro a ha haL
    apply mul_le_mul _ _ (Real.exp_pos _).le (by positivity)
    · exact add_le_add_right (mul_le_mul_of_nonneg_left haL hD) _
    · exact Real.exp_le_exp.mpr (mul_le_mul_of_nonneg_left haL hΛ)
  have side : ∀ s ∈ Set.uIcc t0 b, 0 ≤ c.dir * (s - t0) := by
    intro s hs
    rcases hc.dir with hd | hd <;> rw [hd] at hdir ⊢
    · rw [Set.uIcc_of_le (by linarith)] at hs
      linarith [hs.1]
    · rw [Set.uIcc_of_ge (by linarith)] at hs
      linarith [hs.2]
  have habs : ∀ x, 0 ≤ c.dir * x → |x| = c.dir * x := by
    intro x hx
    rcases hc.dir with hd | hd <;> rw [hd] at hx ⊢
    · rw [one_mul] at hx ⊢; exact abs_of_nonneg hx
    · rw [abs_of_nonpos (by linarith)]; ring
  induction hr with
  | refl => exact ⟨h0t, h0y⟩
  | @tail w w' o fuel hr hs hle hmem ih =>
    obtain ⟨i1, i3⟩ := ih
    refine ⟨hmem, ?_⟩
    have hd : 0 ≤ c.dir * (w'.st.t - w.st.t) := by
      rcases step_time hc hs with ⟨e, -⟩ | ⟨-, -, h', e1, e2, e3⟩
      · rw [e, sub_self, mul_zero]
      · have hpos : 0 < h' := lt_of_lt_of_le (minStep_pos hc _ _) e1
        have : c.dir * (w'.st.t - w.st.t) = h' := by rw [e3]; linear_combination h' * dir_sq hc
        rw [this]; exact hpos.le
    rcases hstep w w' fuel o hr.reach hs with ⟨e1, e2⟩ | ⟨h, et, hk⟩
    · rw [e1, e2]; exact i3
    · have eh : w'.st.t - w.st.t = h := by rw [et]; ring
      rw [eh] at hle hd
      have ha : |w'.st.t - t0| = |w.st.t - t0| + |h| := by
        rw [habs _ (side _ hmem), habs _ (side _ i1), habs _ hd, et]; ring
      have hwL : |w.st.t - t0| ≤ L := Set.abs_sub_left_of_mem_uIcc i1
      have he : ‖w.st.y - y w.st.t‖ < ε := (i3.trans (hgrow _ (abs_nonneg _) hwL)).trans_lt hDε
      have hb := hbound w.st.t i1 _ _ h hk he hle
      rw [← et] at hb
      rw [ha]
      exact accumulate_from hD hΛ (abs_nonneg _) (abs_nonneg _) he0 i3 hb

theorem RunChain.total_nonneg {W : Type*} {Seg : Cfg ℝ E W → Prop} {t0 b H : ℝ} {y0 : E} {s : ℝ} {u : E} {total : ℝ}
    (h : RunChain Seg t0 b H y0 s u total) : 0 ≤ total := by
  induction h with
  | start => exact le_rfl
  | piece _ hd _ _ _ _ ih => linarith [(norm_nonneg _).trans hd]

/-- The error of a chain of solvers whose steps satisfy a local bound. -/
theorem chain_error {W : Type*} {Seg : Cfg ℝ E W → Prop} {y : ℝ → E} {t0 b : ℝ} {Step : ℝ → E → ℝ → E → Prop} {ε Λ D H : ℝ}
    (hΛ : 0 ≤ Λ) (hD : 0 ≤ D)
    (hbound : ∀ t ∈ Set.uIcc t0 b, ∀ (u u' : E) (h : ℝ), Step t u h u' → ‖u - y t‖ < ε → |h| ≤ H →
      ‖u' - y (t + h)‖ ≤ (1 + Λ * |h|) * ‖u - y t‖ + D * |h|)
    (hstep : ∀ (c : Cfg ℝ E W), Seg c → ∀ (s : ℝ) (u : E) (h0 : ℝ) (e0 : ℕ) (Ks0 : ℕ → W) (w w' : Solver ℝ E W) (fuel : ℕ) (o : Out),
      Reach c (newSolver c s u h0 e0 Ks0) w → step c fuel w = some (o, w') →
      (w'.st.t = w.st.t ∧ w'.st.y = w.st.y) ∨ ∃ h, w'.st.t = w.st.t + h ∧ Step w.st.t w.st.y h w'.st.y)
    {s : ℝ} {u : E} {total : ℝ} (hr : RunChain Seg t0 b H (y t0) s u total)
    (hDε : (total + D * |b - t0|) * Real.exp (Λ * |b - t0|) < ε) :
    s ∈ Set.uIcc t0 b ∧ ‖u - y s‖ ≤ (total + D * |s - t0|) * Real.exp (Λ * |s - t0|) := by
  induction hr with
  | start => exact ⟨Set.left_mem_uIcc, by simp⟩
  | @piece s u u' total d c h0 e0 Ks0 v hr hd hc hseg hdir hw ih =>
    have hd0 : 0 ≤ d := (norm_nonneg _).trans hd
    have hT0 := hr.total_nonneg
    obtain ⟨i1, i2⟩ := ih (lt_of_le_of_lt (mul_le_mul_of_nonneg_right (by linarith) (Real.exp_pos _).le) hDε)
    refine piece_error (y := y) (Step := Step) hΛ hD (by linarith) hDε hbound hc hdir (v0 := newSolver c s u' h0 e0 Ks0) i1 ?_
      (fun w w' fuel o => hstep c hseg s u' h0 e0 Ks0 w w' fuel o) hw
    show ‖u' - y s‖ ≤ (total + d + D * |s - t0|) * Real.exp (Λ * |s - t0|)
    have h1 := norm_add_le (u' - u) (u - y s)
    rw [sub_add_sub_cancel] at h1
    have h2 : (1 : ℝ) ≤ Real.exp (Λ * |s - t0|) := Real.one_le_exp (by positivity)
    have h3 : d ≤ d * Real.exp (Λ * |s - t0|) := le_mul_of_one_le_right hd0 h2
    have h4 : (total + d + D * |s - t0|) * Real.exp (Λ * |s - t0|) =
        d * Real.exp (Λ * |s - t0|) + (total + D * |s - t0|) * Real.exp (Λ * |s - t0|) := by ring
    rw [h4]
    linarith

/-- Constants for finitely many methods. -/
theorem uniform_constants {α : Type*} (l : List α) {P : α → ℝ → ℝ → ℝ → Prop}
    (hmono : ∀ a ε ε' C C' Λ Λ', ε' ≤ ε → C ≤ C' → Λ ≤ Λ' → P a ε C Λ → P a ε' C' Λ')
    (h : ∀ a ∈ l, ∃ ε C Λ : ℝ, 0 < ε ∧ 0 ≤ C ∧ 0 ≤ Λ ∧ P a ε C Λ) :
    ∃ ε C Λ : ℝ, 0 < ε ∧ 0 ≤ C ∧ 0 ≤ Λ ∧ ∀ a ∈ l, P a ε C Λ := by
  induction l with
  | nil => exact ⟨1, 0, 0, one_pos, le_rfl, le_rfl, by simp⟩
  | cons a l ih =>
    obtain ⟨ε, C, Λ, h1, h2, h3, h4⟩ := ih fun x hx => h x (List.mem_cons_of_mem _ hx)
    obtain ⟨ε', C', Λ', g1, g2, g3, g4⟩ := h a List.mem_cons_self
    refine ⟨min ε ε', max C C', max Λ Λ', lt_min h1 g1, le_max_of_le_left h2, le_max_of_le_left h3, fun x hx => ?_⟩
    rcases List.mem_cons.mp hx with rfl | hx
    · exact hmono _ _ _ _ _ _ _ (min_le_right _ _) (le_max_right _ _) (le_max_right _ _) g4
    · exact hmono _ _ _ _ _ _ _ (min_le_left _ _) (le_max_left _ _) (le_max_left _ _) (h4 x hx)

/-- From local bounds of finitely many methods of order at least `p` to chains. -/
theorem chain_global {W α : Type*} (l : List α) (order : α → ℕ) {y : ℝ → E} {t0 b : ℝ} {St : α → ℝ → E → ℝ → E → Prop}
    (hS : ∀ a ∈ l, ∃ ε C Λ : ℝ, 0 < ε ∧ 0 ≤ C ∧ 0 ≤ Λ ∧ ∀ t ∈ Set.uIcc t0 b, ∀ (u u' : E) (h : ℝ),
      St a t u h u' → ‖u - y t‖ < ε → |h| < ε → ‖u' - y (t + h)‖ ≤ (1 + Λ * |h|) * ‖u - y t‖ + C * |h| ^ (order a + 1))
    {p : ℕ} (hp : 1 ≤ p) {Seg : Cfg ℝ E W → Prop}
    (hstep : ∀ (c : Cfg ℝ E W), Seg c → ∃ a ∈ l, p ≤ order a ∧ ∀ (s : ℝ) (u : E) (h0 : ℝ) (e0 : ℕ) (Ks0 : ℕ → W)
      (w w' : Solver ℝ E W) (fuel : ℕ) (o : Out), Reach c (newSolver c s u h0 e0 Ks0) w → step c fuel w = some (o, w') →
      (w'.st.t = w.st.t ∧ w'.st.y = w.st.y) ∨ ∃ h, w'.st.t = w.st.t + h ∧ St a w.st.t w.st.y h w'.st.y) :
    ∃ C hstar : ℝ, 0 ≤ C ∧ 0 < hstar ∧ ∀ (H s : ℝ) (u : E) (total : ℝ), 0 ≤ H → H ≤ hstar → total ≤ hstar →
      RunChain Seg t0 b H (y t0) s u total → ‖u - y s‖ ≤ C * (H ^ p + total) := by
  obtain ⟨ε, C, Λ, hε, hC, hΛ, hall⟩ := uniform_constants l (P := fun a ε C Λ => ∀ t ∈ Set.uIcc t0 b, ∀ (u u' : E) (h : ℝ),
      St a t u h u' → ‖u - y t‖ < ε → |h| < ε → ‖u' - y (t + h)‖ ≤ (1 + Λ * |h|) * ‖u - y t‖ + C * |h| ^ (order a + 1))
    (by
      intro a ε ε' C C' Λ Λ' h1 h2 h3 h t ht u u' hh hs hu hhε
      refine (h t ht u u' hh hs (hu.trans_le h1) (hhε.trans_le h1)).trans ?_
      refine add_le_add (mul_le_mul_of_nonneg_right ?_ (norm_nonneg _)) (mul_le_mul_of_nonneg_right h2 (by positivity))
      exact add_le_add_right (mul_le_mul_of_nonneg_right h3 (abs_nonneg _)) _) hS
  set ℓ := |b - t0| with hℓ
  have hℓ0 : 0 ≤ ℓ := abs_nonneg _
  set X := Real.exp (Λ * ℓ) with hX
  have hX0 : 0 < X := Real.exp_pos _
  set K := (1 + C * ℓ) * X with hK
  have hK0 : 0 ≤ K := by positivity
  refine ⟨K, min 1 (min (ε / 2) (ε / (4 * (K + 1)))), hK0, by positivity, ?_⟩
  intro H s u total hH0 hH htot hr
  simp only [le_min_iff] at hH htot
  obtain ⟨a1, a2, a4⟩ := hH
  obtain ⟨-, -, b4⟩ := htot
  rw [le_div_iff₀ (by positivity)] at a4 b4
  have hT0 := hr.total_nonneg
  have hpow : H ^ p ≤ H := by
    calc H ^ p ≤ H ^ 1 := pow_le_pow_of_le_one hH0 a1 hp
      _ = H := pow_one H
  have hHp : 0 ≤ H ^ p := by positivity
  have hfin : (total + C * H ^ p * ℓ) * X ≤ K * (H ^ p + total) := by
    have e : K * (H ^ p + total) = (total + C * H ^ p * ℓ + (H ^ p + C * ℓ * total)) * X := by rw [hK]; ring
    rw [e]
    refine mul_le_mul_of_nonneg_right ?_ hX0.le
    have : 0 ≤ C * ℓ * total := by positivity
    linarith
  have hlt : (total + C * H ^ p * ℓ) * X < ε := by
    refine hfin.trans_lt ?_
    have : K * H ^ p ≤ K * H := mul_le_mul_of_nonneg_left hpow hK0
    nlinarith
  obtain ⟨m1, m2⟩ := chain_error (y := y) (t0 := t0) (b := b) (ε := ε) (D := C * H ^ p) (H := H) hΛ (by positivity)
    (Step := fun t u h u' => ∃ a ∈ l, p ≤ order a ∧ St a t u h u')
    (by
      rintro t ht u u' h ⟨a, ha, hpa, hs⟩ hu hle
      refine (hall a ha t ht u u' h hs hu (by linarith)).trans (add_le_add_right ?_ _)
      rw [mul_assoc]
      refine mul_le_mul_of_nonneg_left ?_ hC
      calc |h| ^ (order a + 1) ≤ |h| ^ (p + 1) := pow_le_pow_of_le_one (abs_nonneg _) (hle.trans a1) (by omega)
        _ = |h| ^ p * |h| := pow_succ _ _
        _ ≤ _ := mul_le_mul_of_nonneg_right (pow_le_pow_left₀ (abs_nonneg _) hle _) (abs_nonneg _))
    (by
      intro c hc s u h0 e0 Ks0 w w' fuel o hw hs
      obtain ⟨a, ha, hpa, hst⟩ := hstep c hc
      rcases hst s u h0 e0 Ks0 w w' fuel o hw hs with e | ⟨h, e1, e2⟩
      · exact Or.inl e
      · exact Or.inr ⟨h, e1, a, ha, hpa, e2⟩) hr hlt
  have hsL : |s - t0| ≤ ℓ := Set.abs_sub_left_of_mem_uIcc m1
  refine m2.trans (le_trans ?_ hfin)
  apply mul_le_mul _ _ (Real.exp_pos _).le (by positivity)
  · exact add_le_add_right (mul_le_mul_of_nonneg_left hsL (by positivity)) _
  · exact Real.exp_le_exp.mpr (mul_le_mul_of_nonneg_left hsL hΛ)

/-- The solver integrates `y' = f(t, y)` with one of the Runge-Kutta methods of order at least `p`. -/
def SolvesRK (f : ℝ → E → E) (p : ℕ) (c : Cfg ℝ E E) : Prop :=
  ∃ R ∈ rationalRK, p ≤ R.order ∧ ∃ errNorm P, c.m = rkMethod (R.tab ℝ) f errNorm P

/-- The solver integrates `u'' = acc(t, u, u')` with one of the Nystrom methods of order at least `p`; `MR6NN` only if the acceleration is independent of the velocity. -/
def SolvesNy (acc : ℝ → E × E → E) (p : ℕ) (c : Cfg ℝ (E × E) E) : Prop :=
  ∃ R ∈ rationalNy, p ≤ R.order ∧ (R.hasAp = false → ∀ t u v w, acc t (u, v) = acc t (u, w)) ∧ ∃ errNorm, c.m = nyMethod (R.tab ℝ) acc errNorm

/-- **C120.** Let `y` solve `y' = f(t, y)` between `t0` and `b`. There are constants such that, for every chain of solvers, each started from where the previous one stopped, with
any of the methods of order at least `p`, any tolerances, controllers and first steps, with steps of at most `H`: the error is at most `C (H^p + changes)`, where `changes` is the
sum of the changes that were made to the state at the restarts. The constant does not depend on the number of restarts. -/
theorem C120_restarts [CompleteSpace E] {f : ℝ → E → E} {y : ℝ → E} {t0 b : ℝ} (hy : SolvesOn f y t0 b) {p : ℕ} (hp : 1 ≤ p) :
    ∃ C hstar : ℝ, 0 ≤ C ∧ 0 < hstar ∧ ∀ (H s : ℝ) (u : E) (changes : ℝ), 0 ≤ H → H ≤ hstar → changes ≤ hstar →
      RunChain (SolvesRK f p) t0 b H (y t0) s u changes → ‖u - y s‖ ≤ C * (H ^ p + changes) := by
  refine chain_global rationalRK RKTable.order (St := fun R t u h u' => ∃ k, IsRKStep (R.tab ℝ) f t u h k u') ?_ hp ?_
  · intro R hR
    obtain ⟨ε, C, Λ, h1, h2, h3, h4⟩ := main_bound R hR hy
    exact ⟨ε, C, Λ, h1, h2, h3, fun t ht u u' h ⟨k, hk⟩ => h4 t ht u u' h k hk⟩
  · rintro c ⟨R, hR, hpR, errNorm, P, hm⟩
    obtain ⟨_, _, r1, r2⟩ := rationalRK_rows R hR
    refine ⟨R, hR, hpR, fun s u h0 e0 Ks0 w w' fuel o hw hs => ?_⟩
    rcases rk_step_or hm r1 r2 hw hs with e | ⟨h, k, hk, et⟩
    · exact Or.inl e
    · exact Or.inr ⟨h, et, k, hk⟩

/-- **C120** for the Nystrom methods: position and velocity. -/
theorem C120_restarts_nystrom [CompleteSpace E] {acc : ℝ → E × E → E} {y : ℝ → E × E} {t0 b : ℝ} (hy : NySolvesOn acc y t0 b) {p : ℕ} (hp : 1 ≤ p) :
    ∃ C hstar : ℝ, 0 ≤ C ∧ 0 < hstar ∧ ∀ (H s : ℝ) (u : E × E) (changes : ℝ), 0 ≤ H → H ≤ hstar → changes ≤ hstar →
      RunChain (SolvesNy acc p) t0 b H (y t0) s u changes → ‖u - y s‖ ≤ C * (H ^ p + changes) := by
  have key : ∀ R ∈ rationalNy, R.C.getD 0 0 = 0 ∧ 0 < R.s ∧ 1 ≤ R.order := by decide +kernel
  refine chain_global rationalNy NyTable.order (St := fun R t u h u' => (R.hasAp = false → ∀ t u v w, acc t (u, v) = acc t (u, w)) ∧
    ∃ k : ℕ → E, IsNyStep (R.tab ℝ) acc t u h k u') ?_ hp ?_
  · intro R hR
    by_cases hv : R.hasAp = false → ∀ t u v w, acc t (u, v) = acc t (u, w)
    · obtain ⟨ε, C, Λ, h1, h2, h3, h4⟩ := ny_main_bound R hR hy hv
      exact ⟨ε, C, Λ, h1, h2, h3, fun t ht u u' h ⟨_, k, hk⟩ => h4 t ht u u' h k hk⟩
    · exact ⟨1, 0, 0, one_pos, le_rfl, le_rfl, fun t ht u u' h ⟨hv', _⟩ => absurd hv' hv⟩
  · rintro c ⟨R, hR, hpR, hv, errNorm, hm⟩
    have hC0 : (R.tab ℝ).C 0 = 0 := by
      have := congrArg (fun q : ℚ => (q : ℝ)) (key R hR).1
      simpa [NyTable.tab] using this
    refine ⟨R, hR, hpR, fun s u h0 e0 Ks0 w w' fuel o hw hs => ?_⟩
    rcases ny_step_or hm hC0 (key R hR).2.1 hw hs with e | ⟨h, et, k, hk⟩
    · exact Or.inl e
    · exact Or.inr ⟨h, et, hv, k, hk⟩

/-- Histories of a piece with `max_step = H` and a `t_bound` between its start and `b`. -/
theorem piece_max_step {W : Type*} {c : Cfg ℝ E W} (hc : CfgOK c) {t0 b b' s H : ℝ} (hb : c.tb = some b') (hs : s ∈ Set.uIcc t0 b)
    (hb' : b' ∈ Set.uIcc t0 b) (hdir : 0 ≤ c.dir * (b' - s)) (hmax : c.maxStep = some H) {v0 v : Solver ℝ E W} (h0 : v0.st.t = s)
    (hu : ∀ w, Reach c v0 w → MaxStepUsable c w.st) (hr : Reach c v0 v) : ReachWithin c v0 t0 b H v := by
  have := reachWithin_of_max_step hc hb hdir hmax h0 hu hr
  have sub : Set.uIcc s b' ⊆ Set.uIcc t0 b := Set.uIcc_subset_uIcc hs hb'
  induction this with
  | refl => exact .refl
  | @tail w w' o fuel hw hst hle hmem ih => exact .tail (ih hw.reach) hst hle (sub hmem)

theorem RunChain.mem {W : Type*} {Seg : Cfg ℝ E W → Prop} {t0 b H : ℝ} {y0 : E} {s : ℝ} {u : E} {total : ℝ}
    (h : RunChain Seg t0 b H y0 s u total) : s ∈ Set.uIcc t0 b := by
  induction h with
  | start => exact Set.left_mem_uIcc
  | piece _ _ _ _ _ hw ih =>
    cases hw with
    | refl => exact ih
    | tail _ _ _ hm => exact hm

/-- **C120** with `max_step`: any history of a new solver with `max_step = H` and a `t_bound` between its start and `b` is a further piece of the chain, so that
`C120_restarts` applies to it. -/
theorem C120_max_step_piece {W : Type*} {Seg : Cfg ℝ E W → Prop} {t0 b b' H : ℝ} {y0 : E} {s : ℝ} {u u' : E} {total d : ℝ}
    (h : RunChain Seg t0 b H y0 s u total) (hd : ‖u' - u‖ ≤ d) {c : Cfg ℝ E W} (hc : CfgOK c) (hseg : Seg c) (hdir : 0 ≤ c.dir * (b - t0))
    (hb : c.tb = some b') (hb' : b' ∈ Set.uIcc s b) (hmax : c.maxStep = some H) {h0 : ℝ} {e0 : ℕ} {Ks0 : ℕ → W} {v : Solver ℝ E W}
    (hu : ∀ w, Reach c (newSolver c s u' h0 e0 Ks0) w → MaxStepUsable c w.st) (hr : Reach c (newSolver c s u' h0 e0 Ks0) v) :
    RunChain Seg t0 b H y0 v.st.t v.st.y (total + d) := by
  have hs := h.mem
  refine .piece h hd hc hseg hdir (piece_max_step hc hb hs ?_ ?_ hmax rfl hu hr)
  · exact Set.uIcc_subset_uIcc hs Set.right_mem_uIcc hb'
  · rcases hc.dir with e | e <;> rw [e] at hdir ⊢
    · rw [Set.uIcc_of_le (by linarith)] at hs
      rw [Set.uIcc_of_le hs.2] at hb'
      linarith [hb'.1]
    · rw [Set.uIcc_of_ge (by linarith)] at hs
      rw [Set.uIcc_of_ge hs.1] at hb'
      linarith [hb'.2]

/-! ## The hypotheses are met -/

/-- A step of `exCfgH` from any time and state. -/
theorem exRestart_step (R : RKTable) {η s : ℝ} (u : ℝ) (hη : 0 < η) (hs : s + 2 * η ≤ 1) : ∃ v', step (exCfgH R η) 1
    (newSolver (exCfgH R η) s u η 1 (fun _ => 0)) = some (.ok, v') ∧ v'.st.t = s + η := by
  have hms : minStepOf (exCfgH R η) s η = η := by
    simp only [minStepOf, exCfgH, zero_mul]
    exact max_eq_right hη.le
  have hre : reassess (exCfgH R η) (newSolver (exCfgH R η) s u η 1 (fun _ => 0)).st = (η, η, true) := by
    have e1 : (newSolver (exCfgH R η) s u η 1 (fun _ => 0)).st.hAbs = η := rfl
    have e2 : (newSolver (exCfgH R η) s u η 1 (fun _ => 0)).st.t = s := rfl
    have e3 : (newSolver (exCfgH R η) s u η 1 (fun _ => 0)).st.stdSc = true := rfl
    have e4 : (exCfgH R η).tb = some 1 := rfl
    have e5 : (exCfgH R η).maxStep = some η := rfl
    unfold reassess
    simp only [e1, e2, e3, e4, e5, hms, overMax, lt_irrefl, decide_false, Bool.or_false, Bool.false_eq_true, if_false]
    have : ¬ (|(1 : ℝ) - s| < 2 * η) := by rw [abs_of_nonneg (by linarith)]; linarith
    simp only [this, if_false]
  obtain ⟨s', hs'⟩ := loop_accepts (c := exCfgH R η) (n := 0)
    (s := { (newSolver (exCfgH R η) s u η 1 (fun _ => 0)).st with stdSc := true }) (h := η)
    (ms := η) (x := 1 / 2) (rej := false) (lt_irrefl η)
    (by simp [exCfgH, exCfgR, rkMethod, rkTrial, PreTest.none, ENorm.gt]) rfl (by norm_num) rfl rfl
  have hst : step (exCfgH R η) 1 (newSolver (exCfgH R η) s u η 1 (fun _ => 0)) =
      some (.ok, { status := if reached (exCfgH R η) s'.t then .finished else .running, tOld := some s, st := s' }) := by
    have h0 : (exCfgH R η).tb ≠ some s := by
      simp only [exCfgH, exCfgR, ne_eq, Option.some.injEq]
      intro e; linarith
    unfold step
    change (if (exCfgH R η).tb = some s then _ else _) = _
    rw [if_neg h0]
    unfold stepImpl
    rw [hre]
    dsimp only
    rw [hs']
    rfl
  refine ⟨_, hst, ?_⟩
  have hc := exCfgH_ok R hη
  rcases step_time hc hst with ⟨-, h2 | h2⟩ | ⟨-, -, h', e1, e2, e3⟩
  · exact absurd rfl h2
  · simp only [exCfgH, exCfgR, newSolver, Option.some.injEq] at h2
    linarith
  · rw [hre] at e2
    have e1 : minStepOf (exCfgH R η) s η ≤ h' := e1
    rw [hms] at e1
    obtain rfl : h' = η := le_antisymm e2 e1
    rw [e3]
    show s + h' * 1 = s + h'
    ring

/-- A chain of two solvers on `y' = -y` with different methods; the state is changed by `δ` at the restart. -/
theorem exRestart_chain {R1 R2 : RKTable} (h1 : R1 ∈ rationalRK) (h2 : R2 ∈ rationalRK) {p : ℕ} (hp1 : p ≤ R1.order) (hp2 : p ≤ R2.order)
    {η δ : ℝ} (hη : 0 < η) (hη1 : η ≤ 1 / 4) (hδ : 0 ≤ δ) :
    ∃ u, RunChain (SolvesRK (fun (_ : ℝ) (u : ℝ) => -u) p) 0 1 η (Real.exp (-0)) (0 + η + η) u (0 + 0 + δ) := by
  obtain ⟨v1, s1, t1⟩ := exRestart_step R1 (s := 0) (Real.exp (-0)) hη (by linarith)
  obtain ⟨v2, s2, t2⟩ := exRestart_step R2 (s := 0 + η) (v1.st.y + δ) hη (by linarith)
  have hd : ∀ R, 0 ≤ (exCfgH R η).dir * (1 - 0) := fun R => by norm_num [exCfgH, exCfgR]
  have mem : ∀ x : ℝ, 0 ≤ x → x ≤ 1 → x ∈ Set.uIcc (0 : ℝ) 1 := fun x a b => Set.mem_uIcc.mpr (Or.inl ⟨a, b⟩)
  have c1 := RunChain.piece (Seg := SolvesRK (fun (_ : ℝ) (u : ℝ) => -u) p) (t0 := 0) (b := 1) (H := η) (y0 := Real.exp (-0)) (u' := Real.exp (-0))
    (d := 0) (v := v1) .start (by simp) (exCfgH_ok R1 hη) ⟨R1, h1, hp1, _, _, rfl⟩ (hd R1)
    (.tail .refl s1 (by rw [t1]; show |0 + η - 0| ≤ η; rw [zero_add, sub_zero, abs_of_pos hη]) (by rw [t1]; exact mem _ (by linarith) (by linarith)))
  rw [t1] at c1
  have c2 := RunChain.piece (u' := v1.st.y + δ) (d := δ) (v := v2) c1 (by simp [abs_of_nonneg hδ]) (exCfgH_ok R2 hη) ⟨R2, h2, hp2, _, _, rfl⟩ (hd R2)
    (.tail .refl s2 (by rw [t2]; show |0 + η + η - (0 + η)| ≤ η; rw [add_sub_cancel_left, abs_of_pos hη]) (by rw [t2]; exact mem _ (by linarith) (by linarith)))
  rw [t2] at c2
  exact ⟨_, c2⟩

/-- C120: from `Me4` to `Pr7` on `y' = -y`. -/
example : ∃ C hstar : ℝ, 0 < hstar ∧ ∀ η δ, 0 < η → η ≤ hstar → 0 ≤ δ → δ ≤ hstar →
    ∃ u, RunChain (SolvesRK (fun (_ : ℝ) (u : ℝ) => -u) 4) 0 1 η (Real.exp (-0)) (0 + η + η) u (0 + 0 + δ) ∧
      |u - Real.exp (-(0 + η + η))| ≤ C * (η ^ 4 + (0 + 0 + δ)) := by
  obtain ⟨C, hstar, _, h2, h3⟩ := C120_restarts exDecay_solves (p := 4) (by norm_num)
  refine ⟨C, min hstar (1 / 4), lt_min h2 (by norm_num), fun η δ hη hle hδ0 hδ => ?_⟩
  obtain ⟨u, hu⟩ := exRestart_chain (R1 := Me4) (R2 := Pr7) (p := 4) (by simp [rationalRK]) (by simp [rationalRK]) (by decide) (by decide) hη
    (hle.trans (min_le_right _ _)) hδ0
  exact ⟨u, hu, h3 η _ u _ hη.le (hle.trans (min_le_left _ _)) (by linarith [hδ.trans (min_le_left _ _)]) hu⟩

end Extensisq
