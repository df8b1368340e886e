import Verif.Model.ChebDense
import Verif.Props.ChebStages
import Verif.Props.Convergence
import Verif.Props.ChebWitness

/-!
# SSV2stab: dense output (C92) and convergence (C93)
-/

set_option linter.unusedSectionVars false

namespace Extensisq
open scoped ContDiff
open Finset Asymptotics Filter Topology

/-! ## C92: the dense output -/

section
variable {K V : Type*} [Field K] [LinearOrder K] [IsStrictOrderedRing K] [FloorSemiring K]
  [AddCommGroup V] [Module K V]
variable {c : ChebCfg K V}

theorem chebAttempt_prev {s s' : ChebSt K V} {absh sp : K} {m : ℕ} {o : ChebOut}
    (h : chebAttempt c s absh sp m = .done o s') (ho : o ≠ .ok) : s'.prev = none := by
  unfold chebAttempt at h
  dsimp only at h
  split at h
  · split_ifs at h
    · split at h
      · cases h; rfl
      · cases h; exact absurd rfl ho
    · cases h; rfl
  · cases h; rfl

theorem chebLoop_prev : ∀ (n : ℕ) (s : ChebSt K V) (a : Option K) {o : ChebOut} {s' : ChebSt K V},
    chebLoop c n s a = some (o, s') → o = .rhoFailed ∨ o = .overflow ∨ o = .tooSmall → s'.prev = none
  | 0, _, _, _, _, h, _ => by simp [chebLoop] at h
  | n + 1, s, a, o, s', h, ho => by
    have htry : ∀ (s1 : ChebSt K V) (a1 sp : K), chebTry c s1 a1 sp = .done o s' → s'.prev = none := by
      intro s1 a1 sp ht
      unfold chebTry at ht
      dsimp only at ht
      by_cases hneg : 77 / 50 * chebFit c.tb s1.t a1 * sp + 1 < 0
      · rw [if_pos hneg] at ht
        cases ht
        rcases ho with ho | ho | ho <;> cases ho
      · rw [if_neg hneg] at ht
        refine chebAttempt_prev ht ?_
        rintro rfl
        rcases ho with ho | ho | ho <;> cases ho
    unfold chebLoop at h
    cases hi : chebIter c s a with
    | done o1 s1 =>
      rw [hi] at h
      cases h
      unfold chebIter at hi
      split at hi
      · cases hi; rfl
      · split at hi
        · cases hi
          rcases ho with ho | ho | ho <;> cases ho
        · split at hi
          · exact htry _ _ _ hi
          · exact htry _ _ _ hi
    | retry s1 a1 =>
      rw [hi] at h
      exact chebLoop_prev n s1 (some a1) h ho

/-- A running solver has not been asked for a step on `t_bound`. -/
theorem cheb_running_tOld {t0 : K} {y0 : V} {first : Option K} (hs : ChebStart c t0 first) {v : ChebSolver K V}
    (hr : ChebReach c (newCheb c t0 y0 first) v) (hv : v.status = .running) : v.tOld ≠ some v.st.t := by
  induction hr with
  | refl => intro e; cases e
  | @tail v v' o fuel hr h ih =>
    rcases (chebStep_spec hs.ok (hr.inv hs) h).2.1 with ⟨-, ⟨hn, -, e⟩ | ⟨rfl, e⟩⟩ | ⟨-, -, -, -, hto, q, hq⟩ | ⟨-, e, -⟩
    · rw [e] at hv; exact absurd hv hn
    · unfold chebStep at h
      split at h
      · rw [if_pos e] at h
        cases h
        cases hv
      · cases h
    · rw [hto, hq.t]
      intro e
      have hpos := hq.ok.pos
      have : q.h = 0 := by
        have := Option.some.inj e
        exact left_eq_add.mp this
      rw [this, mul_zero] at hpos
      exact lt_irrefl _ hpos
    · rw [e] at hv; cases hv

/-- **C92**. The data of the last step do not survive a failed step: whatever the history, after a failing
`step()` the rows of the work array which hold the old solution and derivative contain scratch data, so
that no dense output can be made (although `t` and `y` are still those of the last successful step). -/
theorem C92_lost_after_failure {t0 : K} {y0 : V} {first : Option K} (hs : ChebStart c t0 first)
    {v v' : ChebSolver K V} (hr : ChebReach c (newCheb c t0 y0 first) v) {fuel : ℕ} {o : ChebOut}
    (h : chebStep c fuel v = some (o, v')) (ho : o = .rhoFailed ∨ o = .overflow ∨ o = .tooSmall) :
    chebDense v' = none := by
  have hv : v'.st.t = v.st.t := by
    rcases (chebStep_spec hs.ok (hr.inv hs) h).2.1 with ⟨e, -⟩ | ⟨-, -, rfl, -⟩ | ⟨-, -, e, -⟩
    · rw [e]
    · rcases ho with ho | ho | ho <;> cases ho
    · exact e
  have ht : v.status = .running → v.tOld ≠ some v.st.t := cheb_running_tOld hs hr
  unfold chebStep at h
  split at h
  · rename_i hrun
    have ht := ht hrun
    split_ifs at h
    · cases h
      rcases ho with ho | ho | ho <;> cases ho
    · split at h
      · cases h
      · rename_i o1 s1 heq
        have hp := chebLoop_prev fuel v.st v.st.absh heq
        rcases o1 with _ | _ | _ | _ | _ | _ | _ <;> dsimp only at h <;> cases h <;>
          rcases ho with ho | ho | ho <;> cases ho <;>
        · have hp := hp (by simp)
          have hv : s1.t = v.st.t := hv
          unfold chebDense
          dsimp only
          split
          · rfl
          · rename_i tO hO
            rw [if_neg (by rw [hv]; intro e; exact ht (by rw [hO, e])), hp]
  · cases h
    rcases ho with ho | ho | ho <;> cases ho

end

section
variable {E : Type*} [NormedAddCommGroup E] [NormedSpace ℝ E] {c : ChebCfg ℝ E}

/-- The dense output after a successful step. -/
theorem chebDense_eq {t0 : ℝ} {y0 : E} {first : Option ℝ} (hs : ChebStart c t0 first)
    {v v' : ChebSolver ℝ E} (hr : ChebReach c (newCheb c t0 y0 first) v) {fuel : ℕ}
    (h : chebStep c fuel v = some (.ok, v')) (hne : c.tb ≠ some v.st.t) :
    v'.st.t ≠ v.st.t ∧
    chebDense v' = some (cubic v.st.t v'.st.t v.st.yn v'.st.yn (c.rhs v.st.t v.st.yn) (c.rhs v'.st.t v'.st.yn)) := by
  have hi := hr.inv hs
  have hi' := (chebStep_spec hs.ok hi h).1
  rcases (chebStep_spec hs.ok hi h).2.1 with ⟨-, ⟨-, e, -⟩ | ⟨-, e⟩⟩ | ⟨-, -, -, -, hto, q, hq⟩ | ⟨e | e | e, -⟩
  · cases e
  · exact absurd e hne
  · have hpos := hq.ok.pos
    have hnt : v'.st.t ≠ v.st.t := by
      rw [hq.t]
      intro e
      have : q.h = 0 := by linarith
      rw [this, mul_zero] at hpos
      exact lt_irrefl _ hpos
    refine ⟨hnt, ?_⟩
    unfold chebDense
    rw [hto]
    dsimp only
    rw [if_neg hnt, hq.prev]
    dsimp only
    rw [hi.fn, hi'.fn]
  all_goals cases e

/-- **C92**. After every successful step of a SSV2stab solver `dense_output()` returns a function that has the
values of the solution and the slopes of the right-hand side at both ends of the step. -/
theorem C92_dense_C1 {t0 : ℝ} {y0 : E} {first : Option ℝ} (hs : ChebStart c t0 first)
    {v v' : ChebSolver ℝ E} (hr : ChebReach c (newCheb c t0 y0 first) v) {fuel : ℕ}
    (h : chebStep c fuel v = some (.ok, v')) (hne : c.tb ≠ some v.st.t) :
    ∃ u, chebDense v' = some u ∧ Joins u v.st.t v.st.yn (c.rhs v.st.t v.st.yn)
      v'.st.t v'.st.yn (c.rhs v'.st.t v'.st.yn) := by
  obtain ⟨ht, e⟩ := chebDense_eq hs hr h hne
  refine ⟨_, e, ?_⟩
  obtain ⟨h1, h2⟩ := C24_cubic_ends ht v.st.yn v'.st.yn (c.rhs v.st.t v.st.yn) (c.rhs v'.st.t v'.st.yn)
  obtain ⟨h3, h4⟩ := C24_cubic_derivatives ht v.st.yn v'.st.yn (c.rhs v.st.t v.st.yn) (c.rhs v'.st.t v'.st.yn)
  exact ⟨h1, h2, h3, h4⟩

/-- **C92**. The functions of two consecutive steps join continuously and with the same slope. -/
theorem C92_pieces_join {t0 : ℝ} {y0 : E} {first : Option ℝ} (hs : ChebStart c t0 first)
    {v v1 v2 : ChebSolver ℝ E} (hr : ChebReach c (newCheb c t0 y0 first) v) {fuel fuel' : ℕ}
    (h : chebStep c fuel v = some (.ok, v1)) (h' : chebStep c fuel' v1 = some (.ok, v2))
    (hne : c.tb ≠ some v.st.t) (hne' : c.tb ≠ some v1.st.t) :
    ∃ u1 u2, chebDense v1 = some u1 ∧ chebDense v2 = some u2 ∧ u1 v1.st.t = u2 v1.st.t ∧
      ∃ s, HasDerivAt u1 s v1.st.t ∧ HasDerivAt u2 s v1.st.t := by
  obtain ⟨u1, e1, j1⟩ := C92_dense_C1 hs hr h hne
  obtain ⟨u2, e2, j2⟩ := C92_dense_C1 hs (hr.tail h) h' hne'
  exact ⟨u1, u2, e1, e2, by rw [j1.stop, j2.start], _, j1.slope1, j2.slope0⟩

/-! ## C93: convergence -/

/-- The stages of the scheme as an explicit Runge-Kutta method. -/
theorem rkc_exStage (f : ℝ → E → E) {m : ℕ} (hm : 2 ≤ m) (t : ℝ) (u : E) (h : ℝ) :
    ∀ i, i ≤ m → f (t + h * thT (rkcW0 m) (rkcW1 m) i) (rkcY f (rkcW0 m) (rkcW1 m) t u (f t u) h i) =
      exStage (rkcRow (rkcW0 m) (rkcW1 m)) (thT (rkcW0 m) (rkcW1 m)) f i (t, u, h) := by
  have hw := (rkcW0_gt m (by omega)).le
  intro i
  induction i using Nat.strong_induction_on with
  | _ i ih =>
    intro hi
    rw [exStage_eq]
    dsimp only
    rw [mul_comm h]
    congr 1
    rw [rkcY_rk f hw _ t u _ h rfl i hi (by omega : 1 ≤ m)]
    congr 2
    rw [← sum_subset (range_subset_range.mpr hi)]
    · apply sum_congr rfl
      intro j hj
      have hj := mem_range.mp hj
      rw [ih j hj (by omega)]
    · intro j _ hj
      rw [rkcRow_lower _ _ i j (by simpa using hj), zero_smul]

/-- The solution at the end of a step. -/
theorem rkc_solution (f : ℝ → E → E) {m : ℕ} (hm : 2 ≤ m) (t : ℝ) (u : E) (h : ℝ) :
    rkcStages f t u (f t u) h m = u + h • ∑ i ∈ range (m + 1), rkcRow (rkcW0 m) (rkcW1 m) m i •
      exStage (rkcRow (rkcW0 m) (rkcW1 m)) (thT (rkcW0 m) (rkcW1 m)) f i (t, u, h) := by
  have hw := (rkcW0_gt m (by omega)).le
  rw [rkcStages_eq f t u _ h hm, rkcY_rk f hw _ t u _ h rfl m (by omega : m ≤ m + 1) (by omega)]
  congr 2
  apply sum_congr rfl
  intro i hi
  rw [rkc_exStage f hm t u h i (by rw [mem_range] at hi; omega)]

/-- The weights of the dense output. -/
noncomputable def rkcDenseW (m i : ℕ) (θ : ℝ) : ℝ :=
  θ ^ 2 * (3 - 2 * θ) * rkcRow (rkcW0 m) (rkcW1 m) m i + (if i = 0 then θ * (1 - θ) ^ 2 else 0)
    + if i = m then θ ^ 2 * (θ - 1) else 0

/-- The dense output of a step is a combination of the stages. -/
theorem rkc_dense (f : ℝ → E → E) {m : ℕ} (hm : 2 ≤ m) (t : ℝ) (u : E) (h θ : ℝ) :
    cubic t (t + h) u (rkcStages f t u (f t u) h m) (f t u) (f (t + h) (rkcStages f t u (f t u) h m)) (t + θ * h) =
      u + h • stageComb (m + 1) (rkcRow (rkcW0 m) (rkcW1 m)) (thT (rkcW0 m) (rkcW1 m)) (rkcDenseW m) f θ (t, u, h) := by
  have e0 : f t u = exStage (rkcRow (rkcW0 m) (rkcW1 m)) (thT (rkcW0 m) (rkcW1 m)) f 0 (t, u, h) := by
    rw [← rkc_exStage f hm t u h 0 (by omega), thT_zero, mul_zero, add_zero]
    rfl
  have em : f (t + h) (rkcStages f t u (f t u) h m) =
      exStage (rkcRow (rkcW0 m) (rkcW1 m)) (thT (rkcW0 m) (rkcW1 m)) f m (t, u, h) := by
    rw [← rkc_exStage f hm t u h m le_rfl, thT_last hm, mul_one, rkcStages_eq f t u _ h hm]
  have hsum : stageComb (m + 1) (rkcRow (rkcW0 m) (rkcW1 m)) (thT (rkcW0 m) (rkcW1 m)) (rkcDenseW m) f θ (t, u, h) =
      (θ ^ 2 * (3 - 2 * θ)) • ∑ i ∈ range (m + 1), rkcRow (rkcW0 m) (rkcW1 m) m i •
        exStage (rkcRow (rkcW0 m) (rkcW1 m)) (thT (rkcW0 m) (rkcW1 m)) f i (t, u, h)
      + (θ * (1 - θ) ^ 2) • exStage (rkcRow (rkcW0 m) (rkcW1 m)) (thT (rkcW0 m) (rkcW1 m)) f 0 (t, u, h)
      + (θ ^ 2 * (θ - 1)) • exStage (rkcRow (rkcW0 m) (rkcW1 m)) (thT (rkcW0 m) (rkcW1 m)) f m (t, u, h) := by
    unfold stageComb rkcDenseW
    simp only [add_smul, mul_smul, sum_add_distrib, ← smul_sum, ite_smul, zero_smul]
    rw [sum_ite_eq' (range (m + 1)) 0, sum_ite_eq' (range (m + 1)) m, if_pos (mem_range.mpr (by omega)),
      if_pos (mem_range.mpr (by omega))]
  unfold cubic
  dsimp only
  rw [em, hsum, rkc_solution f hm t u h, ← e0]
  rw [show t + h - t = h by ring, show t + θ * h - t = θ * h by ring]
  by_cases hh : h = 0
  · subst hh
    simp
  · rw [mul_div_assoc, div_self hh, mul_one]
    generalize exStage (rkcRow (rkcW0 m) (rkcW1 m)) (thT (rkcW0 m) (rkcW1 m)) f m (t, u, h) = g
    module

theorem order_two_var {n : ℕ} {A : ℕ → ℕ → ℝ} {c : ℕ → ℝ} (hA : ∀ i, i < n → ∑ j ∈ range n, A i j = c i)
    {b : ℕ → ℝ} {θ : ℝ} (h1 : ∑ i ∈ range n, b i = θ) (h2 : ∑ i ∈ range n, b i * c i = θ ^ 2 / 2) :
    ∀ τ : OTree, τ.size ≤ 2 → ∑ i ∈ range n, b i * τ.weight n A i = θ ^ τ.size / (τ.dens : ℝ) := by
  intro τ hτ
  rcases tree_le_two τ hτ with rfl | rfl
  · simp only [OTree.leaf_weight, mul_one, h1]
    simp [OTree.leaf, OTree.dens, OTree.size]
  · have : ∀ i ∈ range n, b i * (OTree.node 1 (fun _ => OTree.leaf)).weight n A i = b i * c i := by
      intro i hi
      simp only [OTree.weight, Fin.prod_univ_one, OTree.leaf_weight, mul_one]
      rw [hA i (mem_range.mp hi)]
    rw [sum_congr rfl this, h2]
    simp [OTree.leaf, OTree.dens, OTree.size]

/-- **C92**. Accuracy of the dense output: on a step of size `h` from the exact solution, with any number of
stages, the cubic spline differs from the exact solution by `O(h^3)`, uniformly over the step (`θ` is an
arbitrary bounded function of `h`). -/
theorem C92_dense_accuracy {m : ℕ} (hm : 2 ≤ m) {f : ℝ → E → E} {t0 : ℝ} {y0 : E}
    (hf : ContDiffAt ℝ ∞ (fun z : ℝ × E => f z.1 z.2) (t0, y0)) (θ : ℝ → ℝ) (M : ℝ) (hθ : ∀ h, |θ h| ≤ M)
    (y : ℝ → E) (hy0 : y t0 = y0) (hy : ∀ᶠ t in 𝓝 t0, HasDerivAt y (f t (y t)) t) :
    (fun h => cubic t0 (t0 + h) y0 (rkcStages f t0 y0 (f t0 y0) h m) (f t0 y0)
        (f (t0 + h) (rkcStages f t0 y0 (f t0 y0) h m)) (t0 + θ h * h) - y (t0 + θ h * h))
      =O[𝓝 0] fun h : ℝ => h ^ 3 := by
  have hw := (rkcW0_gt m (by omega)).le
  set A : ℕ → ℕ → ℝ := rkcRow (rkcW0 m) (rkcW1 m) with hAdef
  set c : ℕ → ℝ := thT (rkcW0 m) (rkcW1 m) with hcdef
  have hrow : ∀ i, i < m + 1 → ∑ j ∈ range (m + 1), A i j = c i :=
    fun i hi => rkcRow_sum hw _ (by omega) i (by omega)
  have hk : ∀ i, i < m + 1 → ∀ᶠ h in 𝓝 (0 : ℝ), exStage A c f i (t0, y0, h) =
      f (t0 + c i * h) (y0 + h • ∑ j ∈ range (m + 1), A i j • exStage A c f j (t0, y0, h)) := by
    intro i hi
    apply Eventually.of_forall
    intro h
    rw [exStage_eq]
    dsimp only
    congr 3
    rw [← sum_subset (range_subset_range.mpr hi.le)]
    intro j _ hj
    rw [hAdef, rkcRow_lower _ _ i j (by simpa using hj), zero_smul]
  have hA0 : ∀ i, i < m + 1 → ∀ j, j < m + 1 → i ≤ j → A i j = 0 :=
    fun i _ j _ hj => rkcRow_lower _ _ i j hj
  have hθO : θ =O[𝓝 0] fun _ : ℝ => (1 : ℝ) := by
    apply IsBigO.of_bound M
    apply Eventually.of_forall
    intro h; simpa using hθ h
  have hpoly : ∀ p : ℝ → ℝ, Continuous p → (fun h => p (θ h)) =O[𝓝 0] fun _ : ℝ => (1 : ℝ) := by
    intro p hp
    obtain ⟨B, hB⟩ := (isCompact_Icc (a := -M) (b := M)).exists_bound_of_continuousOn hp.continuousOn
    apply IsBigO.of_bound B
    apply Eventually.of_forall
    intro h
    rw [norm_one, mul_one]
    exact hB _ (abs_le.mp (hθ h))
  have hsums : ∀ (g : ℕ → ℝ) (θ : ℝ), ∑ i ∈ range (m + 1), rkcDenseW m i θ * g i =
      θ ^ 2 * (3 - 2 * θ) * ∑ i ∈ range (m + 1), A m i * g i + θ * (1 - θ) ^ 2 * g 0 + θ ^ 2 * (θ - 1) * g m := by
    intro g θ
    unfold rkcDenseW
    simp only [add_mul, mul_assoc, sum_add_distrib, ← mul_sum, ite_mul, zero_mul]
    rw [sum_ite_eq' (range (m + 1)) 0, sum_ite_eq' (range (m + 1)) m, if_pos (mem_range.mpr (by omega)),
      if_pos (mem_range.mpr (by omega))]
  have hb1 : ∑ i ∈ range (m + 1), A m i = 1 := by rw [hrow m (by omega)]; exact thT_last hm
  have hb2 : ∑ i ∈ range (m + 1), A m i * c i = 1 / 2 := by
    rw [hAdef, hcdef, rkcRow_moment hw _ (by omega) m (by omega)]; exact moment_last hm
  have := local_error_rk_var hrow hf hk (explicit_bounded_rk hA0 hf.continuousAt hk)
    (fun h i => rkcDenseW m i (θ h)) θ 2 (fun i _ => hpoly _ (by unfold rkcDenseW; split_ifs <;> fun_prop)) hθO (by
      intro h
      apply order_two_var hrow
      · have := hsums (fun _ => 1) (θ h)
        simp only [mul_one] at this
        rw [this, hb1]
        ring
      · rw [hsums, hb2, hcdef, thT_zero, thT_last hm]
        ring) y hy0 hy
  refine this.congr_left fun h => ?_
  rw [rkc_dense f hm t0 y0 h (θ h)]
  rfl

/-- Reachable by returning `step()` calls none of which was longer than `H`. -/
inductive ChebReachWithin (c : ChebCfg ℝ E) (v0 : ChebSolver ℝ E) (H : ℝ) : ChebSolver ℝ E → Prop
  | refl : ChebReachWithin c v0 H v0
  | tail {v v' : ChebSolver ℝ E} {o : ChebOut} {fuel : ℕ} :
      ChebReachWithin c v0 H v → chebStep c fuel v = some (o, v') → |v'.st.t - v.st.t| ≤ H →
      ChebReachWithin c v0 H v'

theorem ChebReachWithin.reach {v0 v : ChebSolver ℝ E} {H : ℝ} (h : ChebReachWithin c v0 H v) :
    ChebReach c v0 v := by
  induction h with
  | refl => exact .refl
  | tail _ hs _ ih => exact .tail ih hs

/-- Consistency and stability of a step with a given number of stages along the exact solution: end of the step
and dense output. -/
theorem rkc_bound_one [CompleteSpace E] {m : ℕ} (hm : 2 ≤ m) {f : ℝ → E → E} {y : ℝ → E} {t0 b : ℝ}
    (hy : SolvesOn f y t0 b) :
    ∃ ε C Λ : ℝ, 0 < ε ∧ 0 ≤ C ∧ 0 ≤ Λ ∧ ∀ t ∈ Set.uIcc t0 b, ∀ θ ∈ Set.Icc (0 : ℝ) 1, ∀ (u : E) (h : ℝ),
      ‖u - y t‖ < ε → |h| < ε →
      ‖cubic t (t + h) u (rkcStages f t u (f t u) h m) (f t u) (f (t + h) (rkcStages f t u (f t u) h m))
          (t + θ * h) - y (t + θ * h)‖ ≤ (1 + Λ * |h|) * ‖u - y t‖ + C * |h| ^ 3 := by
  have hS : IsCompact ((Set.uIcc t0 b) ×ˢ (Set.Icc (0 : ℝ) 1)) := isCompact_uIcc.prod isCompact_Icc
  obtain ⟨ε, C, Λ, h1, h2, h3, h4⟩ := compact_bound (q := 2) (n := m + 1) (A := rkcRow (rkcW0 m) (rkcW1 m))
    (c := thT (rkcW0 m) (rkcW1 m)) (w := rkcDenseW m) (f := f) (y := y) hS
    (fun i => by unfold rkcDenseW; split_ifs <;> fun_prop)
    (fun x hx n => ((smooth_nat (hy.smooth x.1 hx.1) _))) (fun x hx => hy.solves x.1 hx.1) (by
      rintro ⟨t, θ⟩ ⟨ht, _⟩
      have := C92_dense_accuracy hm (hy.smooth t ht) (fun _ => θ) |θ| (fun _ => le_rfl) y rfl (hy.solves t ht)
      refine this.congr_left fun h => ?_
      rw [rkc_dense f hm])
  refine ⟨ε, C, Λ, h1, h2, h3, fun t ht θ hθ u h hu hh => ?_⟩
  rw [rkc_dense f hm]
  exact h4 (t, θ) ⟨ht, hθ⟩ u h hu hh

/-- The same with constants for all numbers of stages up to a bound. -/
theorem rkc_bound [CompleteSpace E] (mmax : ℕ) {f : ℝ → E → E} {y : ℝ → E} {t0 b : ℝ}
    (hy : SolvesOn f y t0 b) :
    ∃ ε C Λ : ℝ, 0 < ε ∧ 0 ≤ C ∧ 0 ≤ Λ ∧ ∀ m, 2 ≤ m → m ≤ mmax →
      ∀ t ∈ Set.uIcc t0 b, ∀ θ ∈ Set.Icc (0 : ℝ) 1, ∀ (u : E) (h : ℝ),
      ‖u - y t‖ < ε → |h| < ε →
      ‖cubic t (t + h) u (rkcStages f t u (f t u) h m) (f t u) (f (t + h) (rkcStages f t u (f t u) h m))
          (t + θ * h) - y (t + θ * h)‖ ≤ (1 + Λ * |h|) * ‖u - y t‖ + C * |h| ^ 3 := by
  induction mmax with
  | zero => exact ⟨1, 0, 0, one_pos, le_rfl, le_rfl, fun m h1 h2 => by omega⟩
  | succ M ih =>
    obtain ⟨ε, C, Λ, h1, h2, h3, h4⟩ := ih
    by_cases hM : 2 ≤ M + 1
    · obtain ⟨ε', C', Λ', g1, g2, g3, g4⟩ := rkc_bound_one hM hy
      refine ⟨min ε ε', max C C', max Λ Λ', lt_min h1 g1, h2.trans (le_max_left _ _), h3.trans (le_max_left _ _), ?_⟩
      intro m hm2 hm t ht θ hθ u h hu hh
      rcases Nat.lt_or_ge M m with hlt | hge
      · have : m = M + 1 := by omega
        subst this
        refine (g4 t ht θ hθ u h (hu.trans_le (min_le_right _ _)) (hh.trans_le (min_le_right _ _))).trans ?_
        gcongr
        · exact le_max_right _ _
        · exact le_max_right _ _
      · refine (h4 m hm2 hge t ht θ hθ u h (hu.trans_le (min_le_left _ _)) (hh.trans_le (min_le_left _ _))).trans ?_
        gcongr
        · exact le_max_left _ _
        · exact le_max_left _ _
    · exact ⟨ε, C, Λ, h1, h2, h3, fun m hm2 hm => by omega⟩

theorem rkc_cubic_end (f : ℝ → E → E) {m : ℕ} (hm : 2 ≤ m) (t : ℝ) (u : E) (h : ℝ) :
    cubic t (t + h) u (rkcStages f t u (f t u) h m) (f t u) (f (t + h) (rkcStages f t u (f t u) h m)) (t + 1 * h) =
      rkcStages f t u (f t u) h m := by
  by_cases hh : h = 0
  · subst hh
    rw [rkc_solution f hm]
    simp [cubic]
  · rw [one_mul]
    exact (C24_cubic_ends (by simpa using hh) _ _ _ _).2

/-- **C93**. SSV2stab converges with order 2: for a problem whose exact solution exists on the closed interval
from `t0` to `b` and a maximal number of stages there are constants `C` and `h*` such that, for every solver
configuration and history of `step()` calls in which no step was longer than `H ≤ h*`, the computed solution differs
from the exact one by at most `C H^2`, and the dense output of the next successful step by at most `C H^2` over the whole
step. -/
theorem C93_global_error [CompleteSpace E] (mmax : ℕ) {f : ℝ → E → E} {y : ℝ → E} {t0 b : ℝ}
    (hy : SolvesOn f y t0 b) :
    ∃ C hstar : ℝ, 0 ≤ C ∧ 0 < hstar ∧
      ∀ (c : ChebCfg ℝ E) (first : Option ℝ) (H : ℝ) (v : ChebSolver ℝ E), ChebStart c t0 first →
        c.mmax = mmax → c.rhs = f → c.stg = rkcStages f → c.tb = some b → 0 ≤ H → H ≤ hstar →
        ChebReachWithin c (newCheb c t0 (y t0) first) H v → ‖v.st.yn - y v.st.t‖ ≤ C * H ^ 2 ∧
        ∀ (v' : ChebSolver ℝ E) (fuel : ℕ), v.st.t ≠ b → chebStep c fuel v = some (.ok, v') →
          |v'.st.t - v.st.t| ≤ H →
          ∃ u, chebDense v' = some u ∧ ∀ τ ∈ Set.uIcc v.st.t v'.st.t, ‖u τ - y τ‖ ≤ C * H ^ 2 := by
  obtain ⟨ε, C, Λ, h1, h2, h3, h4⟩ := rkc_bound mmax hy
  set L := |b - t0| with hL
  have hL0 : 0 ≤ L := abs_nonneg _
  set G := C * (L * Real.exp (Λ * L)) with hG
  have hG0 : 0 ≤ G := by positivity
  refine ⟨(1 + Λ) * G + C, min 1 (ε / (2 * (G + 1))), by positivity, lt_min one_pos (by positivity), ?_⟩
  intro c first H v hs hmm hrhs hstg hb hH0 hH hr
  have hH1 : H ≤ 1 := hH.trans (min_le_left _ _)
  have hH2 : H * (2 * (G + 1)) ≤ ε := (le_div_iff₀ (by positivity)).mp (hH.trans (min_le_right _ _))
  have hHε : H < ε := by nlinarith
  have hpow : H ^ 2 ≤ H := by nlinarith
  have hGH : G * H ^ 2 < ε := by nlinarith
  have hgrow : ∀ a, 0 ≤ a → a ≤ L → C * H ^ 2 * (a * Real.exp (Λ * a)) ≤ G * H ^ 2 := by
    intro a ha haL
    have : a * Real.exp (Λ * a) ≤ L * Real.exp (Λ * L) := by
      apply mul_le_mul haL _ (Real.exp_pos _).le hL0
      exact Real.exp_le_exp.mpr (mul_le_mul_of_nonneg_left haL h3)
    calc C * H ^ 2 * (a * Real.exp (Λ * a)) ≤ C * H ^ 2 * (L * Real.exp (Λ * L)) :=
          mul_le_mul_of_nonneg_left this (by positivity)
      _ = G * H ^ 2 := by rw [hG]; ring
  have habs : ∀ x, 0 ≤ c.dir * x → |x| = c.dir * x := by
    intro x hx
    rcases hs.ok.dir with hd | hd <;> rw [hd] at hx ⊢
    · rw [one_mul] at hx ⊢; exact abs_of_nonneg hx
    · rw [abs_of_nonpos (by linarith)]; ring
  have hmem : ∀ w, ChebReach c (newCheb c t0 (y t0) first) w → w.st.t ∈ Set.uIcc t0 b := by
    intro w hw
    obtain ⟨a1, a2⟩ := C43_never_past_t_bound hs hb hw
    rcases hs.ok.dir with hd | hd <;> rw [hd] at a1 a2
    · exact Set.mem_uIcc.mpr (Or.inl ⟨by linarith, by linarith⟩)
    · exact Set.mem_uIcc.mpr (Or.inr ⟨by linarith, by linarith⟩)
  have key : ‖v.st.yn - y v.st.t‖ ≤ C * H ^ 2 * (|v.st.t - t0| * Real.exp (Λ * |v.st.t - t0|)) := by
    induction hr with
    | refl => simp [newCheb]
    | @tail w w' o fuel hr hst hle ih =>
      have hd0 := (C43_never_past_t_bound hs hb (hr.reach.tail hst)).1
      have i2 := (C43_never_past_t_bound hs hb hr.reach).1
      rcases (chebStep_spec hs.ok (hr.reach.inv hs) hst).2.1 with ⟨e, -⟩ | ⟨-, -, -, -, -, q, hq⟩ | ⟨-, -, e1, e2, -⟩
      · rw [e]; exact ih
      · have eh : w'.st.t - w.st.t = q.h := by rw [hq.t]; ring
        rw [eh] at hle
        have hd : 0 ≤ c.dir * q.h := hq.ok.pos.le
        have ha : |w'.st.t - t0| = |w.st.t - t0| + |q.h| := by
          rw [habs _ hd0, habs _ i2, habs _ hd, hq.t]; ring
        have i1 := hmem _ hr.reach
        have hwL : |w.st.t - t0| ≤ L := Set.abs_sub_left_of_mem_uIcc i1
        have he : ‖w.st.yn - y w.st.t‖ < ε := (ih.trans (hgrow _ (abs_nonneg _) hwL)).trans_lt hGH
        have hm2 := hq.ok.m2
        have hmle := hq.ok.mle
        rw [hmm] at hmle
        have hb' := h4 q.m hm2 hmle w.st.t i1 1 ⟨zero_le_one, le_rfl⟩ w.st.yn q.h he (hle.trans_lt hHε)
        rw [rkc_cubic_end f hm2, one_mul] at hb'
        have hyn := hq.yn
        rw [(hr.reach.inv hs).fn, hstg, hrhs] at hyn
        rw [← hyn, ← hq.t] at hb'
        rw [ha]
        exact accumulate h2 h3 (abs_nonneg _) (abs_nonneg _) hle ih hb'
      · rw [e1, e2]; exact ih
  have i1 := hmem _ hr.reach
  have hG' := key.trans (hgrow _ (abs_nonneg _) (Set.abs_sub_left_of_mem_uIcc i1))
  have hfin : ∀ x h, x ≤ G * H ^ 2 → 0 ≤ h → h ≤ H → (1 + Λ * h) * x + C * h ^ 3 ≤ ((1 + Λ) * G + C) * H ^ 2 := by
    intro x h hx hh0 hh
    have e1 : (1 + Λ * h) * x ≤ (1 + Λ) * (G * H ^ 2) := by
      have : 1 + Λ * h ≤ 1 + Λ := by nlinarith
      calc (1 + Λ * h) * x ≤ (1 + Λ * h) * (G * H ^ 2) := mul_le_mul_of_nonneg_left hx (by positivity)
        _ ≤ (1 + Λ) * (G * H ^ 2) := mul_le_mul_of_nonneg_right this (by positivity)
    have e2 : h ^ 3 ≤ H ^ 2 := by
      calc h ^ 3 ≤ H ^ 3 := pow_le_pow_left₀ hh0 hh 3
        _ ≤ H ^ 2 := pow_le_pow_of_le_one hH0 hH1 (by norm_num)
    have e3 : C * h ^ 3 ≤ C * H ^ 2 := mul_le_mul_of_nonneg_left e2 h2
    linarith
  refine ⟨?_, ?_⟩
  · refine hG'.trans ?_
    have : 0 ≤ (Λ * G + C) * H ^ 2 := by positivity
    nlinarith
  · intro v' fuel hvb hst hle
    have hne : c.tb ≠ some v.st.t := by
      rw [hb]
      intro e
      exact hvb (Option.some.inj e).symm
    obtain ⟨ht, e⟩ := chebDense_eq hs hr.reach hst hne
    refine ⟨_, e, ?_⟩
    rcases (chebStep_spec hs.ok (hr.reach.inv hs) hst).2.1 with
      ⟨-, ⟨-, e, -⟩ | ⟨-, e⟩⟩ | ⟨-, -, -, -, hto, q, hq⟩ | ⟨e | e | e, -⟩
    · cases e
    · exact absurd e hne
    · intro τ hτ
      have hne' : v'.st.t - v.st.t ≠ 0 := sub_ne_zero.mpr ht
      obtain ⟨θ, hθ, eτ⟩ : ∃ θ ∈ Set.Icc (0 : ℝ) 1, τ = v.st.t + θ * (v'.st.t - v.st.t) := by
        refine ⟨(τ - v.st.t) / (v'.st.t - v.st.t), ?_, by field_simp; ring⟩
        rcases lt_or_gt_of_ne hne' with hneg | hpos
        · rw [Set.uIcc_of_ge (by linarith)] at hτ
          exact ⟨div_nonneg_of_nonpos (by linarith [hτ.2]) hneg.le,
            (div_le_one_of_neg hneg).mpr (by linarith [hτ.1])⟩
        · rw [Set.uIcc_of_le (by linarith)] at hτ
          exact ⟨div_nonneg (by linarith [hτ.1]) hpos.le, (div_le_one hpos).mpr (by linarith [hτ.2])⟩
      have eh : v'.st.t - v.st.t = q.h := by rw [hq.t]; ring
      rw [eh] at hle eτ
      have hmle := hq.ok.mle
      rw [hmm] at hmle
      have hb' := h4 q.m hq.ok.m2 hmle v.st.t i1 θ hθ v.st.yn q.h (hG'.trans_lt hGH) (hle.trans_lt hHε)
      have hyn := hq.yn
      rw [(hr.reach.inv hs).fn, hstg, hrhs] at hyn
      rw [← hyn, ← hq.t, ← eτ] at hb'
      rw [hrhs]
      exact hb'.trans (hfin _ _ hG' (abs_nonneg _) hle)
    all_goals cases e

/-- **C93** in terms of the options: the error is at most `C max_step^2` if `max_step` is small, a given
`first_step` does not exceed it and the minimal steps are not larger. -/
theorem C93_max_step_error [CompleteSpace E] (mmax : ℕ) {f : ℝ → E → E} {y : ℝ → E} {t0 b : ℝ}
    (hy : SolvesOn f y t0 b) :
    ∃ C hstar : ℝ, 0 ≤ C ∧ 0 < hstar ∧
      ∀ (c : ChebCfg ℝ E) (first : Option ℝ) (v : ChebSolver ℝ E), ChebStart c t0 first →
        c.mmax = mmax → c.rhs = f → c.stg = rkcStages f → c.tb = some b → c.maxStep ≤ hstar →
        c.hmin0 ≤ c.maxStep → (∀ a, first = some a → a ≤ c.maxStep) →
        (∀ w, ChebReach c (newCheb c t0 (y t0) first) w → ∀ q ∈ w.st.calls, q.hmin ≤ c.maxStep) →
        ChebReach c (newCheb c t0 (y t0) first) v → ‖v.st.yn - y v.st.t‖ ≤ C * c.maxStep ^ 2 := by
  obtain ⟨C, hstar, h1, h2, h3⟩ := C93_global_error mmax hy
  refine ⟨(11 / 10) ^ 2 * C, hstar / 2, by positivity, by positivity, ?_⟩
  intro c first v hs hmm hrhs hstg hb hmax hmin hfirst hcalls hr
  have hpos := hs.ok.maxStep
  have hw : ChebReachWithin c (newCheb c t0 (y t0) first) (11 / 10 * c.maxStep) v := by
    induction hr with
    | refl => exact .refl
    | @tail w w' o fuel hr hst ih =>
      refine .tail ih hst ?_
      rcases (chebStep_spec hs.ok (hr.inv hs) hst).2.1 with ⟨e, -⟩ | ⟨-, -, -, -, -, q, hq⟩ | ⟨-, -, e, -⟩
      · rw [e, sub_self, abs_zero]; positivity
      · rw [hq.t, add_sub_cancel_left]
        obtain ⟨l, hl⟩ := hq.mem
        rcases C43_step_limit hs (hr.tail hst) (q := q) (by rw [hl]; exact List.mem_cons_self) with
          h | h | ⟨a, ha, h⟩ | ⟨p, hp, h⟩
        · exact h
        · linarith
        · have := hfirst a ha; linarith
        · have := hcalls _ (hr.tail hst) p hp; linarith
      · rw [e, sub_self, abs_zero]; positivity
  have := (h3 c first (11 / 10 * c.maxStep) v hs hmm hrhs hstg hb (by positivity) (by linarith) hw).1
  calc ‖v.st.yn - y v.st.t‖ ≤ C * (11 / 10 * c.maxStep) ^ 2 := this
    _ = (11 / 10) ^ 2 * C * c.maxStep ^ 2 := by ring

end

/-! ## Witnesses -/

/-- `y' = y` on `[0, 1]` with `max_step = first_step = H`, the error estimate being taken as zero. -/
noncomputable def chebRe (H : ℝ) : ChebCfg ℝ ℝ where
  rhs := fun _ y => y
  stg := rkcStages fun _ y => y
  tb := some 1
  dir := 1
  maxStep := H
  hmin0 := H / 10
  sqrtmin := 1 / 10 ^ 20
  uround := 0
  mmax := 100
  constJac := false
  rhoJac := some fun _ _ => 1
  rho := fun _ _ _ _ => ⟨none, 50, none⟩
  errNorm := fun _ _ _ => .num 0
  est0 := fun x _ => .num |x|
  pw := fun x e => x ^ e
  sqrt := fun x => |x|

theorem chebRe_start {H : ℝ} (hH : 0 < H) : ChebStart (chebRe H) 0 (some H) :=
  ⟨{ dir := Or.inl rfl
     sqrtmin := by norm_num [chebRe]
     uround := le_rfl
     mmax := by norm_num [chebRe]
     maxStep := hH
     hmin0 := by simp only [chebRe]; positivity
     rhoJac := by intro r h t y; cases h; exact zero_le_one
     rho := by intro t y f v x h; cases h
     errNorm := by intro e y yn x h; cases h; exact le_rfl
     sqrt := fun x => abs_nonneg x
     pw := PowUp.rpow },
   (fun a ha => by cases ha; exact hH),
   (fun b hb => by cases hb; norm_num [chebRe])⟩

theorem chebRe_solves : SolvesOn (fun _ y : ℝ => y) Real.exp 0 1 :=
  ⟨fun _ _ => contDiffAt_snd, fun _ _ => Eventually.of_forall Real.hasDerivAt_exp⟩

/-- The first step of this solver is successful, has length `H` and is made with the stages of the code: all
hypotheses of C92 and C93 are met for every small `H`. -/
theorem chebRe_step {H : ℝ} (hH : 0 < H) (hH1 : H ≤ 1 / 2) :
    ∃ v', chebStep (chebRe H) 1 (newCheb (chebRe H) 0 1 (some H)) = some (.ok, v') ∧ v'.st.t = 0 + 1 * H := by
  have hfit : chebFit (some 1) 0 H = H := by
    unfold chebFit
    dsimp only
    rw [if_neg]
    rw [sub_zero, abs_one]
    intro h
    have : (1 : ℝ) ≤ 11 / 10 * H := h
    linarith
  have hm : chebM H 1 = 2 := by
    unfold chebM
    have h1 : ⌊77 / 50 * H * 1 + 1⌋₊ = 1 := by
      rw [Nat.floor_eq_iff (by positivity)]
      constructor <;> push_cast <;> linarith
    rw [h1]
    rfl
  have hch : chebChoose 100 H 1 = (H, 2) := by
    unfold chebChoose
    rw [hm, if_neg (by norm_num)]
  have hatt : ∀ s : ChebSt ℝ ℝ, s.hold = none → s.t = 0 → ∃ s', chebAttempt (chebRe H) s H 1 2 = .done .ok s' ∧
      s'.t = 0 + 1 * H := by
    intro s hs ht
    unfold chebAttempt
    dsimp only [chebRe]
    rw [if_pos zero_lt_one]
    unfold chebFac
    rw [hs]
    exact ⟨_, rfl, by simp only [chebAccept, ht]⟩
  have hneg : ¬ (77 / 50 * H * 1 + 1 < 0) := by
    push Not
    positivity
  have htry : ∀ s : ChebSt ℝ ℝ, s.hold = none → s.t = 0 → ∃ s', chebTry (chebRe H) s H 1 = .done .ok s' ∧
      s'.t = 0 + 1 * H := by
    intro s hs ht
    unfold chebTry
    have e1 : chebFit (chebRe H).tb s.t H = H := by rw [ht]; exact hfit
    dsimp only
    rw [e1, if_neg hneg, show (chebRe H).mmax = 100 from rfl, hch]
    exact hatt _ hs ht
  obtain ⟨s', e, et⟩ := htry ({ (newCheb (chebRe H) 0 1 (some H)).st with
      sprad := some 1, jacatt := true, est := some (0, 1), age := 0, nest := 0 + 1 }) rfl rfl
  have hit : chebIter (chebRe H) (newCheb (chebRe H) 0 1 (some H)).st (some H) = .done .ok s' := by
    unfold chebIter chebSpectral
    exact e
  have hl : chebStepImpl (chebRe H) 1 (newCheb (chebRe H) 0 1 (some H)).st = some (.ok, s') := by
    unfold chebStepImpl chebLoop
    rw [show (newCheb (chebRe H) 0 1 (some H)).st.absh = some H from rfl, hit]
  have hstat : (newCheb (chebRe H) 0 1 (some H)).status = .running := rfl
  have hne : (chebRe H).tb ≠ some (newCheb (chebRe H) 0 1 (some H)).st.t := by
    intro h
    have : (1 : ℝ) = 0 := Option.some.inj h
    norm_num at this
  unfold chebStep
  rw [hstat]
  dsimp only
  rw [if_neg hne, hl]
  exact ⟨_, rfl, et⟩

/-- C93 says something about this solver: with a constant `C` of the problem, its first step differs from `exp`
by at most `C H^2`, for all small `H`. -/
example : ∃ C hstar : ℝ, 0 < hstar ∧ ∀ H, 0 < H → H ≤ hstar →
    ∃ v', chebStep (chebRe H) 1 (newCheb (chebRe H) 0 1 (some H)) = some (.ok, v') ∧ v'.st.t = 0 + 1 * H ∧
      |v'.st.yn - Real.exp v'.st.t| ≤ C * H ^ 2 := by
  obtain ⟨C, hstar, -, h2, h3⟩ := C93_global_error 100 chebRe_solves
  refine ⟨C, min hstar (1 / 2), lt_min h2 (by norm_num), fun H hH hle => ?_⟩
  obtain ⟨v', e, et⟩ := chebRe_step hH (hle.trans (min_le_right _ _))
  refine ⟨v', e, et, ?_⟩
  refine (h3 (chebRe H) (some H) H v' (chebRe_start hH) rfl rfl rfl rfl hH.le (hle.trans (min_le_left _ _)) ?_).1
  rw [Real.exp_zero]
  refine .tail .refl e ?_
  rw [et]
  simp [newCheb, abs_of_pos hH]

set_option maxRecDepth 100000

/-- A problem in which the second step fails: the error norm is nan. -/
def chebNan : ChebCfg ℚ ℚ :=
  chebW (fun _ _ => 1) (some 21) 1 10 (fun _ _ => 1) (fun e _ yn => if yn = 0 then .num |e| else .nan)

/-- A problem in which the spectral radius is found at the start only: the 26th step fails. -/
def chebNoRho : ChebCfg ℚ ℚ := { chebP with rho := fun _ y _ _ => ⟨if y = 0 then some 1 else none, 3, some y⟩ }

def chebDenseDefined (v : ChebSolver ℚ ℚ) : Bool := (chebDense v).isSome

/-- C92: one successful step, after which there is a dense output, and a failing one, after which it is lost; the
failure is a nan in the first problem and a divergence of the power method in the second. -/
example : (chebAfter chebNan (newCheb chebNan 0 0 none) 1).status = .running ∧
    chebDenseDefined (chebAfter chebNan (newCheb chebNan 0 0 none) 1) = true ∧
    (chebAfter chebNan (newCheb chebNan 0 0 none) 2).status = .failed ∧
    chebDenseDefined (chebAfter chebNan (newCheb chebNan 0 0 none) 2) = false ∧
    (chebAfter chebNoRho (newCheb chebNoRho 0 0 none) 25).status = .running ∧
    chebDenseDefined (chebAfter chebNoRho (newCheb chebNoRho 0 0 none) 25) = true ∧
    (chebAfter chebNoRho (newCheb chebNoRho 0 0 none) 26).status = .failed ∧
    chebDenseDefined (chebAfter chebNoRho (newCheb chebNoRho 0 0 none) 26) = false := by decide +kernel

end Extensisq
