import Verif.Props.NystromConvergence
import Verif.Props.Robustness

/-!
# C119: inexact accelerations and starting values of the Nystrom methods

As C107 for `u'' = acc(t, u, u')`: with an acceleration function that is within `δ` of the exact one near the solution, and a
starting position and velocity within `δ` of the exact ones, the error of position and velocity in every history of `step()`
calls is at most a constant times `H^order + δ`.
-/

set_option linter.unusedSectionVars false
set_option maxRecDepth 100000

namespace Extensisq
open Finset Asymptotics Filter Topology

variable {E : Type*} [NormedAddCommGroup E] [NormedSpace ℝ E]

/-- The stages of the two accelerations differ by at most `2 δ`. -/
theorem noisy_ny_stages {f g : ℝ → E × E → E} {t : ℝ} {x : E × E} {ρ L B V a : ℝ} (hL : 0 ≤ L) (hB : 0 ≤ B) (hV : 0 ≤ V)
    (hf : ∀ z z' : ℝ × (E × E), dist z (t, x) < ρ → dist z' (t, x) < ρ →
      ‖f z.1 z.2 - f z'.1 z'.2‖ ≤ L * dist z z' ∧ ‖f z.1 z.2‖ ≤ B)
    {n : ℕ} {A Ap : ℕ → ℕ → ℝ} {c : ℕ → ℝ} {δ κ : ℝ} (hδ : 0 ≤ δ) (hc : ∀ i, i < n → |c i| ≤ 1) {h : ℝ} (h1 : |h| < ρ)
    (hh1 : |h| ≤ 1) (ha : rowSums n A ≤ a) (hap : rowSums n Ap ≤ a)
    (h2 : |h| * (V + a * (B + 2 * δ)) ≤ κ) (hκ : κ < ρ / 2) (h3 : |h| * (2 * L * a) ≤ 1) {u : E × E}
    (hu : ‖u - x‖ < ρ / 2) (huV : ‖u.2‖ ≤ V)
    (hg : ∀ i, i < n → ∀ z, ‖z - u‖ ≤ κ → ‖g (t + c i * h) z - f (t + c i * h) z‖ ≤ δ) :
    ∀ i, i < n → ‖nyEx A Ap c f i (t, u, h)‖ ≤ B ∧ ‖nyEx A Ap c g i (t, u, h) - nyEx A Ap c f i (t, u, h)‖ ≤ 2 * δ := by
  intro i
  induction i using Nat.strong_induction_on with
  | _ i ih =>
    intro hi
    have ha0 : 0 ≤ a := (rowSums_nonneg n A).trans ha
    have hh0 := abs_nonneg h
    have sums : ∀ (M : ℕ → ℕ → ℝ), rowSums n M ≤ a → ∀ (k : ℕ → E) (m : ℝ), 0 ≤ m → (∀ j, j < i → ‖k j‖ ≤ m) →
        ‖∑ j ∈ range i, M i j • k j‖ ≤ a * m := by
      intro M hM k m hm hk
      calc _ ≤ ∑ j ∈ range i, |M i j| * m := by
            refine (norm_sum_le _ _).trans (sum_le_sum fun j hj => ?_)
            rw [norm_smul, Real.norm_eq_abs]
            exact mul_le_mul_of_nonneg_left (hk j (mem_range.mp hj)) (abs_nonneg _)
        _ = (∑ j ∈ range i, |M i j|) * m := by rw [sum_mul]
        _ ≤ _ := mul_le_mul_of_nonneg_right ((rowSums_ge M hi).trans hM) hm
    have bound : ∀ (k : ℕ → E) (m : ℝ), 0 ≤ m → (∀ j, j < i → ‖k j‖ ≤ m) →
        ‖h ^ 2 • ∑ j ∈ range i, A i j • k j‖ ≤ |h| * (a * m) ∧ ‖h • ∑ j ∈ range i, Ap i j • k j‖ ≤ |h| * (a * m) := by
      intro k m hm hk
      have s1 := sums A ha k m hm hk
      have s2 := sums Ap hap k m hm hk
      have am : 0 ≤ a * m := mul_nonneg ha0 hm
      constructor
      · rw [norm_smul, norm_pow, Real.norm_eq_abs]
        refine mul_le_mul ?_ s1 (norm_nonneg _) hh0
        rw [sq]; exact mul_le_of_le_one_left hh0 hh1
      · rw [norm_smul, Real.norm_eq_abs]
        exact mul_le_mul_of_nonneg_left s2 hh0
    have hF : ∀ j, j < i → ‖nyEx A Ap c f j (t, u, h)‖ ≤ B := fun j hj => (ih j hj (by omega)).1
    have hG : ∀ j, j < i → ‖nyEx A Ap c g j (t, u, h)‖ ≤ B + 2 * δ := by
      intro j hj
      obtain ⟨a, b⟩ := ih j hj (by omega)
      have := norm_add_le (nyEx A Ap c g j (t, u, h) - nyEx A Ap c f j (t, u, h)) (nyEx A Ap c f j (t, u, h))
      rw [sub_add_cancel] at this
      linarith
    have drift : ‖(c i * h) • u.2‖ ≤ |h| * V := by
      rw [norm_smul, Real.norm_eq_abs, abs_mul]
      refine mul_le_mul (mul_le_of_le_one_left hh0 (hc i hi)) huV (norm_nonneg _) hh0
    set pt : (ℕ → E) → E × E := fun k => (u.1 + (c i * h) • u.2 + h ^ 2 • ∑ j ∈ range i, A i j • k j,
      u.2 + h • ∑ j ∈ range i, Ap i j • k j) with hpt
    have dist_pt : ∀ (k : ℕ → E) (m : ℝ), 0 ≤ m → (∀ j, j < i → ‖k j‖ ≤ m) → ‖pt k - u‖ ≤ |h| * (V + a * m) := by
      intro k m hm hk
      obtain ⟨s1, s2⟩ := bound k m hm hk
      have e1 : (pt k - u).1 = (c i * h) • u.2 + h ^ 2 • ∑ j ∈ range i, A i j • k j := by
        simp only [hpt, Prod.fst_sub]; abel
      have e2 : (pt k - u).2 = h • ∑ j ∈ range i, Ap i j • k j := by
        simp only [hpt, Prod.snd_sub]; abel
      rw [Prod.norm_def, e1, e2, mul_add]
      refine max_le ((norm_add_le _ _).trans (add_le_add drift s1)) (s2.trans ?_)
      have := mul_nonneg hh0 hV
      linarith
    set XF := pt fun j => nyEx A Ap c f j (t, u, h) with hXF
    set XG := pt fun j => nyEx A Ap c g j (t, u, h) with hXG
    have dF : ‖XF - u‖ ≤ κ := by
      refine (dist_pt _ B hB hF).trans (le_trans ?_ h2)
      exact mul_le_mul_of_nonneg_left (add_le_add_right (mul_le_mul_of_nonneg_left (by linarith) ha0) _) hh0
    have dG : ‖XG - u‖ ≤ κ := (dist_pt _ (B + 2 * δ) (by linarith) hG).trans h2
    have tube : ∀ X, ‖X - u‖ ≤ κ → dist (t + c i * h, X) (t, x) < ρ := by
      intro X hX
      rw [Prod.dist_eq]
      refine max_lt ?_ ?_
      · rw [Real.dist_eq, add_sub_cancel_left, abs_mul]
        exact lt_of_le_of_lt (mul_le_of_le_one_left hh0 (hc i hi)) h1
      · rw [dist_eq_norm]
        have := norm_add_le (X - u) (u - x)
        rw [sub_add_sub_cancel] at this
        linarith
    obtain ⟨-, l2⟩ := hf _ _ (tube XF dF) (tube XG dG)
    obtain ⟨l3, -⟩ := hf _ _ (tube XG dG) (tube XF dF)
    have eF : nyEx A Ap c f i (t, u, h) = f (t + c i * h) XF := by rw [nyEx_eq]
    have eG : nyEx A Ap c g i (t, u, h) = g (t + c i * h) XG := by rw [nyEx_eq]
    rw [eF, eG]
    refine ⟨l2, ?_⟩
    have hd : dist ((t + c i * h, XG) : ℝ × (E × E)) (t + c i * h, XF) ≤ |h| * (a * (2 * δ)) := by
      obtain ⟨s1, s2⟩ := bound (fun j => nyEx A Ap c g j (t, u, h) - nyEx A Ap c f j (t, u, h)) (2 * δ) (by linarith)
        fun j hj => (ih j hj (by omega)).2
      simp only [smul_sub, sum_sub_distrib] at s1 s2
      rw [Prod.dist_eq]
      refine max_le ?_ ?_
      · rw [dist_self]; positivity
      · rw [dist_eq_norm, Prod.norm_def]
        refine max_le ?_ ?_
        · have e : (XG - XF).1 = h ^ 2 • ∑ j ∈ range i, A i j • nyEx A Ap c g j (t, u, h) -
              h ^ 2 • ∑ j ∈ range i, A i j • nyEx A Ap c f j (t, u, h) := by
            simp only [hXF, hXG, hpt, Prod.fst_sub]; abel
          exact (congrArg norm e).le.trans s1
        · have e : (XG - XF).2 = h • ∑ j ∈ range i, Ap i j • nyEx A Ap c g j (t, u, h) -
              h • ∑ j ∈ range i, Ap i j • nyEx A Ap c f j (t, u, h) := by
            simp only [hXF, hXG, hpt, Prod.snd_sub]; abel
          exact (congrArg norm e).le.trans s2
    have h4 := hg i hi XG dG
    have h5 := norm_add_le (g (t + c i * h) XG - f (t + c i * h) XG) (f (t + c i * h) XG - f (t + c i * h) XF)
    rw [sub_add_sub_cancel] at h5
    have h6 : L * dist ((t + c i * h, XG) : ℝ × (E × E)) (t + c i * h, XF) ≤ L * (|h| * (a * (2 * δ))) :=
      mul_le_mul_of_nonneg_left hd hL
    have h7 : L * (|h| * (a * (2 * δ))) = |h| * (2 * L * a) * δ := by ring
    have h8 : |h| * (2 * L * a) * δ ≤ 1 * δ := mul_le_mul_of_nonneg_right h3 hδ
    have l3' : ‖f (t + c i * h) XG - f (t + c i * h) XF‖ ≤ L * dist ((t + c i * h, XG) : ℝ × (E × E)) (t + c i * h, XF) := l3
    linarith

/-- The acceleration `g` differs from `acc` by at most `δ` within the distance `r` of the solution. -/
def NyNear (acc g : ℝ → E × E → E) (y : ℝ → E × E) (t0 b r δ : ℝ) : Prop :=
  ∀ t ∈ Set.uIcc t0 b, ∀ x, ‖x - y t‖ ≤ r → ‖g t x - acc t x‖ ≤ δ

/-- Sum of the absolute weights. -/
def nyWeights (T : NTableau ℝ) : ℝ := ∑ i ∈ range T.s, (|T.B i| + |T.Bp i|)

theorem nyWeights_nonneg (T : NTableau ℝ) : 0 ≤ nyWeights T := sum_nonneg fun _ _ => by positivity

theorem NySolvesOn.system {acc : ℝ → E × E → E} {y : ℝ → E × E} {t0 b : ℝ} (hy : NySolvesOn acc y t0 b) : SolvesOn (nyRhs acc) y t0 b where
  smooth := fun t ht => nyRhs_smooth (hy.smooth t ht)
  solves := hy.solves

/-- One step with the inexact acceleration. -/
theorem noisy_ny_step [CompleteSpace E] {acc : ℝ → E × E → E} {y : ℝ → E × E} {t0 b : ℝ} (hy : NySolvesOn acc y t0 b) {r : ℝ} (hr : 0 < r)
    {T : NTableau ℝ} (hT : ∀ i, i < T.s → 0 ≤ T.C i ∧ T.C i ≤ 1) :
    ∃ ε : ℝ, 0 < ε ∧ ∀ t ∈ Set.uIcc t0 b, ∀ (g : ℝ → E × E → E) (u u' : E × E) (h δ : ℝ) (k : ℕ → E), NyNear acc g y t0 b r δ →
      IsNyStep T g t u h k u' → t + h ∈ Set.uIcc t0 b → ‖u - y t‖ < ε → |h| < ε → 0 ≤ δ → δ ≤ 1 →
      ∃ k1 u1, IsNyStep T acc t u h k1 u1 ∧ ‖u' - u1‖ ≤ 2 * nyWeights T * δ * |h| := by
  obtain ⟨ρ, L, B, hρ, hL, hB, htube⟩ := exists_tube hy.system
  set a := max (rowSums T.s T.fullA) (rowSums T.s T.fullAp) with ha
  have ha0 : 0 ≤ a := le_max_of_le_left (rowSums_nonneg _ _)
  have hcont : ContinuousOn y (Set.uIcc t0 b) := fun s hs => (hy.solves s hs).self_of_nhds.continuousAt.continuousWithinAt
  have huc := (isCompact_uIcc (a := t0) (b := b)).uniformContinuousOn_of_continuous hcont
  obtain ⟨η, hη, huc⟩ := Metric.uniformContinuousOn_iff.mp huc (r / 4) (by linarith)
  set κ := min (ρ / 4) (r / 4) with hκ
  have hκ0 : 0 < κ := by positivity
  refine ⟨min (min (min η 1) (min (ρ / 2) (r / 2))) (min (κ / (B + a * (B + 2) + 1)) (1 / (2 * L * a + 1))), by positivity, ?_⟩
  intro t ht g u u' h δ k hg hk hth hu hh hδ hδ1
  simp only [lt_min_iff] at hh hu
  obtain ⟨⟨⟨b1, b1'⟩, b2, -⟩, b3, b4⟩ := hh
  obtain ⟨⟨-, hu1, hu2⟩, -⟩ := hu
  rw [lt_div_iff₀ (by positivity)] at b3 b4
  have hh0 := abs_nonneg h
  have hn : ∀ i, i < T.s → T.fullC i = T.C i := fun i hi => by unfold NTableau.fullC; rw [if_pos hi]
  have hdu : dist ((t, u) : ℝ × (E × E)) (t, y t) < ρ := by
    rw [Prod.dist_eq, dist_self, dist_eq_norm]
    exact max_lt hρ (by linarith)
  have hV : ‖u.2‖ ≤ B := (le_max_left _ _).trans (htube t ht _ _ hdu hdu).2
  have key := noisy_ny_stages (f := acc) (g := g) (t := t) (x := y t) (ρ := ρ) (V := B) (a := a) hL hB hB
    (fun z z' hz hz' => ⟨(le_max_right _ _).trans (htube t ht z z' hz hz').1, (le_max_right _ _).trans (htube t ht z z' hz hz').2⟩)
    (n := T.s) (A := T.fullA) (Ap := T.fullAp) (c := T.fullC) (δ := δ) (κ := κ) hδ
    (fun i hi => by rw [hn i hi, abs_of_nonneg (hT i hi).1]; exact (hT i hi).2) (h := h) (by linarith) b1'.le
    (le_max_left _ _) (le_max_right _ _)
    (by
      have : B + a * (B + 2 * δ) ≤ B + a * (B + 2) + 1 := by
        have := mul_le_mul_of_nonneg_left (show B + 2 * δ ≤ B + 2 by linarith) ha0
        linarith
      have := mul_le_mul_of_nonneg_left this hh0
      linarith)
    (by have := min_le_left (ρ / 4) (r / 4); linarith)
    (by nlinarith) (u := u) hu1 hV
    (by
      intro i hi z hz
      rw [hn i hi]
      have hmem := node_mem ht hth (hT i hi).1 (hT i hi).2
      refine hg _ hmem z ?_
      have h5 : dist (y t) (y (t + T.C i * h)) < r / 4 := by
        refine huc t ht _ hmem ?_
        rw [Real.dist_eq, sub_add_cancel_left, abs_neg, abs_mul, abs_of_nonneg (hT i hi).1]
        exact lt_of_le_of_lt (mul_le_of_le_one_left hh0 (hT i hi).2) b1
      rw [dist_eq_norm] at h5
      have h6 := norm_add₃_le (a := z - u) (b := u - y t) (c := y t - y (t + T.C i * h))
      rw [sub_add_sub_cancel, sub_add_sub_cancel] at h6
      have := min_le_right (ρ / 4) (r / 4)
      linarith)
  refine ⟨_, _, nyEx_isNyStep T acc t u h, ?_⟩
  have hun := nyEx_unique (fullA_explicit T) (fun i hi => hk.full i hi)
  have sums : ∀ w : ℕ → ℝ, (∀ i, |w i| ≤ |T.B i| + |T.Bp i|) →
      ‖∑ i ∈ range T.s, w i • k i - ∑ i ∈ range T.s, w i • nyEx T.fullA T.fullAp T.fullC acc i (t, u, h)‖ ≤ nyWeights T * (2 * δ) := by
    intro w hw
    rw [← sum_sub_distrib]
    unfold nyWeights
    rw [sum_mul]
    refine (norm_sum_le _ _).trans (sum_le_sum fun i hi => ?_)
    rw [← smul_sub, norm_smul, Real.norm_eq_abs, hun i (by rw [mem_range] at hi; omega)]
    exact mul_le_mul (hw i) (key i (mem_range.mp hi)).2 (norm_nonneg _) (by positivity)
  have hw0 : 0 ≤ nyWeights T * (2 * δ) := mul_nonneg (nyWeights_nonneg T) (by linarith)
  have e : 2 * nyWeights T * δ * |h| = |h| * (nyWeights T * (2 * δ)) := by ring
  rw [e, Prod.norm_def]
  refine max_le ?_ ?_
  · rw [Prod.fst_sub, hk.pos]
    dsimp only
    rw [add_sub_add_left_eq_sub, ← smul_sub, norm_smul, norm_pow, Real.norm_eq_abs]
    refine mul_le_mul ?_ (sums T.B fun i => le_add_of_nonneg_right (abs_nonneg _)) (norm_nonneg _) hh0
    rw [sq]; exact mul_le_of_le_one_left hh0 b1'.le
  · rw [Prod.snd_sub, hk.vel]
    dsimp only
    rw [add_sub_add_left_eq_sub, ← smul_sub, norm_smul, Real.norm_eq_abs]
    exact mul_le_mul_of_nonneg_left (sums T.Bp fun i => le_add_of_nonneg_left (abs_nonneg _)) hh0

/-- The nodes of the methods are in the unit interval. -/
theorem ny_noisy_nodes {R : NyTable} (hR : R ∈ rationalNy) : ∀ i, i < (R.tab ℝ).s → 0 ≤ (R.tab ℝ).C i ∧ (R.tab ℝ).C i ≤ 1 := by
  have h : ∀ R ∈ rationalNy, ∀ i, i < R.s → 0 ≤ R.C.getD i 0 ∧ R.C.getD i 0 ≤ 1 := by decide +kernel
  intro i hi
  obtain ⟨h1, h2⟩ := h R hR i hi
  have g1 := (Rat.cast_le (K := ℝ)).mpr h1
  have g2 := (Rat.cast_le (K := ℝ)).mpr h2
  constructor
  · simpa [NyTable.tab] using g1
  · simpa [NyTable.tab] using g2

set_option maxHeartbeats 800000 in
/-- **C119.** Let `y = (u, u')` solve `u'' = acc(t, u, u')` (for `MR6NN`: independent of `u'`) between `t0` and `b`. There are constants `C` and `h*` such that every
solver that is given an acceleration function `g` within `δ` of `acc` at the points within distance `r` of the solution, and a starting position and velocity within `δ`
of those of the solution, stays within `C (H^order + δ)` of `y` in every history of `step()` calls with steps of at most `H`. -/
theorem C119_inexact_data [CompleteSpace E] (R : NyTable) (hR : R ∈ rationalNy) {acc : ℝ → E × E → E} {y : ℝ → E × E}
    {t0 b : ℝ} (hy : NySolvesOn acc y t0 b) (hv : R.hasAp = false → ∀ t u v w, acc t (u, v) = acc t (u, w)) {r : ℝ} (hr : 0 < r) :
    ∃ C hstar : ℝ, 0 ≤ C ∧ 0 < hstar ∧
      ∀ (c : Cfg ℝ (E × E) E) (g : ℝ → E × E → E) (errNorm : E × E → E × E → E × E → ENorm ℝ) (y0 : E × E) (h0 H δ : ℝ) (e0 : ℕ) (Ks0 : ℕ → E)
        (v : Solver ℝ (E × E) E), CfgOK c → c.m = nyMethod (R.tab ℝ) g errNorm → 0 ≤ c.dir * (b - t0) →
        0 ≤ H → H ≤ hstar → 0 ≤ δ → δ ≤ hstar → ‖y0 - y t0‖ ≤ δ →
        (∀ t ∈ Set.uIcc t0 b, ∀ x, ‖x - y t‖ ≤ r → ‖g t x - acc t x‖ ≤ δ) →
        ReachWithin c (newSolver c t0 y0 h0 e0 Ks0) t0 b H v → ‖v.st.y - y v.st.t‖ ≤ C * (H ^ R.order + δ) := by
  obtain ⟨ε, C, Λ, hε, hC, hΛ, hS⟩ := ny_main_bound R hR hy hv
  have key : ∀ R ∈ rationalNy, R.C.getD 0 0 = 0 ∧ 0 < R.s ∧ 1 ≤ R.order := by decide +kernel
  have hC0 : (R.tab ℝ).C 0 = 0 := by
    have := congrArg (fun q : ℚ => (q : ℝ)) (key R hR).1
    simpa [NyTable.tab] using this
  obtain ⟨ε1, he1, hstep1⟩ := noisy_ny_step hy hr (ny_noisy_nodes hR)
  set q := R.order with hq
  set ℓ := |b - t0| with hℓ
  have hℓ0 : 0 ≤ ℓ := abs_nonneg _
  set X := Real.exp (Λ * ℓ) with hX
  have hX0 : 0 < X := Real.exp_pos _
  set w := 2 * nyWeights (R.tab ℝ) with hw
  have hw0 : 0 ≤ w := by have := nyWeights_nonneg (R.tab ℝ); positivity
  set K := (1 + (C + w) * ℓ) * X with hK
  have hK0 : 0 ≤ K := by positivity
  set rm := min ε ε1 with hrm
  have hrm0 : 0 < rm := lt_min hε he1
  refine ⟨K, min 1 (min (rm / 2) (rm / (4 * (K + 1)))), hK0, by positivity, ?_⟩
  intro c g errNorm y0 h0 H δ e0 Ks0 v hc hm hdir hH0 hH hδ0 hδ hy0 hg hreach
  simp only [le_min_iff] at hH hδ
  obtain ⟨a1, a2, a4⟩ := hH
  obtain ⟨b1, -, b4⟩ := hδ
  rw [le_div_iff₀ (by positivity)] at a4 b4
  have hrε : rm ≤ ε := min_le_left _ _
  have hrε1 : rm ≤ ε1 := min_le_right _ _
  have hpow : H ^ q ≤ H := by
    calc H ^ q ≤ H ^ 1 := pow_le_pow_of_le_one hH0 a1 (key R hR).2.2
      _ = H := pow_one H
  have hHq : 0 ≤ H ^ q := by positivity
  have hfin : (δ + (C * H ^ q + w * δ) * ℓ) * X ≤ K * (H ^ q + δ) := by
    have e3 : K * (H ^ q + δ) = ((H ^ q + δ) + (C + w) * (H ^ q + δ) * ℓ) * X := by rw [hK]; ring
    rw [e3]
    refine mul_le_mul_of_nonneg_right ?_ hX0.le
    have e4 : C * H ^ q + w * δ ≤ (C + w) * (H ^ q + δ) := by
      nlinarith [mul_nonneg hC hδ0, mul_nonneg hw0 hHq]
    have := mul_le_mul_of_nonneg_right e4 hℓ0
    linarith
  have hlt : (δ + (C * H ^ q + w * δ) * ℓ) * X < rm := by
    refine hfin.trans_lt ?_
    have : K * H ^ q ≤ K * H := mul_le_mul_of_nonneg_left hpow hK0
    nlinarith
  have hmain := driver_error_from (y := y) (t0 := t0) (b := b) (ε := rm) (Λ := Λ) (D := C * H ^ q + w * δ) (H := H)
    (e0 := δ) (Step := fun t u h u' => ∃ k : ℕ → E, IsNyStep (R.tab ℝ) g t u h k u') hΛ (by positivity) hδ0 hlt
    (by
      rintro t ht u u' h ⟨k, hk⟩ hth hu hhH
      obtain ⟨k1, u1, hk1, hd⟩ := hstep1 t ht g u u' h δ k hg hk hth (by linarith) (by linarith) hδ0 b1
      have h5 := hS t ht u u1 h k1 hk1 (by linarith) (by linarith)
      have h6 := norm_add_le (u' - u1) (u1 - y (t + h))
      rw [sub_add_sub_cancel] at h6
      have h7 : C * |h| ^ (q + 1) ≤ C * H ^ q * |h| := by
        rw [pow_succ, ← mul_assoc]
        exact mul_le_mul_of_nonneg_right (mul_le_mul_of_nonneg_left (pow_le_pow_left₀ (abs_nonneg _) hhH _) hC) (abs_nonneg _)
      have h8 : (C * H ^ q + w * δ) * |h| = C * H ^ q * |h| + 2 * nyWeights (R.tab ℝ) * δ * |h| := by rw [hw]; ring
      rw [h8]
      linarith)
    hc hdir (v0 := newSolver c t0 y0 h0 e0 Ks0) rfl hy0
    (fun w w' fuel o hw hs => ny_step_or hm hC0 (key R hR).2.1 hw hs)
    hreach
  exact hmain.trans hfin

/-- **C119** with `max_step`. -/
theorem C119_max_step [CompleteSpace E] (R : NyTable) (hR : R ∈ rationalNy) {acc : ℝ → E × E → E} {y : ℝ → E × E}
    {t0 b : ℝ} (hy : NySolvesOn acc y t0 b) (hv : R.hasAp = false → ∀ t u v w, acc t (u, v) = acc t (u, w)) {r : ℝ} (hr : 0 < r) :
    ∃ C hstar : ℝ, 0 ≤ C ∧ 0 < hstar ∧
      ∀ (c : Cfg ℝ (E × E) E) (g : ℝ → E × E → E) (errNorm : E × E → E × E → E × E → ENorm ℝ) (y0 : E × E) (h0 H δ : ℝ) (e0 : ℕ) (Ks0 : ℕ → E)
        (v : Solver ℝ (E × E) E), CfgOK c → c.m = nyMethod (R.tab ℝ) g errNorm → c.tb = some b →
        0 ≤ c.dir * (b - t0) → c.maxStep = some H → H ≤ hstar → 0 ≤ δ → δ ≤ hstar → ‖y0 - y t0‖ ≤ δ →
        (∀ t ∈ Set.uIcc t0 b, ∀ x, ‖x - y t‖ ≤ r → ‖g t x - acc t x‖ ≤ δ) →
        (∀ w, Reach c (newSolver c t0 y0 h0 e0 Ks0) w → MaxStepUsable c w.st) →
        Reach c (newSolver c t0 y0 h0 e0 Ks0) v → ‖v.st.y - y v.st.t‖ ≤ C * (H ^ R.order + δ) := by
  obtain ⟨C, hstar, h1, h2, h3⟩ := C119_inexact_data R hR hy hv hr
  refine ⟨C, hstar, h1, h2, ?_⟩
  intro c g errNorm y0 h0 H δ e0 Ks0 v hc hm hb hdir hmax hH hδ0 hδ hy0 hg hu hreach
  exact h3 c g errNorm y0 h0 H δ e0 Ks0 v hc hm hdir (hc.maxStep H hmax).le hH hδ0 hδ hy0 hg
    (reachWithin_of_max_step hc hb hdir hmax rfl hu hreach)

/-- **C119.** Continuous dependence: two solvers of the same method with the same acceleration, started within `δ` of the solution, differ by at most
`C (H^order + δ)` at equal times, whatever their tolerances, controllers and step sequences. -/
theorem C119_two_runs [CompleteSpace E] (R : NyTable) (hR : R ∈ rationalNy) {acc : ℝ → E × E → E} {y : ℝ → E × E}
    {t0 b : ℝ} (hy : NySolvesOn acc y t0 b) (hv : R.hasAp = false → ∀ t u v w, acc t (u, v) = acc t (u, w)) :
    ∃ C hstar : ℝ, 0 ≤ C ∧ 0 < hstar ∧
      ∀ (c c' : Cfg ℝ (E × E) E) (errNorm errNorm' : E × E → E × E → E × E → ENorm ℝ) (y0 y0' : E × E) (h0 h0' H δ : ℝ)
        (e0 e0' : ℕ) (Ks0 Ks0' : ℕ → E) (v v' : Solver ℝ (E × E) E), CfgOK c → CfgOK c' → c.m = nyMethod (R.tab ℝ) acc errNorm →
        c'.m = nyMethod (R.tab ℝ) acc errNorm' → 0 ≤ c.dir * (b - t0) → 0 ≤ c'.dir * (b - t0) → 0 ≤ H → H ≤ hstar → 0 ≤ δ →
        δ ≤ hstar → ‖y0 - y t0‖ ≤ δ → ‖y0' - y t0‖ ≤ δ → ReachWithin c (newSolver c t0 y0 h0 e0 Ks0) t0 b H v →
        ReachWithin c' (newSolver c' t0 y0' h0' e0' Ks0') t0 b H v' → v.st.t = v'.st.t →
        ‖v.st.y - v'.st.y‖ ≤ C * (H ^ R.order + δ) := by
  obtain ⟨C, hstar, h1, h2, h3⟩ := C119_inexact_data R hR hy hv one_pos
  refine ⟨2 * C, hstar, by positivity, h2, ?_⟩
  intro c c' errNorm errNorm' y0 y0' h0 h0' H δ e0 e0' Ks0 Ks0' v v' hc hc' hm hm' hd hd' hH0 hH hδ0 hδ hy0 hy0' hr hr' ht
  have z : ∀ t ∈ Set.uIcc t0 b, ∀ x, ‖x - y t‖ ≤ 1 → ‖acc t x - acc t x‖ ≤ δ := fun t _ x _ => by rwa [sub_self, norm_zero]
  have a := h3 c acc errNorm y0 h0 H δ e0 Ks0 v hc hm hd hH0 hH hδ0 hδ hy0 z hr
  have a' := h3 c' acc errNorm' y0' h0' H δ e0' Ks0' v' hc' hm' hd' hH0 hH hδ0 hδ hy0' z hr'
  rw [← ht] at a'
  have := norm_sub_le_norm_sub_add_norm_sub v.st.y (y v.st.t) v'.st.y
  rw [norm_sub_rev (y v.st.t)] at this
  linarith

/-! ## The hypotheses are met -/

/-- The oscillator `u'' = -u + δ` on `[0, 1]` with `max_step = η`: the acceleration of the harmonic oscillator with an error of `δ`. -/
noncomputable def exCfgNyD (R : NyTable) (η δ : ℝ) : Cfg ℝ (ℝ × ℝ) ℝ :=
  { exCfgNy R η with m := nyMethod (R.tab ℝ) (fun _ y => -y.1 + δ) (fun _ _ _ => .num (1 / 2)) }

theorem exCfgNyD_ok (R : NyTable) {η δ : ℝ} (hη : 0 < η) : CfgOK (exCfgNyD R η δ) := { exCfgNy_ok R hη with }

theorem exCfgNyD_step (R : NyTable) {η δ : ℝ} (hη : 0 < η) (hη1 : η ≤ 1 / 2) : ∃ v', step (exCfgNyD R η δ) 1
    (newSolver (exCfgNyD R η δ) 0 (1 + δ, -δ) η 1 (fun _ => 0)) = some (.ok, v') := by
  have hms : minStepOf (exCfgNyD R η δ) 0 η = η := by
    simp only [minStepOf, exCfgNyD, exCfgNy, zero_mul]
    exact max_eq_right hη.le
  have hre : reassess (exCfgNyD R η δ) (newSolver (exCfgNyD R η δ) 0 (1 + δ, -δ) η 1 (fun _ => 0)).st = (η, η, true) := by
    have e1 : (newSolver (exCfgNyD R η δ) 0 (1 + δ, -δ) η 1 (fun _ => 0)).st.hAbs = η := rfl
    have e2 : (newSolver (exCfgNyD R η δ) 0 (1 + δ, -δ) η 1 (fun _ => 0)).st.t = 0 := rfl
    have e3 : (newSolver (exCfgNyD R η δ) 0 (1 + δ, -δ) η 1 (fun _ => 0)).st.stdSc = true := rfl
    have e4 : (exCfgNyD R η δ).tb = some 1 := rfl
    have e5 : (exCfgNyD R η δ).maxStep = some η := rfl
    unfold reassess
    simp only [e1, e2, e3, e4, e5, hms, overMax, lt_irrefl, decide_false, Bool.or_false, Bool.false_eq_true, if_false]
    have : ¬ (|(1 : ℝ) - 0| < 2 * η) := by rw [sub_zero, abs_one]; linarith
    simp only [this, if_false]
  obtain ⟨s', hs'⟩ := loop_accepts (c := exCfgNyD R η δ) (n := 0)
    (s := { (newSolver (exCfgNyD R η δ) 0 (1 + δ, -δ) η 1 (fun _ => 0)).st with stdSc := true }) (h := η)
    (ms := η) (x := 1 / 2) (rej := false) (lt_irrefl η)
    (by simp [exCfgNyD, exCfgNy, nyMethod, nyTrial, PreTest.none, ENorm.gt]) rfl (by norm_num) rfl rfl
  refine ⟨{ status := if reached (exCfgNyD R η δ) s'.t then .finished else .running,
            tOld := some 0, st := s' }, ?_⟩
  have h0 : (exCfgNyD R η δ).tb ≠ some (0 : ℝ) := by simp [exCfgNyD, exCfgNy]
  unfold step
  change (if (exCfgNyD R η δ).tb = some 0 then _ else _) = _
  rw [if_neg h0]
  unfold stepImpl
  rw [hre]
  dsimp only
  rw [hs']
  rfl

/-- C119: all hypotheses are met by runs of every rational Nystrom method on `u'' = -u + δ`, `u(0) = 1 + δ`, `u'(0) = -δ` as an inexact version of
`u'' = -u`, `u(0) = 1`, `u'(0) = 0`. -/
example (R : NyTable) (hR : R ∈ rationalNy) : ∃ C hstar : ℝ, 0 < hstar ∧ ∀ η δ, 0 < η → η ≤ hstar → 0 ≤ δ → δ ≤ hstar →
    ∃ v', step (exCfgNyD R η δ) 1 (newSolver (exCfgNyD R η δ) 0 (1 + δ, -δ) η 1 (fun _ => 0)) = some (.ok, v') ∧
      ‖v'.st.y - (Real.cos v'.st.t, -Real.sin v'.st.t)‖ ≤ C * (η ^ R.order + δ) := by
  obtain ⟨C, hstar, _, h2, h3⟩ := C119_max_step R hR (exOscillator_solves 0 1) (fun _ _ _ _ _ => rfl) one_pos
  refine ⟨C, min hstar (1 / 2), lt_min h2 (by norm_num), fun η δ hη hle hδ0 hδ => ?_⟩
  obtain ⟨v', hv⟩ := exCfgNyD_step R (δ := δ) hη (hle.trans (min_le_right _ _))
  refine ⟨v', hv, ?_⟩
  exact h3 (exCfgNyD R η δ) _ _ (1 + δ, -δ) η η δ 1 (fun _ => 0) v' (exCfgNyD_ok R hη) rfl rfl (by norm_num [exCfgNyD, exCfgNy])
    rfl (hle.trans (min_le_left _ _)) hδ0 (hδ.trans (min_le_left _ _)) (by simp [Prod.norm_def, abs_of_nonneg hδ0])
    (fun t _ x _ => by simp [abs_of_nonneg hδ0])
    (fun w _ m hm => by
      simp only [exCfgNyD, exCfgNy, Option.some.injEq] at hm
      simp only [minStepOf, exCfgNyD, exCfgNy, zero_mul]
      rw [← hm]
      exact max_le hη.le le_rfl)
    (.tail .refl hv)

end Extensisq
