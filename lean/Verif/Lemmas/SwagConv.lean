import Verif.Props.SwagError
import Mathlib.Analysis.Calculus.Taylor
import Mathlib.Analysis.Calculus.MeanValue
import Mathlib.Analysis.Calculus.Deriv.Polynomial
import Mathlib.Analysis.Calculus.Deriv.Pow

/-!
# Adams formulas on a variable mesh: weights, bounds, consistency
-/

set_option linter.unusedSectionVars false

namespace Extensisq
open Finset Polynomial

noncomputable section

/-! ## The weights -/

/-- The integral from `t` to `t'` of the Lagrange polynomial of node `i`. -/
def adamsW (n : ℕ) (x : ℕ → ℝ) (t t' : ℝ) (i : ℕ) : ℝ := inc (Lagrange.basis (range n) x i) t t'

theorem inc_interpolate (n : ℕ) (x F : ℕ → ℝ) (t t' : ℝ) :
    inc (Lagrange.interpolate (range n) x F) t t' = ∑ i ∈ range n, adamsW n x t t' i * F i := by
  rw [Lagrange.interpolate_apply, inc_sum]
  refine sum_congr rfl fun i _ => ?_
  rw [inc_C_mul, mul_comm]
  rfl

theorem injOn_range {n : ℕ} {x : ℕ → ℝ} (h : ∀ i < n, ∀ j < n, x i = x j → i = j) :
    Set.InjOn x (range n : Finset ℕ) := fun i hi j hj e => h i (by simpa using hi) j (by simpa using hj) e

variable {V : Type*} [AddCommGroup V] [Module ℝ V]

/-- Every solution operator of the Adams type is the sum with the weights. -/
theorem adams_formula {n : ℕ} {x : ℕ → ℝ} (hinj : ∀ i < n, ∀ j < n, x i = x j → i = j) (hn : 1 ≤ n) {t t' : ℝ} {y p : V}
    {F : ℕ → V}
    (h : ∀ (f : V →ₗ[ℝ] ℝ) (q : ℝ[X]), q.natDegree ≤ n → q.eval t = f y →
      (∀ i < n, (derivative q).eval (x i) = f (F i)) → f p = q.eval t') :
    p = y + ∑ i ∈ range n, adamsW n x t t' i • F i := by
  refine eq_of_functionals (K := ℝ) fun f => ?_
  obtain ⟨q, q1, q2, q3⟩ := exists_adams hinj (fun i => f (F i)) t (f y)
  have e : derivative q = Lagrange.interpolate (range n) x fun i => f (F i) := by
    refine Lagrange.eq_interpolate_of_eval_eq _ (injOn_range hinj) ?_ fun i hi => q3 i (by simpa using hi)
    rw [card_range]
    exact degree_lt_of_natDegree_deriv hn q1
  have e2 := inc_of_deriv e t t'
  rw [inc_interpolate] at e2
  rw [h f q q1 q2 q3, map_add, map_sum]
  simp only [map_smul, smul_eq_mul]
  rw [e2, q2]
  ring

/-- The formulas are exact for powers. -/
theorem adams_exact {n : ℕ} {x : ℕ → ℝ} (hinj : ∀ i < n, ∀ j < n, x i = x j → i = j) (t t' a : ℝ) {m : ℕ} (hm : m < n) :
    ∑ i ∈ range n, adamsW n x t t' i * (x i - a) ^ m = ((t' - a) ^ (m + 1) - (t - a) ^ (m + 1)) / ((m : ℝ) + 1) := by
  have h0 : ((m : ℝ) + 1) ≠ 0 := by positivity
  have e : (X - C a) ^ m = Lagrange.interpolate (range n) x fun i => (x i - a) ^ m := by
    refine Lagrange.eq_interpolate_of_eval_eq _ (injOn_range hinj) ?_ fun i _ => by simp
    rw [card_range, degree_pow, degree_X_sub_C]
    simpa using hm
  rw [← inc_interpolate, ← e, inc_of_deriv (S := C ((m : ℝ) + 1)⁻¹ * (X - C a) ^ (m + 1))]
  · simp only [eval_mul, eval_C, eval_pow, eval_sub, eval_X]
    field_simp
  · rw [derivative_C_mul, derivative_X_sub_C_pow, Nat.add_sub_cancel, ← mul_assoc]
    have : C ((m : ℝ) + 1)⁻¹ * C ((m + 1 : ℕ) : ℝ) = 1 := by
      rw [← C_mul]
      push_cast
      rw [inv_mul_cancel₀ h0, C_1]
    rw [this, one_mul]

theorem inc_bound {p : ℝ[X]} {a b B : ℝ} (h : ∀ s ∈ Set.uIcc a b, |p.eval s| ≤ B) : |inc p a b| ≤ B * |b - a| := by
  have := (convex_uIcc a b).norm_image_sub_le_of_norm_hasDerivWithin_le (f := fun s => (pint p).eval s)
    (f' := fun s => p.eval s) (C := B) (fun s _ => by
      have := (pint p).hasDerivAt s
      rw [derivative_pint] at this
      exact this.hasDerivWithinAt) h Set.left_mem_uIcc Set.right_mem_uIcc
  exact this

/-- Bound of the weights by the quality of the mesh. -/
theorem adamsW_bound {n : ℕ} {x : ℕ → ℝ} {t t' R : ℝ} (hR : 1 ≤ R) {i : ℕ} (hi : i < n)
    (h : ∀ s ∈ Set.uIcc t t', ∀ j < n, j ≠ i → |s - x j| ≤ R * |x i - x j|) :
    |adamsW n x t t' i| ≤ R ^ n * |t' - t| := by
  refine inc_bound fun s hs => ?_
  rw [Lagrange.basis, eval_prod, abs_prod]
  calc ∏ j ∈ (range n).erase i, |eval s (Lagrange.basisDivisor (x i) (x j))|
      ≤ ∏ j ∈ (range n).erase i, R := by
        refine prod_le_prod (fun _ _ => abs_nonneg _) fun j hj => ?_
        have hj' := mem_erase.mp hj
        have hb := h s hs j (by simpa using hj'.2) hj'.1
        simp only [Lagrange.basisDivisor, eval_mul, eval_C, eval_sub, eval_X, abs_mul, abs_inv]
        rcases (abs_nonneg (x i - x j)).eq_or_lt with h0 | h0
        · rw [← h0, inv_zero, zero_mul]; linarith
        · rw [inv_mul_le_iff₀ h0]
          linarith
    _ = R ^ ((range n).erase i).card := by rw [prod_const]
    _ ≤ R ^ n := pow_le_pow_right₀ hR ((card_le_card (erase_subset _ _)).trans (by simp))

/-! ## The quality of a mesh whose steps at most double -/

theorem mesh_quality {u : ℕ → ℝ} {n : ℕ} (hpos : ∀ m < n, u (m + 1) < u m)
    (hg : ∀ m, m + 1 < n → u m - u (m + 1) ≤ 2 * (u (m + 1) - u (m + 2))) {s : ℝ} (h1 : u 1 ≤ s) (h0 : s ≤ u 0)
    {i j : ℕ} (hi : i ≤ n) (hj : j ≤ n) (hij : j ≠ i) : |s - u j| ≤ 2 ^ (n + 1) * |u i - u j| := by
  have hanti : ∀ d a, a + d ≤ n → u (a + d) ≤ u a := by
    intro d
    induction d with
    | zero => intro a _; exact le_rfl
    | succ d ih =>
      intro a h
      exact (hpos (a + d) (by omega)).le.trans (ih a (by omega))
  have hle : ∀ a b, a ≤ b → b ≤ n → u b ≤ u a := fun a b h1 h2 => by
    have := hanti (b - a) a (by omega)
    rwa [Nat.add_sub_cancel' h1] at this
  have hA : ∀ m, m + 1 ≤ n → u 0 - u (m + 1) ≤ (2 ^ (m + 1) - 1) * (u m - u (m + 1)) := by
    intro m
    induction m with
    | zero => intro _; norm_num
    | succ m ih =>
      intro h
      have e1 := ih (by omega)
      have e2 := hg m (by omega)
      have e3 : (0 : ℝ) ≤ 2 ^ (m + 1) - 1 := by
        have := one_le_pow₀ (M₀ := ℝ) (a := 2) (by norm_num) (n := m + 1)
        linarith
      have e4 := mul_le_mul_of_nonneg_left e2 e3
      have e5 : (2 : ℝ) ^ (m + 1 + 1) = 2 * 2 ^ (m + 1) := by ring
      rw [e5]
      have e6 : u 0 - u (m + 1 + 1) = (u 0 - u (m + 1)) + (u (m + 1) - u (m + 2)) := by ring
      rw [e6]
      linarith
  have hpow : ∀ m, m ≤ n + 1 → (2 : ℝ) ^ m ≤ 2 ^ (n + 1) := fun m h => pow_le_pow_right₀ (by norm_num) h
  have h2 : (0 : ℝ) < 2 ^ (n + 1) := by positivity
  rcases lt_or_gt_of_ne hij with hlt | hgt
  · -- `j < i`
    have hjn : j < n := by omega
    have hbase : u j - u (j + 1) ≤ |u i - u j| := by
      rw [abs_sub_comm, abs_of_nonneg (by linarith [hle j i hlt.le hi])]
      linarith [hle (j + 1) i hlt hi]
    have he := hpos j hjn
    have : |s - u j| ≤ 2 ^ (n + 1) * (u j - u (j + 1)) := by
      rcases j with _ | m
      · rw [abs_sub_comm, abs_of_nonneg (by linarith)]
        have := hpow 0 (by omega)
        have h3 := mul_le_mul_of_nonneg_right this (show 0 ≤ u 0 - u (0 + 1) by linarith)
        rw [pow_zero, one_mul] at h3
        have h4 : u (0 + 1) ≤ s := h1
        linarith
      · have h3 : u (m + 1) ≤ s := (hle 1 (m + 1) (by omega) (by omega)).trans h1
        rw [abs_of_nonneg (by linarith)]
        have h4 := hA m (by omega)
        have h5 := hg m (by omega)
        have e3 : (0 : ℝ) ≤ 2 ^ (m + 1) - 1 := by
          have := one_le_pow₀ (M₀ := ℝ) (a := 2) (by norm_num) (n := m + 1)
          linarith
        have h6 := mul_le_mul_of_nonneg_left h5 e3
        have h7 := mul_le_mul_of_nonneg_right (hpow (m + 1 + 1) (by omega)) (show 0 ≤ u (m + 1) - u (m + 1 + 1) by linarith)
        have e5 : (2 : ℝ) ^ (m + 1 + 1) = 2 * 2 ^ (m + 1) := by ring
        rw [e5] at h7
        have e8 : u (m + 1 + 1) = u (m + 2) := rfl
        nlinarith
    exact this.trans (mul_le_mul_of_nonneg_left hbase h2.le)
  · -- `i < j`
    obtain ⟨m, rfl⟩ : ∃ m, j = m + 1 := ⟨j - 1, by omega⟩
    have hbase : u m - u (m + 1) ≤ |u i - u (m + 1)| := by
      rw [abs_of_nonneg (by linarith [hle i (m + 1) hgt.le hj])]
      linarith [hle i m (by omega) (by omega)]
    have h3 : u (m + 1) ≤ s := (hle 1 (m + 1) (by omega) (by omega)).trans h1
    have he := hpos m (by omega)
    have h4 := hA m hj
    have h7 := mul_le_mul_of_nonneg_right (hpow (m + 1) (by omega)) (show 0 ≤ u m - u (m + 1) by linarith)
    rw [abs_of_nonneg (by linarith)]
    refine le_trans ?_ (mul_le_mul_of_nonneg_left hbase h2.le)
    nlinarith

/-! ## Consistency -/

section
variable {E : Type*} [NormedAddCommGroup E] [NormedSpace ℝ E]

/-- Bounds for the derivatives of a smooth function on an interval. -/
theorem deriv_bound {G : ℝ → E} {A B : ℝ} (hG : ∀ s ∈ Set.Icc A B, ∀ n : ℕ, ContDiffAt ℝ n G s) (N : ℕ) :
    ∃ M, 0 ≤ M ∧ ∀ n ≤ N, ∀ s ∈ Set.Icc A B, ‖iteratedDeriv n G s‖ ≤ M := by
  have h1 : ∀ n, ∃ M, 0 ≤ M ∧ ∀ s ∈ Set.Icc A B, ‖iteratedDeriv n G s‖ ≤ M := by
    intro n
    have hc : ContinuousOn (iteratedFDeriv ℝ n G) (Set.Icc A B) := fun s hs =>
      ((hG s hs n).continuousAt_iteratedFDeriv (k := n) le_rfl).continuousWithinAt
    obtain ⟨M, hM⟩ := isCompact_Icc.exists_bound_of_continuousOn hc
    refine ⟨max M 0, le_max_right _ _, fun s hs => ?_⟩
    rw [← norm_iteratedFDeriv_eq_norm_iteratedDeriv]
    exact (hM s hs).trans (le_max_left _ _)
  choose M hM0 hM using h1
  refine ⟨∑ n ∈ range (N + 1), M n, sum_nonneg fun n _ => hM0 n, fun n hn s hs => (hM n s hs).trans ?_⟩
  exact single_le_sum (f := M) (fun i _ => hM0 i) (mem_range.mpr (by omega))

/-- The defect of an Adams formula with `n` nodes, for the exact solution. -/
theorem adams_defect {Y G : ℝ → E} {A B M : ℝ} (hY : ∀ s ∈ Set.Icc A B, HasDerivAt Y (G s) s)
    (hG : ∀ s ∈ Set.Icc A B, ∀ n : ℕ, ContDiffAt ℝ n G s) {n : ℕ} (hn : 1 ≤ n)
    (hM : ∀ s ∈ Set.Icc A B, ‖iteratedDeriv n G s‖ ≤ M) {x : ℕ → ℝ}
    (hinj : ∀ i < n, ∀ j < n, x i = x j → i = j) {a t t' D : ℝ} (ha : a ∈ Set.Icc A B) (hD : a + D ≤ B)
    (ht : t ∈ Set.Icc a (a + D)) (ht' : t' ∈ Set.Icc a (a + D)) (hne : t ≠ t')
    (hx : ∀ i < n, x i ∈ Set.Icc a (a + D)) :
    ‖Y t' - Y t - ∑ i ∈ range n, adamsW n x t t' i • G (x i)‖ ≤
      M * D ^ n * (|t' - t| + ∑ i ∈ range n, |adamsW n x t t' i|) := by
  obtain ⟨m, rfl⟩ : ∃ m, n = m + 1 := ⟨n - 1, by omega⟩
  have hab : a < B := by
    rcases lt_or_ge a B with h | h
    · exact h
    · exfalso
      apply hne
      have e1 := ht.1; have e2 := ht.2; have e3 := ht'.1; have e4 := ht'.2
      linarith
  have hsub : Set.Icc a B ⊆ Set.Icc A B := Set.Icc_subset_Icc_left ha.1
  have hM0 : 0 ≤ M := (norm_nonneg _).trans (hM a ha)
  have hD0 : 0 ≤ D := by have e1 := ht.1; have e2 := ht.2; linarith
  set cf : ℕ → E := fun k => ((k.factorial : ℝ))⁻¹ • iteratedDerivWithin k G (Set.Icc a B) a with hcf
  -- Taylor
  have hT : ∀ s ∈ Set.Icc a (a + D), ‖G s - ∑ k ∈ range (m + 1), (s - a) ^ k • cf k‖ ≤ M * D ^ (m + 1) := by
    intro s hs
    have hsB : s ∈ Set.Icc a B := ⟨hs.1, hs.2.trans hD⟩
    have h1 := taylor_mean_remainder_bound (f := G) (n := m) (C := M) hab.le
      (fun z hz => ((hG z (hsub hz) (m + 1)).contDiffWithinAt)) hsB (fun z hz => by
        rw [iteratedDerivWithin_eq_iteratedDeriv (uniqueDiffOn_Icc hab) (hG z (hsub hz) (m + 1)) hz]
        exact hM z (hsub hz))
    rw [taylor_within_apply] at h1
    have e : ∑ k ∈ range (m + 1), ((k.factorial : ℝ)⁻¹ * (s - a) ^ k) • iteratedDerivWithin k G (Set.Icc a B) a =
        ∑ k ∈ range (m + 1), (s - a) ^ k • cf k := by
      refine sum_congr rfl fun k _ => ?_
      rw [hcf, smul_smul, mul_comm]
    rw [e] at h1
    refine h1.trans ?_
    have h2 : (s - a) ^ (m + 1) ≤ D ^ (m + 1) := pow_le_pow_left₀ (by linarith [hs.1]) (by linarith [hs.2]) _
    have h3 : (1 : ℝ) ≤ m.factorial := by exact_mod_cast Nat.one_le_iff_ne_zero.mpr (Nat.factorial_ne_zero m)
    have h4 : 0 ≤ (s - a) ^ (m + 1) := pow_nonneg (by linarith [hs.1]) _
    rw [div_le_iff₀ (by linarith)]
    have h5 : M * (s - a) ^ (m + 1) ≤ M * D ^ (m + 1) := mul_le_mul_of_nonneg_left h2 hM0
    have h6 : 0 ≤ M * D ^ (m + 1) := by positivity
    nlinarith
  -- the integrated polynomial
  set Q : ℝ → E := fun s => ∑ k ∈ range (m + 1), ((s - a) ^ (k + 1) / ((k : ℝ) + 1)) • cf k with hQ
  have hQd : ∀ s, HasDerivAt Q (∑ k ∈ range (m + 1), (s - a) ^ k • cf k) s := by
    intro s
    refine HasDerivAt.fun_sum fun k _ => ?_
    have h1 : HasDerivAt (fun s : ℝ => (s - a) ^ (k + 1) / ((k : ℝ) + 1)) ((s - a) ^ k) s := by
      have := (((hasDerivAt_id s).sub_const a).pow (k + 1)).div_const ((k : ℝ) + 1)
      have h0 : ((k : ℝ) + 1) ≠ 0 := by positivity
      have e : (((k + 1 : ℕ) : ℝ) * (id s - a) ^ (k + 1 - 1) * 1) / ((k : ℝ) + 1) = (s - a) ^ k := by
        rw [Nat.add_sub_cancel, id]
        push_cast
        field_simp
      rw [e] at this
      exact this
    exact h1.smul_const _
  have hmv : ‖(Y t' - Q t') - (Y t - Q t)‖ ≤ M * D ^ (m + 1) * |t' - t| := by
    have := (convex_uIcc t t').norm_image_sub_le_of_norm_hasDerivWithin_le (f := fun s => Y s - Q s)
      (f' := fun s => G s - ∑ k ∈ range (m + 1), (s - a) ^ k • cf k) (C := M * D ^ (m + 1)) (fun s hs => ?_)
      (fun s hs => ?_) Set.left_mem_uIcc Set.right_mem_uIcc
    · exact this
    · have hs' : s ∈ Set.Icc a (a + D) := Set.uIcc_subset_Icc ht ht' hs
      exact ((hY s (hsub ⟨hs'.1, hs'.2.trans hD⟩)).sub (hQd s)).hasDerivWithinAt
    · exact hT s (Set.uIcc_subset_Icc ht ht' hs)
  -- exactness
  have hex : Q t' - Q t = ∑ i ∈ range (m + 1), adamsW (m + 1) x t t' i • ∑ k ∈ range (m + 1), (x i - a) ^ k • cf k := by
    simp only [smul_sum, smul_smul]
    rw [sum_comm]
    rw [hQ]
    dsimp only
    rw [← sum_sub_distrib]
    refine sum_congr rfl fun k hk => ?_
    rw [← sub_smul, ← sub_div, ← adams_exact hinj t t' a (mem_range.mp hk), sum_smul]
  have hsplit : Y t' - Y t - ∑ i ∈ range (m + 1), adamsW (m + 1) x t t' i • G (x i) =
      ((Y t' - Q t') - (Y t - Q t)) -
        ∑ i ∈ range (m + 1), adamsW (m + 1) x t t' i • (G (x i) - ∑ k ∈ range (m + 1), (x i - a) ^ k • cf k) := by
    simp only [smul_sub, sum_sub_distrib]
    rw [← hex]
    abel
  rw [hsplit, mul_add]
  refine (norm_sub_le _ _).trans (add_le_add hmv ((norm_sum_le _ _).trans ?_))
  rw [mul_sum]
  refine sum_le_sum fun i hi => ?_
  rw [norm_smul, Real.norm_eq_abs, mul_comm]
  exact mul_le_mul_of_nonneg_right (hT _ (hx i (mem_range.mp hi))) (abs_nonneg _)

/-- The same for nodes between two points `u`, `v`. -/
theorem adams_defect_uIcc {Y G : ℝ → E} {A B M : ℝ} (hY : ∀ s ∈ Set.uIcc A B, HasDerivAt Y (G s) s)
    (hG : ∀ s ∈ Set.uIcc A B, ∀ n : ℕ, ContDiffAt ℝ n G s) {n : ℕ} (hn : 1 ≤ n)
    (hM : ∀ s ∈ Set.uIcc A B, ‖iteratedDeriv n G s‖ ≤ M) {x : ℕ → ℝ}
    (hinj : ∀ i < n, ∀ j < n, x i = x j → i = j) {u v t t' : ℝ} (hu : u ∈ Set.uIcc A B) (hv : v ∈ Set.uIcc A B)
    (ht : t ∈ Set.uIcc u v) (ht' : t' ∈ Set.uIcc u v) (hne : t ≠ t') (hx : ∀ i < n, x i ∈ Set.uIcc u v) :
    ‖Y t' - Y t - ∑ i ∈ range n, adamsW n x t t' i • G (x i)‖ ≤
      M * |u - v| ^ n * (|t' - t| + ∑ i ∈ range n, |adamsW n x t t' i|) := by
  have e : min u v + |u - v| = max u v := by rw [← max_sub_min_eq_abs, max_comm v u, min_comm v u, add_sub_cancel]
  have e2 : Set.Icc (min u v) (min u v + |u - v|) = Set.uIcc u v := by rw [e]; rfl
  refine adams_defect (A := min A B) (B := max A B) hY hG hn hM hinj (a := min u v) ?_ ?_ ?_ ?_ hne ?_
  · rcases min_choice u v with h | h <;> rw [h]
    · exact hu
    · exact hv
  · rw [e]; exact max_le hu.2 hv.2
  · rw [e2]; exact ht
  · rw [e2]; exact ht'
  · rw [e2]; exact hx

theorem sum_error {n : ℕ} {w : ℕ → ℝ} {F G : ℕ → E} {b e : ℝ} (he : 0 ≤ e) (hw : ∀ i < n, |w i| ≤ b)
    (hF : ∀ i < n, ‖F i - G i‖ ≤ e) : ‖∑ i ∈ range n, w i • F i - ∑ i ∈ range n, w i • G i‖ ≤ n * (b * e) := by
  rw [← sum_sub_distrib]
  refine (norm_sum_le _ _).trans ?_
  calc ∑ i ∈ range n, ‖w i • F i - w i • G i‖ ≤ ∑ i ∈ range n, b * e := by
        refine sum_le_sum fun i hi => ?_
        rw [← smul_sub, norm_smul, Real.norm_eq_abs]
        exact mul_le_mul (hw i (mem_range.mp hi)) (hF i (mem_range.mp hi)) (norm_nonneg _)
          ((abs_nonneg _).trans (hw i (mem_range.mp hi)))
    _ = n * (b * e) := by rw [sum_const, card_range, nsmul_eq_mul]

/-- The error of one predictor-corrector step. -/
theorem pece_step {k : ℕ} {w w' : ℕ → ℝ} {F G : ℕ → E} {fn : E → E} {y p y' Y0 Y1 G1 : E} {B L c1 h D T e ρ : ℝ} (hB : 0 ≤ B)
    (hL : 0 ≤ L) (hc : 0 ≤ c1) (hh : 0 ≤ h) (hD : h ≤ D) (hT : h ≤ T) (he : 0 ≤ e)
    (hw : ∀ i < k, |w i| ≤ B * h) (hw' : ∀ i < k + 1, |w' i| ≤ B * h)
    (d1 : ‖Y1 - Y0 - ∑ i ∈ range k, w i • G i‖ ≤ c1 * h * D ^ k)
    (d2 : ‖Y1 - Y0 - (w' 0 • G1 + ∑ i ∈ range k, w' (i + 1) • G i)‖ ≤ c1 * h * D ^ (k + 1))
    (hy : ‖y - Y0‖ ≤ e) (hF : ∀ i < k, ‖F i - G i‖ ≤ L * e)
    (hlip : ∀ z, ‖z - Y1‖ < ρ → ‖fn z - G1‖ ≤ L * ‖z - Y1‖)
    (hsmall : e * (1 + k * B * L * h) + c1 * h * D ^ k < ρ)
    (hp : p = y + ∑ i ∈ range k, w i • F i) (hy' : y' = y + (w' 0 • fn p + ∑ i ∈ range k, w' (i + 1) • F i)) :
    ‖y' - Y1‖ ≤ e * (1 + (k * B * L + B * L * (1 + k * B * L * T)) * h) + c1 * (1 + B * L) * (h * D ^ (k + 1)) := by
  have hD0 : 0 ≤ D := hh.trans hD
  have s1 := sum_error (mul_nonneg hL he) hw hF
  have hpe : ‖p - Y1‖ ≤ e * (1 + k * B * L * h) + c1 * h * D ^ k := by
    have e1 : p - Y1 = (y - Y0) + (∑ i ∈ range k, w i • F i - ∑ i ∈ range k, w i • G i) -
        (Y1 - Y0 - ∑ i ∈ range k, w i • G i) := by rw [hp]; abel
    rw [e1]
    refine (norm_sub_le _ _).trans ((add_le_add ((norm_add_le _ _).trans (add_le_add hy s1)) d1).trans (le_of_eq ?_))
    ring
  have hf := hlip p (hpe.trans_lt hsmall)
  have s2 := sum_error (n := k) (w := fun i => w' (i + 1)) (mul_nonneg hL he) (fun i hi => hw' (i + 1) (by omega)) hF
  have s3 : ‖w' 0 • fn p - w' 0 • G1‖ ≤ B * h * (L * (e * (1 + k * B * L * h) + c1 * h * D ^ k)) := by
    rw [← smul_sub, norm_smul, Real.norm_eq_abs]
    exact mul_le_mul (hw' 0 (by omega)) (hf.trans (mul_le_mul_of_nonneg_left hpe hL)) (norm_nonneg _) (by positivity)
  have e2 : y' - Y1 = (y - Y0) + (w' 0 • fn p - w' 0 • G1) +
      (∑ i ∈ range k, w' (i + 1) • F i - ∑ i ∈ range k, w' (i + 1) • G i) -
      (Y1 - Y0 - (w' 0 • G1 + ∑ i ∈ range k, w' (i + 1) • G i)) := by rw [hy']; abel
  rw [e2]
  have hb := (norm_sub_le _ _).trans (add_le_add ((norm_add_le _ _).trans (add_le_add ((norm_add_le _ _).trans
    (add_le_add hy s3)) s2)) d2)
  refine hb.trans ?_
  have h1 : h * D ^ k ≤ D ^ (k + 1) := by
    rw [pow_succ, mul_comm]
    exact mul_le_mul_of_nonneg_left hD (pow_nonneg hD0 _)
  have h2 : B * L * h * c1 * (h * D ^ k) ≤ B * L * h * c1 * D ^ (k + 1) := mul_le_mul_of_nonneg_left h1 (by positivity)
  have h3 : e * (B * L * h) * (k * B * L * h) ≤ e * (B * L * h) * (k * B * L * T) :=
    mul_le_mul_of_nonneg_left (mul_le_mul_of_nonneg_left hT (by positivity)) (by positivity)
  nlinarith

end

end
end Extensisq
