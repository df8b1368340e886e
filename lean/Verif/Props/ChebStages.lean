import Verif.Lemmas.ChebStages
import Verif.Props.Cheb
import Mathlib.Analysis.InnerProductSpace.Spectrum

/-!
# The stages of SSV2stab: C44 (consistency), C69 (stability), C70 (order)
-/

set_option linter.unusedSectionVars false

namespace Extensisq
open scoped ContDiff
open Finset Asymptotics Filter Topology

section
variable {V W : Type*} [AddCommGroup V] [Module ℝ V] [AddCommGroup W] [Module ℝ W]

/-! ## C44 -/

/-- **C44**. If a linear function `l` of the solution has constant derivative `w` along the problem
(`l (f t y) = w`), the computed solution has `l(y_{n+1}) = l(y_n) + h w`, for every number of stages. With
`l = id`: `y' = const` is integrated exactly; with `w = 0`: linear invariants are conserved. -/
theorem C44_linear_functional (l : V →ₗ[ℝ] W) (f : ℝ → V → V) (w : W) (hf : ∀ t y, l (f t y) = w)
    (t : ℝ) (yn : V) (h : ℝ) {m : ℕ} (hm : 2 ≤ m) :
    l (rkcStages f t yn (f t yn) h m) = l yn + h • w := by
  have hw := (rkcW0_gt m (by omega)).le
  rw [rkcStages_eq f t yn _ h hm,
    rkcY_rk f hw (rkcW1 m) t yn _ h rfl m le_rfl (by omega : 1 ≤ m), map_add, map_smul, map_sum]
  congr 2
  calc ∑ i ∈ range m, l (rkcRow (rkcW0 m) (rkcW1 m) m i • f _ _)
      = ∑ i ∈ range m, rkcRow (rkcW0 m) (rkcW1 m) m i • w := by
        apply sum_congr rfl; intro i _; rw [map_smul, hf]
    _ = w := by rw [← sum_smul, rkcRow_sum hw _ (by omega) m le_rfl, thT_last hm, one_smul]

/-- **C44**. `y' = const` is integrated exactly. -/
theorem C44_constant (c : V) (t : ℝ) (yn : V) (h : ℝ) {m : ℕ} (hm : 2 ≤ m) :
    rkcStages (fun _ _ => c) t yn c h m = yn + h • c :=
  C44_linear_functional LinearMap.id (fun _ _ => c) c (fun _ _ => rfl) t yn h hm

/-- **C44**. Linear invariants are conserved. -/
theorem C44_linear_invariant (l : V →ₗ[ℝ] W) (f : ℝ → V → V) (hf : ∀ t y, l (f t y) = 0)
    (t : ℝ) (yn : V) (h : ℝ) {m : ℕ} (hm : 2 ≤ m) :
    l (rkcStages f t yn (f t yn) h m) = l yn := by
  rw [C44_linear_functional l f 0 hf t yn h hm, smul_zero, add_zero]

/-- **C44**. Equilibria are kept. -/
theorem C44_equilibrium (f : ℝ → V → V) {ys : V} (hf : ∀ t, f t ys = 0) (t : ℝ) (h : ℝ) {m : ℕ} (hm : 2 ≤ m) :
    rkcStages f t ys (f t ys) h m = ys := by
  have hw := (rkcW0_gt m (by omega)).le
  have key : ∀ j, rkcY f (rkcW0 m) (rkcW1 m) t ys (f t ys) h j = ys := by
    intro j
    induction j using Nat.strong_induction_on with
    | _ j ih =>
      match j, ih with
      | 0, _ => rfl
      | 1, _ => rw [rkcY_one, hf, smul_zero, add_zero]
      | j + 2, ih =>
        rw [rkcY_succ f hw, ih (j + 1) (by omega), ih j (by omega), hf, hf]
        module
  rw [rkcStages_eq f t ys _ h hm, key]

/-- **C44**. A step with `m` stages evaluates the right-hand side `m - 1` times, at times inside the step:
`t + θ h` with `0 < θ ≤ 1`, in the order of integration. -/
theorem C44_stage_times (f : ℝ → V → V) (t : ℝ) (yn fn : V) (h : ℝ) {m : ℕ} (hm : 2 ≤ m) :
    (rkcEvals f (rkcW0 m) (rkcW1 m) t yn fn h m).length = m - 1 ∧
    ∃ θ : ℕ → ℝ, (∀ j, 0 < θ j) ∧ (∀ j, j < m - 1 → θ j ≤ 1) ∧ Monotone θ ∧
      (rkcEvals f (rkcW0 m) (rkcW1 m) t yn fn h m).map (·.1) = (List.range (m - 1)).map fun j => t + θ j * h := by
  have hw := (rkcW0_gt m (by omega)).le
  refine ⟨by simp [rkcEvals], fun j => thT (rkcW0 m) (rkcW1 m) (j + 1), ?_, ?_, ?_, ?_⟩
  · exact fun j => thT_pos hm (by omega)
  · intro j hj
    rw [← thT_last hm]
    exact thT_mono hm (by omega)
  · intro i j hij
    exact thT_mono hm (by omega)
  · unfold rkcEvals
    rw [List.map_map]
    apply List.map_congr_left
    intro j _
    simp only [Function.comp]
    rw [(rkcRun_coef f hw (rkcW1 m) t yn fn h j).2.2.2.2.2.2.2.2.1]
    ring

/-- **C44**. Each stage value belongs to its stage time: for `y' = c` stage `j` is `y + θ_j h c` (the `θ_j`
of `C44_stage_times`). -/
theorem C44_stage_values_match_times (c : V) (t : ℝ) (yn : V) (h : ℝ) {m : ℕ} (hm : 2 ≤ m) :
    ∀ p ∈ rkcEvals (fun _ _ => c) (rkcW0 m) (rkcW1 m) t yn c h m, p.2 = yn + (p.1 - t) • c := by
  have hw := (rkcW0_gt m (by omega)).le
  intro p hp
  unfold rkcEvals at hp
  rw [List.mem_map] at hp
  obtain ⟨k, -, rfl⟩ := hp
  dsimp only
  rw [(rkcRun_coef (fun _ _ => c) hw (rkcW1 m) t yn c h k).2.2.2.2.2.2.2.2.1]
  have := rkcY_rk (fun _ _ => c) hw (rkcW1 m) t yn c h rfl (k + 1) le_rfl (by omega)
  rw [← sum_smul, rkcRow_sum hw _ (by omega) (k + 1) le_rfl, smul_smul] at this
  rw [show t + h * thT (rkcW0 m) (rkcW1 m) (k + 1) - t = h * thT (rkcW0 m) (rkcW1 m) (k + 1) by ring]
  exact this

/-! ## C69: stability -/

/-- The stability polynomials. -/
noncomputable def rkcP (w w1 : ℝ) (j : ℕ) (z : ℝ) : ℝ := 1 - bT w j * zT w j + bT w j * zT (w + w1 * z) j

theorem rkcP_zero (w w1 z : ℝ) : rkcP w w1 0 z = 1 := by simp [rkcP, zT_zero]

theorem rkcP_one (w w1 z : ℝ) : rkcP w w1 1 z = 1 + thT w w1 1 * z := by
  simp only [rkcP, thT, zT_one, dT_one]; ring

theorem rkcP_succ {w : ℝ} (hw : 1 ≤ w) (w1 z : ℝ) (j : ℕ) : rkcP w w1 (j + 2) z =
    muT w j * rkcP w w1 (j + 1) z + nuT w j * rkcP w w1 j z + (1 - muT w j - nuT w j)
      + musT w w1 j * z * (rkcP w w1 (j + 1) z - ajT w j) := by
  have h1 := bT_pos hw (j + 1)
  have h0 := bT_pos hw j
  rw [musT_eq hw]
  unfold rkcP muT nuT ajT
  rw [zT_succ, zT_succ]
  field_simp
  ring

/-- On a sum of eigenvectors of a linear problem, each component is multiplied by the value of the
polynomial. -/
theorem rkcY_eigen {ι : Type*} (s : Finset ι) (L : V →ₗ[ℝ] V) (e : ι → V) (lam : ι → ℝ)
    (he : ∀ i ∈ s, L (e i) = lam i • e i) {w : ℝ} (hw : 1 ≤ w) (w1 t h : ℝ) (j : ℕ) :
    rkcY (fun _ v => L v) w w1 t (∑ i ∈ s, e i) (L (∑ i ∈ s, e i)) h j =
      ∑ i ∈ s, rkcP w w1 j (h * lam i) • e i := by
  have hL : ∀ c : ι → ℝ, L (∑ i ∈ s, c i • e i) = ∑ i ∈ s, (c i * lam i) • e i := by
    intro c
    rw [map_sum]
    apply sum_congr rfl
    intro i hi
    rw [map_smul, he i hi, smul_smul]
  have hL1 : L (∑ i ∈ s, e i) = ∑ i ∈ s, lam i • e i := by
    rw [map_sum]; exact sum_congr rfl he
  induction j using Nat.strong_induction_on with
  | _ j ih =>
    match j, ih with
    | 0, _ => simp [rkcP_zero, rkcY]
    | 1, _ =>
      rw [rkcY_one, hL1, smul_sum, ← sum_add_distrib]
      apply sum_congr rfl
      intro i _
      rw [rkcP_one]
      module
    | j + 2, ih =>
      rw [rkcY_succ _ hw, ih (j + 1) (by omega), ih j (by omega), hL, hL1]
      simp only [smul_sum, ← sum_add_distrib, ← sum_sub_distrib]
      apply sum_congr rfl
      intro i _
      rw [rkcP_succ hw]
      module

/-- For a linear problem with inhomogeneity, the difference of two solutions obeys the linear recursion. -/
theorem rkcY_affine (L : V →ₗ[ℝ] V) (g : ℝ → V) {w : ℝ} (hw : 1 ≤ w) (w1 t h : ℝ) (y y' : V) (j : ℕ) :
    rkcY (fun t v => L v + g t) w w1 t y (L y + g t) h j - rkcY (fun t v => L v + g t) w w1 t y' (L y' + g t) h j =
      rkcY (fun _ v => L v) w w1 t (y - y') (L (y - y')) h j := by
  induction j using Nat.strong_induction_on with
  | _ j ih =>
    match j, ih with
    | 0, _ => rfl
    | 1, _ => rw [rkcY_one, rkcY_one, rkcY_one, map_sub]; module
    | j + 2, ih =>
      rw [rkcY_succ _ hw, rkcY_succ _ hw, rkcY_succ _ hw, ← ih (j + 1) (by omega), ← ih j (by omega), map_sub, map_sub]
      module

end

/-- **C69**. The damping polynomial: inside the interval belonging to the number of stages, it is between
0 and 1. -/
theorem rkcP_range {m : ℕ} (hm : 2 ≤ m) {z : ℝ} (h1 : -(((m : ℝ) ^ 2 - 1) / (77 / 50)) ≤ z) (h2 : z ≤ 0) :
    0 ≤ rkcP (rkcW0 m) (rkcW1 m) m z ∧ rkcP (rkcW0 m) (rkcW1 m) m z ≤ 1 := by
  have hw := rkcW0_gt m (by omega)
  have hw1 := rkcW1_pos hm
  have hb := bT_pos hw.le m
  have hD := dT_pos hw.le (j := m) (by omega)
  have hbeta := rkc_beta hm
  obtain ⟨h3, h4⟩ := zT_range hw.le m (x := rkcW0 m + rkcW1 m * z) (by nlinarith) (by nlinarith)
  have hlow := rkc_lower hm
  have hb' : bT (rkcW0 m) m * (zT (rkcW0 m) m + 1) ≤ 1 := by
    have : bT (rkcW0 m) m = d2T (rkcW0 m) m / dT (rkcW0 m) m ^ 2 := by unfold bT; rw [if_neg (by omega)]
    rw [this, div_mul_eq_mul_div, div_le_one (by positivity)]
    exact hlow
  unfold rkcP
  constructor <;> nlinarith

/-- **C69**. The test equation `y' = λ y`, `λ ≤ 0`: a step with `m` stages and `1.54 h |λ| ≤ m^2 - 1` multiplies
the solution by a factor between 0 and 1; it neither grows nor changes sign. -/
theorem C69_test_equation (lam t yn h : ℝ) {m : ℕ} (hm : 2 ≤ m) (hz : h * lam ≤ 0)
    (hs : 77 / 50 * (|h| * |lam|) ≤ (m : ℝ) ^ 2 - 1) :
    ∃ P : ℝ, 0 ≤ P ∧ P ≤ 1 ∧ rkcStages (fun _ y => lam * y) t yn (lam * yn) h m = P * yn := by
  have hw := rkcW0_gt m (by omega)
  have ha : |h| * |lam| = -(h * lam) := by rw [← abs_mul, abs_of_nonpos hz]
  rw [ha] at hs
  have hr := rkcP_range hm (z := h * lam) (by linarith) hz
  refine ⟨_, hr.1, hr.2, ?_⟩
  have := rkcY_eigen (V := ℝ) ({0} : Finset ℕ) (LinearMap.lsmul ℝ ℝ lam) (fun _ => yn) (fun _ => lam)
    (by intro i _; rfl) hw.le (rkcW1 m) t h m
  rw [sum_singleton, sum_singleton] at this
  rw [rkcStages_eq _ _ _ _ _ hm]
  exact this

section
variable {E : Type*} [NormedAddCommGroup E] [InnerProductSpace ℝ E] [FiniteDimensional ℝ E]
open scoped InnerProductSpace

theorem rkc_linear_contractive (L : E →ₗ[ℝ] E) (hL : L.IsSymmetric) {rho h : ℝ}
    (hq : ∀ v, -(rho * |h|) * ‖v‖ ^ 2 ≤ h * ⟪L v, v⟫_ℝ ∧ h * ⟪L v, v⟫_ℝ ≤ 0) {m : ℕ} (hm : 2 ≤ m)
    (hs : 77 / 50 * |h| * rho ≤ (m : ℝ) ^ 2 - 1) (t : ℝ) (v : E) :
    ‖rkcY (fun _ v => L v) (rkcW0 m) (rkcW1 m) t v (L v) h m‖ ≤ ‖v‖ := by
  have hw := rkcW0_gt m (by omega)
  set b := hL.eigenvectorBasis rfl with hb
  have hv : v = ∑ i, ⟪b i, v⟫_ℝ • b i := (b.sum_repr' v).symm
  have he : ∀ i ∈ (univ : Finset (Fin (Module.finrank ℝ E))),
      L (⟪b i, v⟫_ℝ • b i) = hL.eigenvalues rfl i • (⟪b i, v⟫_ℝ • b i) := by
    intro i _
    rw [map_smul, hL.apply_eigenvectorBasis rfl i, smul_comm]
    rfl
  have key := rkcY_eigen univ L (fun i => ⟪b i, v⟫_ℝ • b i) (hL.eigenvalues rfl) he hw.le (rkcW1 m) t h m
  rw [← hv] at key
  rw [key]
  have hP : ∀ i, 0 ≤ rkcP (rkcW0 m) (rkcW1 m) m (h * hL.eigenvalues rfl i) ∧
      rkcP (rkcW0 m) (rkcW1 m) m (h * hL.eigenvalues rfl i) ≤ 1 := by
    intro i
    have h1 := hq (b i)
    have h2 : ⟪L (b i), b i⟫_ℝ = hL.eigenvalues rfl i := by
      rw [hL.apply_eigenvectorBasis rfl i, inner_smul_left]
      have : ⟪b i, b i⟫_ℝ = 1 := by
        rw [real_inner_self_eq_norm_sq, b.orthonormal.1 i]; norm_num
      rw [this]; simp
    rw [h2, b.orthonormal.1 i] at h1
    exact rkcP_range hm (by nlinarith [h1.1]) h1.2
  have hn : ∀ c : Fin (Module.finrank ℝ E) → ℝ, ‖∑ i, c i • b i‖ ^ 2 = ∑ i, c i ^ 2 := by
    intro c
    rw [← real_inner_self_eq_norm_sq, b.orthonormal.inner_sum]
    simp [sq]
  have h3 : ‖∑ i, rkcP (rkcW0 m) (rkcW1 m) m (h * hL.eigenvalues rfl i) • ⟪b i, v⟫_ℝ • b i‖ ^ 2 ≤ ‖v‖ ^ 2 := by
    conv_rhs => rw [hv]
    simp only [smul_smul]
    rw [hn, hn]
    apply sum_le_sum
    intro i _
    rw [mul_pow]
    have := hP i
    have h5 : rkcP (rkcW0 m) (rkcW1 m) m (h * hL.eigenvalues rfl i) ^ 2 ≤ 1 := by nlinarith
    nlinarith [sq_nonneg ⟪b i, v⟫_ℝ]
  exact le_of_sq_le_sq h3 (norm_nonneg _)

/-- **C69**. Contractivity: for `y' = L y + g(t)` with a symmetric `L` whose quadratic form is between `-rho`
and 0 in the direction of integration, two solutions never move apart in a step with `m ≥ 2` stages and
`1.54 |h| rho ≤ m^2 - 1`. -/
theorem C69_contractive (L : E →ₗ[ℝ] E) (hL : L.IsSymmetric) (g : ℝ → E) {rho h : ℝ}
    (hq : ∀ v, -(rho * |h|) * ‖v‖ ^ 2 ≤ h * ⟪L v, v⟫_ℝ ∧ h * ⟪L v, v⟫_ℝ ≤ 0) {m : ℕ} (hm : 2 ≤ m)
    (hs : 77 / 50 * |h| * rho ≤ (m : ℝ) ^ 2 - 1) (t : ℝ) (y y' : E) :
    ‖rkcStages (fun t v => L v + g t) t y (L y + g t) h m -
      rkcStages (fun t v => L v + g t) t y' (L y' + g t) h m‖ ≤ ‖y - y'‖ := by
  rw [rkcStages_eq _ _ _ _ _ hm, rkcStages_eq _ _ _ _ _ hm, rkcY_affine L g (rkcW0_gt m (by omega)).le]
  exact rkc_linear_contractive L hL hq hm hs t _

/-- **C69**. For the solver: on `y' = L y + g` with `L` symmetric, negative semidefinite in the direction of
integration and with spectral radius at most `rho`, if the values obtained for the spectral radius are not
below `rho`, then no step ever increases the distance to an equilibrium, in any history. -/
theorem C69_solver_never_diverges {c : ChebCfg ℝ E} {t0 : ℝ} {y0 : E} {first : Option ℝ}
    (hs : ChebStart c t0 first) (L : E →ₗ[ℝ] E) (hL : L.IsSymmetric) (g : E) (rho : ℝ)
    (hq : ∀ v, -rho * ‖v‖ ^ 2 ≤ c.dir * ⟪L v, v⟫_ℝ ∧ c.dir * ⟪L v, v⟫_ℝ ≤ 0)
    (hrhs : c.rhs = fun _ v => L v + g) (hstg : c.stg = rkcStages c.rhs)
    (hest : ∀ t y x, IsEst c t y x → rho ≤ x) {ys : E} (hys : L ys + g = 0)
    {v : ChebSolver ℝ E} (hr : ChebReach c (newCheb c t0 y0 first) v) : ‖v.st.yn - ys‖ ≤ ‖y0 - ys‖ := by
  induction hr with
  | refl => exact le_refl _
  | @tail v v' o fuel hr h ih =>
    have hi := hr.inv hs
    rcases (chebStep_spec hs.ok hi h).2.1 with ⟨e, -⟩ | ⟨-, -, -, -, -, q, hqa⟩ | ⟨-, -, -, e, -⟩
    · rw [e]; exact ih
    · refine le_trans ?_ ih
      have hok := hqa.ok
      have hrq := hest _ _ _ hok.est
      have hstab : 77 / 50 * |q.h| * rho ≤ (q.m : ℝ) ^ 2 - 1 := by
        refine le_trans ?_ hok.stab
        exact mul_le_mul_of_nonneg_left hrq (by positivity)
      have hd : c.dir * q.h = |q.h| := by
        have hp := hok.pos
        rcases hs.ok.dir with hd | hd
        · rw [hd] at hp ⊢; rw [abs_of_pos (by linarith)]; ring
        · rw [hd] at hp ⊢; rw [abs_of_neg (by linarith)]; ring
      have hd2 : c.dir * c.dir = 1 := by rcases hs.ok.dir with hd | hd <;> rw [hd] <;> norm_num
      have hq' : ∀ v, -(rho * |q.h|) * ‖v‖ ^ 2 ≤ q.h * ⟪L v, v⟫_ℝ ∧ q.h * ⟪L v, v⟫_ℝ ≤ 0 := by
        intro v
        have e : q.h * ⟪L v, v⟫_ℝ = |q.h| * (c.dir * ⟪L v, v⟫_ℝ) := by
          rw [← hd]; linear_combination (-(q.h * ⟪L v, v⟫_ℝ)) * hd2
        rw [e]
        have h0 := abs_nonneg q.h
        exact ⟨by nlinarith [(hq v).1], by nlinarith [(hq v).2]⟩
      have key := C69_contractive L hL (fun _ => g) hq' hok.m2 hstab v.st.t v.st.yn ys
      have e2 := C44_equilibrium (fun _ v => L v + g) (ys := ys) (fun _ => hys) v.st.t q.h hok.m2
      rw [e2] at key
      have e3 : v'.st.yn = rkcStages (fun _ v => L v + g) v.st.t v.st.yn (L v.st.yn + g) q.h q.m := by
        rw [hqa.yn, hstg, hi.fn, hrhs]
      rw [e3]
      exact key
    · rw [e]; exact ih

/-- C69: the hypotheses are met, for instance on `ℝ` with `y' = -y`, in a step with 3 stages and `h = 5`. -/
example : ∀ v : ℝ, -(1 * |(5 : ℝ)|) * ‖v‖ ^ 2 ≤ 5 * ⟪(-LinearMap.id : ℝ →ₗ[ℝ] ℝ) v, v⟫_ℝ ∧
    5 * ⟪(-LinearMap.id : ℝ →ₗ[ℝ] ℝ) v, v⟫_ℝ ≤ 0 ∧ 77 / 50 * |(5 : ℝ)| * 1 ≤ ((3 : ℕ) : ℝ) ^ 2 - 1 := by
  intro v
  have h5 : |(5 : ℝ)| = 5 := abs_of_pos (by norm_num)
  have e : ⟪(-LinearMap.id : ℝ →ₗ[ℝ] ℝ) v, v⟫_ℝ = -‖v‖ ^ 2 := by
    rw [LinearMap.neg_apply, LinearMap.id_apply, inner_neg_left, real_inner_self_eq_norm_sq]
  rw [e, h5]
  refine ⟨by linarith, by nlinarith [sq_nonneg ‖v‖], by norm_num⟩

end

/-! ## C70: order -/

theorem tree_le_two (τ : OTree) (h : τ.size ≤ 2) : τ = .leaf ∨ τ = .node 1 (fun _ => .leaf) := by
  have leaf_of : ∀ τ : OTree, τ.size ≤ 1 → τ = .leaf := by
    intro τ h
    obtain ⟨k, c⟩ := τ
    simp only [OTree.size] at h
    cases k with
    | zero => unfold OTree.leaf; congr 1; funext i; exact i.elim0
    | succ k =>
      have := (c 0).size_pos
      rw [Fin.sum_univ_succ] at h
      omega
  obtain ⟨k, c⟩ := τ
  simp only [OTree.size] at h
  match k, c, h with
  | 0, c, _ => left; unfold OTree.leaf; congr 1; funext i; exact i.elim0
  | 1, c, h =>
    right
    congr 1
    funext i
    rw [Fin.sum_univ_one] at h
    have : i = 0 := Subsingleton.elim _ _
    rw [this]
    exact leaf_of _ (by omega)
  | k + 2, c, h =>
    rw [Fin.sum_univ_succ, Fin.sum_univ_succ] at h
    have := (c 0).size_pos
    have := (c (Fin.succ 0)).size_pos
    omega

/-- The order conditions up to 2, for weights with given zeroth and first moments. -/
theorem order_two_of {n : ℕ} {A : ℕ → ℕ → ℝ} {c : ℕ → ℝ} (hA : ∀ i, i < n → ∑ j ∈ range n, A i j = c i)
    {b : ℕ → ℝ} {s : ℝ} (h1 : ∑ i ∈ range n, b i = s) (h2 : ∑ i ∈ range n, b i * c i = s / 2) :
    ∀ τ : OTree, τ.size ≤ 2 → ∑ i ∈ range n, b i * τ.weight n A i = s / (τ.dens : ℝ) := by
  intro τ hτ
  rcases tree_le_two τ hτ with rfl | rfl
  · simp only [OTree.leaf_weight, mul_one, h1]
    simp [OTree.leaf, OTree.dens]
  · have : ∀ i ∈ range n, b i * (OTree.node 1 (fun _ => OTree.leaf)).weight n A i = b i * c i := by
      intro i hi
      simp only [OTree.weight, Fin.prod_univ_one, OTree.leaf_weight, mul_one]
      rw [hA i (mem_range.mp hi)]
    rw [sum_congr rfl this, h2]
    simp [OTree.leaf, OTree.dens, OTree.size]

section
variable {E : Type*} [NormedAddCommGroup E] [NormedSpace ℝ E]

/-- **C70**. SSV2stab has order 2 with every number of stages: the local error of a step is `O(h^3)`, and so
is the error estimate, for every smooth right-hand side. -/
theorem C70_local_error {m : ℕ} (hm : 2 ≤ m) {f : ℝ → E → E} {t0 : ℝ} {y0 : E}
    (hf : ContDiffAt ℝ ∞ (fun z : ℝ × E => f z.1 z.2) (t0, y0)) :
    (∀ y : ℝ → E, y t0 = y0 → (∀ᶠ t in 𝓝 t0, HasDerivAt y (f t (y t)) t) →
      (fun h => rkcStages f t0 y0 (f t0 y0) h m - y (t0 + h)) =O[𝓝 0] fun h : ℝ => h ^ 3) ∧
    (fun h => (4 / 5 : ℝ) • (y0 - rkcStages f t0 y0 (f t0 y0) h m) +
      (2 / 5 * h) • (f t0 y0 + f (t0 + h) (rkcStages f t0 y0 (f t0 y0) h m))) =O[𝓝 0] fun h : ℝ => h ^ 3 := by
  have hw := (rkcW0_gt m (by omega)).le
  set A : ℕ → ℕ → ℝ := rkcRow (rkcW0 m) (rkcW1 m) with hAdef
  set c : ℕ → ℝ := thT (rkcW0 m) (rkcW1 m) with hcdef
  set Y : ℝ → ℕ → E := fun h => rkcY f (rkcW0 m) (rkcW1 m) t0 y0 (f t0 y0) h with hY
  set k : ℝ → ℕ → E := fun h i => f (t0 + h * c i) (Y h i) with hkdef
  have hrow : ∀ i, i < m + 1 → ∑ j ∈ range (m + 1), A i j = c i :=
    fun i hi => rkcRow_sum hw _ (by omega) i (by omega)
  have hst : ∀ h i, i < m + 1 → Y h i = y0 + h • ∑ j ∈ range (m + 1), A i j • k h j :=
    fun h i hi => rkcY_rk f hw _ t0 y0 _ h rfl i (by omega) (by omega)
  have hk : ∀ i, i < m + 1 → ∀ᶠ h in 𝓝 (0 : ℝ),
      k h i = f (t0 + c i * h) (y0 + h • ∑ j ∈ range (m + 1), A i j • k h j) := by
    intro i hi
    apply Eventually.of_forall
    intro h
    rw [← hst h i hi, mul_comm]
  have hA0 : ∀ i, i < m + 1 → ∀ j, j < m + 1 → i ≤ j → A i j = 0 :=
    fun i _ j _ hj => rkcRow_lower _ _ i j hj
  obtain ⟨h1, h2⟩ := local_error_rk hrow hf hk (explicit_bounded_rk hA0 hf.continuousAt hk)
  have hb1 : ∑ i ∈ range (m + 1), A m i = 1 := by rw [hrow m (by omega)]; exact thT_last hm
  have hb2 : ∑ i ∈ range (m + 1), A m i * c i = 1 / 2 := by
    rw [hAdef, hcdef, rkcRow_moment hw _ (by omega) m (by omega)]; exact moment_last hm
  have hmain := order_two_of hrow hb1 hb2
  have hsol : ∀ h, rkcStages f t0 y0 (f t0 y0) h m = y0 + h • ∑ j ∈ range (m + 1), A m j • k h j := by
    intro h
    rw [rkcStages_eq f t0 y0 _ h hm]
    exact hst h m (by omega)
  constructor
  · intro y hy0 hy
    have := h1 (A m) 1 2 (by norm_num) (by intro τ hτ; rw [one_pow]; exact hmain τ hτ) y hy0 hy
    refine this.congr_left ?_
    intro h
    rw [hsol, one_mul]
  · set e : ℕ → ℝ := fun i => -(4 / 5) * A m i + 2 / 5 * (if i = 0 then 1 else 0) + 2 / 5 * (if i = m then 1 else 0) with he
    have hd : ∀ (g : ℕ → E), ∑ i ∈ range (m + 1), e i • g i =
        (-(4 / 5 : ℝ)) • ∑ i ∈ range (m + 1), A m i • g i + (2 / 5 : ℝ) • g 0 + (2 / 5 : ℝ) • g m := by
      intro g
      simp only [he, add_smul, mul_smul, sum_add_distrib, ← smul_sum, ite_smul, zero_smul, one_smul]
      rw [sum_ite_eq' (range (m + 1)) 0, sum_ite_eq' (range (m + 1)) m, if_pos (mem_range.mpr (by omega)),
        if_pos (mem_range.mpr (by omega))]
    have hdr : ∀ (g : ℕ → ℝ), ∑ i ∈ range (m + 1), e i * g i =
        (-(4 / 5 : ℝ)) * ∑ i ∈ range (m + 1), A m i * g i + (2 / 5 : ℝ) * g 0 + (2 / 5 : ℝ) * g m := by
      intro g
      simp only [he, add_mul, mul_assoc, sum_add_distrib, ← mul_sum, ite_mul, zero_mul, one_mul]
      rw [sum_ite_eq' (range (m + 1)) 0, sum_ite_eq' (range (m + 1)) m, if_pos (mem_range.mpr (by omega)),
        if_pos (mem_range.mpr (by omega))]
    have c0 : c 0 = 0 := thT_zero _ _
    have cm : c m = 1 := thT_last hm
    have hE : ErrorCond (m + 1) A e 2 := by
      intro τ hτ
      have := order_two_of hrow (b := e) (s := 0) (by
        have := hdr (fun _ => 1)
        simp only [mul_one] at this
        rw [this, hb1]; norm_num) (by rw [hdr, hb2, c0, cm]; norm_num) τ hτ
      rw [this, zero_div]
    refine (h2 e 2 hE).congr_left ?_
    intro h
    have k0 : k h 0 = f t0 y0 := by
      simp only [hkdef, c0, mul_zero, add_zero]; rfl
    have km : k h m = f (t0 + h) (rkcStages f t0 y0 (f t0 y0) h m) := by
      simp only [hkdef, cm, mul_one]
      rw [rkcStages_eq f t0 y0 _ h hm]
    rw [hd, k0, km]
    have e2 : y0 - rkcStages f t0 y0 (f t0 y0) h m = -(h • ∑ j ∈ range (m + 1), A m j • k h j) := by
      rw [hsol]; abel
    rw [e2]
    module

end

/-- C44, C70: a concrete case, 2 stages. -/
example : (2 : ℕ) ≤ 2 ∧ ContDiffAt ℝ ∞ (fun z : ℝ × ℝ => z.2) (0, 1) ∧ Real.exp 0 = 1 ∧
    ∀ᶠ t in 𝓝 (0 : ℝ), HasDerivAt Real.exp (Real.exp t) t :=
  ⟨le_rfl, contDiffAt_snd, Real.exp_zero, Eventually.of_forall Real.hasDerivAt_exp⟩

end Extensisq
