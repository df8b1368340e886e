import Verif.Lemmas.BSeries
import Mathlib.Analysis.Calculus.Deriv.Prod
import Mathlib.Analysis.Calculus.Deriv.Shift

/-! Expansion of the stages of a (possibly implicit) Runge-Kutta method and its local error. -/

namespace Extensisq
open scoped ContDiff
open Finset Asymptotics Filter Topology

variable {E : Type*} [NormedAddCommGroup E] [NormedSpace ℝ E]

/-- Multiplying the expansion of the stages by `h` and weights. -/
theorem weighted_bser {p : FormalMultilinearSeries ℝ E E} {n m : ℕ} {k : ℝ → ℕ → E} (c : ℕ → ℝ)
    (w : ℕ → OTree → ℝ)
    (hk : ∀ j, j < n → (fun h => k h j - bser' p m (w j) h) =O[𝓝 0] fun h : ℝ => h ^ m) :
    (fun h => h • ∑ j ∈ range n, c j • k h j -
      bser p m (fun t => ∑ j ∈ range n, c j * w j t) h) =O[𝓝 0] fun h : ℝ => h ^ (m + 1) := by
  have e : ∀ h : ℝ, h • ∑ j ∈ range n, c j • k h j - bser p m (fun t => ∑ j ∈ range n, c j * w j t) h =
      ∑ j ∈ range n, h • c j • (k h j - bser' p m (w j) h) := by
    intro h
    simp only [smul_sub, sum_sub_distrib, ← smul_sum]
    congr 1
    unfold bser bser'
    simp only [smul_sum]
    rw [sum_comm]
    apply sum_congr rfl
    intro t _
    rw [sum_mul, sum_smul]
    apply sum_congr rfl
    intro j _
    rw [smul_smul, smul_smul]
    congr 1
    have := t.size_pos
    obtain ⟨q, hq⟩ : ∃ q, t.size = q + 1 := ⟨t.size - 1, by omega⟩
    rw [hq, Nat.add_sub_cancel, pow_succ]
    ring
  simp only [e]
  apply IsBigO.fun_sum
  intro j hj
  have h1 := (hk j (mem_range.mp hj)).const_smul_left (c j)
  have h2 := (isBigO_refl (fun h : ℝ => h) (𝓝 0)).smul h1
  refine h2.congr_right ?_
  intro h
  rw [smul_eq_mul, pow_succ]; ring

/-- Expansion of bounded stages. -/
theorem stages_bser {n : ℕ} {A : ℕ → ℕ → ℝ} {f : E → E} {y0 : E} {p : FormalMultilinearSeries ℝ E E}
    (hf : TaylorAt f p y0) {k : ℝ → ℕ → E}
    (hk : ∀ i, i < n → ∀ᶠ h in 𝓝 (0 : ℝ), k h i = f (y0 + h • ∑ j ∈ range n, A i j • k h j))
    (hb : ∀ i, i < n → (fun h => k h i) =O[𝓝 0] fun _ : ℝ => (1 : ℝ)) :
    ∀ m i, i < n → (fun h => k h i - bser' p m (fun t => t.weight n A i) h)
      =O[𝓝 0] fun h : ℝ => h ^ m := by
  intro m
  induction m with
  | zero =>
    intro i hi
    have e : ∀ h, bser' p 0 (fun t => t.weight n A i) h = 0 := by
      intro h
      unfold bser'
      apply sum_eq_zero
      intro t ht
      rw [mem_trees] at ht
      have := t.size_pos
      omega
    simpa [e] using hb i hi
  | succ m ih =>
    intro i hi
    have hz := weighted_bser (p := p) (n := n) (m := m) (k := k) (fun j => A i j)
      (fun j t => t.weight n A j) ih
    have := comp_bser hf m _ hz
    refine this.congr' ?_ (EventuallyEq.refl _ _)
    filter_upwards [hk i hi] with h hh
    rw [hh]
    congr 1
    unfold bser'
    apply sum_congr rfl
    intro t _
    obtain ⟨q, c⟩ := t
    rfl

/-- Autonomous problems: error at the point `θ h`, and error estimates. -/
theorem local_error_auto {n : ℕ} {A : ℕ → ℕ → ℝ} {f : E → E} {y0 : E} (hf : ContDiffAt ℝ ∞ f y0)
    {k : ℝ → ℕ → E}
    (hk : ∀ i, i < n → ∀ᶠ h in 𝓝 (0 : ℝ), k h i = f (y0 + h • ∑ j ∈ range n, A i j • k h j))
    (hb : ∀ i, i < n → (fun h => k h i) =O[𝓝 0] fun _ : ℝ => (1 : ℝ)) :
    (∀ (b : ℕ → ℝ) (θ : ℝ) (q : ℕ),
      (∀ τ : OTree, τ.size ≤ q → ∑ i ∈ range n, b i * τ.weight n A i = θ ^ τ.size / (τ.dens : ℝ)) →
      ∀ y : ℝ → E, y 0 = y0 → (∀ᶠ h in 𝓝 (0 : ℝ), HasDerivAt y (f (y h)) h) →
      (fun h => y0 + h • ∑ i ∈ range n, b i • k h i - y (θ * h)) =O[𝓝 0] fun h : ℝ => h ^ (q + 1)) ∧
    (∀ (e : ℕ → ℝ) (q : ℕ), ErrorCond n A e q →
      (fun h => h • ∑ i ∈ range n, e i • k h i) =O[𝓝 0] fun h : ℝ => h ^ (q + 1)) := by
  obtain ⟨p, hp⟩ := exists_taylorAt hf
  have hst := stages_bser hp hk hb
  have hw : ∀ (c : ℕ → ℝ) (q : ℕ), (fun h => h • ∑ j ∈ range n, c j • k h j -
      bser p q (fun t => ∑ j ∈ range n, c j * t.weight n A j) h)
      =O[𝓝 0] fun h : ℝ => h ^ (q + 1) := fun c q =>
    weighted_bser (p := p) (k := k) c (fun j t => t.weight n A j) (hst q)
  constructor
  · intro b θ q hq y h0 hy
    have hθ : Tendsto (fun h : ℝ => θ * h) (𝓝 0) (𝓝 0) := by
      have : ContinuousAt (fun h : ℝ => θ * h) 0 := by fun_prop
      simpa [ContinuousAt] using this
    have h1 := (exact_bser hp h0 hy q).comp_tendsto hθ
    have h1' : ((fun h => y h - y0 - bser p q (fun t => 1 / (t.dens : ℝ)) h) ∘ fun h => θ * h)
        =O[𝓝 0] fun h : ℝ => h ^ (q + 1) := by
      refine h1.trans ?_
      apply IsBigO.of_bound (‖θ‖ ^ (q + 1))
      apply Eventually.of_forall
      intro h
      simp only [Function.comp]
      rw [mul_pow, norm_mul, norm_pow, norm_pow]
    have h2 := hw b q
    refine (h2.sub h1').congr_left ?_
    intro h
    have e1 : bser p q (fun t => ∑ j ∈ range n, b j * t.weight n A j) h =
        bser p q (fun t => 1 / (t.dens : ℝ)) (θ * h) := by
      unfold bser
      apply sum_congr rfl
      intro t ht
      dsimp only
      rw [hq t (mem_trees.mp ht), mul_pow]
      congr 1
      ring
    simp only [Function.comp]
    rw [e1]
    abel
  · intro e q hq
    refine (hw e q).congr_left ?_
    intro h
    have e1 : bser p q (fun t => ∑ j ∈ range n, e j * t.weight n A j) h = 0 := by
      unfold bser
      apply sum_eq_zero
      intro t ht
      dsimp only
      rw [hq t (mem_trees.mp ht), zero_mul, zero_smul]
    rw [e1, sub_zero]

/-- The one-vertex tree. -/
def OTree.leaf : OTree := .node 0 Fin.elim0

theorem OTree.leaf_weight {K : Type*} [CommSemiring K] (n : ℕ) (A : ℕ → ℕ → K) (i : ℕ) :
    OTree.leaf.weight n A i = 1 := by simp [OTree.leaf, OTree.weight]

/-- Local error of a Runge-Kutta method for `y' = f(t, y)`. -/
theorem local_error_rk {n : ℕ} {A : ℕ → ℕ → ℝ} {c : ℕ → ℝ}
    (hA : ∀ i, i < n → ∑ j ∈ range n, A i j = c i) {f : ℝ → E → E} {t0 : ℝ} {y0 : E}
    (hf : ContDiffAt ℝ ∞ (fun z : ℝ × E => f z.1 z.2) (t0, y0)) {k : ℝ → ℕ → E}
    (hk : ∀ i, i < n → ∀ᶠ h in 𝓝 (0 : ℝ),
      k h i = f (t0 + c i * h) (y0 + h • ∑ j ∈ range n, A i j • k h j))
    (hb : ∀ i, i < n → (fun h => k h i) =O[𝓝 0] fun _ : ℝ => (1 : ℝ)) :
    (∀ (b : ℕ → ℝ) (θ : ℝ) (q : ℕ), 1 ≤ q →
      (∀ τ : OTree, τ.size ≤ q → ∑ i ∈ range n, b i * τ.weight n A i = θ ^ τ.size / (τ.dens : ℝ)) →
      ∀ y : ℝ → E, y t0 = y0 → (∀ᶠ t in 𝓝 t0, HasDerivAt y (f t (y t)) t) →
      (fun h => y0 + h • ∑ i ∈ range n, b i • k h i - y (t0 + θ * h))
        =O[𝓝 0] fun h : ℝ => h ^ (q + 1)) ∧
    (∀ (e : ℕ → ℝ) (q : ℕ), ErrorCond n A e q →
      (fun h => h • ∑ i ∈ range n, e i • k h i) =O[𝓝 0] fun h : ℝ => h ^ (q + 1)) := by
  have hF : ContDiffAt ℝ ∞ (fun z : ℝ × E => ((1 : ℝ), f z.1 z.2)) (t0, y0) :=
    contDiffAt_const.prodMk hf
  have hsum : ∀ (a : ℕ → ℝ) (h : ℝ), ∑ j ∈ range n, a j • ((1 : ℝ), k h j) =
      (∑ j ∈ range n, a j, ∑ j ∈ range n, a j • k h j) := by
    intro a h
    rw [Prod.ext_iff]
    simp [Prod.fst_sum, Prod.snd_sum]
  obtain ⟨h1, h2⟩ := local_error_auto (n := n) (A := A) hF (k := fun h i => ((1 : ℝ), k h i))
    (by
      intro i hi
      filter_upwards [hk i hi] with h hh
      rw [hsum, hA i hi, hh]
      simp [mul_comm])
    (by
      intro i hi
      exact (isBigO_const_const (1 : ℝ) one_ne_zero _).prod_left (hb i hi))
  constructor
  · intro b θ q hq1 hq y hy0 hy
    have hadd : Tendsto (fun h : ℝ => t0 + h) (𝓝 0) (𝓝 t0) := by
      have : ContinuousAt (fun h : ℝ => t0 + h) 0 := by fun_prop
      simpa [ContinuousAt] using this
    have := h1 b θ q hq (fun h => (t0 + h, y (t0 + h))) (by simp [hy0]) (by
      filter_upwards [hadd.eventually hy] with h hh
      refine HasDerivAt.prodMk ?_ ?_
      · simpa using (hasDerivAt_id h).const_add t0
      · exact HasDerivAt.comp_const_add t0 h hh)
    have h3 := (isBigO_prod_left.mp this).2
    refine h3.congr_left ?_
    intro h
    simp [Prod.snd_sum]
  · intro e q hq
    have h3 := (isBigO_prod_left.mp (h2 e q hq)).2
    refine h3.congr_left ?_
    intro h
    simp [Prod.snd_sum]

/-- Explicit methods: boundedness is automatic. -/
theorem explicit_bounded_rk {n : ℕ} {A : ℕ → ℕ → ℝ} {c : ℕ → ℝ}
    (hA0 : ∀ i, i < n → ∀ j, j < n → i ≤ j → A i j = 0) {f : ℝ → E → E} {t0 : ℝ} {y0 : E}
    (hf : ContinuousAt (fun z : ℝ × E => f z.1 z.2) (t0, y0)) {k : ℝ → ℕ → E}
    (hk : ∀ i, i < n → ∀ᶠ h in 𝓝 (0 : ℝ),
      k h i = f (t0 + c i * h) (y0 + h • ∑ j ∈ range n, A i j • k h j)) :
    ∀ i, i < n → (fun h => k h i) =O[𝓝 0] fun _ : ℝ => (1 : ℝ) := by
  intro i
  induction i using Nat.strong_induction_on with
  | _ i ih =>
    intro hi
    have hz : (fun h : ℝ => h • ∑ j ∈ range n, A i j • k h j) =O[𝓝 0] fun h : ℝ => h := by
      have h1 : (fun h : ℝ => ∑ j ∈ range n, A i j • k h j) =O[𝓝 0] fun _ : ℝ => (1 : ℝ) := by
        apply IsBigO.fun_sum
        intro j hj
        by_cases hji : j < i
        · exact (ih j hji (mem_range.mp hj)).const_smul_left _
        · simp only [hA0 i hi j (mem_range.mp hj) (by omega), zero_smul]
          exact isBigO_zero _ _
      have h2 := (isBigO_refl (fun h : ℝ => h) (𝓝 0)).smul h1
      refine h2.congr_right ?_
      intro h; simp
    have hz0 : Tendsto (fun h : ℝ => y0 + h • ∑ j ∈ range n, A i j • k h j) (𝓝 0) (𝓝 y0) := by
      have := (hz.trans_tendsto tendsto_id).const_add y0
      simpa using this
    have ht0 : Tendsto (fun h : ℝ => t0 + c i * h) (𝓝 0) (𝓝 t0) := by
      have : ContinuousAt (fun h : ℝ => t0 + c i * h) 0 := by fun_prop
      simpa [ContinuousAt] using this
    have h3 := hf.tendsto.comp (ht0.prodMk_nhds hz0)
    refine (h3.isBigO_one ℝ).congr' ?_ (EventuallyEq.refl _ _)
    filter_upwards [hk i hi] with h hh
    rw [hh]
    rfl

end Extensisq
