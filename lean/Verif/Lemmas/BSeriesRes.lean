import Verif.Lemmas.BSeriesRK

/-!
# Local error with inexact stages and inexact order conditions

The stages satisfy their equations up to a residual of order `h^q`; the order conditions hold up to a bound `ε`.
-/

set_option linter.unusedSectionVars false

namespace Extensisq
open scoped ContDiff
open Finset Asymptotics Filter Topology

variable {E : Type*} [NormedAddCommGroup E] [NormedSpace ℝ E]

/-- Expansion of bounded stages with residual `O(h^q)`. -/
theorem stages_bser_res {n q : ℕ} {A : ℕ → ℕ → ℝ} {f : E → E} {y0 : E} {p : FormalMultilinearSeries ℝ E E}
    (hf : TaylorAt f p y0) {k : ℝ → ℕ → E}
    (hk : ∀ i, i < n → (fun h => k h i - f (y0 + h • ∑ j ∈ range n, A i j • k h j)) =O[𝓝 0] fun h : ℝ => h ^ q)
    (hb : ∀ i, i < n → (fun h => k h i) =O[𝓝 0] fun _ : ℝ => (1 : ℝ)) :
    ∀ m, m ≤ q → ∀ i, i < n → (fun h => k h i - bser' p m (fun t => t.weight n A i) h)
      =O[𝓝 0] fun h : ℝ => h ^ m := by
  intro m
  induction m with
  | zero =>
    intro _ i hi
    have e : ∀ h, bser' p 0 (fun t => t.weight n A i) h = 0 := by
      intro h
      unfold bser'
      apply sum_eq_zero
      intro t ht
      rw [mem_trees] at ht
      have := t.size_pos
      omega
    simpa [e] using hb i hi
  | succ m ih =>
    intro hm i hi
    have hz := weighted_bser (p := p) (n := n) (m := m) (k := k) (fun j => A i j)
      (fun j t => t.weight n A j) (ih (by omega))
    have h1 := comp_bser hf m _ hz
    have h2 : (fun h => f (y0 + h • ∑ j ∈ range n, A i j • k h j) - bser' p (m + 1) (fun t => t.weight n A i) h)
        =O[𝓝 0] fun h : ℝ => h ^ (m + 1) := by
      refine h1.congr' ?_ (EventuallyEq.refl _ _)
      apply Eventually.of_forall
      intro h
      dsimp only
      congr 1
      unfold bser'
      apply sum_congr rfl
      intro t _
      obtain ⟨r, c⟩ := t
      rfl
    refine (((hk i hi).trans (isBigO_pow_pow hm)).add h2).congr_left ?_
    intro h
    abel

/-- The difference of the computed and the exact solution, expanded in the defects of the order conditions. -/
theorem local_expansion {n q : ℕ} {A : ℕ → ℕ → ℝ} {f : E → E} {y0 : E} {p : FormalMultilinearSeries ℝ E E}
    (hf : TaylorAt f p y0) {k : ℝ → ℕ → E}
    (hk : ∀ i, i < n → (fun h => k h i - f (y0 + h • ∑ j ∈ range n, A i j • k h j)) =O[𝓝 0] fun h : ℝ => h ^ q)
    (hb : ∀ i, i < n → (fun h => k h i) =O[𝓝 0] fun _ : ℝ => (1 : ℝ)) :
    (∀ (b : ℕ → ℝ) (θ : ℝ), ∀ y : ℝ → E, y 0 = y0 → (∀ᶠ h in 𝓝 (0 : ℝ), HasDerivAt y (f (y h)) h) →
      (fun h => y0 + h • ∑ i ∈ range n, b i • k h i - y (θ * h) -
        bser p q (fun t => ∑ i ∈ range n, b i * t.weight n A i - θ ^ t.size / (t.dens : ℝ)) h)
        =O[𝓝 0] fun h : ℝ => h ^ (q + 1)) ∧
    (∀ e : ℕ → ℝ, (fun h => h • ∑ i ∈ range n, e i • k h i - bser p q (fun t => ∑ i ∈ range n, e i * t.weight n A i) h)
        =O[𝓝 0] fun h : ℝ => h ^ (q + 1)) := by
  have hst := stages_bser_res hf hk hb q le_rfl
  have hw : ∀ c : ℕ → ℝ, (fun h => h • ∑ j ∈ range n, c j • k h j -
      bser p q (fun t => ∑ j ∈ range n, c j * t.weight n A j) h)
      =O[𝓝 0] fun h : ℝ => h ^ (q + 1) := fun c =>
    weighted_bser (p := p) (k := k) c (fun j t => t.weight n A j) hst
  refine ⟨fun b θ y h0 hy => ?_, hw⟩
  have hθ : Tendsto (fun h : ℝ => θ * h) (𝓝 0) (𝓝 0) := by
    have : ContinuousAt (fun h : ℝ => θ * h) 0 := by fun_prop
    simpa [ContinuousAt] using this
  have h1 := (exact_bser hf h0 hy q).comp_tendsto hθ
  have h1' : ((fun h => y h - y0 - bser p q (fun t => 1 / (t.dens : ℝ)) h) ∘ fun h => θ * h)
      =O[𝓝 0] fun h : ℝ => h ^ (q + 1) := by
    refine h1.trans ?_
    apply IsBigO.of_bound (‖θ‖ ^ (q + 1))
    apply Eventually.of_forall
    intro h
    simp only [Function.comp]
    rw [mul_pow, norm_mul, norm_pow, norm_pow]
  refine ((hw b).sub h1').congr_left ?_
  intro h
  have e1 : bser p q (fun t => ∑ i ∈ range n, b i * t.weight n A i - θ ^ t.size / (t.dens : ℝ)) h =
      bser p q (fun t => ∑ j ∈ range n, b j * t.weight n A j) h - bser p q (fun t => 1 / (t.dens : ℝ)) (θ * h) := by
    unfold bser
    rw [← sum_sub_distrib]
    apply sum_congr rfl
    intro t _
    dsimp only
    rw [← sub_smul, mul_pow]
    congr 1
    ring
  simp only [Function.comp]
  rw [e1]
  abel

/-- A constant which depends only on the right-hand side. -/
noncomputable def diffSum (p : FormalMultilinearSeries ℝ E E) (q : ℕ) : ℝ := ∑ t ∈ trees q, ‖t.diff p‖

theorem diffSum_nonneg (p : FormalMultilinearSeries ℝ E E) (q : ℕ) : 0 ≤ diffSum p q :=
  sum_nonneg fun _ _ => norm_nonneg _

/-- The part of a truncated series with power `h^(m+1)`. -/
noncomputable def bserCoef (p : FormalMultilinearSeries ℝ E E) (q : ℕ) (a : OTree → ℝ) (m : ℕ) : E :=
  ∑ t ∈ (trees q).filter (fun t => t.size = m + 1), a t • t.diff p

theorem bser_eq_coef (p : FormalMultilinearSeries ℝ E E) (q : ℕ) (a : OTree → ℝ) (h : ℝ) :
    bser p q a h = ∑ m ∈ range q, h ^ (m + 1) • bserCoef p q a m := by
  unfold bser bserCoef
  rw [← sum_fiberwise_of_maps_to (s := trees q) (t := range q) (g := fun t => t.size - 1)]
  · apply sum_congr rfl
    intro m _
    rw [smul_sum]
    have e : (trees q).filter (fun t => t.size - 1 = m) = (trees q).filter (fun t => t.size = m + 1) := by
      apply filter_congr
      intro t _
      have := t.size_pos
      omega
    rw [e]
    apply sum_congr rfl
    intro t ht
    rw [mem_filter] at ht
    rw [ht.2, smul_smul, mul_comm]
  · intro t ht
    rw [mem_trees] at ht
    have := t.size_pos
    rw [mem_range]
    omega

theorem bserCoef_small {p : FormalMultilinearSeries ℝ E E} {q : ℕ} {a : OTree → ℝ} {ε : ℝ}
    (ha : ∀ t : OTree, t.size ≤ q → |a t| ≤ ε) (hε : 0 ≤ ε) (m : ℕ) : ‖bserCoef p q a m‖ ≤ ε * diffSum p q := by
  unfold bserCoef diffSum
  refine (norm_sum_le _ _).trans ?_
  rw [mul_sum]
  refine (sum_le_sum (g := fun t : OTree => ε * ‖t.diff p‖) fun t ht => ?_).trans
    (sum_le_sum_of_subset_of_nonneg (filter_subset _ _) fun t _ _ => mul_nonneg hε (norm_nonneg _))
  rw [mem_filter, mem_trees] at ht
  rw [norm_smul, Real.norm_eq_abs]
  exact mul_le_mul_of_nonneg_right (ha t ht.1) (norm_nonneg _)

/-- `F` vanishes up to order `q + 1` except for Taylor coefficients of size at most `δ`. -/
def NearOrder (F : ℝ → E) (q : ℕ) (δ : ℝ) : Prop :=
  ∃ v : ℕ → E, (∀ m, ‖v m‖ ≤ δ) ∧
    (fun h => F h - ∑ m ∈ range q, h ^ (m + 1) • v m) =O[𝓝 0] fun h : ℝ => h ^ (q + 1)

theorem NearOrder.mono {F : ℝ → E} {q : ℕ} {δ δ' : ℝ} (h : NearOrder F q δ) (hd : δ ≤ δ') : NearOrder F q δ' := by
  obtain ⟨v, h1, h2⟩ := h
  exact ⟨v, fun m => (h1 m).trans hd, h2⟩

/-- With `δ = 0` this is the usual order. -/
theorem NearOrder.zero {F : ℝ → E} {q : ℕ} (h : NearOrder F q 0) : F =O[𝓝 0] fun h : ℝ => h ^ (q + 1) := by
  obtain ⟨v, h1, h2⟩ := h
  refine h2.congr_left fun h => ?_
  rw [sum_eq_zero fun m _ => ?_, sub_zero]
  rw [norm_le_zero_iff.mp (h1 m), smul_zero]

/-- Local error and error estimate for `y' = f(t, y)`, with a residual of the stages. -/
theorem local_error_res {n q : ℕ} {A : ℕ → ℕ → ℝ} {c : ℕ → ℝ}
    (hA : ∀ i, i < n → ∑ j ∈ range n, A i j = c i) {f : ℝ → E → E} {t0 : ℝ} {y0 : E}
    (hf : ContDiffAt ℝ ∞ (fun z : ℝ × E => f z.1 z.2) (t0, y0)) {k : ℝ → ℕ → E}
    (hk : ∀ i, i < n → (fun h => k h i - f (t0 + c i * h) (y0 + h • ∑ j ∈ range n, A i j • k h j))
      =O[𝓝 0] fun h : ℝ => h ^ q)
    (hb : ∀ i, i < n → (fun h => k h i) =O[𝓝 0] fun _ : ℝ => (1 : ℝ)) :
    (∀ (b : ℕ → ℝ) (θ : ℝ),
      (∀ τ : OTree, τ.size ≤ q → ∑ i ∈ range n, b i * τ.weight n A i = θ ^ τ.size / (τ.dens : ℝ)) →
      ∀ y : ℝ → E, y t0 = y0 → (∀ᶠ t in 𝓝 t0, HasDerivAt y (f t (y t)) t) →
      (fun h => y0 + h • ∑ i ∈ range n, b i • k h i - y (t0 + θ * h))
        =O[𝓝 0] fun h : ℝ => h ^ (q + 1)) ∧
    (∀ e : ℕ → ℝ, ErrorCond n A e q →
      (fun h => h • ∑ i ∈ range n, e i • k h i) =O[𝓝 0] fun h : ℝ => h ^ (q + 1)) := by
  have hF : ContDiffAt ℝ ∞ (fun z : ℝ × E => ((1 : ℝ), f z.1 z.2)) (t0, y0) :=
    contDiffAt_const.prodMk hf
  obtain ⟨p, hp⟩ := exists_taylorAt hF
  have hsum : ∀ (a : ℕ → ℝ) (h : ℝ), ∑ j ∈ range n, a j • ((1 : ℝ), k h j) =
      (∑ j ∈ range n, a j, ∑ j ∈ range n, a j • k h j) := by
    intro a h
    rw [Prod.ext_iff]
    simp [Prod.fst_sum, Prod.snd_sum]
  obtain ⟨h1, h2⟩ := local_expansion (n := n) (q := q) (A := A) hp (k := fun h i => ((1 : ℝ), k h i))
    (by
      intro i hi
      refine ((isBigO_zero _ _).prod_left (hk i hi)).congr_left ?_
      intro h
      rw [hsum, hA i hi]
      simp [mul_comm])
    (by
      intro i hi
      exact (isBigO_const_const (1 : ℝ) one_ne_zero _).prod_left (hb i hi))
  have hadd : Tendsto (fun h : ℝ => t0 + h) (𝓝 0) (𝓝 t0) := by
    have : ContinuousAt (fun h : ℝ => t0 + h) 0 := by fun_prop
    simpa [ContinuousAt] using this
  have hex : ∀ y : ℝ → E, (∀ᶠ t in 𝓝 t0, HasDerivAt y (f t (y t)) t) →
      ∀ᶠ h in 𝓝 (0 : ℝ), HasDerivAt (fun h => (t0 + h, y (t0 + h))) ((1 : ℝ), f (t0 + h) (y (t0 + h))) h := by
    intro y hy
    filter_upwards [hadd.eventually hy] with h hh
    refine HasDerivAt.prodMk ?_ ?_
    · simpa using (hasDerivAt_id h).const_add t0
    · exact HasDerivAt.comp_const_add t0 h hh
  -- expansions of the second component
  have key1 : ∀ (b : ℕ → ℝ) (θ : ℝ), ∀ y : ℝ → E, y t0 = y0 → (∀ᶠ t in 𝓝 t0, HasDerivAt y (f t (y t)) t) →
      (fun h => y0 + h • ∑ i ∈ range n, b i • k h i - y (t0 + θ * h) -
        (bser p q (fun t => ∑ i ∈ range n, b i * t.weight n A i - θ ^ t.size / (t.dens : ℝ)) h).2)
        =O[𝓝 0] fun h : ℝ => h ^ (q + 1) := by
    intro b θ y hy0 hy
    have := h1 b θ (fun h => (t0 + h, y (t0 + h))) (by simp [hy0]) (hex y hy)
    have h3 := (isBigO_prod_left.mp this).2
    refine h3.congr_left ?_
    intro h
    simp [Prod.snd_sum]
  have key2 : ∀ e : ℕ → ℝ, (fun h => h • ∑ i ∈ range n, e i • k h i -
      (bser p q (fun t => ∑ i ∈ range n, e i * t.weight n A i) h).2) =O[𝓝 0] fun h : ℝ => h ^ (q + 1) := by
    intro e
    have h3 := (isBigO_prod_left.mp (h2 e)).2
    refine h3.congr_left ?_
    intro h
    simp [Prod.snd_sum]
  have zero : ∀ {a : OTree → ℝ} {h : ℝ}, (∀ t : OTree, t.size ≤ q → a t = 0) → (bser p q a h).2 = 0 := by
    intro a h ha
    have : bser p q a h = 0 := by
      unfold bser
      apply sum_eq_zero
      intro t ht
      rw [ha t (mem_trees.mp ht), zero_mul, zero_smul]
    rw [this]; rfl
  refine ⟨fun b θ hq y hy0 hy => ?_, fun e he => ?_⟩
  · refine (key1 b θ y hy0 hy).congr_left fun h => ?_
    rw [zero (fun t ht => by rw [hq t ht, sub_self]), sub_zero]
  · refine (key2 e).congr_left fun h => ?_
    rw [zero (fun t ht => he t ht), sub_zero]

/-- Order conditions with defects of at most `ε`: the Taylor coefficients of the local error up to `h^q` are at
most `ε M`, where `M` depends on the right-hand side only (not on the method). Autonomous problems. -/
theorem local_error_approx {f : E → E} {y0 : E} (hf : ContDiffAt ℝ ∞ f y0) (q : ℕ) :
    ∃ M : ℝ, 0 ≤ M ∧ ∀ (n : ℕ) (A : ℕ → ℕ → ℝ) (k : ℝ → ℕ → E),
      (∀ i, i < n → (fun h => k h i - f (y0 + h • ∑ j ∈ range n, A i j • k h j)) =O[𝓝 0] fun h : ℝ => h ^ q) →
      (∀ i, i < n → (fun h => k h i) =O[𝓝 0] fun _ : ℝ => (1 : ℝ)) →
      (∀ (b : ℕ → ℝ) (θ ε : ℝ), 0 ≤ ε →
        (∀ τ : OTree, τ.size ≤ q → |∑ i ∈ range n, b i * τ.weight n A i - θ ^ τ.size / (τ.dens : ℝ)| ≤ ε) →
        ∀ y : ℝ → E, y 0 = y0 → (∀ᶠ t in 𝓝 0, HasDerivAt y (f (y t)) t) →
        NearOrder (fun h => y0 + h • ∑ i ∈ range n, b i • k h i - y (θ * h)) q (ε * M)) ∧
      (∀ (e : ℕ → ℝ) (ε : ℝ), 0 ≤ ε → (∀ τ : OTree, τ.size ≤ q → |∑ i ∈ range n, e i * τ.weight n A i| ≤ ε) →
        NearOrder (fun h => h • ∑ i ∈ range n, e i • k h i) q (ε * M)) := by
  obtain ⟨p, hp⟩ := exists_taylorAt hf
  refine ⟨diffSum p q, diffSum_nonneg _ _, fun n A k hk hb => ?_⟩
  obtain ⟨h1, h2⟩ := local_expansion hp hk hb
  have near : ∀ {F : ℝ → E} {a : OTree → ℝ} {ε : ℝ}, 0 ≤ ε → (∀ t : OTree, t.size ≤ q → |a t| ≤ ε) →
      ((fun h => F h - bser p q a h) =O[𝓝 0] fun h : ℝ => h ^ (q + 1)) → NearOrder F q (ε * diffSum p q) := by
    intro F a ε hε ha hO
    exact ⟨bserCoef p q a, bserCoef_small ha hε, hO.congr_left fun h => by rw [bser_eq_coef]⟩
  exact ⟨fun b θ ε hε hq y hy0 hy => near hε hq (h1 b θ y hy0 hy), fun e ε hε he => near hε he (h2 e)⟩

/-- The same for `y' = f(t, y)` if the rows of the matrix sum to the stage times. -/
theorem local_error_approx_rk {f : ℝ → E → E} {t0 : ℝ} {y0 : E}
    (hf : ContDiffAt ℝ ∞ (fun z : ℝ × E => f z.1 z.2) (t0, y0)) (q : ℕ) :
    ∃ M : ℝ, 0 ≤ M ∧ ∀ (n : ℕ) (A : ℕ → ℕ → ℝ) (c : ℕ → ℝ) (k : ℝ → ℕ → E),
      (∀ i, i < n → ∑ j ∈ range n, A i j = c i) →
      (∀ i, i < n → (fun h => k h i - f (t0 + c i * h) (y0 + h • ∑ j ∈ range n, A i j • k h j))
        =O[𝓝 0] fun h : ℝ => h ^ q) →
      (∀ i, i < n → (fun h => k h i) =O[𝓝 0] fun _ : ℝ => (1 : ℝ)) →
      (∀ (b : ℕ → ℝ) (θ ε : ℝ), 0 ≤ ε →
        (∀ τ : OTree, τ.size ≤ q → |∑ i ∈ range n, b i * τ.weight n A i - θ ^ τ.size / (τ.dens : ℝ)| ≤ ε) →
        ∀ y : ℝ → E, y t0 = y0 → (∀ᶠ t in 𝓝 t0, HasDerivAt y (f t (y t)) t) →
        NearOrder (fun h => y0 + h • ∑ i ∈ range n, b i • k h i - y (t0 + θ * h)) q (ε * M)) ∧
      (∀ (e : ℕ → ℝ) (ε : ℝ), 0 ≤ ε → (∀ τ : OTree, τ.size ≤ q → |∑ i ∈ range n, e i * τ.weight n A i| ≤ ε) →
        NearOrder (fun h => h • ∑ i ∈ range n, e i • k h i) q (ε * M)) := by
  have hF : ContDiffAt ℝ ∞ (fun z : ℝ × E => ((1 : ℝ), f z.1 z.2)) (t0, y0) :=
    contDiffAt_const.prodMk hf
  obtain ⟨M, hM, main⟩ := local_error_approx hF q
  refine ⟨M, hM, fun n A c k hA hk hb => ?_⟩
  have hsum : ∀ (a : ℕ → ℝ) (h : ℝ), ∑ j ∈ range n, a j • ((1 : ℝ), k h j) =
      (∑ j ∈ range n, a j, ∑ j ∈ range n, a j • k h j) := by
    intro a h
    rw [Prod.ext_iff]
    simp [Prod.fst_sum, Prod.snd_sum]
  obtain ⟨h1, h2⟩ := main n A (fun h i => ((1 : ℝ), k h i))
    (by
      intro i hi
      refine ((isBigO_zero _ _).prod_left (hk i hi)).congr_left ?_
      intro h
      rw [hsum, hA i hi]
      simp [mul_comm])
    (by
      intro i hi
      exact (isBigO_const_const (1 : ℝ) one_ne_zero _).prod_left (hb i hi))
  have snd : ∀ {G : ℝ → ℝ × E} {F : ℝ → E} {δ : ℝ}, (∀ h, (G h).2 = F h) → NearOrder G q δ → NearOrder F q δ := by
    rintro G F δ hG ⟨v, hv, hO⟩
    refine ⟨fun m => (v m).2, fun m => (norm_snd_le _).trans (hv m), ?_⟩
    have h3 := (isBigO_prod_left.mp hO).2
    refine h3.congr_left fun h => ?_
    simp [Prod.snd_sum, hG]
  have hadd : Tendsto (fun h : ℝ => t0 + h) (𝓝 0) (𝓝 t0) := by
    have : ContinuousAt (fun h : ℝ => t0 + h) 0 := by fun_prop
    simpa [ContinuousAt] using this
  refine ⟨fun b θ ε hε hq y hy0 hy => ?_, fun e ε hε he => ?_⟩
  · refine snd ?_ (h1 b θ ε hε hq (fun h => (t0 + h, y (t0 + h))) (by simp [hy0]) ?_)
    · intro h
      simp [Prod.snd_sum]
    · filter_upwards [hadd.eventually hy] with h hh
      refine HasDerivAt.prodMk ?_ ?_
      · simpa using (hasDerivAt_id h).const_add t0
      · exact HasDerivAt.comp_const_add t0 h hh
  · refine snd ?_ (h2 e ε hε he)
    intro h
    simp [Prod.snd_sum]

end Extensisq
