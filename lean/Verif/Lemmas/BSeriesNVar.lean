import Verif.Lemmas.BSeriesNT

/-! # Local error of Nystrom interpolants: weights that depend on the step -/

set_option linter.unusedSectionVars false

namespace Extensisq
open scoped ContDiff
open Finset Asymptotics Filter Topology

variable {E : Type*} [NormedAddCommGroup E] [NormedSpace ℝ E]

theorem weighted_fser_var {p : FormalMultilinearSeries ℝ (E × E) E} {v0 : E} {n m : ℕ} (e : ℕ)
    {k : ℝ → ℕ → E} (b : ℝ → ℕ → ℝ) (w : ℕ → NForest → ℝ)
    (hbO : ∀ i, i < n → (fun h => b h i) =O[𝓝 0] fun _ : ℝ => (1 : ℝ))
    (hk : ∀ j, j < n → (fun h => k h j - fser p v0 m 0 (w j) h) =O[𝓝 0] fun h : ℝ => h ^ m) :
    (fun h => h ^ e • ∑ j ∈ range n, b h j • k h j -
      ∑ j ∈ range n, b h j • fser p v0 m e (w j) h) =O[𝓝 0] fun h : ℝ => h ^ (m + e) := by
  have hf : ∀ (j : ℕ) (h : ℝ), fser p v0 m e (w j) h = h ^ e • fser p v0 m 0 (w j) h := by
    intro j h
    unfold fser
    rw [smul_sum]
    apply sum_congr rfl
    intro q _
    rw [smul_smul, pow_add, add_zero]
    congr 1
    ring
  have e' : ∀ h : ℝ, h ^ e • ∑ j ∈ range n, b h j • k h j - ∑ j ∈ range n, b h j • fser p v0 m e (w j) h =
      ∑ j ∈ range n, h ^ e • b h j • (k h j - fser p v0 m 0 (w j) h) := by
    intro h
    rw [smul_sum, ← sum_sub_distrib]
    apply sum_congr rfl
    intro j _
    rw [hf, smul_sub, smul_sub, smul_comm (b h j) (h ^ e)]
  simp only [e']
  apply IsBigO.fun_sum
  intro j hj
  have h1 := (hbO j (mem_range.mp hj)).smul (hk j (mem_range.mp hj))
  have h2 := (isBigO_refl (fun h : ℝ => h ^ e) (𝓝 0)).smul h1
  refine h2.congr_right ?_
  intro h
  rw [smul_eq_mul, smul_eq_mul, pow_add]; ring

theorem sum_fser_var {p : FormalMultilinearSeries ℝ (E × E) E} {v0 : E} {n m e : ℕ} (c : ℕ → ℝ) (θ h : ℝ)
    (w : ℕ → NForest → ℝ) (W : NForest → ℝ) (ok : NForest → Prop) (hok : ∀ q, ¬ ok q → q.diff p v0 = 0)
    (hq : ∀ q : NForest, ok q → q.ord < m → ∑ j ∈ range n, c j * w j q = θ ^ (q.ord + e) * W q) :
    ∑ j ∈ range n, c j • fser p v0 m e (w j) h = fser p v0 m e W (θ * h) := by
  unfold fser
  simp only [smul_sum]
  rw [sum_comm]
  apply sum_congr rfl
  intro q hqm
  by_cases ho : ok q
  · simp only [smul_smul]
    rw [← sum_smul]
    congr 1
    rw [mul_pow, ← mul_assoc, mul_comm (W q), ← hq q ho (mem_nforests.mp hqm), sum_mul]
    apply sum_congr rfl
    intro j _
    ring
  · rw [hok q ho]; simp

/-- Position and velocity of an interpolant of an autonomous problem. -/
theorem local_error_ny_auto_var {n : ℕ} {A Ap : ℕ → ℕ → ℝ} {C : ℕ → ℝ} {a : E × E → E} {y0 : E × E}
    {p : FormalMultilinearSeries ℝ (E × E) E} (ha : TaylorAt a p y0) {k : ℝ → ℕ → E}
    (hk : ∀ i, i < n → ∀ᶠ h in 𝓝 (0 : ℝ), k h i = a (y0 +
      (h ^ 2 • (∑ j ∈ range n, A i j • k h j) + (C i * h) • y0.2, h • ∑ j ∈ range n, Ap i j • k h j)))
    (hb : ∀ i, i < n → (fun h => k h i) =O[𝓝 0] fun _ : ℝ => (1 : ℝ))
    (ok : NForest → Prop) (hok : ∀ q, ¬ ok q → q.diff p y0.2 = 0)
    (b : ℝ → ℕ → ℝ) (θ : ℝ → ℝ) (r : ℕ)
    (hbO : ∀ i, i < n → (fun h => b h i) =O[𝓝 0] fun _ : ℝ => (1 : ℝ))
    (hθO : θ =O[𝓝 0] fun _ : ℝ => (1 : ℝ))
    (y : ℝ → E × E) (h0 : y 0 = y0) (hy : ∀ᶠ h in 𝓝 (0 : ℝ), HasDerivAt y ((y h).2, a (y h)) h) :
    ((∀ h, ∀ q : NForest, ok q → q.ord + 2 ≤ r + 1 →
        ∑ i ∈ range n, b h i * q.weight n A Ap C i = (θ h) ^ (q.ord + 2) * (NTree.pos q.1 q.2).exact) →
      (fun h => y0.1 + (θ h * h) • y0.2 + h ^ 2 • ∑ i ∈ range n, b h i • k h i - (y (θ h * h)).1)
        =O[𝓝 0] fun h : ℝ => h ^ (r + 2)) ∧
    ((∀ h, ∀ q : NForest, ok q → q.ord + 1 ≤ r + 1 →
        ∑ i ∈ range n, b h i * q.weight n A Ap C i = (θ h) ^ (q.ord + 1) * (NTree.dot q.1 q.2).exact) →
      (fun h => y0.2 + h • ∑ i ∈ range n, b h i • k h i - (y (θ h * h)).2)
        =O[𝓝 0] fun h : ℝ => h ^ (r + 2)) := by
  have hst := stages_nser ha hk hb
  have hθh : (fun h => θ h * h) =O[𝓝 0] fun h : ℝ => h := by
    refine (hθO.mul (isBigO_refl (fun h : ℝ => h) (𝓝 0))).congr_right ?_
    intro h; simp
  have hθ : Tendsto (fun h : ℝ => θ h * h) (𝓝 0) (𝓝 0) := hθh.trans_tendsto tendsto_id
  have h1 : ((fun h => y h - y0 - nser p y0.2 (r + 1) NTree.exact h) ∘ fun h => θ h * h)
      =O[𝓝 0] fun h : ℝ => h ^ (r + 2) :=
    ((exact_nser ha h0 hy (r + 1)).comp_tendsto hθ).trans (hθh.pow (r + 2))
  have h1' := isBigO_prod_left.mp h1
  constructor
  · intro hc
    have h2 := weighted_fser_var (p := p) (v0 := y0.2) (m := r) 2 b (fun j q => q.weight n A Ap C j) hbO (hst r)
    refine (h2.sub h1'.1).congr_left ?_
    intro h
    rw [sum_fser_var (b h) (θ h) h _ (fun q => (NTree.pos q.1 q.2).exact) ok hok
      (fun q ho hq => hc h q ho (by omega))]
    simp only [Function.comp, Prod.fst_sub]
    rw [nser_split]
    simp only [NTree.exact, one_mul]
    abel
  · intro hc
    have h2 := weighted_fser_var (p := p) (v0 := y0.2) (m := r + 1) 1 b (fun j q => q.weight n A Ap C j) hbO
      (hst (r + 1))
    refine (h2.sub h1'.2).congr_left ?_
    intro h
    rw [sum_fser_var (b h) (θ h) h _ (fun q => (NTree.dot q.1 q.2).exact) ok hok
      (fun q ho hq => hc h q ho (by omega))]
    simp only [Function.comp, Prod.snd_sub]
    rw [nser_split]
    simp only [pow_one]
    abel

/-- The same for `u'' = acc(t, u, u')`. -/
theorem local_error_ny_var (vd : Bool) {n : ℕ} {A Ap : ℕ → ℕ → ℝ} {C : ℕ → ℝ} {acc : ℝ → E × E → E}
    {t0 : ℝ} {y0 : E × E} (ha : ContDiffAt ℝ ∞ (fun z : ℝ × (E × E) => acc z.1 z.2) (t0, y0))
    (hvd : vd = false → ∀ t u v w, acc t (u, v) = acc t (u, w)) {k : ℝ → ℕ → E}
    (hk : ∀ i, i < n → ∀ᶠ h in 𝓝 (0 : ℝ), k h i = acc (t0 + C i * h)
      (y0.1 + (C i * h) • y0.2 + h ^ 2 • ∑ j ∈ range n, A i j • k h j,
       y0.2 + h • ∑ j ∈ range n, Ap i j • k h j))
    (hb : ∀ i, i < n → (fun h => k h i) =O[𝓝 0] fun _ : ℝ => (1 : ℝ))
    (b : ℝ → ℕ → ℝ) (θ : ℝ → ℝ) (r : ℕ)
    (hbO : ∀ i, i < n → (fun h => b h i) =O[𝓝 0] fun _ : ℝ => (1 : ℝ))
    (hθO : θ =O[𝓝 0] fun _ : ℝ => (1 : ℝ))
    (y : ℝ → E × E) (hy0 : y t0 = y0) (hy : ∀ᶠ t in 𝓝 t0, HasDerivAt y ((y t).2, acc t (y t)) t) :
    ((∀ h, ∀ q : NForest, okVd vd q → q.ord + 2 ≤ r + 1 →
        ∑ i ∈ range n, b h i * q.weight n A Ap C i = (θ h) ^ (q.ord + 2) * (NTree.pos q.1 q.2).exact) →
      (fun h => y0.1 + (θ h * h) • y0.2 + h ^ 2 • ∑ i ∈ range n, b h i • k h i - (y (t0 + θ h * h)).1)
        =O[𝓝 0] fun h : ℝ => h ^ (r + 2)) ∧
    ((∀ h, ∀ q : NForest, okVd vd q → q.ord + 1 ≤ r + 1 →
        ∑ i ∈ range n, b h i * q.weight n A Ap C i = (θ h) ^ (q.ord + 1) * (NTree.dot q.1 q.2).exact) →
      (fun h => y0.2 + h • ∑ i ∈ range n, b h i • k h i - (y (t0 + θ h * h)).2)
        =O[𝓝 0] fun h : ℝ => h ^ (r + 2)) := by
  let a' : (ℝ × E) × (ℝ × E) → ℝ × E := fun z => (0, acc z.1.1 (z.1.2, z.2.2))
  let y0' : (ℝ × E) × (ℝ × E) := ((t0, y0.1), (1, y0.2))
  obtain ⟨p, hp, hok⟩ := ny_augmented vd ha hvd
  have hsum : ∀ (c : ℕ → ℝ) (h : ℝ), ∑ j ∈ range n, c j • ((0 : ℝ), k h j) =
      ((0 : ℝ), ∑ j ∈ range n, c j • k h j) := by
    intro c h
    rw [Prod.ext_iff]
    simp [Prod.fst_sum, Prod.snd_sum]
  have hadd : Tendsto (fun h : ℝ => t0 + h) (𝓝 0) (𝓝 t0) := by
    have : ContinuousAt (fun h : ℝ => t0 + h) 0 := by fun_prop
    simpa [ContinuousAt] using this
  obtain ⟨h1, h2⟩ := local_error_ny_auto_var (n := n) (A := A) (Ap := Ap) (C := C) (a := a') (y0 := y0') hp
    (k := fun h i => ((0 : ℝ), k h i))
    (by
      intro i hi
      filter_upwards [hk i hi] with h hh
      simp only [hsum]
      apply Prod.ext
      · simp [a']
      · simp only [a', y0', Prod.smul_mk, Prod.mk_add_mk]
        rw [hh]
        congr 1
        · simp
        · apply Prod.ext
          · simp only; abel
          · rfl)
    (by
      intro i hi
      exact (isBigO_const_const (0 : ℝ) one_ne_zero _).prod_left (hb i hi))
    (okVd vd) hok b θ r hbO hθO (fun h => ((t0 + h, (y (t0 + h)).1), (1, (y (t0 + h)).2)))
    (by simp [hy0, y0']) (by
      filter_upwards [hadd.eventually hy] with h hh
      have hc : HasDerivAt (fun h => y (t0 + h)) _ h := HasDerivAt.comp_const_add t0 h hh
      have hc1 := (ContinuousLinearMap.fst ℝ E E).hasFDerivAt.comp_hasDerivAt h hc
      have hc2 := (ContinuousLinearMap.snd ℝ E E).hasFDerivAt.comp_hasDerivAt h hc
      refine HasDerivAt.prodMk (HasDerivAt.prodMk ?_ ?_) (HasDerivAt.prodMk ?_ ?_)
      · simpa using (hasDerivAt_id h).const_add t0
      · exact hc1
      · exact hasDerivAt_const _ _
      · exact hc2)
  constructor
  · intro hc
    have h5 := (isBigO_prod_left.mp (h1 hc)).2
    refine h5.congr_left ?_
    intro h
    simp only [hsum]
    simp [y0']
  · intro hc
    have h5 := (isBigO_prod_left.mp (h2 hc)).2
    refine h5.congr_left ?_
    intro h
    simp only [hsum]
    simp [y0']

end Extensisq
