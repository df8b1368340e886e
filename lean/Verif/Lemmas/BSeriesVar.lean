import Verif.Lemmas.BSeriesRK

/-!
# Local error with weights that depend on the step (continuous extensions)

The weights `b h i` and the point `θ h` may depend on `h` in any bounded way; with `θ` arbitrary this is
uniformity over the step.
-/

set_option linter.unusedSectionVars false

namespace Extensisq
open scoped ContDiff
open Finset Asymptotics Filter Topology

variable {E : Type*} [NormedAddCommGroup E] [NormedSpace ℝ E]

theorem local_error_auto_var {n : ℕ} {A : ℕ → ℕ → ℝ} {f : E → E} {y0 : E} (hf : ContDiffAt ℝ ∞ f y0)
    {k : ℝ → ℕ → E}
    (hk : ∀ i, i < n → ∀ᶠ h in 𝓝 (0 : ℝ), k h i = f (y0 + h • ∑ j ∈ range n, A i j • k h j))
    (hb : ∀ i, i < n → (fun h => k h i) =O[𝓝 0] fun _ : ℝ => (1 : ℝ))
    (b : ℝ → ℕ → ℝ) (θ : ℝ → ℝ) (q : ℕ)
    (hbO : ∀ i, i < n → (fun h => b h i) =O[𝓝 0] fun _ : ℝ => (1 : ℝ))
    (hθO : θ =O[𝓝 0] fun _ : ℝ => (1 : ℝ))
    (hq : ∀ h, ∀ τ : OTree, τ.size ≤ q →
      ∑ i ∈ range n, b h i * τ.weight n A i = (θ h) ^ τ.size / (τ.dens : ℝ))
    (y : ℝ → E) (h0 : y 0 = y0) (hy : ∀ᶠ h in 𝓝 (0 : ℝ), HasDerivAt y (f (y h)) h) :
    (fun h => y0 + h • ∑ i ∈ range n, b h i • k h i - y (θ h * h)) =O[𝓝 0]
      fun h : ℝ => h ^ (q + 1) := by
  obtain ⟨p, hp⟩ := exists_taylorAt hf
  have hst := stages_bser hp hk hb
  have hw : ∀ (i : ℕ), i < n → (fun h => h • k h i -
      bser p q (fun t => t.weight n A i) h) =O[𝓝 0] fun h : ℝ => h ^ (q + 1) := by
    intro i hi
    have := weighted_bser (p := p) (k := k) (fun j => if j = i then (1 : ℝ) else 0)
      (fun j t => t.weight n A j) (hst q)
    refine this.congr_left ?_
    intro h
    simp [ite_smul, sum_ite_eq', hi]
  have hθh : (fun h => θ h * h) =O[𝓝 0] fun h : ℝ => h := by
    refine (hθO.mul (isBigO_refl (fun h : ℝ => h) (𝓝 0))).congr_right ?_
    intro h; simp
  have hθ : Tendsto (fun h : ℝ => θ h * h) (𝓝 0) (𝓝 0) := hθh.trans_tendsto tendsto_id
  have h1 : ((fun h => y h - y0 - bser p q (fun t => 1 / (t.dens : ℝ)) h) ∘ fun h => θ h * h)
      =O[𝓝 0] fun h : ℝ => h ^ (q + 1) :=
    ((exact_bser hp h0 hy q).comp_tendsto hθ).trans (hθh.pow (q + 1))
  have h2 : (fun h => ∑ i ∈ range n, b h i • (h • k h i - bser p q (fun t => t.weight n A i) h))
      =O[𝓝 0] fun h : ℝ => h ^ (q + 1) := by
    apply IsBigO.fun_sum
    intro i hi
    have := (hbO i (mem_range.mp hi)).smul (hw i (mem_range.mp hi))
    refine this.congr_right ?_
    intro h; simp
  refine (h2.sub h1).congr_left ?_
  intro h
  have e1 : ∑ i ∈ range n, b h i • bser p q (fun t => t.weight n A i) h =
      bser p q (fun t => 1 / (t.dens : ℝ)) (θ h * h) := by
    unfold bser
    simp only [smul_sum]
    rw [sum_comm]
    apply sum_congr rfl
    intro t ht
    simp only [smul_smul]
    rw [← sum_smul]
    congr 1
    have := hq h t (mem_trees.mp ht)
    rw [mul_pow, show 1 / (t.dens : ℝ) * (θ h ^ t.size * h ^ t.size) =
      (θ h ^ t.size / (t.dens : ℝ)) * h ^ t.size by ring, ← this, sum_mul]
    apply sum_congr rfl
    intro i _
    ring
  simp only [Function.comp, smul_sub, sum_sub_distrib]
  rw [e1, smul_sum]
  simp only [smul_comm h (b h _)]
  abel

theorem local_error_rk_var {n : ℕ} {A : ℕ → ℕ → ℝ} {c : ℕ → ℝ}
    (hA : ∀ i, i < n → ∑ j ∈ range n, A i j = c i) {f : ℝ → E → E} {t0 : ℝ} {y0 : E}
    (hf : ContDiffAt ℝ ∞ (fun z : ℝ × E => f z.1 z.2) (t0, y0)) {k : ℝ → ℕ → E}
    (hk : ∀ i, i < n → ∀ᶠ h in 𝓝 (0 : ℝ),
      k h i = f (t0 + c i * h) (y0 + h • ∑ j ∈ range n, A i j • k h j))
    (hb : ∀ i, i < n → (fun h => k h i) =O[𝓝 0] fun _ : ℝ => (1 : ℝ))
    (b : ℝ → ℕ → ℝ) (θ : ℝ → ℝ) (q : ℕ)
    (hbO : ∀ i, i < n → (fun h => b h i) =O[𝓝 0] fun _ : ℝ => (1 : ℝ))
    (hθO : θ =O[𝓝 0] fun _ : ℝ => (1 : ℝ))
    (hq : ∀ h, ∀ τ : OTree, τ.size ≤ q →
      ∑ i ∈ range n, b h i * τ.weight n A i = (θ h) ^ τ.size / (τ.dens : ℝ))
    (y : ℝ → E) (hy0 : y t0 = y0) (hy : ∀ᶠ t in 𝓝 t0, HasDerivAt y (f t (y t)) t) :
    (fun h => y0 + h • ∑ i ∈ range n, b h i • k h i - y (t0 + θ h * h)) =O[𝓝 0]
      fun h : ℝ => h ^ (q + 1) := by
  have hF : ContDiffAt ℝ ∞ (fun z : ℝ × E => ((1 : ℝ), f z.1 z.2)) (t0, y0) :=
    contDiffAt_const.prodMk hf
  have hsum : ∀ (a : ℕ → ℝ) (h : ℝ), ∑ j ∈ range n, a j • ((1 : ℝ), k h j) =
      (∑ j ∈ range n, a j, ∑ j ∈ range n, a j • k h j) := by
    intro a h
    rw [Prod.ext_iff]
    simp [Prod.fst_sum, Prod.snd_sum]
  have hadd : Tendsto (fun h : ℝ => t0 + h) (𝓝 0) (𝓝 t0) := by
    have : ContinuousAt (fun h : ℝ => t0 + h) 0 := by fun_prop
    simpa [ContinuousAt] using this
  have h1 := local_error_auto_var (n := n) (A := A) hF (k := fun h i => ((1 : ℝ), k h i))
    (by
      intro i hi
      filter_upwards [hk i hi] with h hh
      rw [hsum, hA i hi, hh]
      simp [mul_comm])
    (by
      intro i hi
      exact (isBigO_const_const (1 : ℝ) one_ne_zero _).prod_left (hb i hi))
    b θ q hbO hθO hq (fun h => (t0 + h, y (t0 + h))) (by simp [hy0]) (by
      filter_upwards [hadd.eventually hy] with h hh
      refine HasDerivAt.prodMk ?_ ?_
      · simpa using (hasDerivAt_id h).const_add t0
      · exact HasDerivAt.comp_const_add t0 h hh)
  have h3 := (isBigO_prod_left.mp h1).2
  refine h3.congr_left ?_
  intro h
  simp [Prod.snd_sum]

end Extensisq
