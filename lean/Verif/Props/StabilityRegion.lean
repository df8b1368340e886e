import Verif.Lemmas.StabCert1
import Verif.Lemmas.StabCert2
import Verif.Lemmas.StabCert3
import Verif.Lemmas.FullRun
import Verif.Props.Stiff
import Verif.Props.DecimalConvergence
import Mathlib.LinearAlgebra.Complex.Module

/-!
# C116: the constants of the stiffness test

`stbrad` and `tanang` are the radius of the stability region and the tangent of the largest angle with the negative real axis for which it is used. Here they
are compared with the actual stability of the methods.
-/

set_option linter.unusedSectionVars false

namespace Extensisq
open Finset

/-! ## Specification -/

/-- The points `z` of the closed left half plane with `|Im z| <= τ |Re z|`. -/
def InSector (τ : ℝ) (z : ℂ) : Prop := z.re ≤ 0 ∧ |z.im| ≤ τ * |z.re|

/-- `l` is a (complex) component of the state with `l(y)' = lam l(y)`: a left eigenvector of the Jacobian of a linear problem, a coordinate of a diagonal one. -/
def IsMode {E : Type*} [AddCommGroup E] [Module ℝ E] (f : ℝ → E → E) (l : E →ₗ[ℝ] ℂ) (lam : ℂ) : Prop := ∀ t y, l (f t y) = lam * l y

/-! ## The polynomial -/

/-- The recursion of the stages for one mode gives the stability polynomial. -/
theorem rk_scalar {R : RKTable} {lam : ℂ} {h : ℝ} {e e' : ℂ} {a : ℕ → ℂ}
    (ha : ∀ i, i < R.s → a i = lam * (e + h * ∑ j ∈ range i, (((R.tab ℝ).A i j : ℝ) : ℂ) * a j))
    (he : e' = e + h * ∑ i ∈ range R.s, (((R.tab ℝ).B i : ℝ) : ℂ) * a i) : e' = evP (stabP R) ((h : ℂ) * lam) * e := by
  have hre : ∀ (x : ℝ) (v : ℂ), x • v = (x : ℂ) * v := fun x v => by simp
  have hk : IsRKStep (R.tab ℝ) (fun _ x => (LinearMap.mulLeft ℂ lam) x) 0 e h
      (fun i => if i < R.s then a i else lam * e') e' := by
    refine ⟨fun i hi => ?_, ?_, ?_⟩
    · have hi' : i < R.s := hi
      show (if i < R.s then a i else _) = lam * _
      rw [if_pos hi', ha i hi', hre]
      congr 3
      refine sum_congr rfl fun j hj => ?_
      rw [if_pos ((mem_range.mp hj).trans hi'), hre]
    · rw [he, hre]
      congr 2
      refine sum_congr rfl fun j hj => ?_
      show _ = (R.tab ℝ).B j • (if j < R.s then a j else _)
      rw [if_pos (show j < R.s from mem_range.mp hj), hre]
    · show (if R.s < R.s then _ else lam * e') = lam * e'
      rw [if_neg (lt_irrefl _)]
  have := rk_mode (lam := lam) (J := LinearMap.mulLeft ℂ lam) (by simp) hk
  simpa using this

section
variable {E : Type*} [AddCommGroup E] [Module ℝ E]

theorem lin_comb (l : E →ₗ[ℝ] ℂ) (y : E) (h : ℝ) (n : ℕ) (w : ℕ → ℝ) (k : ℕ → E) :
    l (y + h • ∑ j ∈ range n, w j • k j) = l y + h * ∑ j ∈ range n, (w j : ℂ) * l (k j) := by
  rw [map_add, map_smul, map_sum]
  simp [map_smul]

/-- One step multiplies a mode by the stability polynomial. -/
theorem rk_component {R : RKTable} {f : ℝ → E → E} {l : E →ₗ[ℝ] ℂ} {lam : ℂ} (hl : IsMode f l lam) {t h : ℝ} {y y' : E} {k : ℕ → E}
    (hk : IsRKStep (R.tab ℝ) f t y h k y') : l y' = evP (stabP R) ((h : ℂ) * lam) * l y := by
  refine rk_scalar (a := fun i => l (k i)) (fun i hi => ?_) ?_
  · rw [hk.stage i hi, hl, lin_comb]
  · rw [hk.sol, lin_comb]
    rfl

/-- The same for the difference of two steps of the same size. -/
theorem rk_component_diff {R : RKTable} {f : ℝ → E → E} {l : E →ₗ[ℝ] ℂ} {lam : ℂ} (hl : ∀ t x y, l (f t x) - l (f t y) = lam * (l x - l y))
    {t h : ℝ} {y y' u u' : E} {k m : ℕ → E} (hk : IsRKStep (R.tab ℝ) f t y h k y') (hm : IsRKStep (R.tab ℝ) f t u h m u') :
    l y' - l u' = evP (stabP R) ((h : ℂ) * lam) * (l y - l u) := by
  have hsum : ∀ (n : ℕ) (w : ℕ → ℝ), ∑ j ∈ range n, (w j : ℂ) * l (k j) - ∑ j ∈ range n, (w j : ℂ) * l (m j) =
      ∑ j ∈ range n, (w j : ℂ) * (l (k j) - l (m j)) := by
    intro n w
    rw [← sum_sub_distrib]
    exact sum_congr rfl fun j _ => by ring
  refine rk_scalar (a := fun i => l (k i) - l (m i)) (fun i hi => ?_) ?_
  · rw [hk.stage i hi, hm.stage i hi, hl, lin_comb, lin_comb, ← hsum]
    ring
  · have e : l y' - l u' = l y - l u + h * (∑ j ∈ range R.s, (((R.tab ℝ).B j : ℝ) : ℂ) * l (k j) - ∑ j ∈ range R.s, (((R.tab ℝ).B j : ℝ) : ℂ) * l (m j)) := by
      rw [hk.sol, hm.sol, lin_comb, lin_comb]
      show l y + h * ∑ j ∈ range R.s, _ - (l u + h * ∑ j ∈ range R.s, _) = _
      ring
    rw [e, hsum]

end

/-! ## The regions -/

theorem stab_inner {C : StiffConst} (hC : C ∈ stiffConsts) (h9 : C.R ≠ Me4) {z : ℂ} (hz : InSector C.tanang z)
    (h : ‖z‖ ≤ 9 / 10 * (C.stbrad : ℝ)) : ‖evP (stabP C.R) z‖ ≤ 1 := by
  obtain ⟨h1, h2⟩ := hz
  simp only [stiffConsts, List.mem_cons, List.not_mem_nil, or_false] at hC
  rcases hC with rfl | rfl | rfl | rfl | rfl | rfl | rfl | rfl
  · exact absurd rfl h9
  · exact inner_sound CK5_inner h1 (h2.trans (le_of_eq (by norm_num [CK5_stiff]))) (h.trans (le_of_eq (by norm_num [CK5_stiff]))) rfl
  · exact inner_sound BS5_inner h1 (h2.trans (le_of_eq (by norm_num [BS5_stiff]))) (h.trans (le_of_eq (by norm_num [BS5_stiff]))) rfl
  · exact inner_sound CFMR7osc_inner h1 (h2.trans (le_of_eq (by norm_num [CFMR7osc_stiff]))) (h.trans (le_of_eq (by norm_num [CFMR7osc_stiff]))) rfl
  · exact inner_sound Ts5_inner h1 (h2.trans (le_of_eq (by norm_num [Ts5_stiff]))) (h.trans (le_of_eq (by norm_num [Ts5_stiff]))) rfl
  · exact inner_sound Pr7_inner h1 (h2.trans (le_of_eq (by norm_num [Pr7_stiff]))) (h.trans (le_of_eq (by norm_num [Pr7_stiff]))) rfl
  · exact inner_sound Pr8_inner h1 (h2.trans (le_of_eq (by norm_num [Pr8_stiff]))) (h.trans (le_of_eq (by norm_num [Pr8_stiff]))) rfl
  · exact inner_sound Pr9_inner h1 (h2.trans (le_of_eq (by norm_num [Pr9_stiff]))) (h.trans (le_of_eq (by norm_num [Pr9_stiff]))) rfl

theorem stab_inner_Me4 {z : ℂ} (hz : InSector Me4_stiff.tanang z) (h : ‖z‖ ≤ 89 / 100 * (Me4_stiff.stbrad : ℝ)) : ‖evP (stabP Me4) z‖ ≤ 1 := by
  obtain ⟨h1, h2⟩ := hz
  exact inner_sound Me4_inner h1 (h2.trans (le_of_eq (by norm_num [Me4_stiff]))) (h.trans (le_of_eq (by norm_num [Me4_stiff]))) rfl

/-- The methods with exact rational coefficients. -/
def rationalStiff : List StiffConst := [Me4_stiff, CK5_stiff, BS5_stiff, CFMR7osc_stiff, Pr7_stiff]

theorem stab_outer_rational {C : StiffConst} (hC : C ∈ rationalStiff) {z : ℂ} (hz : InSector C.tanang z) (h : 105 / 100 * (C.stbrad : ℝ) ≤ ‖z‖) :
    1 < ‖evP (stabP C.R) z‖ := by
  obtain ⟨h1, h2⟩ := hz
  have hz0 : z ≠ 0 := by
    rintro rfl
    rw [norm_zero] at h
    have : ∀ C ∈ rationalStiff, (0 : ℚ) < C.stbrad := by decide +kernel
    have : (0 : ℝ) < C.stbrad := by exact_mod_cast this C hC
    linarith
  simp only [rationalStiff, List.mem_cons, List.not_mem_nil, or_false] at hC
  rcases hC with rfl | rfl | rfl | rfl | rfl
  · refine outer_sound Me4_outer h1 (h2.trans (le_of_eq (by norm_num [Me4_stiff]))) ?_ ?_ hz0
    all_goals norm_num [Me4_stiff] at h ⊢
    all_goals linarith
  · refine outer_sound CK5_outer h1 (h2.trans (le_of_eq (by norm_num [CK5_stiff]))) ?_ ?_ hz0
    all_goals norm_num [CK5_stiff] at h ⊢
    all_goals linarith
  · refine outer_sound BS5_outer h1 (h2.trans (le_of_eq (by norm_num [BS5_stiff]))) ?_ ?_ hz0
    all_goals norm_num [BS5_stiff] at h ⊢
    all_goals linarith
  · refine outer_sound CFMR7osc_outer h1 (h2.trans (le_of_eq (by norm_num [CFMR7osc_stiff]))) ?_ ?_ hz0
    all_goals norm_num [CFMR7osc_stiff] at h ⊢
    all_goals linarith
  · refine outer_sound Pr7_outer h1 (h2.trans (le_of_eq (by norm_num [Pr7_stiff]))) ?_ ?_ hz0
    all_goals norm_num [Pr7_stiff] at h ⊢
    all_goals linarith

theorem stab_outer {C : StiffConst} (hC : C ∈ stiffConsts) {z : ℂ} (hz : InSector C.tanang z) (h : 105 / 100 * (C.stbrad : ℝ) ≤ ‖z‖)
    (h' : ‖z‖ ≤ 15 / 10 * (C.stbrad : ℝ)) : 1 < ‖evP (stabP C.R) z‖ := by
  obtain ⟨h1, h2⟩ := id hz
  have hz0 : z ≠ 0 := by
    rintro rfl
    rw [norm_zero] at h
    have : ∀ C ∈ stiffConsts, (0 : ℚ) < C.stbrad := by decide +kernel
    have : (0 : ℝ) < C.stbrad := by exact_mod_cast this C hC
    linarith
  simp only [stiffConsts, List.mem_cons, List.not_mem_nil, or_false] at hC
  rcases hC with rfl | rfl | rfl | rfl | rfl | rfl | rfl | rfl
  · exact stab_outer_rational (C := Me4_stiff) (by simp [rationalStiff]) hz h
  · exact stab_outer_rational (C := CK5_stiff) (by simp [rationalStiff]) hz h
  · exact stab_outer_rational (C := BS5_stiff) (by simp [rationalStiff]) hz h
  · exact stab_outer_rational (C := CFMR7osc_stiff) (by simp [rationalStiff]) hz h
  · refine outer_sound Ts5_outer h1 (h2.trans (le_of_eq (by norm_num [Ts5_stiff]))) ?_ ?_ hz0
    all_goals norm_num [Ts5_stiff] at h h' ⊢
    all_goals linarith
  · exact stab_outer_rational (C := Pr7_stiff) (by simp [rationalStiff]) hz h
  · refine outer_sound Pr8_outer h1 (h2.trans (le_of_eq (by norm_num [Pr8_stiff]))) ?_ ?_ hz0
    all_goals norm_num [Pr8_stiff] at h h' ⊢
    all_goals linarith
  · refine outer_sound Pr9_outer h1 (h2.trans (le_of_eq (by norm_num [Pr9_stiff]))) ?_ ?_ hz0
    all_goals norm_num [Pr9_stiff] at h h' ⊢
    all_goals linarith

theorem stiffConsts_start {C : StiffConst} (hC : C ∈ stiffConsts) : (C.R.tab ℝ).C 0 = 0 ∧ 0 < (C.R.tab ℝ).s := by
  have key : ∀ C ∈ stiffConsts, C.R.C.getD 0 0 = 0 ∧ 0 < C.R.s := by decide +kernel
  obtain ⟨h1, h2⟩ := key C hC
  exact ⟨by simp only [RKTable.tab, h1, Rat.cast_zero], h2⟩

/-- The sector is a cone. -/
theorem InSector.smul {τ : ℝ} {z : ℂ} (hz : InSector τ z) {a : ℝ} (ha : 0 ≤ a) : InSector τ (a * z) := by
  obtain ⟨h1, h2⟩ := hz
  refine ⟨?_, ?_⟩
  · simp only [Complex.mul_re, Complex.ofReal_re, Complex.ofReal_im, zero_mul, sub_zero]
    exact mul_nonpos_of_nonneg_of_nonpos ha h1
  · simp only [Complex.mul_re, Complex.mul_im, Complex.ofReal_re, Complex.ofReal_im, zero_mul, sub_zero, add_zero, abs_mul, abs_of_nonneg ha]
    have := mul_le_mul_of_nonneg_left h2 ha
    linarith

/-! ## Steps -/

section
variable {E : Type*} [AddCommGroup E] [Module ℝ E]

/-- **C116**. Inside nine tenths of `stbrad`, in the sector of `tanang`: one step, of any method but `Me4`, does not amplify the mode. -/
theorem C116_stable_step {C : StiffConst} (hC : C ∈ stiffConsts) (h9 : C.R ≠ Me4) {f : ℝ → E → E} {l : E →ₗ[ℝ] ℂ} {lam : ℂ} (hl : IsMode f l lam)
    {t h : ℝ} {y y' : E} {k : ℕ → E} (hk : IsRKStep (C.R.tab ℝ) f t y h k y') (hz : InSector C.tanang (h * lam))
    (hs : |h| * ‖lam‖ ≤ 9 / 10 * (C.stbrad : ℝ)) : ‖l y'‖ ≤ ‖l y‖ := by
  rw [rk_component hl hk, norm_mul]
  refine mul_le_of_le_one_left (norm_nonneg _) (stab_inner hC h9 hz ?_)
  rwa [norm_mul, Complex.norm_real, Real.norm_eq_abs]

/-- **C116**. For `Me4` the same holds with 0.89 instead of 0.9 (with 0.9 it does not: `C116_merson_exceeds`). -/
theorem C116_stable_step_Me4 {f : ℝ → E → E} {l : E →ₗ[ℝ] ℂ} {lam : ℂ} (hl : IsMode f l lam) {t h : ℝ} {y y' : E} {k : ℕ → E}
    (hk : IsRKStep (Me4.tab ℝ) f t y h k y') (hz : InSector Me4_stiff.tanang (h * lam))
    (hs : |h| * ‖lam‖ ≤ 89 / 100 * (Me4_stiff.stbrad : ℝ)) : ‖l y'‖ ≤ ‖l y‖ := by
  rw [rk_component hl hk, norm_mul]
  refine mul_le_of_le_one_left (norm_nonneg _) (stab_inner_Me4 hz ?_)
  rwa [norm_mul, Complex.norm_real, Real.norm_eq_abs]

/-- **C116**. Inside, differences between two solutions advanced with the same step are not amplified either: for problems with a source term, and for the effect of
earlier errors. -/
theorem C116_stable_difference {C : StiffConst} (hC : C ∈ stiffConsts) (h9 : C.R ≠ Me4) {f : ℝ → E → E} {l : E →ₗ[ℝ] ℂ} {lam : ℂ}
    (hl : ∀ t x y, l (f t x) - l (f t y) = lam * (l x - l y)) {t h : ℝ} {y y' u u' : E} {k m : ℕ → E} (hk : IsRKStep (C.R.tab ℝ) f t y h k y')
    (hm : IsRKStep (C.R.tab ℝ) f t u h m u') (hz : InSector C.tanang (h * lam)) (hs : |h| * ‖lam‖ ≤ 9 / 10 * (C.stbrad : ℝ)) :
    ‖l y' - l u'‖ ≤ ‖l y - l u‖ := by
  rw [rk_component_diff hl hk hm, norm_mul]
  refine mul_le_of_le_one_left (norm_nonneg _) (stab_inner hC h9 hz ?_)
  rwa [norm_mul, Complex.norm_real, Real.norm_eq_abs]

/-- **C116**. Beyond 1.05 times `stbrad`, in the sector: one step amplifies a mode that should decay. For the methods with rational coefficients at any distance. -/
theorem C116_unstable_step_rational {C : StiffConst} (hC : C ∈ rationalStiff) {f : ℝ → E → E} {l : E →ₗ[ℝ] ℂ} {lam : ℂ} (hl : IsMode f l lam)
    {t h : ℝ} {y y' : E} {k : ℕ → E} (hk : IsRKStep (C.R.tab ℝ) f t y h k y') (hz : InSector C.tanang (h * lam))
    (hs : 105 / 100 * (C.stbrad : ℝ) ≤ |h| * ‖lam‖) (hy : l y ≠ 0) : ‖l y‖ < ‖l y'‖ := by
  rw [rk_component hl hk, norm_mul]
  refine lt_mul_of_one_lt_left (norm_pos_iff.mpr hy) (stab_outer_rational hC hz ?_)
  rwa [norm_mul, Complex.norm_real, Real.norm_eq_abs]

/-- **C116**. For all methods up to 1.5 times `stbrad`. -/
theorem C116_unstable_step {C : StiffConst} (hC : C ∈ stiffConsts) {f : ℝ → E → E} {l : E →ₗ[ℝ] ℂ} {lam : ℂ} (hl : IsMode f l lam)
    {t h : ℝ} {y y' : E} {k : ℕ → E} (hk : IsRKStep (C.R.tab ℝ) f t y h k y') (hz : InSector C.tanang (h * lam))
    (hs : 105 / 100 * (C.stbrad : ℝ) ≤ |h| * ‖lam‖) (hs' : |h| * ‖lam‖ ≤ 15 / 10 * (C.stbrad : ℝ)) (hy : l y ≠ 0) : ‖l y‖ < ‖l y'‖ := by
  have e : ‖(h : ℂ) * lam‖ = |h| * ‖lam‖ := by rw [norm_mul, Complex.norm_real, Real.norm_eq_abs]
  rw [rk_component hl hk, norm_mul]
  exact lt_mul_of_one_lt_left (norm_pos_iff.mpr hy) (stab_outer hC hz (e.symm ▸ hs) (e.symm ▸ hs'))

/-! ## Histories -/

/-- **C116**, histories: a solve with `max_step` of at most `0.9 stbrad / |lam|` never amplifies the mode, whatever step sizes the error control chooses. -/
theorem C116_stable_history {C : StiffConst} (hC : C ∈ stiffConsts) (h9 : C.R ≠ Me4) {f : ℝ → E → E} {l : E →ₗ[ℝ] ℂ} {lam : ℂ} (hl : IsMode f l lam)
    {c : Cfg ℝ E E} (hc : CfgOK c) {errNorm : E → E → E → ENorm ℝ} {P : PreTest ℝ E} (hm : c.m = rkMethod (C.R.tab ℝ) f errNorm P) {H : ℝ}
    (hmax : c.maxStep = some H) (hz : InSector C.tanang (c.dir * lam)) (hs : H * ‖lam‖ ≤ 9 / 10 * (C.stbrad : ℝ))
    {t0 : ℝ} {y0 : E} {h0 : ℝ} {e0 : ℕ} {Ks0 : ℕ → E} (hu : ∀ w, Reach c (newSolver c t0 y0 h0 e0 Ks0) w → MaxStepUsable c w.st)
    {v : Solver ℝ E E} (hr : Reach c (newSolver c t0 y0 h0 e0 Ks0) v) : ‖l v.st.y‖ ≤ ‖l y0‖ := by
  obtain ⟨r1, r2⟩ := stiffConsts_start hC
  induction hr with
  | refl => exact le_rfl
  | @tail w w' o fuel hr hst ih =>
    refine le_trans ?_ ih
    rcases rk_step_or hm r1 r2 hr hst with ⟨e1, e2⟩ | ⟨h, k, hk, et⟩
    · rw [e2]
    have hH := C03_max_step hc hmax (hu w hr) hst
    have eh : h = w'.st.t - w.st.t := by linarith
    have hdir : 0 ≤ c.dir * h := by
      rcases step_time hc hst with ⟨h1, -⟩ | ⟨-, -, h', h1, h2, h3⟩
      · rw [eh, h1, sub_self, mul_zero]
      · have : c.dir * h = h' := by rw [eh, h3]; linear_combination h' * dir_sq hc
        rw [this]
        exact (lt_of_lt_of_le (minStep_pos hc _ _) h1).le
    rw [← eh] at hH
    refine C116_stable_step hC h9 hl hk ?_ ((mul_le_mul_of_nonneg_right hH (norm_nonneg _)).trans hs)
    have := hz.smul hdir
    have e : ((c.dir * h : ℝ) : ℂ) * ((c.dir : ℂ) * lam) = (h : ℂ) * lam := by
      have hd := dir_sq hc
      have hd' : (c.dir : ℂ) * c.dir = 1 := by exact_mod_cast hd
      push_cast
      linear_combination (h : ℂ) * lam * hd'
    rwa [e] at this

/-! ## The stiffness test -/

/-- **C116**, the verdict "not stiff": if the dominant root is in the left half plane, no root of comparable size is in the right half plane, and the test answers
`False`, then steps of the average size do not amplify a mode with the root found. -/
theorem C116_verdict_not_stiff {C : StiffConst} (hC : C ∈ stiffConsts) (h9 : C.R ≠ Me4) {f : ℝ → E → E} {l : E →ₗ[ℝ] ℂ} {lam : ℂ} (hl : IsMode f l lam)
    {o : StiffOut} {r1 r2 : Root} (ho : o.roots = some (r1, r2, ‖Root.toC r1‖)) {havg : ℝ} (hr : Root.toC r1 = havg * lam)
    (hv : assessRoots C.tanang C.stbrad o = some false) (hre : r1.1 ≤ 0) (hre2 : r2.1 ≤ 0 ∨ ‖Root.toC r2‖ < 9 / 10 * ‖Root.toC r1‖)
    {t : ℝ} {y y' : E} {k : ℕ → E} (hk : IsRKStep (C.R.tab ℝ) f t y havg k y') : ‖l y'‖ ≤ ‖l y‖ := by
  have hn : ∀ r : Root, Real.sqrt (r.1 ^ 2 + r.2 ^ 2) = ‖Root.toC r‖ := fun r => by
    rw [Complex.norm_def, Complex.normSq_apply]
    congr 1
    show r.1 ^ 2 + r.2 ^ 2 = r.1 * r.1 + r.2 * r.2
    ring
  unfold assessRoots at hv
  rw [ho] at hv
  dsimp only at hv
  rw [if_neg (not_lt.mpr hre), hn] at hv
  rw [if_neg (by rintro ⟨a, b⟩; rcases hre2 with h | h <;> linarith)] at hv
  split_ifs at hv with hc
  simp only [Option.some.injEq, decide_eq_false_iff_not, not_le] at hv
  have hz : InSector C.tanang (Root.toC r1) := ⟨hre, by rw [mul_comm]; exact not_lt.mp hc⟩
  rw [hr] at hz hv
  refine C116_stable_step hC h9 hl hk hz ?_
  rw [norm_mul, Complex.norm_real, Real.norm_eq_abs] at hv
  exact hv.le

/-- **C116**, the verdict "stiff": steps that are longer than the average step by a factor of 7/6 (for the methods with decimal coefficients: if `h lam` stays within 1.5 times `stbrad`)
amplify a mode with the root found, although it is in the left half plane. The average step size is at most a factor 7/6 below the stability limit. -/
theorem C116_verdict_stiff {C : StiffConst} (hC : C ∈ stiffConsts) {f : ℝ → E → E} {l : E →ₗ[ℝ] ℂ} {lam : ℂ} (hl : IsMode f l lam)
    {o : StiffOut} {r1 r2 : Root} (ho : o.roots = some (r1, r2, ‖Root.toC r1‖)) {havg : ℝ} (hr : Root.toC r1 = havg * lam)
    (hv : assessRoots C.tanang C.stbrad o = some true) {q : ℝ} (hq : 7 / 6 ≤ q) (hq' : C ∈ rationalStiff ∨ q * ‖Root.toC r1‖ ≤ 15 / 10 * (C.stbrad : ℝ))
    {t : ℝ} {y y' : E} {k : ℕ → E} (hk : IsRKStep (C.R.tab ℝ) f t y (q * havg) k y') (hy : l y ≠ 0) :
    (havg * lam).re ≤ 0 ∧ ‖l y‖ < ‖l y'‖ := by
  unfold assessRoots at hv
  rw [ho] at hv
  dsimp only at hv
  split_ifs at hv with a b c
  all_goals simp only [Option.some.injEq, decide_eq_true_eq, Bool.false_eq_true] at hv
  have hre : r1.1 ≤ 0 := not_lt.mp a
  have hz : InSector C.tanang (Root.toC r1) := ⟨hre, by rw [mul_comm]; exact not_lt.mp c⟩
  have hz' : InSector C.tanang (((q * havg : ℝ) : ℂ) * lam) := by
    have h := hz.smul (a := q) (by linarith)
    rw [hr] at h
    have e : (q : ℂ) * (havg * lam) = ((q * havg : ℝ) : ℂ) * lam := by push_cast; ring
    rwa [e] at h
  have e : q * ‖Root.toC r1‖ = |q * havg| * ‖lam‖ := by
    rw [hr, norm_mul, Complex.norm_real, Real.norm_eq_abs, abs_mul, abs_of_nonneg (by linarith : (0 : ℝ) ≤ q)]
    ring
  have h0 := norm_nonneg (Root.toC r1)
  have hs : 105 / 100 * (C.stbrad : ℝ) ≤ |q * havg| * ‖lam‖ := by
    rw [← e]
    have := mul_le_mul_of_nonneg_right hq h0
    linarith
  refine ⟨?_, ?_⟩
  · rw [← hr]
    exact hre
  · rcases hq' with hq' | hq'
    · exact C116_unstable_step_rational hq' hl hk hz' hs hy
    · exact C116_unstable_step hC hl hk hz' hs (e ▸ hq') hy

end

/-! ## Concrete cases -/

/-- A step of any of the methods exists. -/
theorem stiffConsts_step {E : Type*} [AddCommGroup E] [Module ℝ E] {C : StiffConst} (hC : C ∈ stiffConsts) (f : ℝ → E → E) (t : ℝ) (y : E) (h : ℝ) :
    ∃ k y', IsRKStep (C.R.tab ℝ) f t y h k y' := by
  obtain ⟨r1, r2⟩ := stiffConsts_start hC
  exact ⟨_, _, (rkTrial_isRKStep (C.R.tab ℝ) f (fun _ _ _ => .num 0) t y h (fun _ => 0) r1 r2).1⟩

theorem mulMode (z : ℂ) : IsMode (fun _ (y : ℂ) => z * y) LinearMap.id z := fun _ _ => rfl

theorem Me4_stab : stabP Me4 = [1, 1, 1 / 2, 1 / 6, 1 / 24, 1 / 144] := by decide +kernel

/-- **C116**. `stbrad` of `Me4` is too large: a decaying mode inside nine tenths of `stbrad`, well inside the sector, is amplified by every step. -/
theorem C116_merson_exceeds : ∃ z : ℂ, InSector Me4_stiff.tanang z ∧ ‖z‖ ≤ 9 / 10 * (Me4_stiff.stbrad : ℝ) ∧
    ∀ (t : ℝ) (y y' : ℂ) (k : ℕ → ℂ), IsRKStep (Me4.tab ℝ) (fun _ y => z * y) t y 1 k y' → y ≠ 0 → 1.01 * ‖y‖ < ‖y'‖ := by
  refine ⟨⟨-11 / 10, 285 / 100⟩, ⟨by norm_num, ?_⟩, ?_, ?_⟩
  · norm_num [Me4_stiff, abs_of_pos, abs_of_neg]
  · rw [Complex.norm_def, Complex.normSq_apply]
    refine Real.sqrt_le_iff.mpr ⟨by norm_num [Me4_stiff], by norm_num [Me4_stiff]⟩
  · intro t y y' k hk hy
    have h := rk_component (mulMode _) hk
    simp only [LinearMap.id_coe, id_eq] at h
    rw [h, norm_mul]
    refine mul_lt_mul_of_pos_right ?_ (norm_pos_iff.mpr hy)
    refine lt_of_pow_lt_pow_left₀ 2 (norm_nonneg _) ?_
    rw [← Complex.normSq_eq_norm_sq, Me4_stab, Complex.ofReal_one, one_mul]
    have e : evP [1, 1, 1 / 2, 1 / 6, 1 / 24, 1 / 144] (⟨-11 / 10, 285 / 100⟩ : ℂ) = ⟨-170057651 / 230400000, 107261099 / 153600000⟩ := by
      simp only [evP]
      apply Complex.ext <;> simp <;> norm_num
    rw [e, Complex.normSq_apply]
    norm_num

/-- A damped oscillation inside the region, one outside, for all methods. -/
example {C : StiffConst} (hC : C ∈ stiffConsts) : ∃ k y', IsRKStep (C.R.tab ℝ) (fun _ (y : ℂ) => ⟨-1, 2⟩ * y) 0 1 1 k y' ∧ ‖y'‖ ≤ 1 := by
  have key : ∀ C ∈ stiffConsts, (2 : ℚ) ≤ C.tanang ∧ 3 ≤ C.stbrad := by decide +kernel
  obtain ⟨h1, h2⟩ := key C hC
  have h1 : (2 : ℝ) ≤ C.tanang := by exact_mod_cast h1
  have h2 : (3 : ℝ) ≤ C.stbrad := by exact_mod_cast h2
  obtain ⟨k, y', hk⟩ := stiffConsts_step hC (fun _ (y : ℂ) => (⟨-1, 2⟩ : ℂ) * y) 0 1 1
  refine ⟨k, y', hk, ?_⟩
  have hz : InSector C.tanang (((1 : ℝ) : ℂ) * ⟨-1, 2⟩) := by
    rw [Complex.ofReal_one, one_mul]
    refine ⟨by norm_num, ?_⟩
    norm_num
    linarith
  have hn : |(1 : ℝ)| * ‖(⟨-1, 2⟩ : ℂ)‖ ≤ 89 / 100 * 3 := by
    rw [abs_one, one_mul, Complex.norm_def, Complex.normSq_apply]
    exact Real.sqrt_le_iff.mpr ⟨by norm_num, by norm_num⟩
  by_cases h9 : C.R = Me4
  · have hC' : C = Me4_stiff := by
      simp only [stiffConsts, List.mem_cons, List.not_mem_nil, or_false] at hC
      have hs : ∀ D ∈ [CK5_stiff, BS5_stiff, CFMR7osc_stiff, Ts5_stiff, Pr7_stiff, Pr8_stiff, Pr9_stiff], D.R.s ≠ Me4.s := by decide +kernel
      rcases hC with rfl | h
      · rfl
      · refine absurd (by rw [h9]) (hs C ?_)
        simpa using h
    subst hC'
    have := C116_stable_step_Me4 (mulMode _) hk hz (hn.trans (by linarith))
    simpa using this
  · have := C116_stable_step hC h9 (mulMode _) hk hz (hn.trans (by linarith))
    simpa using this

/-- A real decay with `h lam = -5` and `CK5`: amplified. -/
example : ∃ k y', IsRKStep (CK5.tab ℝ) (fun _ (y : ℂ) => (-5 : ℂ) * y) 0 1 1 k y' ∧ 1 < ‖y'‖ := by
  obtain ⟨k, y', hk⟩ := stiffConsts_step (C := CK5_stiff) (by simp [stiffConsts]) (fun _ (y : ℂ) => (-5 : ℂ) * y) 0 1 1
  refine ⟨k, y', hk, ?_⟩
  have := C116_unstable_step_rational (C := CK5_stiff) (by simp [rationalStiff]) (mulMode (-5)) hk
    ⟨by simp, by norm_num [CK5_stiff]⟩ (by norm_num [CK5_stiff]) (by simp)
  simpa using this

/-- A complete run of `BS5` on a damped oscillation, with `max_step = 1`, to `t_bound = 100`. -/
example : ∃ w : Solver ℝ ℂ ℂ, w.st.t = 100 ∧ Reach (easyCfg (rkMethod (BS5.tab ℝ) (fun _ y => ⟨-1, 2⟩ * y) (fun _ _ _ => .num 0) PreTest.none) 0 100 1)
    (newSolver (easyCfg (rkMethod (BS5.tab ℝ) (fun _ y => ⟨-1, 2⟩ * y) (fun _ _ _ => .num 0) PreTest.none) 0 100 1) 0 1 1 1 (fun _ => 0)) w ∧ ‖w.st.y‖ ≤ 1 := by
  obtain ⟨⟨w, hw, hwt⟩, -⟩ := full_run (c := easyCfg (rkMethod (BS5.tab ℝ) (fun _ (y : ℂ) => (⟨-1, 2⟩ : ℂ) * y) (fun _ _ _ => .num 0) PreTest.none) 0 100 1)
    (t0 := 0) (b := 100) (easyCfg_easy _ _ _ (fun _ _ _ => rfl) 0 100 one_pos) one_pos (direction_mul 0 100) (by norm_num) 1 1 (fun _ => 0)
  refine ⟨w, hwt, hw.reach, ?_⟩
  have hd : direction (0 : ℝ) 100 = 1 := by norm_num [direction]
  have := C116_stable_history (C := BS5_stiff) (by simp [stiffConsts]) (fun h => absurd (congrArg RKTable.s h) (by decide +kernel)) (mulMode (⟨-1, 2⟩ : ℂ))
    (easyCfg_ok _ 0 100 one_pos) rfl (H := 1) rfl ?_ ?_ ?_ hw.reach
  · simpa using this
  · show InSector _ ((direction (0 : ℝ) 100 : ℝ) * _)
    rw [hd, Complex.ofReal_one, one_mul]
    exact ⟨by norm_num, by norm_num [BS5_stiff]⟩
  · rw [one_mul, Complex.norm_def, Complex.normSq_apply]
    exact Real.sqrt_le_iff.mpr ⟨by norm_num [BS5_stiff], by norm_num [BS5_stiff]⟩
  · intro w' _ m hm
    cases hm
    show max (0 * _) ((1 : ℝ) / 2) ≤ 1
    rw [zero_mul]
    norm_num

end Extensisq
