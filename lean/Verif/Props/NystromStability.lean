import Verif.Lemmas.NyCert1
import Verif.Lemmas.NyCert2
import Verif.Lemmas.NyCert3
import Verif.Model.StiffWarn
import Verif.Props.NystromConvergence

/-!
# C117: the constants of the stiffness test of the Nystrom methods

`stbre`, `stbim` and `tanang` bound the roots of the first-order form, times the step size, for which the method is used without a warning. Here they are compared
with the actual stability of the methods.
-/

set_option linter.unusedSectionVars false

namespace Extensisq
open Finset

/-! ## Specification -/

/-- `l` is a (complex) component of `u'' = acc(t, u, u')` with the roots `r₁` and `r₂`: exact solutions are combinations of `exp(r₁ t)` and `exp(r₂ t)`. -/
def IsNyMode {X : Type*} [AddCommGroup X] [Module ℝ X] (acc : ℝ → X × X → X) (l : X →ₗ[ℝ] ℂ) (r₁ r₂ : ℂ) : Prop :=
  ∀ t u v, l (acc t (u, v)) = (r₁ + r₂) * l v - r₁ * r₂ * l u

/-- The sequence of states of consecutive steps of size `h`. -/
def EqualSteps {X : Type*} [AddCommGroup X] [Module ℝ X] (T : NTableau ℝ) (acc : ℝ → X × X → X) (h : ℝ) (t : ℕ → ℝ) (y : ℕ → X × X) : Prop :=
  ∀ n, ∃ k, IsNyStep T acc (t n) (y n) h k (y (n + 1))

/-- Both the position and the velocity of the component tend to zero. -/
def Decays {X : Type*} [AddCommGroup X] [Module ℝ X] (l : X →ₗ[ℝ] ℂ) (y : ℕ → X × X) : Prop :=
  Filter.Tendsto (fun n => l (y n).1) Filter.atTop (nhds 0) ∧ Filter.Tendsto (fun n => l (y n).2) Filter.atTop (nhds 0)

/-- The methods with such constants. -/
def nyStiffConsts : List NyStiffConst := [Fi4N_stiff, Fi5N_stiff, Mu5Nmb_stiff]

/-- The fraction of `stbim` up to which the rectangle is in the stability region (the code uses 0.9). -/
def NyStiffConst.part (C : NyStiffConst) : ℚ := if C.R.s = 5 then 89 / 100 else 6 / 10

/-- The conditions of Schur and Cohn for the map of one step (both eigenvalues are inside the unit circle). -/
def NyPos (R : NyTable) (a b : ℝ) : Prop := 0 < ev2 (nyJ1 R varA varB) a b ∧ 0 < ev2 (nyJ2 R varA varB) a b ∧ 0 < ev2 (nyJ3 R varA varB) a b

/-! ## One step on a mode -/

section
variable {X : Type*} [AddCommGroup X] [Module ℝ X]

/-- The map of `(u, h u')`. -/
theorem ny_component {R : NyTable} {acc : ℝ → X × X → X} {l : X →ₗ[ℝ] ℂ} {r₁ r₂ : ℂ} (hl : IsNyMode acc l r₁ r₂) {t h : ℝ} {y y' : X × X} {k : ℕ → X}
    (hk : IsNyStep (R.tab ℝ) acc t y h k y') {a b : ℝ} (ha : (a : ℂ) = -((h * r₁) * (h * r₂))) (hb : (b : ℂ) = h * r₁ + h * r₂) :
    l y'.1 = ((ev2 (nyM11 R varA varB) a b : ℝ) : ℂ) * l y.1 + ((ev2 (nyM12 R varA varB) a b : ℝ) : ℂ) * (h * l y.2) ∧
    h * l y'.2 = ((ev2 (nyM21 R varA varB) a b : ℝ) : ℂ) * l y.1 + ((ev2 (nyM22 R varA varB) a b : ℝ) : ℂ) * (h * l y.2) := by
  have ha : ((ev2 varA a b : ℝ) : ℂ) = -((h * r₁) * (h * r₂)) := by rw [← ha]; simp [varA, ev2, evP]
  have hb : ((ev2 varB a b : ℝ) : ℂ) = h * r₁ + h * r₂ := by rw [← hb]; simp [varB, ev2, evP]
  have hs : ∀ (n : ℕ) (w : ℕ → ℝ), l (∑ j ∈ range n, w j • k j) = ∑ j ∈ range n, (w j : ℂ) * l (k j) := by
    intro n w
    rw [map_sum]
    simp [map_smul]
  have hp : ∀ (n : ℕ) (w : ℕ → ℝ), (h : ℂ) ^ 2 * ∑ j ∈ range n, (w j : ℂ) * l (k j) = ∑ j ∈ range n, (w j : ℂ) * ((h : ℂ) ^ 2 * l (k j)) := by
    intro n w
    rw [mul_sum]
    exact sum_congr rfl fun j _ => by ring
  have hsm : ∀ (r : ℝ) (v : X), l (r • v) = (r : ℂ) * l v := fun r v => by simp [map_smul]
  have := ny_scalar (R := R) (u := l y.1) (w := h * l y.2) (k := fun i => (h : ℂ) ^ 2 * l (k i)) ha hb ?_
  · obtain ⟨h1, h2⟩ := this
    rw [← h1, ← h2]
    constructor
    · rw [hk.pos, map_add, map_add, hsm, hsm, hs, ← hp]
      push_cast
      rfl
    · rw [hk.vel, map_add, hsm, hs, ← hp]
      show _ = _ + (h : ℂ) ^ 2 * ∑ j ∈ range R.s, (((R.tab ℝ).Bp j : ℝ) : ℂ) * l (k j)
      show (h : ℂ) * (l y.2 + h * ∑ j ∈ range R.s, (((R.tab ℝ).Bp j : ℝ) : ℂ) * l (k j)) = _
      ring
  · intro i hi
    rw [hk.stage i hi, hl, map_add, map_add, map_add, hsm, hsm, hsm, hs, hs, ← hp, ← hp]
    push_cast
    ring

/-- Equal steps decay, if the three conditions hold. -/
theorem ny_steps_decay {R : NyTable} {acc : ℝ → X × X → X} {l : X →ₗ[ℝ] ℂ} {r₁ r₂ : ℂ} (hl : IsNyMode acc l r₁ r₂) {h : ℝ} (hh : h ≠ 0) {t : ℕ → ℝ} {y : ℕ → X × X}
    (hy : EqualSteps (R.tab ℝ) acc h t y) {a b : ℝ} (ha : (a : ℂ) = -((h * r₁) * (h * r₂))) (hb : (b : ℂ) = h * r₁ + h * r₂) (hp : NyPos R a b) : Decays l y := by
  have hc : (h : ℂ) ≠ 0 := by exact_mod_cast hh
  obtain ⟨d1, d2⟩ := ny_decay (R := R) (a := varA) (b := varB) hp.1 hp.2.1 hp.2.2 (u := fun n => l (y n).1) (w := fun n => h * l (y n).2)
    (fun n => by obtain ⟨k, hk⟩ := hy n; exact (ny_component hl hk ha hb).1) (fun n => by obtain ⟨k, hk⟩ := hy n; exact (ny_component hl hk ha hb).2)
  refine ⟨d1, ?_⟩
  have := d2.const_mul ((h : ℂ)⁻¹)
  rw [mul_zero] at this
  refine this.congr fun n => ?_
  field_simp

end

/-! ## The charts -/

theorem evRa (x c : ℝ) : ev2 (cast2 [[], [], [0, -1]]) x c = -(x ^ 2 * c) := by simp [cast2, castP, ev2, evP]; ring
theorem evRb (x c : ℝ) : ev2 (cast2 [[], [-1, -1]]) x c = -(x * (1 + c)) := by simp [cast2, castP, ev2, evP]; ring
theorem evAa (x c : ℝ) : ev2 (cast2 [[], [], [-1, 0, -1]]) x c = -(x ^ 2 * (1 + c ^ 2)) := by simp [cast2, castP, ev2, evP]; ring
theorem evAb (x c : ℝ) : ev2 (cast2 [[], [-2]]) x c = -2 * x := by simp [cast2, castP, ev2, evP]; ring
theorem evBa (x c : ℝ) : ev2 (cast2 [[0, 0, -1], [], [-1]]) x c = -(x ^ 2 + c ^ 2) := by simp [cast2, castP, ev2, evP]; ring

theorem part_vals : Fi4N_stiff.part = 89 / 100 ∧ Fi5N_stiff.part = 6 / 10 ∧ Mu5Nmb_stiff.part = 6 / 10 := by decide +kernel

theorem chart_real {C : NyStiffConst} (hC : C ∈ nyStiffConsts) {x c : ℝ} (x0 : 0 < x) (x1 : x ≤ 85 / 100 * C.stbre) (c0 : 0 < c) (c1 : c ≤ 1) : NyPos C.R (-(x ^ 2 * c)) (-(x * (1 + c))) := by
  obtain ⟨p1, p2, p3⟩ := part_vals
  simp only [nyStiffConsts, List.mem_cons, List.not_mem_nil, or_false] at hC
  rw [← evRa x c, ← evRb x c]
  rcases hC with rfl | rfl | rfl
  · simp only [Fi4N_stiff] at x1
    push_cast at x1
    refine j_sound Fi4N_nyTr Fi4N_nyDet (posChart_sound Fi4N_nyR1 ?_ ?_ x0 (Or.inl c0)) (posChart_sound Fi4N_nyR2 ?_ ?_ x0 (Or.inl c0)) (posChart_sound Fi4N_nyR3 ?_ ?_ x0 (Or.inl c0))
    all_goals simp only [Iv.Mem]; push_cast; constructor <;> linarith
  · simp only [Fi5N_stiff] at x1
    push_cast at x1
    refine j_sound Fi5N_nyTr Fi5N_nyDet (posChart_sound Fi5N_nyR1 ?_ ?_ x0 (Or.inl c0)) (posChart_sound Fi5N_nyR2 ?_ ?_ x0 (Or.inl c0)) (posChart_sound Fi5N_nyR3 ?_ ?_ x0 (Or.inl c0))
    all_goals simp only [Iv.Mem]; push_cast; constructor <;> linarith
  · simp only [Mu5Nmb_stiff] at x1
    push_cast at x1
    refine j_sound Mu5Nmb_nyTr Mu5Nmb_nyDet (posChart_sound Mu5Nmb_nyR1 ?_ ?_ x0 (Or.inl c0)) (posChart_sound Mu5Nmb_nyR2 ?_ ?_ x0 (Or.inl c0)) (posChart_sound Mu5Nmb_nyR3 ?_ ?_ x0 (Or.inl c0))
    all_goals simp only [Iv.Mem]; push_cast; constructor <;> linarith

theorem chart_low {C : NyStiffConst} (hC : C ∈ nyStiffConsts) {x c : ℝ} (x0 : 0 < x) (x1 : x * C.tanang ≤ C.part * C.stbim) (c0 : 0 ≤ c) (c1 : c ≤ C.tanang) : NyPos C.R (-(x ^ 2 * (1 + c ^ 2))) (-2 * x) := by
  obtain ⟨p1, p2, p3⟩ := part_vals
  simp only [nyStiffConsts, List.mem_cons, List.not_mem_nil, or_false] at hC
  rw [← evAa x c, ← evAb x c]
  rcases hC with rfl | rfl | rfl
  · rw [p1] at x1
    simp only [Fi4N_stiff] at x1 c1
    push_cast at x1 c1
    refine j_sound Fi4N_nyTr Fi4N_nyDet (posChart_sound Fi4N_nyA1 ?_ ?_ x0 (Or.inr rfl)) (posChart_sound Fi4N_nyA2 ?_ ?_ x0 (Or.inr rfl)) (posChart_sound Fi4N_nyA3 ?_ ?_ x0 (Or.inr rfl))
    all_goals simp only [Iv.Mem]; push_cast; constructor <;> linarith
  · rw [p2] at x1
    simp only [Fi5N_stiff] at x1 c1
    push_cast at x1 c1
    refine j_sound Fi5N_nyTr Fi5N_nyDet (posChart_sound Fi5N_nyA1 ?_ ?_ x0 (Or.inr rfl)) (posChart_sound Fi5N_nyA2 ?_ ?_ x0 (Or.inr rfl)) (posChart_sound Fi5N_nyA3 ?_ ?_ x0 (Or.inr rfl))
    all_goals simp only [Iv.Mem]; push_cast; constructor <;> linarith
  · rw [p3] at x1
    simp only [Mu5Nmb_stiff] at x1 c1
    push_cast at x1 c1
    refine j_sound Mu5Nmb_nyTr Mu5Nmb_nyDet (posChart_sound Mu5Nmb_nyA1 ?_ ?_ x0 (Or.inr rfl)) (posChart_sound Mu5Nmb_nyA2 ?_ ?_ x0 (Or.inr rfl)) (posChart_sound Mu5Nmb_nyA3 ?_ ?_ x0 (Or.inr rfl))
    all_goals simp only [Iv.Mem]; push_cast; constructor <;> linarith

theorem chart_high {C : NyStiffConst} (hC : C ∈ nyStiffConsts) {x c : ℝ} (x1 : C.part * C.stbim ≤ x * C.tanang) (x2 : x ≤ 85 / 100 * C.stbre) (c0 : 0 ≤ c) (c1 : c ≤ C.part * C.stbim) : NyPos C.R (-(x ^ 2 + c ^ 2)) (-2 * x) := by
  obtain ⟨p1, p2, p3⟩ := part_vals
  simp only [nyStiffConsts, List.mem_cons, List.not_mem_nil, or_false] at hC
  rw [← evBa x c, ← evAb x c]
  rcases hC with rfl | rfl | rfl
  · rw [p1] at x1 c1
    simp only [Fi4N_stiff] at x1 x2 c1
    push_cast at x1 x2 c1
    have x0 : 0 < x := by linarith
    refine j_sound Fi4N_nyTr Fi4N_nyDet (posChart_sound Fi4N_nyB1 ?_ ?_ x0 (Or.inr rfl)) (posChart_sound Fi4N_nyB2 ?_ ?_ x0 (Or.inr rfl)) (posChart_sound Fi4N_nyB3 ?_ ?_ x0 (Or.inr rfl))
    all_goals simp only [Iv.Mem]; push_cast; constructor <;> linarith
  · rw [p2] at x1 c1
    simp only [Fi5N_stiff] at x1 x2 c1
    push_cast at x1 x2 c1
    have x0 : 0 < x := by linarith
    refine j_sound Fi5N_nyTr Fi5N_nyDet (posChart_sound Fi5N_nyB1 ?_ ?_ x0 (Or.inr rfl)) (posChart_sound Fi5N_nyB2 ?_ ?_ x0 (Or.inr rfl)) (posChart_sound Fi5N_nyB3 ?_ ?_ x0 (Or.inr rfl))
    all_goals simp only [Iv.Mem]; push_cast; constructor <;> linarith
  · rw [p3] at x1 c1
    simp only [Mu5Nmb_stiff] at x1 x2 c1
    push_cast at x1 x2 c1
    have x0 : 0 < x := by linarith
    refine j_sound Mu5Nmb_nyTr Mu5Nmb_nyDet (posChart_sound Mu5Nmb_nyB1 ?_ ?_ x0 (Or.inr rfl)) (posChart_sound Mu5Nmb_nyB2 ?_ ?_ x0 (Or.inr rfl)) (posChart_sound Mu5Nmb_nyB3 ?_ ?_ x0 (Or.inr rfl))
    all_goals simp only [Iv.Mem]; push_cast; constructor <;> linarith

/-! ## Stability -/

section
variable {X : Type*} [AddCommGroup X] [Module ℝ X]

/-- **C117**. Two real negative roots, of size up to `0.85 stbre` times the step size: equal steps damp the component to zero. -/
theorem C117_real_roots_decay {C : NyStiffConst} (hC : C ∈ nyStiffConsts) {acc : ℝ → X × X → X} {l : X →ₗ[ℝ] ℂ} {r₁ r₂ : ℝ} (hl : IsNyMode acc l r₁ r₂) {h : ℝ}
    {t : ℕ → ℝ} {y : ℕ → X × X} (hy : EqualSteps (C.R.tab ℝ) acc h t y) (n1 : h * r₁ < 0) (n2 : h * r₂ < 0)
    (b1 : |h * r₁| ≤ 85 / 100 * (C.stbre : ℝ)) (b2 : |h * r₂| ≤ 85 / 100 * (C.stbre : ℝ)) : Decays l y := by
  have hh : h ≠ 0 := by rintro rfl; simp at n1
  have key : ∀ {p q : ℝ}, IsNyMode acc l p q → h * p < 0 → h * q < 0 → |h * p| ≤ 85 / 100 * (C.stbre : ℝ) → |h * q| ≤ |h * p| → Decays l y := by
    intro p q hl np nq bp bq
    rw [abs_of_neg np] at bp bq
    rw [abs_of_neg nq] at bq
    have hx : 0 < -(h * p) := by linarith
    have hp := chart_real hC (x := -(h * p)) (c := h * q / (h * p)) hx bp (div_pos_of_neg_of_neg nq np) (by
      rw [div_le_one_of_neg np]
      linarith)
    refine ny_steps_decay hl hh hy ?_ ?_ hp
    · rw [show (-((h : ℂ) * p * (h * q))) = ((-(h * p * (h * q)) : ℝ) : ℂ) by push_cast; ring]
      congr 1
      have := np.ne
      have h1 : h * q / (h * p) * (h * p) = h * q := div_mul_cancel₀ _ this
      linear_combination (-(h * p)) * h1
    · rw [show ((h : ℂ) * p + h * q) = ((h * p + h * q : ℝ) : ℂ) by push_cast; ring]
      congr 1
      have := np.ne
      have h1 : h * q / (h * p) * (h * p) = h * q := div_mul_cancel₀ _ this
      linear_combination h1
  rcases le_total |h * r₂| |h * r₁| with hle | hle
  · exact key hl n1 n2 b1 hle
  · refine key (p := r₂) (q := r₁) (fun t u v => ?_) n2 n1 b2 hle
    rw [hl t u v]
    ring

/-- **C117**. A pair of complex roots in the left half plane with `|Im| <= tanang |Re|`, the real parts up to `0.85 stbre` and the imaginary parts up to
`0.89 stbim` (`Fi4N`) or `0.6 stbim` (the others), times the step size: equal steps damp the component to zero. -/
theorem C117_complex_roots_decay {C : NyStiffConst} (hC : C ∈ nyStiffConsts) {acc : ℝ → X × X → X} {l : X →ₗ[ℝ] ℂ} {r : ℂ} (hl : IsNyMode acc l r (starRingEnd ℂ r)) {h : ℝ}
    {t : ℕ → ℝ} {y : ℕ → X × X} (hy : EqualSteps (C.R.tab ℝ) acc h t y) (hn : h * r.re < 0) (ht : |r.im| ≤ C.tanang * |r.re|)
    (b1 : |h * r.re| ≤ 85 / 100 * (C.stbre : ℝ)) (b2 : |h * r.im| ≤ C.part * (C.stbim : ℝ)) : Decays l y := by
  have hh : h ≠ 0 := by rintro rfl; simp at hn
  set x := -(h * r.re) with hx
  set w := |h * r.im| with hw
  have x0 : 0 < x := by linarith
  rw [abs_of_neg hn] at b1
  have hw2 : w ^ 2 = (h * r.im) ^ 2 := sq_abs _
  have hsector : w ≤ C.tanang * x := by
    have := mul_le_mul_of_nonneg_left ht (abs_nonneg h)
    rw [← abs_mul] at this
    refine this.trans (le_of_eq ?_)
    rw [hx, ← abs_of_neg hn, abs_mul]
    ring
  have ea : -((h : ℂ) * r * (h * (starRingEnd ℂ) r)) = ((-(x ^ 2 + w ^ 2) : ℝ) : ℂ) := by
    rw [hw2, hx]
    have : r * (starRingEnd ℂ) r = ((r.re ^ 2 + r.im ^ 2 : ℝ) : ℂ) := by
      rw [Complex.mul_conj, Complex.normSq_apply]
      push_cast
      ring
    rw [show -((h : ℂ) * r * (h * (starRingEnd ℂ) r)) = -((h : ℂ) ^ 2 * (r * (starRingEnd ℂ) r)) by ring, this]
    push_cast
    ring
  have eb : (h : ℂ) * r + h * (starRingEnd ℂ) r = ((-2 * x : ℝ) : ℂ) := by
    rw [← mul_add, Complex.add_conj, hx]
    push_cast
    ring
  rcases le_total (x * C.tanang) (C.part * C.stbim) with hc | hc
  · have hp := chart_low hC (c := w / x) x0 hc (div_nonneg (abs_nonneg _) x0.le) (by rw [div_le_iff₀ x0]; exact hsector)
    refine ny_steps_decay hl hh hy ?_ eb.symm hp
    rw [ea]
    congr 1
    have h1 : w / x * x = w := div_mul_cancel₀ _ x0.ne'
    linear_combination (-(w / x * x + w)) * h1
  · exact ny_steps_decay hl hh hy ea.symm eb.symm (chart_high hC hc b1 (abs_nonneg _) b2)

end

/-! ## The verdict -/

section
variable {X : Type*} [AddCommGroup X] [Module ℝ X]

/-- **C117**. If the dominant roots found by the test are the (real, negative) roots of the component and the verdict is "not stiff", then equal steps of the average
step size damp the component to zero. -/
theorem C117_verdict_real_pair {C : NyStiffConst} (hC : C ∈ nyStiffConsts) {acc : ℝ → X × X → X} {l : X →ₗ[ℝ] ℂ} {r₁ r₂ : ℝ} (hl : IsNyMode acc l r₁ r₂) {o : StiffOut}
    {rho havg : ℝ} (ho : o.roots = some ((havg * r₁, 0), (havg * r₂, 0), rho)) (hv : nyAssessRoots C.tanang C.stbre C.stbim o = some false)
    (n1 : havg * r₁ < 0) (n2 : havg * r₂ < 0) (hle : |havg * r₂| ≤ |havg * r₁|)
    {t : ℕ → ℝ} {y : ℕ → X × X} (hy : EqualSteps (C.R.tab ℝ) acc havg t y) : Decays l y := by
  unfold nyAssessRoots at hv
  rw [ho] at hv
  dsimp only at hv
  rw [if_neg (not_lt.mpr n1.le), if_neg (fun h => absurd h.2 (not_lt.mpr n2.le))] at hv
  split_ifs at hv with hc
  simp only [Option.some.injEq, decide_eq_false_iff_not, not_or, not_le] at hv
  have h1 : |havg * r₁| ≤ 85 / 100 * (C.stbre : ℝ) := by linarith [hv.1]
  exact C117_real_roots_decay hC hl hy n1 n2 h1 (hle.trans h1)

/-- **C117**. For a complex pair the verdict "not stiff" is reliable if the imaginary part is at most `0.89 stbim` (`Fi4N`) or `0.6 stbim`; for larger imaginary parts see
`C117_rectangle_exceeds`. -/
theorem C117_verdict_complex_pair {C : NyStiffConst} (hC : C ∈ nyStiffConsts) {acc : ℝ → X × X → X} {l : X →ₗ[ℝ] ℂ} {r : ℂ} (hl : IsNyMode acc l r (starRingEnd ℂ r))
    {o : StiffOut} {rho havg : ℝ} (ho : o.roots = some ((havg * r.re, havg * r.im), (havg * r.re, -(havg * r.im)), rho)) (hh : 0 < havg)
    (hv : nyAssessRoots C.tanang C.stbre C.stbim o = some false) (hn : havg * r.re < 0) (hi : |havg * r.im| ≤ C.part * (C.stbim : ℝ))
    {t : ℕ → ℝ} {y : ℕ → X × X} (hy : EqualSteps (C.R.tab ℝ) acc havg t y) : Decays l y := by
  unfold nyAssessRoots at hv
  rw [ho] at hv
  dsimp only at hv
  rw [if_neg (not_lt.mpr hn.le), if_neg (fun h => absurd h.2 (not_lt.mpr hn.le))] at hv
  split_ifs at hv with hc
  simp only [Option.some.injEq, decide_eq_false_iff_not, not_or, not_le] at hv
  refine C117_complex_roots_decay hC hl hy hn ?_ (by linarith [hv.1]) hi
  have hc := not_lt.mp hc
  rw [abs_mul, abs_mul, abs_of_pos hh] at hc
  refine le_of_mul_le_mul_left (?_ : havg * |r.im| ≤ havg * _) hh
  linarith

end

/-! ## Where the constants are too large -/

/-- The linear oscillator `u'' = α u + β u'`. -/
def linAcc (α β : ℝ) : ℝ → ℝ × ℝ → ℝ := fun _ p => α * p.1 + β * p.2

theorem linAcc_mode {α β : ℝ} {r₁ r₂ : ℂ} (ha : (α : ℂ) = -(r₁ * r₂)) (hb : (β : ℂ) = r₁ + r₂) : IsNyMode (linAcc α β) Complex.ofRealCLM.toLinearMap r₁ r₂ := by
  intro t u v
  show ((α * u + β * v : ℝ) : ℂ) = (r₁ + r₂) * (v : ℂ) - r₁ * r₂ * (u : ℂ)
  push_cast
  rw [ha, hb]
  ring

/-- There is an initial state for which equal unit steps grow without bound. -/
def UnitStepsGrow (R : NyTable) (α β : ℝ) : Prop :=
  ∃ y0 : ℝ × ℝ, ∀ (t : ℕ → ℝ) (y : ℕ → ℝ × ℝ), EqualSteps (R.tab ℝ) (linAcc α β) 1 t y → y 0 = y0 → Filter.Tendsto (fun n => |(y n).1|) Filter.atTop Filter.atTop

/-- The check at a rational point. -/
def growsQ (R : NyTable) (α β σ : ℚ) : Bool :=
  (decide (σ = 1) || decide (σ = -1)) && decide (ev2 (nyM12 R varA varB) α β ≠ 0) &&
    decide (1 - σ * (ev2 (nyM11 R varA varB) α β + ev2 (nyM22 R varA varB) α β) +
      (ev2 (nyM11 R varA varB) α β * ev2 (nyM22 R varA varB) α β - ev2 (nyM12 R varA varB) α β * ev2 (nyM21 R varA varB) α β) < 0)

theorem grows_of_check {R : NyTable} {α β σ : ℚ} (h : growsQ R α β σ = true) {r₁ r₂ : ℂ} (ha : (α : ℂ) = -(r₁ * r₂)) (hb : (β : ℂ) = r₁ + r₂) : UnitStepsGrow R α β := by
  simp only [growsQ, Bool.and_eq_true, Bool.or_eq_true, decide_eq_true_eq] at h
  obtain ⟨⟨hσ, h12⟩, h3⟩ := h
  have h3' := (Rat.cast_lt (K := ℝ)).mpr h3
  push_cast at h3'
  simp only [ev2_cast] at h3'
  have h12' : ev2 (nyM12 R varA varB) (α : ℝ) (β : ℝ) ≠ 0 := by
    rw [← ev2_cast]
    exact_mod_cast h12
  have hσ' : (σ : ℝ) = 1 ∨ (σ : ℝ) = -1 := by
    rcases hσ with h | h
    · left; rw [h]; norm_num
    · right; rw [h]; norm_num
  obtain ⟨μ, u, w, hu, hμ, e1, e2⟩ := schur_cohn_fails h12' hσ' h3'
  refine ⟨(u, w), fun t y hy h0 => ?_⟩
  have hl : IsNyMode (linAcc α β) Complex.ofRealCLM.toLinearMap r₁ r₂ := linAcc_mode (by exact_mod_cast ha) (by exact_mod_cast hb)
  have key : ∀ n, y n = (μ ^ n * u, μ ^ n * w) := by
    intro n
    induction n with
    | zero => rw [h0]; simp
    | succ n ih =>
      obtain ⟨k, hk⟩ := hy n
      obtain ⟨c1, c2⟩ := ny_component hl hk (a := α) (b := β) (by rw [Complex.ofReal_one, one_mul, one_mul]; exact_mod_cast ha)
        (by rw [Complex.ofReal_one, one_mul, one_mul]; exact_mod_cast hb)
      rw [ih] at c1 c2
      rw [Complex.ofReal_one, one_mul, one_mul] at c2
      rw [Complex.ofReal_one, one_mul] at c1
      have c1' : (((y (n + 1)).1 : ℝ) : ℂ) = ((ev2 (nyM11 R varA varB) (α : ℝ) (β : ℝ) * (μ ^ n * u) + ev2 (nyM12 R varA varB) (α : ℝ) (β : ℝ) * (μ ^ n * w) : ℝ) : ℂ) := by
        push_cast
        simpa using c1
      have c2' : (((y (n + 1)).2 : ℝ) : ℂ) = ((ev2 (nyM21 R varA varB) (α : ℝ) (β : ℝ) * (μ ^ n * u) + ev2 (nyM22 R varA varB) (α : ℝ) (β : ℝ) * (μ ^ n * w) : ℝ) : ℂ) := by
        push_cast
        simpa using c2
      have d1 := Complex.ofReal_injective c1'
      have d2 := Complex.ofReal_injective c2'
      refine Prod.ext ?_ ?_
      · rw [d1]
        show _ = μ ^ (n + 1) * u
        rw [pow_succ]
        linear_combination μ ^ n * e1
      · rw [d2]
        show _ = μ ^ (n + 1) * w
        rw [pow_succ]
        linear_combination μ ^ n * e2
  have h1 : ∀ n, |(y n).1| = |μ| ^ n * |u| := by
    intro n
    rw [key n, abs_mul, abs_pow]
  simp only [h1]
  exact (tendsto_pow_atTop_atTop_of_one_lt hμ).atTop_mul_const (abs_pos.mpr hu)

/-- A point of the rectangle for each method. -/
def badPoint (C : NyStiffConst) : ℚ × ℚ × ℚ :=
  if C.tanang = 40 then (1274 / 1000, 3599 / 1000, 1) else if C.tanang = 15 then (16 / 10, 35 / 10, -1) else (24 / 10, 42 / 10, 1)

theorem badPoint_ok : ∀ C ∈ nyStiffConsts, 0 < (badPoint C).1 ∧ (badPoint C).1 < 17 / 20 * C.stbre ∧ 0 < (badPoint C).2.1 ∧ (badPoint C).2.1 < 9 / 10 * C.stbim ∧
    (badPoint C).2.1 ≤ (badPoint C).1 * C.tanang ∧ growsQ C.R (-((badPoint C).1 ^ 2 + (badPoint C).2.1 ^ 2)) (-2 * (badPoint C).1) (badPoint C).2.2 = true := by
  decide +kernel

/-- **C117**. The rectangle of the test (`0.85 stbre` by `0.9 stbim`) is not inside the stability region: for each of the methods there is a damped oscillation `r`, `conj r`
for which the test of unit steps says "not stiff", although the unit steps grow without bound. -/
theorem C117_rectangle_exceeds {C : NyStiffConst} (hC : C ∈ nyStiffConsts) : ∃ r : ℂ, r.re < 0 ∧
    nyAssessRoots C.tanang C.stbre C.stbim ⟨some true, some false, some ((r.re, r.im), (r.re, -r.im), ‖r‖)⟩ = some false ∧
    UnitStepsGrow C.R (-(r.re ^ 2 + r.im ^ 2)) (2 * r.re) := by
  obtain ⟨b1, b2, b3, b4, b5, b6⟩ := badPoint_ok C hC
  generalize badPoint C = q at *
  obtain ⟨x, w, σ⟩ := q
  dsimp only at b1 b2 b3 b4 b5 b6
  have c1 : (0 : ℝ) < x := by exact_mod_cast b1
  have c2 : (x : ℝ) < 17 / 20 * C.stbre := by
    have := (Rat.cast_lt (K := ℝ)).mpr b2
    push_cast at this
    exact this
  have c3 : (0 : ℝ) < w := by exact_mod_cast b3
  have c4 : (w : ℝ) < 9 / 10 * C.stbim := by
    have := (Rat.cast_lt (K := ℝ)).mpr b4
    push_cast at this
    exact this
  have c5 : (w : ℝ) ≤ x * C.tanang := by exact_mod_cast b5
  refine ⟨⟨-x, w⟩, by show -(x : ℝ) < 0; linarith, ?_, ?_⟩
  · unfold nyAssessRoots
    dsimp only
    have hx : |(-(x : ℝ))| = x := by rw [abs_neg, abs_of_pos c1]
    rw [if_neg (by linarith), if_neg (fun h => by linarith [h.2]), hx, abs_of_pos c3, if_neg (not_lt.mpr c5)]
    simp only [Option.some.injEq, decide_eq_false_iff_not, not_or, not_le]
    exact ⟨c2, c4⟩
  · have := grows_of_check b6 (r₁ := ⟨-x, w⟩) (r₂ := ⟨-x, -w⟩) ?_ ?_
    · push_cast at this
      convert this using 1
      · show -((-(x : ℝ)) ^ 2 + (w : ℝ) ^ 2) = _
        ring
      · show 2 * (-(x : ℝ)) = _
        ring
    · have e1 : (⟨-(x : ℝ), (w : ℝ)⟩ : ℂ) = -(x : ℂ) + w * Complex.I := by apply Complex.ext <;> simp
      have e2 : (⟨-(x : ℝ), -(w : ℝ)⟩ : ℂ) = -(x : ℂ) - w * Complex.I := by apply Complex.ext <;> simp
      rw [e1, e2]
      push_cast
      linear_combination (-(w : ℂ) ^ 2) * Complex.I_mul_I
    · apply Complex.ext <;> simp <;> ring

/-- The condition that fails just outside the real interval. -/
def sharpSign (C : NyStiffConst) : ℚ := if C.tanang = 15 then 1 else -1

theorem sharp_ok : ∀ C ∈ nyStiffConsts, growsQ C.R (-((102 / 100 * C.stbre) ^ 2)) (-2 * (102 / 100 * C.stbre)) (sharpSign C) = true := by decide +kernel

/-- **C117**. `stbre` is sharp within two percent: for the double root `-1.02 stbre` (critical damping) unit steps grow. -/
theorem C117_real_sharp {C : NyStiffConst} (hC : C ∈ nyStiffConsts) : UnitStepsGrow C.R (-((102 / 100 * C.stbre) ^ 2 : ℝ)) (-2 * (102 / 100 * C.stbre) : ℝ) := by
  have := grows_of_check (sharp_ok C hC) (r₁ := -(102 / 100 * C.stbre)) (r₂ := -(102 / 100 * C.stbre)) (by push_cast; ring) (by push_cast; ring)
  push_cast at this
  exact this

/-! ## Concrete cases -/

theorem nyStiffConsts_start : ∀ C ∈ nyStiffConsts, C.R.C.getD 0 0 = 0 ∧ 0 < C.R.s := by decide +kernel

/-- Equal steps exist from every initial state. -/
theorem equalSteps_exists {X : Type*} [AddCommGroup X] [Module ℝ X] {C : NyStiffConst} (hC : C ∈ nyStiffConsts) (acc : ℝ → X × X → X) (h : ℝ) (t : ℕ → ℝ) (y0 : X × X) :
    ∃ y : ℕ → X × X, EqualSteps (C.R.tab ℝ) acc h t y ∧ y 0 = y0 := by
  obtain ⟨s1, s2⟩ := nyStiffConsts_start C hC
  have one : ∀ (t : ℝ) (y : X × X), ∃ y', ∃ k, IsNyStep (C.R.tab ℝ) acc t y h k y' := fun t y =>
    ⟨_, _, (nyTrial_isNyStep (C.R.tab ℝ) acc (fun _ _ _ => .num 0) t y h (fun _ => 0) (by show ((C.R.C.getD 0 0 : ℚ) : ℝ) = 0; rw [s1]; simp) s2).1⟩
  choose g hg using one
  exact ⟨fun n => Nat.rec y0 (fun m y => g (t m) y) n, fun n => hg _ _, rfl⟩

/-- Critical damping with unit steps: `u'' = -u - 2 u'`. -/
example {C : NyStiffConst} (hC : C ∈ nyStiffConsts) : ∃ y : ℕ → ℝ × ℝ, EqualSteps (C.R.tab ℝ) (linAcc (-1) (-2)) 1 (fun n => n) y ∧ y 0 = (1, 0) ∧
    Decays Complex.ofRealCLM.toLinearMap y := by
  obtain ⟨y, hy, h0⟩ := equalSteps_exists hC (linAcc (-1) (-2)) 1 (fun n => n) (1, 0)
  have key : ∀ C ∈ nyStiffConsts, (15 / 10 : ℚ) ≤ C.stbre := by decide +kernel
  have h1 : ((15 / 10 : ℚ) : ℝ) ≤ C.stbre := by exact_mod_cast key C hC
  push_cast at h1
  refine ⟨y, hy, h0, C117_real_roots_decay hC (r₁ := -1) (r₂ := -1) (linAcc_mode (by norm_num) (by norm_num)) hy (by norm_num) (by norm_num) ?_ ?_⟩ <;>
    norm_num <;> linarith

/-- A damped oscillation with the roots `-1 ± 2 i`. -/
example {C : NyStiffConst} (hC : C ∈ nyStiffConsts) : ∃ y : ℕ → ℝ × ℝ, EqualSteps (C.R.tab ℝ) (linAcc (-5) (-2)) 1 (fun n => n) y ∧ y 0 = (1, 0) ∧
    Decays Complex.ofRealCLM.toLinearMap y := by
  obtain ⟨y, hy, h0⟩ := equalSteps_exists hC (linAcc (-5) (-2)) 1 (fun n => n) (1, 0)
  have key : ∀ C ∈ nyStiffConsts, (15 / 10 : ℚ) ≤ C.stbre ∧ 2 ≤ C.tanang ∧ 2 ≤ C.part * C.stbim := by decide +kernel
  obtain ⟨k1, k2, k3⟩ := key C hC
  have h1 : ((15 / 10 : ℚ) : ℝ) ≤ C.stbre := by exact_mod_cast k1
  have h2 : (2 : ℝ) ≤ C.tanang := by exact_mod_cast k2
  have h3 : (2 : ℝ) ≤ C.part * C.stbim := by exact_mod_cast k3
  push_cast at h1
  refine ⟨y, hy, h0, C117_complex_roots_decay hC (r := ⟨-1, 2⟩) (linAcc_mode ?_ ?_) hy (by norm_num) ?_ ?_ ?_⟩
  · apply Complex.ext <;> simp <;> norm_num
  · apply Complex.ext <;> simp <;> norm_num
  · norm_num; linarith
  · norm_num; linarith
  · norm_num; linarith

/-- The growing steps exist. -/
example : ∃ y : ℕ → ℝ × ℝ, EqualSteps (Fi4N.tab ℝ) (linAcc (-((102 / 100 * Fi4N_stiff.stbre) ^ 2 : ℝ)) (-2 * (102 / 100 * Fi4N_stiff.stbre) : ℝ)) 1 (fun n => n) y ∧
    Filter.Tendsto (fun n => |(y n).1|) Filter.atTop Filter.atTop := by
  have hC : Fi4N_stiff ∈ nyStiffConsts := by simp [nyStiffConsts]
  obtain ⟨y0, h⟩ := C117_real_sharp hC
  obtain ⟨y, hy, h0⟩ := equalSteps_exists hC (linAcc (-((102 / 100 * Fi4N_stiff.stbre) ^ 2 : ℝ)) (-2 * (102 / 100 * Fi4N_stiff.stbre) : ℝ)) 1 (fun n => n) y0
  exact ⟨y, hy, h _ y hy h0⟩

end Extensisq
