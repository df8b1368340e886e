import Verif.Props.SwagConvergence
import Mathlib.Analysis.Calculus.Deriv.MeanValue

/-!
# Convergence of the dense output of SWAG (C105)
-/

set_option linter.unusedSectionVars false

namespace Extensisq
open Finset Polynomial

noncomputable section

/-! ## The dense output as an Adams formula -/

/-- The share of the correction at `s`. -/
def shareW (n : ℕ) (x : ℕ → ℝ) (t t' s : ℝ) : ℝ := inc (Lagrange.nodal (range n) x) t s / inc (Lagrange.nodal (range n) x) t t'

section
variable {V : Type*} [AddCommGroup V] [Module ℝ V]

theorem deriv_split {n : ℕ} {x F : ℕ → ℝ} (hinj : ∀ i < n, ∀ j < n, x i = x j → i = j) {q : ℝ[X]} (hq : q.natDegree ≤ n)
    (h : ∀ m < n, q.eval (x m) = F m) :
    ∃ a : ℝ, q = Lagrange.interpolate (range n) x F + C a * Lagrange.nodal (range n) x := by
  have hnod : (Lagrange.nodal (range n) x).natDegree = n := by rw [Lagrange.natDegree_nodal, card_range]
  refine ⟨q.coeff n, ?_⟩
  have hd : (q - C (q.coeff n) * Lagrange.nodal (range n) x).degree < #(range n) := by
    rw [card_range]
    rw [degree_lt_iff_coeff_zero]
    intro m hm
    rw [coeff_sub, coeff_C_mul]
    rcases hm.eq_or_lt with h1 | h1
    · rw [← h1]
      have : (Lagrange.nodal (range n) x).coeff n = 1 := by
        have := Lagrange.nodal_monic (s := range n) (v := x)
        rw [Monic, leadingCoeff, hnod] at this
        exact this
      rw [this, mul_one, sub_self]
    · have h2 : (Lagrange.nodal (range n) x).coeff m = 0 := coeff_eq_zero_of_natDegree_lt (by rw [hnod]; exact h1)
      rw [coeff_eq_zero_of_natDegree_lt (lt_of_le_of_lt hq h1), h2]
      simp
  have := Lagrange.eq_interpolate_of_eval_eq F (injOn_range hinj) hd fun i hi => by
    rw [eval_sub, eval_mul, Lagrange.eval_nodal_at_node hi, mul_zero, sub_zero]
    exact h i (by simpa using hi)
  rw [← this]
  ring

theorem adams_dense_formula {n : ℕ} {x : ℕ → ℝ} (hinj : ∀ i < n, ∀ j < n, x i = x j → i = j) {t t' s : ℝ}
    {y y' p : V} {F : ℕ → V}
    (h : ∀ f : V →ₗ[ℝ] ℝ, ∃ D : ℝ[X], D.natDegree ≤ n + 1 ∧ f p = D.eval s ∧ D.eval t = f y ∧ D.eval t' = f y' ∧
      ∀ m < n, (derivative D).eval (x m) = f (F m))
    (h0 : inc (Lagrange.nodal (range n) x) t t' ≠ 0) :
    p = y + ∑ i ∈ range n, adamsW n x t s i • F i +
      shareW n x t t' s • (y' - y - ∑ i ∈ range n, adamsW n x t t' i • F i) := by
  refine eq_of_functionals (K := ℝ) fun f => ?_
  obtain ⟨D, d1, d2, d3, d4, d5⟩ := h f
  obtain ⟨a, ha⟩ := deriv_split hinj (q := derivative D) ((natDegree_derivative_le D).trans (by omega)) d5
  have e1 := inc_of_deriv ha t s
  have e2 := inc_of_deriv ha t t'
  rw [inc_add, inc_C_mul, inc_interpolate] at e1 e2
  simp only [map_add, map_sub, map_sum, map_smul, smul_eq_mul]
  rw [d2, shareW]
  rw [d3] at e1 e2
  rw [d4] at e2
  have e3 : f y' - f y - ∑ i ∈ range n, adamsW n x t t' i * f (F i) = a * inc (Lagrange.nodal (range n) x) t t' := by linarith
  rw [e3]
  field_simp
  linarith

end

/-- The integral of the nodal polynomial over a step without nodes inside. -/
theorem nodal_share {n : ℕ} {x : ℕ → ℝ} {t t' : ℝ} (hne : t ≠ t') (hx : ∀ i < n, x i ∉ Set.Ioo (min t t') (max t t')) :
    inc (Lagrange.nodal (range n) x) t t' ≠ 0 ∧ ∀ s ∈ Set.uIcc t t', |shareW n x t t' s| ≤ 1 := by
  set w := Lagrange.nodal (range n) x with hw
  set a := min t t' with ha
  set b := max t t' with hb
  have hab : a < b := min_lt_max.mpr hne
  set m := (a + b) / 2 with hm
  have hmI : m ∈ Set.Ioo a b := ⟨by rw [hm]; linarith, by rw [hm]; linarith⟩
  have hpos : ∀ σ ∈ Set.Ioo a b, 0 < w.eval m * w.eval σ := by
    intro σ hσ
    rw [hw, Lagrange.eval_nodal, Lagrange.eval_nodal, ← prod_mul_distrib]
    refine prod_pos fun i hi => ?_
    have h1 := hx i (by simpa using hi)
    rw [Set.mem_Ioo, not_and_or, not_lt, not_lt] at h1
    rcases h1 with h1 | h1
    · exact mul_pos (by linarith [hmI.1]) (by linarith [hσ.1])
    · exact mul_pos_of_neg_of_neg (by linarith [hmI.2]) (by linarith [hσ.2])
  have hstrict : StrictMonoOn (fun σ => w.eval m * (pint w).eval σ) (Set.Icc a b) := by
    refine strictMonoOn_of_deriv_pos (convex_Icc a b) ?_ fun σ hσ => ?_
    · exact (continuous_const.mul (Polynomial.differentiable (pint w)).continuous).continuousOn
    · rw [interior_Icc] at hσ
      have h1 : HasDerivAt (fun σ => w.eval m * (pint w).eval σ) (w.eval m * w.eval σ) σ := by
        have := ((pint w).hasDerivAt σ).const_mul (w.eval m)
        rwa [derivative_pint] at this
      rw [h1.deriv]
      exact hpos σ hσ
  have hm0 : w.eval m ≠ 0 := fun h => by
    have := hpos m hmI
    rw [h, zero_mul] at this
    exact lt_irrefl _ this
  have hinc : ∀ s, w.eval m * inc w t s = w.eval m * (pint w).eval s - w.eval m * (pint w).eval t := fun s => by
    rw [inc]; ring
  have hcmp : ∀ s ∈ Set.uIcc t t', |w.eval m * inc w t s| ≤ |w.eval m * inc w t t'| ∧ w.eval m * inc w t t' ≠ 0 := by
    intro s hs
    rw [hinc, hinc]
    rcases lt_or_gt_of_ne hne with h | h
    · have e1 : a = t := min_eq_left h.le
      have e2 : b = t' := max_eq_right h.le
      rw [e1, e2] at hstrict
      rw [Set.uIcc_of_le h.le] at hs
      have l1 := hstrict.monotoneOn (Set.left_mem_Icc.mpr h.le) hs hs.1
      have l2 := hstrict.monotoneOn hs (Set.right_mem_Icc.mpr h.le) hs.2
      have l3 := hstrict (Set.left_mem_Icc.mpr h.le) (Set.right_mem_Icc.mpr h.le) h
      dsimp only at l1 l2 l3
      rw [abs_of_nonneg (by linarith), abs_of_nonneg (by linarith)]
      exact ⟨by linarith, by intro h; linarith⟩
    · have e1 : a = t' := min_eq_right h.le
      have e2 : b = t := max_eq_left h.le
      rw [e1, e2] at hstrict
      rw [Set.uIcc_of_ge h.le] at hs
      have l1 := hstrict.monotoneOn hs (Set.right_mem_Icc.mpr h.le) hs.2
      have l2 := hstrict.monotoneOn (Set.left_mem_Icc.mpr h.le) hs hs.1
      have l3 := hstrict (Set.left_mem_Icc.mpr h.le) (Set.right_mem_Icc.mpr h.le) h
      dsimp only at l1 l2 l3
      rw [abs_of_nonpos (by linarith), abs_of_nonpos (by linarith)]
      exact ⟨by linarith, by intro h; linarith⟩
  have h0 : inc w t t' ≠ 0 := fun h => (hcmp t Set.left_mem_uIcc).2 (by rw [h, mul_zero])
  refine ⟨h0, fun s hs => ?_⟩
  have h1 := (hcmp s hs).1
  rw [abs_mul, abs_mul] at h1
  rw [shareW, abs_div]
  exact (div_le_one (abs_pos.mpr h0)).mpr (le_of_mul_le_mul_left h1 (abs_pos.mpr hm0))

section
variable {E : Type*} [NormedAddCommGroup E] [NormedSpace ℝ E]

theorem dense_error {n : ℕ} {w w' : ℕ → ℝ} {F G : ℕ → E} {y y' p Y0 Y1 Ys : E} {th b L e d : ℝ} (he : 0 ≤ e) (hL : 0 ≤ L)
    (hth : |th| ≤ 1) (hp : p = y + ∑ i ∈ range n, w i • F i + th • (y' - y - ∑ i ∈ range n, w' i • F i))
    (hw : ∀ i < n, |w i| ≤ b) (hw' : ∀ i < n, |w' i| ≤ b) (hF : ∀ i < n, ‖F i - G i‖ ≤ L * e)
    (hy : ‖y - Y0‖ ≤ e) (hy' : ‖y' - Y1‖ ≤ e) (d1 : ‖Ys - Y0 - ∑ i ∈ range n, w i • G i‖ ≤ d)
    (d2 : ‖Y1 - Y0 - ∑ i ∈ range n, w' i • G i‖ ≤ d) :
    ‖p - Ys‖ ≤ e * (3 + 2 * (n * (b * L))) + 2 * d := by
  have s1 := sum_error (mul_nonneg hL he) hw hF
  have s2 := sum_error (mul_nonneg hL he) hw' hF
  have r : ‖y' - y - ∑ i ∈ range n, w' i • F i‖ ≤ e + e + n * (b * (L * e)) + d := by
    have e1 : y' - y - ∑ i ∈ range n, w' i • F i = (y' - Y1) - (y - Y0) -
        (∑ i ∈ range n, w' i • F i - ∑ i ∈ range n, w' i • G i) + (Y1 - Y0 - ∑ i ∈ range n, w' i • G i) := by abel
    rw [e1]
    exact (norm_add_le _ _).trans (add_le_add ((norm_sub_le _ _).trans (add_le_add ((norm_sub_le _ _).trans
      (add_le_add hy' hy)) s2)) d2)
  have e2 : p - Ys = (y - Y0) + (∑ i ∈ range n, w i • F i - ∑ i ∈ range n, w i • G i) -
      (Ys - Y0 - ∑ i ∈ range n, w i • G i) + th • (y' - y - ∑ i ∈ range n, w' i • F i) := by rw [hp]; abel
  have s3 : ‖th • (y' - y - ∑ i ∈ range n, w' i • F i)‖ ≤ e + e + n * (b * (L * e)) + d := by
    rw [norm_smul, Real.norm_eq_abs]
    refine (mul_le_mul hth r (norm_nonneg _) zero_le_one).trans (by rw [one_mul])
  rw [e2]
  refine (norm_add_le _ _).trans ((add_le_add ((norm_sub_le _ _).trans (add_le_add ((norm_add_le _ _).trans
    (add_le_add hy s1)) d1)) s3).trans (le_of_eq ?_))
  ring

/-- The defect, with the weights bounded. -/
theorem defect_le {n kM k : ℕ} {w : ℕ → ℝ} {M D h g : ℝ} (hM : 0 ≤ M) (hD : 0 ≤ D) (hk : k ≤ kM) (hn : n ≤ kM + 1) (hg : g ≤ h)
    (hh : 0 ≤ h) (hw : ∀ i < n, |w i| ≤ swB k * h) :
    M * D ^ n * (g + ∑ i ∈ range n, |w i|) ≤ swC0 kM M * h * D ^ n := by
  have hB0 := swB_pos kM
  have h1 : ∑ i ∈ range n, |w i| ≤ (kM + 1) * (swB kM * h) := by
    calc ∑ i ∈ range n, |w i| ≤ ∑ i ∈ range n, swB kM * h :=
          sum_le_sum fun i hi => (hw i (mem_range.mp hi)).trans (mul_le_mul_of_nonneg_right (swB_mono hk) hh)
      _ = n * (swB kM * h) := by rw [sum_const, card_range, nsmul_eq_mul]
      _ ≤ _ := mul_le_mul_of_nonneg_right (by exact_mod_cast hn) (by positivity)
  calc M * D ^ n * (g + ∑ i ∈ range n, |w i|)
      ≤ M * D ^ n * (h + (kM + 1) * (swB kM * h)) := mul_le_mul_of_nonneg_left (add_le_add hg h1) (by positivity)
    _ = _ := by unfold swC0; ring

/-- The error of the dense output of a regular step. -/
theorem regular_dense_error {f : ℝ → E → E} {y : ℝ → E} {t0 b : ℝ} {kM : ℕ} {ρ L M : ℝ} (P : SwProblem f y t0 b kM ρ L M)
    {c : SwCfg ℝ E} (ok : SwOK c) (hk : c.kMax ≤ kM) {s s' : SwSt ℝ E} {l : SwLoc ℝ E}
    (R : SwRegular c s s' l) (g : Grow s) (hpos : 0 < c.dir * l.h) (hl : |l.h| ≤ |s.h|) {e D : ℝ} (he : 0 ≤ e)
    (hDe : D = |s'.t - hx s.hist (l.k - 1)|)
    (hy : ‖s.y - y s.t‖ ≤ e) (hy' : ‖s'.y - y s'.t‖ ≤ e)
    (hh : ∀ a ∈ s'.hist, a.1 ∈ Set.uIcc t0 b ∧ ‖a.2 - f a.1 (y a.1)‖ ≤ L * e) {x : ℝ} (hx' : x ∈ Set.uIcc s.t s'.t) :
    ‖swOutput s.t s' x - y x‖ ≤ e * (3 + 2 * ((kM + 1) * (swB kM * |b - t0| * L))) +
      2 * (swC0 kM M * (|s'.t - s.t| * D ^ (l.k + 1))) := by
  obtain ⟨a1, a2, a3, a4, a5, a6⟩ := accept_hist R.eq
  have hnow := R.mesh.now
  have hlen := R.mesh.len
  have hkM := R.att.loc.kM
  have hk1 := R.att.loc.k1
  have hkk : l.k ≤ kM := R.ok.kM.trans hk
  have hL := P.lip
  have hM := P.diff
  have hB := swB_pos kM
  have hinj := regular_inj R
  have hq := regular_quality ok R g hpos hl
  have hcons : ∀ i, hx s'.hist i = consX s'.t (hx s.hist) i := fun i => by
    rw [a1]; cases i <;> rfl
  have hlen' : s'.hist.length = s.hist.length + 1 := by rw [a1]; rfl
  have hmemi : ∀ i < l.k + 1, (hx s'.hist i, hf s'.hist i) ∈ s'.hist := by
    intro i hi
    have hi' : i < s'.hist.length := by omega
    have e1 : hx s'.hist i = s'.hist[i].1 := hx_getElem _ hi'
    have e2 : hf s'.hist i = s'.hist[i].2 := by simp [hf, hi']
    rw [e1, e2]
    exact List.getElem_mem hi'
  have hmem' : s'.t ∈ Set.uIcc t0 b := by
    have := (hh _ (hmemi 0 (by omega))).1
    rw [hcons] at this
    exact this
  have hmemt : s.t ∈ Set.uIcc t0 b := by
    have := (hh _ (hmemi 1 (by omega))).1
    rw [hcons] at this
    have e1 : consX s'.t (hx s.hist) 1 = hx s.hist 0 := rfl
    rwa [e1, hnow] at this
  have hlast : hx s.hist (l.k - 1) ∈ Set.uIcc t0 b := by
    have := (hh _ (hmemi l.k (by omega))).1
    rw [hcons] at this
    obtain ⟨m, hm⟩ : ∃ m, l.k = m + 1 := ⟨l.k - 1, by omega⟩
    rw [hm] at this ⊢
    exact this
  have hne : s.t ≠ s'.t := by
    rw [a2]; intro h; exact R.ne (by linarith)
  have hT : |s'.t - s.t| ≤ |b - t0| := Set.abs_sub_le_of_uIcc_subset_uIcc (Set.uIcc_subset_uIcc hmemt hmem')
  -- the mesh
  have hback : ∀ i < l.k, 0 ≤ c.dir * (hx s.hist i - hx s.hist (l.k - 1)) := by
    intro i hi
    rcases Nat.lt_or_ge i (l.k - 1) with h | h
    · exact (R.strict.lt h (by omega)).le
    · have : i = l.k - 1 := by omega
      rw [this, sub_self, mul_zero]
  have hbefore : ∀ i < l.k, 0 ≤ c.dir * (s.t - hx s.hist i) := by
    intro i hi
    rcases Nat.eq_zero_or_pos i with h | h
    · rw [h, hnow, sub_self, mul_zero]
    · have := (R.strict.lt h (by omega)).le
      rwa [hnow] at this
  have hahead : ∀ i < l.k, 0 ≤ c.dir * (s'.t - hx s.hist i) := by
    intro i hi
    have := (R.att.ne i hi).le
    rwa [hnow, ← a2] at this
  have hstep : 0 < c.dir * (s'.t - s.t) := by rw [a2, add_sub_cancel_left]; exact hpos
  have hin : ∀ i < l.k, hx s.hist i ∈ Set.uIcc s'.t (hx s.hist (l.k - 1)) := by
    intro i hi
    have h1 := hback i hi
    have h2 := hahead i hi
    rcases ok.dir with h | h <;> rw [h] at h1 h2
    · exact Set.mem_uIcc.mpr (Or.inr ⟨by linarith, by linarith⟩)
    · exact Set.mem_uIcc.mpr (Or.inl ⟨by linarith, by linarith⟩)
  have hin' : ∀ i < l.k + 1, consX s'.t (hx s.hist) i ∈ Set.uIcc s'.t (hx s.hist (l.k - 1)) := by
    intro i hi
    cases i with
    | zero => exact Set.left_mem_uIcc
    | succ i => exact hin i (by omega)
  have hts : s.t ∈ Set.uIcc s'.t (hx s.hist (l.k - 1)) := by
    have := hin 0 (by omega)
    rwa [hnow] at this
  have hxs : x ∈ Set.uIcc s'.t (hx s.hist (l.k - 1)) := Set.uIcc_subset_uIcc hts Set.left_mem_uIcc hx'
  have hout : ∀ i < l.k + 1, consX s'.t (hx s.hist) i ∉ Set.Ioo (min s.t s'.t) (max s.t s'.t) := by
    intro i hi
    cases i with
    | zero =>
      show s'.t ∉ _
      rintro ⟨h1, h2⟩
      rcases le_total s.t s'.t with h | h
      · rw [max_eq_right h] at h2; exact lt_irrefl _ h2
      · rw [min_eq_right h] at h1; exact lt_irrefl _ h1
    | succ i =>
      show hx s.hist i ∉ _
      have h3 := hbefore i (by omega)
      rintro ⟨h1, h2⟩
      rcases ok.dir with h | h <;> rw [h] at h3 hstep
      · rw [min_eq_left (by linarith)] at h1; linarith
      · rw [max_eq_left (by linarith)] at h2; linarith
  obtain ⟨hsh0, hsh⟩ := nodal_share hne hout
  have hhx : |x - s.t| ≤ |s'.t - s.t| := Set.abs_sub_left_of_mem_uIcc hx'
  have hD0 : 0 ≤ D := by rw [hDe]; exact abs_nonneg _
  have hw : ∀ r, r ∈ Set.uIcc s.t s'.t → ∀ i < l.k + 1,
      |adamsW (l.k + 1) (consX s'.t (hx s.hist)) s.t r i| ≤ swB l.k * |s'.t - s.t| := by
    intro r hr i hi
    refine (adamsW_bound (one_le_two_pow' l.k) hi fun σ hσ j hj hij => hq σ
      (Set.uIcc_subset_uIcc Set.left_mem_uIcc hr hσ) i (by omega) j (by omega) hij).trans ?_
    exact mul_le_mul_of_nonneg_left (Set.abs_sub_left_of_mem_uIcc hr) (swB_pos l.k).le
  have hdef : ∀ r, r ∈ Set.uIcc s.t s'.t → ‖y r - y s.t - ∑ i ∈ range (l.k + 1),
      adamsW (l.k + 1) (consX s'.t (hx s.hist)) s.t r i • f (hx s'.hist i) (y (hx s'.hist i))‖ ≤
      swC0 kM M * |s'.t - s.t| * D ^ (l.k + 1) := by
    intro r hr
    rcases eq_or_ne s.t r with h | h
    · have hz : ∀ i, adamsW (l.k + 1) (consX s'.t (hx s.hist)) s.t r i = 0 := fun i => by
        rw [← h]; simp [adamsW, inc]
      simp only [hz, zero_smul, sum_const_zero, sub_zero]
      rw [← h, sub_self, norm_zero]
      have : 0 ≤ swC0 kM M := by unfold swC0; positivity
      positivity
    · refine le_trans ?_ (defect_le (w := adamsW (l.k + 1) (consX s'.t (hx s.hist)) s.t r) hM hD0 hkk (by omega)
        (Set.abs_sub_left_of_mem_uIcc hr) (abs_nonneg _) (hw r hr))
      rw [hDe]
      have := adams_defect_uIcc (G := fun s => f s (y s)) P.solves P.smooth (n := l.k + 1) (by omega)
        (P.bound (l.k + 1) (by omega)) hinj hmem' hlast hts
        (Set.uIcc_subset_uIcc hts Set.left_mem_uIcc hr) h hin'
      simp only [hcons]
      exact this
  have hp := adams_dense_formula (p := swOutput s.t s' x) (y := s.y) (y' := s'.y) (F := hf s'.hist) (t := s.t) (t' := s'.t)
    (s := x) hinj (fun f' => by
      obtain ⟨Q, q1, q2, q3, q4, q5⟩ := dense_poly ok R f'
      rw [a6] at q1 q5
      exact ⟨Q, q1, q2 x, q3, q4, fun m hm => by rw [← hcons]; exact q5 m (by omega)⟩) hsh0
  have key := dense_error (G := fun i => f (hx s'.hist i) (y (hx s'.hist i))) he hL (hsh x hx') hp
    (fun i hi => (hw x hx' i hi).trans (mul_le_mul_of_nonneg_right (swB_mono hkk) (abs_nonneg _)))
    (fun i hi => (hw s'.t Set.right_mem_uIcc i hi).trans (mul_le_mul_of_nonneg_right (swB_mono hkk) (abs_nonneg _)))
    (fun i hi => (hh _ (hmemi i hi)).2) hy hy' (hdef x hx') (hdef s'.t Set.right_mem_uIcc)
  refine key.trans (add_le_add (mul_le_mul_of_nonneg_left ?_ he) (le_of_eq (by ring)))
  have h1 : ((l.k + 1 : ℕ) : ℝ) ≤ kM + 1 := by exact_mod_cast Nat.succ_le_succ hkk
  gcongr

/-- The errors stay inside the tube. -/
theorem tube_small {kM : ℕ} {ρ L M T H S τ : ℝ} (hL : 0 ≤ L) (hM : 0 ≤ M) (hT : 0 ≤ T) (hH : 0 ≤ H)
    (hH2 : H * swA kM L M T < ρ) (hS : S ≤ T * (kM * H)) (hS0 : 0 ≤ S) (hτ : τ ≤ T) :
    swC1 kM L M * S * Real.exp (swC2 kM L T * τ) < ρ := by
  have hB := swB_pos kM
  have hC0 : 0 ≤ swC0 kM M := by unfold swC0; positivity
  have hC1 : 0 ≤ swC1 kM L M := by unfold swC1; positivity
  have hC2 : 0 ≤ swC2 kM L T := by unfold swC2; positivity
  refine lt_of_le_of_lt ?_ hH2
  calc swC1 kM L M * S * Real.exp (swC2 kM L T * τ)
      ≤ swC1 kM L M * (T * (kM * H)) * Real.exp (swC2 kM L T * T) := by gcongr
    _ = H * (swC1 kM L M * T * kM * Real.exp (swC2 kM L T * T) * 1) := by ring
    _ ≤ H * swA kM L M T := by
        refine mul_le_mul_of_nonneg_left ?_ hH
        unfold swA
        have h1 : 1 ≤ 1 + kM * swB kM * L * T := by
          have : 0 ≤ kM * swB kM * L * T := by positivity
          linarith
        have h2 : swC1 kM L M * T * kM * Real.exp (swC2 kM L T * T) * 1 ≤
          swC1 kM L M * T * kM * Real.exp (swC2 kM L T * T) * (1 + kM * swB kM * L * T) := by gcongr
        linarith

set_option maxHeartbeats 1000000 in
/-- **C105.** The dense output of SWAG has the accuracy of the solution: in every point of the step which leads from `v`
to `v'`, its error is at most a constant times the sum of the local errors up to and including this step. -/
theorem C105_dense [CompleteSpace E] {f : ℝ → E → E} {y : ℝ → E} {t0 b : ℝ} (hy : SolvesOn f y t0 b) (kM : ℕ) :
    ∃ C hstar : ℝ, 0 ≤ C ∧ 0 < hstar ∧ ∀ (c : SwCfg ℝ E) (h0 : ℝ) (wt0 : E → ENorm ℝ) (phi0 : ℕ → E) (co0 : Coef ℝ)
      (nfev : ℕ) (H S : ℝ) (v v' : SwSolver ℝ E) (fuel : ℕ), SwOK c → (∀ p y x, c.scale p y x ≠ .inf) → c.fn = f →
      c.kMax ≤ kM → 0 < c.dir * h0 → (∀ b', c.tb = some b' → 0 ≤ c.dir * (b' - t0)) → 0 ≤ H → H ≤ hstar →
      SwRun c (newSwag t0 (y t0) (f t0 (y t0)) h0 wt0 phi0 co0 nfev) t0 b H S v →
      v.status = .running → c.tb ≠ some v.st.t → swStep c fuel v = some (.ok, v') → |v'.st.t - v.st.t| ≤ H →
      v'.st.t ∈ Set.uIcc t0 b → ∀ x ∈ Set.uIcc v.st.t v'.st.t,
      ‖swOutput v.st.t v'.st x - y x‖ ≤ C * (S + swDefect v v') := by
  obtain ⟨ρ, L, M, P⟩ := exists_swProblem hy kM
  have hL := P.lip
  have hM := P.diff
  have hB := swB_pos kM
  have hB1 := one_le_swB kM
  set T := |b - t0| with hT
  have hT0 : 0 ≤ T := abs_nonneg _
  have hC0 : 0 ≤ swC0 kM M := by unfold swC0; positivity
  have hC1 : 0 ≤ swC1 kM L M := by unfold swC1; positivity
  have hC2 : 0 ≤ swC2 kM L T := by unfold swC2; positivity
  have hA : 0 ≤ swA kM L M T := by unfold swA; positivity
  refine ⟨swC1 kM L M * Real.exp (swC2 kM L T * T) * (3 + 2 * ((kM + 1) * (swB kM * T * L))) + 2 * swC0 kM M,
    min (1 / (kM + 1)) (ρ / (swA kM L M T + 1)),
    by positivity, lt_min (by positivity) (div_pos P.rho (by linarith)), ?_⟩
  intro c h0 wt0 phi0 co0 nfev H S v v' fuel ok hfin hf' hk hh hb hH hHs hrun hs hb0 hstep hd hm x hx'
  have hH1 : kM * H ≤ 1 := by
    have h1 := hHs.trans (min_le_left _ _)
    rw [le_div_iff₀ (by positivity)] at h1
    nlinarith
  have hH2 : H * swA kM L M T < ρ := by
    have h1 := hHs.trans (min_le_right _ _)
    rw [le_div_iff₀ (by linarith)] at h1
    rcases hH.eq_or_lt with h | h
    · rw [← h, zero_mul]; exact P.rho
    · nlinarith
  have I := SwRun.err P ok hfin hf' hk hh hb hH hH1 hH2 hrun
  have I' := SwRun.err P ok hfin hf' hk hh hb hH hH1 hH2 (.tail hrun hstep hd hm)
  have hr := hrun.reach
  have hkn := known ok hh hb hr hs
  have hdi := C46_distinct_times ok hfin hh hb hr hs
  have hmesh := hkn.mesh hdi
  have hprog := C46_progress_finite ok hfin hh hb hr hs hb0 hstep
  have hsum := dir_abs_add ok I.fwd hprog.le
  have hdef0 : 0 ≤ swDefect v v' := by unfold swDefect; positivity
  have htT : |v.st.t - t0| ≤ T := Set.abs_sub_left_of_mem_uIcc I.mem
  have htT' : |v'.st.t - t0| ≤ T := Set.abs_sub_left_of_mem_uIcc hm
  have hS0 := I.S0
  -- one bound for all errors
  set e := swC1 kM L M * (S + swDefect v v') * Real.exp (swC2 kM L T * |v'.st.t - t0|) with he
  have hee : swC1 kM L M * S * Real.exp (swC2 kM L T * |v.st.t - t0|) ≤ e := by
    have h3 : |v.st.t - t0| ≤ |v'.st.t - t0| := by rw [hsum]; linarith [abs_nonneg (v'.st.t - v.st.t)]
    have h4 : S ≤ S + swDefect v v' := by linarith
    rw [he]
    gcongr
  have he0 : 0 ≤ e := by rw [he]; positivity
  have heρ : e < ρ := tube_small hL hM hT0 hH hH2 (I'.Sle.trans (by gcongr)) I'.S0 htT'
  have heC : e ≤ swC1 kM L M * Real.exp (swC2 kM L T * T) * (S + swDefect v v') := by
    rw [he]
    have : Real.exp (swC2 kM L T * |v'.st.t - t0|) ≤ Real.exp (swC2 kM L T * T) := by gcongr
    calc swC1 kM L M * (S + swDefect v v') * Real.exp (swC2 kM L T * |v'.st.t - t0|)
        ≤ swC1 kM L M * (S + swDefect v v') * Real.exp (swC2 kM L T * T) := by gcongr
      _ = _ := by ring
  have hy0 := I.err.trans hee
  have hy1 : ‖v'.st.y - y v'.st.t‖ ≤ e := I'.err
  have final : ‖swOutput v.st.t v'.st x - y x‖ ≤ e * (3 + 2 * ((kM + 1) * (swB kM * T * L))) +
      2 * (swC0 kM M * swDefect v v') := by
    by_cases hk0 : v'.st.kold = 0
    · have hfn := SwReach.fn (v0 := newSwag t0 (y t0) (f t0 (y t0)) h0 wt0 phi0 co0 nfev)
        ⟨by rw [hf']; rfl, rfl⟩ hr hs
      have hr' := hr
      rw [show f t0 (y t0) = c.fn t0 (y t0) by rw [hf']] at hr'
      obtain ⟨_, hall, _⟩ := C48_extrapolated hr' hs ok.kMax hb0 hstep hk0
      rw [hall x, hf']
      have hdef : swDefect v v' = |v'.st.t - v.st.t| * |v'.st.t - v.st.t| := by
        rw [swDefect, hk0, Nat.zero_sub, hmesh.now, zero_add, pow_one]
      have hxh : |x - v.st.t| ≤ |v'.st.t - v.st.t| := Set.abs_sub_left_of_mem_uIcc hx'
      have hxT : |x - v.st.t| ≤ T := hxh.trans
        (Set.abs_sub_le_of_uIcc_subset_uIcc (Set.uIcc_subset_uIcc I.mem hm))
      have hlip := P.tube _ I.mem _ (lt_of_le_of_lt hy0 heρ)
      have hfe : ‖f v.st.t v.st.y - f v.st.t (y v.st.t)‖ ≤ L * e := hlip.trans (mul_le_mul_of_nonneg_left hy0 hL)
      have hdfc : ‖y x - y v.st.t - (x - v.st.t) • f v.st.t (y v.st.t)‖ ≤ M * |x - v.st.t| * (|x - v.st.t| + |x - v.st.t|) := by
        rcases eq_or_ne v.st.t x with h | h
        · rw [← h]; simp
        · have hdfc := adams_defect_uIcc (G := fun s => f s (y s)) P.solves P.smooth (n := 1) le_rfl (P.bound 1 (by omega))
            (x := fun _ => v.st.t) (fun i hi j hj _ => by omega) I.mem
            (Set.uIcc_subset_uIcc I.mem hm hx') Set.left_mem_uIcc Set.right_mem_uIcc h
            (fun _ _ => Set.left_mem_uIcc)
          have hw := adams_exact (n := 1) (x := fun _ => v.st.t) (fun i hi j hj _ => by omega) v.st.t x 0 (m := 0)
            (by omega)
          simp only [Finset.range_one, Finset.sum_singleton, pow_zero, mul_one, zero_add, pow_one, Nat.cast_zero, div_one,
            sub_zero] at hw hdfc
          rw [hw, abs_sub_comm v.st.t] at hdfc
          exact hdfc
      have hsm : ‖(x - v.st.t) • (f v.st.t v.st.y - f v.st.t (y v.st.t))‖ ≤ T * (L * e) := by
        rw [norm_smul, Real.norm_eq_abs]
        exact mul_le_mul hxT hfe (norm_nonneg _) hT0
      have hsplit : v.st.y + (x - v.st.t) • f v.st.t v.st.y - y x = (v.st.y - y v.st.t) +
          (x - v.st.t) • (f v.st.t v.st.y - f v.st.t (y v.st.t)) -
          (y x - y v.st.t - (x - v.st.t) • f v.st.t (y v.st.t)) := by
        rw [smul_sub]; abel
      rw [hsplit]
      refine ((norm_sub_le _ _).trans (add_le_add ((norm_add_le _ _).trans (add_le_add hy0 hsm)) hdfc)).trans ?_
      rw [hdef]
      have hMC : M ≤ swC0 kM M := by
        unfold swC0
        have h1 : (1 : ℝ) ≤ 1 + ((kM : ℝ) + 1) * swB kM := by
          have : 0 ≤ ((kM : ℝ) + 1) * swB kM := by positivity
          linarith
        exact le_mul_of_one_le_right hM h1
      have h1 : M * |x - v.st.t| * (|x - v.st.t| + |x - v.st.t|) ≤
          2 * (swC0 kM M * (|v'.st.t - v.st.t| * |v'.st.t - v.st.t|)) := by
        calc M * |x - v.st.t| * (|x - v.st.t| + |x - v.st.t|) = 2 * (M * (|x - v.st.t| * |x - v.st.t|)) := by ring
          _ ≤ _ := by gcongr
      have h2 : T * (L * e) ≤ e * (2 * ((kM + 1) * (swB kM * T * L))) := by
        have h3 : 1 ≤ 2 * ((kM + 1) * swB kM) := by nlinarith [(Nat.cast_nonneg kM : (0 : ℝ) ≤ kM)]
        have h4 : 0 ≤ T * L * e := by positivity
        calc T * (L * e) = T * L * e * 1 := by ring
          _ ≤ T * L * e * (2 * ((kM + 1) * swB kM)) := mul_le_mul_of_nonneg_left h3 h4
          _ = _ := by ring
      linarith
    · obtain ⟨l, R, hpos, hle⟩ := regular_finite ok hfin hh hb hr hs hb0 hstep hk0
      obtain ⟨a1, a2, a3, a4, a5, a6⟩ := accept_hist R.eq
      have := regular_dense_error P ok hk R (hr.grow ok hfin hh hb hs) hpos hle he0 rfl hy0 hy1 (fun a ha => by
        rw [a1] at ha
        rcases List.mem_cons.mp ha with rfl | ha
        · refine ⟨hm, ?_⟩
          dsimp only
          rw [a3, hf']
          exact (P.tube _ hm _ (lt_of_le_of_lt hy1 heρ)).trans (mul_le_mul_of_nonneg_left hy1 hL)
        · obtain ⟨h1, h2⟩ := I.hist hs a ha
          exact ⟨h1, h2.trans (mul_le_mul_of_nonneg_left hee hL)⟩) hx'
      unfold swDefect
      rw [a6]
      exact this
  refine final.trans ?_
  have h1 : e * (3 + 2 * ((kM + 1) * (swB kM * T * L))) ≤ swC1 kM L M * Real.exp (swC2 kM L T * T) * (S + swDefect v v') *
      (3 + 2 * ((kM + 1) * (swB kM * T * L))) := by gcongr
  have h2 : 2 * (swC0 kM M * swDefect v v') ≤ 2 * swC0 kM M * (S + swDefect v v') := by
    have : swDefect v v' ≤ S + swDefect v v' := by linarith
    rw [mul_assoc]
    gcongr
  linarith

/-- **C105.** With `max_step = H` the dense output of every step is of second order in `H`, up to the square of the
length of the interval over which the last step may be extrapolated. -/
theorem C105_dense_converges [CompleteSpace E] {f : ℝ → E → E} {y : ℝ → E} {t0 b : ℝ} (hy : SolvesOn f y t0 b) (kM : ℕ) :
    ∃ C hstar : ℝ, 0 ≤ C ∧ 0 < hstar ∧ ∀ (c : SwCfg ℝ E) (h0 : ℝ) (wt0 : E → ENorm ℝ) (phi0 : ℕ → E) (co0 : Coef ℝ)
      (nfev : ℕ) (H : ℝ) (v v' : SwSolver ℝ E) (fuel : ℕ), SwOK c → (∀ p y x, c.scale p y x ≠ .inf) → c.fn = f →
      c.kMax ≤ kM → 0 < c.dir * h0 → c.tb = some b → 0 ≤ c.dir * (b - t0) → c.maxStep = some H → H ≤ hstar →
      c.fouru * max |t0| |b| ≤ H →
      SwReach c (newSwag t0 (y t0) (f t0 (y t0)) h0 wt0 phi0 co0 nfev) v →
      v.status = .running → v.st.t ≠ b → swStep c fuel v = some (.ok, v') → ∀ x ∈ Set.uIcc v.st.t v'.st.t,
      ‖swOutput v.st.t v'.st x - y x‖ ≤ C * (H ^ 2 + (c.fouru * max |t0| |b|) ^ 2) := by
  obtain ⟨C, hs, h1, h2, h3⟩ := C105_dense hy kM
  refine ⟨C * (|b - t0| * kM ^ 2 + 1), min hs (1 / (kM + 1)), by positivity, lt_min h2 (by positivity), ?_⟩
  intro c h0 wt0 phi0 co0 nfev H v v' fuel ok hfin hf' hk hh htb hb hm hHs hX hr hs' hbt hstep x hx'
  have hH0 : 0 < H := ok.maxStep H hm
  have hH1 : kM * H ≤ 1 := by
    have h1 := hHs.trans (min_le_right _ _)
    rw [le_div_iff₀ (by positivity)] at h1
    nlinarith
  have hb1 : ∀ b', c.tb = some b' → 0 ≤ c.dir * (b' - t0) := fun b' h => by
    rw [htb] at h; cases h; exact hb
  obtain ⟨S, I⟩ := hr.cover ok hfin hh hk htb hb hm hH0.le hH1 hX
  obtain ⟨I', hd⟩ := SwCover.step ok hfin hh hk htb hb hm hH0.le hH1 hX hr I hstep
  have := h3 c h0 wt0 phi0 co0 nfev H S v v' fuel ok hfin hf' hk hh hb1 hH0.le (hHs.trans (min_le_left _ _)) I.run hs'
    (by rw [htb]; intro h; exact hbt (Option.some.inj h).symm) hstep hd I'.mem x hx'
  refine this.trans ?_
  rw [mul_assoc]
  refine mul_le_mul_of_nonneg_left (I'.sum.trans ?_) h1
  have htT : |v'.st.t - t0| ≤ |b - t0| := Set.abs_sub_left_of_mem_uIcc I'.mem
  have h4 : |v'.st.t - t0| * (kM * H) ^ 2 ≤ |b - t0| * (kM * H) ^ 2 := by gcongr
  have h5 : 0 ≤ |b - t0| * kM ^ 2 * (c.fouru * max |t0| |b|) ^ 2 := by positivity
  have h6 := sq_nonneg H
  nlinarith

end

/-- The hypotheses are met by the first step of the problem `y' = -y`, for every small `max_step`. -/
example : ∃ C hs : ℝ, 0 < hs ∧ ∀ η : ℝ, 0 < η → η ≤ 1 → η ≤ hs → ∃ v', swStep (exSwR η) 1 (exSwV η) = some (.ok, v') ∧
    v'.st.t = η ∧ v'.st.kold = 1 ∧ ∀ x ∈ Set.uIcc 0 η,
    |swOutput 0 v'.st x - Real.exp (-x)| ≤ C * (η ^ 2 + (η / 4) ^ 2) := by
  obtain ⟨C, hs, _, h2, h3⟩ := C105_dense_converges exDecay_solves 12
  refine ⟨C, hs, h2, fun η h h1 hle => ?_⟩
  obtain ⟨v', e1, e2, e3⟩ := exSwR_step h h1
  refine ⟨v', e1, e2, e3, fun x hx => ?_⟩
  have := h3 (exSwR η) η _ _ _ _ η (exSwV η) v' 1 (exSwR_ok h) (fun _ _ _ => by simp [exSwR]) rfl le_rfl
    (by simpa [exSwR] using h) rfl (by simp [exSwR]) rfl hle (by simp [exSwR]; linarith) .refl rfl
    (by simp [exSwV, newSwag]) e1 x (by rw [e2]; exact hx)
  simpa [exSwR, exSwV, newSwag] using this

end
end Extensisq
