import Verif.Props.NormHStart

/-!
# C15: the estimates of the automatic first step

The Lipschitz estimate of `h_start` never exceeds a Lipschitz constant of the right-hand side, and the step is not
unnecessarily small.
-/

namespace Extensisq
open Finset

variable {𝕜 : Type*} [RCLike 𝕜] {n : ℕ}

theorem norm_hsDirect (s d : 𝕜) : ‖hsDirect s d‖ = ‖d‖ := by
  unfold hsDirect
  split
  · have e : ∀ x y : ℝ, |copysign |x| y| = |x| := fun x y => by rw [abs_copysign, abs_abs]
    set c1 := copysign |RCLike.re d| (RCLike.re s) with hc1
    set c2 := copysign |RCLike.im d| (RCLike.im s) with hc2
    have h1 : c1 ^ 2 = RCLike.re d ^ 2 := by rw [← sq_abs, hc1, e, sq_abs]
    have h2 : c2 ^ 2 = RCLike.im d ^ 2 := by rw [← sq_abs, hc2, e, sq_abs]
    have h3 : c2 * RCLike.im (RCLike.I : 𝕜) = c2 := by
      rcases abs_eq_abs.mp (e (RCLike.im d) (RCLike.im s)) with h | h
      · rw [hc2, h, mul_comm]; exact RCLike.I_im' d
      · rw [hc2, h, neg_mul]; congr 1; rw [mul_comm]; exact RCLike.I_im' d
    have h4 : ‖(c1 : 𝕜) + (c2 : 𝕜) * RCLike.I‖ ^ 2 = ‖d‖ ^ 2 := by
      rw [RCLike.norm_sq_eq_def, RCLike.norm_sq_eq_def]
      simp only [map_add, RCLike.ofReal_re, RCLike.re_ofReal_mul, RCLike.I_re, mul_zero, add_zero, RCLike.ofReal_im,
        RCLike.im_ofReal_mul, zero_add, h3]
      rw [← pow_two, ← pow_two, ← pow_two, ← pow_two, h1, h2]
    exact (sq_eq_sq₀ (norm_nonneg _) (norm_nonneg _)).mp h4
  · rfl

theorem rmsNorm_congr {x z : Fin n → 𝕜} (h : ∀ i, ‖x i‖ = ‖z i‖) : rmsNorm x = rmsNorm z := by
  rw [rmsNorm_eq, rmsNorm_eq, EuclideanSpace.norm_eq, EuclideanSpace.norm_eq]
  simp only [h]

theorem rmsNorm_ne_zero (hn : 0 < n) {x : Fin n → 𝕜} (h : ∀ i, x i ≠ 0) : rmsNorm x ≠ 0 := by
  intro h0
  have := congrFun ((C12_norm hn x x 1).2.1.mp h0) ⟨0, hn⟩
  exact h _ this

/-- The perturbed state is at the distance `|dely|` from the initial state. -/
theorem rmsNorm_perturb (hn : 0 < n) (y yp : Fin n → 𝕜) (dely : ℝ) (h : rmsNorm yp ≠ 0) :
    rmsNorm ((fun i => y i + ((dely / rmsNorm yp : ℝ) : 𝕜) * yp i) - y) = |dely| := by
  have e : ((fun i => y i + ((dely / rmsNorm yp : ℝ) : 𝕜) * yp i) - y) = ((dely / rmsNorm yp : ℝ) : 𝕜) • yp := by
    ext i; simp
  rw [e, (C12_norm hn yp yp _).2.2.1, RCLike.norm_ofReal, abs_div, abs_of_nonneg (rmsNorm_nonneg yp)]
  field_simp

theorem hsDely_ne_zero {relper dx : ℝ} (hr : 0 < relper) (y : Fin n → 𝕜) : hsDely relper dx y ≠ 0 := by
  unfold hsDely
  rw [← abs_pos, abs_copysign, abs_pos]
  exact pyOr_ne_zero _ hr.ne'

section
variable (df : ℝ → (Fin n → 𝕜) → Fin n → 𝕜) (a da dely relper big : ℝ) (y : Fin n → 𝕜) {L B : ℝ}

/-- The estimates of the loop, for a right-hand side with Lipschitz constant `L` and bound `B` at the states in the
distance `|dely|` from `y`. -/
theorem hsLoop_le (hn : 0 < n) (hd : dely ≠ 0) (hr : relper ≠ 0)
    (hL : ∀ t, t = a ∨ t = a + da → ∀ z, rmsNorm (z - y) = |dely| → rmsNorm (df t z - df t y) ≤ L * |dely|)
    (hB : ∀ t, t = a ∨ t = a + da → ∀ z, rmsNorm (z - y) = |dely| → rmsNorm (df t z) ≤ B) (lk : ℕ) :
    ∀ (m k : ℕ) (st : HsState 𝕜 n), st.delf = rmsNorm st.yp → st.delf ≠ 0 → st.dfdub ≤ L → st.fbnd ≤ B →
      (hsLoop df a da dely relper big y (df a y) (df (a + da) y) lk m k st).dfdub ≤ L ∧
      (hsLoop df a da dely relper big y (df a y) (df (a + da) y) lk m k st).fbnd ≤ B := by
  have hda : 0 < |dely| := abs_pos.mpr hd
  intro m
  induction m with
  | zero => intro k st _ _ h1 h2; exact ⟨h1, h2⟩
  | succ m ih =>
    intro k st h1 h2 h3 h4
    unfold hsLoop
    dsimp only
    have hz : rmsNorm ((fun i => y i + ((dely / st.delf : ℝ) : 𝕜) * st.yp i) - y) = |dely| := by
      rw [h1] at h2 ⊢
      exact rmsNorm_perturb hn y st.yp dely h2
    generalize (fun i => y i + ((dely / st.delf : ℝ) : 𝕜) * st.yp i) = pv at hz
    have hyp : rmsNorm (if k = 2 then df (a + da) pv else df a pv) ≤ B := by
      split
      · exact hB _ (Or.inr rfl) _ hz
      · exact hB _ (Or.inl rfl) _ hz
    have hpv : rmsNorm (if k = 2 then (if k = 2 then df (a + da) pv else df a pv) - df (a + da) y
        else (if k = 2 then df (a + da) pv else df a pv) - df a y) ≤ L * |dely| := by
      split
      · exact hL _ (Or.inr rfl) _ hz
      · exact hL _ (Or.inl rfl) _ hz
    generalize (if k = 2 then (if k = 2 then df (a + da) pv else df a pv) - df (a + da) y
        else (if k = 2 then df (a + da) pv else df a pv) - df a y) = pv1 at hpv
    generalize (if k = 2 then df (a + da) pv else df a pv) = yp at hyp
    have hfb : max st.fbnd (rmsNorm yp) ≤ B := max_le h4 hyp
    by_cases hc : big * |dely| ≤ rmsNorm pv1
    · rw [if_pos hc]
      exact ⟨le_of_mul_le_mul_right (hc.trans hpv) hda, hfb⟩
    · rw [if_neg hc]
      have hdf : max st.dfdub (rmsNorm pv1 / |dely|) ≤ L := max_le h3 (by rw [div_le_iff₀ hda]; exact hpv)
      by_cases hk : k = lk
      · rw [if_pos hk]; exact ⟨hdf, hfb⟩
      · rw [if_neg hk]
        refine ih _ _ rfl ?_ hdf hfb
        dsimp only
        rw [rmsNorm_congr (z := hsDy dely relper y k pv1 (rmsNorm pv1)) fun i => norm_hsDirect _ _]
        apply rmsNorm_ne_zero hn
        intro i
        unfold hsDy
        split
        · apply pyOr_ne_zero
          rw [RCLike.ofReal_ne_zero]
          exact div_ne_zero hd hr
        · apply pyOr_ne_zero
          rw [RCLike.ofReal_ne_zero]
          exact pyOr_ne_zero _ one_ne_zero

end

section
variable {small big relper : ℝ} (hn : 0 < n) (hrel : 0 < relper)
  (df : ℝ → (Fin n → 𝕜) → Fin n → 𝕜) {a b : ℝ} (y : Fin n → 𝕜) (morder : ℕ) (etol : Fin n → ℝ) (tolmin : ℝ)
include hn hrel

omit hrel in
private theorem hsInit_ok (fb0 : ℝ) (yprime : Fin n → 𝕜) (e0 : ℕ) :
    (hsInit fb0 yprime e0).delf = rmsNorm (hsInit fb0 yprime e0).yp ∧ (hsInit fb0 yprime e0).delf ≠ 0 ∧
    (hsInit fb0 yprime e0).dfdub = 0 ∧ (hsInit fb0 yprime e0).fbnd = max fb0 (rmsNorm yprime) := by
  unfold hsInit
  split
  · rename_i h; exact ⟨rfl, h, rfl, rfl⟩
  · exact ⟨rfl, rmsNorm_ne_zero hn fun _ => one_ne_zero, rfl, rfl⟩

/-- **C15**. The Lipschitz estimate is at most any Lipschitz constant of the right-hand side at the initial state
(for the two times at which it is sampled): if `‖f(t, z) - f(t, y)‖ ≤ L ‖z - y‖` in the RMS norm then `dfdub ≤ L`.
So a first step is never refused because of a stiffness the problem does not have. -/
theorem C15_lipschitz_estimate {L : ℝ} (hL0 : 0 ≤ L)
    (hL : ∀ t, t = a ∨ t = a + hsDa relper small a (b - a) → ∀ z, rmsNorm (df t z - df t y) ≤ L * rmsNorm (z - y)) :
    (hStart small big relper df a b y (df a y) morder etol tolmin none none).dfdub ≤ L := by
  set dely := hsDely relper (b - a) y
  set da := hsDa relper small a (b - a) with hda
  obtain ⟨i1, i2, i3, i4⟩ := hsInit_ok hn (rmsNorm (hsSf df a da y (df a y) none)) (df a y) (hsE0 (𝕜 := 𝕜) (n := n) none)
  have hB : ∀ t, t = a ∨ t = a + da → ∀ z, rmsNorm (z - y) = |dely| → rmsNorm (df t z) ≤
      max (rmsNorm (df a y)) (rmsNorm (df (a + da) y)) + L * |dely| := by
    intro t ht z hz
    have h1 := hL t ht z
    rw [hz] at h1
    have h2 := (C12_norm hn (df t z - df t y) (df t y) 1).2.2.2
    rw [sub_add_cancel] at h2
    have h3 : rmsNorm (df t y) ≤ max (rmsNorm (df a y)) (rmsNorm (df (a + da) y)) := by
      rcases ht with rfl | rfl
      · exact le_max_left _ _
      · exact le_max_right _ _
    linarith
  refine (hsLoop_le df a da dely relper big y hn (hsDely_ne_zero hrel y) hrel.ne'
    (fun t ht z hz => hz ▸ hL t ht z) hB (min (n + 1) 3) (min (n + 1) 3) 1 _ i1 i2 (by rw [i3]; exact hL0) ?_).1
  rw [i4]
  have : 0 ≤ L * |dely| := by positivity
  refine max_le ?_ ?_
  · exact le_trans (le_max_right _ _) (le_add_of_nonneg_right this)
  · exact le_trans (le_max_left _ _) (le_add_of_nonneg_right this)

omit hn hrel in
/-- The final part with upper bounds of the estimates. -/
theorem hsFinal_lower {dfdub fbnd ydpb tolp L B Y : ℝ} (hab : a ≠ b) (h1 : 0 ≤ dfdub) (h2 : 0 ≤ fbnd) (h3 : 0 ≤ ydpb)
    (h4 : 0 < tolp) (b1 : dfdub ≤ L) (b2 : fbnd ≤ B) (b3 : ydpb ≤ Y) {x : ℝ} (x1 : x ≤ |b - a|) (x2 : x ≤ |b - a| * tolp)
    (x3 : B * x ≤ tolp) (x4 : Real.sqrt (1 / 2 * Y) * x ≤ tolp) (x5 : L * x ≤ 1) (x0 : 0 ≤ x) :
    x ≤ |hsFinal small a b dfdub fbnd ydpb tolp| := by
  unfold hsFinal
  dsimp only
  rw [abs_copysign]
  have hdx : 0 < |b - a| := abs_pos.mpr (sub_ne_zero.mpr (Ne.symm hab))
  set h0 := (if ydpb = 0 ∧ fbnd = 0 then (if tolp < 1 then |b - a| * tolp else |b - a|)
    else if ydpb = 0 then (if tolp < fbnd * |b - a| then tolp / fbnd else |b - a|)
    else if tolp < Real.sqrt (1 / 2 * ydpb) * |b - a| then tolp / Real.sqrt (1 / 2 * ydpb)
      else |b - a|) with hh0
  have e0 : x ≤ h0 ∧ 0 < h0 := by
    rw [hh0]
    split_ifs with c1 c2 c3 c4 c5
    · exact ⟨x2, mul_pos hdx h4⟩
    · exact ⟨x1, hdx⟩
    · have hf : 0 < fbnd := lt_of_le_of_ne h2 (fun h => c1 ⟨c3, h.symm⟩)
      exact ⟨by rw [le_div_iff₀ hf]; nlinarith, by positivity⟩
    · exact ⟨x1, hdx⟩
    · have hy : 0 < ydpb := lt_of_le_of_ne h3 (Ne.symm c3)
      have hf : 0 < Real.sqrt (1 / 2 * ydpb) := Real.sqrt_pos.mpr (by positivity)
      have hle : Real.sqrt (1 / 2 * ydpb) ≤ Real.sqrt (1 / 2 * Y) := Real.sqrt_le_sqrt (by linarith)
      exact ⟨by rw [le_div_iff₀ hf]; nlinarith, by positivity⟩
    · exact ⟨x1, hdx⟩
  have e1 : x ≤ (if dfdub ≠ 0 then min h0 (1 / dfdub) else h0) ∧ 0 < (if dfdub ≠ 0 then min h0 (1 / dfdub) else h0) := by
    split_ifs with c
    · have hf : 0 < dfdub := lt_of_le_of_ne h1 (Ne.symm c)
      exact ⟨le_min e0.1 (by rw [le_div_iff₀ hf]; nlinarith), lt_min e0.2 (by positivity)⟩
    · exact e0
  set h1' := (if dfdub ≠ 0 then min h0 (1 / dfdub) else h0)
  have e2 : 0 < max h1' (100 * small * |a|) := lt_max_of_lt_left e1.2
  unfold pyOr
  rw [if_neg e2.ne', abs_of_pos e2]
  exact e1.1.trans (le_max_left _ _)

/-- **C15**. The first step is not unnecessarily small: it is at least any `x` that is not longer than the interval
(times `tolp`), with `B x ≤ tolp`, `L x ≤ 1` and `sqrt((M + L B) / 2) x ≤ tolp`, for bounds `B` of the derivative (near
the initial state), `L` of its dependence on the state and `M` on the time. `tolp` is the tolerance parameter. -/
theorem C15_not_too_small (hbig : 0 ≤ big) (hab : a ≠ b) {L B M : ℝ} (hL0 : 0 ≤ L)
    (hL : ∀ t, t = a ∨ t = a + hsDa relper small a (b - a) → ∀ z, rmsNorm (df t z - df t y) ≤ L * rmsNorm (z - y))
    (hB : ∀ t, t = a ∨ t = a + hsDa relper small a (b - a) → ∀ z, rmsNorm (z - y) ≤ |hsDely relper (b - a) y| →
      rmsNorm (df t z) ≤ B)
    (hM : rmsNorm (df (a + hsDa relper small a (b - a)) y - df a y) ≤ M * |hsDa relper small a (b - a)|)
    {x : ℝ} (x0 : 0 ≤ x) (x1 : x ≤ |b - a|) (x2 : x ≤ |b - a| * hsTolp etol tolmin morder) (x3 : B * x ≤ hsTolp etol tolmin morder)
    (x4 : Real.sqrt (1 / 2 * (M + L * B)) * x ≤ hsTolp etol tolmin morder) (x5 : L * x ≤ 1) :
    x ≤ |(hStart small big relper df a b y (df a y) morder etol tolmin none none).h| := by
  set dely := hsDely relper (b - a) y with hdely
  set da := hsDa relper small a (b - a) with hda
  have da0 : da ≠ 0 := by
    rw [hda]; unfold hsDa
    exact pyOr_ne_zero _ (mul_ne_zero hrel.ne' (sub_ne_zero.mpr hab.symm))
  obtain ⟨i1, i2, i3, i4⟩ := hsInit_ok hn (rmsNorm (hsSf df a da y (df a y) none)) (df a y) (hsE0 (𝕜 := 𝕜) (n := n) none)
  have hB' : ∀ t, t = a ∨ t = a + da → rmsNorm (df t y) ≤ B := by
    intro t ht
    refine hB t ht y ?_
    rw [sub_self, (C12_norm hn 0 0 (1 : 𝕜)).2.1.mpr rfl]; positivity
  have hfb : (hsInit (rmsNorm (hsSf df a da y (df a y) none)) (df a y) (hsE0 (𝕜 := 𝕜) (n := n) none)).fbnd ≤ B := by
    rw [i4]; exact max_le (hB' _ (Or.inr rfl)) (hB' _ (Or.inl rfl))
  obtain ⟨g1, g2⟩ := hsLoop_le df a da dely relper big y hn (hsDely_ne_zero hrel y) hrel.ne'
    (fun t ht z hz => hz ▸ hL t ht z) (fun t ht z hz => hB t ht z hz.le) (min (n + 1) 3) (min (n + 1) 3) 1 _ i1 i2
    (by rw [i3]; exact hL0) hfb
  have f0 : 0 ≤ (hsInit (rmsNorm (hsSf df a da y (df a y) none)) (df a y) (hsE0 (𝕜 := 𝕜) (n := n) none)).fbnd := by
    rw [i4]; exact le_max_of_le_right (rmsNorm_nonneg _)
  obtain ⟨k1, k2, _⟩ := hsLoop_spec df a da dely relper big hbig y (df a y) (df (a + da) y) (min (n + 1) 3) (min (n + 1) 3) 1
    (hsInit (rmsNorm (hsSf df a da y (df a y) none)) (df a y) (hsE0 (𝕜 := 𝕜) (n := n) none)) (by rw [i3]) f0
  have hdf : 0 ≤ hsDfdxb big (rmsNorm (df (a + da) y - df a y)) da ∧
      hsDfdxb big (rmsNorm (df (a + da) y - df a y)) da ≤ M := by
    have hp : 0 < |da| := abs_pos.mpr da0
    unfold hsDfdxb
    split
    · exact ⟨div_nonneg (rmsNorm_nonneg _) hp.le, by rw [div_le_iff₀ hp]; exact hM⟩
    · rename_i h
      exact ⟨hbig, le_of_mul_le_mul_right ((not_lt.mp h).trans hM) hp⟩
  have htol : 0 < hsTolp etol tolmin morder := Real.rpow_pos_of_pos (by norm_num) _
  have hprod := mul_le_mul g1 g2 k2 hL0
  refine hsFinal_lower hab k1 k2 (add_nonneg hdf.1 (mul_nonneg k1 k2)) htol g1 g2 (add_le_add hdf.2 hprod) x1 x2 x3 x4 x5 x0

omit hn in
/-- **C15**. The estimate of the derivative with respect to time (`returnT=True`, used by the ESDIRK methods for DAEs) is
exact if the right-hand side is affine in time. -/
theorem C15_time_derivative (hab : a ≠ b) (T : Fin n → 𝕜)
    (hT : ∀ t i, df t y i = df a y i + (((t - a : ℝ)) : 𝕜) * T i) : hsReturnT small relper df a b y (df a y) = T := by
  have da0 : hsDa relper small a (b - a) ≠ 0 := by
    unfold hsDa
    exact pyOr_ne_zero _ (mul_ne_zero hrel.ne' (sub_ne_zero.mpr hab.symm))
  ext i
  unfold hsReturnT
  rw [hT, add_sub_cancel_left, add_sub_cancel_left, mul_comm, mul_div_assoc, div_self, mul_one]
  exact_mod_cast da0

end

/-- C15: a complex example meets the hypotheses of `C15_not_too_small`: `y' = i y`, `y(0) = 1`. -/
example : ∀ t : ℝ, ∀ z y : Fin 1 → ℂ,
    rmsNorm ((fun (_ : ℝ) (y : Fin 1 → ℂ) i => Complex.I * y i) t z - (fun (_ : ℝ) (y : Fin 1 → ℂ) i => Complex.I * y i) t y)
      ≤ 1 * rmsNorm (z - y) := by
  intro t z y
  rw [one_mul]
  refine le_of_eq (rmsNorm_congr fun i => ?_)
  simp [← mul_sub]

end Extensisq
