import Verif.Model.HStart
import Mathlib.Analysis.InnerProductSpace.PiL2

/-! # C12 (error scale, RMS norm) and C15 (automatic first step) -/

namespace Extensisq
open Finset

section
variable {𝕜 : Type*} [RCLike 𝕜] {n : ℕ}

/-! ## C12 -/

/-- **C12**. The error scale is positive in every component and symmetric in the two states; so is the
`_mean` variant, which is never larger. -/
theorem C12_scale {atol : Fin n → ℝ} {rtol : ℝ} (ha : ∀ i, 0 < atol i) (hr : 0 ≤ rtol)
    (y z : Fin n → 𝕜) (i : Fin n) :
    0 < errScale atol rtol y z i ∧ errScale atol rtol y z i = errScale atol rtol z y i ∧
    0 < errScaleMean atol rtol y z i ∧ errScaleMean atol rtol y z i = errScaleMean atol rtol z y i ∧
    errScaleMean atol rtol y z i ≤ errScale atol rtol y z i := by
  unfold errScale errScaleMean
  have h1 := norm_nonneg (y i)
  have h2 := norm_nonneg (z i)
  have h3 : 0 ≤ max ‖y i‖ ‖z i‖ := le_max_of_le_left h1
  refine ⟨?_, by rw [max_comm], ?_, by rw [add_comm ‖y i‖], ?_⟩
  · have := mul_nonneg hr h3; linarith [ha i]
  · have := mul_nonneg hr (add_nonneg h1 h2); nlinarith [ha i]
  · have e1 := le_max_left ‖y i‖ ‖z i‖
    have e2 := le_max_right ‖y i‖ ‖z i‖
    have : rtol * (1 / 2 * (‖y i‖ + ‖z i‖)) ≤ rtol * max ‖y i‖ ‖z i‖ :=
      mul_le_mul_of_nonneg_left (by linarith) hr
    linarith

/-- The RMS norm is the Euclidean norm divided by `sqrt(n)`. -/
theorem rmsNorm_eq (x : Fin n → 𝕜) : rmsNorm x = ‖WithLp.toLp 2 x‖ / Real.sqrt n := by
  unfold rmsNorm
  rw [EuclideanSpace.norm_eq, ← Real.sqrt_div (by positivity)]
  congr 2
  rw [map_sum]
  apply sum_congr rfl
  intro i _
  rw [RCLike.mul_conj]
  norm_cast

/-- **C12**. The RMS norm is a norm. -/
theorem C12_norm (hn : 0 < n) (x z : Fin n → 𝕜) (c : 𝕜) :
    0 ≤ rmsNorm x ∧ (rmsNorm x = 0 ↔ x = 0) ∧ rmsNorm (c • x) = ‖c‖ * rmsNorm x ∧
    rmsNorm (x + z) ≤ rmsNorm x + rmsNorm z := by
  have hs : 0 < Real.sqrt n := Real.sqrt_pos.mpr (by exact_mod_cast hn)
  refine ⟨Real.sqrt_nonneg _, ?_, ?_, ?_⟩
  · rw [rmsNorm_eq, div_eq_zero_iff, norm_eq_zero]
    constructor
    · rintro (h | h)
      · exact (WithLp.toLp_eq_zero 2).mp h
      · exact absurd h hs.ne'
    · intro h; left; rw [h]; rfl
  · rw [rmsNorm_eq, rmsNorm_eq, WithLp.toLp_smul, norm_smul, mul_div_assoc]
  · rw [rmsNorm_eq, rmsNorm_eq, rmsNorm_eq, WithLp.toLp_add, ← add_div]
    exact div_le_div_of_nonneg_right (norm_add_le _ _) hs.le

/-- **C12**. What the acceptance test `norm(e / scale) < 1` says about the components, and a sufficient
condition for it. -/
theorem C12_acceptance (hn : 0 < n) {atol : Fin n → ℝ} {rtol : ℝ} (ha : ∀ i, 0 < atol i)
    (hr : 0 ≤ rtol) (y z e : Fin n → 𝕜) :
    (scaledNorm atol rtol y z e < 1 →
      ∀ i, ‖e i‖ < Real.sqrt n * errScale atol rtol y z i) ∧
    ((∀ i, ‖e i‖ ≤ errScale atol rtol y z i) → scaledNorm atol rtol y z e ≤ 1) ∧
    ((∀ i, ‖e i‖ < errScale atol rtol y z i) → scaledNorm atol rtol y z e < 1) := by
  have hs : 0 < Real.sqrt n := Real.sqrt_pos.mpr (by exact_mod_cast hn)
  have hpos : ∀ i, 0 < errScale atol rtol y z i := fun i => (C12_scale ha hr y z i).1
  set q : Fin n → 𝕜 := fun i => e i / ((errScale atol rtol y z i : ℝ) : 𝕜) with hq
  have hqn : ∀ i, ‖q i‖ = ‖e i‖ / errScale atol rtol y z i := by
    intro i
    rw [hq]; simp only
    rw [norm_div, RCLike.norm_ofReal, abs_of_pos (hpos i)]
  have hsn : scaledNorm atol rtol y z e = Real.sqrt (∑ i, ‖q i‖ ^ 2) / Real.sqrt n := by
    unfold scaledNorm
    rw [rmsNorm_eq, EuclideanSpace.norm_eq]
  refine ⟨?_, ?_, ?_⟩
  · intro h i
    rw [hsn, div_lt_one hs] at h
    have h1 : ‖q i‖ ≤ Real.sqrt (∑ i, ‖q i‖ ^ 2) := by
      apply Real.le_sqrt_of_sq_le
      exact single_le_sum (f := fun i => ‖q i‖ ^ 2) (fun j _ => by positivity) (mem_univ i)
    have h2 : ‖q i‖ < Real.sqrt n := lt_of_le_of_lt h1 h
    rw [hqn, div_lt_iff₀ (hpos i)] at h2
    exact h2
  · intro h
    rw [hsn, div_le_one hs]
    apply Real.sqrt_le_sqrt
    calc ∑ i, ‖q i‖ ^ 2 ≤ ∑ _i : Fin n, (1 : ℝ) := by
          apply sum_le_sum
          intro i _
          have : ‖q i‖ ≤ 1 := by rw [hqn, div_le_one (hpos i)]; exact h i
          have h0 := norm_nonneg (q i)
          nlinarith
      _ = n := by simp
  · intro h
    rw [hsn, div_lt_one hs]
    apply Real.sqrt_lt_sqrt (sum_nonneg fun i _ => by positivity)
    haveI : Nonempty (Fin n) := ⟨⟨0, hn⟩⟩
    calc ∑ i, ‖q i‖ ^ 2 < ∑ _i : Fin n, (1 : ℝ) := by
          apply sum_lt_sum_of_nonempty univ_nonempty
          intro i _
          have : ‖q i‖ < 1 := by rw [hqn, div_lt_one (hpos i)]; exact h i
          have h0 := norm_nonneg (q i)
          nlinarith
      _ = n := by simp

/-- The error norm decreases if the tolerances increase. -/
theorem C12_monotone_tol (hn : 0 < n) {atol atol' : Fin n → ℝ} {rtol rtol' : ℝ} (ha : ∀ i, 0 < atol i)
    (hr : 0 ≤ rtol) (haa : ∀ i, atol i ≤ atol' i) (hrr : rtol ≤ rtol') (y z e : Fin n → 𝕜) :
    scaledNorm atol' rtol' y z e ≤ scaledNorm atol rtol y z e := by
  have hs : 0 < Real.sqrt n := Real.sqrt_pos.mpr (by exact_mod_cast hn)
  unfold scaledNorm
  rw [rmsNorm_eq, rmsNorm_eq, EuclideanSpace.norm_eq, EuclideanSpace.norm_eq]
  apply div_le_div_of_nonneg_right _ hs.le
  apply Real.sqrt_le_sqrt
  apply sum_le_sum
  intro i _
  have h1 := (C12_scale ha hr y z i).1
  have h2 : errScale atol rtol y z i ≤ errScale atol' rtol' y z i := by
    unfold errScale
    have h3 : 0 ≤ max ‖y i‖ ‖z i‖ := le_max_of_le_left (norm_nonneg _)
    have := mul_le_mul_of_nonneg_right hrr h3
    linarith [haa i]
  have h4 : 0 < errScale atol' rtol' y z i := lt_of_lt_of_le h1 h2
  simp only [norm_div, RCLike.norm_ofReal, abs_of_pos h1, abs_of_pos h4]
  apply pow_le_pow_left₀ (by positivity)
  exact div_le_div_of_nonneg_left (norm_nonneg _) h1 h2

/-- C12: a concrete case with two components. -/
example : (∀ i, (0 : ℝ) < (fun _ : Fin 2 => (1e-6 : ℝ)) i) ∧ (0 : ℝ) ≤ 1e-3 := by
  constructor
  · intro _; norm_num
  · norm_num

end

/-! ## C15 -/

section
variable {𝕜 : Type*} [RCLike 𝕜] {n : ℕ}

theorem rmsNorm_nonneg (x : Fin n → 𝕜) : 0 ≤ rmsNorm x := Real.sqrt_nonneg _

theorem copysign_pos {x d : ℝ} (hd : 0 < d) : copysign x d = x := by
  unfold copysign; rw [if_pos hd.le]

theorem copysign_neg {x d : ℝ} (hd : d < 0) : copysign x d = -x := by
  unfold copysign; rw [if_neg (not_le.mpr hd)]

theorem abs_copysign (x d : ℝ) : |copysign x d| = |x| := by
  unfold copysign; split_ifs
  · rfl
  · exact abs_neg x

theorem pyOr_ne_zero {α : Type*} [Zero α] (x : α) {z : α} (hz : z ≠ 0) : pyOr x z ≠ 0 := by
  unfold pyOr
  split
  · exact hz
  · assumption

/-- The final part with arbitrary non-negative estimates. -/
theorem hsFinal_spec {small a b dfdub fbnd ydpb tolp : ℝ} (hsm : 0 < small) (hab : a ≠ b)
    (h1 : 0 ≤ dfdub) (h2 : 0 ≤ fbnd) (h3 : 0 ≤ ydpb) (h4 : 0 < tolp) :
    ∃ H, 0 < H ∧ hsFinal small a b dfdub fbnd ydpb tolp = (if a < b then H else -H) ∧
      H ≤ max |b - a| (100 * small * |a|) ∧
      (dfdub ≠ 0 → H ≤ max (1 / dfdub) (100 * small * |a|)) ∧ 100 * small * |a| ≤ H := by
  have hdx : 0 < |b - a| := abs_pos.mpr (sub_ne_zero.mpr (Ne.symm hab))
  set h0 := (if ydpb = 0 ∧ fbnd = 0 then (if tolp < 1 then |b - a| * tolp else |b - a|)
    else if ydpb = 0 then (if tolp < fbnd * |b - a| then tolp / fbnd else |b - a|)
    else if tolp < Real.sqrt (1 / 2 * ydpb) * |b - a| then tolp / Real.sqrt (1 / 2 * ydpb)
      else |b - a|) with hh0
  have e0 : 0 < h0 ∧ h0 ≤ |b - a| := by
    rw [hh0]
    split_ifs with c1 c2 c3 c4 c5
    · exact ⟨mul_pos hdx h4, by nlinarith⟩
    · exact ⟨hdx, le_rfl⟩
    · have hf : 0 < fbnd := lt_of_le_of_ne h2 (fun h => c1 ⟨c3, h.symm⟩)
      exact ⟨div_pos h4 hf, by rw [div_le_iff₀ hf]; nlinarith⟩
    · exact ⟨hdx, le_rfl⟩
    · have hy : 0 < ydpb := lt_of_le_of_ne h3 (Ne.symm c3)
      have hf : 0 < Real.sqrt (1 / 2 * ydpb) := Real.sqrt_pos.mpr (by positivity)
      exact ⟨div_pos h4 hf, by rw [div_le_iff₀ hf]; nlinarith⟩
    · exact ⟨hdx, le_rfl⟩
  set h1' := (if dfdub ≠ 0 then min h0 (1 / dfdub) else h0) with hh1
  have e1 : 0 < h1' ∧ h1' ≤ |b - a| ∧ (dfdub ≠ 0 → h1' ≤ 1 / dfdub) := by
    rw [hh1]
    split_ifs with c
    · have hd : 0 < dfdub := lt_of_le_of_ne h1 (Ne.symm c)
      exact ⟨lt_min e0.1 (by positivity), (min_le_left _ _).trans e0.2, fun _ => min_le_right _ _⟩
    · exact ⟨e0.1, e0.2, fun h => absurd h c⟩
  set h2' := max h1' (100 * small * |a|) with hh2
  have e2 : 0 < h2' := lt_max_of_lt_left e1.1
  have e3 : hsFinal small a b dfdub fbnd ydpb tolp = copysign h2' (b - a) := by
    have : hsFinal small a b dfdub fbnd ydpb tolp = copysign (pyOr h2' (small * |b|)) (b - a) := rfl
    rw [this]; unfold pyOr; rw [if_neg e2.ne']
  refine ⟨h2', e2, ?_, ?_, ?_, le_max_right _ _⟩
  · rw [e3]
    split_ifs with c
    · exact copysign_pos (by linarith)
    · exact copysign_neg (by
        have := lt_of_le_of_ne (not_lt.mp c) (Ne.symm hab)
        linarith)
  · exact max_le_max e1.2.1 le_rfl
  · intro hd; exact max_le_max (e1.2.2 hd) le_rfl

theorem hsLoop_spec (df : ℝ → (Fin n → 𝕜) → Fin n → 𝕜) (a da dely relper big : ℝ) (hb : 0 ≤ big)
    (y yprime sf : Fin n → 𝕜) (lk : ℕ) :
    ∀ (m k : ℕ) (st : HsState 𝕜 n), 0 ≤ st.dfdub → 0 ≤ st.fbnd →
      0 ≤ (hsLoop df a da dely relper big y yprime sf lk m k st).dfdub ∧
      0 ≤ (hsLoop df a da dely relper big y yprime sf lk m k st).fbnd ∧
      (hsLoop df a da dely relper big y yprime sf lk m k st).evals ≤ st.evals + m := by
  intro m
  induction m with
  | zero => intro k st h1 h2; exact ⟨h1, h2, le_rfl⟩
  | succ m ih =>
    intro k st h1 h2
    unfold hsLoop
    dsimp only
    have hf : ∀ x : ℝ, 0 ≤ max st.fbnd x := fun x => le_max_of_le_left h2
    have hd : ∀ x : ℝ, 0 ≤ max st.dfdub x := fun x => le_max_of_le_left h1
    split_ifs
    all_goals first
      | exact ⟨hb, hf _, by dsimp only; omega⟩
      | exact ⟨hd _, hf _, by dsimp only; omega⟩
      | (refine ⟨(ih _ _ (hd _) (hf _)).1, (ih _ _ (hd _) (hf _)).2.1,
          (ih _ _ (hd _) (hf _)).2.2.trans (by dsimp only; omega)⟩)

/-- **C15**. For every right-hand side, the automatic first step is non-zero, points from `a` to `b`, is at
most the larger of `|b-a|` and `100*small*|a|`, at most the inverse of the Lipschitz estimate (or the
floor `100*small*|a|`), at least the floor, and costs at most four evaluations. -/
theorem C15_first_step_usable {small big relper : ℝ} (hsm : 0 < small) (hbig : 0 ≤ big)
    (df : ℝ → (Fin n → 𝕜) → Fin n → 𝕜) {a b : ℝ} (hab : a ≠ b) (y yprime : Fin n → 𝕜) (morder : ℕ)
    (etol : Fin n → ℝ) (tolmin : ℝ) (Jn : Option ℝ) (hJ : ∀ J, Jn = some J → 0 ≤ J)
    (Td : Option (Fin n → 𝕜)) :
    let r := hStart small big relper df a b y yprime morder etol tolmin Jn Td
    ∃ H, 0 < H ∧ r.h = (if a < b then H else -H) ∧ H ≤ max |b - a| (100 * small * |a|) ∧
      (r.dfdub ≠ 0 → H ≤ max (1 / r.dfdub) (100 * small * |a|)) ∧ 100 * small * |a| ≤ H ∧
      0 ≤ r.dfdub ∧ r.evals ≤ 4 := by
  intro r
  have htol : 0 < hsTolp etol tolmin morder := Real.rpow_pos_of_pos (by norm_num) _
  have hdfdxb : ∀ x d : ℝ, 0 ≤ x → 0 ≤ hsDfdxb big x d := by
    intro x d hx; unfold hsDfdxb; split_ifs
    · positivity
    · exact hbig
  have main : ∀ (st : HsState 𝕜 n) (sf : Fin n → 𝕜) (da : ℝ), 0 ≤ st.dfdub → 0 ≤ st.fbnd →
      ∃ H, 0 < H ∧ hsFinal small a b st.dfdub st.fbnd
        (hsDfdxb big (rmsNorm (sf - yprime)) da + st.dfdub * st.fbnd) (hsTolp etol tolmin morder) =
          (if a < b then H else -H) ∧ H ≤ max |b - a| (100 * small * |a|) ∧
        (st.dfdub ≠ 0 → H ≤ max (1 / st.dfdub) (100 * small * |a|)) ∧ 100 * small * |a| ≤ H := by
    intro st sf da h1 h2
    exact hsFinal_spec hsm hab h1 h2
      (add_nonneg (hdfdxb _ _ (rmsNorm_nonneg _)) (mul_nonneg h1 h2)) htol
  have he : hsE0 Td ≤ 1 := by cases Td <;> simp [hsE0]
  cases Jn with
  | some J =>
    obtain ⟨H, h1, h2, h3, h4, h5⟩ := main
      { dfdub := J, fbnd := rmsNorm (hsSf df a (hsDa relper small a (b - a)) y yprime Td),
        yp := yprime, spy := yprime, delf := 0, evals := hsE0 Td }
      (hsSf df a (hsDa relper small a (b - a)) y yprime Td) (hsDa relper small a (b - a))
      (hJ J rfl) (rmsNorm_nonneg _)
    exact ⟨H, h1, h2, h3, h4, h5, hJ J rfl, le_trans he (by norm_num)⟩
  | none =>
    have hr : r = hStart small big relper df a b y yprime morder etol tolmin none Td := rfl
    unfold hStart at hr
    dsimp only at hr
    have hi : 0 ≤ (hsInit (rmsNorm (hsSf df a (hsDa relper small a (b - a)) y yprime Td)) yprime (hsE0 Td)).dfdub ∧
        0 ≤ (hsInit (rmsNorm (hsSf df a (hsDa relper small a (b - a)) y yprime Td)) yprime (hsE0 Td)).fbnd ∧
        (hsInit (rmsNorm (hsSf df a (hsDa relper small a (b - a)) y yprime Td)) yprime (hsE0 Td)).evals = hsE0 Td := by
      unfold hsInit
      split
      · exact ⟨le_rfl, le_max_of_le_left (rmsNorm_nonneg _), rfl⟩
      · exact ⟨le_rfl, le_max_of_le_left (rmsNorm_nonneg _), rfl⟩
    obtain ⟨g1, g2, g3⟩ := hsLoop_spec df a (hsDa relper small a (b - a))
      (hsDely relper (b - a) y) relper big hbig y yprime
      (hsSf df a (hsDa relper small a (b - a)) y yprime Td) (min (n + 1) 3) (min (n + 1) 3) 1
      (hsInit (rmsNorm (hsSf df a (hsDa relper small a (b - a)) y yprime Td)) yprime (hsE0 Td)) hi.1 hi.2.1
    obtain ⟨H, h1, h2, h3, h4, h5⟩ := main _
      (hsSf df a (hsDa relper small a (b - a)) y yprime Td) (hsDa relper small a (b - a)) g1 g2
    rw [hr]
    refine ⟨H, h1, h2, h3, h4, h5, g1, ?_⟩
    refine le_trans g3 ?_
    rw [hi.2.2]
    omega

/-- **C15**: with the Jacobian and time derivative supplied (DAE start of ESDIRK methods), `h_start` does
not evaluate the right-hand side at all. -/
theorem C15_no_evaluations_with_jacobian {small big relper : ℝ}
    (df : ℝ → (Fin n → 𝕜) → Fin n → 𝕜) (a b : ℝ) (y yprime : Fin n → 𝕜) (morder : ℕ)
    (etol : Fin n → ℝ) (tolmin J : ℝ) (T : Fin n → 𝕜) :
    (hStart small big relper df a b y yprime morder etol tolmin (some J) (some T)).evals = 0 := rfl

/-- **C15** (finding F20). For an unbounded interval starting at zero, the point at which `h_start`
samples the time dependence is infinite: in extended reals the expression of `common.py:617-618` with
`a = 0`, `dx = inf` is `inf`, so `fun` is evaluated at `t = inf`. -/
theorem C15_infinite_sample_point {relper : ℝ} (h : 0 < relper) :
    (let a : EReal := 0
     let dx : EReal := ⊤
     let m : EReal := max (min ((relper : EReal) * a) dx) 0
     if m = 0 then (relper : EReal) * dx else m) = ⊤ := by
  simp [EReal.coe_mul_top_of_pos h]

end
end Extensisq
