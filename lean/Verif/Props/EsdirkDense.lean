import Verif.Model.EsdirkDense
import Verif.Props.EsdirkWitness
import Verif.Props.Dense
import Verif.Lemmas.Dense
import Mathlib.Tactic.IntervalCases

/-! # C56, C76: dense output of the ESDIRK family -/

set_option linter.unusedSectionVars false

namespace Extensisq
open Finset

section
variable {K V : Type*} [Field K] [LinearOrder K] [IsStrictOrderedRing K] [AddCommGroup V] [Module K V]
variable {c : ECfg K V}

/-- The history attributes after a successful step. -/
theorem eStep_history (hc : ECfgOK c) {v v' : ESolver K V} (hi : VInv c v) {fuel : ℕ}
    (ht : c.tb ≠ some v.st.t) (h : eStep c fuel v = some (.ok, v')) :
    v'.tOld = some v.st.t ∧ v'.st.hPrev = some (v'.st.t - v.st.t) ∧ v'.st.yOld = some v.st.y ∧
      0 < (v'.st.t - v.st.t) * c.dir := by
  obtain ⟨l0, a0, -, hL0, -, -, -, e1, -, -, -, -, -, -, e9⟩ := eStep_accepted hc hi ht h
  rcases eStep_cases h with ⟨-, h2, -⟩ | ⟨-, h2, -⟩ | ⟨hrun, -, s', hs, hst, hcase⟩
  · cases h2
  · exact absurd h2 ht
  rcases eStepImpl_visits hs with ⟨-, h2, -⟩ | ⟨l, hv, hit⟩
  · cases h2
  have hL := hv.inv hc (hi hrun) ht
  obtain ⟨hge, a, x, f0, std, ha, hcv, he, hx, hf, hs'⟩ := eIter_ok hit
  have t1 : s'.t = v.st.t + hOf c l := by
    rw [hs', ← hL.t]
    show (s1Of c l).t + hOf c l = _
    rw [show (s1Of c l).t = l.s.t from factors_t _ _ _]
  refine ⟨?_, ?_, e9, ?_⟩
  · rcases hcase with hcase | hcase <;> simp_all
  · rw [hst, t1, show v.st.t + hOf c l - v.st.t = hOf c l by ring, hs']; rfl
  · rw [e1, show v.st.t + l0.hAbs * c.dir - v.st.t = l0.hAbs * c.dir by ring, mul_assoc]
    have : c.dir * c.dir = 1 := by rcases hc.dir with hd | hd <;> rw [hd] <;> ring
    rw [this, mul_one]
    exact hL0.pos

/-- What C56 asks of the coefficients: three stages, the intermediate point strictly inside the step. -/
structure MidOK (T : ETab K) : Prop where
  n : T.n = 3
  c0 : 0 < T.C 1
  c1 : T.C 1 < 1
  upper : T.A 1 2 = 0

/-- The dense output object after a successful step, in the order of increasing time. -/
theorem hsDense_eq (hc : ECfgOK c) (hT : ETabOK c.T) (hm : MidOK c.T) {v0 v v' : ESolver K V} {t0 : K} {y0 yp0 : V}
    {J0 : V →ₗ[K] V} (hn : IsNew v0 t0 y0 yp0 J0) (hr : EReach c v0 v) {fuel : ℕ}
    (ht : c.tb ≠ some v.st.t) (h : eStep c fuel v = some (.ok, v')) :
    let tm := v.st.t + c.T.C 1 * (v'.st.t - v.st.t)
    let ym := stageVal c.T v.st.y (v'.st.t - v.st.t) v'.st.Ks 1
    if 0 < c.dir then v.st.t < tm ∧ tm < v'.st.t ∧
      hsDense c v' = some ⟨v.st.t, v'.st.t, fun τ => if τ < tm then
        cubic v.st.t tm v.st.y ym v.st.yp (v'.st.Ks 1) τ else cubic tm v'.st.t ym v'.st.y (v'.st.Ks 1) v'.st.yp τ⟩
    else v'.st.t < tm ∧ tm < v.st.t ∧
      hsDense c v' = some ⟨v'.st.t, v.st.t, fun τ => if τ < tm then
        cubic v'.st.t tm v'.st.y ym v'.st.yp (v'.st.Ks 1) τ else cubic tm v.st.t ym v.st.y (v'.st.Ks 1) v.st.yp τ⟩ := by
  intro tm ym
  obtain ⟨h1, h2, h3, h4⟩ := eStep_history hc (hr.inv hc hn.inv) ht h
  obtain ⟨-, -, s3, s4⟩ := C38_solution hc hT hn hr ht h
  have hne : v'.st.t ≠ v.st.t := by
    intro e; rw [e, sub_self, zero_mul] at h4; exact lt_irrefl _ h4
  have hym : v.st.y + (v'.st.t - v.st.t) • ∑ j ∈ range c.T.n, c.T.A 1 j • v'.st.Ks j = ym := by
    show _ = stageVal _ _ _ _ _
    unfold stageVal
    rw [hm.n, sum_range_succ, hm.upper, zero_smul, add_zero]
  have hd : hsDense c v' = hsDenseImpl c (v'.st.t - v.st.t) v.st.t v'.st.t v.st.y v'.st.y v'.st.Ks := by
    unfold hsDense eDenseOutput
    rw [h1, h2, h3]
    dsimp only
    rw [if_neg hne]
  have s3' : v'.st.Ks 2 = v'.st.yp := by rw [s3, hm.n]
  rw [hd]
  unfold hsDenseImpl
  dsimp only
  rw [hym, s3', s4]
  have c0 := hm.c0
  have c1 := hm.c1
  have etm : v.st.t + c.T.C 1 * (v'.st.t - v.st.t) = tm := rfl
  rw [etm]
  rcases hc.dir with hdir | hdir
  · rw [hdir, mul_one] at h4
    rw [hdir, if_pos one_pos, if_pos one_pos]
    have a1 : v.st.t < tm := by show _ < _ + _; nlinarith
    have a2 : tm < v'.st.t := by show _ + _ < _; nlinarith
    refine ⟨a1, a2, ?_⟩
    unfold pwCubic spline3
    rw [if_pos ⟨a1, a2⟩]; rfl
  · have hd' : ¬ (0 : K) < c.dir := by rw [hdir]; simp
    rw [hdir] at h4
    rw [if_neg hd', if_neg hd']
    have a1 : v'.st.t < tm := by show _ < _ + _; nlinarith
    have a2 : tm < v.st.t := by show _ + _ < _; nlinarith
    refine ⟨a1, a2, ?_⟩
    unfold pwCubic spline3
    rw [if_pos ⟨a1, a2⟩]; rfl

/-- **C56**. After every successful step of TRBDF2 or TRX2, in both directions, the dense output exists, its own
end points are in increasing order, and it takes the old solution at the old time, the new solution at the new
time and the value of the intermediate stage at the intermediate time. -/
theorem C56_values (hc : ECfgOK c) (hT : ETabOK c.T) (hm : MidOK c.T) {v0 v v' : ESolver K V} {t0 : K} {y0 yp0 : V}
    {J0 : V →ₗ[K] V} (hn : IsNew v0 t0 y0 yp0 J0) (hr : EReach c v0 v) {fuel : ℕ}
    (ht : c.tb ≠ some v.st.t) (h : eStep c fuel v = some (.ok, v')) :
    ∃ o, hsDense c v' = some o ∧ o.tOld = min v.st.t v'.st.t ∧ o.t = max v.st.t v'.st.t ∧
      o.eval v.st.t = v.st.y ∧ o.eval v'.st.t = v'.st.y ∧
      o.eval (v.st.t + c.T.C 1 * (v'.st.t - v.st.t)) =
        v.st.y + (v'.st.t - v.st.t) • (c.T.A 1 0 • v.st.yp + c.T.A 1 1 • v'.st.Ks 1) := by
  obtain ⟨-, -, -, s4⟩ := C38_solution hc hT hn hr ht h
  have hd := hsDense_eq hc hT hm hn hr ht h
  have hmid : v.st.y + (v'.st.t - v.st.t) • (c.T.A 1 0 • v.st.yp + c.T.A 1 1 • v'.st.Ks 1) =
      stageVal c.T v.st.y (v'.st.t - v.st.t) v'.st.Ks 1 := by
    unfold stageVal
    rw [sum_range_succ, sum_range_one, s4]
  rw [hmid]
  dsimp only at hd
  generalize stageVal c.T v.st.y (v'.st.t - v.st.t) v'.st.Ks 1 = ym at hd ⊢
  generalize v.st.t + c.T.C 1 * (v'.st.t - v.st.t) = tm at hd ⊢
  split_ifs at hd with hdir
  · obtain ⟨a1, a2, e⟩ := hd
    refine ⟨_, e, (min_eq_left (a1.trans a2).le).symm, (max_eq_right (a1.trans a2).le).symm, ?_, ?_, ?_⟩
    · dsimp only
      rw [if_pos a1]; exact (C24_cubic_ends a1.ne' _ _ _ _).1
    · dsimp only
      rw [if_neg a2.le.not_gt]; exact (C24_cubic_ends a2.ne' _ _ _ _).2
    · dsimp only
      rw [if_neg (lt_irrefl _)]; exact (C24_cubic_ends a2.ne' _ _ _ _).1
  · obtain ⟨a1, a2, e⟩ := hd
    refine ⟨_, e, (min_eq_right (a1.trans a2).le).symm, (max_eq_left (a1.trans a2).le).symm, ?_, ?_, ?_⟩
    · dsimp only
      rw [if_neg a2.le.not_gt]; exact (C24_cubic_ends a2.ne' _ _ _ _).2
    · dsimp only
      rw [if_pos a1]; exact (C24_cubic_ends a1.ne' _ _ _ _).1
    · dsimp only
      rw [if_neg (lt_irrefl _)]; exact (C24_cubic_ends a2.ne' _ _ _ _).1

end

section
variable {E : Type*} [NormedAddCommGroup E] [NormedSpace ℝ E]

/-- Two cubics with common value and derivative at the joint make a differentiable function. -/
theorem spline_derivs {T0 T1 T2 : ℝ} (h1 : T0 < T1) (h2 : T1 < T2) (Y0 Y1 Y2 D0 D1 D2 : E) :
    let g : ℝ → E := fun τ => if τ < T1 then cubic T0 T1 Y0 Y1 D0 D1 τ else cubic T1 T2 Y1 Y2 D1 D2 τ
    HasDerivAt g D0 T0 ∧ HasDerivAt g D1 T1 ∧ HasDerivAt g D2 T2 := by
  intro g
  have l := C24_cubic_derivatives h1.ne' Y0 Y1 D0 D1
  have r := C24_cubic_derivatives h2.ne' Y1 Y2 D1 D2
  refine ⟨?_, ?_, ?_⟩
  · apply l.1.congr_of_eventuallyEq
    filter_upwards [eventually_lt_nhds h1] with τ hτ
    show ite _ _ _ = _
    rw [if_pos hτ]
  · have hl : HasDerivWithinAt g D1 (Set.Iic T1) T1 := by
      apply (l.2.hasDerivWithinAt (s := Set.Iic T1)).congr
      · intro τ hτ
        show ite _ _ _ = _
        rcases lt_or_eq_of_le (Set.mem_Iic.mp hτ) with hh | hh
        · rw [if_pos hh]
        · rw [hh, if_neg (lt_irrefl _), (C24_cubic_ends h2.ne' _ _ _ _).1, (C24_cubic_ends h1.ne' _ _ _ _).2]
      · show ite _ _ _ = _
        rw [if_neg (lt_irrefl _), (C24_cubic_ends h2.ne' _ _ _ _).1, (C24_cubic_ends h1.ne' _ _ _ _).2]
    have hr : HasDerivWithinAt g D1 (Set.Ici T1) T1 := by
      apply (r.1.hasDerivWithinAt (s := Set.Ici T1)).congr
      · intro τ hτ
        show ite _ _ _ = _
        rw [if_neg (not_lt.mpr (Set.mem_Ici.mp hτ))]
      · show ite _ _ _ = _
        rw [if_neg (lt_irrefl _)]
    have := hl.union hr
    rwa [Set.Iic_union_Ici, hasDerivWithinAt_univ] at this
  · apply r.2.congr_of_eventuallyEq
    filter_upwards [eventually_gt_nhds h2] with τ hτ
    show ite _ _ _ = _
    rw [if_neg (not_lt.mpr (le_of_lt hτ))]

/-- **C56**. ... and it is differentiable at these three points, where its derivatives are the stored derivative at
the old time, that of the intermediate stage and the stored derivative at the new time (which is the one the
next step starts with, so that the pieces of consecutive steps join continuously differentiably). -/
theorem C56_derivatives {c : ECfg ℝ E} (hc : ECfgOK c) (hT : ETabOK c.T) (hm : MidOK c.T) {v0 v v' : ESolver ℝ E}
    {t0 : ℝ} {y0 yp0 : E} {J0 : E →ₗ[ℝ] E} (hn : IsNew v0 t0 y0 yp0 J0) (hr : EReach c v0 v) {fuel : ℕ}
    (ht : c.tb ≠ some v.st.t) (h : eStep c fuel v = some (.ok, v')) :
    ∃ o, hsDense c v' = some o ∧ HasDerivAt o.eval v.st.yp v.st.t ∧ HasDerivAt o.eval v'.st.yp v'.st.t ∧
      HasDerivAt o.eval (v'.st.Ks 1) (v.st.t + c.T.C 1 * (v'.st.t - v.st.t)) := by
  have hd := hsDense_eq hc hT hm hn hr ht h
  dsimp only at hd
  split_ifs at hd with hdir
  · obtain ⟨a1, a2, e⟩ := hd
    obtain ⟨q1, q2, q3⟩ := spline_derivs a1 a2 v.st.y (stageVal c.T v.st.y (v'.st.t - v.st.t) v'.st.Ks 1) v'.st.y
      v.st.yp (v'.st.Ks 1) v'.st.yp
    exact ⟨_, e, q1, q3, q2⟩
  · obtain ⟨a1, a2, e⟩ := hd
    obtain ⟨q1, q2, q3⟩ := spline_derivs a1 a2 v'.st.y (stageVal c.T v.st.y (v'.st.t - v.st.t) v'.st.Ks 1) v.st.y
      v'.st.yp (v'.st.Ks 1) v.st.yp
    exact ⟨_, e, q3, q1, q2⟩

/-- **C56**. The outputs of two consecutive steps have the same value and the same derivative at the common time. -/
theorem C56_joins {c : ECfg ℝ E} (hc : ECfgOK c) (hT : ETabOK c.T) (hm : MidOK c.T) {v0 v v1 v2 : ESolver ℝ E}
    {t0 : ℝ} {y0 yp0 : E} {J0 : E →ₗ[ℝ] E} (hn : IsNew v0 t0 y0 yp0 J0) (hr : EReach c v0 v) {f1 f2 : ℕ}
    (ht : c.tb ≠ some v.st.t) (h : eStep c f1 v = some (.ok, v1))
    (ht1 : c.tb ≠ some v1.st.t) (h1 : eStep c f2 v1 = some (.ok, v2)) :
    ∃ o1 o2, hsDense c v1 = some o1 ∧ hsDense c v2 = some o2 ∧ o1.eval v1.st.t = o2.eval v1.st.t ∧
      ∃ d, HasDerivAt o1.eval d v1.st.t ∧ HasDerivAt o2.eval d v1.st.t := by
  have hr1 : EReach c v0 v1 := hr.tail h (fun h => by cases h)
  obtain ⟨o1, a1, -, -, -, a2, -⟩ := C56_values hc hT hm hn hr ht h
  obtain ⟨o1', b1, -, b2, -⟩ := C56_derivatives hc hT hm hn hr ht h
  obtain ⟨o2, a3, -, -, a4, -⟩ := C56_values hc hT hm hn hr1 ht1 h1
  obtain ⟨o2', b3, b4, -⟩ := C56_derivatives hc hT hm hn hr1 ht1 h1
  rw [a1] at b1; cases b1
  rw [a3] at b3; cases b3
  exact ⟨o1, o2, a1, a3, by rw [a2, a4], _, b2, b4⟩

end

/-! ### Coefficients -/

section
variable {K : Type*} [Field K] [LinearOrder K] [IsStrictOrderedRing K]

theorem TRX2_mid (r : K) : MidOK (TRX2.tab K r) := by
  constructor
  · rfl
  · show (0 : K) < Q2.val r ⟨1 / 2, 0⟩
    simp [Q2.val]
  · show Q2.val r ⟨1 / 2, 0⟩ < (1 : K)
    simp [Q2.val]
    norm_num
  · show Q2.val r ⟨0, 0⟩ = 0
    simp [Q2.val]

/-- For `TRBDF2` the intermediate point is `2 - sqrt 2`. -/
theorem TRBDF2_mid (r : K) (hr : r * r = 2) (h0 : 0 < r) : MidOK (TRBDF2.tab K r) := by
  have h1 : 1 < r := by nlinarith
  have h2 : r < 2 := by nlinarith
  constructor
  · rfl
  · show (0 : K) < Q2.val r ⟨2, -1⟩
    simp only [Q2.val]; push_cast; linarith
  · show Q2.val r ⟨2, -1⟩ < (1 : K)
    simp only [Q2.val]; push_cast; linarith
  · show Q2.val r ⟨0, 0⟩ = 0
    simp [Q2.val]

theorem TRBDF2_ok (r : K) (hr : r * r = 2) : ETabOK (TRBDF2.tab K r) := by
  constructor
  · show 2 ≤ 3; omega
  · intro s h1 h2
    have h2 : s < 3 := h2
    interval_cases s <;> rfl
  · intro j hj
    have hj : j < 3 := hj
    interval_cases j <;> rfl
  · show Q2.val r ⟨1, 0⟩ = 1
    simp [Q2.val]

theorem TRX2_ok' (r : K) : ETabOK (TRX2.tab K r) := by
  constructor
  · show 2 ≤ 3; omega
  · intro s h1 h2
    have h2 : s < 3 := h2
    interval_cases s <;> rfl
  · intro j hj
    have hj : j < 3 := hj
    interval_cases j <;> rfl
  · show Q2.val r ⟨1, 0⟩ = 1
    simp [Q2.val]

end
end Extensisq
