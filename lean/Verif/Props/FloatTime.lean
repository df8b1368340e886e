import Verif.Lemmas.FloatTime
import Verif.Model.Tables
import Verif.Model.NystromTables

/-!
# C89, C90: the time arithmetic with rounding

`RoundsToNearest p emin fl` (`Spec/Float.lean`) says that `fl` rounds to nearest; `FlOK` collects this and the
assumptions on the data. The factors by which the step sizes are multiplied after the attempts are arbitrary.
-/

namespace Extensisq

variable {p : ℕ} {emin : ℤ} {c : FlTime}

/-- The assumptions hold for the minimal step parameters computed by the code from any nodes. -/
theorem FlOK.ofNodes {fl : ℝ → ℝ} {C : List ℝ} {tb maxStep : Option ℝ} {dir hMinB : ℝ} (hp : 16 ≤ p)
    (hr : emin + 2 * p ≤ 0) (hfl : RoundsToNearest p emin fl) (hd : dir = 1 ∨ dir = -1)
    (hB : IsFloat p emin hMinB) (hB2 : 1000 * (2 : ℝ) ^ emin ≤ unitRoundoff p * hMinB)
    (htb : ∀ b, tb = some b → IsFloat p emin b) (hm : ∀ b, maxStep = some b → IsFloat p emin b) :
    FlOK p emin ⟨fl, tb, dir, maxStep, flHMinA fl (unitRoundoff p) C, hMinB⟩ :=
  ⟨hp, hr, hfl, hd, hB, hB2, htb, hm, (flHMinA_range hfl hp hr C).1, (flHMinA_range hfl hp hr C).2.1⟩

/-! ## C89 -/

section
variable (o : FlOK p emin c) {t h0 : ℝ} (ht : IsFloat p emin t) (hh : IsFloat p emin h0) (h0n : 0 ≤ h0)
include o ht hh h0n

private theorem advance_progress {h : ℝ} (hF : IsFloat p emin h) {rej : List ℝ} {acc : ℝ} {s' : ℝ × ℝ} (hacc : 0 ≤ acc)
    (e : flAdvance c t h (flMinStep c t h0) rej acc = some s') :
    0 < flMinStep c t h0 ∧ 4 / 5 * flMinStep c t h0 ≤ c.dir * (s'.1 - t) ∧
    IsFloat p emin s'.1 ∧ IsFloat p emin s'.2 ∧ 0 ≤ s'.2 := by
  obtain ⟨h', e1, rfl⟩ := FlOK.advance_some e
  obtain ⟨l1, l2⟩ := o.loop_some hF e1
  have hpos : 0 < h' := lt_of_lt_of_le (o.minStep_pos t h0) l1
  refine ⟨o.minStep_pos t h0, ?_, (o.hfl _).1, (o.hfl _).1, fl_nonneg o.hfl (by positivity)⟩
  have := o.advance_time ht hh h0n l2 l1
  dsimp only
  linarith

/-- **C89**. In floating point too, a successful step moves the time in the direction of integration, by at least
four fifths of the minimal step — whatever the error estimates were. -/
theorem C89_progress {rej : List ℝ} {acc : ℝ} {s' : ℝ × ℝ} (hacc : 0 ≤ acc) (e : flStep c t h0 rej acc = some s') :
    0 < flMinStep c t h0 ∧ 4 / 5 * flMinStep c t h0 ≤ c.dir * (s'.1 - t) ∧
    IsFloat p emin s'.1 ∧ IsFloat p emin s'.2 ∧ 0 ≤ s'.2 :=
  advance_progress o ht hh h0n (o.reassess_float hh) hacc e

/-- **C89** for the ESDIRK methods. -/
theorem C89_progress_esdirk {rej : List ℝ} {acc : ℝ} {s' : ℝ × ℝ} (hacc : 0 ≤ acc)
    (e : flStepE c t h0 rej acc = some s') :
    0 < flMinStep c t h0 ∧ 4 / 5 * flMinStep c t h0 ≤ c.dir * (s'.1 - t) ∧
    IsFloat p emin s'.1 ∧ IsFloat p emin s'.2 ∧ 0 ≤ s'.2 :=
  advance_progress o ht hh h0n (o.reassessE_float hh) hacc e

/-- **C89**. Every step that is attempted is at least the minimal step, for any factors. -/
theorem C89_attempt_not_small {rej : List ℝ} {acc : ℝ} {s' : ℝ × ℝ} (e : flStep c t h0 rej acc = some s') :
    ∃ h, flMinStep c t h0 ≤ h ∧ IsFloat p emin h ∧ s'.1 = c.fl (t + h * c.dir) := by
  obtain ⟨h', e1, rfl⟩ := FlOK.advance_some e
  obtain ⟨l1, l2⟩ := o.loop_some (o.reassess_float hh) e1
  exact ⟨h', l1, l2, rfl⟩

end

/-- **C89**. In any run the times are floats and never go backwards; they differ from the first one as soon as
one step has been made. -/
theorem C89_run (o : FlOK p emin c) {s s' : ℝ × ℝ} (h1 : IsFloat p emin s.1) (h2 : IsFloat p emin s.2) (h3 : 0 ≤ s.2)
    (r : FlReach c s s') :
    (IsFloat p emin s'.1 ∧ IsFloat p emin s'.2 ∧ 0 ≤ s'.2) ∧ (s' = s ∨ c.dir * s.1 < c.dir * s'.1) := by
  induction r with
  | refl => exact ⟨⟨h1, h2, h3⟩, Or.inl rfl⟩
  | step rej acc hrej hacc hr h ih =>
    obtain ⟨⟨i1, i2, i3⟩, i4⟩ := ih
    obtain ⟨q1, q2, q3, q4, q5⟩ := C89_progress o i1 i2 i3 hacc.le h
    refine ⟨⟨q3, q4, q5⟩, Or.inr ?_⟩
    rw [mul_sub] at q2
    rcases i4 with i4 | i4
    · rw [i4] at q1 q2; linarith
    · linarith

/-- **C89**. The stage times of a step that is not below the minimal step: for nodes in `[0, 1]`, of which no
two are closer than `1e-3` but distinct, distinct nodes give distinct rounded times, in the order of the nodes. -/
theorem C89_stage_times {C : List ℝ} (o : FlOK p emin c) (hA : c.hMinA = flHMinA c.fl (unitRoundoff p) C)
    (hC : ∀ x ∈ C, IsFloat p emin x ∧ 0 ≤ x ∧ x ≤ 1) (hclip : ¬ flCdiffRaw c.fl C < c.fl (1 / 1000))
    {t h0 : ℝ} (ht : IsFloat p emin t) (hh : IsFloat p emin h0) (h0n : 0 ≤ h0)
    {h : ℝ} (hm : flMinStep c t h0 ≤ h) {c1 c2 : ℝ} (h1 : c1 ∈ C) (h2 : c2 ∈ C) (hlt : c1 < c2) :
    c.dir * flStageTime c.fl t (h * c.dir) c1 < c.dir * flStageTime c.fl t (h * c.dir) c2 := by
  have hu := o.u_pos
  have hu2 := o.u_le
  have hpos : 0 < h := lt_of_lt_of_le (o.minStep_pos t h0) hm
  obtain ⟨f1, a1, b1⟩ := hC c1 h1
  obtain ⟨f2, a2, b2⟩ := hC c2 h2
  -- the distance of the nodes
  obtain ⟨r1, r2, r3⟩ := flHMinA_range o.hfl o.hp o.hrange C
  rw [← hA] at r3
  have hcd : flCdiff c.fl C = flCdiffRaw c.fl C := by unfold flCdiff; rw [if_neg hclip]
  have hne : c.fl (c2 - c1) ≠ 0 := fl_sub_ne_zero o.hfl o.hp o.hrange f2 f1 hlt.ne'
  have hd := flCdiffRaw_le c.fl C h2 h1 hne
  have herr := o.sub_error f2 f1
  rw [abs_of_pos (sub_pos.mpr hlt)] at herr
  have hδ : flCdiff c.fl C ≤ 65537 / 65536 * (c2 - c1) := by
    rw [hcd]
    refine hd.trans ?_
    rw [abs_of_nonneg (fl_nonneg o.hfl (sub_pos.mpr hlt).le)]
    have := (abs_le.mp herr).2
    have := mul_le_mul_of_nonneg_right hu2 (sub_pos.mpr hlt).le
    linarith
  obtain ⟨cl, cu⟩ := flCdiff_range o.hfl o.hp o.hrange C
  set δ := flCdiff c.fl C with hδd
  set D := c2 - c1 with hD
  -- the size of the step
  have g := (o.minStep_ge ht hh h0n).trans hm
  have g1 : 99 / 100 * (10 * unitRoundoff p * (1 - unitRoundoff p) * (|t| + h0)) ≤ δ * h := by
    have s0 : 0 ≤ |t| + h0 := add_nonneg (abs_nonneg _) h0n
    calc 99 / 100 * (10 * unitRoundoff p * (1 - unitRoundoff p) * (|t| + h0))
        ≤ 99 / 100 * (δ * c.hMinA * (|t| + h0)) := by
          apply mul_le_mul_of_nonneg_left _ (by norm_num)
          exact mul_le_mul_of_nonneg_right r3 s0
      _ = δ * (99 / 100 * (c.hMinA * (|t| + h0))) := by ring
      _ ≤ δ * h := mul_le_mul_of_nonneg_left g (by linarith)
  have g2 : 9 * (unitRoundoff p * |t|) ≤ δ * h := by
    refine le_trans ?_ g1
    have k1 : 0 ≤ unitRoundoff p * |t| := mul_nonneg hu.le (abs_nonneg t)
    have k2 : 0 ≤ unitRoundoff p * h0 := mul_nonneg hu.le h0n
    have k3 : unitRoundoff p * (unitRoundoff p * (|t| + h0)) ≤ 1 / 65536 * (unitRoundoff p * (|t| + h0)) :=
      mul_le_mul_of_nonneg_right hu2 (by rw [mul_add]; linarith)
    nlinarith
  have g3 : δ * h ≤ 65537 / 65536 * (D * h) := by
    have := mul_le_mul_of_nonneg_right hδ hpos.le
    linarith
  have g4 : 63 * (unitRoundoff p * h) ≤ δ * h := by
    have q1 : unitRoundoff p * h ≤ 1 / 65536 * h := mul_le_mul_of_nonneg_right hu2 hpos.le
    have q2 : 1 / 1024 * h ≤ δ * h := mul_le_mul_of_nonneg_right cl hpos.le
    linarith
  have g5 := o.tiny_le ((o.hMinB_le t h0).trans hm)
  have tiny0 : (0 : ℝ) < (2 : ℝ) ^ emin := by positivity
  -- rounding of a stage time
  have key : ∀ ν, 0 ≤ ν → ν ≤ 1 →
      |flStageTime c.fl t (h * c.dir) ν - (t + ν * (h * c.dir))| ≤
        unitRoundoff p * |t| + 3 * (unitRoundoff p * h) + (2 : ℝ) ^ emin := by
    intro ν n1 n2
    unfold flStageTime
    have e1 := fl_error o.hfl o.hp0 (ν * (h * c.dir))
    have e2 : |ν * (h * c.dir)| ≤ h := by
      rw [abs_mul, abs_mul, o.abs_dir, mul_one, abs_of_nonneg n1, abs_of_pos hpos]; nlinarith
    set w := c.fl (ν * (h * c.dir)) with hw
    have e3 : |w - ν * (h * c.dir)| ≤ unitRoundoff p * h + (2 : ℝ) ^ emin / 2 := by
      have := mul_le_mul_of_nonneg_left e2 hu.le
      linarith
    have e4 := fl_add_error o.hfl o.hp0 ht (o.hfl (ν * (h * c.dir))).1
    rw [← hw] at e4
    have e5 : |w| ≤ h + (unitRoundoff p * h + (2 : ℝ) ^ emin / 2) := by
      have := abs_add_le (ν * (h * c.dir)) (w - ν * (h * c.dir))
      rw [show ν * (h * c.dir) + (w - ν * (h * c.dir)) = w by ring] at this
      linarith
    have e6 : |t + w| ≤ |t| + (h + (unitRoundoff p * h + (2 : ℝ) ^ emin / 2)) := (abs_add_le _ _).trans (by linarith)
    have e7 := e4.trans (mul_le_mul_of_nonneg_left e6 hu.le)
    have e8 := abs_add_le (c.fl (t + w) - (t + w)) (w - ν * (h * c.dir))
    rw [show c.fl (t + w) - (t + w) + (w - ν * (h * c.dir)) = c.fl (t + w) - (t + ν * (h * c.dir)) by ring] at e8
    have e9 : unitRoundoff p * (unitRoundoff p * h + (2 : ℝ) ^ emin / 2) ≤
        1 / 65536 * (unitRoundoff p * h + (2 : ℝ) ^ emin / 2) :=
      mul_le_mul_of_nonneg_right hu2 (by positivity)
    have : 0 < unitRoundoff p * h := mul_pos hu hpos
    linarith [e7, e8, e3, e9, mul_add (unitRoundoff p) |t| (h + (unitRoundoff p * h + (2 : ℝ) ^ emin / 2)),
      mul_add (unitRoundoff p) h (unitRoundoff p * h + (2 : ℝ) ^ emin / 2)]
  have k1 := abs_le.mp (key c1 a1 b1)
  have k2 := abs_le.mp (key c2 a2 b2)
  have hDh : D * h = c2 * h - c1 * h := by rw [hD]; ring
  have uh : 0 < unitRoundoff p * h := mul_pos hu hpos
  rcases o.dir with e | e <;> rw [e] at k1 k2 ⊢
  · linarith [k1.2, k2.1]
  · linarith [k1.1, k2.2]

/-- **C89**. The nodes of the shipped explicit methods (Runge-Kutta and Nyström), rounded to floats, satisfy the assumptions of `C89_stage_times`:
they lie in `[0, 1]` and the distance of distinct nodes is not clipped. -/
theorem C89_shipped_nodes {fl : ℝ → ℝ} (hp : 16 ≤ p) (hr : emin + 2 * p ≤ 0) (hfl : RoundsToNearest p emin fl) :
    ∀ C ∈ [Me4.C, CK5.C, BS5.C, CFMR7osc.C, Ts5.C, Pr7.C, Pr8.C, Pr9.C, MR6NN.C, Fi4N.C, Fi5N.C, Mu5Nmb.C],
      (∀ x ∈ C.map (fun q : ℚ => fl q), IsFloat p emin x ∧ 0 ≤ x ∧ x ≤ 1) ∧
      ¬ flCdiffRaw fl (C.map fun q : ℚ => fl q) < fl (1 / 1000) := by
  intro C hR
  have hchk : ∀ C ∈ [Me4.C, CK5.C, BS5.C, CFMR7osc.C, Ts5.C, Pr7.C, Pr8.C, Pr9.C, MR6NN.C, Fi4N.C, Fi5N.C, Mu5Nmb.C],
      ∀ x ∈ C, (0 ≤ x ∧ x ≤ 1) ∧ ∀ y ∈ C, x = y ∨ 1 / 400 ≤ |x - y| := by decide +kernel
  have hu := unitRoundoff_pos (p := p)
  have hu2 := unitRoundoff_le hp
  have hone := isFloat_one hfl hp hr
  have tiny : (2 : ℝ) ^ emin ≤ 1 / 65536 := by
    have : (2 : ℝ) ^ emin ≤ 2 ^ (-16 : ℤ) := zpow_le_zpow_right₀ (by norm_num) (by omega)
    refine this.trans ?_
    norm_num
  have herr : ∀ x : ℝ, |x| ≤ 1 → |fl x - x| ≤ 2 / 65536 := by
    intro x hx
    have e := fl_error hfl (by omega : 0 < p) x
    have : unitRoundoff p * |x| ≤ 1 / 65536 * 1 := mul_le_mul hu2 hx (abs_nonneg _) (by norm_num)
    linarith
  have hcast : ∀ x ∈ C, |(x : ℝ)| ≤ 1 := by
    intro x hx
    obtain ⟨⟨a, b⟩, _⟩ := hchk C hR x hx
    rw [abs_of_nonneg (by exact_mod_cast a)]
    exact_mod_cast b
  constructor
  · intro x hx
    obtain ⟨q, hq, rfl⟩ := List.mem_map.mp hx
    obtain ⟨⟨a, b⟩, _⟩ := hchk C hR q hq
    exact ⟨(hfl _).1, fl_nonneg hfl (by exact_mod_cast a), fl_le hfl hone (by exact_mod_cast b)⟩
  · rw [not_lt]
    have hth := fl_thousandth hfl hp hr
    rcases flCdiffRaw_attained fl (C.map fun q : ℚ => fl q) with h | ⟨x, hx, y, hy, hne, h⟩
    · rw [h]; linarith
    · rw [h]
      obtain ⟨q, hq, rfl⟩ := List.mem_map.mp hx
      obtain ⟨r, hr', rfl⟩ := List.mem_map.mp hy
      rcases (hchk C hR q hq).2 r hr' with e | e
      · exfalso
        apply hne
        rw [e, sub_self, fl_zero hfl]
      · have e' : (1 : ℝ) / 400 ≤ |(q : ℝ) - r| := by
          have h4 : ((1 / 400 : ℚ) : ℝ) ≤ ((|q - r| : ℚ) : ℝ) := Rat.cast_le.mpr e
          push_cast at h4
          exact h4
        have a1 := herr q (hcast q hq)
        have a2 := herr r (hcast r hr')
        have a3 : 2 / 1000 + 4 / 10000 ≤ |fl q - fl r| := by
          have t1 := abs_sub_abs_le_abs_sub ((q : ℝ) - r) (fl q - fl r)
          have t2 := abs_add_le (fl q - q) (r - fl r)
          rw [abs_sub_comm (r : ℝ)] at t2
          rw [show (q : ℝ) - r - (fl q - fl r) = -(fl q - q + (r - fl r)) by ring, abs_neg] at t1
          linarith
        have hF : IsFloat p emin (1 / 512 : ℝ) := by
          refine ⟨1, -9, ?_, by omega, by norm_num⟩
          have : (2 : ℤ) ^ 16 ≤ 2 ^ p := pow_le_pow_right₀ (by norm_num) hp
          norm_num at this ⊢; linarith
        refine hth.2.trans ?_
        rcases le_total 0 (fl (q : ℝ) - fl r) with hs | hs
        · rw [abs_of_nonneg hs] at a3
          rw [abs_of_nonneg (fl_nonneg hfl hs)]
          exact le_fl hfl hF (by linarith)
        · rw [abs_of_nonpos hs] at a3
          rw [abs_of_nonpos (fl_nonpos hfl hs)]
          have := fl_le hfl hF.neg (show fl (q : ℝ) - fl r ≤ -(1 / 512) by linarith)
          linarith

/-! ## C90 -/

section
variable (o : FlOK p emin c) {t h0 b : ℝ} (hb : c.tb = some b) (ht : IsFloat p emin t)
include o hb ht

/-- Landing of a step size `h` that is not longer than the (rounded) rest of the interval. -/
private theorem land {h : ℝ} (hah : 0 ≤ c.dir * (b - t)) (h1 : h ≤ flRest c b t) :
    c.dir * (c.fl (t + h * c.dir) - b) ≤ 2 * (unitRoundoff p * |b - t|) ∧
    (IsFloat p emin (b - t) → c.dir * (c.fl (t + h * c.dir) - b) ≤ 0) := by
  have hu := o.u_pos
  have hbF := o.tb b hb
  have e1 := abs_le.mp (o.sub_error hbF ht)
  rw [o.rest_eq hah] at h1
  have u0 : 0 ≤ unitRoundoff p * |b - t| := mul_nonneg hu.le (abs_nonneg _)
  have near := (o.hfl (t + h * c.dir)).2 b hbF
  have fin : c.dir * (t + h * c.dir - b) ≤ 0 → c.dir * (c.fl (t + h * c.dir) - b) ≤ 0 := by
    intro hs
    rcases o.dir with e | e <;> rw [e] at hs ⊢
    · have := fl_le o.hfl hbF (show t + h * 1 ≤ b by linarith)
      linarith
    · have := le_fl o.hfl hbF (show b ≤ t + h * -1 by linarith)
      linarith
  constructor
  · rcases le_total (c.dir * (t + h * c.dir - b)) 0 with hs | hs
    · exact (fin hs).trans (by linarith)
    · have n := abs_le.mp near
      rcases o.dir with e | e <;> rw [e] at hs n h1 ⊢
      · rw [abs_of_nonpos (show b - (t + h * 1) ≤ 0 by linarith)] at n
        linarith [n.2, e1.2]
      · rw [abs_of_nonneg (show 0 ≤ b - (t + h * -1) by linarith)] at n
        linarith [n.1, e1.1]
  · intro hF
    rw [fl_of_float o.hfl hF] at h1
    apply fin
    rcases o.dir with e | e <;> rw [e] at h1 ⊢ <;> linarith

/-- Landing of the last step. -/
private theorem land_last (hah : 0 ≤ c.dir * (b - t)) :
    |c.fl (t + flRest c b t * c.dir) - b| ≤ 2 * (unitRoundoff p * |b - t|) ∧
    (IsFloat p emin (b - t) → c.fl (t + flRest c b t * c.dir) = b) := by
  have hbF := o.tb b hb
  have e1 := o.sub_error hbF ht
  have e2 : t + flRest c b t * c.dir = t + c.fl (b - t) := by
    rw [o.rest_eq hah, mul_comm, ← mul_assoc, o.dir_sq, one_mul]
  rw [e2]
  have near := (o.hfl (t + c.fl (b - t))).2 b hbF
  constructor
  · have h1 := abs_add_le (c.fl (t + c.fl (b - t)) - (t + c.fl (b - t))) (c.fl (b - t) - (b - t))
    rw [show c.fl (t + c.fl (b - t)) - (t + c.fl (b - t)) + (c.fl (b - t) - (b - t))
      = c.fl (t + c.fl (b - t)) - b by ring] at h1
    have h2 : |b - (t + c.fl (b - t))| = |c.fl (b - t) - (b - t)| := by
      rw [← abs_neg]; congr 1; ring
    linarith
  · intro hF
    rw [fl_of_float o.hfl hF, show t + (b - t) = b by ring, fl_of_float o.hfl hbF]

/-- **C90**. A step does not go past `t_bound` by more than the rounding of the rest of the interval — and not
at all if the difference `t_bound - t` is a float. (`min_step ≤ max_step` is assumed.) -/
theorem C90_no_overshoot (hh : IsFloat p emin h0) (hah : 0 ≤ c.dir * (b - t))
    (hmm : ∀ x, c.maxStep = some x → flMinStep c t h0 ≤ x) {rej : List ℝ} {acc : ℝ} (hr : ∀ φ ∈ rej, φ ≤ 1)
    {s' : ℝ × ℝ} (e : flStep c t h0 rej acc = some s') :
    c.dir * (s'.1 - b) ≤ 2 * (unitRoundoff p * |b - t|) ∧
    (IsFloat p emin (b - t) → c.dir * (s'.1 - b) ≤ 0) := by
  obtain ⟨h', e1, rfl⟩ := FlOK.advance_some e
  have hF := o.reassess_float (t := t) hh
  have hle := o.loop_le (o.minStep_pos t h0).le hr hF e1
  refine land o hb ht hah (hle.trans ?_)
  have hc : flMinStep c t h0 ≤ flClip c t h0 := FlOK.le_clip (le_refl _) hmm
  have hcp : 0 < flClip c t h0 := lt_of_lt_of_le (o.minStep_pos t h0) hc
  unfold flReassess flFit
  rw [hb]
  dsimp only
  split
  · split
    · rename_i hgt
      refine max_le (fl_le o.hfl (o.rest_float b t) ?_) (hc.trans (le_of_lt hgt))
      have : 0 ≤ flRest c b t := abs_nonneg _
      linarith
    · exact le_refl _
  · rename_i hn
    rw [fl_of_float o.hfl (o.clip_float hh).two_mul] at hn
    linarith

/-- **C90** for the ESDIRK methods. -/
theorem C90_no_overshoot_esdirk (hh : IsFloat p emin h0) (hah : 0 ≤ c.dir * (b - t))
    {rej : List ℝ} {acc : ℝ} (hr : ∀ φ ∈ rej, φ ≤ 1) {s' : ℝ × ℝ} (e : flStepE c t h0 rej acc = some s') :
    c.dir * (s'.1 - b) ≤ 2 * (unitRoundoff p * |b - t|) ∧
    (IsFloat p emin (b - t) → c.dir * (s'.1 - b) ≤ 0) := by
  obtain ⟨h', e1, rfl⟩ := FlOK.advance_some e
  have hF := o.reassessE_float (t := t) hh
  have hle := o.loop_le (o.minStep_pos t h0).le hr hF e1
  refine land o hb ht hah (hle.trans ?_)
  unfold flReassessE flFitE
  rw [hb]
  dsimp only
  split
  · exact le_refl _
  · rename_i hn
    exact not_lt.mp fun hc => hn (Or.inr hc)

omit ht in
private theorem last_step (hh : IsFloat p emin h0) (hl : flRest c b t ≤ flClip c t h0) {h' : ℝ}
    (e1 : flLoop c (flMinStep c t h0) [] (flReassess c t h0) = some h') : h' = flRest c b t := by
  unfold flLoop at e1
  split at e1
  · cases e1
  · cases e1
    rename_i hn
    have hpos : 0 < flReassess c t h0 := lt_of_lt_of_le (o.minStep_pos t h0) (not_lt.mp hn)
    unfold flReassess flFit at hpos ⊢
    rw [hb] at hpos ⊢
    dsimp only at hpos ⊢
    split
    · rw [if_neg (not_lt.mpr hl)]
    · rename_i h2
      rw [if_neg h2] at hpos
      rw [fl_of_float o.hfl (o.clip_float hh).two_mul] at h2
      linarith

omit o ht in
private theorem last_stepE
    (hl : |c.fl (c.fl (flRest c b t / flClip c t h0) - 1)| < c.fl (1 / 100) ∨ flRest c b t < flClip c t h0) {h' : ℝ}
    (e1 : flLoop c (flMinStep c t h0) [] (flReassessE c t h0) = some h') : h' = flRest c b t := by
  unfold flLoop at e1
  split at e1
  · cases e1
  · cases e1
    unfold flReassessE flFitE
    rw [hb]
    dsimp only
    rw [if_pos hl]

/-- **C90**. The last step: if the step size covers the rest of the interval and the first attempt is accepted,
the solver lands within `2u |t_bound - t|` of `t_bound`, and exactly on it if `t_bound - t` is a float. -/
theorem C90_landing (hh : IsFloat p emin h0) (hah : 0 ≤ c.dir * (b - t)) (hl : flRest c b t ≤ flClip c t h0) {acc : ℝ} {s' : ℝ × ℝ}
    (e : flStep c t h0 [] acc = some s') :
    |s'.1 - b| ≤ 2 * (unitRoundoff p * |b - t|) ∧ (IsFloat p emin (b - t) → s'.1 = b) := by
  obtain ⟨h', e1, rfl⟩ := FlOK.advance_some e
  have hs := last_step o hb hh hl e1
  subst hs
  exact land_last o hb ht hah

/-- **C90** for the ESDIRK methods, whose last step is the rest of the interval when that is shorter than the step
size, or within one percent of it. -/
theorem C90_landing_esdirk (hah : 0 ≤ c.dir * (b - t))
    (hl : |c.fl (c.fl (flRest c b t / flClip c t h0) - 1)| < c.fl (1 / 100) ∨ flRest c b t < flClip c t h0)
    {acc : ℝ} {s' : ℝ × ℝ} (e : flStepE c t h0 [] acc = some s') :
    |s'.1 - b| ≤ 2 * (unitRoundoff p * |b - t|) ∧ (IsFloat p emin (b - t) → s'.1 = b) := by
  obtain ⟨h', e1, rfl⟩ := FlOK.advance_some e
  have hs := last_stepE hb hl e1
  subst hs
  exact land_last o hb ht hah

omit hb in
/-- **C90**. When `t_bound - t` is a float: from zero, and whenever the step is not longer than the distances of
both ends from zero (so it does not cross zero and less than halves or doubles the time). -/
theorem C90_exact_cases (hbF : IsFloat p emin b) (h : t = 0 ∨ b = 0 ∨ |b - t| ≤ |b| ∧ |b - t| ≤ |t|) :
    IsFloat p emin (b - t) := by
  rcases h with rfl | rfl | ⟨h1, h2⟩
  · simpa using hbF
  · simpa using ht.neg
  · exact sterbenz hbF ht h1 h2

private theorem next_short {t' h0' φ : ℝ} (ht' : IsFloat p emin t')
    (hd : |t' - b| ≤ 2 * (unitRoundoff p * |b - t|)) (hh0 : h0' = c.fl (flRest c b t * φ))
    (hφ : 12 / 5 * unitRoundoff p ≤ φ * c.hMinA) :
    flRest c b t' < flMinStep c t' h0' ∧ 2 * flRest c b t' ≤ flRest c b t := by
  have hu := o.u_pos
  have hu2 := o.u_le
  have hbF := o.tb b hb
  have a0 : 0 < c.hMinA := lt_of_lt_of_le (by linarith) o.hMinA_ge
  have φ0 : 0 < φ := by
    by_contra hc
    have := mul_nonpos_of_nonpos_of_nonneg (not_lt.mp hc) a0.le
    linarith
  have r1 := abs_le.mp (o.rest_error hbF ht)
  have r2 := abs_le.mp (o.rest_error hbF ht')
  set D := |b - t| with hD
  have D0 : 0 ≤ D := abs_nonneg _
  rw [abs_sub_comm t' b] at hd
  set D' := |b - t'| with hD'
  have D'0 : 0 ≤ D' := abs_nonneg _
  set d := flRest c b t with hdd
  set d' := flRest c b t' with hdd'
  have d0 : 0 ≤ d := abs_nonneg _
  have q1 : unitRoundoff p * D ≤ 1 / 65536 * D := mul_le_mul_of_nonneg_right hu2 D0
  have q2 : unitRoundoff p * D' ≤ 1 / 65536 * D' := mul_le_mul_of_nonneg_right hu2 D'0
  have q3 : D ≤ 65536 / 65535 * d := by linarith [r1.1]
  have q4 : d' ≤ 21 / 10 * (unitRoundoff p * d) := by
    have := mul_le_mul_of_nonneg_left q3 hu.le
    have : 0 ≤ unitRoundoff p * d := mul_nonneg hu.le d0
    linarith [r2.2]
  have q5 : unitRoundoff p * d ≤ 1 / 65536 * d := mul_le_mul_of_nonneg_right hu2 d0
  refine ⟨?_, by linarith⟩
  have dφ : 0 ≤ d * φ := mul_nonneg d0 φ0.le
  have h0F : IsFloat p emin h0' := by rw [hh0]; exact (o.hfl _).1
  have h0n : 0 ≤ h0' := by rw [hh0]; exact fl_nonneg o.hfl dφ
  have g := o.minStep_ge ht' h0F h0n
  have e := fl_error o.hfl o.hp0 (d * φ)
  rw [← hh0, abs_of_nonneg dφ] at e
  have e' := (abs_le.mp e).1
  have q6 : unitRoundoff p * (d * φ) ≤ 1 / 65536 * (d * φ) := mul_le_mul_of_nonneg_right hu2 dφ
  have tiny := o.tiny_le (o.hMinB_le t' h0')
  have mp := o.minStep_pos t' h0'
  set m := flMinStep c t' h0' with hm
  have q7 : unitRoundoff p * m ≤ 1 / 65536 * m := mul_le_mul_of_nonneg_right hu2 mp.le
  have q8 : 65535 / 65536 * (d * φ) - (2 : ℝ) ^ emin / 2 ≤ h0' := by linarith
  have q9 : c.hMinA * (65535 / 65536 * (d * φ) - (2 : ℝ) ^ emin / 2) ≤ c.hMinA * (|t'| + h0') :=
    mul_le_mul_of_nonneg_left (by linarith [abs_nonneg t']) a0.le
  have q10 : c.hMinA * (2 : ℝ) ^ emin ≤ 1 * (2 : ℝ) ^ emin := mul_le_mul_of_nonneg_right o.hMinA_le (by positivity)
  have q11 : 12 / 5 * (unitRoundoff p * d) ≤ c.hMinA * (d * φ) := by
    have := mul_le_mul_of_nonneg_right hφ d0
    linarith
  have q12 : c.hMinA * (65535 / 65536 * (d * φ) - (2 : ℝ) ^ emin / 2) =
      65535 / 65536 * (c.hMinA * (d * φ)) - c.hMinA * (2 : ℝ) ^ emin / 2 := by ring
  have ud : 0 ≤ unitRoundoff p * d := mul_nonneg hu.le d0
  linarith

/-- **C90** (finding F36). If the last step lands short of `t_bound` — or beyond it, in the case that the integration
is continued — the next step fails: the rest of the interval is below the minimal step, and whatever the
error estimates would be the result is the error message about a too small step. The size factor after the accepted
step needs to be at least `12u / (5 h_min_a)`; with `h_min_a ≥ 10u` it is enough that it is at least `6/25`. -/
theorem C90_short_fails (hh : IsFloat p emin h0) (hah : 0 ≤ c.dir * (b - t)) (hl : flRest c b t ≤ flClip c t h0)
    {φ : ℝ} (hφ : 12 / 5 * unitRoundoff p ≤ φ * c.hMinA) {s' : ℝ × ℝ} (e : flStep c t h0 [] φ = some s') :
    ∀ rej acc, flStep c s'.1 s'.2 rej acc = none := by
  intro rej acc
  have hland := (C90_landing o hb ht hh hah hl e).1
  obtain ⟨h', e1, rfl⟩ := FlOK.advance_some e
  have hs := last_step o hb hh hl e1
  subst hs
  dsimp only at hland ⊢
  obtain ⟨s1, s2⟩ := next_short o hb ht (o.hfl _).1 hland rfl hφ
  have hF' : IsFloat p emin (c.fl (flRest c b t * φ)) := (o.hfl _).1
  generalize c.fl (t + flRest c b t * c.dir) = t' at *
  generalize c.fl (flRest c b t * φ) = h0' at *
  have d0 : 0 ≤ flRest c b t := abs_nonneg _
  have d0' : 0 ≤ flRest c b t' := abs_nonneg _
  have hcl : flRest c b t' ≤ flClip c t' h0' := by
    refine FlOK.le_clip s1.le fun x hx => ?_
    have := FlOK.clip_le_max (t := t) (h0 := h0) hx
    linarith
  have hm0 := o.minStep_pos t' h0'
  have hfit : flReassess c t' h0' < flMinStep c t' h0' := by
    unfold flReassess flFit
    rw [hb]
    dsimp only
    split
    · rw [if_neg (not_lt.mpr hcl)]; exact s1
    · rename_i h2
      rw [fl_of_float o.hfl (o.clip_float hF').two_mul] at h2
      linarith
  unfold flStep flAdvance
  rw [FlOK.loop_short hfit]
  rfl

/-- **C90** (finding F36) for the ESDIRK methods. -/
theorem C90_short_fails_esdirk (hah : 0 ≤ c.dir * (b - t)) (hcp : 0 < flClip c t h0)
    (hl : |c.fl (c.fl (flRest c b t / flClip c t h0) - 1)| < c.fl (1 / 100) ∨ flRest c b t < flClip c t h0)
    {φ : ℝ} (hφ : 12 / 5 * unitRoundoff p ≤ φ * c.hMinA) {s' : ℝ × ℝ} (e : flStepE c t h0 [] φ = some s') :
    ∀ rej acc, flStepE c s'.1 s'.2 rej acc = none := by
  intro rej acc
  have hland := (C90_landing_esdirk o hb ht hah hl e).1
  obtain ⟨h', e1, rfl⟩ := FlOK.advance_some e
  have hs := last_stepE hb hl e1
  subst hs
  dsimp only at hland ⊢
  obtain ⟨s1, s2⟩ := next_short o hb ht (o.hfl _).1 hland rfl hφ
  generalize c.fl (t + flRest c b t * c.dir) = t' at *
  generalize c.fl (flRest c b t * φ) = h0' at *
  have d0 : 0 ≤ flRest c b t := abs_nonneg _
  have d0' : 0 ≤ flRest c b t' := abs_nonneg _
  have one := isFloat_one o.hfl o.hp o.hrange
  have h2 : flRest c b t ≤ 2 * flClip c t h0 := by
    rcases hl with hl | hl
    · by_contra hc
      have hc := not_le.mp hc
      have two : IsFloat p emin (2 : ℝ) := by simpa using one.two_mul
      have k1 : 2 ≤ c.fl (flRest c b t / flClip c t h0) := by
        refine le_fl o.hfl two ?_
        rw [le_div_iff₀ hcp]; exact hc.le
      have k2 := le_fl o.hfl one (show 1 ≤ c.fl (flRest c b t / flClip c t h0) - 1 by linarith)
      have k3 := fl_le o.hfl one (show (1 : ℝ) / 100 ≤ 1 by norm_num)
      rw [abs_of_nonneg (by linarith)] at hl
      linarith
    · linarith
  have hcl : flRest c b t' ≤ flClip c t' h0' := by
    refine FlOK.le_clip s1.le fun x hx => ?_
    have := FlOK.clip_le_max (t := t) (h0 := h0) hx
    linarith
  have hfit : flReassessE c t' h0' < flMinStep c t' h0' := by
    unfold flReassessE flFitE
    rw [hb]
    dsimp only
    split
    · exact s1
    · rename_i h3
      have := not_lt.mp fun hc => h3 (Or.inr hc)
      linarith
  unfold flStepE flAdvance
  rw [FlOK.loop_short hfit]
  rfl

end

end Extensisq
