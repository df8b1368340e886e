import Verif.Lemmas.FloatTime

/-!
# The rounding error of a sum is a float

Consequence: after a step to the rounded end of an interval, the rest of the interval is a float.
-/

namespace Extensisq

variable {p : ℕ} {emin : ℤ} {fl : ℝ → ℝ}

/-- An integer multiple of `2^e` with few bits. -/
theorem isFloat_of_multiple {x : ℝ} {e : ℤ} (he : emin ≤ e) (hx : ∃ n : ℤ, x = n * (2 : ℝ) ^ e) (h : |x| < (2 : ℝ) ^ p * (2 : ℝ) ^ e) :
    IsFloat p emin x := by
  obtain ⟨n, rfl⟩ := hx
  refine ⟨n, e, ?_, he, rfl⟩
  rw [abs_mul, abs_of_pos (show (0 : ℝ) < 2 ^ e by positivity), mul_lt_mul_iff_left₀ (by positivity), ← Int.cast_abs] at h
  exact_mod_cast h

/-- A multiple of a larger power of two is one of a smaller power. -/
theorem multiple_mono {e f : ℤ} (hef : e ≤ f) (n : ℤ) : ∃ k : ℤ, (n : ℝ) * (2 : ℝ) ^ f = k * (2 : ℝ) ^ e := by
  refine ⟨n * 2 ^ (f - e).toNat, ?_⟩
  push_cast
  rw [mul_assoc, ← zpow_natCast (2 : ℝ), ← zpow_add₀ (by norm_num)]
  congr 2; omega

/-- The rounding error of the sum of two floats is a float. -/
theorem add_error_float (hfl : RoundsToNearest p emin fl) (hp : 16 ≤ p) {a b : ℝ} (ha : IsFloat p emin a) (hb : IsFloat p emin b) :
    IsFloat p emin (a + b - fl (a + b)) := by
  have key : ∀ {a b : ℝ} {m n e f : ℤ}, |m| < 2 ^ p → emin ≤ e → a = m * (2 : ℝ) ^ e → IsFloat p emin a → IsFloat p emin b → b = n * (2 : ℝ) ^ f →
      e ≤ f → IsFloat p emin (a + b - fl (a + b)) := by
    intro a b m n e f hm he ha haF hbF hb hef
    obtain ⟨k, hk⟩ := multiple_mono hef n
    have hs := fl_add_error hfl (by omega) haF hbF
    obtain ⟨j, g, hj, hg, hsg⟩ := (hfl (a + b)).1
    have h1 : |a + b - fl (a + b)| ≤ |a| := by
      have := (hfl (a + b)).2 b hbF
      rw [abs_sub_comm]
      calc |fl (a + b) - (a + b)| ≤ |b - (a + b)| := this
        _ = |a| := by rw [show b - (a + b) = -a by ring, abs_neg]
    have ha1 : |a| < (2 : ℝ) ^ p * (2 : ℝ) ^ e := by
      rw [ha, abs_mul, abs_of_pos (show (0 : ℝ) < 2 ^ e by positivity), mul_lt_mul_iff_left₀ (by positivity), ← Int.cast_abs]
      exact_mod_cast hm
    have hab : a + b = ((m + k : ℤ) : ℝ) * (2 : ℝ) ^ e := by rw [ha, hb, hk]; push_cast; ring
    rcases le_or_gt e g with h | h
    · obtain ⟨i, hi⟩ := multiple_mono h j
      refine isFloat_of_multiple he ⟨m + k - i, ?_⟩ (h1.trans_lt ha1)
      rw [hsg, hi, hab]; push_cast; ring
    · have hu := unitRoundoff_le hp
      have hsl : |fl (a + b)| < (2 : ℝ) ^ p * (2 : ℝ) ^ g := by
        rw [hsg, abs_mul, abs_of_pos (show (0 : ℝ) < 2 ^ g by positivity), mul_lt_mul_iff_left₀ (by positivity), ← Int.cast_abs]
        exact_mod_cast hj
      have hge : (2 : ℝ) ^ g * 2 ≤ (2 : ℝ) ^ e := by
        rw [← zpow_add_one₀ (by norm_num)]
        exact zpow_le_zpow_right₀ (by norm_num) (by omega)
      have hp0 : (0 : ℝ) < 2 ^ p := by positivity
      have h2 : |a + b| ≤ |fl (a + b)| + |fl (a + b) - (a + b)| := by
        have := abs_sub_abs_le_abs_sub (a + b) (fl (a + b))
        rw [abs_sub_comm] at this
        linarith
      have h3 : unitRoundoff p * |a + b| ≤ 1 / 65536 * |a + b| := mul_le_mul_of_nonneg_right hu (abs_nonneg _)
      have h4 : (2 : ℝ) ^ p * ((2 : ℝ) ^ g * 2) ≤ (2 : ℝ) ^ p * (2 : ℝ) ^ e := mul_le_mul_of_nonneg_left hge hp0.le
      have hF : IsFloat p emin (a + b) := by
        refine isFloat_of_multiple he ⟨_, hab⟩ ?_
        nlinarith [abs_nonneg (a + b)]
      rw [fl_of_float hfl hF, sub_self]
      exact isFloat_zero
  obtain ⟨m, e, hm, he, hae⟩ := id ha
  obtain ⟨n, f, hn, hf, hbf⟩ := id hb
  rcases le_total e f with h | h
  · exact key hm he hae ha hb hbf h
  · rw [add_comm a b]
    exact key hn hf hbf hb ha hae h

/-- The step to the rounded end of the interval lands within twice the rounding error of the difference. -/
theorem land_error (hfl : RoundsToNearest p emin fl) (hp : 16 ≤ p) {x b : ℝ} (hx : IsFloat p emin x) (hb : IsFloat p emin b) :
    |b - fl (x + fl (b - x))| ≤ 2 * |fl (b - x) - (b - x)| ∧ |fl (b - x) - (b - x)| ≤ unitRoundoff p * |b - x| := by
  constructor
  · have h1 := (hfl (x + fl (b - x))).2 b hb
    have h2 : |b - (x + fl (b - x))| = |fl (b - x) - (b - x)| := by rw [abs_sub_comm]; congr 1; ring
    rw [h2] at h1
    calc |b - fl (x + fl (b - x))| = |-(fl (x + fl (b - x)) - (x + fl (b - x))) + (b - (x + fl (b - x)))| := by congr 1; ring
      _ ≤ |-(fl (x + fl (b - x)) - (x + fl (b - x)))| + |b - (x + fl (b - x))| := abs_add_le _ _
      _ ≤ _ := by rw [abs_neg, h2]; linarith
  · have := fl_add_error hfl (by omega) hb hx.neg
    simpa [sub_eq_add_neg] using this

/-- After a step to the rounded end of the interval the rest of the interval is a float. -/
theorem rest_after_landing (hfl : RoundsToNearest p emin fl) (hp : 16 ≤ p) {x b : ℝ} (hx : IsFloat p emin x) (hb : IsFloat p emin b) :
    IsFloat p emin (b - fl (x + fl (b - x))) := by
  obtain ⟨h1, h2⟩ := land_error hfl hp hx hb
  set d := fl (b - x) with hd
  set x' := fl (x + d) with hx'
  by_cases hA : |b - x'| ≤ |b| ∧ |b - x'| ≤ |x'|
  · exact sterbenz hb (hfl _).1 hA.1 hA.2
  · have hu := unitRoundoff_le hp
    have h3 : unitRoundoff p * |b - x| ≤ 1 / 65536 * |b - x| := mul_le_mul_of_nonneg_right hu (abs_nonneg _)
    have h4 : |b - x| ≤ |b| + |x| := abs_sub _ _
    have hsmall : |b| ≤ |x| / 1000 := by
      have h5 : |b| < 2 * |b - x'| ∨ |b| < |b - x'| := by
        by_contra hn
        push Not at hn
        refine hA ⟨hn.2, ?_⟩
        have : |b| ≤ |x'| + |b - x'| := by
          have := abs_add_le x' (b - x')
          rwa [add_sub_cancel] at this
        linarith [hn.1]
      have h6 : |b| ≤ 4 * (1 / 65536 * (|b| + |x|)) := by
        have := abs_nonneg (b - x')
        rcases h5 with h | h <;> linarith
      have := abs_nonneg x
      linarith
    have h7 : |x + d| ≤ |b| + |d - (b - x)| := by
      calc |x + d| = |b + (d - (b - x))| := by congr 1; ring
        _ ≤ _ := abs_add_le _ _
    have hx0 := abs_nonneg x
    have h8 : |d - (b - x)| ≤ |x| / 1000 := by linarith
    have h9 : |x| ≤ |d| + (|b| + |d - (b - x)|) := by
      calc |x| = |(x + d) - d| := by congr 1; ring
        _ ≤ |x + d| + |d| := abs_sub _ _
        _ ≤ _ := by linarith
    have hexact : IsFloat p emin (x + d) := by
      have := sterbenz hx ((hfl (b - x)).1).neg (emin := emin) (p := p) (by rw [sub_neg_eq_add]; linarith) (by rw [sub_neg_eq_add, abs_neg]; linarith)
      rwa [sub_neg_eq_add] at this
    have := add_error_float hfl hp hb hx.neg
    rw [← sub_eq_add_neg] at this
    rw [hx', fl_of_float hfl hexact]
    rw [show b - (x + d) = b - x - d by ring]
    exact this

/-- Moving by a float which is not zero moves the time unless it is lost in the rounding: a step of at least `2 u |x|` is not. -/
theorem fl_add_advance (hfl : RoundsToNearest p emin fl) (hp : 16 ≤ p) {x h : ℝ} (hx : IsFloat p emin x) (hh : IsFloat p emin h) (h0 : 0 < h)
    (hl : 3 / 2 * (unitRoundoff p * |x|) ≤ h) : x < fl (x + h) := by
  have h1 := fl_add_error hfl (by omega) hx hh
  have hu := unitRoundoff_le hp
  have hu0 := unitRoundoff_pos (p := p)
  have h2 : |x + h| ≤ |x| + h := by
    have := abs_add_le x h
    rwa [abs_of_pos h0] at this
  have h3 : unitRoundoff p * |x + h| ≤ unitRoundoff p * |x| + unitRoundoff p * h := by
    rw [← mul_add]; exact mul_le_mul_of_nonneg_left h2 hu0.le
  have h4 : unitRoundoff p * h ≤ 1 / 65536 * h := mul_le_mul_of_nonneg_right hu h0.le
  have := abs_le.mp h1
  linarith [this.1]

/-- Rounding is odd up to the rule for ties. -/
theorem RoundsToNearest.neg (hfl : RoundsToNearest p emin fl) : RoundsToNearest p emin (fun x => -fl (-x)) := by
  intro x
  refine ⟨(hfl (-x)).1.neg, fun y hy => ?_⟩
  have := (hfl (-x)).2 (-y) hy.neg
  rw [← abs_neg, ← abs_neg (y - x)]
  calc |-(-fl (-x) - x)| = |fl (-x) - -x| := by congr 1; ring
    _ ≤ |-y - -x| := this
    _ = _ := by congr 1; ring

/-- Very small floats are added exactly, or the sum leaves the range of the small numbers: a float step which is not zero moves the time. -/
theorem fl_add_small (hfl : RoundsToNearest p emin fl) (hp : 16 ≤ p) {x h : ℝ} (hx : IsFloat p emin x) (hh : IsFloat p emin h) (h0 : 0 < h)
    (hs : |x| < (2 : ℝ) ^ (emin + p)) : x < fl (x + h) := by
  obtain ⟨m, hm⟩ := hx.multiple
  obtain ⟨n, hn⟩ := hh.multiple
  have hx' := abs_lt.mp hs
  rcases lt_or_ge |x + h| ((2 : ℝ) ^ (emin + p)) with h1 | h1
  · have : IsFloat p emin (x + h) := isFloat_small hfl (n := m + n) (by rw [hm, hn]; push_cast; ring) h1
    rw [fl_of_float hfl this]
    linarith
  · have h2 : (2 : ℝ) ^ (emin + p) ≤ x + h := by
      rcases le_abs.mp h1 with h | h
      · exact h
      · linarith
    have hF : IsFloat p emin ((2 : ℝ) ^ (emin + p)) := by
      have := isFloat_of_le (p := p) (emin := emin) (by omega) (m := 2 ^ p) (e := emin) (by rw [abs_of_pos (by positivity)]) le_rfl
      push_cast at this
      rwa [← zpow_natCast, ← zpow_add₀ (by norm_num), add_comm] at this
    exact hx'.2.trans_le (le_fl hfl hF h2)

/-- A step in direction `dir` towards the rounded end of the interval does not go past it by more than the rounding. -/
theorem no_overshoot (hfl : RoundsToNearest p emin fl) (hp : 16 ≤ p) {x b h dir : ℝ} (hdir : dir = 1 ∨ dir = -1) (hx : IsFloat p emin x) (hb : IsFloat p emin b)
    (hah : 0 ≤ dir * (b - x)) (hle : dir * h ≤ |fl (b - x)|) :
    dir * (fl (x + h) - b) ≤ 2 * (unitRoundoff p * |b - x|) ∧ (IsFloat p emin (b - x) → dir * (fl (x + h) - b) ≤ 0) := by
  have key : ∀ {fl : ℝ → ℝ} {x b h : ℝ}, RoundsToNearest p emin fl → IsFloat p emin x → IsFloat p emin b → 0 ≤ b - x → h ≤ |fl (b - x)| →
      (fl (x + h) - b) ≤ 2 * (unitRoundoff p * |b - x|) ∧ (IsFloat p emin (b - x) → fl (x + h) - b ≤ 0) := by
    intro fl x b h hfl hx hb hah hle
    have h0 := fl_nonneg hfl hah
    rw [abs_of_nonneg h0] at hle
    have e1 := (land_error hfl hp hx hb).2
    have hu : 0 ≤ unitRoundoff p * |b - x| := mul_nonneg unitRoundoff_pos.le (abs_nonneg _)
    have fin : x + h ≤ b → fl (x + h) - b ≤ 0 := fun h => by linarith [fl_le hfl hb h]
    constructor
    · rcases le_total (x + h) b with h1 | h1
      · linarith [fin h1]
      · have near := (hfl (x + h)).2 b hb
        rw [abs_of_nonpos (show b - (x + h) ≤ 0 by linarith)] at near
        have := (abs_le.mp near).2
        have := (abs_le.mp e1).2
        linarith
    · intro hF
      rw [fl_of_float hfl hF] at hle
      exact fin (by linarith)
  rcases hdir with rfl | rfl
  · simpa using key hfl hx hb (by linarith) (by linarith)
  · have := key (fl := fun x => -fl (-x)) (x := -x) (b := -b) (h := -h) hfl.neg hx.neg hb.neg (by linarith) (by
      rw [abs_neg, show -(-b - -x) = b - x by ring]; linarith)
    have e1 : -(-b - -x) = b - x := by ring
    have e2 : -(-x + -h) = x + h := by ring
    have e3 : |-b - -x| = |b - x| := by rw [← abs_neg, e1]
    rw [e2, e3] at this
    refine ⟨by linarith [this.1], fun hF => ?_⟩
    have := this.2 (by rw [show -b - -x = -(b - x) by ring]; exact hF.neg)
    linarith

/-- A step in direction `dir` which is not lost in the rounding moves the time. -/
theorem advance_dir (hfl : RoundsToNearest p emin fl) (hp : 16 ≤ p) {x h dir : ℝ} (hdir : dir = 1 ∨ dir = -1) (hx : IsFloat p emin x) (hh : IsFloat p emin h)
    (h0 : 0 < dir * h) (hl : 3 / 2 * (unitRoundoff p * |x|) ≤ |h| ∨ |x| < (2 : ℝ) ^ (emin + p)) : 0 < dir * (fl (x + h) - x) := by
  have key : ∀ {fl : ℝ → ℝ} {x h : ℝ}, RoundsToNearest p emin fl → IsFloat p emin x → IsFloat p emin h → 0 < h →
      (3 / 2 * (unitRoundoff p * |x|) ≤ |h| ∨ |x| < (2 : ℝ) ^ (emin + p)) → x < fl (x + h) := by
    intro fl x h hfl hx hh h0 hl
    rcases hl with hl | hl
    · exact fl_add_advance hfl hp hx hh h0 (by rwa [abs_of_pos h0] at hl)
    · exact fl_add_small hfl hp hx hh h0 hl
  rcases hdir with rfl | rfl
  · have := key hfl hx hh (by linarith) hl
    linarith
  · have := key (fl := fun x => -fl (-x)) (x := -x) (h := -h) hfl.neg hx.neg hh.neg (by linarith) (by rwa [abs_neg, abs_neg])
    rw [show -(-x + -h) = x + h by ring] at this
    linarith

end Extensisq
