import Verif.Spec.Float
import Mathlib.Algebra.Order.Field.Power

/-! # Facts about rounding to nearest -/

namespace Extensisq

variable {p : ℕ} {emin : ℤ} {fl : ℝ → ℝ}

theorem isFloat_zero : IsFloat p emin 0 := ⟨0, emin, by simp, le_refl _, by simp⟩

theorem IsFloat.neg {x : ℝ} (h : IsFloat p emin x) : IsFloat p emin (-x) := by
  obtain ⟨m, e, h1, h2, h3⟩ := h
  exact ⟨-m, e, by rwa [abs_neg], h2, by rw [h3]; push_cast; ring⟩

/-- A number with at most `p` bits, or a power of two. -/
theorem isFloat_of_le (hp : 0 < p) {m e : ℤ} (hm : |m| ≤ 2 ^ p) (he : emin ≤ e) :
    IsFloat p emin (m * (2 : ℝ) ^ e) := by
  rcases lt_or_eq_of_le hm with h | h
  · exact ⟨m, e, h, he, rfl⟩
  · have h2 : (2 : ℤ) ^ p = 2 ^ (p - 1) * 2 := by rw [← pow_succ]; congr 1; omega
    have hlt : (2 : ℤ) ^ (p - 1) < 2 ^ p := by rw [h2]; have : (0 : ℤ) < 2 ^ (p - 1) := by positivity
                                               omega
    rcases abs_choice m with hc | hc
    · refine ⟨2 ^ (p - 1), e + 1, by rw [abs_of_nonneg (by positivity)]; exact hlt, by omega, ?_⟩
      rw [zpow_add₀ (by norm_num)]
      have : m = 2 ^ (p - 1) * 2 := by rw [← h2, ← h, hc]
      rw [this]; push_cast; ring
    · refine ⟨-2 ^ (p - 1), e + 1, by rw [abs_neg, abs_of_nonneg (by positivity)]; exact hlt, by omega, ?_⟩
      rw [zpow_add₀ (by norm_num)]
      have : m = -(2 ^ (p - 1) * 2) := by rw [← h2, ← h, hc]; ring
      rw [this]; push_cast; ring

/-- The exponent used for rounding `x`. -/
noncomputable def expOf (p : ℕ) (emin : ℤ) (x : ℝ) : ℤ := max emin (Int.log 2 |x| + 1 - p)

theorem lt_pow_expOf (x : ℝ) : |x| < (2 : ℝ) ^ p * (2 : ℝ) ^ expOf p emin x := by
  have h1 : |x| < ((2 : ℕ) : ℝ) ^ (Int.log 2 |x| + 1) := Int.lt_zpow_succ_log_self (by norm_num) _
  refine lt_of_lt_of_le h1 ?_
  rw [Nat.cast_ofNat, ← zpow_natCast, ← zpow_add₀ (by norm_num)]
  apply zpow_le_zpow_right₀ (by norm_num)
  unfold expOf
  have := le_max_right emin (Int.log 2 |x| + 1 - p)
  omega

theorem pow_expOf_le {x : ℝ} (hx : x ≠ 0) (h : emin < expOf p emin x) :
    (2 : ℝ) ^ (expOf p emin x + p - 1) ≤ |x| := by
  have h1 : ((2 : ℕ) : ℝ) ^ Int.log 2 |x| ≤ |x| := Int.zpow_log_le_self (by norm_num) (abs_pos.mpr hx)
  refine le_trans ?_ h1
  rw [Nat.cast_ofNat]
  apply zpow_le_zpow_right₀ (by norm_num)
  unfold expOf at h ⊢
  rcases max_choice emin (Int.log 2 |x| + 1 - p) with hc | hc <;> rw [hc] at * <;> omega

/-- Rounding on the grid of the exponent of `x` (ties upwards). -/
noncomputable def rnd (p : ℕ) (emin : ℤ) (x : ℝ) : ℝ :=
  (round (x / (2 : ℝ) ^ expOf p emin x) : ℤ) * (2 : ℝ) ^ expOf p emin x

theorem rnd_le (x : ℝ) (n : ℤ) : |rnd p emin x - x| ≤ |n * (2 : ℝ) ^ expOf p emin x - x| := by
  unfold rnd
  set q := (2 : ℝ) ^ expOf p emin x with hq
  have hq0 : 0 < q := by positivity
  have h := round_le (x / q) n
  have e1 : ∀ k : ℤ, |(k : ℝ) * q - x| = |x / q - k| * q := by
    intro k
    rw [abs_sub_comm, show x - k * q = (x / q - k) * q by field_simp, abs_mul, abs_of_pos hq0]
  rw [e1, e1]
  exact mul_le_mul_of_nonneg_right h hq0.le

theorem abs_rnd_sub_le (x : ℝ) : |rnd p emin x - x| ≤ (2 : ℝ) ^ expOf p emin x / 2 := by
  unfold rnd
  set q := (2 : ℝ) ^ expOf p emin x with hq
  have hq0 : 0 < q := by positivity
  have h := abs_sub_round (x / q)
  rw [abs_sub_comm, show x - (round (x / q) : ℤ) * q = (x / q - round (x / q)) * q by field_simp, abs_mul,
    abs_of_pos hq0]
  nlinarith

theorem rnd_isFloat (hp : 0 < p) (x : ℝ) : IsFloat p emin (rnd p emin x) := by
  unfold rnd
  apply isFloat_of_le hp _ (by unfold expOf; exact le_max_left _ _)
  set q := (2 : ℝ) ^ expOf p emin x with hq
  have hq0 : 0 < q := by positivity
  have h1 : |x / q| < (2 : ℝ) ^ p := by
    rw [abs_div, abs_of_pos hq0, div_lt_iff₀ hq0]; exact lt_pow_expOf x
  rw [abs_lt] at h1
  have h2 : (round (x / q) : ℤ) ≤ 2 ^ p := by
    rw [round_eq, Int.floor_le_iff]; push_cast; linarith [h1.2]
  have h3 : -2 ^ p ≤ (round (x / q) : ℤ) := by
    rw [round_eq, Int.le_floor]; push_cast; linarith [h1.1]
  exact abs_le.mpr ⟨h3, h2⟩

/-- `rnd` is a rounding to nearest: rounding exists. -/
theorem rnd_nearest (hp : 0 < p) : RoundsToNearest p emin (rnd p emin) := by
  intro x
  refine ⟨rnd_isFloat hp x, ?_⟩
  rintro y ⟨m, e, hm, he, rfl⟩
  set E := expOf p emin x with hE
  rcases le_or_gt E e with hle | hlt
  · -- a multiple of the grid
    have : (m : ℝ) * (2 : ℝ) ^ e = ((m * 2 ^ (e - E).toNat : ℤ) : ℝ) * (2 : ℝ) ^ E := by
      push_cast
      rw [mul_assoc, ← zpow_natCast, ← zpow_add₀ (by norm_num)]
      congr 2; omega
    rw [this]; exact rnd_le x _
  · have hlt' : emin < E := lt_of_le_of_lt he hlt
    by_cases hx : x = 0
    · subst hx
      have := rnd_le (p := p) (emin := emin) 0 0
      simp only [Int.cast_zero, zero_mul, sub_zero, abs_zero] at this ⊢
      exact le_trans this (abs_nonneg _)
    have hw := pow_expOf_le hx hlt'
    rw [← hE] at hw
    have hy : |(m : ℝ) * (2 : ℝ) ^ e| ≤ (2 : ℝ) ^ (E + p - 1) := by
      rw [abs_mul, abs_of_pos (show (0 : ℝ) < 2 ^ e by positivity)]
      have h1 : |(m : ℝ)| ≤ (2 : ℝ) ^ p := by
        rw [← Int.cast_abs]; exact_mod_cast hm.le
      calc |(m : ℝ)| * (2 : ℝ) ^ e ≤ (2 : ℝ) ^ p * (2 : ℝ) ^ e :=
            mul_le_mul_of_nonneg_right h1 (by positivity)
        _ = (2 : ℝ) ^ ((p : ℤ) + e) := by rw [zpow_add₀ (by norm_num), zpow_natCast]
        _ ≤ (2 : ℝ) ^ (E + p - 1) := zpow_le_zpow_right₀ (by norm_num) (by omega)
    have hsplit : (2 : ℝ) ^ (E + p - 1) = ((2 ^ (p - 1) : ℤ) : ℝ) * (2 : ℝ) ^ E := by
      push_cast
      rw [← zpow_natCast, ← zpow_add₀ (by norm_num)]; congr 1; omega
    rcases lt_or_gt_of_ne hx with hneg | hpos
    · have h := rnd_le (p := p) (emin := emin) x (-2 ^ (p - 1))
      refine le_trans h ?_
      rw [abs_of_neg hneg] at hw
      have h2 := neg_abs_le ((m : ℝ) * (2 : ℝ) ^ e)
      have e2 : ((-2 ^ (p - 1) : ℤ) : ℝ) * (2 : ℝ) ^ E = -(2 : ℝ) ^ (E + p - 1) := by
        rw [hsplit]; push_cast; ring
      rw [e2, abs_of_nonneg (by linarith), abs_of_nonneg (by linarith)]; linarith
    · have h := rnd_le (p := p) (emin := emin) x (2 ^ (p - 1))
      refine le_trans h ?_
      rw [abs_of_pos hpos] at hw
      have h2 := le_abs_self ((m : ℝ) * (2 : ℝ) ^ e)
      rw [← hsplit, abs_of_nonpos (by linarith), abs_of_nonpos (by linarith)]; linarith

theorem unitRoundoff_pos : 0 < unitRoundoff p := by unfold unitRoundoff; positivity

variable (hfl : RoundsToNearest p emin fl)
include hfl

/-- A floating-point number is not changed. -/
theorem fl_of_float {x : ℝ} (hx : IsFloat p emin x) : fl x = x := by
  have := (hfl x).2 x hx
  simp only [sub_self, abs_zero] at this
  linarith [abs_nonpos_iff.mp this]

theorem fl_zero : fl 0 = 0 := fl_of_float hfl isFloat_zero

theorem fl_nonneg {x : ℝ} (hx : 0 ≤ x) : 0 ≤ fl x := by
  by_contra h
  have h := not_le.mp h
  have := (hfl x).2 (0 : ℝ) isFloat_zero
  rw [abs_of_neg (by linarith), zero_sub, abs_neg, abs_of_nonneg hx] at this
  linarith

theorem fl_nonpos {x : ℝ} (hx : x ≤ 0) : fl x ≤ 0 := by
  by_contra h
  have h := not_le.mp h
  have := (hfl x).2 (0 : ℝ) isFloat_zero
  rw [abs_of_pos (by linarith), zero_sub, abs_neg, abs_of_nonpos hx] at this
  linarith

/-- The error of rounding a number that is not below the normal range. -/
theorem fl_error_normal (hp : 0 < p) {x : ℝ} (hx : (2 : ℝ) ^ (emin + p - 1) ≤ |x|) :
    |fl x - x| ≤ unitRoundoff p * |x| := by
  refine le_trans ((hfl x).2 _ (rnd_isFloat hp x)) (le_trans (abs_rnd_sub_le x) ?_)
  have hx0 : x ≠ 0 := by
    rintro rfl
    rw [abs_zero] at hx
    have : (0 : ℝ) < (2 : ℝ) ^ (emin + p - 1) := by positivity
    linarith
  have h1 : (2 : ℝ) ^ (expOf p emin x + p - 1) ≤ |x| := by
    rcases lt_or_eq_of_le (le_max_left emin (Int.log 2 |x| + 1 - p)) with h | h
    · exact pow_expOf_le (p := p) hx0 h
    · have : expOf p emin x = emin := h.symm
      rw [this]; exact hx
  have e1 : (2 : ℝ) ^ (expOf p emin x + p - 1) = (2 : ℝ) ^ expOf p emin x * (2 : ℝ) ^ p / 2 := by
    rw [show expOf p emin x + p - 1 = expOf p emin x + p + (-1) by ring, zpow_add₀ (by norm_num),
      zpow_add₀ (by norm_num), zpow_natCast, zpow_neg_one]; ring
  rw [e1] at h1
  unfold unitRoundoff
  rw [← div_eq_inv_mul, le_div_iff₀ (by positivity)]; linarith

/-- The error of rounding: relative, plus the spacing of the subnormal numbers. -/
theorem fl_error (hp : 0 < p) (x : ℝ) : |fl x - x| ≤ unitRoundoff p * |x| + (2 : ℝ) ^ emin / 2 := by
  have hu := unitRoundoff_pos (p := p)
  have h0 : (0 : ℝ) < (2 : ℝ) ^ emin := by positivity
  have hn := mul_nonneg hu.le (abs_nonneg x)
  rcases le_or_gt ((2 : ℝ) ^ (emin + p - 1)) |x| with h | h
  · linarith [fl_error_normal hfl hp h]
  · by_cases hx : x = 0
    · subst hx; rw [fl_zero hfl]; simp; positivity
    refine le_trans ((hfl x).2 _ (rnd_isFloat hp x)) (le_trans (abs_rnd_sub_le x) ?_)
    have : expOf p emin x = emin := by
      rcases lt_or_eq_of_le (le_max_left emin (Int.log 2 |x| + 1 - p)) with h' | h'
      · have h1 := lt_of_le_of_lt (pow_expOf_le (p := p) hx h') h
        rw [zpow_lt_zpow_iff_right₀ (by norm_num)] at h1
        have h2 : emin < expOf p emin x := h'
        omega
      · exact h'.symm
    rw [this]; linarith

/-- Multiples of the smallest float that are not too large are floats. -/
theorem isFloat_small {x : ℝ} {n : ℤ} (hx : x = n * (2 : ℝ) ^ emin) (h : |x| < (2 : ℝ) ^ (emin + p)) :
    IsFloat p emin x := by
  refine ⟨n, emin, ?_, le_refl _, hx⟩
  rw [hx, abs_mul, abs_of_pos (show (0 : ℝ) < 2 ^ emin by positivity), zpow_add₀ (by norm_num), zpow_natCast,
    mul_comm, mul_lt_mul_iff_right₀ (by positivity), ← Int.cast_abs] at h
  exact_mod_cast h

omit hfl in
theorem IsFloat.multiple {x : ℝ} (h : IsFloat p emin x) : ∃ n : ℤ, x = n * (2 : ℝ) ^ emin := by
  obtain ⟨m, e, _, h2, h3⟩ := h
  refine ⟨m * 2 ^ (e - emin).toNat, ?_⟩
  rw [h3]; push_cast
  rw [mul_assoc, ← zpow_natCast, ← zpow_add₀ (by norm_num)]
  congr 2; omega

/-- A sum of two floats is rounded with a relative error only. -/
theorem fl_add_error (hp : 0 < p) {x y : ℝ} (hx : IsFloat p emin x) (hy : IsFloat p emin y) :
    |fl (x + y) - (x + y)| ≤ unitRoundoff p * |x + y| := by
  rcases le_or_gt ((2 : ℝ) ^ (emin + p - 1)) |x + y| with h | h
  · exact fl_error_normal hfl hp h
  · obtain ⟨m, hm⟩ := hx.multiple
    obtain ⟨n, hn⟩ := hy.multiple
    have : IsFloat p emin (x + y) := by
      refine isFloat_small hfl (n := m + n) (by rw [hm, hn]; push_cast; ring) (lt_trans h ?_)
      exact zpow_lt_zpow_right₀ (by norm_num) (by omega)
    rw [fl_of_float hfl this, sub_self, abs_zero]
    exact mul_nonneg unitRoundoff_pos.le (abs_nonneg _)

omit hfl in
/-- Sterbenz: the difference of two floats within a factor of two of each other is a float. -/
theorem sterbenz {x y : ℝ} (hx : IsFloat p emin x) (hy : IsFloat p emin y) (h1 : |x - y| ≤ |x|)
    (h2 : |x - y| ≤ |y|) : IsFloat p emin (x - y) := by
  obtain ⟨m, e, hm, he, hxe⟩ := hx
  obtain ⟨n, f, hn, hf, hyf⟩ := hy
  have key : ∀ {m n e f : ℤ}, |m| < 2 ^ p → e ≤ f → emin ≤ e → |(m : ℝ) * (2 : ℝ) ^ e - n * (2 : ℝ) ^ f| ≤ |(m : ℝ) * (2 : ℝ) ^ e| →
      IsFloat p emin ((m : ℝ) * (2 : ℝ) ^ e - n * (2 : ℝ) ^ f) := by
    intro m n e f hm hef he hle
    have e1 : (m : ℝ) * (2 : ℝ) ^ e - n * (2 : ℝ) ^ f = ((m - n * 2 ^ (f - e).toNat : ℤ) : ℝ) * (2 : ℝ) ^ e := by
      push_cast
      rw [sub_mul, mul_assoc (n : ℝ), ← zpow_natCast (2 : ℝ), ← zpow_add₀ (by norm_num)]
      congr 3; omega
    refine ⟨_, e, ?_, he, e1⟩
    rw [e1, abs_mul, abs_mul, abs_of_pos (show (0 : ℝ) < 2 ^ e by positivity),
      mul_le_mul_iff_left₀ (by positivity), ← Int.cast_abs, ← Int.cast_abs, Int.cast_le] at hle
    omega
  subst hxe hyf
  rcases le_total e f with hef | hef
  · exact key hm hef he h1
  · have := key hn hef hf (by rw [abs_sub_comm]; exact h2)
    have := this.neg
    rwa [neg_sub] at this

/-- The value of a rounding, when the number is closer to a float than half of its spacing. -/
theorem fl_eq {x : ℝ} {m e : ℤ} (h1 : 2 ^ (p - 1) < |m|) (h2 : |m| < 2 ^ p) (he : emin ≤ e) (hp : 0 < p)
    (hd : |x - m * (2 : ℝ) ^ e| < (2 : ℝ) ^ e / 2) : fl x = m * (2 : ℝ) ^ e := by
  set v := (m : ℝ) * (2 : ℝ) ^ e with hv
  have hvF : IsFloat p emin v := ⟨m, e, h2, he, rfl⟩
  obtain ⟨m', e', hm', he', hx'⟩ := (hfl x).1
  have hq : (0 : ℝ) < (2 : ℝ) ^ e := by positivity
  have hnear : |fl x - x| < (2 : ℝ) ^ e / 2 := lt_of_le_of_lt ((hfl x).2 v hvF) (by rw [abs_sub_comm]; exact hd)
  have hclose : |fl x - v| < (2 : ℝ) ^ e := by
    have := abs_add_le (fl x - x) (x - v)
    rw [show fl x - x + (x - v) = fl x - v by ring] at this
    linarith
  have hpp : (2 : ℤ) ^ p = 2 * 2 ^ (p - 1) := by rw [← pow_succ']; congr 1; omega
  have habs : (2 : ℝ) ^ (p - 1) * (2 : ℝ) ^ e < |fl x| := by
    have hle : ((2 : ℝ) ^ (p - 1) + 1) * (2 : ℝ) ^ e ≤ |v| := by
      rw [hv, abs_mul, abs_of_pos hq, ← Int.cast_abs]
      apply mul_le_mul_of_nonneg_right _ hq.le
      have : (2 : ℤ) ^ (p - 1) + 1 ≤ |m| := h1
      exact_mod_cast this
    have h3 := abs_sub_abs_le_abs_sub v (fl x)
    rw [abs_sub_comm v] at h3
    linarith
  have hee : e ≤ e' := by
    by_contra hcon
    have hlt : e' + 1 ≤ e := by omega
    have h4 : |fl x| ≤ (2 : ℝ) ^ p * (2 : ℝ) ^ e' := by
      rw [hx', abs_mul, abs_of_pos (show (0 : ℝ) < 2 ^ e' by positivity), ← Int.cast_abs]
      exact mul_le_mul_of_nonneg_right (by exact_mod_cast hm'.le) (by positivity)
    have h5 : (2 : ℝ) ^ p * (2 : ℝ) ^ e' ≤ (2 : ℝ) ^ (p - 1) * (2 : ℝ) ^ e := by
      rw [← zpow_natCast (2 : ℝ) p, ← zpow_natCast (2 : ℝ) (p - 1), ← zpow_add₀ (by norm_num), ← zpow_add₀ (by norm_num)]
      apply zpow_le_zpow_right₀ (by norm_num)
      omega
    linarith
  have e1 : fl x = ((m' * 2 ^ (e' - e).toNat : ℤ) : ℝ) * (2 : ℝ) ^ e := by
    rw [hx']; push_cast
    rw [mul_assoc, ← zpow_natCast, ← zpow_add₀ (by norm_num)]
    congr 2; omega
  rw [e1, hv, ← sub_mul, abs_mul, abs_of_pos hq] at hclose
  have h6 : |((m' * 2 ^ (e' - e).toNat : ℤ) : ℝ) - m| < 1 := by
    by_contra hcon
    have := mul_le_mul_of_nonneg_right (not_lt.mp hcon) hq.le
    linarith
  have h7 : m' * 2 ^ (e' - e).toNat = m := by
    have h8 : |(m' * 2 ^ (e' - e).toNat) - m| < 1 := by exact_mod_cast h6
    rw [Int.abs_lt_one_iff] at h8
    omega
  rw [e1, h7]

end Extensisq
