import Verif.Lemmas.Float
import Verif.Model.FloatTime

/-! # Lemmas about the rounded time arithmetic -/

namespace Extensisq

variable {p : ℕ} {emin : ℤ} {fl : ℝ → ℝ}

theorem fl_le (hfl : RoundsToNearest p emin fl) {x y : ℝ} (hy : IsFloat p emin y) (h : x ≤ y) : fl x ≤ y := by
  by_contra hc
  have hc := not_le.mp hc
  have := (hfl x).2 y hy
  rw [abs_of_nonneg (by linarith), abs_of_nonneg (by linarith)] at this
  linarith

theorem le_fl (hfl : RoundsToNearest p emin fl) {x y : ℝ} (hy : IsFloat p emin y) (h : y ≤ x) : y ≤ fl x := by
  by_contra hc
  have hc := not_le.mp hc
  have := (hfl x).2 y hy
  rw [abs_of_nonpos (by linarith), abs_of_nonpos (by linarith)] at this
  linarith

theorem IsFloat.abs {x : ℝ} (h : IsFloat p emin x) : IsFloat p emin |x| := by
  rcases abs_choice x with e | e <;> rw [e]
  · exact h
  · exact h.neg

theorem IsFloat.two_mul {x : ℝ} (h : IsFloat p emin x) : IsFloat p emin (2 * x) := by
  obtain ⟨m, e, hm, he, hx⟩ := h
  refine ⟨m, e + 1, hm, by omega, ?_⟩
  rw [hx, zpow_add₀ (by norm_num), zpow_one]; ring

/-- A small integer times a power of two is a float. -/
theorem isFloat_int {m e : ℤ} (hm : |m| < 2 ^ p) (he : emin ≤ e) : IsFloat p emin ((m : ℝ) * (2 : ℝ) ^ e) :=
  ⟨m, e, hm, he, rfl⟩

theorem unitRoundoff_le (hp : 16 ≤ p) : unitRoundoff p ≤ 1 / 65536 := by
  unfold unitRoundoff
  rw [one_div]
  apply inv_anti₀ (by norm_num)
  calc (65536 : ℝ) = 2 ^ 16 := by norm_num
    _ ≤ 2 ^ p := pow_le_pow_right₀ (by norm_num) hp

theorem unitRoundoff_zpow : unitRoundoff p = (2 : ℝ) ^ (-(p : ℤ)) := by
  unfold unitRoundoff; rw [zpow_neg, zpow_natCast]

/-- What the theorems assume of the arithmetic and of the solver: rounding to nearest with at least 16 bits and an
exponent range that is not very small, `direction = ±1`, `h_min_b` far above the smallest number (it is the square
root of the smallest normal number), all data floats. -/
structure FlOK (p : ℕ) (emin : ℤ) (c : FlTime) : Prop where
  hp : 16 ≤ p
  hrange : emin + 2 * p ≤ 0
  hfl : RoundsToNearest p emin c.fl
  dir : c.dir = 1 ∨ c.dir = -1
  hMinB : IsFloat p emin c.hMinB
  hMinB_large : 1000 * (2 : ℝ) ^ emin ≤ unitRoundoff p * c.hMinB
  tb : ∀ b, c.tb = some b → IsFloat p emin b
  maxStep : ∀ b, c.maxStep = some b → IsFloat p emin b
  hMinA_ge : 10 * unitRoundoff p ≤ c.hMinA
  hMinA_le : c.hMinA ≤ 1

namespace FlOK
variable {c : FlTime} (o : FlOK p emin c)
include o

theorem hp0 : 0 < p := by have := o.hp; omega
theorem u_pos : 0 < unitRoundoff p := unitRoundoff_pos
theorem u_le : unitRoundoff p ≤ 1 / 65536 := unitRoundoff_le o.hp

theorem hMinB_pos : 0 < c.hMinB := by
  have h1 := o.hMinB_large
  have h2 : (0 : ℝ) < (2 : ℝ) ^ emin := by positivity
  have h3 := o.u_pos
  by_contra hc
  have := mul_nonpos_of_nonneg_of_nonpos h3.le (not_lt.mp hc)
  linarith

theorem tiny_le {x : ℝ} (hx : c.hMinB ≤ x) : 1000 * (2 : ℝ) ^ emin ≤ unitRoundoff p * x :=
  o.hMinB_large.trans (mul_le_mul_of_nonneg_left hx o.u_pos.le)

theorem dir_sq : c.dir * c.dir = 1 := by rcases o.dir with h | h <;> rw [h] <;> norm_num
theorem abs_dir : |c.dir| = 1 := by rcases o.dir with h | h <;> rw [h] <;> norm_num

theorem mul_dir {h : ℝ} (hh : IsFloat p emin h) : IsFloat p emin (h * c.dir) := by
  rcases o.dir with e | e <;> rw [e]
  · simpa
  · simpa using hh.neg

theorem minStep_float (t h0 : ℝ) : IsFloat p emin (flMinStep c t h0) := by
  unfold flMinStep
  rcases max_choice (c.fl (c.hMinA * c.fl (|t| + h0))) c.hMinB with e | e <;> rw [e]
  · exact (o.hfl _).1
  · exact o.hMinB

theorem hMinB_le (t h0 : ℝ) : c.hMinB ≤ flMinStep c t h0 := le_max_right _ _
theorem minStep_pos (t h0 : ℝ) : 0 < flMinStep c t h0 := lt_of_lt_of_le o.hMinB_pos (o.hMinB_le t h0)

/-- The rounded minimal step is hardly below the exact one. -/
theorem minStep_ge {t h0 : ℝ} (ht : IsFloat p emin t) (hh : IsFloat p emin h0) (h0n : 0 ≤ h0) :
    99 / 100 * (c.hMinA * (|t| + h0)) ≤ flMinStep c t h0 := by
  have hu := o.u_pos
  have hu2 := o.u_le
  have e1 := fl_add_error o.hfl o.hp0 ht.abs hh
  have s0 : 0 ≤ |t| + h0 := add_nonneg (abs_nonneg _) h0n
  rw [abs_of_nonneg s0] at e1
  have e1' := (abs_le.mp e1).1
  set q := c.fl (|t| + h0) with hq
  have q1 : (1 - unitRoundoff p) * (|t| + h0) ≤ q := by linarith
  have q0 : 0 ≤ q := fl_nonneg o.hfl s0
  have a0 : 0 ≤ c.hMinA := le_trans (by linarith) o.hMinA_ge
  have e2 := fl_error o.hfl o.hp0 (c.hMinA * q)
  rw [abs_of_nonneg (mul_nonneg a0 q0)] at e2
  have e2' := (abs_le.mp e2).1
  have hm : c.fl (c.hMinA * q) ≤ flMinStep c t h0 := le_max_left _ _
  have ht1 := o.tiny_le (o.hMinB_le t h0)
  have hmp := o.minStep_pos t h0
  set m := flMinStep c t h0 with hmdef
  set x := c.hMinA * q with hx
  have hx0 : 0 ≤ x := mul_nonneg a0 q0
  have f1 : unitRoundoff p * x ≤ 1 / 65536 * x := mul_le_mul_of_nonneg_right hu2 hx0
  have f2 : unitRoundoff p * m ≤ 1 / 65536 * m := mul_le_mul_of_nonneg_right hu2 hmp.le
  have f3 : 65535 / 65536 * (|t| + h0) ≤ q := le_trans (mul_le_mul_of_nonneg_right (by linarith) s0) q1
  have f4 : 65535 / 65536 * (c.hMinA * (|t| + h0)) ≤ x := by
    rw [hx]
    calc 65535 / 65536 * (c.hMinA * (|t| + h0)) = c.hMinA * (65535 / 65536 * (|t| + h0)) := by ring
      _ ≤ c.hMinA * q := mul_le_mul_of_nonneg_left f3 a0
  have f5 : 0 ≤ c.hMinA * (|t| + h0) := mul_nonneg a0 s0
  nlinarith

theorem clip_float {t h0 : ℝ} (hh : IsFloat p emin h0) : IsFloat p emin (flClip c t h0) := by
  unfold flClip
  split
  · have hm : IsFloat p emin (max (flMinStep c t h0) h0) := by
      rcases max_choice (flMinStep c t h0) h0 with e | e <;> rw [e]
      · exact o.minStep_float t h0
      · exact hh
    unfold capMax
    split
    · exact hm
    · rename_i b hb
      rcases min_choice b (max (flMinStep c t h0) h0) with e | e <;> rw [e]
      · exact o.maxStep b hb
      · exact hm
  · exact hh

omit o in
theorem clip_le_max {t h0 b : ℝ} (hb : c.maxStep = some b) : flClip c t h0 ≤ b := by
  unfold flClip
  split
  · rw [hb]; exact min_le_left _ _
  · rename_i h
    have : ¬ overMax c.maxStep h0 = true := fun hc => h (Or.inr hc)
    rw [hb] at this
    simp only [overMax, decide_eq_true_eq, not_lt] at this
    exact this

omit o in
/-- The clipped step size is not below the minimal step unless `max_step` is. -/
theorem le_clip {t h0 x : ℝ} (h1 : x ≤ flMinStep c t h0) (h2 : ∀ b, c.maxStep = some b → x ≤ b) :
    x ≤ flClip c t h0 := by
  unfold flClip
  split
  · unfold capMax
    split
    · exact h1.trans (le_max_left _ _)
    · rename_i b hb
      exact le_min (h2 b hb) (h1.trans (le_max_left _ _))
  · rename_i h
    exact h1.trans (not_lt.mp fun hc => h (Or.inl hc))

theorem rest_float (b t : ℝ) : IsFloat p emin (flRest c b t) := (o.hfl _).1.abs

/-- The rest of the interval in the direction of integration. -/
theorem rest_eq {b t : ℝ} (h : 0 ≤ c.dir * (b - t)) : flRest c b t = c.dir * c.fl (b - t) := by
  unfold flRest
  rcases o.dir with e | e <;> rw [e] at h ⊢
  · rw [one_mul] at h ⊢
    exact abs_of_nonneg (fl_nonneg o.hfl h)
  · have : b - t ≤ 0 := by linarith
    rw [abs_of_nonpos (fl_nonpos o.hfl this)]; ring

theorem sub_error {b t : ℝ} (hb : IsFloat p emin b) (ht : IsFloat p emin t) :
    |c.fl (b - t) - (b - t)| ≤ unitRoundoff p * |b - t| := by
  have := fl_add_error o.hfl o.hp0 hb ht.neg
  simpa [sub_eq_add_neg] using this

theorem rest_error {b t : ℝ} (hb : IsFloat p emin b) (ht : IsFloat p emin t) :
    |flRest c b t - (|b - t|)| ≤ unitRoundoff p * |b - t| :=
  (abs_abs_sub_abs_le _ _).trans (o.sub_error hb ht)

theorem fit_float {t h1 m : ℝ} (h : IsFloat p emin h1) (hm : IsFloat p emin m) : IsFloat p emin (flFit c t h1 m) := by
  unfold flFit
  split
  · exact h
  · rename_i b hb
    split
    · split
      · rcases max_choice (c.fl (flRest c b t / 2)) m with e | e <;> rw [e]
        · exact (o.hfl _).1
        · exact hm
      · exact o.rest_float b t
    · exact h

theorem reassess_float {t h0 : ℝ} (hh : IsFloat p emin h0) : IsFloat p emin (flReassess c t h0) :=
  o.fit_float (o.clip_float hh) (o.minStep_float t h0)

theorem fitE_float {t h1 : ℝ} (h : IsFloat p emin h1) : IsFloat p emin (flFitE c t h1) := by
  unfold flFitE
  split
  · exact h
  · rename_i b hb
    split
    · exact o.rest_float b t
    · exact h

theorem reassessE_float {t h0 : ℝ} (hh : IsFloat p emin h0) : IsFloat p emin (flReassessE c t h0) :=
  o.fitE_float (o.clip_float hh)

/-- The accepted step size of the loop. -/
theorem loop_some {m : ℝ} {rej : List ℝ} {h h' : ℝ} (hh : IsFloat p emin h) (e : flLoop c m rej h = some h') :
    m ≤ h' ∧ IsFloat p emin h' := by
  induction rej generalizing h with
  | nil =>
    unfold flLoop at e
    split at e
    · cases e
    · rename_i hn
      cases e
      exact ⟨not_lt.mp hn, hh⟩
  | cons φ l ih =>
    unfold flLoop at e
    split at e
    · cases e
    · exact ih (o.hfl _).1 e

/-- With factors of at most one the step size does not grow. -/
theorem loop_le {m : ℝ} {rej : List ℝ} {h h' : ℝ} (hm : 0 ≤ m) (hr : ∀ φ ∈ rej, φ ≤ 1) (hh : IsFloat p emin h)
    (e : flLoop c m rej h = some h') : h' ≤ h := by
  induction rej generalizing h with
  | nil =>
    unfold flLoop at e
    split at e
    · cases e
    · cases e; exact le_refl _
  | cons φ l ih =>
    unfold flLoop at e
    split at e
    · cases e
    · rename_i hn
      have h0 : 0 ≤ h := hm.trans (not_lt.mp hn)
      refine (ih (fun ψ hψ => hr ψ (by simp [hψ])) (o.hfl _).1 e).trans (fl_le o.hfl hh ?_)
      have := hr φ (by simp)
      nlinarith

omit o in
theorem loop_short {m : ℝ} {rej : List ℝ} {h : ℝ} (hs : h < m) : flLoop c m rej h = none := by
  cases rej <;> simp [flLoop, hs]

omit o in
theorem advance_some {t h m : ℝ} {rej : List ℝ} {acc : ℝ} {s : ℝ × ℝ} (e : flAdvance c t h m rej acc = some s) :
    ∃ h', flLoop c m rej h = some h' ∧ s = (c.fl (t + h' * c.dir), c.fl (h' * acc)) := by
  unfold flAdvance at e
  rw [Option.map_eq_some_iff] at e
  obtain ⟨h', h1, h2⟩ := e
  exact ⟨h', h1, h2.symm⟩

/-- The time advances by nearly the step size. -/
theorem advance_time {t h0 h : ℝ} (ht : IsFloat p emin t) (hh0 : IsFloat p emin h0) (h0n : 0 ≤ h0)
    (hh : IsFloat p emin h) (hm : flMinStep c t h0 ≤ h) :
    4 / 5 * h ≤ c.dir * (c.fl (t + h * c.dir) - t) := by
  have hu := o.u_pos
  have hu2 := o.u_le
  have hpos : 0 < h := lt_of_lt_of_le (o.minStep_pos t h0) hm
  have e1 := fl_add_error o.hfl o.hp0 ht (o.mul_dir hh)
  have e2 : |t + h * c.dir| ≤ |t| + h := by
    refine (abs_add_le _ _).trans ?_
    rw [abs_mul, o.abs_dir, mul_one, abs_of_pos hpos]
  have e3 := e1.trans (mul_le_mul_of_nonneg_left e2 hu.le)
  have g := (o.minStep_ge ht hh0 h0n).trans hm
  have a1 : 10 * unitRoundoff p * |t| ≤ c.hMinA * (|t| + h0) := by
    have := mul_le_mul_of_nonneg_right o.hMinA_ge (abs_nonneg t)
    have a0 : 0 ≤ c.hMinA := le_trans (by linarith) o.hMinA_ge
    have := mul_nonneg a0 h0n
    linarith
  have a2 : unitRoundoff p * |t| ≤ 10 / 99 * h := by linarith
  have a3 : unitRoundoff p * h ≤ 1 / 65536 * h := mul_le_mul_of_nonneg_right hu2 hpos.le
  have a4 : |c.fl (t + h * c.dir) - (t + h * c.dir)| ≤ 1 / 5 * h := by
    refine e3.trans ?_
    rw [mul_add]; linarith
  have a5 := abs_le.mp a4
  rcases o.dir with e | e <;> rw [e] at a5 ⊢ <;> linarith [a5.1, a5.2]

end FlOK

/-! ### The parameters of the minimal step -/

section nodes
variable (fl)

private theorem fl_inner (l : List ℝ) (c1 m : ℝ) :
    l.foldl (fun m c2 => if |fl (c1 - c2)| ≠ 0 then min m |fl (c1 - c2)| else m) m ≤ m ∧
    (∀ c2 ∈ l, fl (c1 - c2) ≠ 0 →
      l.foldl (fun m c2 => if |fl (c1 - c2)| ≠ 0 then min m |fl (c1 - c2)| else m) m ≤ |fl (c1 - c2)|) ∧
    (l.foldl (fun m c2 => if |fl (c1 - c2)| ≠ 0 then min m |fl (c1 - c2)| else m) m = m ∨
      ∃ c2 ∈ l, fl (c1 - c2) ≠ 0 ∧
        l.foldl (fun m c2 => if |fl (c1 - c2)| ≠ 0 then min m |fl (c1 - c2)| else m) m = |fl (c1 - c2)|) := by
  induction l generalizing m with
  | nil => simp
  | cons a l ih =>
    simp only [List.foldl_cons]
    obtain ⟨h1, h2, h3⟩ := ih (if |fl (c1 - a)| ≠ 0 then min m |fl (c1 - a)| else m)
    have hle : (if |fl (c1 - a)| ≠ 0 then min m |fl (c1 - a)| else m) ≤ m := by
      split
      · exact min_le_left _ _
      · exact le_rfl
    refine ⟨h1.trans hle, ?_, ?_⟩
    · intro c2 hc2 hne
      rcases List.mem_cons.mp hc2 with rfl | hmem
      · refine h1.trans ?_
        rw [if_pos (by rw [ne_eq, abs_eq_zero]; exact hne)]
        exact min_le_right _ _
      · exact h2 c2 hmem hne
    · rcases h3 with h3 | ⟨c2, hc2, h3, h4⟩
      · rw [h3]
        by_cases h : |fl (c1 - a)| ≠ 0
        · rw [if_pos h]
          rcases min_choice m |fl (c1 - a)| with e | e <;> rw [e]
          · exact Or.inl rfl
          · exact Or.inr ⟨a, by simp, by rwa [ne_eq, abs_eq_zero] at h, rfl⟩
        · rw [if_neg h]; exact Or.inl rfl
      · exact Or.inr ⟨c2, by simp [hc2], h3, h4⟩

private theorem fl_outer (C l : List ℝ) (m : ℝ) :
    l.foldl (fun m c1 => C.foldl (fun m c2 => if |fl (c1 - c2)| ≠ 0 then min m |fl (c1 - c2)| else m) m) m ≤ m ∧
    (∀ c1 ∈ l, ∀ c2 ∈ C, fl (c1 - c2) ≠ 0 →
      l.foldl (fun m c1 => C.foldl (fun m c2 => if |fl (c1 - c2)| ≠ 0 then min m |fl (c1 - c2)| else m) m) m
        ≤ |fl (c1 - c2)|) ∧
    (l.foldl (fun m c1 => C.foldl (fun m c2 => if |fl (c1 - c2)| ≠ 0 then min m |fl (c1 - c2)| else m) m) m = m ∨
      ∃ c1 ∈ l, ∃ c2 ∈ C, fl (c1 - c2) ≠ 0 ∧
      l.foldl (fun m c1 => C.foldl (fun m c2 => if |fl (c1 - c2)| ≠ 0 then min m |fl (c1 - c2)| else m) m) m
        = |fl (c1 - c2)|) := by
  induction l generalizing m with
  | nil => simp
  | cons a l ih =>
    simp only [List.foldl_cons]
    obtain ⟨h1, h2, h3⟩ := ih (C.foldl (fun m c2 => if |fl (a - c2)| ≠ 0 then min m |fl (a - c2)| else m) m)
    obtain ⟨i1, i2, i3⟩ := fl_inner fl C a m
    refine ⟨h1.trans i1, ?_, ?_⟩
    · intro c1 hc1 c2 hc2 hne
      rcases List.mem_cons.mp hc1 with rfl | hmem
      · exact h1.trans (i2 c2 hc2 hne)
      · exact h2 c1 hmem c2 hc2 hne
    · rcases h3 with h3 | ⟨c1, hc1, c2, hc2, h3, h4⟩
      · rw [h3]
        rcases i3 with i3 | ⟨c2, hc2, i3, i4⟩
        · exact Or.inl i3
        · exact Or.inr ⟨a, by simp, c2, hc2, i3, i4⟩
      · exact Or.inr ⟨c1, by simp [hc1], c2, hc2, h3, h4⟩

theorem flCdiffRaw_le_one (C : List ℝ) : flCdiffRaw fl C ≤ 1 := (fl_outer fl C C 1).1

theorem flCdiffRaw_le (C : List ℝ) {c1 c2 : ℝ} (h1 : c1 ∈ C) (h2 : c2 ∈ C) (h : fl (c1 - c2) ≠ 0) :
    flCdiffRaw fl C ≤ |fl (c1 - c2)| := (fl_outer fl C C 1).2.1 c1 h1 c2 h2 h

theorem flCdiffRaw_attained (C : List ℝ) : flCdiffRaw fl C = 1 ∨
    ∃ c1 ∈ C, ∃ c2 ∈ C, fl (c1 - c2) ≠ 0 ∧ flCdiffRaw fl C = |fl (c1 - c2)| := (fl_outer fl C C 1).2.2

end nodes

section
variable (hfl : RoundsToNearest p emin fl) (hp : 16 ≤ p) (hr : emin + 2 * p ≤ 0)
include hfl hp hr

theorem isFloat_ten_u : IsFloat p emin (10 * unitRoundoff p) := by
  refine ⟨10, -p, ?_, by omega, by rw [unitRoundoff_zpow]; norm_num⟩
  have : (2 : ℤ) ^ 16 ≤ 2 ^ p := pow_le_pow_right₀ (by norm_num) hp
  norm_num at this ⊢; linarith

theorem isFloat_one : IsFloat p emin (1 : ℝ) := by
  refine ⟨1, 0, ?_, by omega, by simp⟩
  have : (2 : ℤ) ^ 16 ≤ 2 ^ p := pow_le_pow_right₀ (by norm_num) hp
  norm_num at this ⊢; omega

theorem fl_thousandth : 1 / 1024 ≤ fl (1 / 1000) ∧ fl (1 / 1000) ≤ 1 / 512 := by
  have h1 : (2 : ℤ) ^ 16 ≤ 2 ^ p := pow_le_pow_right₀ (by norm_num) hp
  constructor
  · refine le_fl hfl ⟨1, -10, ?_, by omega, by norm_num⟩ (by norm_num)
    norm_num at h1 ⊢; linarith
  · refine fl_le hfl ⟨1, -9, ?_, by omega, by norm_num⟩ (by norm_num)
    norm_num at h1 ⊢; linarith

theorem flCdiff_range (C : List ℝ) : 1 / 1024 ≤ flCdiff fl C ∧ flCdiff fl C ≤ 1 := by
  have h := fl_thousandth hfl hp hr
  unfold flCdiff
  split
  · exact ⟨h.1, by linarith⟩
  · rename_i hn
    exact ⟨by linarith, flCdiffRaw_le_one fl C⟩

theorem flHMinA_range (C : List ℝ) :
    10 * unitRoundoff p ≤ flHMinA fl (unitRoundoff p) C ∧ flHMinA fl (unitRoundoff p) C ≤ 1 ∧
    10 * unitRoundoff p * (1 - unitRoundoff p) ≤ flCdiff fl C * flHMinA fl (unitRoundoff p) C := by
  have hu := unitRoundoff_pos (p := p)
  have hu2 := unitRoundoff_le hp
  obtain ⟨c1, c2⟩ := flCdiff_range hfl hp hr C
  have hten := isFloat_ten_u hfl hp hr
  unfold flHMinA
  rw [fl_of_float hfl hten]
  set δ := flCdiff fl C with hδ
  have δ0 : 0 < δ := by linarith
  have hx : 10 * unitRoundoff p ≤ 10 * unitRoundoff p / δ := by
    rw [le_div_iff₀ δ0]; nlinarith
  have hx1 : 10 * unitRoundoff p / δ ≤ 1 := by
    rw [div_le_iff₀ δ0]; linarith
  have hx0 : 0 ≤ 10 * unitRoundoff p / δ := by positivity
  refine ⟨le_fl hfl hten hx, fl_le hfl (isFloat_one hfl hp hr) hx1, ?_⟩
  have e := fl_error_normal hfl (by omega) (x := 10 * unitRoundoff p / δ) (by
    rw [abs_of_nonneg hx0]
    refine le_trans ?_ hx
    rw [unitRoundoff_zpow]
    have : (2 : ℝ) ^ (emin + p - 1) ≤ 2 ^ (-(p : ℤ)) := zpow_le_zpow_right₀ (by norm_num) (by omega)
    have h3 : (0 : ℝ) < 2 ^ (-(p : ℤ)) := by positivity
    linarith)
  rw [abs_of_nonneg hx0] at e
  have e' := (abs_le.mp e).1
  have e2 := mul_le_mul_of_nonneg_left (show 10 * unitRoundoff p / δ * (1 - unitRoundoff p) ≤ _ by linarith) δ0.le
  refine le_trans (le_of_eq ?_) e2
  field_simp

/-- The difference of two distinct floats is not rounded to zero. -/
theorem fl_sub_ne_zero {x y : ℝ} (hx : IsFloat p emin x) (hy : IsFloat p emin y) (h : x ≠ y) : fl (x - y) ≠ 0 := by
  intro h0
  have e := fl_add_error hfl (by omega) hx hy.neg
  rw [← sub_eq_add_neg, h0, zero_sub, abs_neg] at e
  have hu2 := unitRoundoff_le hp
  have : 0 < |x - y| := abs_pos.mpr (sub_ne_zero.mpr h)
  nlinarith

end

end Extensisq
