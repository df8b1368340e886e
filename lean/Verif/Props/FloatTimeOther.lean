import Verif.Lemmas.FloatSum
import Verif.Model.FloatTimeOther

/-!
# C114: the time of SWAG and SSV2stab in floating point

Progress, no step past `t_bound` beyond the rounding, and the end of the interval: the last step lands within the rounding of the rest of the interval, and when it
lands short of `t_bound` the following step ends exactly on it. (The explicit Runge-Kutta, Nyström and ESDIRK methods fail there, C90.)
-/

set_option linter.unusedSectionVars false

namespace Extensisq

variable {p : ℕ} {emin : ℤ}

/-! ## SWAG -/

/-- What is assumed of the arithmetic and the data of a `SWAG` object: rounding to nearest with at least 16 bits, floats, `fouru` is not below four units. -/
structure FlSwagOK (p : ℕ) (emin : ℤ) (c : FlSwag) : Prop where
  hp : 16 ≤ p
  hfl : RoundsToNearest p emin c.fl
  dir : c.dir = 1 ∨ c.dir = -1
  fouru : 4 * unitRoundoff p ≤ c.fouru
  tb : ∀ b, c.tb = some b → IsFloat p emin b
  maxStep : ∀ m, c.maxStep = some m → IsFloat p emin m ∧ 0 < m

theorem copySign_dir {a dir : ℝ} (h : dir = 1 ∨ dir = -1) : copySign a dir = dir * a := by
  rcases h with rfl | rfl <;> simp [copySign]

namespace FlSwagOK
variable {c : FlSwag} (o : FlSwagOK p emin c)
include o

theorem dir_mul (x : ℝ) : c.dir * (c.dir * x) = x := by rcases o.dir with e | e <;> rw [e] <;> ring

theorem abs_dir_mul (x : ℝ) : |c.dir * x| = |x| := by rcases o.dir with e | e <;> rw [e] <;> simp

/-- In the direction of integration the size of a step is the step. -/
theorem abs_eq {h : ℝ} (h0 : 0 ≤ c.dir * h) : |h| = c.dir * h := by rw [← o.abs_dir_mul, abs_of_nonneg h0]

theorem copy_eq {a h : ℝ} (h0 : 0 < c.dir * h) : copySign a h = c.dir * a := by
  rcases o.dir with e | e <;> rw [e] at h0 ⊢ <;> unfold copySign
  · rw [if_neg (by linarith)]; ring
  · rw [if_pos (by linarith)]; ring

theorem fl_dir {z : ℝ} (h : 0 ≤ c.dir * z) : 0 ≤ c.dir * c.fl z := by
  rcases o.dir with e | e <;> rw [e] at h ⊢
  · have := fl_nonneg o.hfl (x := z) (by linarith); linarith
  · have := fl_nonpos o.hfl (x := z) (by linarith); linarith

/-- The step size of the first attempt: a float in the direction of integration, not past the rounded end of the interval. -/
theorem limit_spec {x h : ℝ} (hx : IsFloat p emin x) (hh : IsFloat p emin h) (h0 : 0 < c.dir * h) (hah : ∀ b, c.tb = some b → 0 ≤ c.dir * (b - x)) :
    IsFloat p emin (fswLimit c x h) ∧ 0 ≤ c.dir * fswLimit c x h ∧ (∀ b, c.tb = some b → c.dir * fswLimit c x h ≤ |c.fl (b - x)|) ∧
      ∀ m, c.maxStep = some m → |fswLimit c x h| ≤ m := by
  have h1 : IsFloat p emin (fswLimit1 c x h) ∧ 0 ≤ c.dir * fswLimit1 c x h ∧ ∀ b, c.tb = some b → c.dir * fswLimit1 c x h ≤ |c.fl (b - x)| := by
    unfold fswLimit1
    cases hb : c.tb with
    | none => exact ⟨hh, h0.le, fun b e => by cases e⟩
    | some b =>
      dsimp only
      have hd := o.fl_dir (hah b hb)
      have hdF := (o.hfl (b - x)).1
      split_ifs with hc
      · refine ⟨hdF, hd, fun b' e => ?_⟩
        cases e
        rw [o.abs_eq hd]
      · refine ⟨hh, h0.le, fun b' e => ?_⟩
        cases e
        rw [o.abs_eq hd]
        by_contra hn
        push Not at hn
        apply hc
        have e1 := fl_add_error o.hfl (by have := o.hp; omega) hh hdF.neg
        rw [← sub_eq_add_neg] at e1
        have hz : 0 < c.dir * (h - c.fl (b - x)) := by rw [mul_sub]; linarith
        have hu := unitRoundoff_le o.hp
        rw [o.abs_eq hz.le] at e1
        have e2 : unitRoundoff p * (c.dir * (h - c.fl (b - x))) ≤ 1 / 65536 * (c.dir * (h - c.fl (b - x))) := mul_le_mul_of_nonneg_right hu hz.le
        have e3 := abs_le.mp e1
        rcases o.dir with e | e <;> rw [e] at e2 e3 hz ⊢ <;> linarith [e3.1, e3.2]
  obtain ⟨p1, p2, p3⟩ := h1
  unfold fswLimit
  cases hm : c.maxStep with
  | none => exact ⟨p1, p2, p3, fun m e => by cases e⟩
  | some m =>
    obtain ⟨hmF, hm0⟩ := o.maxStep m hm
    have hmin : IsFloat p emin (min m |fswLimit1 c x h|) := by
      rcases min_choice m |fswLimit1 c x h| with e | e <;> rw [e]
      · exact hmF
      · exact p1.abs
    have hmin0 : 0 ≤ min m |fswLimit1 c x h| := le_min hm0.le (abs_nonneg _)
    dsimp only
    rw [copySign_dir o.dir]
    refine ⟨?_, by rw [o.dir_mul]; exact hmin0, fun b e => ?_, fun m' e => ?_⟩
    · rcases o.dir with e | e <;> rw [e]
      · simpa using hmin
      · simpa using hmin.neg
    · rw [o.dir_mul]
      exact (min_le_right _ _).trans ((o.abs_eq p2).le.trans (p3 b e))
    · cases e
      rw [o.abs_dir_mul, abs_of_nonneg hmin0]
      exact min_le_left _ _

/-- The accepted attempt. -/
theorem loop_spec {m : ℝ} : ∀ {rej : List ℝ} {h h' : ℝ}, fswLoop c m rej h = some h' → IsFloat p emin h → 0 ≤ c.dir * h → (∀ φ ∈ rej, 0 ≤ φ) → m ≤ |h| →
    IsFloat p emin h' ∧ 0 ≤ c.dir * h' ∧ m ≤ |h'| ∧ ((∀ φ ∈ rej, φ ≤ 1) → |h'| ≤ |h|) := by
  intro rej
  induction rej with
  | nil =>
    intro h h' e hF h0 _ hm
    cases e
    exact ⟨hF, h0, hm, fun _ => le_rfl⟩
  | cons φ l ih =>
    intro h h' e hF h0 hr hm
    unfold fswLoop at e
    split_ifs at e with hlt
    have hφ : 0 ≤ φ := hr φ (by simp)
    have hd : 0 ≤ c.dir * (h * φ) := by rw [← mul_assoc]; exact mul_nonneg h0 hφ
    obtain ⟨q1, q2, q3, q4⟩ := ih e (o.hfl _).1 (o.fl_dir hd) (fun ψ h => hr ψ (by simp [h])) (not_lt.mp hlt)
    refine ⟨q1, q2, q3, fun h1 => (q4 fun ψ h => h1 ψ (by simp [h])).trans ?_⟩
    have hφ1 : φ ≤ 1 := h1 φ (by simp)
    have hz : |h * φ| ≤ |h| := by rw [abs_mul, abs_of_nonneg hφ]; exact mul_le_of_le_one_right (abs_nonneg _) hφ1
    have hz' := abs_le.mp hz
    exact abs_le.mpr ⟨le_fl o.hfl hF.abs.neg hz'.1, fl_le o.hfl hF.abs hz'.2⟩

/-- Steps not below the minimal step are not lost in the rounding. -/
theorem min_ge (x : ℝ) : 3 / 2 * (unitRoundoff p * |x|) ≤ fswMin c x ∨ |x| < (2 : ℝ) ^ (emin + p) := by
  rcases lt_or_ge |x| ((2 : ℝ) ^ (emin + p)) with h | h
  · exact Or.inr h
  · refine Or.inl ?_
    have hu0 := unitRoundoff_pos (p := p)
    have hu := unitRoundoff_le o.hp
    have h1 : 4 * unitRoundoff p * |x| ≤ c.fouru * |x| := mul_le_mul_of_nonneg_right o.fouru (abs_nonneg _)
    have h2 : (2 : ℝ) ^ emin ≤ unitRoundoff p * |x| := by
      rw [zpow_add₀ (by norm_num), zpow_natCast] at h
      have := mul_le_mul_of_nonneg_left h hu0.le
      refine le_trans (le_of_eq ?_) this
      unfold unitRoundoff
      field_simp
    have h3 := fl_error o.hfl (by have := o.hp; omega) (c.fouru * |x|)
    have hz : 0 ≤ c.fouru * |x| := le_trans (by positivity) h1
    rw [abs_of_nonneg hz] at h3
    have h4 : unitRoundoff p * (c.fouru * |x|) ≤ 1 / 65536 * (c.fouru * |x|) := mul_le_mul_of_nonneg_right hu hz
    have := (abs_le.mp h3).1
    unfold fswMin
    linarith

end FlSwagOK

section
variable {c : FlSwag} (o : FlSwagOK p emin c) {x h : ℝ} (hx : IsFloat p emin x) (hh : IsFloat p emin h) (h0 : 0 < c.dir * h)
  (hah : ∀ b, c.tb = some b → 0 < c.dir * (b - x))
include o hx hh h0 hah

/-- **C114**. A successful step of SWAG moves the time in the direction of integration, unless the step size has become zero by underflow, which requires a time
`|t| < 2^(emin+p)` (the smallest normal number times two) where the minimal step vanishes. -/
theorem C114_swag_progress {rej : List ℝ} (hr : ∀ φ ∈ rej, 0 ≤ φ) {acc : SwagAfter} {s' : ℝ × ℝ} (e : fswStep c x h rej acc = some s') :
    0 < c.dir * (s'.1 - x) ∨ |x| < (2 : ℝ) ^ (emin + p) ∧ fswLoop c (fswMin c x) rej (fswLimit c x h) = some 0 := by
  unfold fswStep at e
  split_ifs at e with h1 h2
  · left
    cases e
    unfold fswNear at h1
    cases hb : c.tb with
    | none => rw [hb] at h1; cases h1
    | some b => simpa using hah b hb
  · obtain ⟨h', e1, rfl⟩ := Option.map_eq_some_iff.mp e
    obtain ⟨l1, l2, -, -⟩ := o.limit_spec hx hh h0 (fun b hb => (hah b hb).le)
    obtain ⟨q1, q2, q3, -⟩ := o.loop_spec e1 l1 l2 hr (not_lt.mp h2)
    rcases q2.eq_or_lt with hz | hz
    · have hz0 : h' = 0 := by rcases o.dir with e | e <;> rw [e] at hz <;> linarith
      subst hz0
      rcases o.min_ge x with hm | hm
      · rw [abs_zero] at q3
        have hu0 := unitRoundoff_pos (p := p)
        have hx0 : |x| ≤ 0 := by
          by_contra hn
          push Not at hn
          have := mul_pos hu0 hn
          linarith
        exact Or.inr ⟨hx0.trans_lt (by positivity), e1⟩
      · exact Or.inr ⟨hm, e1⟩
    · left
      exact advance_dir o.hfl o.hp o.dir hx q1 hz ((o.min_ge x).imp (fun h => h.trans q3) id)

/-- **C114**. A step of SWAG does not go past `t_bound` by more than the rounding of the rest of the interval, and not at all if `t_bound - t` is a float. -/
theorem C114_swag_no_overshoot {rej : List ℝ} (hr : ∀ φ ∈ rej, 0 ≤ φ ∧ φ ≤ 1) {acc : SwagAfter} {s' : ℝ × ℝ} (e : fswStep c x h rej acc = some s') {b : ℝ}
    (hb : c.tb = some b) :
    c.dir * (s'.1 - b) ≤ 2 * (unitRoundoff p * |b - x|) ∧ (IsFloat p emin (b - x) → c.dir * (s'.1 - b) ≤ 0) := by
  have hu : 0 ≤ unitRoundoff p * |b - x| := mul_nonneg unitRoundoff_pos.le (abs_nonneg _)
  unfold fswStep at e
  split_ifs at e with h1 h2
  · cases e
    rw [hb]
    simp only [Option.getD_some, sub_self, mul_zero, le_refl, implies_true, and_true]
    linarith
  · obtain ⟨h', e1, rfl⟩ := Option.map_eq_some_iff.mp e
    obtain ⟨l1, l2, l3, -⟩ := o.limit_spec hx hh h0 (fun b hb => (hah b hb).le)
    obtain ⟨q1, q2, -, q4⟩ := o.loop_spec e1 l1 l2 (fun φ h => (hr φ h).1) (not_lt.mp h2)
    refine no_overshoot o.hfl o.hp o.dir hx (o.tb b hb) (hah b hb).le ?_
    have := q4 fun φ h => (hr φ h).2
    rw [o.abs_eq q2, o.abs_eq l2] at this
    exact this.trans (l3 b hb)

/-- **C114**. The step size of an accepted attempt of SWAG (away from `t_bound`) is a float between the minimal step and `max_step`, in the direction of integration,
and the new time is the rounded sum. A rejected attempt whose new step size is below the minimal step ends the step with a failure. -/
theorem C114_swag_step_size (hn : fswNear c x = false) :
    (∀ {rej : List ℝ} {acc : SwagAfter} {s' : ℝ × ℝ}, (∀ φ ∈ rej, 0 ≤ φ ∧ φ ≤ 1) → fswStep c x h rej acc = some s' →
      ∃ h', IsFloat p emin h' ∧ 0 ≤ c.dir * h' ∧ fswMin c x ≤ |h'| ∧ (∀ m, c.maxStep = some m → |h'| ≤ m) ∧ s'.1 = c.fl (x + h') ∧
        s'.2 = fswNext c (fswMin c x) h' acc) ∧
    (∀ (l l' : List ℝ) (φ h' : ℝ) (acc : SwagAfter), fswLoop c (fswMin c x) l (fswLimit c x h) = some h' → |c.fl (h' * φ)| < fswMin c x →
      fswStep c x h (l ++ φ :: l') acc = none) ∧
    (|fswLimit c x h| < fswMin c x → ∀ rej acc, fswStep c x h rej acc = none) := by
  refine ⟨fun {rej acc s'} hr e => ?_, fun l l' φ h' acc e hlt => ?_, fun hlt rej acc => ?_⟩
  · unfold fswStep at e
    rw [hn, if_neg (by simp)] at e
    split_ifs at e with h2
    obtain ⟨h', e1, rfl⟩ := Option.map_eq_some_iff.mp e
    obtain ⟨l1, l2, -, l4⟩ := o.limit_spec hx hh h0 (fun b hb => (hah b hb).le)
    obtain ⟨q1, q2, q3, q4⟩ := o.loop_spec e1 l1 l2 (fun φ h => (hr φ h).1) (not_lt.mp h2)
    exact ⟨h', q1, q2, q3, fun m hm => (q4 fun φ h => (hr φ h).2).trans (l4 m hm), rfl, rfl⟩
  · have key : ∀ (l : List ℝ) (g : ℝ), fswLoop c (fswMin c x) l g = some h' → fswLoop c (fswMin c x) (l ++ φ :: l') g = none := by
      intro l
      induction l with
      | nil =>
        intro g e
        cases e
        simp only [List.nil_append, fswLoop]
        exact if_pos hlt
      | cons ψ l ih =>
        intro g e
        simp only [List.cons_append]
        unfold fswLoop at e ⊢
        split_ifs at e ⊢ with h1
        exact ih _ e
    unfold fswStep
    rw [hn, if_neg (by simp), key l _ e]
    split_ifs <;> rfl
  · unfold fswStep
    rw [hn, if_neg (by simp), if_pos hlt]

/-- The next step size covers what the last step has left. -/
theorem FlSwagOK.next_ge {h' δ m : ℝ} (acc : SwagAfter) (hF : IsFloat p emin h') (hpos : 0 < c.dir * h') (hδ : IsFloat p emin δ) (hδ0 : 0 < c.dir * δ)
    (hle : c.dir * δ ≤ c.dir * h' / 4) : IsFloat p emin m → IsFloat p emin (fswNext c m h' acc) ∧ c.dir * δ ≤ c.dir * fswNext c m h' acc ∧ 0 < c.dir * fswNext c m h' acc := by
  intro hm
  have hq : 0 < c.dir * h' / 4 := by linarith
  cases acc with
  | double =>
    have e2 : c.fl (h' + h') = 2 * h' := by
      rw [← two_mul]; exact fl_of_float o.hfl hF.two_mul
    simp only [fswNext]
    rw [e2]
    refine ⟨hF.two_mul, ?_, ?_⟩ <;> rw [mul_left_comm] <;> linarith
  | keep => exact ⟨hF, by simp only [fswNext]; linarith, hpos⟩
  | reduce r =>
    simp only [fswNext]
    rw [o.copy_eq hpos, o.dir_mul]
    set q := max (1 / 2) (min (c.fl (9 / 10)) r) with hqd
    have hq2 : 1 / 2 ≤ q := le_max_left _ _
    have habs := o.abs_eq hpos.le
    have hge : c.dir * h' / 2 ≤ |h'| * q := by
      rw [habs]
      calc c.dir * h' / 2 = c.dir * h' * (1 / 2) := by ring
        _ ≤ _ := mul_le_mul_of_nonneg_left hq2 hpos.le
    have hδa : IsFloat p emin (c.dir * δ) := by rw [← o.abs_eq hδ0.le]; exact hδ.abs
    have hF1 := (o.hfl (|h'| * q)).1
    have hle1 : c.dir * δ ≤ c.fl (|h'| * q) := le_fl o.hfl hδa (by linarith)
    have hmx : IsFloat p emin (max (c.fl (|h'| * q)) m) := by
      rcases max_choice (c.fl (|h'| * q)) m with e | e <;> rw [e]
      · exact hF1
      · exact hm
    refine ⟨?_, hle1.trans (le_max_left _ _), (hδ0.trans_le hle1).trans_le (le_max_left _ _)⟩
    rcases o.dir with e | e <;> rw [e]
    · simpa using hmx
    · simpa using hmx.neg


/-- **C114**. The last step of SWAG: if the step size of the first attempt is the rest of the interval and the attempt is accepted, the time is within
`2 u |t_bound - t|` of `t_bound`. If it is still short of `t_bound` (otherwise scipy ends the integration), the rest of the interval is a float, and the next step
ends exactly on `t_bound`, if its first attempt is accepted; no attempt is needed if `t_bound` is within the minimal step. -/
theorem C114_swag_end {b : ℝ} (hb : c.tb = some b) (hl : fswLimit c x h = c.fl (b - x)) (hn : fswNear c x = false) {acc : SwagAfter} {s' : ℝ × ℝ}
    (e : fswStep c x h [] acc = some s') :
    |s'.1 - b| ≤ 2 * (unitRoundoff p * |b - x|) ∧
    (0 < c.dir * (b - s'.1) → IsFloat p emin (b - s'.1) ∧ (∀ acc', ∃ h'', fswStep c s'.1 s'.2 [] acc' = some (b, h'')) ∧
      (fswNear c s'.1 = true → ∀ rej acc', fswStep c s'.1 s'.2 rej acc' = some (b, s'.2))) := by
  have hbF := o.tb b hb
  have hd := hah b hb
  obtain ⟨e1, e2⟩ := land_error o.hfl o.hp hx hbF
  have hrest := rest_after_landing o.hfl o.hp hx hbF
  obtain ⟨l1, l2, -, l4⟩ := o.limit_spec hx hh h0 (fun b hb => (hah b hb).le)
  unfold fswStep at e
  rw [hn, if_neg (by simp)] at e
  split_ifs at e with h2
  simp only [fswLoop, Option.map_some] at e
  cases e
  rw [hl] at l1 l2 l4 ⊢
  dsimp only
  set d := c.fl (b - x) with hdd
  set x' := c.fl (x + d) with hx'
  refine ⟨by rw [abs_sub_comm]; linarith, fun hshort => ⟨hrest, ?_⟩⟩
  set δ := b - x' with hδ
  have hu := unitRoundoff_le o.hp
  have hxb := abs_nonneg (b - x)
  have hu1 : unitRoundoff p * |b - x| ≤ 1 / 65536 * |b - x| := mul_le_mul_of_nonneg_right hu hxb
  have hdabs := o.abs_eq l2
  have habx := o.abs_eq hd.le
  have hdl : |b - x| ≤ |d| + |d - (b - x)| := by
    have := abs_sub_abs_le_abs_sub (b - x) d
    rw [abs_sub_comm (b - x) d] at this
    linarith
  have hδabs := o.abs_eq hshort.le
  have hpd : 0 < c.dir * d := by rw [← hdabs]; linarith [habx ▸ hd]
  have hδd : c.dir * δ ≤ c.dir * d / 4 := by rw [← hδabs, ← hdabs]; linarith
  have hmF : IsFloat p emin (fswMin c x) := (o.hfl _).1
  obtain ⟨n1, n2, n3⟩ := FlSwagOK.next_ge o hx hh h0 hah acc l1 hpd hrest hshort hδd hmF
  set h' := fswNext c (fswMin c x) d acc with hh'
  have hflδ : c.fl (b - x') = δ := fl_of_float o.hfl hrest
  constructor
  · intro acc'
    unfold fswStep
    by_cases hnear : fswNear c x' = true
    · rw [if_pos hnear, hb]
      exact ⟨_, rfl⟩
    · rw [if_neg hnear]
      have hlim1 : fswLimit1 c x' h' = δ := by
        unfold fswLimit1
        rw [hb]
        dsimp only
        rw [hflδ]
        split_ifs with hc
        · rfl
        · have hz : 0 ≤ c.dir * (h' - δ) := by rw [mul_sub]; linarith
          have e4 := fl_add_error o.hfl (by have := o.hp; omega) n1 hrest.neg
          rw [← sub_eq_add_neg, o.abs_eq hz] at e4
          have e5 : unitRoundoff p * (c.dir * (h' - δ)) ≤ 1 / 65536 * (c.dir * (h' - δ)) := mul_le_mul_of_nonneg_right hu hz
          have e6 := abs_le.mp e4
          rcases o.dir with e | e <;> rw [e] at e5 e6 hz hc <;> linarith [e6.1, e6.2]
      have hlim : fswLimit c x' h' = δ := by
        unfold fswLimit
        rw [hlim1]
        cases hm : c.maxStep with
        | none => rfl
        | some m =>
          have hdm := l4 m hm
          dsimp only
          rw [copySign_dir o.dir, hδabs, min_eq_right (by linarith), o.dir_mul]
      have hnm : ¬ |δ| < fswMin c x' := by
        intro hlt
        apply hnear
        unfold fswNear
        rw [hb]
        simp only [hflδ, decide_eq_true_eq]
        exact hlt.le
      rw [hlim, if_neg hnm]
      refine ⟨fswNext c (fswMin c x') δ acc', ?_⟩
      simp only [fswLoop, Option.map_some]
      rw [show x' + δ = b by rw [hδ]; ring, fl_of_float o.hfl hbF]
  · intro hnear rej acc'
    unfold fswStep
    rw [if_pos hnear, hb]
    rfl

/-- **C114**. When the step size and `max_step` cover the rest of the interval, the first attempt is the rest of the interval. -/
theorem C114_swag_last {b : ℝ} (hb : c.tb = some b) (hl : |c.fl (b - x)| ≤ c.dir * h) (hm : ∀ m, c.maxStep = some m → |c.fl (b - x)| ≤ m) :
    fswLimit c x h = c.fl (b - x) := by
  have hd := o.fl_dir (hah b hb).le
  have hdF := (o.hfl (b - x)).1
  rw [o.abs_eq hd] at hl hm
  have hlim1 : fswLimit1 c x h = c.fl (b - x) := by
    unfold fswLimit1
    rw [hb]
    dsimp only
    split_ifs with hc
    · rfl
    · have hz : 0 ≤ c.dir * (h - c.fl (b - x)) := by rw [mul_sub]; linarith
      have e4 := fl_add_error o.hfl (by have := o.hp; omega) hh hdF.neg
      rw [← sub_eq_add_neg, o.abs_eq hz] at e4
      have hu := unitRoundoff_le o.hp
      have e5 : unitRoundoff p * (c.dir * (h - c.fl (b - x))) ≤ 1 / 65536 * (c.dir * (h - c.fl (b - x))) := mul_le_mul_of_nonneg_right hu hz
      have e6 := abs_le.mp e4
      rcases o.dir with e | e <;> rw [e] at e5 e6 hz hc <;> linarith [e6.1, e6.2]
  unfold fswLimit
  rw [hlim1]
  cases hm' : c.maxStep with
  | none => rfl
  | some m =>
    dsimp only
    rw [copySign_dir o.dir, o.abs_eq hd, min_eq_right (hm m hm'), o.dir_mul]

end

/-- **C114**, known defect (as C46 without rounding): at `t = 0` the minimal step is zero, so that attempts are never given up: with the rounding rule of IEEE 754 (the
half of the smallest number is rounded to zero) the step size of a rejected attempt can become zero, and a step of length zero succeeds. -/
theorem C114_swag_zero_step {c : FlSwag} (o : FlSwagOK p emin c) (hz : c.fl ((2 : ℝ) ^ emin / 2) = 0) (ht : c.tb = none) (hm : c.maxStep = none) (acc : SwagAfter) :
    ∃ h', fswStep c 0 ((2 : ℝ) ^ emin) [1 / 2] acc = some (0, h') := by
  have hmin : fswMin c 0 = 0 := by unfold fswMin; rw [abs_zero, mul_zero]; exact fl_zero o.hfl
  have hlim : fswLimit c 0 ((2 : ℝ) ^ emin) = (2 : ℝ) ^ emin := by unfold fswLimit fswLimit1; rw [hm, ht]
  have hnear : fswNear c 0 = false := by unfold fswNear; rw [ht]
  refine ⟨fswNext c (fswMin c 0) 0 acc, ?_⟩
  unfold fswStep
  rw [hnear, if_neg (by simp), hlim, hmin, if_neg (not_lt.mpr (abs_nonneg _))]
  unfold fswLoop
  rw [show (2 : ℝ) ^ emin * (1 / 2) = (2 : ℝ) ^ emin / 2 by ring, hz, abs_zero, if_neg (lt_irrefl _)]
  simp only [fswLoop, Option.map_some, add_zero, fl_zero o.hfl]

/-- Without rounding the time arithmetic of this model is the one of the model of SWAG. -/
theorem C114_agrees_with_swag {V : Type*} [AddCommGroup V] [Module ℝ V] (k : SwCfg ℝ V) (t h : ℝ) :
    fswMin ⟨id, k.tb, k.dir, k.maxStep, k.fouru⟩ t = swMinStep k t ∧
    fswNear ⟨id, k.tb, k.dir, k.maxStep, k.fouru⟩ t = swNear k t ∧
    fswLimit ⟨id, k.tb, k.dir, k.maxStep, k.fouru⟩ t h = swLimit k t h ∧
    ∀ (m : ℝ) (j : ℕ) (ph : Bool) (erk : ENorm ℝ), ∃ acc, nextH k m h j ph erk = fswNext ⟨id, k.tb, k.dir, k.maxStep, k.fouru⟩ m h acc := by
  refine ⟨rfl, ?_, ?_, ?_⟩
  · unfold fswNear swNear
    cases k.tb <;> rfl
  · unfold fswLimit swLimit fswLimit1 swLimit1
    cases k.maxStep <;> cases k.tb <;> rfl
  · intro m j ph erk
    unfold nextH
    split_ifs
    · exact ⟨.double, rfl⟩
    · exact ⟨.keep, rfl⟩
    · cases erk with
      | num x => exact ⟨.reduce (k.pw (1 / 2 / x) (1 / ((j : ℝ) + 1))), rfl⟩
      | inf => exact ⟨.reduce 0, by simp only [fswNext, id]; norm_num⟩
      | nan => exact ⟨.reduce (9 / 10), by simp only [fswNext, id]; norm_num⟩

/-! ## SSV2stab -/

/-- What is assumed of the arithmetic and the data of an `SSV2stab` object. -/
structure FlChebOK (p : ℕ) (emin : ℤ) (c : FlCheb) : Prop where
  hp : 16 ≤ p
  range : emin + 2 * p ≤ 0
  hfl : RoundsToNearest p emin c.fl
  dir : c.dir = 1 ∨ c.dir = -1
  tb : ∀ b, c.tb = some b → IsFloat p emin b
  uround : unitRoundoff p ≤ c.uround

namespace FlChebOK
variable {c : FlCheb} (o : FlChebOK p emin c)
include o

theorem dir_abs {z : ℝ} (h : 0 ≤ c.dir * z) : c.dir * |z| = z := by
  rcases o.dir with e | e <;> rw [e] at h ⊢
  · rw [abs_of_nonneg (by linarith)]; ring
  · rw [abs_of_nonpos (by linarith)]; ring

theorem fl_dir {z : ℝ} (h : 0 ≤ c.dir * z) : 0 ≤ c.dir * c.fl z := by
  rcases o.dir with e | e <;> rw [e] at h ⊢
  · have := fl_nonneg o.hfl (x := z) (by linarith); linarith
  · have := fl_nonpos o.hfl (x := z) (by linarith); linarith

/-- A small integer is a float. -/
theorem int_float {n : ℕ} (h : n < 65536) : IsFloat p emin (n : ℝ) := by
  refine ⟨n, 0, ?_, ?_, by simp⟩
  · have h1 : (65536 : ℤ) ≤ 2 ^ p := by
      calc (65536 : ℤ) = 2 ^ 16 := by norm_num
        _ ≤ 2 ^ p := pow_le_pow_right₀ (by norm_num) o.hp
    rw [abs_of_nonneg (by positivity)]
    have : (n : ℤ) < 65536 := by exact_mod_cast h
    omega
  · have := o.range; omega

theorem u_float : IsFloat p emin (8 * unitRoundoff p) := by
  refine ⟨8, -(p : ℤ), ?_, ?_, ?_⟩
  · have h1 : (65536 : ℤ) ≤ 2 ^ p := by
      calc (65536 : ℤ) = 2 ^ 16 := by norm_num
        _ ≤ 2 ^ p := pow_le_pow_right₀ (by norm_num) o.hp
    norm_num
    omega
  · have := o.range; omega
  · rw [unitRoundoff_zpow]; norm_num

/-- The step size of an attempt does not exceed the rounded rest of the interval. -/
theorem fit_le {t absh b : ℝ} (hb : c.tb = some b) (hF : IsFloat p emin absh) (h0 : 0 ≤ absh) : fcFit c t absh ≤ |c.fl (b - t)| := by
  unfold fcFit
  rw [hb]
  dsimp only
  split_ifs with h
  · exact le_rfl
  · have h1 : (1 : ℝ) ≤ c.fl (11 / 10) := by
      have := o.int_float (n := 1) (by norm_num)
      exact le_fl o.hfl (by simpa using this) (by norm_num)
    have h2 : absh ≤ c.fl (c.fl (11 / 10) * absh) := le_fl o.hfl hF (le_mul_of_one_le_left h0 h1)
    linarith [not_le.mp h]

/-- The minimal step is not below eight units of the step. -/
theorem hmin_ge {t a δ : ℝ} {m : ℕ} (ha : IsFloat p emin a) (ha0 : 0 ≤ a) (hm : 2 ≤ m) (hδ : IsFloat p emin δ) (hδ0 : 0 ≤ δ) (hle : δ ≤ 8 * unitRoundoff p * a) :
    δ ≤ fcHmin c t a m := by
  have hu0 := unitRoundoff_pos (p := p)
  have h1 : (13 : ℝ) ≤ c.fl (133 / 10) := le_fl o.hfl (by simpa using o.int_float (n := 13) (by norm_num)) (by norm_num)
  have h2 : 8 * unitRoundoff p ≤ c.fl (c.fl (133 / 10) * c.uround) := by
    refine le_fl o.hfl o.u_float ?_
    have := mul_le_mul h1 o.uround hu0.le (by linarith)
    linarith
  have h3 : a ≤ c.fl (|t| + a) := le_fl o.hfl ha (by linarith [abs_nonneg t])
  have h4 : δ ≤ c.fl (c.fl (c.fl (133 / 10) * c.uround) * c.fl (|t| + a)) := by
    refine le_fl o.hfl hδ (hle.trans ?_)
    exact mul_le_mul h2 h3 ha0 (le_trans (by positivity) h2)
  have h5 : (3 : ℝ) ≤ c.fl ((m : ℝ) ^ 2 - 1) := by
    refine le_fl o.hfl (by simpa using o.int_float (n := 3) (by norm_num)) ?_
    have : (2 : ℝ) ≤ m := by exact_mod_cast hm
    nlinarith
  unfold fcHmin
  refine le_trans ?_ (le_max_right _ _)
  refine le_fl o.hfl hδ ?_
  have h6 := mul_le_mul h4 h5 (by norm_num) (hδ0.trans h4)
  linarith

end FlChebOK

section
variable {c : FlCheb} (o : FlChebOK p emin c) {t absh b : ℝ} (ht : IsFloat p emin t) (ha : IsFloat p emin absh) (ha0 : 0 ≤ absh) (hb : c.tb = some b)
  (hah : 0 < c.dir * (b - t))
include o ht ha ha0 hb hah

/-- **C114**. A step of SSV2stab does not go past `t_bound` by more than the rounding of the rest of the interval, and not at all if `t_bound - t` is a float. (If the
number of stages limits the accepted step, the limited step is assumed not to exceed the rest of the interval.) -/
theorem C114_cheb_no_overshoot {rej : List (ChebTry × ℝ)} (hr : ∀ q ∈ rej, IsFloat p emin q.2 ∧ 0 ≤ q.2) {last : ChebTry} (hlim : ∀ a, last.lim = some a → a ≤ |c.fl (b - t)|)
    {next : ℝ} {s' : ℝ × ℝ} (e : fcStep c t absh rej last next = some s') :
    c.dir * (s'.1 - b) ≤ 2 * (unitRoundoff p * |b - t|) ∧ (IsFloat p emin (b - t) → c.dir * (s'.1 - b) ≤ 0) := by
  obtain ⟨a, e1, rfl⟩ := Option.map_eq_some_iff.mp e
  have key : ∀ (rej : List (ChebTry × ℝ)) absh a, fcLoop c t rej absh = some a → (∀ q ∈ rej, IsFloat p emin q.2 ∧ 0 ≤ q.2) → IsFloat p emin absh → 0 ≤ absh →
      IsFloat p emin a ∧ 0 ≤ a := by
    intro rej
    induction rej with
    | nil => intro absh a e _ h1 h2; cases e; exact ⟨h1, h2⟩
    | cons q l ih =>
      intro absh a e hr _ _
      unfold fcLoop at e
      split_ifs at e
      exact ih _ _ e (fun q h => hr q (by simp [h])) (hr q (by simp)).1 (hr q (by simp)).2
  obtain ⟨q1, q2⟩ := key rej absh a e1 hr ha ha0
  refine no_overshoot o.hfl o.hp o.dir ht (o.tb b hb) hah.le ?_
  have : fcSize c t a last ≤ |c.fl (b - t)| := by
    unfold fcSize
    cases hl : last.lim with
    | none => exact o.fit_le hb q1 q2
    | some x => exact hlim x hl
  rcases o.dir with e | e <;> rw [e] <;> linarith

/-- **C114**. The last step of SSV2stab: if the first attempt is the rest of the interval, is not limited by the number of stages and is accepted, the time is within
`2 u |t_bound - t|` of `t_bound`. If it is still short of `t_bound` (otherwise scipy ends the integration), the rest of the interval is a float, and the next step
ends exactly on `t_bound`, if its first attempt is accepted and not limited by the number of stages. -/
theorem C114_cheb_end {m : ℕ} (hm : 2 ≤ m) (hl : |c.fl (b - t)| ≤ c.fl (c.fl (11 / 10) * absh)) {next : ℝ} {s' : ℝ × ℝ}
    (e : fcStep c t absh [] ⟨m, none⟩ next = some s') :
    |s'.1 - b| ≤ 2 * (unitRoundoff p * |b - t|) ∧
    (0 < c.dir * (b - s'.1) → IsFloat p emin (b - s'.1) ∧ ∀ m' next', ∃ a, fcStep c s'.1 s'.2 [] ⟨m', none⟩ next' = some (b, a)) := by
  have hbF := o.tb b hb
  obtain ⟨e1, e2⟩ := land_error o.hfl o.hp ht hbF
  have hrest := rest_after_landing o.hfl o.hp ht hbF
  have hd := o.fl_dir hah.le
  have hfit : fcFit c t absh = |c.fl (b - t)| := by
    unfold fcFit
    rw [hb]
    exact if_pos hl
  unfold fcStep at e
  simp only [fcLoop, Option.map_some, fcSize, Option.getD_none, hfit] at e
  rw [o.dir_abs hd] at e
  cases e
  dsimp only
  set d := c.fl (b - t) with hdd
  set t' := c.fl (t + d) with ht'
  refine ⟨by rw [abs_sub_comm]; linarith, fun hshort => ⟨hrest, fun m' next' => ?_⟩⟩
  set δ := b - t' with hδ
  have hu := unitRoundoff_le o.hp
  have hu0 := unitRoundoff_pos (p := p)
  have hbt := abs_nonneg (b - t)
  have hu1 : unitRoundoff p * |b - t| ≤ 1 / 65536 * |b - t| := mul_le_mul_of_nonneg_right hu hbt
  have hdl : |b - t| ≤ |d| + |d - (b - t)| := by
    have := abs_sub_abs_le_abs_sub (b - t) d
    rw [abs_sub_comm (b - t) d] at this
    linarith
  have hbd : |b - t| ≤ 2 * |d| := by linarith
  have hub : unitRoundoff p * |b - t| ≤ unitRoundoff p * (2 * |d|) := mul_le_mul_of_nonneg_left hbd hu0.le
  have hhm : |δ| ≤ fcHmin c t |d| m := o.hmin_ge ((o.hfl _).1.abs) (abs_nonneg _) hm hrest.abs (abs_nonneg _) (by
    have : 0 ≤ unitRoundoff p * |d| := mul_nonneg hu0.le (abs_nonneg _)
    linarith)
  set absh' := max (fcHmin c t |d| m) (min c.maxStep next) with habsh'
  have hge : |δ| ≤ absh' := hhm.trans (le_max_left _ _)
  have hflδ : c.fl (b - t') = δ := fl_of_float o.hfl hrest
  have hfit' : fcFit c t' absh' = |δ| := by
    unfold fcFit
    rw [hb]
    dsimp only
    rw [hflδ]
    refine if_pos (le_fl o.hfl hrest.abs ?_)
    have h1 : (1 : ℝ) ≤ c.fl (11 / 10) := le_fl o.hfl (by simpa using o.int_float (n := 1) (by norm_num)) (by norm_num)
    exact hge.trans (le_mul_of_one_le_left ((abs_nonneg _).trans hge) h1)
  refine ⟨max (fcHmin c t' |δ| m') (min c.maxStep next'), ?_⟩
  unfold fcStep
  simp only [fcLoop, Option.map_some, fcSize, Option.getD_none, hfit']
  rw [o.dir_abs hshort.le, show t' + δ = b by rw [hδ]; ring, fl_of_float o.hfl hbF]

end

/-- **C114**. SSV2stab gives up when the step size after a rejected attempt is below the minimal step of that attempt, and only then: a successful step has taken, after
every rejected attempt, a step size which is not below it. The step size for the next step is at least the minimal step of the accepted attempt and, beyond that, at
most `max_step`. -/
theorem C114_cheb_gives_up (c : FlCheb) (t absh : ℝ) (last : ChebTry) (next : ℝ) :
    (∀ (l l' : List (ChebTry × ℝ)) (a : ChebTry) (new g : ℝ), fcLoop c t l absh = some g → new < fcHmin c t (fcSize c t g a) a.m →
      fcStep c t absh (l ++ (a, new) :: l') last next = none) ∧
    (∀ (l l' : List (ChebTry × ℝ)) (a : ChebTry) (new : ℝ) (s' : ℝ × ℝ), fcStep c t absh (l ++ (a, new) :: l') last next = some s' →
      ∃ g, fcLoop c t l absh = some g ∧ fcHmin c t (fcSize c t g a) a.m ≤ new) ∧
    (∀ (rej : List (ChebTry × ℝ)) (s' : ℝ × ℝ), fcStep c t absh rej last next = some s' → ∃ g, fcLoop c t rej absh = some g ∧
      s'.1 = c.fl (t + c.dir * fcSize c t g last) ∧ fcHmin c t (fcSize c t g last) last.m ≤ s'.2 ∧
      (s'.2 ≤ c.maxStep ∨ s'.2 = fcHmin c t (fcSize c t g last) last.m)) := by
  have key : ∀ (l l' : List (ChebTry × ℝ)) (a : ChebTry) (new g : ℝ), fcLoop c t (l ++ (a, new) :: l') g =
      (fcLoop c t l g).bind fun g' => if new < fcHmin c t (fcSize c t g' a) a.m then none else fcLoop c t l' new := by
    intro l l' a new
    induction l with
    | nil => intro g; rfl
    | cons q l ih =>
      intro g
      obtain ⟨a', n'⟩ := q
      simp only [List.cons_append, fcLoop]
      split_ifs
      · rfl
      · exact ih _
  refine ⟨fun l l' a new g e hlt => ?_, fun l l' a new s' e => ?_, fun rej s' e => ?_⟩
  · unfold fcStep
    rw [key, e, Option.bind_some, if_pos hlt]
    rfl
  · obtain ⟨g, e1, -⟩ := Option.map_eq_some_iff.mp e
    rw [key] at e1
    obtain ⟨g', e2, e3⟩ := Option.bind_eq_some_iff.mp e1
    split_ifs at e3 with h
    exact ⟨g', e2, not_lt.mp h⟩
  · obtain ⟨g, e1, rfl⟩ := Option.map_eq_some_iff.mp e
    refine ⟨g, e1, rfl, le_max_left _ _, ?_⟩
    dsimp only
    rcases le_total (fcHmin c t (fcSize c t g last) last.m) (min c.maxStep next) with h | h
    · left; rw [max_eq_right h]; exact min_le_left _ _
    · right; exact max_eq_left h

/-- A float moved by a quarter of a unit is rounded back. -/
theorem fl_absorbs {fl : ℝ → ℝ} (hfl : RoundsToNearest p emin fl) {t η : ℝ} (ht : IsFloat p emin t) (hp : 16 ≤ p) (hη : 4 * |η| ≤ unitRoundoff p * |t|) : fl (t + η) = t := by
  by_contra hne
  set y := fl (t + η) with hy
  have h1 : |y - t| ≤ 2 * |η| := by
    have := (hfl (t + η)).2 t ht
    rw [show t - (t + η) = -η by ring, abs_neg] at this
    calc |y - t| = |(y - (t + η)) + η| := by congr 1; ring
      _ ≤ |y - (t + η)| + |η| := abs_add_le _ _
      _ ≤ _ := by linarith
  have hu := unitRoundoff_le hp
  have hu0 := unitRoundoff_pos (p := p)
  have hut : unitRoundoff p * |t| ≤ 1 / 65536 * |t| := mul_le_mul_of_nonneg_right hu (abs_nonneg _)
  have hyt : |t| / 2 ≤ |y| := by
    have : |t| ≤ |y| + |y - t| := by
      have := abs_sub_abs_le_abs_sub t y
      rw [abs_sub_comm t y] at this
      linarith
    have := abs_nonneg η
    linarith [abs_nonneg t]
  obtain ⟨m, e, hm, -, hte⟩ := ht
  obtain ⟨n, g, hn, -, hyg⟩ := (hfl (t + η)).1
  rw [← hy] at hyg
  have gap : ∀ {z : ℝ} {m e : ℤ}, |m| < 2 ^ p → z = m * (2 : ℝ) ^ e → unitRoundoff p * |z| < (2 : ℝ) ^ e := by
    intro z m e hm hz
    have h2 : |z| < (2 : ℝ) ^ p * (2 : ℝ) ^ e := by
      rw [hz, abs_mul, abs_of_pos (show (0 : ℝ) < 2 ^ e by positivity), mul_lt_mul_iff_left₀ (by positivity), ← Int.cast_abs]
      exact_mod_cast hm
    have := mul_lt_mul_of_pos_left h2 hu0
    refine lt_of_lt_of_eq this ?_
    unfold unitRoundoff
    field_simp
  have g1 := gap hm hte
  have g2 := gap hn hyg
  have hhalf : unitRoundoff p * (|t| / 2) ≤ unitRoundoff p * |y| := mul_le_mul_of_nonneg_left hyt hu0.le
  have hmul : ∀ {x : ℝ} {j f : ℤ}, x = j * (2 : ℝ) ^ f → x ≠ 0 → (2 : ℝ) ^ f ≤ |x| := by
    intro x j f hx hx0
    have hj : j ≠ 0 := by rintro rfl; apply hx0; rw [hx]; simp
    have hj1 : (1 : ℝ) ≤ |(j : ℝ)| := by rw [← Int.cast_abs]; exact_mod_cast Int.one_le_abs hj
    rw [hx, abs_mul, abs_of_pos (show (0 : ℝ) < 2 ^ f by positivity)]
    exact le_mul_of_one_le_left (by positivity) hj1
  have hd0 : y - t ≠ 0 := sub_ne_zero.mpr hne
  rcases le_total e g with h | h
  · obtain ⟨k, hk⟩ := multiple_mono h n
    have := hmul (x := y - t) (j := k - m) (f := e) (by rw [hyg, hte, hk]; push_cast; ring) hd0
    have h0 := mul_nonneg hu0.le (abs_nonneg t)
    linarith
  · obtain ⟨k, hk⟩ := multiple_mono h m
    have := hmul (x := y - t) (j := n - k) (f := g) (by rw [hyg, hte, hk]; push_cast; ring) hd0
    linarith

/-- **C114**, known defect: the step size which SSV2stab takes when the number of stages is limited is not compared with the minimal step unless the attempt is
rejected. If it is below a quarter of a unit of the time, an accepted step succeeds and does not change the time. -/
theorem C114_cheb_stalls {c : FlCheb} (o : FlChebOK p emin c) {t absh a : ℝ} (ht : IsFloat p emin t) (h0 : 0 ≤ a) (ha : 4 * a ≤ unitRoundoff p * |t|) (m : ℕ) (next : ℝ) :
    ∃ absh', fcStep c t absh [] ⟨m, some a⟩ next = some (t, absh') := by
  refine ⟨max (fcHmin c t a m) (min c.maxStep next), ?_⟩
  unfold fcStep
  simp only [fcLoop, Option.map_some, fcSize, Option.getD_some]
  rw [fl_absorbs o.hfl ht o.hp]
  have : |c.dir * a| = a := by rcases o.dir with e | e <;> rw [e] <;> simp [abs_of_nonneg h0]
  rwa [this]

/-- Without rounding the time arithmetic of this model is the one of the model of SSV2stab. -/
theorem C114_agrees_with_cheb {V : Type*} [AddCommGroup V] [Module ℝ V] (k : ChebCfg ℝ V) (t absh sprad : ℝ) (m : ℕ) :
    fcFit ⟨id, k.tb, k.dir, k.maxStep, k.uround, k.sqrtmin⟩ t absh = chebFit k.tb t absh ∧
    fcHmin ⟨id, k.tb, k.dir, k.maxStep, k.uround, k.sqrtmin⟩ t absh m = chebHmin k t absh m ∧
    ∃ a : ChebTry, chebChoose k.mmax (chebFit k.tb t absh) sprad = (fcSize ⟨id, k.tb, k.dir, k.maxStep, k.uround, k.sqrtmin⟩ t absh a, a.m) := by
  have h1 : fcFit ⟨id, k.tb, k.dir, k.maxStep, k.uround, k.sqrtmin⟩ t absh = chebFit k.tb t absh := by
    unfold fcFit chebFit
    cases k.tb <;> rfl
  refine ⟨h1, rfl, ?_⟩
  unfold chebChoose
  split_ifs
  · exact ⟨⟨k.mmax, some (((k.mmax : ℝ) ^ 2 - 1) / (77 / 50 * sprad))⟩, rfl⟩
  · exact ⟨⟨chebM (chebFit k.tb t absh) sprad, none⟩, by simp only [fcSize, Option.getD_none, h1]⟩

end Extensisq
