import Verif.Props.FloatTime
import Verif.Model.Esdirk

/-!
# C89, C90: an integration in double precision that stops with an error just before `t_bound`

`t = -0.7`, `t_bound = 0.1`: the last step of a solver for any nodes, in IEEE double precision with any rule for ties.
-/

namespace Extensisq

/-- The double `-0.7`. -/
noncomputable def exT : ℝ := (-6305039478318694 : ℤ) * (2 : ℝ) ^ (-53 : ℤ)
/-- The double `0.1`. -/
noncomputable def exB : ℝ := (7205759403792794 : ℤ) * (2 : ℝ) ^ (-56 : ℤ)
/-- The time that is reached. -/
noncomputable def exT' : ℝ := (7205759403792792 : ℤ) * (2 : ℝ) ^ (-56 : ℤ)

/-- The solver: forward, no `max_step`, `h_min_b = sqrt(tiny) = 2^-511`. -/
noncomputable def exFl (fl : ℝ → ℝ) (C : List ℝ) : FlTime :=
  ⟨fl, some exB, 1, none, flHMinA fl (unitRoundoff 53) C, (2 : ℝ) ^ (-511 : ℤ)⟩

theorem exT_float : IsFloat 53 (-1074) exT := ⟨_, _, by norm_num, by norm_num, rfl⟩
theorem exB_float : IsFloat 53 (-1074) exB := ⟨_, _, by norm_num, by norm_num, rfl⟩

/-- The assumptions of the theorems hold in double precision (`2^-1022` is the smallest normal number), for every
table of nodes. -/
theorem exFl_ok {fl : ℝ → ℝ} (hfl : RoundsToNearest 53 (-1074) fl) (C : List ℝ) : FlOK 53 (-1074) (exFl fl C) := by
  refine FlOK.ofNodes (by norm_num) (by norm_num) hfl (Or.inl rfl) ⟨1, -511, by norm_num, by norm_num, by norm_num⟩
    ?_ (fun b h => ?_) (fun b h => by cases h)
  · rw [unitRoundoff_zpow, ← zpow_add₀ (by norm_num)]
    calc (1000 : ℝ) * 2 ^ (-1074 : ℤ) ≤ 2 ^ (10 : ℤ) * 2 ^ (-1074 : ℤ) := by
          apply mul_le_mul_of_nonneg_right _ (by positivity); norm_num
      _ = 2 ^ (10 + -1074 : ℤ) := by rw [← zpow_add₀ (by norm_num)]
      _ ≤ _ := zpow_le_zpow_right₀ (by norm_num) (by norm_num)
  · cases h; exact exB_float

/-- Rounding to nearest exists, so the statements are not empty. -/
example : RoundsToNearest 53 (-1074) (rnd 53 (-1074)) := rnd_nearest (by norm_num)

/-- Without rounding the time arithmetic of this model is the one of the models of the drivers. -/
theorem C89_agrees_with_driver {V W : Type*} (k : Cfg ℝ V W) (s : St ℝ V W) :
    flReassess ⟨id, k.tb, k.dir, k.maxStep, k.hMinA, k.hMinB⟩ s.t s.hAbs = (reassess k s).1 ∧
    flMinStep ⟨id, k.tb, k.dir, k.maxStep, k.hMinA, k.hMinB⟩ s.t s.hAbs = (reassess k s).2.1 := by
  have e : flClip ⟨id, k.tb, k.dir, k.maxStep, k.hMinA, k.hMinB⟩ s.t s.hAbs =
      if (decide (s.hAbs < minStepOf k s.t s.hAbs) || overMax k.maxStep s.hAbs) = true then
        capMax k.maxStep (max (minStepOf k s.t s.hAbs) s.hAbs) else s.hAbs := by
    unfold flClip
    simp only [Bool.or_eq_true, decide_eq_true_eq]
    rfl
  unfold flReassess
  rw [e]
  unfold flFit reassess
  cases hb : k.tb with
  | none => exact ⟨rfl, rfl⟩
  | some b =>
    dsimp only
    simp only [flRest, id]
    generalize (if (decide (s.hAbs < minStepOf k s.t s.hAbs) || overMax k.maxStep s.hAbs) = true then
        capMax k.maxStep (max (minStepOf k s.t s.hAbs) s.hAbs) else s.hAbs) = h1
    by_cases q1 : |b - s.t| < 2 * h1
    · by_cases q2 : |b - s.t| > h1
      · simp only [q1, q2, if_true]; exact ⟨rfl, rfl⟩
      · simp only [q1, q2, if_true, if_false]; exact ⟨trivial, rfl⟩
    · simp only [q1, if_false]; exact ⟨trivial, rfl⟩

/-- The same for the ESDIRK methods. -/
theorem C89_agrees_with_esdirk {V : Type*} [AddCommGroup V] [Module ℝ V] (k : ECfg ℝ V) (t h0 : ℝ) (std : Bool) :
    flReassessE ⟨id, k.tb, k.dir, k.maxStep, k.hMinA, k.hMinB⟩ t h0 = (eReassess k t h0 std).1 ∧
    flMinStep ⟨id, k.tb, k.dir, k.maxStep, k.hMinA, k.hMinB⟩ t h0 = (eReassess k t h0 std).2.1 := by
  have e : flClip ⟨id, k.tb, k.dir, k.maxStep, k.hMinA, k.hMinB⟩ t h0 = eClip k t h0 := by
    unfold flClip eClip eClips
    simp only [Bool.or_eq_true, decide_eq_true_eq]
    rfl
  refine ⟨?_, rfl⟩
  unfold flReassessE eReassess
  rw [e]
  unfold flFitE eFit
  cases hb : k.tb with
  | none => rfl
  | some b => rfl

section
variable {fl : ℝ → ℝ} (hfl : RoundsToNearest 53 (-1074) fl) (C : List ℝ)
include hfl

private theorem rest_val : flRest (exFl fl C) exB exT = (7205759403792793 : ℤ) * (2 : ℝ) ^ (-53 : ℤ) := by
  have : fl (exB - exT) = (7205759403792793 : ℤ) * (2 : ℝ) ^ (-53 : ℤ) := by
    refine fl_eq hfl (by norm_num) (by norm_num) (by norm_num) (by norm_num) ?_
    unfold exB exT
    norm_num [abs_of_pos]
  show |fl (exB - exT)| = _
  rw [this, abs_of_pos (by norm_num)]

private theorem time_val : fl (exT + flRest (exFl fl C) exB exT * 1) = exT' := by
  rw [rest_val hfl C, show exT + ((7205759403792793 : ℤ) : ℝ) * (2 : ℝ) ^ (-53 : ℤ) * 1 = exT' by
    unfold exT exT'; norm_num]
  exact fl_of_float hfl ⟨_, _, by norm_num, by norm_num, rfl⟩

private theorem minStep_small : flMinStep (exFl fl C) exT 1 ≤ 1 / 2 := by
  have hr := flCdiff_range hfl (by norm_num) (by norm_num) C
  have F : ∀ k : ℤ, -10 ≤ k → IsFloat 53 (-1074) ((2 : ℝ) ^ k) := fun k hk => ⟨1, k, by norm_num, by omega, by simp⟩
  have hA : flHMinA fl (unitRoundoff 53) C ≤ 1 / 4 := by
    unfold flHMinA
    rw [fl_of_float hfl (isFloat_ten_u hfl (by norm_num) (by norm_num))]
    refine fl_le hfl (by have := F (-2) (by norm_num); norm_num at this ⊢; exact this) ?_
    rw [div_le_iff₀ (by linarith)]
    have := unitRoundoff_le (p := 53) (by norm_num)
    linarith
  have hA0 : 0 ≤ flHMinA fl (unitRoundoff 53) C :=
    le_trans (by have := unitRoundoff_pos (p := 53); linarith) (flHMinA_range hfl (by norm_num) (by norm_num) C).1
  have hs : fl (|exT| + 1) ≤ 2 := by
    refine fl_le hfl (by simpa using F 1 (by norm_num)) ?_
    unfold exT
    norm_num [abs_of_neg]
  have hs0 : 0 ≤ fl (|exT| + 1) := fl_nonneg hfl (by positivity)
  refine max_le ?_ ?_
  · refine fl_le hfl (by simpa using F (-1) (by norm_num)) ?_
    show flHMinA fl (unitRoundoff 53) C * fl (|exT| + 1) ≤ 1 / 2
    nlinarith
  · show (2 : ℝ) ^ (-511 : ℤ) ≤ 1 / 2
    calc (2 : ℝ) ^ (-511 : ℤ) ≤ 2 ^ (-1 : ℤ) := zpow_le_zpow_right₀ (by norm_num) (by norm_num)
      _ = 1 / 2 := by norm_num

private theorem clip_val : flClip (exFl fl C) exT 1 = 1 := by
  unfold flClip
  rw [if_neg]
  rintro (h | h)
  · linarith [minStep_small hfl C]
  · cases h

private theorem rest_lt : flRest (exFl fl C) exB exT < 1 ∧ 1 / 2 ≤ flRest (exFl fl C) exB exT := by
  rw [rest_val hfl C]
  norm_num

/-- **C90** (finding F36). In double precision the last step from `-0.7` to `0.1` (step size 1, accepted at the first
attempt, size factor 1) succeeds, ends `2^-55` short of `t_bound`, and the next call of `step` fails, whatever the
right-hand side. -/
theorem C90_short_example :
    ∃ s', flStep (exFl fl C) exT 1 [] 1 = some s' ∧ exB - s'.1 = 2 ^ (-55 : ℤ) ∧
      ∀ rej acc, flStep (exFl fl C) s'.1 s'.2 rej acc = none := by
  have hre : flReassess (exFl fl C) exT 1 = flRest (exFl fl C) exB exT := by
    unfold flReassess flFit
    rw [clip_val hfl C]
    show (if flRest (exFl fl C) exB exT < fl (2 * 1) then _ else _) = _
    have h2 : fl (2 * 1) = 2 := by
      rw [mul_one]; exact fl_of_float hfl ⟨1, 1, by norm_num, by norm_num, by norm_num⟩
    have := rest_lt hfl C
    rw [if_pos (by rw [h2]; linarith), if_neg (by linarith)]
  have e : flStep (exFl fl C) exT 1 [] 1 = some (exT', fl (flRest (exFl fl C) exB exT * 1)) := by
    unfold flStep flAdvance flLoop
    rw [hre, if_neg (by have := rest_lt hfl C; have := minStep_small hfl C; linarith)]
    show some (fl (exT + flRest (exFl fl C) exB exT * 1), _) = _
    rw [time_val hfl C]
    rfl
  refine ⟨_, e, ?_, ?_⟩
  · unfold exB exT'; norm_num
  · refine C90_short_fails (exFl_ok hfl C) rfl exT_float ⟨1, 0, by norm_num, by norm_num, by norm_num⟩ ?_ ?_ ?_ e
    · show 0 ≤ 1 * (exB - exT)
      unfold exB exT; norm_num
    · rw [clip_val hfl C]; exact (rest_lt hfl C).1.le
    · have := (exFl_ok hfl C).hMinA_ge
      have := unitRoundoff_pos (p := 53)
      linarith

/-- **C90** (finding F36). The same for the ESDIRK methods. -/
theorem C90_short_example_esdirk :
    ∃ s', flStepE (exFl fl C) exT 1 [] 1 = some s' ∧ exB - s'.1 = 2 ^ (-55 : ℤ) ∧
      ∀ rej acc, flStepE (exFl fl C) s'.1 s'.2 rej acc = none := by
  have hre : flReassessE (exFl fl C) exT 1 = flRest (exFl fl C) exB exT := by
    unfold flReassessE flFitE
    rw [clip_val hfl C]
    show (if _ ∨ flRest (exFl fl C) exB exT < 1 then _ else _) = _
    rw [if_pos (Or.inr (rest_lt hfl C).1)]
  have e : flStepE (exFl fl C) exT 1 [] 1 = some (exT', fl (flRest (exFl fl C) exB exT * 1)) := by
    unfold flStepE flAdvance flLoop
    rw [hre, if_neg (by have := rest_lt hfl C; have := minStep_small hfl C; linarith)]
    show some (fl (exT + flRest (exFl fl C) exB exT * 1), _) = _
    rw [time_val hfl C]
    rfl
  refine ⟨_, e, ?_, ?_⟩
  · unfold exB exT'; norm_num
  · refine C90_short_fails_esdirk (exFl_ok hfl C) rfl exT_float ?_ ?_ ?_ ?_ e
    · show 0 ≤ 1 * (exB - exT)
      unfold exB exT; norm_num
    · rw [clip_val hfl C]; norm_num
    · rw [clip_val hfl C]; exact Or.inr (rest_lt hfl C).1
    · have := (exFl_ok hfl C).hMinA_ge
      have := unitRoundoff_pos (p := 53)
      linarith

end

end Extensisq
