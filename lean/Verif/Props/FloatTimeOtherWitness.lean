import Verif.Props.FloatTimeOther
import Verif.Props.FloatTimeWitness

/-!
# C114 in double precision: from -0.7 to 0.1

The interval of C90's example, on which the other methods fail: SWAG and SSV2stab end exactly on `t_bound`.
-/

namespace Extensisq

/-- A `SWAG` object with `t_bound = 0.1` (double precision; `fouru` as in `shampine.py:122-124`). -/
noncomputable def exSwagFl (fl : ℝ → ℝ) : FlSwag := ⟨fl, some exB, 1, none, 4 * (unitRoundoff 53 * (1 + 2 ^ (-52 : ℤ)))⟩

/-- An `SSV2stab` object with `t_bound = 0.1`. -/
noncomputable def exChebFl (fl : ℝ → ℝ) : FlCheb := ⟨fl, some exB, 1, 1, unitRoundoff 53 * (1 + 2 ^ (-52 : ℤ)), 2 ^ (-511 : ℤ)⟩

section
variable {fl : ℝ → ℝ} (hfl : RoundsToNearest 53 (-1074) fl)
include hfl

theorem exSwagFl_ok : FlSwagOK 53 (-1074) (exSwagFl fl) where
  hp := by norm_num
  hfl := hfl
  dir := Or.inl rfl
  fouru := by
    show 4 * unitRoundoff 53 ≤ 4 * (unitRoundoff 53 * (1 + 2 ^ (-52 : ℤ)))
    have := unitRoundoff_pos (p := 53)
    have h2 : (0 : ℝ) ≤ 2 ^ (-52 : ℤ) := by positivity
    nlinarith
  tb := fun b h => by
    have : exB = b := Option.some.inj h
    exact this ▸ exB_float
  maxStep := fun m h => by cases h

theorem exChebFl_ok : FlChebOK 53 (-1074) (exChebFl fl) where
  hp := by norm_num
  range := by norm_num
  hfl := hfl
  dir := Or.inl rfl
  tb := fun b h => by
    have : exB = b := Option.some.inj h
    exact this ▸ exB_float
  uround := by
    show unitRoundoff 53 ≤ unitRoundoff 53 * (1 + 2 ^ (-52 : ℤ))
    have := unitRoundoff_pos (p := 53)
    have h2 : (0 : ℝ) ≤ 2 ^ (-52 : ℤ) := by positivity
    nlinarith

private theorem d_val : fl (exB - exT) = (7205759403792793 : ℤ) * (2 : ℝ) ^ (-53 : ℤ) := by
  refine fl_eq hfl (by norm_num) (by norm_num) (by norm_num) (by norm_num) ?_
  unfold exB exT
  norm_num [abs_of_pos]

private theorem x_val : fl (exT + fl (exB - exT)) = exT' := by
  rw [d_val hfl, show exT + ((7205759403792793 : ℤ) : ℝ) * (2 : ℝ) ^ (-53 : ℤ) = exT' by unfold exT exT'; norm_num]
  exact fl_of_float hfl ⟨_, _, by norm_num, by norm_num, rfl⟩

private theorem d_range : 1 / 2 < |fl (exB - exT)| ∧ |fl (exB - exT)| ≤ 1 := by
  rw [d_val hfl, abs_of_pos (by norm_num)]
  norm_num

/-- **C114**. In double precision the last step of SWAG from `-0.7` to `0.1` (step size 1, accepted at the first attempt) ends `2^-55` short of `t_bound`; the next
step, accepted at the first attempt, ends on `t_bound`. -/
theorem C114_swag_example (acc : SwagAfter) :
    ∃ s', fswStep (exSwagFl fl) exT 1 [] acc = some s' ∧ exB - s'.1 = 2 ^ (-55 : ℤ) ∧
      ∀ acc', ∃ h, fswStep (exSwagFl fl) s'.1 s'.2 [] acc' = some (exB, h) := by
  have o := exSwagFl_ok hfl
  have h1F : IsFloat 53 (-1074) (1 : ℝ) := ⟨1, 0, by norm_num, by norm_num, by norm_num⟩
  have hah : ∀ b, (exSwagFl fl).tb = some b → 0 < (exSwagFl fl).dir * (b - exT) := by
    intro b h
    have : exB = b := Option.some.inj h
    subst this
    show (0 : ℝ) < 1 * (exB - exT)
    unfold exB exT; norm_num
  have h1 : 0 < (exSwagFl fl).dir * 1 := by show (0 : ℝ) < 1 * 1; norm_num
  obtain ⟨r1, r2⟩ := d_range hfl
  have hmin : fswMin (exSwagFl fl) exT ≤ 1 / 2 := by
    show fl (4 * (unitRoundoff 53 * (1 + 2 ^ (-52 : ℤ))) * |exT|) ≤ 1 / 2
    refine fl_le hfl ⟨1, -1, by norm_num, by norm_num, by norm_num⟩ ?_
    unfold unitRoundoff exT
    norm_num [abs_of_neg]
  have hlim := C114_swag_last o exT_float h1F h1 hah (b := exB) rfl (by show |fl (exB - exT)| ≤ 1 * 1; linarith) (fun m h => by cases h)
  have hnear : fswNear (exSwagFl fl) exT = false := by
    show decide (|fl (exB - exT)| ≤ fswMin (exSwagFl fl) exT) = false
    rw [decide_eq_false_iff_not]
    intro h
    linarith
  have e : ∃ h, fswStep (exSwagFl fl) exT 1 [] acc = some (exT', h) := by
    refine ⟨fswNext (exSwagFl fl) (fswMin (exSwagFl fl) exT) (fl (exB - exT)) acc, ?_⟩
    unfold fswStep
    rw [hnear, if_neg (by simp), hlim, if_neg (by show ¬ |fl (exB - exT)| < _; linarith)]
    show some (fl (exT + fl (exB - exT)), _) = _
    rw [x_val hfl]
    rfl
  obtain ⟨h, e⟩ := e
  refine ⟨_, e, by unfold exB exT'; norm_num, ?_⟩
  exact ((C114_swag_end o exT_float h1F h1 hah rfl hlim hnear e).2 (by
    show (0 : ℝ) < 1 * (exB - exT')
    unfold exB exT'; norm_num)).2.1

/-- **C114**. The same for SSV2stab. -/
theorem C114_cheb_example (next : ℝ) :
    ∃ s', fcStep (exChebFl fl) exT 1 [] ⟨2, none⟩ next = some s' ∧ exB - s'.1 = 2 ^ (-55 : ℤ) ∧
      ∀ m' next', ∃ a, fcStep (exChebFl fl) s'.1 s'.2 [] ⟨m', none⟩ next' = some (exB, a) := by
  have o := exChebFl_ok hfl
  have h1F : IsFloat 53 (-1074) (1 : ℝ) := ⟨1, 0, by norm_num, by norm_num, by norm_num⟩
  have hah : 0 < (exChebFl fl).dir * (exB - exT) := by
    show (0 : ℝ) < 1 * (exB - exT)
    unfold exB exT; norm_num
  obtain ⟨r1, r2⟩ := d_range hfl
  have h11 : (1 : ℝ) ≤ fl (11 / 10) := le_fl hfl h1F (by norm_num)
  have hl : |fl (exB - exT)| ≤ fl (fl (11 / 10) * 1) := by
    rw [mul_one]
    exact r2.trans (le_fl hfl h1F h11)
  have e : ∃ a, fcStep (exChebFl fl) exT 1 [] ⟨2, none⟩ next = some (exT', a) := by
    have hfit : fcFit (exChebFl fl) exT 1 = fl (exB - exT) := by
      show (if |fl (exB - exT)| ≤ fl (fl (11 / 10) * 1) then |fl (exB - exT)| else 1) = _
      rw [if_pos hl, d_val hfl, abs_of_pos (by norm_num)]
    refine ⟨max (fcHmin (exChebFl fl) exT (fl (exB - exT)) 2) (min 1 next), ?_⟩
    unfold fcStep
    simp only [fcLoop, Option.map_some, fcSize, Option.getD_none, hfit]
    show some (fl (exT + 1 * fl (exB - exT)), _) = _
    rw [one_mul, x_val hfl]
    rfl
  obtain ⟨a, e⟩ := e
  refine ⟨_, e, by unfold exB exT'; norm_num, ?_⟩
  exact ((C114_cheb_end o exT_float h1F zero_le_one rfl hah le_rfl hl e).2 (by
    show (0 : ℝ) < 1 * (exB - exT')
    unfold exB exT'; norm_num)).2

end

/-- The rounding of IEEE 754 (`rnd` of `Lemmas/Float.lean` rounds to nearest), for which the two examples hold. -/
example : ∃ fl : ℝ → ℝ, RoundsToNearest 53 (-1074) fl := ⟨_, rnd_nearest (by norm_num)⟩

/-- A time and a limited step size for which SSV2stab stalls. -/
example : ∃ t a : ℝ, IsFloat 53 (-1074) t ∧ 0 < a ∧ 4 * a ≤ unitRoundoff 53 * |t| :=
  ⟨1, 2 ^ (-60 : ℤ), ⟨1, 0, by norm_num, by norm_num, by norm_num⟩, by positivity, by unfold unitRoundoff; norm_num⟩

end Extensisq
