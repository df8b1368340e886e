import Verif.Model.Validate
import Verif.Model.Tables
import Verif.Lemmas.Driver

/-! # C11 (tolerances), C13 (controller parameters), C14 (minimal step) -/

set_option linter.unusedSectionVars false

namespace Extensisq

section
variable {K : Type*} [Field K] [LinearOrder K] [IsStrictOrderedRing K]

/-! ## C11 -/

/-- Specification: `atol` has a wrong shape for a problem of size `n`. -/
def WrongShape (n : ℕ) : AtolArg K → Prop
  | .scalar _ => False
  | .vector l => l.length ≠ n
  | .higher _ => True

/-- Specification: a float that is negative (nan is not). -/
def Negative (x : PyFloat K) : Prop := x = .ninf ∨ ∃ a, x = .num a ∧ a < 0

theorem ltNum_zero (x : PyFloat K) : x.ltNum 0 = true ↔ Negative x := by
  cases x <;> simp [PyFloat.ltNum, Negative]

/-- **C11**. `validate_tol` raises exactly for a wrong shape, a negative entry of `atol`, an `rtol`
that is not a float, or a negative `rtol`. -/
theorem C11_raises_iff (epsneg sqrtTiny : K) (n : ℕ) (rtol : RtolArg K) (atol : AtolArg K) :
    (∃ e, validateTol epsneg sqrtTiny n rtol atol = .error e) ↔
      WrongShape n atol ∨ (∃ x ∈ atol.entries, Negative x) ∨ rtol = .other ∨
      ∃ r, rtol = .float r ∧ Negative r := by
  have hany : (atol.entries.any (fun x => x.ltNum 0)) = true ↔ ∃ x ∈ atol.entries, Negative x := by
    rw [List.any_eq_true]; simp only [ltNum_zero]
  have hshape : (!atol.shapeOK n) = true ↔ WrongShape n atol := by
    cases atol <;> simp [WrongShape, AtolArg.shapeOK]
  unfold validateTol
  by_cases h1 : WrongShape n atol
  · rw [if_pos (hshape.mpr h1)]; simp [h1]
  · rw [if_neg (mt hshape.mp h1)]
    by_cases h2 : ∃ x ∈ atol.entries, Negative x
    · rw [if_pos (hany.mpr h2)]; simp [h2]
    · rw [if_neg (mt hany.mp h2)]
      cases rtol with
      | other => simp
      | float r =>
        by_cases h3 : r.ltNum 0 = true
        · simp only [h3, if_true]
          have := (ltNum_zero r).mp h3
          simp [this]
        · simp only [h3, Bool.false_eq_true, if_false]
          have h4 : ¬ Negative r := mt (ltNum_zero r).mpr h3
          simp [h1, h2, h4]

/-- Which error is raised when several apply: shape first, then `atol`, then `rtol`. -/
theorem C11_error_order (epsneg sqrtTiny : K) (n : ℕ) (rtol : RtolArg K) (atol : AtolArg K) :
    (WrongShape n atol → validateTol epsneg sqrtTiny n rtol atol = .error .atolShape) ∧
    (¬ WrongShape n atol → (∃ x ∈ atol.entries, Negative x) →
      validateTol epsneg sqrtTiny n rtol atol = .error .atolNegative) := by
  have hany : (atol.entries.any (fun x => x.ltNum 0)) = true ↔ ∃ x ∈ atol.entries, Negative x := by
    rw [List.any_eq_true]; simp only [ltNum_zero]
  have hshape : (!atol.shapeOK n) = true ↔ WrongShape n atol := by
    cases atol <;> simp [WrongShape, AtolArg.shapeOK]
  constructor
  · intro h1
    unfold validateTol
    rw [if_pos (hshape.mpr h1)]
  · intro h1 h2
    unfold validateTol
    rw [if_neg (mt hshape.mp h1), if_pos (hany.mpr h2)]

/-- **C11**. On success the returned `rtol` is nan if the argument was nan (finding F22: nan is not
rejected), and otherwise a number between `10*epsneg` and `0.1`, equal to the argument if that was in
this range; every returned `atol` entry is nan, infinite or at least `sqrt(tiny)`, and unchanged if it
was. -/
theorem C11_bounds {epsneg sqrtTiny : K} (he : 10 * epsneg ≤ 1 / 10) {n : ℕ} {r : PyFloat K}
    {atol : AtolArg K} {r' : PyFloat K} {atol' : AtolArg K}
    (h : validateTol epsneg sqrtTiny n (.float r) atol = .ok (r', atol')) :
    (r = .nan → r' = .nan) ∧
    (r ≠ .nan → ∃ x, r' = .num x ∧ 10 * epsneg ≤ x ∧ x ≤ 1 / 10) ∧
    (∀ x, r = .num x → 10 * epsneg ≤ x → x ≤ 1 / 10 → r' = .num x) ∧
    atol'.entries.length = atol.entries.length ∧
    ∀ i (hi : i < atol.entries.length) (hi' : i < atol'.entries.length),
      (∀ x, atol.entries[i] = .num x → atol'.entries[i] = .num (max x sqrtTiny)) ∧
      (atol.entries[i] = .pinf → atol'.entries[i] = .pinf) ∧
      (atol.entries[i] = .nan → atol'.entries[i] = .nan) := by
  unfold validateTol at h
  dsimp only at h
  split at h
  · cases h
  · split at h
    · cases h
    · split at h
      · cases h
      · rename_i hr
        simp only [Except.ok.injEq, Prod.mk.injEq] at h
        obtain ⟨h1, h2⟩ := h
        refine ⟨?_, ?_, ?_, ?_⟩
        · intro hn; subst hn; exact h1.symm
        · intro hn
          cases r with
          | num x =>
            refine ⟨_, h1.symm, le_min (le_max_right _ _) he, min_le_right _ _⟩
          | pinf => exact ⟨_, h1.symm, he, le_rfl⟩
          | ninf => simp [PyFloat.ltNum] at hr
          | nan => exact absurd rfl hn
        · intro x hx h3 h4
          subst hx
          rw [← h1]
          simp only [PyFloat.maxNum, PyFloat.minNum, max_eq_left h3, min_eq_left h4]
        · have key : atol'.entries = atol.entries.map (fun x => x.maxNum sqrtTiny) := by
            rw [← h2]; cases atol <;> simp [AtolArg.entries, AtolArg.clip]
          refine ⟨by rw [key]; simp, ?_⟩
          intro i hi hi'
          have e : atol'.entries[i] = (atol.entries[i]).maxNum sqrtTiny := by
            simp only [key, List.getElem_map]
          refine ⟨?_, ?_, ?_⟩
          · intro x hx; rw [e, hx]; rfl
          · intro hx; rw [e, hx]; rfl
          · intro hx; rw [e, hx]; rfl

/-- C11: the hypothesis holds for double precision (`epsneg = 2^-53`), with a concrete call. -/
example : (10 : ℚ) * (1 / 2 ^ 53) ≤ 1 / 10 ∧
    validateTol (1 / 2 ^ 53) (1 / 10 ^ 154) 2 (.float (.num (1 / 1000 : ℚ)))
      (.vector [.num 0, .num 1]) =
    .ok (.num (1 / 1000), .vector [.num (1 / 10 ^ 154), .num 1]) := by
  constructor
  · norm_num
  · simp [validateTol, AtolArg.entries, AtolArg.shapeOK, AtolArg.clip, PyFloat.ltNum, PyFloat.maxNum, PyFloat.minNum]
    norm_num

/-! ## C13 -/

/-- No controller given: `None` (or another falsy object), an empty string or an empty tuple. -/
def NothingGiven (a : ScArg K) : Prop := a = .falsy ∨ a = .str "" ∨ a = .tuple []

theorem not_truthy_iff {a : ScArg K} : a.truthy = false ↔ NothingGiven a := by
  unfold NothingGiven
  cases a <;> simp [ScArg.truthy]

/-- **C13**. `sc_params` is accepted exactly when it is a predefined name or a tuple of four entries, or
falsy with an accepted default. -/
theorem C13_accepted_iff (coefs : String → Option (K × K × K × K)) (hempty : coefs "" = none)
    (pw : K → K → K) (errExp : K) (default arg : ScArg K) :
    (initScControl coefs pw errExp default arg).isSome ↔
      (∃ s, arg = .str s ∧ (coefs s).isSome) ∨ (∃ p q r g, arg = .tuple [p, q, r, g]) ∨
      (NothingGiven arg ∧
        ((∃ s, default = .str s ∧ (coefs s).isSome) ∨ ∃ p q r g, default = .tuple [p, q, r, g])) := by
  rw [← not_truthy_iff]
  have key : ∀ a : ScArg K, (scSelect coefs a).isSome ↔
      ((∃ s, a = .str s ∧ (coefs s).isSome) ∨ ∃ p q r g, a = .tuple [p, q, r, g]) := by
    intro a
    cases a with
    | falsy => simp [scSelect]
    | str s => simp [scSelect]
    | other => simp [scSelect]
    | tuple l =>
      match l with
      | [] => simp [scSelect]
      | [_] => simp [scSelect]
      | [_, _] => simp [scSelect]
      | [_, _, _] => simp [scSelect]
      | [_, _, _, _] => simp [scSelect]
      | _ :: _ :: _ :: _ :: _ :: _ => simp [scSelect]
  unfold initScControl
  dsimp only
  rw [Option.isSome_map, key]
  by_cases ht : arg.truthy = true
  · simp only [ht, if_true, Bool.true_eq_false, false_and, or_false]
  · have ht' : arg.truthy = false := by simpa using ht
    simp only [ht', Bool.false_eq_true, if_false, true_and]
    constructor
    · intro h; exact Or.inr (Or.inr h)
    · rintro (⟨s, rfl, hs⟩ | ⟨p, q, r, g, rfl⟩ | h)
      · have : s = "" := by simpa [ScArg.truthy] using ht'
        subst this
        rw [hempty] at hs; cases hs
      · simp [ScArg.truthy] at ht'
      · exact h

/-- **C13**: the names accepted by the explicit and the ESDIRK families are exactly "G", "S" and
"standard". -/
theorem C13_names (s : String) :
    ((coefsRK s : Option (K × K × K × K)).isSome ↔ s = "G" ∨ s = "S" ∨ s = "standard") ∧
    ((coefsESDIRK s : Option (K × K × K × K)).isSome ↔ s = "G" ∨ s = "S" ∨ s = "standard") := by
  constructor
  · unfold coefsRK; split <;> simp_all
  · unfold coefsESDIRK; split <;> simp_all

/-- **C13** (finding F5): the documented controllers "W" and "H" raise `ValueError`. -/
theorem C13_documented_names_rejected (pw : K → K → K) (errExp : K) (default : ScArg K) :
    initScControl coefsRK pw errExp default (.str "W") = none ∧
    initScControl coefsRK pw errExp default (.str "H") = none := by
  constructor <;> simp [initScControl, ScArg.truthy, scSelect, coefsRK]

/-- The parameters selected by a predefined name or a tuple. -/
theorem C13_values (pw : K → K → K) (errExp : K) (default : ScArg K) (p q r g : K) :
    initScControl coefsRK pw errExp default (.tuple [p, q, r, g]) =
      some ⟨p * errExp, q * errExp, -r, g, pw g (p + q)⟩ ∧
    initScControl coefsRK pw errExp default (.str "standard") =
      some ⟨errExp, 0, 0, 9 / 10, pw (9 / 10) 1⟩ := by
  constructor <;> simp [initScControl, ScArg.truthy, scSelect, coefsRK]

/-- **C13**/`CfgOK`: every predefined controller has a safety factor strictly between 0 and 1. -/
theorem C13_predefined_safety {pw : K → K → K} {errExp : K} {default : ScArg K} {s : String}
    {p : ScParams K} (h : initScControl coefsRK pw errExp default (.str s) = some p) (hs : s ≠ "") :
    0 < p.safety ∧ p.safety < 1 := by
  have e : p.safety = 9 / 10 := by
    unfold initScControl at h
    have : (ScArg.str s : ScArg K).truthy = true := by simp [ScArg.truthy, hs]
    simp only [this, if_true, Option.map_eq_some_iff] at h
    obtain ⟨⟨a, b, c, d⟩, h1, h2⟩ := h
    rw [← h2]
    simp only [scSelect] at h1
    unfold coefsRK at h1
    split at h1 <;> simp_all
  rw [e]
  constructor <;> norm_num

/-! ## C14 -/

private theorem inner_le (l : List K) (c1 m : K) :
    l.foldl (fun m c2 => if |c1 - c2| ≠ 0 then min m |c1 - c2| else m) m ≤ m ∧
    ∀ c2 ∈ l, c1 ≠ c2 →
      l.foldl (fun m c2 => if |c1 - c2| ≠ 0 then min m |c1 - c2| else m) m ≤ |c1 - c2| := by
  induction l generalizing m with
  | nil => simp
  | cons a l ih =>
    simp only [List.foldl_cons]
    obtain ⟨h1, h2⟩ := ih (if |c1 - a| ≠ 0 then min m |c1 - a| else m)
    have hle : (if |c1 - a| ≠ 0 then min m |c1 - a| else m) ≤ m := by
      split_ifs
      · exact min_le_left _ _
      · exact le_rfl
    refine ⟨h1.trans hle, ?_⟩
    intro c2 hc2 hne
    rcases List.mem_cons.mp hc2 with rfl | hmem
    · refine h1.trans ?_
      rw [if_pos (by rw [ne_eq, abs_eq_zero]; exact sub_ne_zero.mpr hne)]
      exact min_le_right _ _
    · exact h2 c2 hmem hne

private theorem inner_pos (l : List K) (c1 m : K) (hm : 0 < m) :
    0 < l.foldl (fun m c2 => if |c1 - c2| ≠ 0 then min m |c1 - c2| else m) m := by
  induction l generalizing m with
  | nil => simpa
  | cons a l ih =>
    simp only [List.foldl_cons]
    apply ih
    split_ifs with h
    · exact lt_min hm (lt_of_le_of_ne (abs_nonneg _) (Ne.symm h))
    · exact hm

private theorem outer (C l : List K) (m : K) :
    l.foldl (fun m c1 => C.foldl (fun m c2 => if |c1 - c2| ≠ 0 then min m |c1 - c2| else m) m) m ≤ m ∧
    (∀ c1 ∈ l, ∀ c2 ∈ C, c1 ≠ c2 →
      l.foldl (fun m c1 => C.foldl (fun m c2 => if |c1 - c2| ≠ 0 then min m |c1 - c2| else m) m) m
        ≤ |c1 - c2|) ∧
    (0 < m → 0 < l.foldl (fun m c1 =>
      C.foldl (fun m c2 => if |c1 - c2| ≠ 0 then min m |c1 - c2| else m) m) m) := by
  induction l generalizing m with
  | nil => simp
  | cons a l ih =>
    simp only [List.foldl_cons]
    obtain ⟨h1, h2, h3⟩ := ih (C.foldl (fun m c2 => if |a - c2| ≠ 0 then min m |a - c2| else m) m)
    obtain ⟨i1, i2⟩ := inner_le C a m
    refine ⟨h1.trans i1, ?_, fun hm => h3 (inner_pos C a m hm)⟩
    intro c1 hc1 c2 hc2 hne
    rcases List.mem_cons.mp hc1 with rfl | hmem
    · exact h1.trans (i2 c2 hc2 hne)
    · exact h2 c1 hmem c2 hc2 hne

/-- **C14**. The node distance used for the minimal step lies in `[1e-3, 1]`. -/
theorem C14_range (C : List K) : 1 / 1000 ≤ cdiff C ∧ cdiff C ≤ 1 := by
  unfold cdiff
  split_ifs with h
  · exact ⟨le_rfl, by norm_num⟩
  · exact ⟨not_lt.mp h, (outer C C 1).1⟩

/-- **C14**. Unless clipped it is a lower bound of the distance of any two distinct nodes. -/
theorem C14_lower_bound (C : List K) (h : ¬ cdiffRaw C < 1 / 1000) {c1 c2 : K} (h1 : c1 ∈ C)
    (h2 : c2 ∈ C) (hne : c1 ≠ c2) : cdiff C ≤ |c1 - c2| := by
  unfold cdiff
  rw [if_neg h]
  exact (outer C C 1).2.1 c1 h1 c2 h2 hne

/-- **C14**. The minimal step is positive for every `t`, and in a step `h` that is not smaller, any two
distinct stage times differ by at least `10*epsneg*(|t| + h_abs)` (nodes not clipped). -/
theorem C14_stage_times {V W : Type*} {c : Cfg K V W} {epsneg : K} {C : List K}
    (ha : c.hMinA = hMinAOf epsneg C) (hb : 0 < c.hMinB) (h : ¬ cdiffRaw C < 1 / 1000)
    (t hAbs : K) :
    0 < minStepOf c t hAbs ∧
    ∀ hs c1 c2, minStepOf c t hAbs ≤ |hs| → c1 ∈ C → c2 ∈ C → c1 ≠ c2 →
      10 * epsneg * (|t| + hAbs) ≤ |(t + c1 * hs) - (t + c2 * hs)| := by
  refine ⟨lt_max_of_lt_right hb, ?_⟩
  intro hs c1 c2 hmin h1 h2 hne
  have hc := C14_lower_bound C h h1 h2 hne
  have hpos : 0 < cdiff C := lt_of_lt_of_le (by norm_num) (C14_range C).1
  have e : (t + c1 * hs) - (t + c2 * hs) = (c1 - c2) * hs := by ring
  rw [e, abs_mul]
  have hm : c.hMinA * (|t| + hAbs) ≤ |hs| := (le_max_left _ _).trans hmin
  rw [ha] at hm
  unfold hMinAOf at hm
  calc 10 * epsneg * (|t| + hAbs) = cdiff C * (10 * epsneg / cdiff C * (|t| + hAbs)) := by
        field_simp
    _ ≤ cdiff C * |hs| := mul_le_mul_of_nonneg_left hm hpos.le
    _ ≤ |c1 - c2| * |hs| := mul_le_mul_of_nonneg_right hc (abs_nonneg _)

end

/-- C14: none of the shipped rational tableaus is clipped. -/
theorem C14_shipped_not_clipped :
    ∀ R ∈ [Me4, CK5, BS5, CFMR7osc, Ts5, Pr7, Pr8, Pr9], ¬ cdiffRaw (R.C : List ℚ) < 1 / 1000 := by
  decide +kernel

end Extensisq
