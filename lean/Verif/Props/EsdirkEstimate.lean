import Verif.Props.EsdirkStab
import Verif.Props.EsdirkStabWitness
import Verif.Props.EsdirkControl

/-!
# C118: the secondary methods and the error estimates of the ESDIRK methods on stiff problems
-/

set_option linter.unusedSectionVars false
set_option maxRecDepth 100000

namespace Extensisq
open Finset

/-! ## Specification -/

/-- The error estimate of a step, without the filter. -/
noncomputable def linErr (T : ETab ℝ) (h : ℝ) (Ks : ℕ → ℂ) : ℂ := h • ∑ j ∈ range T.n, T.E j • Ks j

/-- The solution of the secondary method. -/
noncomputable def linSecondary (T : ETab ℝ) (y : ℂ) (h : ℝ) (Ks : ℕ → ℂ) : ℂ := linStep T y h Ks + linErr T h Ks

/-- `e` is the error estimate that the solver tests for the mode: filtered (`(1 - d h λ) e = e₀`) for `TRBDF2` and `TRX2`. -/
def IsModeEstimate (T : ETab ℝ) (lam : ℂ) (h : ℝ) (Ks : ℕ → ℂ) (e : ℂ) : Prop :=
  if T.filter then (1 - T.d * (h * lam)) * e = linErr T h Ks else e = linErr T h Ks

/-- How large the estimate can be, compared with the solution. -/
def estimateBounds : List (ESTable × ℚ) := [(TRBDF2, 161 / 100), (TRX2, 4 / 3), (KC3I, 1 / 10), (KC4I, 1 / 10), (KC4Ia, 1 / 2), (Kv3I, 1)]

/-! ## Polynomials -/

/-- `p(u + c)`. -/
def lshift (c : ℚ) : List Q2 → List Q2
  | [] => []
  | a :: p => ladd [a] (ladd (lsmul ⟨c, 0⟩ (lshift c p)) (0 :: lshift c p))

/-- `s^(length - 1) p(c/s)`, as a polynomial in `s`. -/
def lrev (c : ℚ) : List Q2 → List Q2
  | [] => []
  | a :: p => ladd (List.replicate p.length 0 ++ [a]) (lsmul ⟨c, 0⟩ (lrev c p))

/-- Nonnegative on the positive half line: on `[0, c]` after a fractional linear substitution, then from `c` on. -/
def posM : List ℚ → List Q2 → Bool
  | [], p => posCheck p
  | c :: cs, p => decide (0 < c) && q2nonneg (p.headD 0) && (lshift 1 (lrev c p)).all q2nonneg && posM cs (lshift c p)

theorem homR_rat (q : ℚ) : homR ⟨q, 0⟩ = (q : ℝ) := by rw [homR_val, Q2.val]; simp
theorem homC_rat (q : ℚ) : homC ⟨q, 0⟩ = ((q : ℝ) : ℂ) := by rw [homC_val, Q2.val]; simp

theorem lev_shift (c : ℚ) (p : List Q2) (u : ℝ) : lev homR (lshift c p) u = lev homR p (u + c) := by
  induction p with
  | nil => rfl
  | cons a p ih =>
    rw [lshift, lev_add, lev_add, lev_smul, lev, lev, lev, lev, ih, homR_rat, map_zero]
    ring

theorem lev_mono (a : Q2) (n : ℕ) (s : ℝ) : lev homR (List.replicate n 0 ++ [a]) s = s ^ n * homR a := by
  induction n with
  | zero => simp [lev]
  | succ n ih =>
    rw [List.replicate_succ, List.cons_append, lev, ih, map_zero, pow_succ]
    ring

theorem lev_rev (c : ℚ) (p : List Q2) {s : ℝ} (hs : s ≠ 0) : lev homR (lrev c p) s * s = s ^ p.length * lev homR p (c / s) := by
  induction p with
  | nil => simp [lrev, lev]
  | cons a p ih =>
    rw [lrev, lev_add, lev_smul, lev_mono, homR_rat, add_mul, mul_assoc (c : ℝ), ih, lev, List.length_cons, pow_succ]
    field_simp

theorem all_nonneg {p : List Q2} (h : p.all q2nonneg = true) {u : ℝ} (hu : 0 ≤ u) : 0 ≤ lev homR p u := by
  induction p with
  | nil => simp [lev]
  | cons a p ih =>
    simp only [List.all_cons, Bool.and_eq_true] at h
    have h1 := q2nonneg_spec h.1
    have h2 := ih h.2
    rw [lev]
    positivity

theorem posM_spec : ∀ {cs : List ℚ} {p : List Q2}, posM cs p = true → ∀ {u : ℝ}, 0 ≤ u → 0 ≤ lev homR p u
  | [], p, h, u, hu => posCheck_spec h hu
  | c :: cs, p, h, u, hu => by
    simp only [posM, Bool.and_eq_true, decide_eq_true_eq] at h
    obtain ⟨⟨⟨h0, h1⟩, h2⟩, h3⟩ := h
    have hc : (0 : ℝ) < c := by exact_mod_cast h0
    rcases le_total (c : ℝ) u with hle | hle
    · have := posM_spec h3 (u := u - c) (by linarith)
      rwa [lev_shift, sub_add_cancel] at this
    · rcases hu.eq_or_lt with rfl | hu
      · cases p with
        | nil => simp [lev]
        | cons a p =>
          have := q2nonneg_spec h1
          rw [lev, zero_mul, add_zero]
          exact this
      · have hs : 1 ≤ (c : ℝ) / u := by rwa [one_le_div hu]
        have h4 := all_nonneg h2 (u := c / u - 1) (by linarith)
        rw [lev_shift] at h4
        push_cast at h4
        rw [sub_add_cancel] at h4
        have hs0 : (0 : ℝ) < c / u := by positivity
        have e := lev_rev c p hs0.ne'
        rw [show (c : ℝ) / (c / u) = u by field_simp] at e
        have h5 : 0 ≤ (c / u : ℝ) ^ p.length * lev homR p u := by rw [← e]; exact mul_nonneg h4 hs0.le
        exact nonneg_of_mul_nonneg_right h5 (pow_pos hs0 _)

/-- A zero in front of the highest power is dropped. -/
def ltrim (p : List Q2) : List Q2 := if p.getLast? = some 0 then p.dropLast else p

theorem lev_trim (p : List Q2) (z : ℂ) : lev homC (ltrim p) z = lev homC p z := by
  unfold ltrim
  split_ifs with h
  · have hne : p ≠ [] := by rintro rfl; simp at h
    rw [List.getLast?_eq_some_getLast hne, Option.some.injEq] at h
    conv_rhs => rw [← List.dropLast_append_getLast hne, h, lev_zero_last]
  · rfl

/-! ## The checks -/

/-- The numerator of the estimate. -/
def errNum (R : ESTable) : List Q2 :=
  ltrim (0 :: lsum ((List.range R.n).map fun j => lsmul (R.E.getD j 0) (lmul (stabDen R (R.n - 1 - j)) (stabNum R j))))

/-- The numerator of the secondary method. -/
def hatNum (R : ESTable) : List Q2 := ladd (stabNum R (R.n - 1)) (errNum R)

/-- `|P| ≤ b |1 - d z|^m` in the left half plane. -/
def hpCheck (R : ESTable) (P : List Q2) (m : ℕ) (b : ℚ) (cs : List ℚ) : Bool :=
  decide (0 < b) && decide (P.length ≤ m + 1) && posM cs (lsub (lsmul ⟨b ^ 2, 0⟩ (labs2 (stabDen R m))) (labs2 P))

theorem hp_sound {R : ESTable} (hd : 0 < homR R.d) {P : List Q2} {m : ℕ} {b : ℚ} {cs : List ℚ} (h : hpCheck R P m b cs = true) {z : ℂ} (hz : z.re ≤ 0) :
    ‖lev homC P z‖ ≤ b * ‖1 - homC R.d * z‖ ^ m := by
  simp only [hpCheck, Bool.and_eq_true, decide_eq_true_eq] at h
  obtain ⟨⟨h1, h2⟩, h3⟩ := h
  have hb : (0 : ℝ) < b := by exact_mod_cast h1
  have key := half_plane hd (P := lsmul ⟨1 / b, 0⟩ P) (m := m) (by simpa [lsmul] using h2) (fun y => by
    apply le_of_sq_le_sq _ (norm_nonneg _)
    rw [lev_smul, norm_mul, mul_pow, lev_abs2, ← lev_den, lev_abs2, homC_rat, Complex.norm_real]
    have := posM_spec h3 (sq_nonneg y)
    rw [lev_sub, lev_smul, homR_rat] at this
    rw [Real.norm_of_nonneg (by push_cast; positivity)]
    push_cast at this ⊢
    rw [div_pow, one_pow, div_mul_eq_mul_div, one_mul, div_le_iff₀ (by positivity)]
    linarith) hz
  rw [lev_smul, norm_mul, homC_rat, Complex.norm_real, Real.norm_of_nonneg (by push_cast; positivity)] at key
  push_cast at key
  rw [div_mul_eq_mul_div, one_mul, div_le_iff₀ hb, norm_pow] at key
  linarith

/-- The limit of `P / (1 - d z)^m` is `rho`. -/
def limCheck (R : ESTable) (P : List Q2) (m : ℕ) (rho : Q2) : Bool :=
  let p := lsub P (lsmul rho (stabDen R m))
  decide (1 ≤ m) && decide (p.length = m + 1) && decide (p.getLast? = some 0)

theorem lim_sound {R : ESTable} (hd : 0 < homR R.d) {P : List Q2} {m : ℕ} {rho : Q2} (h : limCheck R P m rho = true) :
    ∃ C : ℝ, ∀ z : ℂ, z.re ≤ 0 → ‖z‖ * ‖lev homC P z - homC rho * (1 - homC R.d * z) ^ m‖ ≤ C * ‖1 - homC R.d * z‖ ^ m := by
  simp only [limCheck, Bool.and_eq_true, decide_eq_true_eq] at h
  obtain ⟨⟨h0, i1⟩, i2⟩ := h
  set p := lsub P (lsmul rho (stabDen R m)) with hp
  have hsplit : p = p.dropLast ++ [0] := by
    have hne : p ≠ [] := by intro h0; rw [h0] at i2; simp at i2
    rw [List.getLast?_eq_some_getLast hne, Option.some.injEq] at i2
    rw [← i2]
    exact (List.dropLast_append_getLast hne).symm
  obtain ⟨C, hC, hb⟩ := lev_bound hd p.dropLast (m - 1) (by rw [List.length_dropLast, i1]; omega)
  refine ⟨C / homR R.d, fun z hz => ?_⟩
  obtain ⟨b1, b2⟩ := den_bounds hd hz
  have b1' : 1 ≤ ‖1 - homC R.d * z‖ := b1
  have b2' : homR R.d * ‖z‖ ≤ ‖1 - homC R.d * z‖ := b2
  have e : lev homC P z - homC rho * (1 - homC R.d * z) ^ m = lev homC p.dropLast z := by
    rw [← lev_zero_last homC p.dropLast, ← hsplit, hp, lev_sub, lev_smul, lev_den]
  rw [e]
  have h1 := hb z _ b1' b2'
  set W := ‖1 - homC R.d * z‖
  have hpow : W ^ m = W * W ^ (m - 1) := by rw [← pow_succ']; congr 1; omega
  rw [div_mul_eq_mul_div, le_div_iff₀ hd, hpow]
  calc ‖z‖ * ‖lev homC p.dropLast z‖ * homR R.d = (homR R.d * ‖z‖) * ‖lev homC p.dropLast z‖ := by ring
    _ ≤ W * (C * W ^ (m - 1)) := mul_le_mul b2' h1 (norm_nonneg _) (by positivity)
    _ = _ := by ring

/-! ## The estimate as a rational function -/

theorem linErr_num {R : ESTable} (ok : StabOK R) {lam y : ℂ} {h : ℝ} {Ks : ℕ → ℂ} (hK : LinStages (R.tab ℝ (√2)) lam y h Ks) :
    linErr (R.tab ℝ (√2)) h Ks * (1 - homC R.d * (h * lam)) ^ (R.n - 1) = lev homC (errNum R) (h * lam) * y := by
  have h2 := ok.n
  set Y : ℕ → ℂ := fun i => if i = 0 then y else stageVal (R.tab ℝ (√2)) y h Ks i with hY
  have hKY : ∀ j, j < R.n → Ks j = lam * Y j := by
    intro j hj
    rw [hY]
    dsimp only
    by_cases h0 : j = 0
    · rw [if_pos h0, h0]; exact hK.1
    · rw [if_neg h0]; exact hK.2 j (by omega) hj
  have key := stage_num R (z := h * lam) (y := y) (Y := Y) (n := R.n) (by simp [hY])
    (fun i h1 h2 => ok.diag i h2 h1) (fun i h1 hi => ?_)
  · rw [errNum, lev_trim, lev, map_zero, zero_add, lev_sum, List.map_map, list_sum_range]
    unfold linErr
    show (h • ∑ j ∈ range R.n, Q2.val (√2) (R.E.getD j 0) • Ks j) * _ = _
    rw [Complex.real_smul, mul_assoc (h : ℂ), mul_assoc (h : ℂ), mul_assoc (h : ℂ)]
    congr 1
    rw [sum_mul, mul_assoc, sum_mul, mul_sum]
    apply sum_congr rfl
    intro j hj
    have hj' := mem_range.mp hj
    rw [Function.comp_apply, lev_smul, lev_mul, lev_den, Complex.real_smul, homC_val (R.E.getD j 0), hKY j hj']
    have e := key j hj'
    have hp : (1 - homC R.d * (h * lam)) ^ (R.n - 1) = (1 - homC R.d * (h * lam)) ^ (R.n - 1 - j) * (1 - homC R.d * (h * lam)) ^ j := by
      rw [← pow_add]; congr 1; omega
    rw [hp]
    linear_combination ((Q2.val (√2) (R.E.getD j 0) : ℝ) : ℂ) * lam * (1 - homC R.d * (h * lam)) ^ (R.n - 1 - j) * e
  · rw [hY]
    dsimp only
    rw [if_neg (by omega), stageVal, mul_assoc, Complex.real_smul]
    congr 1
    congr 1
    rw [mul_sum]
    apply sum_congr rfl
    intro j hj
    have hj' := mem_range.mp hj
    rw [Complex.real_smul, homC_val]
    show ((Q2.val (√2) ((R.A.getD i []).getD j 0) : ℝ) : ℂ) * Ks j = _
    rw [hKY j (by omega), mul_left_comm]

theorem linSecondary_num {R : ESTable} (ok : StabOK R) {lam y : ℂ} {h : ℝ} {Ks : ℕ → ℂ} (hK : LinStages (R.tab ℝ (√2)) lam y h Ks) :
    linSecondary (R.tab ℝ (√2)) y h Ks * (1 - homC R.d * (h * lam)) ^ (R.n - 1) = lev homC (hatNum R) (h * lam) * y := by
  rw [linSecondary, add_mul, linStep_num ok hK, linErr_num ok hK, hatNum, lev_add]
  ring

/-- The power of the denominator of the estimate. -/
def estPow (R : ESTable) : ℕ := if R.filter then R.n else R.n - 1

theorem estimate_num {R : ESTable} (ok : StabOK R) {lam y e : ℂ} {h : ℝ} {Ks : ℕ → ℂ} (hK : LinStages (R.tab ℝ (√2)) lam y h Ks)
    (he : IsModeEstimate (R.tab ℝ (√2)) lam h Ks e) : e * (1 - homC R.d * (h * lam)) ^ estPow R = lev homC (errNum R) (h * lam) * y := by
  have hn := ok.n
  unfold IsModeEstimate at he
  have ef : (R.tab ℝ (√2)).filter = R.filter := rfl
  rw [ef] at he
  unfold estPow
  cases hf : R.filter
  · rw [hf] at he
    simp only [Bool.false_eq_true, if_false] at he ⊢
    rw [he]
    exact linErr_num ok hK
  · rw [hf] at he
    simp only [if_true] at he ⊢
    have e1 : (1 - homC R.d * (h * lam)) ^ R.n = (1 - homC R.d * (h * lam)) * (1 - homC R.d * (h * lam)) ^ (R.n - 1) := by
      rw [← pow_succ']; congr 1; omega
    rw [e1, ← linErr_num ok hK, ← he, homC_val]
    show _ = (1 - ((Q2.val (√2) R.d : ℝ) : ℂ) * (h * lam)) * e * _
    ring

theorem quotient_le {R : ESTable} (ok : StabOK R) {z x y : ℂ} {m : ℕ} {P : List Q2} {b : ℝ} (hz : z.re ≤ 0) (h : x * (1 - homC R.d * z) ^ m = lev homC P z * y)
    (hb : ‖lev homC P z‖ ≤ b * ‖1 - homC R.d * z‖ ^ m) : ‖x‖ ≤ b * ‖y‖ := by
  have hW : 0 < ‖1 - homC R.d * z‖ := lt_of_lt_of_le one_pos (den_bounds ok.d hz).1
  have e := congrArg norm h
  rw [norm_mul, norm_mul, norm_pow] at e
  refine le_of_mul_le_mul_right ?_ (pow_pos hW m)
  rw [e]
  calc _ ≤ b * ‖1 - homC R.d * z‖ ^ m * ‖y‖ := mul_le_mul_of_nonneg_right hb (norm_nonneg _)
    _ = _ := by ring

theorem quotient_lim {R : ESTable} (ok : StabOK R) {z x y r : ℂ} {m : ℕ} {P : List Q2} {C : ℝ} (hz : z.re ≤ 0) (h : x * (1 - homC R.d * z) ^ m = lev homC P z * y)
    (hb : ‖z‖ * ‖lev homC P z - r * (1 - homC R.d * z) ^ m‖ ≤ C * ‖1 - homC R.d * z‖ ^ m) : ‖z‖ * ‖x - r * y‖ ≤ C * ‖y‖ := by
  have hW : 0 < ‖1 - homC R.d * z‖ := lt_of_lt_of_le one_pos (den_bounds ok.d hz).1
  have e : (x - r * y) * (1 - homC R.d * z) ^ m = (lev homC P z - r * (1 - homC R.d * z) ^ m) * y := by linear_combination h
  have e := congrArg norm e
  rw [norm_mul, norm_mul, norm_pow] at e
  refine le_of_mul_le_mul_right ?_ (pow_pos hW m)
  calc ‖z‖ * ‖x - r * y‖ * ‖1 - homC R.d * z‖ ^ m = ‖z‖ * (‖x - r * y‖ * ‖1 - homC R.d * z‖ ^ m) := by ring
    _ = ‖z‖ * ‖lev homC P z - r * (1 - homC R.d * z) ^ m‖ * ‖y‖ := by rw [e]; ring
    _ ≤ C * ‖1 - homC R.d * z‖ ^ m * ‖y‖ := mul_le_mul_of_nonneg_right hb (norm_nonneg _)
    _ = _ := by ring

/-! ## The secondary methods -/

theorem hat_ok : hpCheck KC3I (hatNum KC3I) 4 (1 + 1 / 10 ^ 20) [] = true ∧ hpCheck KC4I (hatNum KC4I) 5 (1 + 1 / 10 ^ 20) [] = true ∧
    hpCheck KC4Ia (hatNum KC4Ia) 6 (1 + 1 / 10 ^ 20) [320, 20, 60] = true ∧ hpCheck Kv3I (hatNum Kv3I) 3 1 [] = true := by
  refine ⟨?_, ?_, ?_, ?_⟩ <;> decide +kernel

/-- **C118.** The secondary methods of Kennedy and Carpenter are A-stable, up to the rounding of their coefficients. -/
theorem C118_secondary_A_stable {R : ESTable} (hR : R ∈ [KC3I, KC4I, KC4Ia]) {lam y : ℂ} {h : ℝ} {Ks : ℕ → ℂ} (hK : LinStages (R.tab ℝ (√2)) lam y h Ks)
    (hz : ((h : ℂ) * lam).re ≤ 0) : ‖linSecondary (R.tab ℝ (√2)) y h Ks‖ ≤ (1 + 1 / 10 ^ 20) * ‖y‖ := by
  obtain ⟨h1, h2, h3, -⟩ := hat_ok
  have ok := stab_ok R (by simp only [List.mem_cons, List.not_mem_nil, or_false] at hR ⊢; tauto)
  refine quotient_le ok hz (linSecondary_num ok hK) ?_
  have e : ((1 + 1 / 10 ^ 20 : ℚ) : ℝ) = 1 + 1 / 10 ^ 20 := by push_cast; rfl
  rw [← e]
  simp only [List.mem_cons, List.not_mem_nil, or_false] at hR
  rcases hR with rfl | rfl | rfl
  · exact hp_sound ok.d h1 hz
  · exact hp_sound ok.d h2 hz
  · exact hp_sound ok.d h3 hz

/-- **C118.** The secondary method of `Kv3I` is A-stable. -/
theorem C118_secondary_Kv3I {lam y : ℂ} {h : ℝ} {Ks : ℕ → ℂ} (hK : LinStages (Kv3I.tab ℝ (√2)) lam y h Ks)
    (hz : ((h : ℂ) * lam).re ≤ 0) : ‖linSecondary (Kv3I.tab ℝ (√2)) y h Ks‖ ≤ ‖y‖ := by
  have ok := stab_ok Kv3I (by simp)
  have := quotient_le ok hz (linSecondary_num ok hK) (hp_sound ok.d hat_ok.2.2.2 hz)
  simpa using this

/-- The limit, for rational `d`. -/
def rhoOf (R : ESTable) (P : List Q2) (m : ℕ) : Q2 := ⟨(P.getD m 0).a / (-R.d.a) ^ m, (P.getD m 0).b / (-R.d.a) ^ m⟩

/-- `lo <= |rho| <= hi`. -/
def sizeCheck (rho : Q2) (lo hi : ℚ) : Bool :=
  q2nonneg (⟨hi, 0⟩ - rho) && q2nonneg (⟨hi, 0⟩ + rho) && (q2nonneg (rho - ⟨lo, 0⟩) || q2nonneg (-rho - ⟨lo, 0⟩))

theorem size_sound {rho : Q2} {lo hi : ℚ} (h : sizeCheck rho lo hi = true) : (lo : ℝ) ≤ |homR rho| ∧ |homR rho| ≤ hi := by
  simp only [sizeCheck, Bool.and_eq_true, Bool.or_eq_true] at h
  obtain ⟨⟨h1, h2⟩, h3⟩ := h
  have h1 := q2nonneg_spec h1
  have h2 := q2nonneg_spec h2
  rw [map_sub, homR_rat] at h1
  rw [map_add, homR_rat] at h2
  refine ⟨?_, abs_le.mpr ⟨by linarith, by linarith⟩⟩
  rcases h3 with h3 | h3
  · have h3 := q2nonneg_spec h3
    rw [map_sub, homR_rat] at h3
    exact le_trans (by linarith) (le_abs_self _)
  · have h3 := q2nonneg_spec h3
    rw [map_sub, homR_rat, map_neg] at h3
    exact le_trans (by linarith) (neg_le_abs _)

theorem homC_homR (x : Q2) : homC x = ((homR x : ℝ) : ℂ) := rfl

/-- The limits of the secondary methods: method, lower and upper bound for the absolute value. -/
def secondaryLimits : List (ESTable × ℚ × ℚ) := [(KC3I, 0, 1 / 10 ^ 20), (KC4I, 0, 1 / 10 ^ 20), (KC4Ia, 0, 1 / 10 ^ 20), (Kv3I, 956 / 1000, 957 / 1000)]

theorem secondary_lim_ok : ∀ p ∈ secondaryLimits, limCheck p.1 (hatNum p.1) (p.1.n - 1) (rhoOf p.1 (hatNum p.1) (p.1.n - 1)) = true ∧
    sizeCheck (rhoOf p.1 (hatNum p.1) (p.1.n - 1)) p.2.1 p.2.2 = true := by decide +kernel

/-- **C118.** With growing `|h λ|` the solution of the secondary method tends to a multiple `rho` of the solution before the step: for the methods of Kennedy and Carpenter
`rho = 0` up to the rounding of the coefficients (L-stability), for `Kv3I` about -0.9567 (no L-stability). -/
theorem C118_secondary_limit {R : ESTable} {lo hi : ℚ} (hR : (R, lo, hi) ∈ secondaryLimits) : ∃ rho : ℝ, (lo : ℝ) ≤ |rho| ∧ |rho| ≤ hi ∧
    ∃ C : ℝ, ∀ (lam y : ℂ) (h : ℝ) (Ks : ℕ → ℂ), LinStages (R.tab ℝ (√2)) lam y h Ks → ((h : ℂ) * lam).re ≤ 0 →
      ‖(h : ℂ) * lam‖ * ‖linSecondary (R.tab ℝ (√2)) y h Ks - rho * y‖ ≤ C * ‖y‖ := by
  obtain ⟨k1, k2⟩ := secondary_lim_ok _ hR
  dsimp only at k1 k2
  have hmem : R ∈ [TRBDF2, TRX2, KC3I, KC4I, KC4Ia, Kv3I] := by
    simp only [secondaryLimits, List.mem_cons, Prod.mk.injEq, List.not_mem_nil, or_false] at hR ⊢
    tauto
  have ok := stab_ok R hmem
  obtain ⟨s1, s2⟩ := size_sound k2
  obtain ⟨C, hC⟩ := lim_sound ok.d k1
  refine ⟨_, s1, s2, C, fun lam y h Ks hK hz => ?_⟩
  rw [← homC_homR]
  exact quotient_lim ok hz (linSecondary_num ok hK) (hC _ hz)

/-! ## The error estimate -/

theorem estimate_ok : ∀ p ∈ estimateBounds, hpCheck p.1 (errNum p.1) (estPow p.1) p.2 [] = true := by decide +kernel

/-- **C118.** The error estimate of a stiff component is at most a fixed multiple of that component, whatever the step size. -/
theorem C118_estimate_bounded {R : ESTable} {b : ℚ} (hR : (R, b) ∈ estimateBounds) {lam y e : ℂ} {h : ℝ} {Ks : ℕ → ℂ} (hK : LinStages (R.tab ℝ (√2)) lam y h Ks)
    (he : IsModeEstimate (R.tab ℝ (√2)) lam h Ks e) (hz : ((h : ℂ) * lam).re ≤ 0) : ‖e‖ ≤ b * ‖y‖ := by
  have hmem : R ∈ [TRBDF2, TRX2, KC3I, KC4I, KC4Ia, Kv3I] := by
    simp only [estimateBounds, List.mem_cons, Prod.mk.injEq, List.not_mem_nil, or_false] at hR ⊢
    tauto
  have ok := stab_ok R hmem
  exact quotient_le ok hz (estimate_num ok hK he) (hp_sound ok.d (estimate_ok _ hR) hz)

/-- The limits of the estimates. -/
def estimateLimits : List (ESTable × Q2 × ℚ × ℚ) := [(TRBDF2, ⟨2 / 3, 2 / 3⟩, 1609 / 1000, 161 / 100), (TRX2, ⟨4 / 3, 0⟩, 4 / 3, 4 / 3),
  (KC3I, rhoOf KC3I (errNum KC3I) 4, 0, 1 / 10 ^ 20), (KC4I, rhoOf KC4I (errNum KC4I) 5, 0, 1 / 10 ^ 20), (KC4Ia, rhoOf KC4Ia (errNum KC4Ia) 6, 0, 1 / 10 ^ 20),
  (Kv3I, rhoOf Kv3I (errNum Kv3I) 3, 956 / 1000, 957 / 1000)]

theorem estimate_lim_ok : ∀ p ∈ estimateLimits, limCheck p.1 (errNum p.1) (estPow p.1) p.2.1 = true ∧ sizeCheck p.2.1 p.2.2.1 p.2.2.2 = true := by decide +kernel

/-- **C118.** With growing `|h λ|` the estimate tends to a multiple of the solution before the step: zero, up to rounding, for the methods of Kennedy and Carpenter, but not
for `TRBDF2` (2/3 (1 + √2)), `TRX2` (4/3) and `Kv3I`, where components that decay fast are seen as an error of their own size. -/
theorem C118_estimate_limit {R : ESTable} {r : Q2} {lo hi : ℚ} (hR : (R, r, lo, hi) ∈ estimateLimits) : ∃ rho : ℝ, (lo : ℝ) ≤ |rho| ∧ |rho| ≤ hi ∧
    ∃ C : ℝ, ∀ (lam y e : ℂ) (h : ℝ) (Ks : ℕ → ℂ), LinStages (R.tab ℝ (√2)) lam y h Ks → IsModeEstimate (R.tab ℝ (√2)) lam h Ks e → ((h : ℂ) * lam).re ≤ 0 →
      ‖(h : ℂ) * lam‖ * ‖e - rho * y‖ ≤ C * ‖y‖ := by
  obtain ⟨k1, k2⟩ := estimate_lim_ok _ hR
  dsimp only at k1 k2
  have hmem : R ∈ [TRBDF2, TRX2, KC3I, KC4I, KC4Ia, Kv3I] := by
    simp only [estimateLimits, List.mem_cons, Prod.mk.injEq, List.not_mem_nil, or_false] at hR ⊢
    tauto
  have ok := stab_ok R hmem
  obtain ⟨s1, s2⟩ := size_sound k2
  obtain ⟨C, hC⟩ := lim_sound ok.d k1
  refine ⟨_, s1, s2, C, fun lam y e h Ks hK he hz => ?_⟩
  rw [← homC_homR]
  exact quotient_lim ok hz (estimate_num ok hK he) (hC _ hz)

/-! ## Histories in linear mode -/

section
variable {V : Type*} [AddCommGroup V] [Module ℝ V] {c : ECfg ℝ V}

/-- **C118.** In linear mode, in every successful step of every history, the estimate that was tested (and found small enough) is at most the stated multiple of the
solution in every component with `Re λ ≤ 0`. -/
theorem C118_linear_mode {R : ESTable} {b : ℚ} (hR : (R, b) ∈ estimateBounds) (hc : ECfgOK c)
    (hT : c.T = R.tab ℝ (√2)) (hj : c.jac = none) (hlin : LinSolves c) (hM : ∀ x, c.M x = x) {J0 : V →ₗ[ℝ] V}
    (hf : ∀ t y, c.fn t y = some (J0 y)) (hreg : ∀ h, 0 < h → Regular c (h * c.dir) J0)
    {v0 v v' : ESolver ℝ V} {t0 : ℝ} {y0 : V} (hn : IsNew v0 t0 y0 (J0 y0) J0) (hr : EReach c v0 v) {fuel : ℕ}
    (ht : c.tb ≠ some v.st.t) (h : eStep c fuel v = some (.ok, v')) :
    ∃ e x, c.errNorm v.st.y v'.st.y e = .num x ∧ x < 1 ∧ ∀ {g : V →ₗ[ℝ] ℂ} {lam : ℂ}, (∀ x, g (J0 x) = lam * g x) → c.dir * lam.re ≤ 0 →
      IsModeEstimate (R.tab ℝ (√2)) lam (v'.st.t - v.st.t) (fun i => g (v'.st.Ks i)) (g e) ∧ ‖g e‖ ≤ b * ‖g v.st.y‖ := by
  have hmem : R ∈ [TRBDF2, TRX2, KC3I, KC4I, KC4Ia, Kv3I] := by
    simp only [estimateBounds, List.mem_cons, Prod.mk.injEq, List.not_mem_nil, or_false] at hR ⊢
    tauto
  obtain ⟨hh, x, law⟩ := C78_step_law hc hlin hn hr ht h
  obtain ⟨e, ie, en⟩ := law.est
  have ehh : v'.st.t - v.st.t = hh := by rw [law.time]; ring
  refine ⟨e, x, en, law.accepted, fun {g lam} hg hlam => ?_⟩
  obtain ⟨hK, -⟩ := C41_linear_mode hmem hc hT hj hlin hM hf hreg hn hr ht h hg
  obtain ⟨l, a, hv, hL, ha, hcv, hrun, e1, e2, e3, e4, e5, e6, -⟩ := eStep_accepted hc (hr.inv hc hn.inv) ht h
  obtain ⟨-, -, hJJ⟩ := C36_linear_mode hc hj hn hr hrun h
  obtain ⟨j1, -, -, j2⟩ := hJJ rfl
  obtain ⟨hLU', q1, q2, q3, -⟩ := C37_factors_current hc hlin hn hr hrun ht hv
  have hh' : hh = l.hAbs * c.dir := by rw [← ehh, e1]; ring
  have hgs : g (hh • ∑ j ∈ range c.T.n, c.T.E j • v'.st.Ks j) = linErr (R.tab ℝ (√2)) hh (fun i => g (v'.st.Ks i)) := by
    rw [map_smul, map_sum, hT]
    simp only [map_smul]
    rfl
  have hest : IsModeEstimate (R.tab ℝ (√2)) lam (v'.st.t - v.st.t) (fun i => g (v'.st.Ks i)) (g e) := by
    rw [ehh]
    unfold IsModeEstimate
    rw [← hT]
    split_ifs with hfil
    · obtain ⟨w, hLU, w1, w2, w3⟩ := ie.2 hfil
      rw [e6, q1] at w1
      cases w1
      have hreg' : Regular c hLU' v'.st.J := by
        rw [q3 hj, j1, j2]
        exact hreg _ hL.pos
      have w4 := congrArg g (w3 hreg')
      rw [q3 hj, j1, j2, ← hh', hM, map_sub, map_smul, hg, hgs, Complex.real_smul] at w4
      rw [w2, hM, ← hT] at *
      rw [← w4]
      push_cast
      ring
    · rw [ie.1 (by simpa using hfil), hgs, hT]
  refine ⟨hest, C118_estimate_bounded hR hK hest ?_⟩
  rw [ehh, hh', Complex.re_ofReal_mul, mul_assoc]
  exact mul_nonpos_of_nonneg_of_nonpos hL.pos.le hlam

end

/-- **C118.** The scalar test equation `y' = λ y` with `Re λ ≤ 0`: the matrices are regular, and in every history in linear mode the tested estimate is at most the stated
multiple of the solution before the step. -/
theorem C118_test_equation {c : ECfg ℝ ℂ} {R : ESTable} {b : ℚ} (hR : (R, b) ∈ estimateBounds) (hc : ECfgOK c)
    (hT : c.T = R.tab ℝ (√2)) (hj : c.jac = none) (hlin : LinSolves c) (hM : ∀ x, c.M x = x) {lam : ℂ}
    (hlam : c.dir * lam.re ≤ 0) (hf : ∀ t y, c.fn t y = some (lam * y)) {J0 : ℂ →ₗ[ℝ] ℂ} (hJ : ∀ x, J0 x = lam * x)
    {v0 v v' : ESolver ℝ ℂ} {t0 : ℝ} {y0 : ℂ} (hn : IsNew v0 t0 y0 (lam * y0) J0) (hr : EReach c v0 v) {fuel : ℕ}
    (ht : c.tb ≠ some v.st.t) (h : eStep c fuel v = some (.ok, v')) :
    ∃ e x, c.errNorm v.st.y v'.st.y e = .num x ∧ x < 1 ∧ ‖e‖ ≤ b * ‖v.st.y‖ := by
  have hmem : R ∈ [TRBDF2, TRX2, KC3I, KC4I, KC4Ia, Kv3I] := by
    simp only [estimateBounds, List.mem_cons, Prod.mk.injEq, List.not_mem_nil, or_false] at hR ⊢
    tauto
  have ok := stab_ok R hmem
  obtain ⟨e, x, e1, e2, e3⟩ := C118_linear_mode hR hc hT hj hlin hM (J0 := J0) (fun t y => by rw [hf, hJ]) (fun h hh b => by
    have hne : (1 : ℂ) - homC R.d * ((h * c.dir : ℝ) * lam) ≠ 0 := by
      refine norm_pos_iff.mp (lt_of_lt_of_le one_pos (den_bounds ok.d ?_).1)
      rw [Complex.re_ofReal_mul, mul_assoc]
      exact mul_nonpos_of_nonneg_of_nonpos hh.le hlam
    refine ⟨b / (1 - homC R.d * ((h * c.dir : ℝ) * lam)), ?_⟩
    have hd : c.T.d = homR R.d := by rw [hT]; rfl
    show c.M _ - (h * c.dir * c.T.d) • J0 _ = b
    rw [hM, hJ, hd, Complex.real_smul]
    have hk := div_mul_cancel₀ b hne
    have e : ((h * c.dir * homR R.d : ℝ) : ℂ) = ((h * c.dir : ℝ) : ℂ) * homC R.d := by push_cast; rfl
    rw [e]
    linear_combination hk) (by rw [hJ]; exact hn) hr ht h
  exact ⟨e, x, e1, e2, (e3 (g := LinearMap.id) (lam := lam) (fun x => hJ x) hlam).2⟩

/-- The hypotheses are met: `Kv3I` on `y' = (-1000 + i) y`. -/
example {v v' : ESolver ℝ ℂ} (hr : EReach (exStab Kv3I (-1000 + Complex.I))
    (newESolver 0 1 (-1000 + Complex.I) (mulC (-1000 + Complex.I)) (1 / 2) (fun _ => 0) 1 0) v) {fuel : ℕ}
    (ht : (exStab Kv3I (-1000 + Complex.I)).tb ≠ some v.st.t) (h : eStep (exStab Kv3I (-1000 + Complex.I)) fuel v = some (.ok, v')) :
    ∃ e x, (exStab Kv3I (-1000 + Complex.I)).errNorm v.st.y v'.st.y e = .num x ∧ x < 1 ∧ ‖e‖ ≤ 1 * ‖v.st.y‖ := by
  obtain ⟨e, x, e1, e2, e3⟩ := C118_test_equation (R := Kv3I) (b := 1) (by simp [estimateBounds]) (exStab_ok _ _) rfl rfl (exStab_solves _ _)
    (fun x => one_mul x) (lam := -1000 + Complex.I) (by simp [exStab]) (fun _ _ => rfl) (J0 := mulC (-1000 + Complex.I)) (fun _ => rfl) (t0 := 0) (y0 := 1)
    ⟨1 / 2, fun _ => 0, 1, 0, by norm_num, by rw [mul_one]⟩ hr ht h
  exact ⟨e, x, e1, e2, by simpa using e3⟩

/-! ## Concrete cases -/

/-- A stiff and oscillating component. -/
example : ∃ Ks, LinStages (KC4Ia.tab ℝ (√2)) (-1000 + 5 * Complex.I) (1 + Complex.I) (1 / 10) Ks ∧
    ‖linSecondary (KC4Ia.tab ℝ (√2)) (1 + Complex.I) (1 / 10) Ks‖ ≤ (1 + 1 / 10 ^ 20) * ‖1 + Complex.I‖ ∧
    ‖linErr (KC4Ia.tab ℝ (√2)) (1 / 10) Ks‖ ≤ 1 / 2 * ‖1 + Complex.I‖ := by
  have hz : (((1 / 10 : ℝ) : ℂ) * (-1000 + 5 * Complex.I)).re ≤ 0 := by
    rw [Complex.re_ofReal_mul]; norm_num
  obtain ⟨Ks, hK⟩ := exists_stages (stab_ok KC4Ia (by simp)) (y := 1 + Complex.I) hz
  refine ⟨Ks, hK, C118_secondary_A_stable (by simp) hK hz, ?_⟩
  have := C118_estimate_bounded (R := KC4Ia) (b := 1 / 2) (by simp [estimateBounds]) hK (e := linErr (KC4Ia.tab ℝ (√2)) (1 / 10) Ks) (by
    unfold IsModeEstimate
    rw [if_neg (by show ¬ (false = true); simp)]) hz
  push_cast at this
  exact this

end Extensisq
