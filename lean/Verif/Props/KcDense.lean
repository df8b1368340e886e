import Verif.Props.EsdirkDense

/-! # C76: the polynomial interpolants of KC3I, KC4I, KC4Ia and Kv3I -/

set_option linter.unusedSectionVars false
set_option maxRecDepth 100000

namespace Extensisq
open Finset

/-! ### Numbers `a + b √2` of small size -/

/-- A rational approximation of `√2`. -/
def root2 : ℚ := 14142135623730950488 / 10 ^ 19

theorem root2_near : |√2 - (root2 : ℝ)| ≤ 1 / 10 ^ 19 := by
  have h1 : (root2 : ℝ) ≤ √2 := by
    apply Real.le_sqrt_of_sq_le
    unfold root2; norm_num
  have h2 : √2 ≤ (root2 : ℝ) + 1 / 10 ^ 19 := by
    rw [Real.sqrt_le_left (by unfold root2; norm_num)]
    unfold root2; norm_num
  rw [abs_le]; constructor <;> linarith [show (0 : ℝ) ≤ 1 / 10 ^ 19 by positivity]

/-- Test for `|a + b √2| ≤ ε`. -/
def Q2.near (ε : ℚ) (x : Q2) : Bool := decide (|x.a + x.b * root2| + |x.b| * (1 / 10 ^ 19) ≤ ε)

theorem Q2.near_spec {ε : ℚ} {x : Q2} (h : x.near ε = true) : |x.val √2| ≤ (ε : ℝ) := by
  have h : |x.a + x.b * root2| + |x.b| * (1 / 10 ^ 19) ≤ ε := of_decide_eq_true h
  have h' : |(x.a : ℝ) + x.b * (root2 : ℝ)| + |(x.b : ℝ)| * (1 / 10 ^ 19) ≤ (ε : ℝ) := by
    have := (Rat.cast_le (K := ℝ)).mpr h
    push_cast at this
    exact this
  refine le_trans ?_ h'
  have : x.val √2 = ((x.a : ℝ) + x.b * (root2 : ℝ)) + x.b * (√2 - root2) := by unfold Q2.val; ring
  rw [this]
  refine (abs_add_le _ _).trans ?_
  gcongr
  rw [abs_mul]
  gcongr
  exact root2_near

/-! ### The interpolation formula -/

/-- Weight of stage `i` in the interpolant at the scaled time `x`. -/
def eWeight (K : Type*) [Field K] (r : K) (P : List (List Q2)) (i : ℕ) (x : K) : K :=
  ∑ j ∈ range (P.getD 0 []).length, x ^ (j + 1) * ((P.getD i []).getD j 0).val r

section
variable {K V : Type*} [Field K] [AddCommGroup V] [Module K V]

theorem eDenseQ_length (r : K) (P : List (List Q2)) (n : ℕ) (Ks : ℕ → V) :
    (eDenseQ r P n Ks).length = (P.getD 0 []).length := by simp [eDenseQ]

theorem eDenseQ_getD (r : K) (P : List (List Q2)) (n : ℕ) (Ks : ℕ → V) {j : ℕ} (hj : j < (P.getD 0 []).length) :
    (eDenseQ r P n Ks).getD j 0 = ∑ i ∈ range n, ((P.getD i []).getD j 0).val r • Ks i := by
  unfold eDenseQ
  rw [List.getD_eq_getElem _ _ (by simpa using hj)]
  simp

theorem horner_eDenseQ (tOld t : K) (yOld : V) (r : K) (P : List (List Q2)) (n : ℕ) (Ks : ℕ → V) (τ : K) :
    horner tOld t yOld (eDenseQ r P n Ks) τ = yOld + (t - tOld) •
      ∑ i ∈ range n, eWeight K r P i ((τ - tOld) / (t - tOld)) • Ks i := by
  rw [horner_eq, eDenseQ_length]
  congr 2
  rw [sum_congr rfl fun j hj => by rw [eDenseQ_getD r P n Ks (mem_range.mp hj), smul_sum]]
  rw [sum_comm]
  apply sum_congr rfl
  intro i _
  unfold eWeight
  rw [sum_smul]
  exact sum_congr rfl fun j _ => by rw [smul_smul]

end

/-- Row sum `sum_j w_j P_ij` as a number `a + b √2`. -/
def rowSum (P : List (List Q2)) (i : ℕ) (w : ℕ → Q2) : Q2 :=
  ∑ j ∈ range (P.getD 0 []).length, w j * (P.getD i []).getD j 0

theorem sqrt2_mul : √2 * √2 = (2 : ℝ) := Real.mul_self_sqrt (by norm_num)

theorem rowSum_val (P : List (List Q2)) (i : ℕ) (w : ℕ → Q2) :
    (rowSum P i w).val √2 = ∑ j ∈ range (P.getD 0 []).length, (w j).val √2 * ((P.getD i []).getD j 0).val √2 := by
  show Q2.hom √2 sqrt2_mul _ = _
  unfold rowSum
  rw [map_sum]
  exact sum_congr rfl fun j _ => map_mul (Q2.hom √2 sqrt2_mul) _ _

theorem Q2.val_sub (x y : Q2) : (x - y).val √2 = x.val √2 - y.val √2 := map_sub (Q2.hom √2 sqrt2_mul) x y

/-- The interpolant `P` of the method `R` ends at the solution of the step, up to `ε`. -/
def endsNear (R : ESTable) (P : List (List Q2)) (ε : ℚ) : Bool :=
  (List.range R.n).all fun i => (rowSum P i (fun _ => 1) - R.B.getD i 0).near ε

/-- The interpolant starts with the slope of the first stage, and ends with that of the last one up to `ε`. -/
def slopesNear (R : ESTable) (P : List (List Q2)) (ε : ℚ) : Bool :=
  ((List.range R.n).all fun i => (P.getD i []).getD 0 0 == if i = 0 then 1 else 0) &&
  (List.range R.n).all fun i =>
    (rowSum P i (fun j => ((j + 1 : ℕ) : Q2)) - if i + 1 = R.n then 1 else 0).near ε

section
variable {E : Type*} [NormedAddCommGroup E] [NormedSpace ℝ E]

theorem weights_close {n : ℕ} {a b : ℕ → ℝ} {ε : ℝ} (h : ∀ i < n, |a i - b i| ≤ ε) (Ks : ℕ → E) :
    ‖∑ i ∈ range n, a i • Ks i - ∑ i ∈ range n, b i • Ks i‖ ≤ ε * ∑ i ∈ range n, ‖Ks i‖ := by
  rw [← sum_sub_distrib, mul_sum]
  refine (norm_sum_le _ _).trans (sum_le_sum fun i hi => ?_)
  rw [← sub_smul, norm_smul]
  exact mul_le_mul_of_nonneg_right (h i (mem_range.mp hi)) (norm_nonneg _)

variable {c : ECfg ℝ E}

/-- The output object after a successful step. -/
theorem kcDense_eq (hc : ECfgOK c) {v v' : ESolver ℝ E} (hi : VInv c v) {fuel : ℕ}
    (ht : c.tb ≠ some v.st.t) (h : eStep c fuel v = some (.ok, v')) (r : ℝ) (n : ℕ) (P : List (List Q2)) :
    v'.st.t ≠ v.st.t ∧
    kcDense r n P v' = some ⟨v.st.t, v'.st.t, horner v.st.t v'.st.t v.st.y (eDenseQ r P n v'.st.Ks)⟩ := by
  obtain ⟨h1, h2, h3, h4⟩ := eStep_history hc hi ht h
  have hne : v'.st.t ≠ v.st.t := by
    intro e; rw [e, sub_self, zero_mul] at h4; exact lt_irrefl _ h4
  refine ⟨hne, ?_⟩
  unfold kcDense eDenseOutput
  rw [h1, h2, h3]
  dsimp only
  rw [if_neg hne]

/-- **C76**. Value of the dense output at the ends of the step. -/
theorem C76_ends {R : ESTable} {P : List (List Q2)} {ε : ℚ} (hP : endsNear R P ε = true) (hc : ECfgOK c)
    (hR : c.T = R.tab ℝ √2) (hT : ETabOK c.T) {v0 v v' : ESolver ℝ E} {t0 : ℝ} {y0 yp0 : E}
    {J0 : E →ₗ[ℝ] E} (hn : IsNew v0 t0 y0 yp0 J0) (hr : EReach c v0 v) {fuel : ℕ}
    (ht : c.tb ≠ some v.st.t) (h : eStep c fuel v = some (.ok, v')) :
    ∃ o, kcDense √2 R.n P v' = some o ∧ o.eval v.st.t = v.st.y ∧
      ‖o.eval v'.st.t - v'.st.y‖ ≤ (ε : ℝ) * (|v'.st.t - v.st.t| * ∑ i ∈ range R.n, ‖v'.st.Ks i‖) := by
  obtain ⟨hne, e⟩ := kcDense_eq hc (hr.inv hc hn.inv) ht h √2 R.n P
  obtain ⟨s1, -⟩ := C38_solution hc hT hn hr ht h
  have hne' : v'.st.t - v.st.t ≠ 0 := sub_ne_zero.mpr hne
  refine ⟨_, e, ?_, ?_⟩
  · dsimp only
    rw [horner_eDenseQ, sub_self, zero_div]
    simp [eWeight]
  · dsimp only
    rw [horner_eDenseQ, div_self hne', s1]
    rw [show c.T.n = R.n by rw [hR]; rfl]
    rw [add_sub_add_left_eq_sub, ← smul_sub, norm_smul, Real.norm_eq_abs]
    rw [mul_left_comm]
    refine mul_le_mul_of_nonneg_left (weights_close (fun i hi => ?_) _) (abs_nonneg _)
    have := List.all_eq_true.mp hP i (List.mem_range.mpr hi)
    have := Q2.near_spec this
    rw [Q2.val_sub, rowSum_val] at this
    have hw : eWeight ℝ √2 P i 1 = ∑ j ∈ range (P.getD 0 []).length,
        (1 : Q2).val √2 * ((P.getD i []).getD j 0).val √2 := by
      unfold eWeight
      apply sum_congr rfl
      intro j _
      rw [one_pow]
      congr 1
      simp [Q2.val, Q2.one_def]
    rw [hw, hR]
    exact this

/-- **C76**. Derivatives of the C1 interpolant at the ends of the step. -/
theorem C76_slopes {R : ESTable} {P : List (List Q2)} {ε : ℚ} (hP : slopesNear R P ε = true) (hc : ECfgOK c)
    (hR : c.T = R.tab ℝ √2) (hT : ETabOK c.T) {v0 v v' : ESolver ℝ E} {t0 : ℝ} {y0 yp0 : E}
    {J0 : E →ₗ[ℝ] E} (hn : IsNew v0 t0 y0 yp0 J0) (hr : EReach c v0 v) {fuel : ℕ}
    (ht : c.tb ≠ some v.st.t) (h : eStep c fuel v = some (.ok, v')) :
    ∃ o d, kcDense √2 R.n P v' = some o ∧ HasDerivAt o.eval v.st.yp v.st.t ∧ HasDerivAt o.eval d v'.st.t ∧
      ‖d - v'.st.yp‖ ≤ (ε : ℝ) * ∑ i ∈ range R.n, ‖v'.st.Ks i‖ := by
  obtain ⟨hne, e⟩ := kcDense_eq hc (hr.inv hc hn.inv) ht h √2 R.n P
  obtain ⟨-, -, s3, s4⟩ := C38_solution hc hT hn hr ht h
  have hne' : v'.st.t - v.st.t ≠ 0 := sub_ne_zero.mpr hne
  have hn2 : 2 ≤ R.n := by have := hT.n; rw [hR] at this; exact this
  have hP := Bool.and_eq_true_iff.mp hP
  have hlen : 0 < (P.getD 0 []).length := by
    by_contra h0
    have h0 : P.getD 0 [] = [] := List.length_eq_zero_iff.mp (by omega)
    have := List.all_eq_true.mp hP.1 0 (List.mem_range.mpr (by omega))
    rw [h0] at this
    revert this; decide
  refine ⟨_, _, e, ?_, horner_hasDerivAt _ _ hne _ _ _, ?_⟩
  · refine (horner_hasDerivAt _ _ hne _ _ _).congr_deriv ?_
    rw [sub_self, zero_div, eDenseQ_length, sum_eq_single 0]
    · rw [eDenseQ_getD _ _ _ _ hlen, sum_eq_single 0]
      · have := List.all_eq_true.mp hP.1 0 (List.mem_range.mpr (by omega))
        rw [if_pos rfl, beq_iff_eq] at this
        rw [this, s4]
        simp [Q2.val, Q2.one_def]
      · intro i hi hi0
        have := List.all_eq_true.mp hP.1 i (List.mem_range.mpr (mem_range.mp hi))
        rw [if_neg hi0, beq_iff_eq] at this
        rw [this]
        simp [Q2.val, Q2.zero_def]
      · intro hi; exact absurd (mem_range.mpr (by omega)) hi
    · intro j _ hj
      rw [zero_pow hj, mul_zero, zero_smul]
    · intro hi; exact absurd (mem_range.mpr hlen) hi
  · rw [div_self hne', eDenseQ_length]
    have hsum : ∑ j ∈ range (P.getD 0 []).length, (((j : ℝ) + 1) * 1 ^ j) • (eDenseQ √2 P R.n v'.st.Ks).getD j 0 =
        ∑ i ∈ range R.n, (rowSum P i (fun j => ((j + 1 : ℕ) : Q2))).val √2 • v'.st.Ks i := by
      rw [sum_congr rfl fun j hj => by rw [eDenseQ_getD _ P R.n v'.st.Ks (mem_range.mp hj), smul_sum]]
      rw [sum_comm]
      apply sum_congr rfl
      intro i _
      rw [rowSum_val, sum_smul]
      apply sum_congr rfl
      intro j _
      rw [smul_smul, one_pow, mul_one]
      congr 2
      simp only [Q2.val, Q2.natCast_def]
      push_cast; ring
    have hyp : v'.st.yp = ∑ i ∈ range R.n, (if i + 1 = R.n then (1 : ℝ) else 0) • v'.st.Ks i := by
      rw [sum_eq_single (R.n - 1), if_pos (by omega), one_smul, s3]
      · rw [hR]; rfl
      · intro i _ hi
        rw [if_neg (by omega), zero_smul]
      · intro hi; exact absurd (mem_range.mpr (by omega)) hi
    rw [hsum, hyp]
    refine weights_close (fun i hi => ?_) _
    have := List.all_eq_true.mp hP.2 i (List.mem_range.mpr hi)
    have := Q2.near_spec this
    rw [Q2.val_sub] at this
    convert this using 3
    split_ifs <;> simp [Q2.val, Q2.one_def, Q2.zero_def]

end

/-! ### The four methods -/

/-- The assertions of the constructor, as a test of the tables. -/
def etabTest (R : ESTable) : Bool :=
  decide (2 ≤ R.n) && ((List.range R.n).all fun s => s == 0 || (R.A.getD s []).getD s 0 == R.d) &&
  ((List.range R.n).all fun j => (R.A.getD (R.n - 1) []).getD j 0 == R.B.getD j 0) && R.C.getD (R.n - 1) 0 == 1

theorem etabTest_ok {R : ESTable} (h : etabTest R = true) : ETabOK (R.tab ℝ √2) := by
  unfold etabTest at h
  simp only [Bool.and_eq_true, decide_eq_true_eq, List.all_eq_true, List.mem_range, Bool.or_eq_true, beq_iff_eq] at h
  obtain ⟨⟨⟨h1, h2⟩, h3⟩, h4⟩ := h
  refine ⟨h1, fun s a b => ?_, fun j hj => ?_, ?_⟩
  · show ((R.A.getD s []).getD s 0).val √2 = R.d.val √2
    rw [(h2 s b).resolve_left (by omega)]
  · show ((R.A.getD (R.n - 1) []).getD j 0).val √2 = (R.B.getD j 0).val √2
    rw [h3 j hj]
  · show (R.C.getD (R.n - 1) 0).val √2 = 1
    rw [h4]; simp [Q2.val, Q2.one_def]

/-- All six ESDIRK methods pass these assertions. -/
theorem esdirk_tables_ok : ∀ R ∈ [TRBDF2, TRX2, KC3I, KC4I, KC4Ia, Kv3I], ETabOK (R.tab ℝ √2) := by
  have h : ([TRBDF2, TRX2, KC3I, KC4I, KC4Ia, Kv3I].all etabTest) = true := by decide +kernel
  exact fun R hR => etabTest_ok (List.all_eq_true.mp h R hR)

/-- **C76**. Both interpolants of KC3I end exactly at the solution; those of the other methods up to `2e-14`
(their coefficients are given as decimals or rounded quotients). -/
theorem C76_tables_ends :
    (endsNear KC3I KC3I.P0 0 && endsNear KC3I KC3I.P1 0 && endsNear KC4I KC4I.P0 (1 / 10 ^ 18)
      && endsNear KC4I KC4I.P1 (2 / 10 ^ 14) && endsNear KC4Ia KC4Ia.P0 (2 / 10 ^ 14)
      && endsNear KC4Ia KC4Ia.P1 (2 / 10 ^ 14) && endsNear Kv3I Kv3I.P0 (2 / 10 ^ 14)
      && endsNear Kv3I Kv3I.P1 (2 / 10 ^ 14)) = true := by decide +kernel

/-- **C76**. The interpolants 'C1' start with the right slope, and end with it: exactly for KC3I, up to `1e-13`
for the others. -/
theorem C76_tables_slopes :
    (slopesNear KC3I KC3I.P1 0 && slopesNear KC4I KC4I.P1 (1 / 10 ^ 13) && slopesNear KC4Ia KC4Ia.P1 (1 / 10 ^ 13)
      && slopesNear Kv3I Kv3I.P1 (1 / 10 ^ 13)) = true := by decide +kernel

/-- **C76**. The default interpolants 'C0' do not start with the slope of the first stage. -/
theorem C76_default_not_smooth :
    (slopesNear KC3I KC3I.P0 (1 / 100) || slopesNear KC4I KC4I.P0 (1 / 100) || slopesNear KC4Ia KC4Ia.P0 (1 / 100)
      || slopesNear Kv3I Kv3I.P0 (1 / 100)) = false := by decide +kernel

/-- The methods with an `interpolant` option. -/
def kcMethods : List ESTable := [KC3I, KC4I, KC4Ia, Kv3I]

theorem kc_ends : (kcMethods.all fun R => endsNear R R.P0 (2 / 10 ^ 14) && endsNear R R.P1 (2 / 10 ^ 14)) = true := by
  decide +kernel

theorem kc_slopes : (kcMethods.all fun R => slopesNear R R.P1 (1 / 10 ^ 13)) = true := by decide +kernel

theorem kcMethods_ok {R : ESTable} (h : R ∈ kcMethods) : ETabOK (R.tab ℝ √2) :=
  esdirk_tables_ok R (by
    simp only [kcMethods, List.mem_cons, List.not_mem_nil, or_false] at h ⊢
    rcases h with h | h | h | h <;> simp [h])

section
variable {E : Type*} [NormedAddCommGroup E] [NormedSpace ℝ E] {c : ECfg ℝ E}

/-- **C76**. For each of KC3I, KC4I, KC4Ia and Kv3I and both values of the option `interpolant` (any other value is
rejected): after every successful step the dense output takes the old solution at the old time, and the new
solution at the new time up to `2e-14 |h| sum |K_i|`. -/
theorem C76_values {R : ESTable} (hR : R ∈ kcMethods) {opt : String} {P : List (List Q2)}
    (hP : kcInterpolant R opt = some P) (hc : ECfgOK c) (hT : c.T = R.tab ℝ √2) {v0 v v' : ESolver ℝ E} {t0 : ℝ}
    {y0 yp0 : E} {J0 : E →ₗ[ℝ] E} (hn : IsNew v0 t0 y0 yp0 J0) (hr : EReach c v0 v) {fuel : ℕ}
    (ht : c.tb ≠ some v.st.t) (h : eStep c fuel v = some (.ok, v')) :
    (opt = "C0" ∨ opt = "C1") ∧ ∃ o, kcDense √2 R.n P v' = some o ∧ o.eval v.st.t = v.st.y ∧
      ‖o.eval v'.st.t - v'.st.y‖ ≤ 2 / 10 ^ 14 * (|v'.st.t - v.st.t| * ∑ i ∈ range R.n, ‖v'.st.Ks i‖) := by
  have hk := Bool.and_eq_true_iff.mp (List.all_eq_true.mp kc_ends R hR)
  have hT' : ETabOK c.T := by rw [hT]; exact kcMethods_ok hR
  have key : ∀ P, endsNear R P (2 / 10 ^ 14) = true → ∃ o, kcDense √2 R.n P v' = some o ∧ o.eval v.st.t = v.st.y ∧
      ‖o.eval v'.st.t - v'.st.y‖ ≤ 2 / 10 ^ 14 * (|v'.st.t - v.st.t| * ∑ i ∈ range R.n, ‖v'.st.Ks i‖) := by
    intro P hP
    have := C76_ends hP hc hT hT' hn hr ht h
    push_cast at this
    exact this
  unfold kcInterpolant at hP
  split_ifs at hP with h1 h2
  · cases hP; exact ⟨Or.inl h1, key _ hk.1⟩
  · cases hP; exact ⟨Or.inr h2, key _ hk.2⟩

/-- **C76**. With `interpolant='C1'` the derivative of the output is the stored derivative at the old time, and at
the new time it is the stored derivative up to `1e-13 sum |K_i|`. -/
theorem C76_C1 {R : ESTable} (hR : R ∈ kcMethods) {P : List (List Q2)}
    (hP : kcInterpolant R "C1" = some P) (hc : ECfgOK c) (hT : c.T = R.tab ℝ √2) {v0 v v' : ESolver ℝ E} {t0 : ℝ}
    {y0 yp0 : E} {J0 : E →ₗ[ℝ] E} (hn : IsNew v0 t0 y0 yp0 J0) (hr : EReach c v0 v) {fuel : ℕ}
    (ht : c.tb ≠ some v.st.t) (h : eStep c fuel v = some (.ok, v')) :
    ∃ o d, kcDense √2 R.n P v' = some o ∧ HasDerivAt o.eval v.st.yp v.st.t ∧ HasDerivAt o.eval d v'.st.t ∧
      ‖d - v'.st.yp‖ ≤ 1 / 10 ^ 13 * ∑ i ∈ range R.n, ‖v'.st.Ks i‖ := by
  have hk := List.all_eq_true.mp kc_slopes R hR
  cases hP
  have := C76_slopes hk hc hT (by rw [hT]; exact kcMethods_ok hR) hn hr ht h
  push_cast at this
  exact this

/-- **C76**. For KC3I both statements hold exactly. -/
theorem C76_KC3I_exact (hc : ECfgOK c) (hT : c.T = KC3I.tab ℝ √2) {v0 v v' : ESolver ℝ E} {t0 : ℝ}
    {y0 yp0 : E} {J0 : E →ₗ[ℝ] E} (hn : IsNew v0 t0 y0 yp0 J0) (hr : EReach c v0 v) {fuel : ℕ}
    (ht : c.tb ≠ some v.st.t) (h : eStep c fuel v = some (.ok, v')) :
    (∃ o, kcDense √2 KC3I.n KC3I.P0 v' = some o ∧ o.eval v.st.t = v.st.y ∧ o.eval v'.st.t = v'.st.y) ∧
    (∃ o, kcDense √2 KC3I.n KC3I.P1 v' = some o ∧ o.eval v.st.t = v.st.y ∧ o.eval v'.st.t = v'.st.y ∧
      HasDerivAt o.eval v.st.yp v.st.t ∧ HasDerivAt o.eval v'.st.yp v'.st.t) := by
  have h0 : endsNear KC3I KC3I.P0 0 = true := by decide +kernel
  have h1 : endsNear KC3I KC3I.P1 0 = true := by decide +kernel
  have h2 : slopesNear KC3I KC3I.P1 0 = true := by decide +kernel
  have hT' : ETabOK c.T := by rw [hT]; exact kcMethods_ok (by simp [kcMethods])
  have z : ∀ {a b : E} {x : ℝ}, ‖a - b‖ ≤ ((0 : ℚ) : ℝ) * x → a = b := by
    intro a b x hx
    rw [Rat.cast_zero, zero_mul] at hx
    exact sub_eq_zero.mp (norm_le_zero_iff.mp hx)
  obtain ⟨o, a1, a2, a3⟩ := C76_ends h0 hc hT hT' hn hr ht h
  obtain ⟨o', b1, b2, b3⟩ := C76_ends h1 hc hT hT' hn hr ht h
  obtain ⟨o'', d, c1, c2, c3, c4⟩ := C76_slopes h2 hc hT hT' hn hr ht h
  rw [b1] at c1; cases c1
  refine ⟨⟨o, a1, a2, z a3⟩, o', b1, b2, z b3, c2, ?_⟩
  rw [← z c4]; exact c3

end

end Extensisq
