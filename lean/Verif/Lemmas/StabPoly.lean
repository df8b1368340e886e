import Verif.Lemmas.PosCheck
import Verif.Props.RKStep
import Verif.Model.StiffConst
import Mathlib.Analysis.Complex.Basic
import Mathlib.Data.List.GetD

/-!
# Stability polynomials of explicit Runge-Kutta methods

The polynomial `R` with `y_new = R(h λ) y` for `y' = λ y`, computed from the coefficient table, and a check of `|R(z)| <= 1` or `> 1` on a sector by the positivity
check of `Lemmas/PosCheck.lean`. Proof machinery for `Props/StabilityRegion.lean`.
-/

set_option linter.unusedSectionVars false

namespace Extensisq
open Finset

/-! ## The polynomials -/

/-- Linear combination of polynomials. -/
def combP : List ℚ → List (List ℚ) → List ℚ
  | a :: row, p :: ps => addP (smulP a p) (combP row ps)
  | _, _ => []

/-- The stages as polynomials of `z = h λ`, relative to `y`. -/
def stageP (R : RKTable) : ℕ → List (List ℚ)
  | 0 => []
  | i + 1 => stageP R i ++ [1 :: combP (R.A.getD i []) (stageP R i)]

/-- The stability polynomial. -/
def stabP (R : RKTable) : List ℚ := 1 :: combP R.B (stageP R R.s)

section
variable {K : Type*} [Field K] [CharZero K]

theorem evP_comb (row : List ℚ) (ps : List (List ℚ)) (z : K) :
    evP (combP row ps) z = ∑ j ∈ range ps.length, ((row.getD j 0 : ℚ) : K) * evP (ps.getD j []) z := by
  induction row generalizing ps with
  | nil =>
    simp [combP, evP]
  | cons a row ih =>
    cases ps with
    | nil => simp [combP, evP]
    | cons p ps =>
      rw [combP, evP_add, evP_smul, ih, List.length_cons, sum_range_succ']
      simp [add_comm]

theorem stageP_length (R : RKTable) (i : ℕ) : (stageP R i).length = i := by
  induction i with
  | zero => rfl
  | succ i ih => simp [stageP, ih]

theorem stageP_getD (R : RKTable) {i j : ℕ} (h : j < i) : (stageP R i).getD j [] = 1 :: combP (R.A.getD j []) (stageP R j) := by
  induction i with
  | zero => omega
  | succ i ih =>
    rw [stageP]
    rcases Nat.lt_succ_iff_lt_or_eq.mp h with h' | rfl
    · rw [List.getD_append _ _ _ _ (by rw [stageP_length]; exact h'), ih h']
    · rw [List.getD_append_right _ _ _ _ (by rw [stageP_length])]
      simp [stageP_length]

end

/-! ## One step on an eigenvector -/

section
variable {E : Type*} [NormedAddCommGroup E] [NormedSpace ℂ E]

/-- One step of the method on `y' = J y`, from an eigenvector of `J`, multiplies it by the stability polynomial. -/
theorem rk_mode {R : RKTable} {J : E →ₗ[ℂ] E} {lam : ℂ} {t h : ℝ} {y y' : E} {k : ℕ → E} (hJ : J y = lam • y)
    (hk : IsRKStep (R.tab ℝ) (fun _ x => J x) t y h k y') : y' = (evP (stabP R) ((h : ℂ) * lam)) • y := by
  set z : ℂ := (h : ℂ) * lam with hz
  have hre : ∀ (a : ℝ) (v : E), a • v = (a : ℂ) • v := fun a v => (Complex.coe_smul a v).symm
  have comb : ∀ (row : List ℚ) (m : ℕ) (S : ℕ → List ℚ), (∀ j, j < m → k j = (lam * evP (S j) z) • y) →
      y + h • ∑ j ∈ range m, (((row.getD j 0 : ℚ) : ℝ)) • k j = (1 + z * ∑ j ∈ range m, ((row.getD j 0 : ℚ) : ℂ) * evP (S j) z) • y := by
    intro row m S hS
    have e : ∑ j ∈ range m, (((row.getD j 0 : ℚ) : ℝ)) • k j = (lam * ∑ j ∈ range m, ((row.getD j 0 : ℚ) : ℂ) * evP (S j) z) • y := by
      rw [mul_sum, sum_smul]
      refine sum_congr rfl fun j hj => ?_
      rw [hS j (mem_range.mp hj), hre, smul_smul]
      congr 1
      push_cast
      ring
    rw [e, hre, smul_smul, add_smul, one_smul, hz, mul_assoc]
  have hs : ∀ i, i < R.s → k i = (lam * evP ((stageP R R.s).getD i []) z) • y := by
    intro i
    induction i using Nat.strong_induction_on with
    | _ i ih =>
      intro hi
      have h1 := hk.stage i hi
      have h2 := comb (R.A.getD i []) i (fun j => (stageP R R.s).getD j []) (fun j hj => ih j hj (hj.trans hi))
      have h3 : k i = J (y + h • ∑ j ∈ range i, (((R.A.getD i []).getD j 0 : ℚ) : ℝ) • k j) := h1
      rw [h3, h2, map_smul, hJ, smul_smul, stageP_getD R hi, evP, evP_comb, stageP_length, mul_comm]
      congr 2
      push_cast
      congr 2
      refine sum_congr rfl fun j hj => ?_
      rw [stageP_getD R (mem_range.mp hj), stageP_getD R ((mem_range.mp hj).trans hi)]
  have h4 : y' = y + h • ∑ i ∈ range R.s, ((R.B.getD i 0 : ℚ) : ℝ) • k i := hk.sol
  rw [h4, comb R.B R.s (fun j => (stageP R R.s).getD j []) hs, stabP, evP, evP_comb, stageP_length]
  push_cast
  rfl

end

/-! ## The modulus on a circle -/

/-- `R(z) = α + β z` for `z² = -2 r c z - r²`, with polynomials `α`, `β` in `(r, c)`. -/
def quadP : List ℚ → List (List ℚ) × List (List ℚ)
  | [] => ([], [])
  | a :: p => (add2 [[a]] ([] :: [] :: smul2 (-1) (quadP p).2), add2 (quadP p).1 ([] :: (quadP p).2.map (mulP [0, -2])))

/-- `|α + β z|²` for `z = -r (c ± i s)`. -/
def normP (q : List (List ℚ) × List (List ℚ)) : List (List ℚ) :=
  add2 (mul2 q.1 q.1) (add2 ([] :: (mul2 q.1 q.2).map (mulP [0, -2])) ([] :: [] :: mul2 q.2 q.2))

theorem ev2_quad (p : List ℚ) {z : ℂ} {r c : ℝ} (hz : z ^ 2 = -(2 * r * c) * z - r ^ 2) :
    evP p z = ((ev2 (quadP p).1 r c : ℝ) : ℂ) + ((ev2 (quadP p).2 r c : ℝ) : ℂ) * z := by
  induction p with
  | nil => simp [quadP, evP, ev2]
  | cons a p ih =>
    simp only [quadP, evP, ev2_add, ev2, ev2_smul, ev2_map_mul, ih]
    push_cast
    linear_combination ((ev2 (quadP p).2 r c : ℝ) : ℂ) * hz

theorem ev2_norm (p : List ℚ) {z : ℂ} {r c : ℝ} (h1 : z.re = -(r * c)) (h2 : z.re ^ 2 + z.im ^ 2 = r ^ 2) :
    ‖evP p z‖ ^ 2 = ev2 (normP (quadP p)) r c := by
  have hz : z ^ 2 = -(2 * r * c) * z - r ^ 2 := by
    apply Complex.ext
    · simp [pow_two]
      linear_combination 2 * z.re * h1 - h2
    · simp [pow_two]
      rw [h1]
      ring
  rw [ev2_quad p hz, ← Complex.normSq_eq_norm_sq, Complex.normSq_apply]
  simp only [normP, ev2_add, ev2_mul, ev2, ev2_map_mul, evP, Complex.add_re, Complex.add_im, Complex.mul_re, Complex.mul_im, Complex.ofReal_re, Complex.ofReal_im]
  push_cast
  generalize ev2 (quadP p).1 r c = α
  generalize ev2 (quadP p).2 r c = β
  linear_combination 2 * α * β * h1 + β ^ 2 * h2

/-- The cosine of points of the sector. -/
theorem sector_cos {z : ℂ} {τ c0 : ℝ} (hτ : c0 ^ 2 * (1 + τ ^ 2) ≤ 1) (h1 : z.re ≤ 0) (h2 : |z.im| ≤ τ * |z.re|) (hz : z ≠ 0) :
    c0 ≤ -z.re / ‖z‖ ∧ -z.re / ‖z‖ ≤ 1 ∧ z.re = -(‖z‖ * (-z.re / ‖z‖)) := by
  have hn : 0 < ‖z‖ := norm_pos_iff.mpr hz
  have hsq : z.re ^ 2 + z.im ^ 2 = ‖z‖ ^ 2 := by
    rw [← Complex.normSq_eq_norm_sq, Complex.normSq_apply]
    ring
  refine ⟨?_, ?_, by field_simp⟩
  · rw [le_div_iff₀ hn]
    have a1 : z.im ^ 2 ≤ τ ^ 2 * z.re ^ 2 := by
      have := pow_le_pow_left₀ (abs_nonneg _) h2 2
      rwa [mul_pow, sq_abs, sq_abs] at this
    have a2 : (c0 * ‖z‖) ^ 2 ≤ (-z.re) ^ 2 := by
      have b1 : c0 ^ 2 * ‖z‖ ^ 2 ≤ c0 ^ 2 * ((1 + τ ^ 2) * z.re ^ 2) := mul_le_mul_of_nonneg_left (by linarith) (sq_nonneg _)
      have b2 := mul_le_mul_of_nonneg_right hτ (sq_nonneg z.re)
      calc (c0 * ‖z‖) ^ 2 = c0 ^ 2 * ‖z‖ ^ 2 := by ring
        _ ≤ (-z.re) ^ 2 := by linarith
    exact abs_le_of_sq_le_sq' a2 (by linarith) |>.2
  · rw [div_le_one hn]
    have := Complex.abs_re_le_norm z
    rw [abs_of_nonpos h1] at this
    exact this

theorem evP_zero {p : List ℚ} (h : p.all (fun x => decide (x = 0)) = true) (x : ℝ) : evP p x = 0 := by
  induction p with
  | nil => rfl
  | cons a p ih =>
    simp only [List.all_cons, Bool.and_eq_true, decide_eq_true_eq] at h
    simp [evP, h.1, ih h.2]

theorem evP_abs (d : List ℚ) {z : ℂ} {ρ : ℝ} (hz : ‖z‖ ≤ ρ) : ‖evP d z‖ ≤ evP (d.map (|·|)) ρ := by
  induction d with
  | nil => simp [evP]
  | cons a d ih =>
    simp only [List.map_cons, evP]
    refine (norm_add_le _ _).trans (add_le_add ?_ ?_)
    · rw [Complex.norm_ratCast]
      push_cast
      exact le_rfl
    · rw [norm_mul]
      exact mul_le_mul hz ih (norm_nonneg _) ((norm_nonneg z).trans hz)

theorem evP_ratCast (p : List ℚ) (x : ℚ) : ((evP p x : ℚ) : ℝ) = evP p (x : ℝ) := by
  induction p with
  | nil => simp [evP]
  | cons a p ih =>
    simp only [evP]
    push_cast
    rw [ih]

/-- The polynomials have the same value at zero, and differ by at most `ε |z|` for `|z| <= ρ`. -/
def nearP (p q : List ℚ) (ρ ε : ℚ) : Bool :=
  decide ((addP p (smulP (-1) q)).headD 0 = 0) && decide (evP ((addP p (smulP (-1) q)).tail.map (|·|)) ρ ≤ ε)

theorem nearP_sound {p q : List ℚ} {ρ ε : ℚ} (h : nearP p q ρ ε = true) {z : ℂ} (hz : ‖z‖ ≤ ρ) : ‖evP p z - evP q z‖ ≤ ε * ‖z‖ := by
  simp only [nearP, Bool.and_eq_true, decide_eq_true_eq] at h
  obtain ⟨h1, h2⟩ := h
  have e : evP p z - evP q z = evP (addP p (smulP (-1) q)) z := by
    rw [evP_add, evP_smul]
    push_cast
    ring
  have h3 : evP ((addP p (smulP (-1) q)).tail.map (|·|)) (ρ : ℝ) ≤ ε := by
    rw [← evP_ratCast]
    exact_mod_cast h2
  rw [e]
  cases hd : addP p (smulP (-1) q) with
  | nil =>
    rw [hd] at h3
    simp only [List.tail_nil, List.map_nil, evP] at h3
    simp only [evP, norm_zero]
    exact mul_nonneg h3 (norm_nonneg z)
  | cons a d =>
    rw [hd] at h1 h3
    simp only [List.headD_cons] at h1
    simp only [List.tail_cons] at h3
    rw [evP, h1, Rat.cast_zero, zero_add, norm_mul, mul_comm]
    exact mul_le_mul_of_nonneg_right ((evP_abs d hz).trans h3) (norm_nonneg z)

/-! ## The checks -/

/-- `quadP` and `normP` with integers. -/
noncomputable def quadZ : List ℤ → List (List ℤ) × List (List ℤ)
  | [] => ([], [])
  | a :: p => (add2Z [[a]] ([] :: [] :: smul2Z (-1) (quadZ p).2), add2Z (quadZ p).1 ([] :: mapR (mulPZ [0, -2]) (quadZ p).2))

noncomputable def normZ (q : List (List ℤ) × List (List ℤ)) : List (List ℤ) :=
  add2Z (mul2Z q.1 q.1) (add2Z ([] :: mapR (mulPZ [0, -2]) (mul2Z q.1 q.2)) ([] :: [] :: mul2Z q.2 q.2))

theorem quadZ_eq (p : List ℤ) : quadP (castP p) = (cast2 (quadZ p).1, cast2 (quadZ p).2) := by
  induction p with
  | nil => rfl
  | cons a p ih =>
    have e : castP (a :: p) = (a : ℚ) :: castP p := rfl
    have e1 : cast2 [[a]] = [[(a : ℚ)]] := rfl
    have e2 : ∀ l : List (List ℤ), cast2 ([] :: l) = [] :: cast2 l := fun l => rfl
    have e3 : castP [0, -2] = [0, -2] := by simp [castP]
    rw [e, quadP, ih, quadZ]
    simp only [cast2_add, e1, e2, cast2_smul, mapR_eq, cast2_map_mul, e3]
    push_cast
    rfl

theorem normZ_eq (p : List ℤ) : normP (quadP (castP p)) = cast2 (normZ (quadZ p)) := by
  have e2 : ∀ l : List (List ℤ), cast2 ([] :: l) = [] :: cast2 l := fun l => rfl
  have e3 : castP [0, -2] = [0, -2] := by simp [castP]
  rw [quadZ_eq, normP, normZ]
  simp only [cast2_add, e2, cast2_mul, mapR_eq, cast2_map_mul, e3]

/-- The polynomial with integer coefficients `qZ`, divided by `N`. -/
def ratP (N : ℤ) (qZ : List ℤ) : List ℚ := smulP (1 / N) (castP qZ)

theorem norm_ratP {N : ℤ} (hN : 0 < N) (qZ : List ℤ) {z : ℂ} {r c : ℝ} (h1 : z.re = -(r * c)) (h2 : z.re ^ 2 + z.im ^ 2 = r ^ 2) :
    (N : ℝ) ^ 2 * ‖evP (ratP N qZ) z‖ ^ 2 = ev2 (cast2 (normZ (quadZ qZ))) r c := by
  have hN' : (0 : ℝ) < N := by exact_mod_cast hN
  rw [← normZ_eq, ← ev2_norm (castP qZ) h1 h2, ratP, evP_smul, norm_mul, mul_pow, Complex.norm_ratCast]
  push_cast
  rw [abs_of_pos (by positivity)]
  field_simp

/-- The cosine `-Re z / |z|` of points of the sector `|Im z| <= τ |Re z|` is in the interval. -/
def cosOK (τ : ℚ) (J : Iv) : Bool :=
  Nat.ble 1 J.q && (decide (J.a + J.w = J.q) && decide (((J.a : ℚ) / J.q) ^ 2 * (1 + τ ^ 2) ≤ 1))

theorem cosOK_mem {τ : ℚ} {J : Iv} (h : cosOK τ J = true) {z : ℂ} (h1 : z.re ≤ 0) (h2 : |z.im| ≤ τ * |z.re|) (hz : z ≠ 0) :
    J.Mem (-z.re / ‖z‖) ∧ z.re = -(‖z‖ * (-z.re / ‖z‖)) := by
  simp only [cosOK, Bool.and_eq_true, decide_eq_true_eq] at h
  obtain ⟨a, b, c⟩ := h
  have a' : (0 : ℝ) < J.q := by exact_mod_cast Nat.le_of_ble_eq_true a
  have c' : ((J.a : ℝ) / J.q) ^ 2 * (1 + (τ : ℝ) ^ 2) ≤ 1 := by
    have := (Rat.cast_le (K := ℝ)).mpr c
    push_cast at this
    exact this
  have b' : (J.a : ℝ) + J.w = J.q := by exact_mod_cast b
  obtain ⟨q1, q2, q3⟩ := sector_cos c' h1 h2 hz
  rw [div_le_iff₀ a'] at q1
  refine ⟨⟨by linarith, ?_⟩, q3⟩
  rw [b']
  have := mul_le_mul_of_nonneg_left q2 a'.le
  linarith

/-- The check of `|R| <= 1` for `|z| <= (a + w) / q`, with a rounded polynomial. -/
noncomputable def innerCheck (p : List ℚ) (N : ℤ) (qZ : List ℤ) (τ : ℚ) (I J : Iv) (e d : ℤ) (n m : ℕ) (S : Split) : Bool :=
  nearP p (ratP N qZ) ((I.w : ℚ) / I.q) ((e : ℚ) / d) && (posZ N && (posZ d && (decide (0 ≤ e) && (decide ((e : ℚ) / d * ((I.w : ℚ) / I.q) ≤ 1) && (cosOK τ J &&
    (Nat.ble 1 I.q && (decide (I.a = 0) &&
    (((add2Z [[N ^ 2]] (smul2Z (-1) (normZ (quadZ qZ)))).headD []).all (fun x => decide (x = 0)) &&
      posRect (add2Z [[-3 * e * N ^ 2]] (smul2Z d (add2Z [[N ^ 2]] (smul2Z (-1) (normZ (quadZ qZ)))).tail)) I J n m S))))))))

theorem evP_zeroZ {p : List ℤ} (h : p.all (fun x => decide (x = 0)) = true) (x : ℝ) : evP (castP p) x = 0 := by
  induction p with
  | nil => rfl
  | cons a p ih =>
    have e : castP (a :: p) = (a : ℚ) :: castP p := rfl
    simp only [List.all_cons, Bool.and_eq_true, decide_eq_true_eq] at h
    rw [e, evP, h.1, ih h.2]
    simp

theorem inner_sound {p : List ℚ} {N : ℤ} {qZ : List ℤ} {τ : ℚ} {I J : Iv} {e d : ℤ} {n m : ℕ} {S : Split}
    (h : innerCheck p N qZ τ I J e d n m S = true) {z : ℂ}
    (h1 : z.re ≤ 0) (h2 : |z.im| ≤ τ * |z.re|) (h3 : ‖z‖ ≤ ((I.w : ℚ) / I.q : ℚ)) (h0 : p.headD 0 = 1) : ‖evP p z‖ ≤ 1 := by
  by_cases hz : z = 0
  · subst hz
    cases p with
    | nil => simp [evP]
    | cons a p =>
      simp only [List.headD_cons] at h0
      simp [evP, h0]
  simp only [innerCheck, Bool.and_eq_true, decide_eq_true_eq] at h
  obtain ⟨hnear, hN, hd, he0, he1, a, hI, hI0, b, c⟩ := h
  have hN := posZ_pos hN
  have hd := posZ_pos hd
  have hI : 0 < I.q := Nat.le_of_ble_eq_true hI
  set ε : ℚ := (e : ℚ) / d with hε
  have hnear := nearP_sound hnear h3
  have hN' : (0 : ℝ) < N := by exact_mod_cast hN
  have hd' : (0 : ℝ) < d := by exact_mod_cast hd
  have he' : (0 : ℝ) ≤ e := by exact_mod_cast he0
  have hI' : (0 : ℝ) < I.q := by exact_mod_cast hI
  have hεr : (ε : ℝ) = e / d := by rw [hε]; push_cast; rfl
  have hε0 : (0 : ℝ) ≤ ε := by rw [hεr]; positivity
  have he1 : (ε : ℝ) * ((I.w : ℚ) / I.q : ℚ) ≤ 1 := by exact_mod_cast he1
  obtain ⟨q1, q3⟩ := cosOK_mem a h1 h2 hz
  have hsq : z.re ^ 2 + z.im ^ 2 = ‖z‖ ^ 2 := by
    rw [← Complex.normSq_eq_norm_sq, Complex.normSq_apply]
    ring
  have hQ := norm_ratP hN qZ q3 hsq
  set q := ratP N qZ with hq
  set D := add2Z [[N ^ 2]] (smul2Z (-1) (normZ (quadZ qZ))) with hD
  have hmem : I.Mem ‖z‖ := by
    push_cast at h3
    rw [le_div_iff₀ hI'] at h3
    refine ⟨?_, ?_⟩
    · rw [hI0]
      push_cast
      positivity
    · rw [hI0]
      push_cast
      linarith
  have hpos := posRect_sound c hmem q1
  rw [cast2_add, cast2_smul, ev2_add, ev2_smul] at hpos
  have f1 : ev2 (cast2 [[-3 * e * N ^ 2]]) ‖z‖ (-z.re / ‖z‖) = -3 * e * (N : ℝ) ^ 2 := by
    simp [cast2, castP, ev2, evP]
  have f2 : ev2 (cast2 [[N ^ 2]]) ‖z‖ (-z.re / ‖z‖) = (N : ℝ) ^ 2 := by
    simp [cast2, castP, ev2, evP]
  rw [f1] at hpos
  push_cast at hpos
  have e1 : ev2 (cast2 D) ‖z‖ (-z.re / ‖z‖) = (N : ℝ) ^ 2 * (1 - ‖evP q z‖ ^ 2) := by
    rw [hD, cast2_add, cast2_smul, ev2_add, ev2_smul, f2, ← hQ]
    push_cast
    ring
  have e2 : ev2 (cast2 D) ‖z‖ (-z.re / ‖z‖) = ‖z‖ * ev2 (cast2 D.tail) ‖z‖ (-z.re / ‖z‖) := by
    cases hDD : D with
    | nil => simp [ev2, cast2]
    | cons q M =>
      rw [hDD] at b
      simp only [List.headD_cons] at b
      have : cast2 (q :: M) = castP q :: cast2 M := rfl
      rw [this, ev2, evP_zeroZ b, zero_add, List.tail_cons]
  have hn : 0 < ‖z‖ := norm_pos_iff.mpr hz
  have e3 : 3 * (ε * ‖z‖) ≤ 1 - ‖evP q z‖ ^ 2 := by
    have g1 : 3 * (e : ℝ) * N ^ 2 ≤ d * ev2 (cast2 D.tail) ‖z‖ (-z.re / ‖z‖) := by linarith
    have g2 := mul_le_mul_of_nonneg_left g1 hn.le
    have g3 : ‖z‖ * (d * ev2 (cast2 D.tail) ‖z‖ (-z.re / ‖z‖)) = d * ((N : ℝ) ^ 2 * (1 - ‖evP q z‖ ^ 2)) := by
      rw [← e1, e2]
      ring
    rw [g3] at g2
    have hP : (0 : ℝ) < d * N ^ 2 := by positivity
    rw [hεr]
    refine le_of_mul_le_mul_left ?_ hP
    calc (d : ℝ) * N ^ 2 * (3 * (e / d * ‖z‖)) = ‖z‖ * (3 * e * N ^ 2) := by field_simp
      _ ≤ d * ((N : ℝ) ^ 2 * (1 - ‖evP q z‖ ^ 2)) := g2
      _ = d * N ^ 2 * (1 - ‖evP q z‖ ^ 2) := by ring
  have e4 : ‖evP p z‖ ≤ ‖evP q z‖ + ε * ‖z‖ := by
    have := norm_sub_norm_le (evP p z) (evP q z)
    linarith
  set η := (ε : ℝ) * ‖z‖ with hη
  have hη0 : 0 ≤ η := by positivity
  have hη1 : η ≤ 1 := (mul_le_mul_of_nonneg_left h3 hε0).trans he1
  have hq0 := norm_nonneg (evP q z)
  have hq1 : ‖evP q z‖ ≤ 1 := (sq_le_one_iff₀ hq0).mp (by linarith)
  refine (sq_le_one_iff₀ (norm_nonneg _)).mp ?_
  calc ‖evP p z‖ ^ 2 ≤ (‖evP q z‖ + η) ^ 2 := pow_le_pow_left₀ (norm_nonneg _) e4 2
    _ = ‖evP q z‖ ^ 2 + 2 * (η * ‖evP q z‖) + η * η := by ring
    _ ≤ ‖evP q z‖ ^ 2 + 2 * (η * 1) + η * 1 := by
      have := mul_le_mul_of_nonneg_left hq1 hη0
      have := mul_le_mul_of_nonneg_left hη1 hη0
      linarith
    _ ≤ 1 := by linarith

/-- Without leading zero rows. -/
def trim2 (M : List (List ℤ)) : List (List ℤ) := M.dropWhile fun p => p.all fun x => decide (x = 0)

theorem trim2_pos {M : List (List ℤ)} {r c : ℝ} (hr : 0 < r) (h : 0 < ev2 (cast2 (trim2 M)) r c) : 0 < ev2 (cast2 M) r c := by
  induction M with
  | nil => exact h
  | cons p M ih =>
    rw [trim2, List.dropWhile_cons] at h
    split at h
    · rename_i hp
      have : cast2 (p :: M) = castP p :: cast2 M := rfl
      rw [this, ev2, evP_zeroZ hp, zero_add]
      exact mul_pos hr (ih h)
    · exact h

/-- The difference of the polynomial and the rounded one is at most `η` if `a / q <= 1/|z|`. -/
def farP (p q : List ℚ) (I : Iv) (ε η : ℚ) : Bool :=
  (decide (p = q) && decide (0 ≤ η)) || (Nat.ble 1 I.a && (nearP p q ((I.q : ℚ) / I.a) ε && (decide (0 ≤ ε) && decide (ε * ((I.q : ℚ) / I.a) ≤ η))))

theorem farP_sound {p q : List ℚ} {I : Iv} {ε η : ℚ} (h : farP p q I ε η = true) {z : ℂ} (hz : ‖z‖ * I.a ≤ I.q) : ‖evP p z - evP q z‖ ≤ η := by
  rw [farP, Bool.or_eq_true] at h
  rcases h with h | h
  · simp only [Bool.and_eq_true, decide_eq_true_eq] at h
    rw [h.1, sub_self, norm_zero]
    exact_mod_cast h.2
  · simp only [Bool.and_eq_true, decide_eq_true_eq] at h
    obtain ⟨a, b, c, d⟩ := h
    have a' : (0 : ℝ) < I.a := by exact_mod_cast Nat.le_of_ble_eq_true a
    have c' : (0 : ℝ) ≤ ε := by exact_mod_cast c
    have hz' : ‖z‖ ≤ ((I.q : ℚ) / I.a : ℚ) := by
      push_cast
      exact (le_div_iff₀ a').mpr hz
    have h1 := nearP_sound b hz'
    have h2 : (ε : ℝ) * ((I.q : ℚ) / I.a : ℚ) ≤ η := by exact_mod_cast d
    exact h1.trans ((mul_le_mul_of_nonneg_left hz' c').trans h2)

/-- The check of `|R| > 1`, for `1/|z|` in an interval. -/
noncomputable def outerCheck (p : List ℚ) (N : ℤ) (qZ : List ℤ) (τ : ℚ) (I J : Iv) (ε : ℚ) (e d : ℤ) (n m : ℕ) (S : Split) : Bool :=
  farP p (ratP N qZ) I ε ((e : ℚ) / d) && (posZ N && (posZ d && (decide (0 ≤ e) && (decide (e ≤ d) && (cosOK τ J &&
    posRect (trim2 (add2Z [[-(d + 3 * e) * N ^ 2]] (smul2Z d (normZ (quadZ qZ)))).reverse) I J n m S)))))

theorem cast2_reverse (M : List (List ℤ)) : cast2 M.reverse = (cast2 M).reverse := by simp [cast2]

theorem outer_sound {p : List ℚ} {N : ℤ} {qZ : List ℤ} {τ : ℚ} {I J : Iv} {ε : ℚ} {e d : ℤ} {n m : ℕ} {S : Split}
    (h : outerCheck p N qZ τ I J ε e d n m S = true) {z : ℂ} (h1 : z.re ≤ 0) (h2 : |z.im| ≤ τ * |z.re|)
    (h3 : ‖z‖ * I.a ≤ I.q) (h4 : (I.q : ℝ) ≤ ‖z‖ * (I.a + I.w)) (hz : z ≠ 0) : 1 < ‖evP p z‖ := by
  simp only [outerCheck, Bool.and_eq_true, decide_eq_true_eq] at h
  obtain ⟨hfar, hN, hd, he0, he1, a, c⟩ := h
  have hn : 0 < ‖z‖ := norm_pos_iff.mpr hz
  have hN := posZ_pos hN
  have hd := posZ_pos hd
  have hfar := farP_sound hfar h3
  have hN' : (0 : ℝ) < N := by exact_mod_cast hN
  have hd' : (0 : ℝ) < d := by exact_mod_cast hd
  have he' : (0 : ℝ) ≤ e := by exact_mod_cast he0
  have he1' : (e : ℝ) ≤ d := by exact_mod_cast he1
  set η : ℝ := (e : ℝ) / d with hη
  have hη0 : 0 ≤ η := by positivity
  have hη1 : η ≤ 1 := (div_le_one hd').mpr he1'
  have hfar : ‖evP p z - evP (ratP N qZ) z‖ ≤ η := by
    push_cast at hfar
    exact hfar
  obtain ⟨q1, q3⟩ := cosOK_mem a h1 h2 hz
  have hsq : z.re ^ 2 + z.im ^ 2 = ‖z‖ ^ 2 := by
    rw [← Complex.normSq_eq_norm_sq, Complex.normSq_apply]
    ring
  have hQ := norm_ratP hN qZ q3 hsq
  set q := ratP N qZ with hq
  set D := add2Z [[-(d + 3 * e) * N ^ 2]] (smul2Z d (normZ (quadZ qZ))) with hD
  have hmem : I.Mem ‖z‖⁻¹ := by
    refine ⟨?_, ?_⟩
    · rw [← div_eq_mul_inv, le_div_iff₀ hn]
      linarith
    · rw [← div_eq_mul_inv, div_le_iff₀ hn]
      linarith
  have hpos := trim2_pos (inv_pos.mpr hn) (posRect_sound c hmem q1)
  rw [cast2_reverse] at hpos
  have f1 : ev2 (cast2 [[-(d + 3 * e) * N ^ 2]]) ‖z‖ (-z.re / ‖z‖) = -(d + 3 * e) * (N : ℝ) ^ 2 := by
    simp [cast2, castP, ev2, evP]
  have e1 : ev2 (cast2 D) ‖z‖ (-z.re / ‖z‖) = d * N ^ 2 * (‖evP q z‖ ^ 2 - 1 - 3 * η) := by
    rw [hD, cast2_add, cast2_smul, ev2_add, ev2_smul, f1, ← hQ, hη]
    push_cast
    field_simp
    ring
  have e2 := ev2_reverse (cast2 D) hn.ne' (-z.re / ‖z‖)
  rw [e1] at e2
  have e3 : 0 < ‖z‖⁻¹ ^ (cast2 D).length * (d * N ^ 2 * (‖evP q z‖ ^ 2 - 1 - 3 * η)) := by
    rw [← e2]
    positivity
  have e4 : 0 < ‖evP q z‖ ^ 2 - 1 - 3 * η := (mul_pos_iff_of_pos_left (by positivity)).mp ((mul_pos_iff_of_pos_left (by positivity)).mp e3)
  have e5 : ‖evP q z‖ ≤ ‖evP p z‖ + η := by
    have h5 := norm_sub_norm_le (evP q z) (evP p z)
    rw [norm_sub_rev] at h5
    linarith
  by_contra hcon
  have hp1 : ‖evP p z‖ ≤ 1 := not_lt.mp hcon
  have e6 : ‖evP q z‖ ≤ 1 + η := by linarith
  have e7 : ‖evP q z‖ ^ 2 ≤ (1 + η) ^ 2 := pow_le_pow_left₀ (norm_nonneg _) e6 2
  have e8 := mul_le_mul_of_nonneg_left hη1 hη0
  have e9 : (1 + η) ^ 2 = 1 + 2 * η + η * η := by ring
  linarith

end Extensisq
