import Verif.Props.SwagDense
import Mathlib.Data.Nat.Factorial.Basic

/-!
# SWAG: error estimates (C82)
-/

set_option linter.unusedSectionVars false

namespace Extensisq
open Finset Polynomial

section
variable {K V : Type*} [Field K] [LinearOrder K] [IsStrictOrderedRing K] [AddCommGroup V] [Module K V]

/-! ## Specification -/

/-- `p` is the value in `t'` of the Adams-Bashforth polynomial of order `k`: the polynomial of degree `k` through
the present solution, with the stored derivatives as slopes in the last `k` accepted points. (Seen through every
linear functional `f`.) -/
def IsPrediction (s : SwSt K V) (t' : K) (k : ℕ) (p : V) : Prop :=
  ∀ (f : V →ₗ[K] K) (q : K[X]), q.natDegree ≤ k → q.eval s.t = f s.y →
    (∀ i < k, (derivative q).eval (hx s.hist i) = f (hf s.hist i)) → f p = q.eval t'

/-- `y` is the value in `t'` of the Adams-Moulton polynomial of order `m + 1`: the polynomial of degree `m + 1`
through the present solution, with the stored derivatives as slopes in the last `m` accepted points and the slope
`fp` in `t'`. -/
def IsCorrection (s : SwSt K V) (t' : K) (m : ℕ) (fp y : V) : Prop :=
  ∀ (f : V →ₗ[K] K) (q : K[X]), q.natDegree ≤ m + 1 → q.eval s.t = f s.y →
    (∀ i < m, (derivative q).eval (hx s.hist i) = f (hf s.hist i)) →
    (derivative q).eval t' = f fp → f y = q.eval t'

/-- Prepend a value to a sequence. -/
def consV (a : V) (F : ℕ → V) : ℕ → V
  | 0 => a
  | i + 1 => F i

/-- The divided difference of order `q`: the leading coefficient of the polynomial of degree `q` with the values
`F 0, ..., F q` in the points `x 0, ..., x q`, by Lagrange's formula. -/
def divDiff (q : ℕ) (x : ℕ → K) (F : ℕ → V) : V :=
  ∑ i ∈ range (q + 1), (∏ j ∈ (range (q + 1)).erase i, (x i - x j))⁻¹ • F i

/-- The error estimate for order `q` with the step size `h`: `gstr[q-1]` times the norm of
`h * (h^q q! f[x_0, ..., x_q])`; for points which are `h` apart the factor in brackets is the backward difference
of order `q`. -/
def swEst (c : SwCfg K V) (p y : V) (h : K) (q : ℕ) (x : ℕ → K) (F : ℕ → V) : ENorm K :=
  ENorm.scale (c.gstr (q - 1)) (c.scale p y ((h ^ (q + 1) * (q.factorial : K)) • divDiff q x F))

/-- The norm is homogeneous. -/
def Homog (c : SwCfg K V) : Prop :=
  ∀ (p y x : V) (a : K), a ≠ 0 → c.scale p y (a • x) = ENorm.scale |a| (c.scale p y x)

/-! ## Divided differences -/

theorem lagrange_coeff {q : ℕ} {x : ℕ → K} (hinj : ∀ i < q + 1, ∀ j < q + 1, x i = x j → i = j) {P : K[X]}
    (hP : P.degree < (q + 1 : ℕ)) :
    P.coeff q = ∑ i ∈ range (q + 1), (∏ j ∈ (range (q + 1)).erase i, (x i - x j))⁻¹ * P.eval (x i) := by
  have h := Lagrange.coeff_eq_sum (s := range (q + 1)) (v := x) (fun i hi j hj h =>
    hinj i (by simpa using hi) j (by simpa using hj) h) (P := P) (by simpa using hP)
  rw [card_range, Nat.add_sub_cancel] at h
  rw [h]
  refine Finset.sum_congr rfl fun i _ => ?_
  rw [div_eq_inv_mul]

theorem coeff_abP (X0 : ℕ → K) (t' : K) (q : ℕ) : (abP X0 t' q).coeff q = (∏ l ∈ range q, (t' - X0 l))⁻¹ := by
  induction q with
  | zero => simp [abP]
  | succ q ih =>
    rw [abP_succ, ← mul_assoc, mul_sub, coeff_sub, coeff_mul_X, mul_assoc, ← C_mul, mul_comm _ (C _),
      mul_comm _ (C _), coeff_C_mul, coeff_C_mul, ih,
      coeff_eq_zero_of_natDegree_lt ((natDegree_abP _ _ _).trans_lt (Nat.lt_succ_self _)), Finset.prod_range_succ,
      mul_inv]
    ring

/-- The divided difference in Newton's form. -/
theorem divDiff_newton {X0 : ℕ → K} {t' : K} {q : ℕ} (hn : ∀ i < q, t' - X0 i ≠ 0)
    (hinj : ∀ i < q, ∀ j < q, X0 i = X0 j → i = j) (a : V) (phi F : ℕ → V)
    (hF : ∀ m < q, F m = ∑ j ∈ range q, nb X0 j (X0 m) • phi j) :
    (∏ l ∈ range q, (t' - X0 l)) • divDiff q (consX t' X0) (consV a F)
      = a - ∑ j ∈ range q, nb X0 j t' • phi j := by
  refine eq_of_functionals (K := K) fun f => ?_
  set d := f a - ∑ j ∈ range q, nb X0 j t' * f (phi j) with hd
  set P := newtonP X0 t' q (fun j => f (phi j)) + C d * abP X0 t' q with hP
  have hdeg : P.degree < (q + 1 : ℕ) := by
    refine (degree_add_le _ _).trans_lt (max_lt ?_ ?_)
    · exact (degree_newtonP _ _ _ _).trans (by exact_mod_cast Nat.lt_succ_self _)
    · rw [degree_lt_iff_coeff_zero]
      intro m hm'
      rw [coeff_C_mul, coeff_eq_zero_of_natDegree_lt ((natDegree_abP _ _ _).trans_lt (by omega)), mul_zero]
  have hinj' : ∀ i < q + 1, ∀ j < q + 1, consX t' X0 i = consX t' X0 j → i = j := by
    intro i hi j hj hij
    cases i with
    | zero =>
      cases j with
      | zero => rfl
      | succ j => exact absurd (sub_eq_zero.mpr hij) (hn j (by omega))
    | succ i =>
      cases j with
      | zero => exact absurd (sub_eq_zero.mpr hij.symm) (hn i (by omega))
      | succ j => rw [hinj i (by omega) j (by omega) hij]
  have hval : ∀ i < q + 1, P.eval (consX t' X0 i) = f (consV a F i) := by
    intro i hi
    cases i with
    | zero =>
      show P.eval t' = f a
      rw [hP, eval_add, eval_newtonP hn, eval_mul, eval_C, eval_abP, ab_self hn, mul_one, hd]
      ring
    | succ i =>
      show P.eval (X0 i) = f (F i)
      rw [hP, eval_add, eval_newtonP hn, eval_mul, eval_abP, ab_eq_zero (by omega), mul_zero, add_zero,
        hF i (by omega), map_sum]
      simp only [map_smul, smul_eq_mul]
  have hc := lagrange_coeff hinj' hdeg
  have hne : ∏ l ∈ range q, (t' - X0 l) ≠ 0 := Finset.prod_ne_zero_iff.mpr fun i hi => hn i (Finset.mem_range.mp hi)
  have hcoef : P.coeff q = d * (∏ l ∈ range q, (t' - X0 l))⁻¹ := by
    rw [hP, coeff_add, coeff_C_mul, coeff_abP, coeff_eq_zero_of_degree_lt (degree_newtonP _ _ _ _), zero_add]
  have hdd : f (divDiff q (consX t' X0) (consV a F)) = P.coeff q := by
    rw [hc, divDiff, map_sum]
    refine Finset.sum_congr rfl fun i hi => ?_
    rw [map_smul, smul_eq_mul, hval i (Finset.mem_range.mp hi)]
  rw [map_smul, smul_eq_mul, hdd, hcoef, map_sub, map_sum]
  simp only [map_smul, smul_eq_mul]
  rw [← hd]
  field_simp

/-! ## The formulas of an attempt -/

theorem attempt_predict {c : SwCfg K V} {s : SwSt K V} (hm : MInv s) (hstr : Strict c.dir s.hist) {l : SwLoc K V}
    (hne : l.h ≠ 0) (ha : AttM c s l) :
    IsPrediction s (s.t + l.h) l.k (swTry c s.t s.y s.hold s.kold l).p := by
  intro f q hq1 hq2 hq3
  have hnow := hm.now
  have hn : ∀ i < l.k, s.t + l.h - hx s.hist i ≠ 0 := fun i hi => by
    have := ne_of_dir (ha.ne i hi); rwa [hnow] at this
  have hpe : derivative q = newtonP (hx s.hist) (s.t + l.h) l.k fun j => f (s.phi j) :=
    eq_of_points (k := l.k) (degree_lt_of_natDegree_deriv ha.loc.k1 hq1) (degree_newtonP _ _ _ _)
      (mesh_inj (c := c) hm hstr ha.loc.kM) (fun m hm' => by
        rw [hq3 m hm', eval_newtonP hn, hm.interp ha.loc.kM hm', map_sum]
        simp only [map_smul, smul_eq_mul])
  rw [predict_poly hm hne ha f, inc_of_deriv hpe, hq2]
  ring

theorem attempt_correct {c : SwCfg K V} {s : SwSt K V} (hm : MInv s) (hstr : Strict c.dir s.hist) {l : SwLoc K V}
    (hne : l.h ≠ 0) (ha : AttM c s l) {m : ℕ} (hm1 : m ≤ l.k) (hm2 : l.k ≤ m + 1) :
    IsCorrection s (s.t + l.h) m (swTry c s.t s.y s.hold s.kold l).fp
      ((l.h * (swTry c s.t s.y s.hold s.kold l).co.g m) •
        ((swTry c s.t s.y s.hold s.kold l).fp - (swTry c s.t s.y s.hold s.kold l).phi 0)
        + (swTry c s.t s.y s.hold s.kold l).p) := by
  intro f q hq1 hq2 hq3 hq4
  have hnow := hm.now
  have hn : ∀ i < l.k, s.t + l.h - hx s.hist i ≠ 0 := fun i hi => by
    have := ne_of_dir (ha.ne i hi); rwa [hnow] at this
  have hinj := mesh_inj (c := c) hm hstr ha.loc.kM
  set r := swTry c s.t s.y s.hold s.kold l with hrdef
  have hP : ∀ m, m < l.k →
      (newtonP (hx s.hist) (s.t + l.h) l.k fun j => f (s.phi j)).eval (hx s.hist m) = f (hf s.hist m) := by
    intro m hm'
    rw [eval_newtonP hn, hm.interp ha.loc.kM hm', map_sum]
    simp only [map_smul, smul_eq_mul]
  have h0 : (newtonP (hx s.hist) (s.t + l.h) l.k fun j => f (s.phi j)).eval (s.t + l.h) = f (r.phi 0) := by
    rw [eval_newtonP hn, hrdef, predict_zero ha.loc ha.spec, map_sum, hnow]
    simp only [map_smul, smul_eq_mul]
  have hpe : derivative q = newtonP (hx s.hist) (s.t + l.h) l.k (fun j => f (s.phi j))
      + C (f (r.fp - r.phi 0)) * abP (hx s.hist) (s.t + l.h) m := by
    refine eq_of_points (k := m + 1) (X0 := consX (s.t + l.h) (hx s.hist))
      (degree_lt_of_natDegree_deriv (by omega) hq1) ?_ ?_ ?_
    · refine (degree_add_le _ _).trans_lt (max_lt ?_ ?_)
      · exact (degree_newtonP _ _ _ _).trans_le (by exact_mod_cast hm2)
      · rw [degree_lt_iff_coeff_zero]
        intro i hi
        rw [coeff_C_mul, coeff_eq_zero_of_natDegree_lt ((natDegree_abP _ _ _).trans_lt (by omega)), mul_zero]
    · intro i hi j hj hij
      cases i with
      | zero =>
        cases j with
        | zero => rfl
        | succ j => exact absurd (sub_eq_zero.mpr hij) (hn j (by omega))
      | succ i =>
        cases j with
        | zero => exact absurd (sub_eq_zero.mpr hij.symm) (hn i (by omega))
        | succ j => rw [hinj i (by omega) j (by omega) hij]
    · intro i hi
      cases i with
      | zero =>
        show (derivative q).eval (s.t + l.h) = eval (s.t + l.h) _
        rw [hq4, eval_add, h0, eval_mul, eval_C, eval_abP, ab_self (fun i hi => hn i (by omega)), mul_one, map_sub]
        ring
      | succ i =>
        show (derivative q).eval (hx s.hist i) = eval (hx s.hist i) _
        rw [hq3 i (by omega), eval_add, hP i (by omega), eval_mul, eval_abP, ab_eq_zero (by omega), mul_zero,
          add_zero]
  have hi : inc (abP (hx s.hist) (s.t + l.h) m) s.t (s.t + l.h) = l.h * r.co.g m := by
    have h1 := inc_ab_one (alpha := r.co.alpha) hne (fun i hi => hn i (show i < l.k by omega))
      (j := m) (fun i hi => by rw [hrdef, ha.spec.alpha i (by omega), hnow]) 0
    rw [pow_zero, one_mul] at h1
    rw [h1, hrdef, ha.spec.g m hm1]
    ring
  have hinc := inc_of_deriv hpe s.t (s.t + l.h)
  rw [inc_add, inc_C_mul, hi] at hinc
  have hpp := predict_poly hm hne ha f
  rw [← hrdef] at hpp
  rw [map_add, map_smul, hpp, smul_eq_mul]
  linear_combination hinc - hq2

theorem scale_scale {a b : K} (hb : 0 < b) (e : ENorm K) : ENorm.scale a (ENorm.scale b e) = ENorm.scale (a * b) e := by
  cases e with
  | num x => simp only [ENorm.scale]; rw [mul_assoc]
  | inf =>
    have h1 : ENorm.scale b (.inf : ENorm K) = .inf := by simp [ENorm.scale, hb]
    rw [h1]
    simp only [ENorm.scale]
    by_cases ha : 0 < a
    · rw [if_pos ha, if_pos (mul_pos ha hb)]
    · rw [if_neg ha, if_neg (fun h => ha ((mul_pos_iff_of_pos_right hb).mp h))]
  | nan => rfl

/-- The coefficients `g` decrease. -/
theorem g_decreasing {alpha : ℕ → K} {j : ℕ} (h : ∀ i ≤ j, 0 ≤ alpha i ∧ alpha i ≤ 1) (h0 : 0 < alpha j) :
    genG alpha (j + 1) 0 < genG alpha j 0 := by
  have h1 := genG_pos (alpha := alpha) (i := j) (fun i hi => h i hi.le) 1
  show genG alpha j 0 - alpha j * genG alpha j 1 < _
  have := mul_pos h0 h1
  linarith

theorem alpha_unit {c : SwCfg K V} (ok : SwOK c) {s : SwSt K V} (hm : MInv s) (hstr : Strict c.dir s.hist)
    {l : SwLoc K V} (ha : AttM c s l) (hpos : 0 < c.dir * l.h) :
    ∀ i < l.k, 0 < (swTry c s.t s.y s.hold s.kold l).co.alpha i ∧
      (swTry c s.t s.y s.hold s.kold l).co.alpha i ≤ 1 := by
  intro i hi
  have h1 := ha.ne i hi
  rw [ha.spec.alpha i hi]
  have h2 : l.h / (hx s.hist 0 + l.h - hx s.hist i) = (c.dir * l.h) / (c.dir * (hx s.hist 0 + l.h - hx s.hist i)) := by
    rw [mul_div_mul_left]
    rcases ok.dir with e | e <;> rw [e] <;> norm_num
  rw [h2]
  refine ⟨div_pos hpos h1, (div_le_one h1).mpr ?_⟩
  have : 0 ≤ c.dir * (hx s.hist 0 - hx s.hist i) := by
    rcases Nat.eq_zero_or_pos i with rfl | h0
    · simp
    · exact (hstr.lt h0 (by have := hm.len; have := ha.loc.kM; omega)).le
  linear_combination this

theorem sig_full {c : SwCfg K V} {s : SwSt K V} {l : SwLoc K V} (hs : SwInv c s) (hl : LocOK c s l) {i : ℕ}
    (hi : i ≤ l.k) : (swTry c s.t s.y s.hold s.kold l).co.sig i
      = ∏ j ∈ range i, ((j : K) + 1) * (swTry c s.t s.y s.hold s.kold l).co.alpha j := by
  obtain ⟨e, ci, rel⟩ := try_coef hs hl
  set co := (swTry c s.t s.y s.hold s.kold l).co
  have h1 : ∀ n ≤ e, ∏ j ∈ range n, ((j : K) + 1) * co.alpha j = 1 := fun n hn =>
    Finset.prod_eq_one fun j hj => by
      rw [ci.alpha j (by have := Finset.mem_range.mp hj; omega), cAlpha]
      have : ((j : K) + 1) ≠ 0 := by positivity
      field_simp
  by_cases he : i ≤ e
  · rw [ci.sig i he, h1 i he]
  · have hk : i ≤ co.kprev := by
      rcases rel with ⟨_, h2⟩ | ⟨_, h2, _⟩
      · rw [h2]; exact hi
      · omega
    rw [ci.sigFull i (by omega) hk, ← Finset.prod_range_mul_prod_Ico _ (show e ≤ i by omega), h1 e le_rfl, one_mul]

/-- Each of the estimates at the orders `q ≤ k` of an attempt. -/
theorem est_eq {c : SwCfg K V} (ok : SwOK c) (hom : Homog c) {s : SwSt K V} (hi : SwInv c s) (hm : MInv s)
    (hstr : Strict c.dir s.hist) {l : SwLoc K V} (hl : LocOK c s l) (ha : AttM c s l) (hpos : 0 < c.dir * l.h)
    {q : ℕ} (hq : q ≤ l.k) :
    let r := swTry c s.t s.y s.hold s.kold l
    ENorm.scale (r.co.sig q * c.gstr (q - 1)) (ENorm.scale |l.h| (r.wt (r.phi q + (r.fp - r.phi 0))))
      = swEst c r.p s.y l.h q (consX (s.t + l.h) (hx s.hist)) (consV r.fp (hf s.hist)) := by
  intro r
  have hnow := hm.now
  have hne : l.h ≠ 0 := ne_of_dir hpos
  have hn : ∀ i < l.k, s.t + l.h - hx s.hist i ≠ 0 := fun i hi => by
    have := ne_of_dir (ha.ne i hi); rwa [hnow] at this
  have hk1 := ha.loc.k1
  have hkM := ha.loc.kM
  have hd : r.phi q + (r.fp - r.phi 0) = (∏ j ∈ range q, (s.t + l.h - hx s.hist j)) •
      divDiff q (consX (s.t + l.h) (hx s.hist)) (consV r.fp (hf s.hist)) := by
    rw [divDiff_newton (fun i hi => hn i (by omega))
      (fun i hi j hj => mesh_inj (c := c) hm hstr hkM i (by omega) j (by omega)) r.fp s.phi (hf s.hist)
      (fun m hm' => hm.interp (by omega) hm')]
    have h0 : r.phi 0 = ∑ i ∈ range l.k, phiStar r.co.beta l.k r.ns l.phi i := by
      rw [range_eq_Ico]; exact phiPredict_lt (by omega)
    have hqv : r.phi q = ∑ i ∈ Ico q l.k, phiStar r.co.beta l.k r.ns l.phi i := by
      by_cases h : q < l.k
      · exact phiPredict_lt h
      · have : q = l.k := by omega
        subst this
        rw [Finset.Ico_self, Finset.sum_empty]
        show phiPredict l.k _ l.k = 0
        rw [phiPredict, if_neg (by omega), if_pos rfl]
    rw [h0, hqv, ← Finset.sum_range_add_sum_Ico _ hq]
    have : ∑ j ∈ range q, nb (hx s.hist) j (s.t + l.h) • s.phi j
        = ∑ i ∈ range q, phiStar r.co.beta l.k r.ns l.phi i :=
      Finset.sum_congr rfl fun j hj => by
        rw [star_eq ha.loc ha.spec j (by have := Finset.mem_range.mp hj; omega), hnow]
    rw [this]
    abel
  have hsig := sig_full hi hl hq
  have halpha := alpha_unit ok hm hstr ha hpos
  have hsp : 0 < r.co.sig q := by
    rw [hsig]
    refine Finset.prod_pos fun j hj => mul_pos (by positivity) (halpha j ?_).1
    have := Finset.mem_range.mp hj; omega
  have hnz : ∏ j ∈ range q, (s.t + l.h - hx s.hist j) ≠ 0 :=
    Finset.prod_ne_zero_iff.mpr fun i hi => hn i (by have := Finset.mem_range.mp hi; omega)
  have hs2 : r.co.sig q * ∏ j ∈ range q, (s.t + l.h - hx s.hist j) = l.h ^ q * (q.factorial : K) := by
    rw [hsig, ← Finset.prod_mul_distrib]
    have : ∀ j ∈ range q, ((j : K) + 1) * r.co.alpha j * (s.t + l.h - hx s.hist j) = l.h * ((j : K) + 1) := by
      intro j hj
      have hj' := Finset.mem_range.mp hj
      rw [ha.spec.alpha j (by omega), hnow]
      have := hn j (by omega)
      field_simp
    rw [Finset.prod_congr rfl this, Finset.prod_mul_distrib, Finset.prod_const, card_range,
      ← Finset.prod_range_add_one_eq_factorial]
    push_cast
    rfl
  have hv : (l.h ^ (q + 1) * (q.factorial : K)) • divDiff q (consX (s.t + l.h) (hx s.hist)) (consV r.fp (hf s.hist))
      = (l.h * r.co.sig q) • (r.phi q + (r.fp - r.phi 0)) := by
    rw [hd, smul_smul, mul_assoc l.h, hs2, pow_succ]
    ring_nf
  show _ = ENorm.scale _ (c.scale r.p s.y _)
  rw [hv, hom _ _ _ _ (mul_ne_zero hne hsp.ne'), scale_scale (abs_pos.mpr hne),
    scale_scale (abs_pos.mpr (mul_ne_zero hne hsp.ne')), abs_mul, abs_of_pos hsp]
  congr 1
  ring

/-- What is known of an attempt with a non-zero step of a reachable solver. -/
theorem attempt_known {c : SwCfg K V} (ok : SwOK c) {t0 : K} {y0 yp0 : V} {h0 : K}
    {wt0 : V → ENorm K} {phi0 : ℕ → V} {co0 : Coef K} {nfev : ℕ} (hh : 0 < c.dir * h0)
    (hb : ∀ b, c.tb = some b → 0 ≤ c.dir * (b - t0)) {v : SwSolver K V}
    (hr : SwReach c (newSwag t0 y0 yp0 h0 wt0 phi0 co0 nfev) v) (hs : v.status = .running)
    (hb0 : c.tb ≠ some v.st.t) (hd : Distinct v.st) {l : SwLoc K V} (hl : SwAttempt c v.st l) (hne : l.h ≠ 0) :
    SwInv c v.st ∧ MInv v.st ∧ Strict c.dir v.st.hist ∧ LocOK c v.st l ∧ AttM c v.st l ∧ 0 < c.dir * l.h := by
  have hkn := known ok hh hb hr hs
  have hlt := attempt_time ok hkn.time (fun b h1 h2 => hb0 (by rw [h1, h2])) hl
  refine ⟨hkn.inv, hkn.mesh hd, hkn.strict hd, hl.ok hkn.inv,
    attempt_mesh ok hkn.inv hkn.time (hkn.mesh hd) (hkn.strict hd) (fun b h1 h2 => hb0 (by rw [h1, h2])) hl hne, ?_⟩
  rcases hlt.sign with h | ⟨h, _⟩
  · exact h
  · exact absurd h hne

theorem err_eq {c : SwCfg K V} (ok : SwOK c) (hom : Homog c) {s : SwSt K V} (hm : MInv s)
    (hstr : Strict c.dir s.hist) {l : SwLoc K V} (ha : AttM c s l) (hpos : 0 < c.dir * l.h) :
    let r := swTry c s.t s.y s.hold s.kold l
    r.err = c.scale r.p s.y (((l.h * r.co.g l.k) • (r.fp - r.phi 0) + r.p)
      - ((l.h * r.co.g (l.k - 1)) • (r.fp - r.phi 0) + r.p)) := by
  intro r
  have hne : l.h ≠ 0 := ne_of_dir hpos
  have hk1 := ha.loc.k1
  have halpha := alpha_unit ok hm hstr ha hpos
  have hg : r.co.g l.k < r.co.g (l.k - 1) := by
    rw [ha.spec.g l.k le_rfl, ha.spec.g (l.k - 1) (by omega)]
    have := g_decreasing (alpha := r.co.alpha) (j := l.k - 1)
      (fun i hi => ⟨(halpha i (by omega)).1.le, (halpha i (by omega)).2⟩) (halpha (l.k - 1) (by omega)).1
    rwa [show l.k - 1 + 1 = l.k by omega] at this
  have hv : ((l.h * r.co.g l.k) • (r.fp - r.phi 0) + r.p) - ((l.h * r.co.g (l.k - 1)) • (r.fp - r.phi 0) + r.p)
      = (l.h * (r.co.g l.k - r.co.g (l.k - 1))) • (r.fp - r.phi 0) := by module
  have hz : r.co.g l.k - r.co.g (l.k - 1) < 0 := by linarith
  rw [hv, hom _ _ _ _ (mul_ne_zero hne hz.ne), abs_mul, abs_of_neg hz]
  show ENorm.scale (r.co.g (l.k - 1) - r.co.g l.k) (ENorm.scale |l.h| (c.scale r.p s.y _)) = _
  rw [scale_scale (abs_pos.mpr hne)]
  congr 1
  ring

/-- **C82.** Every attempt (accepted or not) of order `k` with step size `h` predicts `p`, evaluates the right-hand
side there, and computes the norm of the difference of the Adams-Moulton solutions of the orders `k + 1` and `k`; it
is accepted exactly if that norm is at most one (`swLoop` tests `err ≤ 1`; `C82_step` for the accepted ones).
The estimates for the orders `k`, `k - 1`, `k - 2`, from which a lower order is decided, are those of `swEst` in the
new point (with the derivative in the prediction) and the last `q` accepted points. -/
theorem C82_attempt {c : SwCfg K V} (ok : SwOK c) (hom : Homog c) {t0 : K} {y0 yp0 : V} {h0 : K}
    {wt0 : V → ENorm K} {phi0 : ℕ → V} {co0 : Coef K} {nfev : ℕ} (hh : 0 < c.dir * h0)
    (hb : ∀ b, c.tb = some b → 0 ≤ c.dir * (b - t0)) {v : SwSolver K V}
    (hr : SwReach c (newSwag t0 y0 yp0 h0 wt0 phi0 co0 nfev) v) (hs : v.status = .running)
    (hb0 : c.tb ≠ some v.st.t) (hd : Distinct v.st) {l : SwLoc K V} (hl : SwAttempt c v.st l) (hne : l.h ≠ 0) :
    ∃ p yl yh : V, let t' := v.st.t + l.h
      let r := swTry c v.st.t v.st.y v.st.hold v.st.kold l
      let E := fun q => swEst c p v.st.y l.h q (consX t' (hx v.st.hist)) (consV (c.fn t' p) (hf v.st.hist))
      IsPrediction v.st t' l.k p ∧
      IsCorrection v.st t' (l.k - 1) (c.fn t' p) yl ∧ IsCorrection v.st t' l.k (c.fn t' p) yh ∧
      r.err = c.scale p v.st.y (yh - yl) ∧
      r.erk = E l.k ∧ r.erkm1 = E (l.k - 1) ∧ r.knew = lowerOrder l.k (E l.k) (E (l.k - 1)) (E (l.k - 2)) := by
  obtain ⟨hi, hm, hstr, hlo, ha, hpos⟩ := attempt_known ok hh hb hr hs hb0 hd hl hne
  have hk1 := ha.loc.k1
  set r := swTry c v.st.t v.st.y v.st.hold v.st.kold l with hrdef
  have hE : ∀ q ≤ l.k, _ := fun q hq => est_eq ok hom hi hm hstr hlo ha hpos (q := q) hq
  have ek : r.erk = swEst c r.p v.st.y l.h l.k (consX (v.st.t + l.h) (hx v.st.hist))
      (consV (c.fn (v.st.t + l.h) r.p) (hf v.st.hist)) := by
    have h1 := hE l.k le_rfl
    simp only [← hrdef] at h1
    have h2 : r.phi l.k = 0 := by
      show phiPredict l.k _ l.k = 0
      rw [phiPredict, if_neg (by omega), if_pos rfl]
    rw [h2, zero_add] at h1
    exact h1
  refine ⟨r.p, _, _, attempt_predict hm hstr hne ha, attempt_correct hm hstr hne ha (m := l.k - 1) (by omega) (by omega),
    attempt_correct hm hstr hne ha (m := l.k) le_rfl (by omega), err_eq ok hom hm hstr ha hpos, ek,
    hE (l.k - 1) (by omega), ?_⟩
  have h1 := hE (l.k - 1) (by omega)
  have h2 := hE (l.k - 2) (by omega)
  simp only [← hrdef] at h1 h2
  show r.knew = _
  have h3 : r.knew = lowerOrder l.k r.erk (ENorm.scale (r.co.sig (l.k - 1) * c.gstr (l.k - 1 - 1)) (ENorm.scale |l.h|
    (r.wt (r.phi (l.k - 1) + (r.fp - r.phi 0))))) (ENorm.scale (r.co.sig (l.k - 2) * c.gstr (l.k - 2 - 1))
      (ENorm.scale |l.h| (r.wt (r.phi (l.k - 2) + (r.fp - r.phi 0))))) := rfl
  rw [h3, ek, h1, h2]
  rfl

end
end Extensisq
