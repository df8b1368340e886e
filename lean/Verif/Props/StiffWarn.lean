import Verif.Model.StiffWarn
import Verif.Props.Stiff
import Mathlib.Analysis.InnerProductSpace.PiL2
import Mathlib.Analysis.Complex.Basic

/-!
# C63 (exact quadratics), C94: the messages of the stiffness detection
-/

set_option linter.unusedSectionVars false

namespace Extensisq
open scoped RealInnerProductSpace

section
variable {V : Type*} [NormedAddCommGroup V] [InnerProductSpace ℝ V]

/-! ## C63 -/

/-- Two vectors far from parallel: the squared sine of their angle is above `1e-6`. -/
def Apart (a b : V) : Prop := 1 / 10 ^ 6 * (⟪a, a⟫ * ⟪b, b⟫) < (⟪a, a⟫ * ⟪b, b⟫ - ⟪a, b⟫ ^ 2 : ℝ)

theorem Apart.det {a b : V} (h : Apart a b) : (⟪a, a⟫ * ⟪b, b⟫ - ⟪a, b⟫ ^ 2 : ℝ) ≠ 0 := by
  unfold Apart at h
  have h1 : (0 : ℝ) ≤ ⟪a, a⟫ := real_inner_self_nonneg
  have h2 : (0 : ℝ) ≤ ⟪b, b⟫ := real_inner_self_nonneg
  have : (0 : ℝ) ≤ ⟪a, a⟫ * ⟪b, b⟫ := mul_nonneg h1 h2
  intro h0
  rw [h0] at h
  linarith

theorem Apart.pos_left {a b : V} (h : Apart a b) : (0 : ℝ) < ⟪a, a⟫ := by
  apply inner_pos_of_det (a := b) (b := a)
  rw [real_inner_comm a b, mul_comm]
  exact h.det

theorem Apart.pos_right {a b : V} (h : Apart a b) : (0 : ℝ) < ⟪b, b⟫ := inner_pos_of_det h.det

/-- The test for a real root fails for vectors far from parallel. -/
theorem stiffB_apart {a b : V} (h : Apart a b) (rold : ℝ) :
    (stiffB ⟪b, b⟫ ⟪a, b⟫ ⟪a, a⟫ rold).rootre = false := by
  have hp := h.pos_left
  unfold stiffB
  simp only [decide_eq_false_iff_not, not_or]
  refine ⟨h.det, ?_⟩
  rintro ⟨h1, -⟩
  unfold Apart at h
  have h0 : (0 : ℝ) ≤ ⟪a, a⟫ * ⟪b, b⟫ - ⟪a, b⟫ ^ 2 := by
    have h2 : (0 : ℝ) ≤ ⟪b, b⟫ := real_inner_self_nonneg
    have := mul_nonneg hp.le h2
    linarith
  rw [abs_of_nonneg (div_nonneg h0 hp.le), div_le_iff₀ hp] at h1
  nlinarith

/-- The coefficients of the quadratic are recovered exactly. -/
theorem quad_coef {a b c : V} {α β : ℝ} (hc : c = -(α • b) - β • a)
    (hd : (⟪a, a⟫ * ⟪b, b⟫ - ⟪a, b⟫ ^ 2 : ℝ) ≠ 0) :
    (-⟪a, a⟫ * ⟪b, c⟫ + ⟪a, b⟫ * ⟪a, c⟫ : ℝ) / (⟪a, a⟫ * ⟪b, b⟫ - ⟪a, b⟫ ^ 2) = α ∧
    (⟪a, b⟫ * ⟪b, c⟫ - ⟪b, b⟫ * ⟪a, c⟫ : ℝ) / (⟪a, a⟫ * ⟪b, b⟫ - ⟪a, b⟫ ^ 2) = β := by
  have e1 : (⟪b, c⟫ : ℝ) = -(α * ⟪b, b⟫) - β * ⟪a, b⟫ := by
    rw [hc, inner_sub_right, inner_neg_right, inner_smul_right, inner_smul_right, real_inner_comm a b]
  have e2 : (⟪a, c⟫ : ℝ) = -(α * ⟪a, b⟫) - β * ⟪a, a⟫ := by
    rw [hc, inner_sub_right, inner_neg_right, inner_smul_right, inner_smul_right]
  rw [e1, e2]
  constructor <;> rw [div_eq_iff hd] <;> ring

/-- **C63**. If the start vector lies in an invariant plane of the (locally linear) problem, in which `havg J` satisfies
`z^2 + α z + β = 0`, and its first images are far from parallel, the roots reported are exactly the two roots
of the quadratic (so for a plane problem with a complex pair the test is exact after three evaluations). -/
theorem C63_exact_quadratic {f : ℝ → V → V} {x : ℝ} {y fxy : V} {J : V →ₗ[ℝ] V}
    (hJ : ∀ v, f x (y + v) = fxy + J v) {hnow havg xend maxfcn : ℝ} {v0 one : V} (hv0 : ‖v0‖ = 1)
    {cost epsneg α β : ℝ} (he : 0 < epsneg)
    (hq : havg • J (havg • J v0) = -(α • (havg • J v0)) - β • v0)
    (hbig : ‖havg • J v0‖ ≤ 10 ^ 10) (hsmall : epsneg ^ (1 / 3 : ℝ) ≤ |(⟪v0, havg • J v0⟫ : ℝ)|)
    (h01 : (⟪v0, v0⟫ * ⟪havg • J v0, havg • J v0⟫ - ⟪v0, havg • J v0⟫ ^ 2 : ℝ) ≠ 0)
    (h12 : Apart (havg • J v0) (havg • J (havg • J v0)))
    (h23 : Apart (havg • J (havg • J v0)) (havg • J (havg • J (havg • J v0))))
    (hh : havg ≠ 0) (h1 : |hnow| ≤ 5 * |havg|) (h2 : |havg| ≤ 5 * |hnow|)
    (h3 : maxfcn * |havg| < cost * |xend - x|) :
    (stiffA f x y hnow havg xend maxfcn fxy v0 one cost epsneg).1 =
      ⟨none, some false, some ((stiffC α β).1, (stiffC α β).2,
        Real.sqrt ((stiffC α β).1.1 ^ 2 + (stiffC α β).1.2 ^ 2))⟩ := by
  rw [(C62_iterates f x y fxy v0 one hh h1 h2 h3).1]
  have hin0 : (⟪v0, v0⟫ : ℝ) = 1 := by rw [real_inner_self_eq_norm_sq, hv0, one_pow]
  have hst : startVector v0 one = v0 := by
    unfold startVector
    dsimp only
    rw [hin0, if_neg one_ne_zero, hin0, Real.sqrt_one, inv_one, one_smul]
  obtain ⟨sc, hsc, hsc'⟩ : ∃ sc, sc ≠ 0 ∧ (if Real.sqrt ⟪y, y⟫ * Real.sqrt epsneg = 0 then Real.sqrt ⟪v0, v0⟫ * Real.sqrt epsneg
      else Real.sqrt ⟪y, y⟫ * Real.sqrt epsneg) = sc := by
    by_cases h : Real.sqrt ⟪y, y⟫ * Real.sqrt epsneg = 0
    · rw [if_pos h, hin0, Real.sqrt_one, one_mul]
      exact ⟨_, (Real.sqrt_pos.mpr he).ne', rfl⟩
    · rw [if_neg h]
      exact ⟨_, h, rfl⟩
  unfold stiffMain
  dsimp only
  rw [hsc', if_neg hsc, hst]
  set p : StiffIn V := { f, x, y, fxy, havg, scale := sc, epsneg } with hp
  have hJ' : ∀ v, p.f p.x (p.y + v) = p.fxy + J v := hJ
  set v1 := havg • J v0 with hv1
  set v2 := havg • J v1 with hv2
  set v3 := havg • J v2 with hv3
  have p1 := h12.pos_left
  have p2 := h12.pos_right
  have hq3 : v3 = -(α • v2) - β • v1 := by
    have e : v3 = havg • J (-(α • v1) - β • v0) := by rw [hv3, hq]
    rw [e, map_sub, map_neg, J.map_smul α, J.map_smul β, smul_sub, smul_neg, smul_comm havg α, smul_comm havg β]
  have d1 : stiffD v0 p.havg p.x p.y p.f p.fxy p.scale 1 = (v1, ⟪v1, v1⟫) := by
    refine Prod.ext (stiffD_linear hJ' hsc one_pos) ?_
    rw [stiffD_snd, stiffD_linear hJ' hsc one_pos]
  have d2 : stiffD v1 p.havg p.x p.y p.f p.fxy p.scale ⟪v1, v1⟫ = (v2, ⟪v2, v2⟫) := by
    refine Prod.ext (stiffD_linear hJ' hsc p1) ?_
    rw [stiffD_snd, stiffD_linear hJ' hsc p1]
  have d3 : stiffD v2 p.havg p.x p.y p.f p.fxy p.scale ⟪v2, v2⟫ = (v3, ⟪v3, v3⟫) := by
    refine Prod.ext (stiffD_linear hJ' hsc p2) ?_
    rw [stiffD_snd, stiffD_linear hJ' hsc p2]
  obtain ⟨a1, b1⟩ := quad_coef hq h01
  rw [hin0] at a1 b1
  obtain ⟨a2, b2⟩ := quad_coef hq3 h12.det
  have hres : |(⟪v3, v3⟫ : ℝ) + ⟪v2, v2⟫ * α ^ 2 + ⟪v1, v1⟫ * β ^ 2 + 2 * ⟪v2, v3⟫ * α + 2 * ⟪v1, v3⟫ * β
      + 2 * ⟪v1, v2⟫ * α * β| = 0 := by
    have := quad_norm_sq v1 v2 v3 α β
    have h0 : v3 + α • v2 + β • v1 = 0 := by rw [hq3]; module
    rw [h0, norm_zero] at this
    rw [abs_eq_zero]
    linarith
  have hC : tryC v1 v2 v3 ⟪v1, v1⟫ ⟪v2, v2⟫ ⟪v3, v3⟫ ⟪v1, v2⟫ α β (stiffB ⟪v2, v2⟫ ⟪v1, v2⟫ ⟪v1, v1⟫ ⟪v0, v1⟫).rold =
      (.brk (stiffC α β).1 (stiffC α β).2 (Real.sqrt ((stiffC α β).1.1 ^ 2 + (stiffC α β).1.2 ^ 2)) false,
        divsB ⟪v2, v2⟫ ++ [(false, (⟪v1, v1⟫ * ⟪v2, v2⟫ - ⟪v1, v2⟫ ^ 2 : ℝ))]) := by
    unfold tryC
    dsimp only
    rw [stiffB_apart h23]
    simp only [Bool.false_eq_true, if_false]
    rw [a2, b2, hres, if_pos (mul_nonneg (by norm_num) real_inner_self_nonneg), if_pos]
    simp only [sub_self, ne_eq, OfNat.ofNat_ne_zero, not_false_eq_true, zero_pow, add_zero]
    rw [min_eq_left (add_nonneg (sq_nonneg _) (sq_nonneg _)), Real.sqrt_zero]
    positivity
  have hB : (tryB p true v0 v1 1 ⟪v1, v1⟫ ⟪v0, v1⟫ ⟪v0, v1⟫).1 =
      .brk (stiffC α β).1 (stiffC α β).2 (Real.sqrt ((stiffC α β).1.1 ^ 2 + (stiffC α β).1.2 ^ 2)) false := by
    unfold tryB
    dsimp only
    rw [d2]
    dsimp only
    rw [stiffB_apart h12]
    simp only [Bool.false_eq_true, if_false]
    rw [a1, b1, d3]
    dsimp only
    rw [hC]
  have hT : (stiffTry p true v0 0).1 =
      .brk (stiffC α β).1 (stiffC α β).2 (Real.sqrt ((stiffC α β).1.1 ^ 2 + (stiffC α β).1.2 ^ 2)) false := by
    unfold stiffTry
    dsimp only
    rw [d1]
    dsimp only
    rw [if_neg, if_pos rfl, div_one, if_neg]
    · exact hB
    · exact not_lt.mpr hsmall
    · rw [Real.sqrt_one, mul_one, real_inner_self_eq_norm_sq, Real.sqrt_sq (norm_nonneg _)]
      exact not_lt.mpr hbig
  unfold stiffLoop
  dsimp only
  rw [hT]

/-! ## C94 -/

/-- Without roots the test answers 'not stiff' or 'unsure', never 'stiff', and reports no kind of root; with roots
it leaves the answer open. -/
theorem stiffLoop_out (p : StiffIn V) : ∀ (n : ℕ) (first : Bool) (v0 : V) (rold : ℝ),
    (stiffLoop p n first v0 rold).1.stif ≠ some true ∧
    ((stiffLoop p n first v0 rold).1.roots = none → (stiffLoop p n first v0 rold).1.rootre = none) := by
  have key : ∀ (first : Bool) (v0 : V) (rold : ℝ) (o : StiffOut), (stiffTry p first v0 rold).1 = .ret o →
      o.stif ≠ some true ∧ o.roots = none ∧ o.rootre = none := by
    intro first v0 rold o h
    have hB : ∀ (first : Bool) (v0 v1 : V) (a b c d : ℝ), (tryB p first v0 v1 a b c d).1 ≠ .ret o := by
      intro first v0 v1 a b c d h
      unfold tryB at h
      dsimp only at h
      split at h
      · cases h
      · dsimp only at h
        unfold tryC at h
        dsimp only at h
        split at h
        · cases h
        · split at h
          · split at h <;> cases h
          · cases h
    unfold stiffTry at h
    dsimp only at h
    split at h
    · cases h
      exact ⟨(fun h => by cases h), rfl, rfl⟩
    · split at h
      · split at h
        · cases h
          exact ⟨by decide, rfl, rfl⟩
        · exact absurd h (hB _ _ _ _ _ _ _)
      · split at h
        · cases h
        · exact absurd h (hB _ _ _ _ _ _ _)
  intro n
  induction n with
  | zero => intro first v0 rold; exact ⟨(fun h => by cases h), fun _ => rfl⟩
  | succ n ih =>
    intro first v0 rold
    unfold stiffLoop
    dsimp only
    cases hr : (stiffTry p first v0 rold).1 with
    | ret o =>
      obtain ⟨h1, h2, h3⟩ := key _ _ _ _ hr
      exact ⟨h1, fun _ => h3⟩
    | brk r1 r2 rho b => exact ⟨(fun h => by cases h), (fun h => by cases h)⟩
    | next v' r' => exact ih _ _ _

theorem stiffA_out (f : ℝ → V → V) (x : ℝ) (y : V) (hnow havg xend maxfcn : ℝ) (fxy v0 one : V)
    (cost epsneg : ℝ) :
    (stiffA f x y hnow havg xend maxfcn fxy v0 one cost epsneg).1.stif ≠ some true ∧
    ((stiffA f x y hnow havg xend maxfcn fxy v0 one cost epsneg).1.roots = none →
      (stiffA f x y hnow havg xend maxfcn fxy v0 one cost epsneg).1.rootre = none) := by
  unfold stiffA
  split
  · exact ⟨(fun h => by cases h), fun _ => rfl⟩
  · split
    · exact ⟨(fun h => by cases h), fun _ => rfl⟩
    · dsimp only
      unfold stiffMain
      dsimp only
      generalize (if Real.sqrt ⟪y, y⟫ * Real.sqrt epsneg = 0 then Real.sqrt ⟪v0, v0⟫ * Real.sqrt epsneg
        else Real.sqrt ⟪y, y⟫ * Real.sqrt epsneg) = scale
      by_cases hs : scale = 0
      · rw [if_pos hs]
        exact ⟨(fun h => by cases h), fun _ => rfl⟩
      · rw [if_neg hs]
        exact stiffLoop_out _ _ _ _ _

end

/-- A result `stiff_a` can return. -/
def StiffOut.Possible (o : StiffOut) : Prop := o.stif ≠ some true ∧ (o.roots = none → o.rootre = none)

/-- **C94**. Every result of the test satisfies the hypothesis of the theorems below. -/
theorem C94_possible {V : Type*} [NormedAddCommGroup V] [InnerProductSpace ℝ V] (f : ℝ → V → V) (x : ℝ) (y : V)
    (hnow havg xend maxfcn : ℝ) (fxy v0 one : V) (cost epsneg : ℝ) :
    (stiffA f x y hnow havg xend maxfcn fxy v0 one cost epsneg).1.Possible := stiffA_out ..

/-! ### What the roots say (specification, from the documentation of the detection) -/

/-- The dominant root is not in the right half plane, and no root of comparable size is. -/
def LeftHalf (r1 r2 : Root) (rho : ℝ) : Prop :=
  r1.1 ≤ 0 ∧ ¬ (9 / 10 * rho ≤ Real.sqrt (r2.1 ^ 2 + r2.2 ^ 2) ∧ 0 < r2.1)

/-- The dominant root is too close to the imaginary axis. -/
def NearAxis (tanang : ℝ) (r1 : Root) : Prop := |r1.1| * tanang < |r1.2|

theorem rk_cases {o : StiffOut} (ho : o.Possible) {tanang stbrad : ℝ} (ht : 0 ≤ tanang) (lotsfl : Bool) :
    (o.roots = none ∧ o.stif = none ∧
      rkMessages tanang stbrad lotsfl o = [.infoNotConverged, if lotsfl then .warnOsc else .infoOsc]) ∨
    (o.roots = none ∧ o.stif = some false ∧ rkMessages tanang stbrad lotsfl o = [.infoFree]) ∨
    ∃ r1 r2 rho, o.roots = some (r1, r2, rho) ∧
      ((¬ LeftHalf r1 r2 rho ∧ (rkMessages tanang stbrad lotsfl o = [.infoReal] ∨
          rkMessages tanang stbrad lotsfl o = [.infoComplex])) ∨
       (LeftHalf r1 r2 rho ∧ NearAxis tanang r1 ∧ r1.2 ≠ 0 ∧
          rkMessages tanang stbrad lotsfl o = [if lotsfl then .warnOsc else .infoOsc]) ∨
       (LeftHalf r1 r2 rho ∧ ¬ NearAxis tanang r1 ∧ rho < 9 / 10 * stbrad ∧
          (rkMessages tanang stbrad lotsfl o = [.infoReal] ∨ rkMessages tanang stbrad lotsfl o = [.infoComplex])) ∨
       (LeftHalf r1 r2 rho ∧ ¬ NearAxis tanang r1 ∧ 9 / 10 * stbrad ≤ rho ∧ r1.2 = 0 ∧
          rkMessages tanang stbrad lotsfl o = [.warnReal]) ∨
       (LeftHalf r1 r2 rho ∧ ¬ NearAxis tanang r1 ∧ 9 / 10 * stbrad ≤ rho ∧ r1.2 ≠ 0 ∧
          rkMessages tanang stbrad lotsfl o = [.warnComplex])) := by
  classical
  obtain ⟨hs, hr⟩ := ho
  cases hroots : o.roots with
  | none =>
    have h2 := hr hroots
    cases hst : o.stif with
    | none =>
      left
      refine ⟨rfl, rfl, ?_⟩
      unfold rkMessages assessRoots finalRootre
      rw [hroots]
      dsimp only
      rw [hst, h2]
      cases lotsfl <;> rfl
    | some b =>
      cases b with
      | true => exact absurd hst hs
      | false =>
        right; left
        refine ⟨rfl, rfl, ?_⟩
        unfold rkMessages assessRoots finalRootre
        rw [hroots]
        dsimp only
        rw [hst, h2]
        rfl
  | some t =>
    obtain ⟨r1, r2, rho⟩ := t
    right; right
    refine ⟨r1, r2, rho, rfl, ?_⟩
    have hm : rkMessages tanang stbrad lotsfl o = match assessRoots tanang stbrad o with
        | none => unsureMessages (some (decide (r1.2 = 0))) lotsfl
        | some true => if r1.2 = 0 then [.warnReal] else [.warnComplex]
        | some false => if r1.2 = 0 then [.infoReal] else [.infoComplex] := by
      unfold rkMessages finalRootre
      rw [hroots]
      dsimp only
      by_cases hz : r1.2 = 0 <;> simp only [hz, decide_true, decide_false, if_true, if_false] <;> rfl
    have hA : assessRoots tanang stbrad o = if ¬ LeftHalf r1 r2 rho then some false
        else if NearAxis tanang r1 then none else some (decide (rho ≥ 9 / 10 * stbrad)) := by
      unfold assessRoots
      rw [hroots]
      dsimp only
      unfold LeftHalf NearAxis
      by_cases h1 : r1.1 > 0
      · rw [if_pos h1, if_pos]
        rintro ⟨h, -⟩
        linarith
      · rw [if_neg h1]
        by_cases h2 : Real.sqrt (r2.1 ^ 2 + r2.2 ^ 2) ≥ 9 / 10 * rho ∧ r2.1 > 0
        · rw [if_pos h2, if_pos]
          rintro ⟨-, h⟩
          exact h h2
        · rw [if_neg h2, if_neg (not_not.mpr ⟨not_lt.mp h1, h2⟩)]
    by_cases hL : LeftHalf r1 r2 rho
    · rw [if_neg (not_not.mpr hL)] at hA
      by_cases hN : NearAxis tanang r1
      · have hz : r1.2 ≠ 0 := by
          intro hz
          unfold NearAxis at hN
          rw [hz, abs_zero] at hN
          have := mul_nonneg (abs_nonneg r1.1) ht
          linarith
        right; left
        refine ⟨hL, hN, hz, ?_⟩
        rw [hm, hA, if_pos hN]
        simp only [hz, decide_false]
        cases lotsfl <;> rfl
      · rw [if_neg hN] at hA
        by_cases hrho : 9 / 10 * stbrad ≤ rho
        · rw [decide_eq_true hrho] at hA
          by_cases hz : r1.2 = 0
          · right; right; right; left
            refine ⟨hL, hN, hrho, hz, ?_⟩
            rw [hm, hA]
            dsimp only
            rw [if_pos hz]
          · right; right; right; right
            refine ⟨hL, hN, hrho, hz, ?_⟩
            rw [hm, hA]
            dsimp only
            rw [if_neg hz]
        · rw [decide_eq_false hrho] at hA
          right; right; left
          refine ⟨hL, hN, not_le.mp hrho, ?_⟩
          rw [hm, hA]
          dsimp only
          by_cases hz : r1.2 = 0
          · left; rw [if_pos hz]
          · right; rw [if_neg hz]
    · left
      refine ⟨hL, ?_⟩
      rw [hm, hA, if_pos hL]
      dsimp only
      by_cases hz : r1.2 = 0
      · left; rw [if_pos hz]
      · right; rw [if_neg hz]

/-- **C94**. A Runge-Kutta method warns of stiffness exactly if the dominant root is known, it is in the left half
plane with no comparable root in the right half plane, it is not too close to the imaginary axis and `|havg λ|` is at least 0.9 times
the radius of the stability region; the message says real or complex as the root is. -/
theorem C94_rk_stiff_warning {o : StiffOut} (ho : o.Possible) {tanang stbrad : ℝ} (ht : 0 ≤ tanang) (lotsfl : Bool) :
    (StiffMsg.warnReal ∈ rkMessages tanang stbrad lotsfl o ↔ ∃ r1 r2 rho, o.roots = some (r1, r2, rho) ∧
      LeftHalf r1 r2 rho ∧ ¬ NearAxis tanang r1 ∧ 9 / 10 * stbrad ≤ rho ∧ r1.2 = 0) ∧
    (StiffMsg.warnComplex ∈ rkMessages tanang stbrad lotsfl o ↔ ∃ r1 r2 rho, o.roots = some (r1, r2, rho) ∧
      LeftHalf r1 r2 rho ∧ ¬ NearAxis tanang r1 ∧ 9 / 10 * stbrad ≤ rho ∧ r1.2 ≠ 0) := by
  rcases rk_cases ho (stbrad := stbrad) ht lotsfl with ⟨h1, h2, hm⟩ | ⟨h1, h2, hm⟩ |
    ⟨r1, r2, rho, hr, ⟨hL, hm | hm⟩ | ⟨hL, hN, hz, hm⟩ | ⟨hL, hN, hs, hm | hm⟩ | ⟨hL, hN, hs, hz, hm⟩ |
      ⟨hL, hN, hs, hz, hm⟩⟩
  · rw [hm, h1]; cases lotsfl <;> simp
  · rw [hm, h1]; simp
  · rw [hm, hr]; simp; grind
  · rw [hm, hr]; simp; grind
  · rw [hm, hr]; cases lotsfl <;> simp <;> grind
  · rw [hm, hr]; simp; grind
  · rw [hm, hr]; simp; grind
  · rw [hm, hr]; simp; grind
  · rw [hm, hr]; simp; grind

/-- **C94**. It warns of oscillations exactly if many steps failed and either the dominant roots are in the left half plane near the
imaginary axis or the test did not converge. In the last case no roots are known, but the message tells of a
complex pair (F38). -/
theorem C94_rk_oscillation_warning {o : StiffOut} (ho : o.Possible) {tanang stbrad : ℝ} (ht : 0 ≤ tanang)
    (lotsfl : Bool) :
    StiffMsg.warnOsc ∈ rkMessages tanang stbrad lotsfl o ↔ lotsfl = true ∧
      ((o.roots = none ∧ o.stif = none) ∨ ∃ r1 r2 rho, o.roots = some (r1, r2, rho) ∧
        LeftHalf r1 r2 rho ∧ NearAxis tanang r1) := by
  rcases rk_cases ho (stbrad := stbrad) ht lotsfl with ⟨h1, h2, hm⟩ | ⟨h1, h2, hm⟩ |
    ⟨r1, r2, rho, hr, ⟨hL, hm | hm⟩ | ⟨hL, hN, hz, hm⟩ | ⟨hL, hN, hs, hm | hm⟩ | ⟨hL, hN, hs, hz, hm⟩ |
      ⟨hL, hN, hs, hz, hm⟩⟩
  · rw [hm, h1]; cases lotsfl <;> simp [h2]
  · rw [hm, h1]; simp [h2]
  · rw [hm, hr]; simp; grind
  · rw [hm, hr]; simp; grind
  · rw [hm, hr]; cases lotsfl <;> simp <;> grind
  · rw [hm, hr]; simp; grind
  · rw [hm, hr]; simp; grind
  · rw [hm, hr]; simp; grind
  · rw [hm, hr]; simp; grind

/-- **C94**. At most one warning is given, it is one of these three, and the messages 'this should not happen' do not occur. -/
theorem C94_rk_messages {o : StiffOut} (ho : o.Possible) {tanang stbrad : ℝ} (ht : 0 ≤ tanang) (lotsfl : Bool) :
    ((rkMessages tanang stbrad lotsfl o).filter StiffMsg.isWarning).length ≤ 1 ∧
    StiffMsg.unexpected ∉ rkMessages tanang stbrad lotsfl o ∧
    ∀ m ∈ rkMessages tanang stbrad lotsfl o, m.isWarning = true → m = .warnReal ∨ m = .warnComplex ∨ m = .warnOsc := by
  rcases rk_cases ho (stbrad := stbrad) ht lotsfl with ⟨h1, h2, hm⟩ | ⟨h1, h2, hm⟩ |
    ⟨r1, r2, rho, hr, ⟨hL, hm | hm⟩ | ⟨hL, hN, hz, hm⟩ | ⟨hL, hN, hs, hm | hm⟩ | ⟨hL, hN, hs, hz, hm⟩ |
      ⟨hL, hN, hs, hz, hm⟩⟩ <;> rw [hm] <;> cases lotsfl <;>
    simp [StiffMsg.isWarning, List.filter]

/-- **C94**. If the problem is assessed to be stiff, the user is warned (not merely informed). -/
theorem C94_rk_stiff_warns {o : StiffOut} (ho : o.Possible) {tanang stbrad : ℝ} (lotsfl : Bool) (h : assessRoots tanang stbrad o = some true) :
    ∃ m ∈ rkMessages tanang stbrad lotsfl o, m.isWarning = true := by
  unfold rkMessages
  rw [h]
  cases hr : o.roots with
  | none =>
    unfold assessRoots at h
    rw [hr] at h
    exact absurd h ho.1
  | some t =>
    unfold finalRootre
    rw [hr]
    dsimp only
    by_cases hz : t.1.2 = 0
    · exact ⟨.warnReal, by simp [hz], rfl⟩
    · exact ⟨.warnComplex, by simp [hz], rfl⟩

/-! ### Nystrom methods -/

/-- The step size is restricted by stability in the direction of the real or of the imaginary axis. -/
def NyStiff (stbre stbim : ℝ) (r1 : Root) : Prop := 17 / 20 * stbre ≤ |r1.1| ∨ 9 / 10 * stbim ≤ |r1.2|

theorem ny_cases {o : StiffOut} (ho : o.Possible) {tanang stbre stbim : ℝ} (ht : 0 ≤ tanang) (lotsfl : Bool) :
    (o.roots = none ∧ o.stif = none ∧
      nyMessages tanang stbre stbim lotsfl o = [.infoNotConverged, if lotsfl then .warnOsc else .infoOsc]) ∨
    (o.roots = none ∧ o.stif = some false ∧ nyMessages tanang stbre stbim lotsfl o = [.infoFree]) ∨
    ∃ r1 r2 rho, o.roots = some (r1, r2, rho) ∧
      ((¬ LeftHalf r1 r2 rho ∧ (nyMessages tanang stbre stbim lotsfl o = [.infoReal] ∨
          nyMessages tanang stbre stbim lotsfl o = [.infoComplex])) ∨
       (LeftHalf r1 r2 rho ∧ NearAxis tanang r1 ∧ r1.2 ≠ 0 ∧
          nyMessages tanang stbre stbim lotsfl o = [if lotsfl then .warnOsc else .infoOsc]) ∨
       (LeftHalf r1 r2 rho ∧ ¬ NearAxis tanang r1 ∧ ¬ NyStiff stbre stbim r1 ∧
          (nyMessages tanang stbre stbim lotsfl o = [.infoReal] ∨ nyMessages tanang stbre stbim lotsfl o = [.infoComplex])) ∨
       (LeftHalf r1 r2 rho ∧ ¬ NearAxis tanang r1 ∧ NyStiff stbre stbim r1 ∧ r1.2 = 0 ∧
          nyMessages tanang stbre stbim lotsfl o = [.warnReal]) ∨
       (LeftHalf r1 r2 rho ∧ ¬ NearAxis tanang r1 ∧ NyStiff stbre stbim r1 ∧ r1.2 ≠ 0 ∧
          nyMessages tanang stbre stbim lotsfl o = [nyComplexMessage stbre stbim r1])) := by
  classical
  obtain ⟨hs, hr⟩ := ho
  cases hroots : o.roots with
  | none =>
    have h2 := hr hroots
    cases hst : o.stif with
    | none =>
      left
      refine ⟨rfl, rfl, ?_⟩
      unfold nyMessages nyAssessRoots finalRootre
      rw [hroots]
      dsimp only
      rw [hst, h2]
      cases lotsfl <;> rfl
    | some b =>
      cases b with
      | true => exact absurd hst hs
      | false =>
        right; left
        refine ⟨rfl, rfl, ?_⟩
        unfold nyMessages nyAssessRoots finalRootre
        rw [hroots]
        dsimp only
        rw [hst, h2]
        rfl
  | some t =>
    obtain ⟨r1, r2, rho⟩ := t
    right; right
    refine ⟨r1, r2, rho, rfl, ?_⟩
    have hm : nyMessages tanang stbre stbim lotsfl o = match nyAssessRoots tanang stbre stbim o with
        | none => unsureMessages (some (decide (r1.2 = 0))) lotsfl
        | some true => if r1.2 = 0 then [.warnReal] else [nyComplexMessage stbre stbim r1]
        | some false => if r1.2 = 0 then [.infoReal] else [.infoComplex] := by
      unfold nyMessages finalRootre
      rw [hroots]
      dsimp only
      by_cases hz : r1.2 = 0 <;> simp only [hz, decide_true, decide_false, if_true, if_false] <;> rfl
    have hA : nyAssessRoots tanang stbre stbim o = if ¬ LeftHalf r1 r2 rho then some false
        else if NearAxis tanang r1 then none else some (decide (NyStiff stbre stbim r1)) := by
      unfold nyAssessRoots
      rw [hroots]
      dsimp only
      unfold LeftHalf NearAxis
      by_cases h1 : r1.1 > 0
      · rw [if_pos h1, if_pos]
        rintro ⟨h, -⟩
        linarith
      · rw [if_neg h1]
        by_cases h2 : Real.sqrt (r2.1 ^ 2 + r2.2 ^ 2) ≥ 9 / 10 * rho ∧ r2.1 > 0
        · rw [if_pos h2, if_pos]
          rintro ⟨-, h⟩
          exact h h2
        · rw [if_neg h2, if_neg (not_not.mpr ⟨not_lt.mp h1, h2⟩)]
          have e : decide (|r1.1| ≥ 17 / 20 * stbre ∨ |r1.2| ≥ 9 / 10 * stbim) = decide (NyStiff stbre stbim r1) :=
            decide_eq_decide.mpr Iff.rfl
          rw [e]
    by_cases hL : LeftHalf r1 r2 rho
    · rw [if_neg (not_not.mpr hL)] at hA
      by_cases hN : NearAxis tanang r1
      · have hz : r1.2 ≠ 0 := by
          intro hz
          unfold NearAxis at hN
          rw [hz, abs_zero] at hN
          have := mul_nonneg (abs_nonneg r1.1) ht
          linarith
        right; left
        refine ⟨hL, hN, hz, ?_⟩
        rw [hm, hA, if_pos hN]
        simp only [hz, decide_false]
        cases lotsfl <;> rfl
      · rw [if_neg hN] at hA
        by_cases hrho : NyStiff stbre stbim r1
        · rw [decide_eq_true hrho] at hA
          by_cases hz : r1.2 = 0
          · right; right; right; left
            refine ⟨hL, hN, hrho, hz, ?_⟩
            rw [hm, hA]
            dsimp only
            rw [if_pos hz]
          · right; right; right; right
            refine ⟨hL, hN, hrho, hz, ?_⟩
            rw [hm, hA]
            dsimp only
            rw [if_neg hz]
        · rw [decide_eq_false hrho] at hA
          right; right; left
          refine ⟨hL, hN, hrho, ?_⟩
          rw [hm, hA]
          dsimp only
          by_cases hz : r1.2 = 0
          · left; rw [if_pos hz]
          · right; rw [if_neg hz]
    · left
      refine ⟨hL, ?_⟩
      rw [hm, hA, if_pos hL]
      dsimp only
      by_cases hz : r1.2 = 0
      · left; rw [if_pos hz]
      · right; rw [if_neg hz]

/-- **C94**. A Nystrom method warns of a stiff real root exactly if the roots are in the left half plane, the
dominant root is real and at least 0.85 times the real stability limit. -/
theorem C94_ny_real_warning {o : StiffOut} (ho : o.Possible) {tanang stbre stbim : ℝ} (ht : 0 ≤ tanang)
    (hi : 0 < stbim) (lotsfl : Bool) :
    StiffMsg.warnReal ∈ nyMessages tanang stbre stbim lotsfl o ↔ ∃ r1 r2 rho, o.roots = some (r1, r2, rho) ∧
      LeftHalf r1 r2 rho ∧ 17 / 20 * stbre ≤ |r1.1| ∧ r1.2 = 0 := by
  have hnot : ∀ m : StiffMsg, m = .warnReal → ∀ r1, m ≠ nyComplexMessage stbre stbim r1 := by
    intro m hm r1
    rw [hm]
    unfold nyComplexMessage
    split
    · decide
    · split <;> decide
  have hnear : ∀ r1 : Root, r1.2 = 0 → ¬ NearAxis tanang r1 := by
    intro r1 hz h
    unfold NearAxis at h
    rw [hz, abs_zero] at h
    have := mul_nonneg (abs_nonneg r1.1) ht
    linarith
  have hst : ∀ r1 : Root, r1.2 = 0 → (NyStiff stbre stbim r1 ↔ 17 / 20 * stbre ≤ |r1.1|) := by
    intro r1 hz
    unfold NyStiff
    rw [hz, abs_zero]
    constructor
    · rintro (h | h)
      · exact h
      · linarith
    · exact Or.inl
  rcases ny_cases ho (stbre := stbre) (stbim := stbim) ht lotsfl with ⟨h1, h2, hm⟩ | ⟨h1, h2, hm⟩ |
    ⟨r1, r2, rho, hr, ⟨hL, hm | hm⟩ | ⟨hL, hN, hz, hm⟩ | ⟨hL, hN, hs, hm | hm⟩ | ⟨hL, hN, hs, hz, hm⟩ |
      ⟨hL, hN, hs, hz, hm⟩⟩
  · rw [hm, h1]; cases lotsfl <;> simp
  · rw [hm, h1]; simp
  · rw [hm, hr]; simp; grind
  · rw [hm, hr]; simp; grind
  · rw [hm, hr]; cases lotsfl <;> simp <;> grind
  · rw [hm, hr]; simp; grind
  · rw [hm, hr]; simp; grind
  · rw [hm, hr]; simp; grind
  · rw [hm, hr, List.mem_singleton]
    refine iff_of_false (hnot _ rfl r1) ?_
    rintro ⟨s1, s2, rho', he, -, -, h⟩
    cases he
    exact hz h

/-- **C94**. It warns of a stiff complex pair exactly if the pair is in the left half plane, not too close to the
imaginary axis, and its real part is at least 0.9 times the real stability limit or its imaginary part at least
0.9 times the imaginary limit. -/
theorem C94_ny_complex_warning {o : StiffOut} (ho : o.Possible) {tanang stbre stbim : ℝ} (ht : 0 ≤ tanang)
    (hre : 0 ≤ stbre) (lotsfl : Bool) :
    (StiffMsg.warnLargeRe ∈ nyMessages tanang stbre stbim lotsfl o ↔ ∃ r1 r2 rho, o.roots = some (r1, r2, rho) ∧
      LeftHalf r1 r2 rho ∧ ¬ NearAxis tanang r1 ∧ r1.2 ≠ 0 ∧ 9 / 10 * stbre ≤ |r1.1|) ∧
    (StiffMsg.warnLargeIm ∈ nyMessages tanang stbre stbim lotsfl o ↔ ∃ r1 r2 rho, o.roots = some (r1, r2, rho) ∧
      LeftHalf r1 r2 rho ∧ ¬ NearAxis tanang r1 ∧ r1.2 ≠ 0 ∧ |r1.1| < 9 / 10 * stbre ∧ 9 / 10 * stbim ≤ |r1.2|) := by
  have hst : ∀ r1 : Root, 9 / 10 * stbre ≤ |r1.1| → NyStiff stbre stbim r1 := by
    intro r1 h
    left; linarith
  have hst' : ∀ r1 : Root, 9 / 10 * stbim ≤ |r1.2| → NyStiff stbre stbim r1 := fun r1 h => Or.inr h
  rcases ny_cases ho (stbre := stbre) (stbim := stbim) ht lotsfl with ⟨h1, h2, hm⟩ | ⟨h1, h2, hm⟩ |
    ⟨r1, r2, rho, hr, ⟨hL, hm | hm⟩ | ⟨hL, hN, hz, hm⟩ | ⟨hL, hN, hs, hm | hm⟩ | ⟨hL, hN, hs, hz, hm⟩ |
      ⟨hL, hN, hs, hz, hm⟩⟩
  · rw [hm, h1]; cases lotsfl <;> simp
  · rw [hm, h1]; simp
  · rw [hm, hr]; simp; grind
  · rw [hm, hr]; simp; grind
  · rw [hm, hr]; cases lotsfl <;> simp <;> grind
  · rw [hm, hr]; simp; grind
  · rw [hm, hr]; simp; grind
  · rw [hm, hr]; simp; grind
  · rw [hm, hr]
    simp only [List.mem_singleton, Option.some.injEq, Prod.mk.injEq]
    constructor
    · constructor
      · intro h
        refine ⟨r1, r2, rho, ⟨rfl, rfl, rfl⟩, hL, hN, hz, ?_⟩
        by_contra hc
        unfold nyComplexMessage at h
        rw [if_neg (by exact hc)] at h
        split at h <;> cases h
      · rintro ⟨s1, s2, rho', ⟨rfl, rfl, rfl⟩, -, -, -, h⟩
        unfold nyComplexMessage
        rw [if_pos (by exact h)]
    · constructor
      · intro h
        refine ⟨r1, r2, rho, ⟨rfl, rfl, rfl⟩, hL, hN, hz, ?_⟩
        unfold nyComplexMessage at h
        split at h
        · cases h
        · rename_i hc
          split at h
          · rename_i hc'
            exact ⟨not_le.mp hc, hc'⟩
          · cases h
      · rintro ⟨s1, s2, rho', ⟨rfl, rfl, rfl⟩, -, -, -, h, h'⟩
        unfold nyComplexMessage
        rw [if_neg (not_le.mpr h), if_pos (by exact h')]

/-- **C94**. The oscillation warning of a Nystrom method. -/
theorem C94_ny_oscillation_warning {o : StiffOut} (ho : o.Possible) {tanang stbre stbim : ℝ} (ht : 0 ≤ tanang)
    (lotsfl : Bool) :
    StiffMsg.warnOsc ∈ nyMessages tanang stbre stbim lotsfl o ↔ lotsfl = true ∧
      ((o.roots = none ∧ o.stif = none) ∨ ∃ r1 r2 rho, o.roots = some (r1, r2, rho) ∧
        LeftHalf r1 r2 rho ∧ NearAxis tanang r1) := by
  have hnot : ∀ r1, StiffMsg.warnOsc ≠ nyComplexMessage stbre stbim r1 := by
    intro r1
    unfold nyComplexMessage
    split
    · decide
    · split <;> decide
  rcases ny_cases ho (stbre := stbre) (stbim := stbim) ht lotsfl with ⟨h1, h2, hm⟩ | ⟨h1, h2, hm⟩ |
    ⟨r1, r2, rho, hr, ⟨hL, hm | hm⟩ | ⟨hL, hN, hz, hm⟩ | ⟨hL, hN, hs, hm | hm⟩ | ⟨hL, hN, hs, hz, hm⟩ |
      ⟨hL, hN, hs, hz, hm⟩⟩
  · rw [hm, h1]; cases lotsfl <;> simp [h2]
  · rw [hm, h1]; simp [h2]
  · rw [hm, hr]; simp; grind
  · rw [hm, hr]; simp; grind
  · rw [hm, hr]; cases lotsfl <;> simp <;> grind
  · rw [hm, hr]; simp; grind
  · rw [hm, hr]; simp; grind
  · rw [hm, hr]; simp; grind
  · rw [hm, hr, List.mem_singleton]
    refine iff_of_false (hnot r1) ?_
    rintro ⟨-, h | ⟨s1, s2, rho', he, -, h⟩⟩
    · cases h.1
    · cases he
      exact hN h

/-- **C94** (F39). The message 'this should not happen' does occur in a Nystrom method, instead of a warning: exactly
for a stiff complex pair whose real part is between 0.85 and 0.9 times the real stability limit and whose
imaginary part is below 0.9 times the imaginary limit. -/
theorem C94_ny_unexpected {o : StiffOut} (ho : o.Possible) {tanang stbre stbim : ℝ} (ht : 0 ≤ tanang)
    (lotsfl : Bool) :
    StiffMsg.unexpected ∈ nyMessages tanang stbre stbim lotsfl o ↔ ∃ r1 r2 rho, o.roots = some (r1, r2, rho) ∧
      LeftHalf r1 r2 rho ∧ ¬ NearAxis tanang r1 ∧ r1.2 ≠ 0 ∧ 17 / 20 * stbre ≤ |r1.1| ∧ |r1.1| < 9 / 10 * stbre ∧
      |r1.2| < 9 / 10 * stbim := by
  rcases ny_cases ho (stbre := stbre) (stbim := stbim) ht lotsfl with ⟨h1, h2, hm⟩ | ⟨h1, h2, hm⟩ |
    ⟨r1, r2, rho, hr, ⟨hL, hm | hm⟩ | ⟨hL, hN, hz, hm⟩ | ⟨hL, hN, hs, hm | hm⟩ | ⟨hL, hN, hs, hz, hm⟩ |
      ⟨hL, hN, hs, hz, hm⟩⟩
  · rw [hm, h1]; cases lotsfl <;> simp
  · rw [hm, h1]; simp
  · rw [hm, hr]; simp; grind
  · rw [hm, hr]; simp; grind
  · rw [hm, hr]; cases lotsfl <;> simp <;> grind
  · rw [hm, hr]; unfold NyStiff at hs; simp; grind
  · rw [hm, hr]; unfold NyStiff at hs; simp; grind
  · rw [hm, hr]; simp; grind
  · rw [hm, hr]
    simp only [List.mem_singleton, Option.some.injEq, Prod.mk.injEq]
    constructor
    · intro h
      refine ⟨r1, r2, rho, ⟨rfl, rfl, rfl⟩, hL, hN, hz, ?_⟩
      unfold nyComplexMessage at h
      split at h
      · cases h
      · rename_i hc
        split at h
        · cases h
        · rename_i hc'
          rcases hs with hs | hs
          · exact ⟨hs, not_le.mp hc, not_le.mp hc'⟩
          · exact absurd hs hc'
    · rintro ⟨s1, s2, rho', ⟨rfl, rfl, rfl⟩, -, -, -, -, h, h'⟩
      unfold nyComplexMessage
      rw [if_neg (not_le.mpr h), if_neg (not_le.mpr h')]

/-- **C94**. At most one warning is given. -/
theorem C94_ny_messages {o : StiffOut} (ho : o.Possible) {tanang stbre stbim : ℝ} (ht : 0 ≤ tanang) (lotsfl : Bool) :
    ((nyMessages tanang stbre stbim lotsfl o).filter StiffMsg.isWarning).length ≤ 1 := by
  rcases ny_cases ho (stbre := stbre) (stbim := stbim) ht lotsfl with ⟨h1, h2, hm⟩ | ⟨h1, h2, hm⟩ |
    ⟨r1, r2, rho, hr, ⟨hL, hm | hm⟩ | ⟨hL, hN, hz, hm⟩ | ⟨hL, hN, hs, hm | hm⟩ | ⟨hL, hN, hs, hz, hm⟩ |
      ⟨hL, hN, hs, hz, hm⟩⟩ <;> rw [hm] <;> cases lotsfl <;>
    first | exact (List.length_filter_le _ _) | simp [StiffMsg.isWarning, List.filter]

/-! ### Witnesses -/

/-- **C94** (F38). The test is undecided without any root if the state and the start vector vanish, so with many failed
steps the user is warned about a complex pair that was never found. -/
theorem C94_no_roots_witness (f : ℝ → ℝ → ℝ) (fxy one : ℝ) :
    ∃ o, o = (stiffA f 0 0 1 1 100 0 fxy 0 one 1 (1 / 4)).1 ∧ o.roots = none ∧
      ∀ tanang stbrad, rkMessages tanang stbrad true o = [.infoNotConverged, .warnOsc] := by
  have h : (stiffA f 0 0 1 1 100 0 fxy 0 one 1 (1 / 4)).1 = ⟨none, none, none⟩ := by
    unfold stiffA stiffMain
    simp
    norm_num
  refine ⟨_, rfl, by rw [h], ?_⟩
  intro tanang stbrad
  rw [h]
  rfl

/-- The plane of `(y, y')`. -/
abbrev Plane := EuclideanSpace ℝ (Fin 2)

/-- The companion map of `y'' = - 169/36 y - 13/5 y'`. -/
noncomputable def companionJ : Plane →ₗ[ℝ] Plane where
  toFun u := !₂[u 1, - (169 / 36) * u 0 - 13 / 5 * u 1]
  map_add' u v := by
    ext i; fin_cases i <;> simp <;> ring
  map_smul' c u := by
    ext i; fin_cases i <;> simp <;> ring

/-- **C94** (F39). For the damped oscillator `y'' = - 169/36 y - 13/5 y'` (roots `-1.3 ± 1.733 i`) and the constants of `Fi4N`
(`fine.py:94-96`: `tanang = 40`, `stbre = 1.5`, `stbim = 4`), at average step size 1, the test finds the roots and
considers the problem stiff, but the only message is the one that 'should not happen'. -/
theorem C94_ny_unexpected_witness :
    nyMessages 40 (3 / 2) 4 true (stiffA (V := Plane) (fun _ u => companionJ u) 0 !₂[1, 0] 1 1 100 0
      (companionJ !₂[1, 0]) !₂[0, 1] !₂[1, 1] 1 (1 / 8)).1 = [.unexpected] := by
  have j0 : companionJ !₂[0, 1] = !₂[1, -13 / 5] := by
    ext i; fin_cases i <;> simp [companionJ]; norm_num
  have j1 : companionJ !₂[1, -13 / 5] = !₂[-13 / 5, 1859 / 900] := by
    ext i; fin_cases i <;> simp [companionJ]; norm_num
  have j2 : companionJ !₂[-13 / 5, 1859 / 900] = !₂[1859 / 900, 15379 / 2250] := by
    ext i; fin_cases i <;> simp [companionJ]; norm_num
  have inn : ∀ a b c d : ℝ, (⟪(!₂[a, b] : Plane), !₂[c, d]⟫ : ℝ) = a * c + b * d := by
    intro a b c d
    simp [PiLp.inner_apply, Fin.sum_univ_two]
    ring
  have hn : ‖(!₂[0, 1] : Plane)‖ = 1 := by simp [EuclideanSpace.norm_eq]
  have hmain := C63_exact_quadratic (V := Plane) (f := fun _ u => companionJ u) (x := 0) (y := !₂[1, 0])
    (fxy := companionJ !₂[1, 0]) (J := companionJ) (fun v => map_add _ _ _) (hnow := 1) (havg := 1) (xend := 100)
    (maxfcn := 0) (v0 := !₂[0, 1]) (one := !₂[1, 1]) hn (cost := 1) (epsneg := 1 / 8) (α := 13 / 5)
    (β := 169 / 36) (by norm_num)
    (by
      rw [one_smul, one_smul, j0, j1]
      ext i; fin_cases i <;> simp <;> norm_num)
    (by
      rw [one_smul, j0, ← Real.sqrt_sq (norm_nonneg _), ← real_inner_self_eq_norm_sq, inn]
      rw [show (10 : ℝ) ^ 10 = Real.sqrt ((10 ^ 10) ^ 2) from (Real.sqrt_sq (by norm_num)).symm]
      exact Real.sqrt_le_sqrt (by norm_num))
    (by
      rw [one_smul, j0, inn]
      have : ((1 / 8 : ℝ)) ^ (1 / 3 : ℝ) ≤ 1 := Real.rpow_le_one (by norm_num) (by norm_num) (by norm_num)
      refine this.trans ?_
      norm_num)
    (by rw [one_smul, j0, inn, inn, inn]; norm_num)
    (by rw [one_smul, one_smul, j0, j1]; unfold Apart; rw [inn, inn, inn]; norm_num)
    (by rw [one_smul, one_smul, one_smul, j0, j1, j2]; unfold Apart; rw [inn, inn, inn]; norm_num)
    one_ne_zero (by norm_num) (by norm_num) (by norm_num)
  have hsq : Real.sqrt |(13 / 5 / 2 : ℝ) ^ 2 - 169 / 36| = 26 / 15 := by
    rw [show |(13 / 5 / 2 : ℝ) ^ 2 - 169 / 36| = (26 / 15) ^ 2 by norm_num, Real.sqrt_sq (by norm_num)]
  have hC : stiffC (13 / 5) (169 / 36) = ((-13 / 10, 26 / 15), (-13 / 10, -26 / 15)) := by
    unfold stiffC
    dsimp only
    rw [if_neg (by norm_num), if_pos (by norm_num), hsq]
    norm_num
  rw [hmain, hC]
  have hz : (26 / 15 : ℝ) ≠ 0 := by norm_num
  have hA : nyAssessRoots 40 (3 / 2) 4 ⟨none, some false, some ((-13 / 10, 26 / 15), (-13 / 10, -26 / 15),
      Real.sqrt ((-13 / 10) ^ 2 + (26 / 15) ^ 2))⟩ = some true := by
    unfold nyAssessRoots
    dsimp only
    rw [if_neg (by norm_num), if_neg (by rintro ⟨-, h⟩; norm_num at h), if_neg (by norm_num [abs_of_pos])]
    rw [Option.some.injEq, decide_eq_true_iff]
    left
    norm_num
  unfold nyMessages finalRootre
  rw [hA]
  dsimp only
  rw [decide_eq_false hz]
  dsimp only
  unfold nyComplexMessage
  rw [if_neg (by norm_num), if_neg (by norm_num)]

end Extensisq
