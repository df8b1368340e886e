import Verif.Props.DriverControl
import Mathlib.Algebra.Module.LinearMap.Basic

/-!
# What a Runge-Kutta step computes: C05, C10, C16, C18, C19

The specification of an explicit Runge-Kutta step is the textbook one (`IsRKStep`).
-/

set_option linter.unusedSectionVars false

namespace Extensisq
open Finset

section
variable {K V : Type*} [Field K] [LinearOrder K] [AddCommGroup V] [Module K V]

/-! ## Specification -/

/-- Textbook definition of one explicit Runge-Kutta step of size `h` from `(t, y)` to `yNew`, with
stage derivatives `k 0 .. k (s-1)` and `k s` the derivative at the new point. -/
structure IsRKStep (T : Tableau K) (rhs : K → V → V) (t : K) (y : V) (h : K) (k : ℕ → V)
    (yNew : V) : Prop where
  stage : ∀ i, i < T.s → k i = rhs (t + T.C i * h) (y + h • ∑ j ∈ range i, T.A i j • k j)
  sol : yNew = y + h • ∑ i ∈ range T.s, T.B i • k i
  last : k T.s = rhs (t + h) yNew

/-- The embedded error estimate `h * sum_{i<=s} E_i k_i`. -/
def errorEstimate (T : Tableau K) (h : K) (k : ℕ → V) : V := h • ∑ i ∈ range (T.s + 1), T.E i • k i

/-- The attempt with a correct first derivative is a Runge-Kutta step. -/
theorem rkTrial_isRKStep (T : Tableau K) (rhs : K → V → V) (errNorm : V → V → V → ENorm K)
    (t : K) (y : V) (h : K) (Ks : ℕ → V) (hC : T.C 0 = 0) (hs : 0 < T.s) :
    let tr := rkTrial T rhs errNorm t y (rhs t y) h Ks
    let k := Function.update tr.stages T.s (rhs (t + h) tr.yNew)
    IsRKStep T rhs t y h k tr.yNew ∧ tr.err = errNorm y tr.yNew (errorEstimate T h k) ∧
      (T.fsal = true → tr.stages T.s = rhs (t + h) tr.yNew) := by
  intro tr k
  set K0 := Function.update Ks 0 (rhs t y) with hK0
  set K1 := rkStages T rhs t y h T.s K0 with hK1
  have hyn : tr.yNew = rkSolution T y h K1 := rfl
  have hst : tr.stages = if T.fsal then Function.update K1 T.s (rhs (t + h) tr.yNew) else K1 := rfl
  have hk : k = Function.update K1 T.s (rhs (t + h) tr.yNew) := by
    change Function.update tr.stages T.s _ = _
    rw [hst]; split_ifs
    · rw [Function.update_idem]
    · rfl
  have hlt : ∀ i, i < T.s → k i = K1 i := by
    intro i hi; rw [hk, Function.update_of_ne (by omega)]
  have hlast : k T.s = rhs (t + h) tr.yNew := by rw [hk, Function.update_self]
  refine ⟨⟨?_, ?_, hlast⟩, ?_, ?_⟩
  · intro i hi
    by_cases h0 : i = 0
    · subst h0
      rw [hlt 0 hi, hK1, rkStages_zero, hK0, Function.update_self]
      simp [hC]
    · rw [hlt i hi, hK1, rkStages_eq T rhs t y h T.s K0 i (by omega) hi, ← hK1]
      unfold rkStage
      congr 3
      apply sum_congr rfl
      intro j hj
      rw [hlt j (lt_trans (mem_range.mp hj) hi)]
  · rw [hyn]; unfold rkSolution
    congr 2
    apply sum_congr rfl
    intro i hi
    rw [hlt i (mem_range.mp hi)]
  · change errNorm y tr.yNew (rkError T h tr.stages) = _
    congr 1
    unfold rkError errorEstimate
    congr 1
    rw [hst]
    by_cases hf : T.fsal = true
    · simp only [hf, if_true]; rw [hk]
    · simp only [hf, Bool.false_eq_true, if_false, add_zero]
      rw [sum_range_succ]
      have hE : T.E T.s = 0 := by
        unfold Tableau.fsal at hf; simpa using hf
      rw [hE, zero_smul, add_zero]
      apply sum_congr rfl
      intro i hi
      rw [hlt i (mem_range.mp hi)]
  · intro hf
    rw [hst, if_pos hf, Function.update_self]

end

section
variable {K V : Type*} [Field K] [LinearOrder K] [IsStrictOrderedRing K] [AddCommGroup V]
  [Module K V]

/-! ## C10 -/

/-- **C10**. After construction and after any history of `step()` calls (also failed ones, and even
if the stiffness bookkeeping raised), the stored derivative is `fun(t, y)` at the current point. -/
theorem C10_stored_derivative_current {c : Cfg K V V} {T : Tableau K} {rhs : K → V → V}
    {errNorm : V → V → V → ENorm K} {P : PreTest K V} (hm : c.m = rkMethod T rhs errNorm P)
    {t0 : K} {y0 : V} {h0 : K} {e0 : ℕ} {Ks0 : ℕ → V} {v : Solver K V V}
    (hr : Reach c (newSolver c t0 y0 h0 e0 Ks0) v) : v.st.f = rhs v.st.t v.st.y := by
  induction hr with
  | refl => simp [newSolver, hm, rkMethod]
  | @tail v v' o fuel hr hs ih =>
    rcases step_impl_or hs with ⟨h1, _⟩ | ⟨_, hi⟩
    · rw [h1]; exact ih
    · rcases stepImpl_effect hi with ⟨k, Ks, e, j, ho, hs⟩ |
        ⟨k, ch, x, f0, std, s1, hmin, hpre, herr, hx, haf, hs1, ho⟩
      · rw [hs]; exact ih
      · have key : s1.f = rhs s1.t s1.y := by
          rw [hs1]
          simp only [acceptState, Chain.last, hm, rkMethod]
          by_cases hf : T.fsal = true
          · simp only [hf, if_true]
            simp only [rkTrial, hf, if_true, Function.update_self]
          · simp only [hf, Bool.false_eq_true, if_false, Function.update_self]
        rcases ho with ⟨_, b, hd⟩ | ⟨_, _, hd⟩
        · rw [diagnose_same hd]; exact key
        · rw [hd]; exact key

theorem acceptState_congr (c : Cfg K V V) (s : St K V V) {tr tr' : Trial K V V}
    (h1 : tr.yNew = tr'.yNew) (h2 : tr.stages = tr'.stages) {h hN x f : K} {b : Bool} :
    acceptState c s tr h hN x f b = acceptState c s tr' h hN x f b := by
  unfold acceptState; rw [h1, h2]

/-! ## C05: full functional specification of a successful step -/

/-- **C05**. Every successful step of a solver of class `RungeKutta` is, for some step size `h`, a
textbook Runge-Kutta step from the previous point, whose embedded error estimate has a scaled norm
that is a finite number below one. -/
theorem C05_successful_step_is_rk_step {c : Cfg K V V} {T : Tableau K} {rhs : K → V → V}
    {errNorm : V → V → V → ENorm K} {P : PreTest K V} (hm : c.m = rkMethod T rhs errNorm P) (hC : T.C 0 = 0)
    (hs : 0 < T.s) {t0 : K} {y0 : V} {h0 : K} {e0 : ℕ} {Ks0 : ℕ → V} {v v' : Solver K V V}
    (hr : Reach c (newSolver c t0 y0 h0 e0 Ks0) v) {fuel : ℕ} (hne : c.tb ≠ some v.st.t)
    (h : step c fuel v = some (.ok, v')) :
    ∃ (h : K) (k : ℕ → V) (x : K),
      IsRKStep T rhs v.st.t v.st.y h k v'.st.y ∧ v'.st.t = v.st.t + h ∧
      errNorm v.st.y v'.st.y (errorEstimate T h k) = .num x ∧ x < 1 ∧
      (∀ i, i ≤ T.s → v'.st.Ks i = k i) ∧ v'.st.f = k T.s ∧ v'.st.yOld = some v.st.y ∧
      (P.early = false → v'.st.fOld = some v.st.f) ∧ v'.st.hPrev = some h := by
  have hf := C10_stored_derivative_current hm hr
  obtain ⟨-, hi, -⟩ := step_ok_impl hne h
  rcases stepImpl_effect hi with ⟨k, Ks, e, j, ho, hs⟩ | ⟨k, ch, x, f0, std, s1, hmin, hpre, herr, hx, haf, hs1, ho⟩
  · rcases ho with h | h | h <;> cases h
  · rcases ho with ⟨_, b, hd⟩ | ⟨h, _⟩
    swap
    · cases h
    obtain ⟨hrk, herr', hfs⟩ := rkTrial_isRKStep T rhs errNorm v.st.t v.st.y (ch.hs k * c.dir)
      (ch.Ks k) hC hs
    have htr : ∃ tr : Trial K V V, tr =
        rkTrial T rhs errNorm v.st.t v.st.y (rhs v.st.t v.st.y) (ch.hs k * c.dir) (ch.Ks k) ∧
        (c.m.trial v.st.t v.st.y v.st.f (ch.hs k * c.dir) (ch.Ks k)).yNew = tr.yNew ∧
        (c.m.trial v.st.t v.st.y v.st.f (ch.hs k * c.dir) (ch.Ks k)).stages = tr.stages ∧
        (c.m.trial v.st.t v.st.y v.st.f (ch.hs k * c.dir) (ch.Ks k)).err = tr.err := by
      refine ⟨_, rfl, ?_⟩
      rw [← hf]; generalize ch.hs k = hh; generalize ch.Ks k = KK; rw [hm]; exact ⟨rfl, rfl, rfl⟩
    obtain ⟨tr, etr, e1, e2, e3⟩ := htr
    rw [← etr] at hrk herr' hfs
    rw [e3] at herr
    rw [acceptState_congr _ _ e1 e2] at hs1
    have ey : v'.st.y = tr.yNew := by rw [diagnose_same hd, hs1]; rfl
    have eK : v'.st.Ks = Function.update tr.stages T.s (rhs (v.st.t + ch.hs k * c.dir) tr.yNew) := by
      rw [diagnose_same hd, hs1]
      simp only [acceptState, hm, rkMethod]
      by_cases hfsal : T.fsal = true
      · rw [if_pos hfsal, ← hfs hfsal, Function.update_eq_self]
      · rw [if_neg hfsal]; rfl
    have ef : v'.st.f = v'.st.Ks T.s := by
      rw [diagnose_same hd, hs1]
      simp only [acceptState, hm, rkMethod]
    refine ⟨ch.hs k * c.dir, _, x, by rw [ey]; exact hrk, ?_, ?_, hx, ?_, ?_, ?_, ?_, ?_⟩
    · rw [diagnose_same hd, hs1]; rfl
    · rw [ey, ← herr', herr]
    · intro i _; rw [eK]
    · rw [ef, eK]
    · rw [diagnose_same hd, hs1]; rfl
    · intro _; rw [diagnose_same hd, hs1]; rfl
    · rw [diagnose_same hd, hs1]; rfl

/-! ## C16 -/

theorem IsRKStep.linear_invariant {T : Tableau K} {rhs : K → V → V} {U : Type*} [AddCommGroup U]
    [Module K U] {l : V →ₗ[K] U} (hl : ∀ t y, l (rhs t y) = 0) {t : K} {y : V} {h : K} {k : ℕ → V}
    {yNew : V} (hk : IsRKStep T rhs t y h k yNew) : l yNew = l y := by
  have h0 : ∀ i, i < T.s → l (k i) = 0 := fun i hi => by rw [hk.stage i hi]; exact hl _ _
  rw [hk.sol, map_add, map_smul, map_sum]
  rw [sum_eq_zero, smul_zero, add_zero]
  intro i hi
  rw [map_smul, h0 i (mem_range.mp hi), smul_zero]

/-- **C16**. A linear invariant of the problem (`l(fun(t,y)) = 0` for all `t, y`) is conserved exactly
by every solver of class `RungeKutta`, with any tableau and any history of `step()` calls. -/
theorem C16_linear_invariant_conserved {c : Cfg K V V} {T : Tableau K} {rhs : K → V → V}
    {errNorm : V → V → V → ENorm K} {P : PreTest K V} (hm : c.m = rkMethod T rhs errNorm P) {U : Type*} [AddCommGroup U]
    [Module K U] (l : V →ₗ[K] U) (hl : ∀ t y, l (rhs t y) = 0)
    {t0 : K} {y0 : V} {h0 : K} {e0 : ℕ} {Ks0 : ℕ → V} {v : Solver K V V}
    (hr : Reach c (newSolver c t0 y0 h0 e0 Ks0) v) : l v.st.y = l y0 := by
  induction hr with
  | refl => rfl
  | @tail v v' o fuel hr hs ih =>
    have hf := C10_stored_derivative_current hm hr
    rcases step_impl_or hs with ⟨h1, _⟩ | ⟨_, hi⟩
    · rw [h1]; exact ih
    · rcases stepImpl_effect hi with ⟨k, Ks, e, j, ho, hs⟩ |
        ⟨k, ch, x, f0, std, s1, hmin, hpre, herr, hx, haf, hs1, ho⟩
      · rw [hs]; exact ih
      · have key : l s1.y = l v.st.y := by
          rw [hs1]
          simp only [acceptState, Chain.last, hm, rkMethod, rkTrial, rkSolution]
          rw [map_add, map_smul, map_sum, sum_eq_zero, smul_zero, add_zero]
          intro i hi
          rw [map_smul]
          have : l (rkStages T rhs v.st.t v.st.y (ch.hs k * c.dir) T.s
              (Function.update (ch.Ks k) 0 v.st.f) i) = 0 := by
            by_cases h0 : i = 0
            · subst h0; rw [rkStages_zero, Function.update_self, hf]; exact hl _ _
            · rw [rkStages_eq _ _ _ _ _ _ _ _ (by omega) (mem_range.mp hi)]; exact hl _ _
          rw [this, smul_zero]
        rcases ho with ⟨_, b, hd⟩ | ⟨_, _, hd⟩
        · rw [diagnose_same hd]; exact key.trans ih
        · rw [hd]; exact key.trans ih

/-! ## C18 -/

/-- **C18**. A linear map intertwining two right-hand sides maps a Runge-Kutta step (stages, solution
and error estimate) of the first problem to the step of the second problem. -/
theorem C18_linear_change_of_variables {U : Type*} [AddCommGroup U] [Module K U]
    {T : Tableau K} {f : K → V → V} {g : K → U → U} (L : V →ₗ[K] U)
    (hL : ∀ t y, L (f t y) = g t (L y)) {t : K} {y : V} {h : K} {k : ℕ → V} {yNew : V}
    (hk : IsRKStep T f t y h k yNew) :
    IsRKStep T g t (L y) h (fun i => L (k i)) (L yNew) ∧
    errorEstimate T h (fun i => L (k i)) = L (errorEstimate T h k) := by
  refine ⟨⟨?_, ?_, ?_⟩, ?_⟩
  · intro i hi
    rw [hk.stage i hi, hL, map_add, map_smul, map_sum]
    simp only [map_smul]
  · rw [hk.sol, map_add, map_smul, map_sum]
    simp only [map_smul]
  · rw [hk.last, hL]
  · unfold errorEstimate
    rw [map_smul, map_sum]
    simp only [map_smul]

/-- The step of a problem is unique: stages and solution are functions of `(t, y, h)`. Hence `C18`
says that solving the transformed problem gives the transformed solution. -/
theorem IsRKStep.unique {T : Tableau K} {rhs : K → V → V} {t : K} {y : V} {h : K} {k k' : ℕ → V}
    {yNew yNew' : V} (hk : IsRKStep T rhs t y h k yNew) (hk' : IsRKStep T rhs t y h k' yNew') :
    yNew = yNew' ∧ ∀ i, i ≤ T.s → k i = k' i := by
  have h0 : ∀ i, i < T.s → k i = k' i := by
    intro i
    induction i using Nat.strong_induction_on with
    | _ i ih =>
      intro hi
      rw [hk.stage i hi, hk'.stage i hi]
      congr 3
      apply sum_congr rfl
      intro j hj
      have hji := mem_range.mp hj
      rw [ih j hji (by omega)]
  have h1 : yNew = yNew' := by
    rw [hk.sol, hk'.sol]
    congr 2
    apply sum_congr rfl
    intro i hi
    rw [h0 i (mem_range.mp hi)]
  refine ⟨h1, fun i hi => ?_⟩
  rcases Nat.lt_or_ge i T.s with hlt | hge
  · exact h0 i hlt
  · have : i = T.s := by omega
    rw [this, hk.last, hk'.last, h1]

/-! ## C19 -/

/-- **C19**. If the rows of `A` sum to `C` and `B` sums to one, then a step for `y' = f(t, y)` and a
step of the autonomous system `(t, y)' = (1, f(t, y))` are the same. -/
theorem C19_time_as_state {T : Tableau K} {f : K → V → V}
    (hA : ∀ i, i < T.s → ∑ j ∈ range i, T.A i j = T.C i) (hB : ∑ i ∈ range T.s, T.B i = 1)
    {t : K} {y : V} {h : K} {k : ℕ → V} {yNew : V} (hk : IsRKStep T f t y h k yNew) (τ : K) :
    IsRKStep T (fun (_ : K) (z : K × V) => ((1 : K), f z.1 z.2)) τ (t, y) h
      (fun i => ((1 : K), k i)) (t + h, yNew) := by
  have hsum : ∀ (n : ℕ) (a : ℕ → K), ∑ j ∈ range n, a j • ((1 : K), k j) =
      (∑ j ∈ range n, a j, ∑ j ∈ range n, a j • k j) := by
    intro n a
    rw [Prod.ext_iff]
    simp [Prod.fst_sum, Prod.snd_sum]
  refine ⟨?_, ?_, ?_⟩
  · intro i hi
    rw [hsum, hA i hi]
    simp only [Prod.smul_mk, Prod.mk_add_mk, smul_eq_mul]
    rw [hk.stage i hi, mul_comm h]
  · rw [hsum, hB, hk.sol]
    simp
  · simp only
    rw [hk.last]

end
end Extensisq
