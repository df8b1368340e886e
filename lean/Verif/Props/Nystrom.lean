import Verif.Model.NystromTables
import Verif.Props.RKStep
import Verif.Model.Example
import Mathlib.Tactic.Module

/-!
# C55: what a Nystrom step computes

The specification of an explicit Nystrom step is the textbook one (`IsNyStep`).
-/

set_option linter.unusedSectionVars false

namespace Extensisq
open Finset

section
variable {K X : Type*} [Field K] [LinearOrder K] [AddCommGroup X] [Module K X]

/-! ## Specification -/

/-- Textbook definition of one explicit Nystrom step of size `h` for `u'' = acc(t, u, u')` from
`(t, (u, v))` to `yNew`, with stage accelerations `k 0 .. k (s-1)` and `k s` the acceleration at the new
point. -/
structure IsNyStep (T : NTableau K) (acc : K → X × X → X) (t : K) (y : X × X) (h : K) (k : ℕ → X)
    (yNew : X × X) : Prop where
  stage : ∀ i, i < T.s → k i = acc (t + T.C i * h)
    (y.1 + (T.C i * h) • y.2 + h ^ 2 • ∑ j ∈ range i, T.A i j • k j,
     y.2 + h • ∑ j ∈ range i, T.Ap i j • k j)
  pos : yNew.1 = y.1 + h • y.2 + h ^ 2 • ∑ i ∈ range T.s, T.B i • k i
  vel : yNew.2 = y.2 + h • ∑ i ∈ range T.s, T.Bp i • k i
  last : k T.s = acc (t + h) yNew

/-- The embedded error estimate of position and velocity. -/
def nyErrorEstimate (T : NTableau K) (h : K) (k : ℕ → X) : X × X :=
  (h ^ 2 • ∑ i ∈ range (T.s + 1), T.E i • k i, h • ∑ i ∈ range (T.s + 1), T.Ep i • k i)

/-! ## Helper lemmas on the stage loop -/

theorem nyStages_zero (T : NTableau K) (acc : K → X × X → X) (t : K) (y : X × X) (h : K) (n : ℕ)
    (Ks : ℕ → X) : nyStages T acc t y h n Ks 0 = Ks 0 := by
  induction n with
  | zero => rfl
  | succ n ih =>
    cases n with
    | zero => rfl
    | succ n => simp only [nyStages]; rw [Function.update_of_ne (by omega)]; exact ih

theorem nyStage_congr (T : NTableau K) (acc : K → X × X → X) (t : K) (y : X × X) (h : K)
    (K1 K2 : ℕ → X) (i : ℕ) (hk : ∀ j, j < i → K1 j = K2 j) :
    nyStage T acc t y h K1 i = nyStage T acc t y h K2 i := by
  have e : ∀ c : ℕ → K, ∑ j ∈ range i, c j • K1 j = ∑ j ∈ range i, c j • K2 j := fun c =>
    sum_congr rfl fun j hj => by rw [hk j (mem_range.mp hj)]
  unfold nyStage nyArg
  rw [e, e]

theorem nyStages_eq (T : NTableau K) (acc : K → X × X → X) (t : K) (y : X × X) (h : K) (n : ℕ)
    (Ks : ℕ → X) (i : ℕ) (h0 : 0 < i) (hi : i < n) :
    nyStages T acc t y h n Ks i = nyStage T acc t y h (nyStages T acc t y h n Ks) i := by
  induction n with
  | zero => omega
  | succ n ih =>
    cases n with
    | zero => omega
    | succ n =>
      simp only [nyStages]
      have hc : ∀ j, j < i → Function.update (nyStages T acc t y h (n + 1) Ks) (n + 1)
          (nyStage T acc t y h (nyStages T acc t y h (n + 1) Ks) (n + 1)) j =
          nyStages T acc t y h (n + 1) Ks j := by
        intro j hj; rw [Function.update_of_ne (by omega)]
      rw [nyStage_congr T acc t y h _ _ i hc]
      by_cases he : i = n + 1
      · subst he; rw [Function.update_self]
      · rw [Function.update_of_ne he]; exact ih (by omega)

/-- The attempt with a correct first acceleration is a Nystrom step. -/
theorem nyTrial_isNyStep (T : NTableau K) (acc : K → X × X → X)
    (errNorm : X × X → X × X → X × X → ENorm K)
    (t : K) (y : X × X) (h : K) (Ks : ℕ → X) (hC : T.C 0 = 0) (hs : 0 < T.s) :
    let tr := nyTrial T acc errNorm t y (acc t y) h Ks
    let k := Function.update tr.stages T.s (acc (t + h) tr.yNew)
    IsNyStep T acc t y h k tr.yNew ∧ tr.err = errNorm y tr.yNew (nyErrorEstimate T h k) ∧
      (T.fsal = true → tr.stages T.s = acc (t + h) tr.yNew) := by
  intro tr k
  set K0 := Function.update Ks 0 (acc t y) with hK0
  set K1 := nyStages T acc t y h T.s K0 with hK1
  have hyn : tr.yNew = nySolution T y h K1 := rfl
  have hst : tr.stages = if T.fsal then Function.update K1 T.s (acc (t + h) tr.yNew) else K1 := rfl
  have hk : k = Function.update K1 T.s (acc (t + h) tr.yNew) := by
    change Function.update tr.stages T.s _ = _
    rw [hst]; split_ifs
    · rw [Function.update_idem]
    · rfl
  have hlt : ∀ i, i < T.s → k i = K1 i := by
    intro i hi; rw [hk, Function.update_of_ne (by omega)]
  have hlast : k T.s = acc (t + h) tr.yNew := by rw [hk, Function.update_self]
  have hsum : ∀ (c : ℕ → K) (i : ℕ), i ≤ T.s → ∑ j ∈ range i, c j • k j = ∑ j ∈ range i, c j • K1 j :=
    fun c i hi => sum_congr rfl fun j hj => by
      rw [hlt j (lt_of_lt_of_le (mem_range.mp hj) hi)]
  refine ⟨⟨?_, ?_, ?_, hlast⟩, ?_, ?_⟩
  · intro i hi
    by_cases h0 : i = 0
    · subst h0
      rw [hlt 0 hi, hK1, nyStages_zero, hK0, Function.update_self]
      simp [hC]
    · rw [hlt i hi, hK1, nyStages_eq T acc t y h T.s K0 i (by omega) hi, ← hK1]
      unfold nyStage nyArg
      rw [hsum _ _ hi.le, hsum _ _ hi.le]
      congr 2
      abel
  · rw [hyn, hsum _ _ le_rfl]; unfold nySolution
    simp only
    abel
  · rw [hyn, hsum _ _ le_rfl]; rfl
  · change errNorm y tr.yNew (nyError T h tr.stages) = _
    congr 1
    unfold nyError nyErrorEstimate
    rw [hst]
    unfold NTableau.rows
    by_cases hf : T.fsal = true
    · simp only [hf, if_true]; rw [hk]
    · simp only [hf, Bool.false_eq_true, if_false, add_zero]
      rw [sum_range_succ, sum_range_succ]
      have hE : T.E T.s = 0 ∧ T.Ep T.s = 0 := by
        unfold NTableau.fsal at hf; simpa using hf
      rw [hE.1, hE.2]
      simp only [zero_smul, add_zero]
      rw [hsum _ _ le_rfl, hsum _ _ le_rfl]
  · intro hf
    rw [hst, if_pos hf, Function.update_self]

end

section
variable {K X : Type*} [Field K] [LinearOrder K] [IsStrictOrderedRing K] [AddCommGroup X] [Module K X]

/-- **C55**. After construction and any history of `step()` calls, the stored acceleration is that of the
current point. -/
theorem C55_stored_acceleration_current {c : Cfg K (X × X) X} {T : NTableau K} {acc : K → X × X → X}
    {errNorm : X × X → X × X → X × X → ENorm K} (hm : c.m = nyMethod T acc errNorm)
    {t0 : K} {y0 : X × X} {h0 : K} {e0 : ℕ} {Ks0 : ℕ → X} {v : Solver K (X × X) X}
    (hr : Reach c (newSolver c t0 y0 h0 e0 Ks0) v) : v.st.f = acc v.st.t v.st.y := by
  induction hr with
  | refl => simp [newSolver, hm, nyMethod]
  | @tail v v' o fuel hr hs ih =>
    rcases step_impl_or hs with ⟨h1, _⟩ | ⟨_, hi⟩
    · rw [h1]; exact ih
    · rcases stepImpl_effect hi with ⟨k, Ks, e, j, ho, hs⟩ |
        ⟨k, ch, x, f0, std, s1, hmin, hpre, herr, hx, haf, hs1, ho⟩
      · rw [hs]; exact ih
      · have key : s1.f = acc s1.t s1.y := by
          rw [hs1]
          simp only [acceptState, Chain.last, hm, nyMethod]
          by_cases hf : T.fsal = true
          · simp only [hf, if_true]
            simp only [nyTrial, hf, if_true, Function.update_self]
          · simp only [hf, Bool.false_eq_true, if_false, Function.update_self]
        rcases ho with ⟨_, b, hd⟩ | ⟨_, _, hd⟩
        · rw [diagnose_same hd]; exact key
        · rw [hd]; exact key

theorem acceptState_congr2 {V F : Type*} (c : Cfg K V F) (s : St K V F) {tr tr' : Trial K V F}
    (h1 : tr.yNew = tr'.yNew) (h2 : tr.stages = tr'.stages) {h hN x f : K} {b : Bool} :
    acceptState c s tr h hN x f b = acceptState c s tr' h hN x f b := by
  unfold acceptState; rw [h1, h2]

/-- **C55**. Every successful step of a Nystrom solver is, for some step size `h`, a textbook Nystrom step
from the previous point, whose embedded error estimate (position and velocity) has a scaled norm below
one. -/
theorem C55_successful_step_is_nystrom_step {c : Cfg K (X × X) X} {T : NTableau K}
    {acc : K → X × X → X} {errNorm : X × X → X × X → X × X → ENorm K} (hm : c.m = nyMethod T acc errNorm)
    (hC : T.C 0 = 0) (hs : 0 < T.s) {t0 : K} {y0 : X × X} {h0 : K} {e0 : ℕ} {Ks0 : ℕ → X}
    {v v' : Solver K (X × X) X}
    (hr : Reach c (newSolver c t0 y0 h0 e0 Ks0) v) {fuel : ℕ} (hne : c.tb ≠ some v.st.t)
    (h : step c fuel v = some (.ok, v')) :
    ∃ (h : K) (k : ℕ → X) (x : K),
      IsNyStep T acc v.st.t v.st.y h k v'.st.y ∧ v'.st.t = v.st.t + h ∧
      errNorm v.st.y v'.st.y (nyErrorEstimate T h k) = .num x ∧ x < 1 ∧
      (∀ i, i ≤ T.s → v'.st.Ks i = k i) ∧ v'.st.f = k T.s ∧ v'.st.yOld = some v.st.y ∧
      v'.st.hPrev = some h := by
  have hf := C55_stored_acceleration_current hm hr
  obtain ⟨-, hi, -⟩ := step_ok_impl hne h
  rcases stepImpl_effect hi with ⟨k, Ks, e, j, ho, hs⟩ | ⟨k, ch, x, f0, std, s1, hmin, hpre, herr, hx, haf, hs1, ho⟩
  · rcases ho with h | h | h <;> cases h
  · rcases ho with ⟨_, b, hd⟩ | ⟨h, _⟩
    swap
    · cases h
    obtain ⟨hrk, herr', hfs⟩ := nyTrial_isNyStep T acc errNorm v.st.t v.st.y (ch.hs k * c.dir)
      (ch.Ks k) hC hs
    have htr : ∃ tr : Trial K (X × X) X, tr =
        nyTrial T acc errNorm v.st.t v.st.y (acc v.st.t v.st.y) (ch.hs k * c.dir) (ch.Ks k) ∧
        (c.m.trial v.st.t v.st.y v.st.f (ch.hs k * c.dir) (ch.Ks k)).yNew = tr.yNew ∧
        (c.m.trial v.st.t v.st.y v.st.f (ch.hs k * c.dir) (ch.Ks k)).stages = tr.stages ∧
        (c.m.trial v.st.t v.st.y v.st.f (ch.hs k * c.dir) (ch.Ks k)).err = tr.err := by
      refine ⟨_, rfl, ?_⟩
      rw [← hf]; generalize ch.hs k = hh; generalize ch.Ks k = KK; rw [hm]; exact ⟨rfl, rfl, rfl⟩
    obtain ⟨tr, etr, e1, e2, e3⟩ := htr
    rw [← etr] at hrk herr' hfs
    rw [e3] at herr
    rw [acceptState_congr2 _ _ e1 e2] at hs1
    have ey : v'.st.y = tr.yNew := by rw [diagnose_same hd, hs1]; rfl
    have eK : v'.st.Ks = Function.update tr.stages T.s (acc (v.st.t + ch.hs k * c.dir) tr.yNew) := by
      rw [diagnose_same hd, hs1]
      simp only [acceptState, hm, nyMethod]
      by_cases hfsal : T.fsal = true
      · rw [if_pos hfsal, ← hfs hfsal, Function.update_eq_self]
      · rw [if_neg hfsal]; rfl
    have ef : v'.st.f = v'.st.Ks T.s := by
      rw [diagnose_same hd, hs1]
      simp only [acceptState, hm, nyMethod]
    refine ⟨ch.hs k * c.dir, _, x, by rw [ey]; exact hrk, ?_, ?_, hx, ?_, ?_, ?_, ?_⟩
    · rw [diagnose_same hd, hs1]; rfl
    · rw [ey, ← herr', herr]
    · intro i _; rw [eK]
    · rw [ef, eK]
    · rw [diagnose_same hd, hs1]; rfl
    · rw [diagnose_same hd, hs1]; rfl

end

/-! ## Uniform motion and constant acceleration -/

section
variable {K X : Type*} [Field K] [LinearOrder K] [AddCommGroup X] [Module K X]

/-- A constant acceleration is integrated exactly if the weights sum to `1/2` and `1`. -/
theorem nystep_constant_acceleration {T : NTableau K} {g : X} {t : K} {y : X × X} {h : K} {k : ℕ → X}
    {yNew : X × X} (hB : ∑ i ∈ range T.s, T.B i = 1 / 2) (hBp : ∑ i ∈ range T.s, T.Bp i = 1)
    (hk : IsNyStep T (fun _ _ => g) t y h k yNew) :
    yNew = (y.1 + h • y.2 + (h ^ 2 / 2) • g, y.2 + h • g) := by
  have e : ∀ c : ℕ → K, ∑ i ∈ range T.s, c i • k i = (∑ i ∈ range T.s, c i) • g := by
    intro c
    rw [sum_smul]
    exact sum_congr rfl fun i hi => by rw [hk.stage i (mem_range.mp hi)]
  apply Prod.ext
  · rw [hk.pos, e, hB, smul_smul]; simp only; congr 2; ring
  · rw [hk.vel, e, hBp, one_smul]

/-- **C55**. For zero acceleration a step returns exactly `(x + h v, v)`, with any tableau, and its error
estimate is zero. -/
theorem C55_uniform_motion {T : NTableau K} {t : K} {y : X × X} {h : K} {k : ℕ → X} {yNew : X × X}
    (hk : IsNyStep T (fun _ _ => (0 : X)) t y h k yNew) :
    yNew = (y.1 + h • y.2, y.2) ∧ nyErrorEstimate T h k = 0 := by
  have e : ∀ (c : ℕ → K) (n : ℕ), n ≤ T.s + 1 → ∑ i ∈ range n, c i • k i = 0 := by
    intro c n hn
    apply sum_eq_zero
    intro i hi
    rw [mem_range] at hi
    by_cases h1 : i < T.s
    · rw [hk.stage i h1, smul_zero]
    · obtain rfl : i = T.s := by omega
      rw [hk.last, smul_zero]
  refine ⟨Prod.ext ?_ ?_, ?_⟩
  · rw [hk.pos, e _ _ (by omega), smul_zero, add_zero]
  · rw [hk.vel, e _ _ (by omega), smul_zero, add_zero]
  · unfold nyErrorEstimate; rw [e _ _ le_rfl, e _ _ le_rfl, smul_zero, smul_zero]; rfl

end

section
variable {K X : Type*} [Field K] [LinearOrder K] [IsStrictOrderedRing K] [AddCommGroup X] [Module K X]

/-- **C55**. Zero acceleration: whatever the history of `step()` calls (rejections, failures, any
controller, direction, tolerance), the solver stays on the straight line through the initial point. -/
theorem C55_uniform_motion_history {c : Cfg K (X × X) X} {T : NTableau K}
    {errNorm : X × X → X × X → X × X → ENorm K} (hm : c.m = nyMethod T (fun _ _ => (0 : X)) errNorm)
    {t0 : K} {y0 : X × X} {h0 : K} {e0 : ℕ} {Ks0 : ℕ → X} {v : Solver K (X × X) X}
    (hr : Reach c (newSolver c t0 y0 h0 e0 Ks0) v) :
    v.st.y = (y0.1 + (v.st.t - t0) • y0.2, y0.2) := by
  induction hr with
  | refl => simp [newSolver]
  | @tail v v' o fuel hr hs ih =>
    have hf := C55_stored_acceleration_current hm hr
    rcases step_impl_or hs with ⟨h1, _⟩ | ⟨_, hi⟩
    · rw [h1]; exact ih
    · rcases stepImpl_effect hi with ⟨k, Ks, e, j, ho, hs⟩ |
        ⟨k, ch, x, f0, std, s1, hmin, hpre, herr, hx, haf, hs1, ho⟩
      · rw [hs]; exact ih
      · have key : s1.y = (y0.1 + (s1.t - t0) • y0.2, y0.2) := by
          rw [hs1]
          simp only [acceptState, Chain.last, hm, nyMethod, nyTrial, nySolution]
          have hz : ∀ w : ℕ → K, ∑ i ∈ range T.s, w i • nyStages T (fun _ _ => (0 : X)) v.st.t v.st.y
              (ch.hs k * c.dir) T.s (Function.update (ch.Ks k) 0 v.st.f) i = 0 := by
            intro w
            apply sum_eq_zero
            intro i hi
            by_cases h0 : i = 0
            · subst h0; rw [nyStages_zero, Function.update_self, hf, smul_zero]
            · rw [nyStages_eq _ _ _ _ _ _ _ _ (by omega) (mem_range.mp hi)]
              exact smul_zero _
          rw [hz, hz]
          generalize ch.hs k * c.dir = H
          rw [ih]
          refine Prod.ext ?_ ?_
          · simp only; module
          · simp
        rcases ho with ⟨_, b, hd⟩ | ⟨_, _, hd⟩
        · rw [diagnose_same hd]; exact key
        · rw [hd]; exact key

end

/-! ## Relation to Runge-Kutta methods -/

section
variable {K X : Type*} [Field K] [LinearOrder K] [AddCommGroup X] [Module K X]

/-- **C55**. If `A = Ap·Ap`, `B = Bp·Ap` (strictly lower triangular `Ap` with row sums `C`, `sum Bp = 1`),
the Nystrom step is the Runge-Kutta step with matrix `Ap` and weights `Bp` of the first order system
`(u, v)' = (v, acc)`. -/
theorem C55_nystrom_step_is_rk_step {T : NTableau K} {acc : K → X × X → X} {t : K} {y : X × X} {h : K}
    {k : ℕ → X} {yNew : X × X}
    (hA : ∀ i, i < T.s → ∀ j, j < i → T.A i j = ∑ l ∈ range i, T.Ap i l * (if j < l then T.Ap l j else 0))
    (hB : ∀ j, j < T.s → T.B j = ∑ l ∈ range T.s, T.Bp l * (if j < l then T.Ap l j else 0))
    (hrow : ∀ i, i < T.s → ∑ j ∈ range i, T.Ap i j = T.C i) (hsum : ∑ i ∈ range T.s, T.Bp i = 1)
    (hk : IsNyStep T acc t y h k yNew) :
    IsRKStep ⟨T.s, T.Ap, T.Bp, T.C, T.Ep⟩ (fun t y => (y.2, acc t y)) t y h
      (fun i => ((if i < T.s then y.2 + h • ∑ j ∈ range i, T.Ap i j • k j else yNew.2), k i)) yNew := by
  -- sum over the stages of the velocity increments
  have key : ∀ (i : ℕ), i ≤ T.s → ∀ (a w : ℕ → K),
      (∀ j, j < i → w j = ∑ l ∈ range i, a l * (if j < l then T.Ap l j else 0)) →
      ∑ l ∈ range i, a l • (if l < T.s then y.2 + h • ∑ j ∈ range l, T.Ap l j • k j else yNew.2) =
        (∑ l ∈ range i, a l) • y.2 + h • ∑ j ∈ range i, w j • k j := by
    intro i hi a w hw
    have e1 : ∀ l ∈ range i, a l • (if l < T.s then y.2 + h • ∑ j ∈ range l, T.Ap l j • k j else yNew.2)
        = a l • y.2 + h • ∑ j ∈ range i, (a l * (if j < l then T.Ap l j else 0)) • k j := by
      intro l hl
      rw [mem_range] at hl
      rw [if_pos (by omega), smul_add]
      congr 1
      rw [smul_comm]
      congr 1
      rw [smul_sum]
      have hsub : range l ⊆ range i := by intro j; simp only [mem_range]; omega
      rw [← sum_subset hsub]
      · apply sum_congr rfl
        intro j hj
        rw [if_pos (mem_range.mp hj), smul_smul]
      · intro j _ hj
        rw [mem_range] at hj
        rw [if_neg hj, mul_zero, zero_smul]
    rw [sum_congr rfl e1, sum_add_distrib, ← sum_smul, ← smul_sum, sum_comm]
    congr 2
    apply sum_congr rfl
    intro j hj
    rw [← sum_smul, ← hw j (mem_range.mp hj)]
  have hfst : ∀ (n : ℕ) (c : ℕ → K) (g : ℕ → X × X), (∑ j ∈ range n, c j • g j) =
      (∑ j ∈ range n, c j • (g j).1, ∑ j ∈ range n, c j • (g j).2) := by
    intro n c g
    apply Prod.ext
    · rw [Prod.fst_sum]; rfl
    · rw [Prod.snd_sum]; rfl
  refine ⟨?_, ?_, ?_⟩
  · intro i hi
    change i < T.s at hi
    have e := key i hi.le (T.Ap i) (T.A i) (fun j hj => hA i hi j hj)
    have harg : y + h • ∑ j ∈ range i, T.Ap i j •
        ((if j < T.s then y.2 + h • ∑ l ∈ range j, T.Ap j l • k l else yNew.2), k j) =
        (y.1 + (T.C i * h) • y.2 + h ^ 2 • ∑ j ∈ range i, T.A i j • k j,
          y.2 + h • ∑ j ∈ range i, T.Ap i j • k j) := by
      rw [hfst]
      simp only
      rw [e, hrow i hi]
      apply Prod.ext
      · simp only [Prod.fst_add, Prod.smul_fst]; module
      · rfl
    simp only
    rw [harg, if_pos hi]
    exact Prod.ext rfl (hk.stage i hi)
  · simp only
    rw [hfst]
    simp only
    rw [key T.s le_rfl T.Bp T.B hB, hsum]
    apply Prod.ext
    · rw [hk.pos]; simp only [Prod.fst_add, Prod.smul_fst]; module
    · rw [hk.vel]; rfl
  · simp only [lt_irrefl, if_false]
    exact Prod.ext rfl hk.last

end

/-! ## Constructor checks -/

section
variable {K : Type*} [Field K] [DecidableEq K]

/-- **C55**. A solver is only constructed if the number of unknowns is even and the first half of
`fun(t0, y0)` is the velocity. -/
theorem C55_constructor_requires {hasAp : Bool} {fn : List K → List K} {y : List K}
    (h : nyAccepts hasAp fn y = true) :
    y.length % 2 = 0 ∧ (fn y).take (y.length / 2) = y.drop (y.length / 2) := by
  unfold nyAccepts at h
  simp only at h
  split_ifs at h with h1
  rw [not_or, not_not] at h1
  exact ⟨by omega, h1.2.symm⟩

/-- **C55**. Every genuine second order problem `fun(t, [u, v]) = [v, acc]` is accepted by a class with
`Ap`, and by a class without `Ap` if `acc` does not depend on the velocity. -/
theorem C55_constructor_accepts {hasAp : Bool} {acc : List K → List K → List K} {u v : List K}
    (hl : u.length = v.length) (hv : hasAp = false → ∀ w, acc u w = acc u v) :
    nyAccepts hasAp (fun y => y.drop (y.length / 2) ++ acc (y.take (y.length / 2)) (y.drop (y.length / 2)))
      (u ++ v) = true := by
  have hn : (u ++ v).length / 2 = u.length := by rw [List.length_append]; omega
  have e1 : (u ++ v).drop u.length = v := by simp
  have e2 : (u ++ v).take u.length = u := by simp
  set w := (v.map fun v => v * (1 + 1 / 10 ^ 8) + 1 / 10 ^ 8) with hw
  have hp : nyPerturb u.length (u ++ v) = u ++ w := by
    unfold nyPerturb; rw [e1, e2]
  have hwl : w.length = v.length := by simp [hw]
  have hn' : (u ++ w).length / 2 = u.length := by rw [List.length_append]; omega
  have e1' : (u ++ w).drop u.length = w := by simp
  have e2' : (u ++ w).take u.length = u := by simp
  unfold nyAccepts
  simp only [hn, hp, hn', e1, e2, e1', e2']
  have t1 : (v ++ acc u v).take u.length = v := by rw [hl]; simp
  have t2 : (w ++ acc u w).take u.length = w := by rw [hl, ← hwl]; simp
  have d1 : (v ++ acc u v).drop u.length = acc u v := by rw [hl]; simp
  have d2 : (w ++ acc u w).drop u.length = acc u w := by rw [hl, ← hwl]; simp
  rw [t1, t2, d1, d2]
  have hlen : (u ++ v).length % 2 ≠ 1 := by rw [List.length_append]; omega
  rw [if_neg (by rintro (h | h); exacts [hlen h, h rfl]), if_neg (by simp), if_neg]
  rintro ⟨h, h'⟩
  exact h' (hv h w)

/-- Odd numbers of unknowns are rejected. -/
theorem C55_odd_rejected {hasAp : Bool} {fn : List K → List K} {y : List K} (h : y.length % 2 = 1) :
    nyAccepts hasAp fn y = false := by
  unfold nyAccepts
  simp only
  rw [if_pos (Or.inl h)]

end

/-- Only the initial point (and one perturbed velocity) is examined: the first order system `u' = u²`,
`v' = 1` is taken for a second order problem when started at `u = 2, v = 4`. -/
theorem C55_check_is_local : nyAccepts (K := ℚ) true
    (fun y => match y with | [u, _] => [u ^ 2, 1] | _ => []) [2, 4] = true := by decide +kernel

/-- With equal halves (`u = v`) the perturbed velocity detects it. -/
theorem C55_equal_halves_detected : nyAccepts (K := ℚ) true
    (fun y => match y with | [u, _] => [u, 1] | _ => []) [2, 2] = false := by decide +kernel

/-- A velocity dependent problem given to a method without `Ap` is rejected. -/
example : nyAccepts (K := ℚ) false (fun y => match y with | [u, v] => [v, -u - v] | _ => []) [2, 4] = false := by
  decide +kernel

example : nyAccepts (K := ℚ) false (fun y => match y with | [u, v] => [v, -u] | _ => []) [2, 4] = true := by
  decide +kernel

/-! ## The shipped tables -/

/-- The four Nystrom classes. -/
def nystromTables : List NyTable := [MR6NN, Fi4N, Fi5N, Mu5Nmb]

/-- Shapes of the tables, first node, advertised orders. -/
theorem C55_tables_shape : ∀ R ∈ nystromTables,
    R.A.length = R.s ∧ R.B.length = R.s ∧ R.Bp.length = R.s ∧ R.C.length = R.s ∧
    R.E.length = R.s + 1 ∧ R.Ep.length = R.s + 1 ∧ (R.hasAp = true → R.Ap.length = R.s) ∧
    (R.hasAp = false → R.Ap = []) ∧ R.C.getD 0 0 = 0 ∧ 0 < R.s ∧ 1 ≤ R.orderSec ∧ R.orderSec < R.order := by
  decide +kernel

/-- **C55**. A constant acceleration (free fall) is integrated exactly by the rational methods. -/
theorem C55_free_fall {K X : Type*} [Field K] [CharZero K] [LinearOrder K] [AddCommGroup X] [Module K X]
    (R : NyTable) (hR : R ∈ [MR6NN, Fi4N, Fi5N]) {g : X} {t : K} {y : X × X} {h : K} {k : ℕ → X}
    {yNew : X × X} (hk : IsNyStep (R.tab K) (fun _ _ => g) t y h k yNew) :
    yNew = (y.1 + h • y.2 + (h ^ 2 / 2) • g, y.2 + h • g) := by
  have key : ∀ R ∈ [MR6NN, Fi4N, Fi5N], ∑ i ∈ range R.s, R.B.getD i 0 = 1 / 2 ∧
      ∑ i ∈ range R.s, R.Bp.getD i 0 = 1 := by decide +kernel
  obtain ⟨h1, h2⟩ := key R hR
  apply nystep_constant_acceleration _ _ hk
  · have := congrArg (fun q : ℚ => (q : K)) h1
    push_cast at this
    exact this
  · have := congrArg (fun q : ℚ => (q : K)) h2
    push_cast at this
    exact this

/-! ## Non-vacuity -/

/-- Scaled error of a (position, velocity) pair. -/
def pairErr (tol : ℚ) (_ _ e : ℚ × ℚ) : ENorm ℚ := .num (max |e.1| |e.2| / tol)

/-- Harmonic oscillator `u'' = -u` solved with `Fi5N`. -/
def exOsc : Cfg ℚ (ℚ × ℚ) ℚ where
  m := nyMethod (Fi5N.tab ℚ) (fun _ y => -y.1) (pairErr (1 / 1000))
  tb := some 1
  dir := 1
  maxStep := none
  hMinA := 1 / 10 ^ 14
  hMinB := 1 / 10 ^ 100
  tinyErr := 1 / 10 ^ 100
  minFactor := 1 / 5
  errExp := -1 / 5
  minbeta1 := -1 / 5
  minbeta2 := 0
  minalpha := 0
  safety := 9 / 10
  safetySc := 9 / 10
  pw := pwInv
  nfevStiff := 0

/-- C55: a successful step of `Fi5N` from `u = 1, v = 0` (six new evaluations). -/
example : ((step exOsc 5 (newSolver exOsc 0 (1, 0) (1 / 2) 1 fun _ => 0)).map
    fun p => (p.1, p.2.st.t, p.2.st.nfev, p.2.status)) = some (.ok, 1 / 2, 7, .running) := by
  decide +kernel

/-- C55: the hypotheses of the relation to Runge-Kutta methods are met by Heun's method. -/
example : let T : NTableau ℚ := ⟨2, fun _ _ => 0, fun i j => if i = 1 ∧ j = 0 then 1 else 0,
      fun i => if i = 0 then 1 / 2 else 0, fun _ => 1 / 2, fun i => i, fun _ => 0, fun _ => 0⟩
    (∀ i, i < T.s → ∀ j, j < i → T.A i j = ∑ l ∈ range i, T.Ap i l * (if j < l then T.Ap l j else 0)) ∧
    (∀ j, j < T.s → T.B j = ∑ l ∈ range T.s, T.Bp l * (if j < l then T.Ap l j else 0)) ∧
    (∀ i, i < T.s → ∑ j ∈ range i, T.Ap i j = T.C i) ∧ ∑ i ∈ range T.s, T.Bp i = 1 := by decide +kernel

end Extensisq
