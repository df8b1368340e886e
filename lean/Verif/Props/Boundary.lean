import Mathlib.Analysis.Calculus.FDeriv.Comp
import Mathlib.Analysis.Calculus.FDeriv.Add
import Mathlib.Analysis.Calculus.FDeriv.Pi
import Mathlib.Analysis.Calculus.FDeriv.Linear
import Mathlib.Analysis.Normed.Module.FiniteDimension
import Verif.Props.EsdirkStage
import Verif.Props.EsdirkInit
import Verif.Props.EsdirkOrder
import Verif.Props.DriverMore
import Verif.Props.NystromOrder
import Verif.Props.EsdirkWitness
import Verif.Props.DriverWitness
import Verif.Props.NystromConvergence

/-!
# Additions to C05, C09, C31, C39, C78, C88

Statements about cases that the main theorems leave open.
-/

set_option linter.unusedSectionVars false
set_option maxRecDepth 100000

namespace Extensisq

/-! ## C05: the preliminary test -/

section
variable {K V W : Type*} [Field K] [LinearOrder K] [IsStrictOrderedRing K]

/-- **C05**. The preliminary error estimate (BS5, CFMR7osc) of the attempt a successful step was made with is not infinite and not a
number above one. (A nan passes; such an attempt must then pass the test of its error estimate.) -/
theorem C05_preliminary_estimate {c : Cfg K V W} {fuel : ℕ} {v v' : Solver K V W}
    (hne : c.tb ≠ some v.st.t) (h : step c fuel v = some (.ok, v')) :
    ∃ (h : K) (Ks : ℕ → W), v'.st.t = v.st.t + h ∧ v'.st.y = (c.m.trial v.st.t v.st.y v.st.f h Ks).yNew ∧
      ((c.m.trial v.st.t v.st.y v.st.f h Ks).pre = .nan ∨
        ∃ x, (c.m.trial v.st.t v.st.y v.st.f h Ks).pre = .num x ∧ x ≤ 1) := by
  obtain ⟨-, hi, -⟩ := step_ok_impl hne h
  rcases stepImpl_effect hi with ⟨k, Ks, e, j, ho, hs⟩ | ⟨k, ch, x, f0, std, s1, hmin, hpre, herr, hx, haf, hs1, ho⟩
  · rcases ho with h | h | h <;> cases h
  · refine ⟨ch.hs k * c.dir, ch.Ks k, ?_, ?_, ?_⟩
    · rcases ho with ⟨_, b, hd⟩ | ⟨h, _⟩
      · rw [diagnose_same hd, hs1]; rfl
      · cases h
    · rcases ho with ⟨_, b, hd⟩ | ⟨h, _⟩
      · rw [diagnose_same hd, hs1]; rfl
      · cases h
    · revert hpre
      generalize (c.m.trial v.st.t v.st.y v.st.f (ch.hs k * c.dir) (ch.Ks k)).pre = p
      intro hpre
      cases p with
      | num z => exact Or.inr ⟨z, rfl, by simpa [ENorm.gt] using hpre⟩
      | inf => simp [ENorm.gt] at hpre
      | nan => exact Or.inl rfl

/-- **C31**. When `ZeroDivisionError` is raised, the counters of the stiffness detection are those of an admissible
`nfev_stiff_detect` (and no evaluations were made for a test). -/
theorem C31_counters {c : Cfg K V W} (s : St K V W) {n : ℕ} (h0 : 0 < c.m.nStages) (hn : c.m.nStages ≤ n) (ev : K → V → ℕ) :
    ∃ s2 b, diagnose (c.withStiff n ev) s = some (s2, b) ∧ diagnoseRaise s = { s2 with nfevTest := s.nfevTest } := by
  unfold diagnose
  have h1 : (c.withStiff n ev).nfevStiff = n := rfl
  have h2 : (c.withStiff n ev).m.nStages = c.m.nStages := rfl
  rw [if_neg (by rw [h1]; omega)]
  dsimp only
  rw [if_neg (by rw [h1, h2]; exact (Nat.div_pos hn h0).ne')]
  exact ⟨_, _, rfl, rfl⟩

end

section
variable {K X : Type*} [Field K] [LinearOrder K] [IsStrictOrderedRing K] [AddCommGroup X] [Module K X]

/-- **C09** for the Nyström methods: also a non-finite attempt is counted, so the counter grows by the number of rejected attempts,
whatever the outcome of the step is. -/
theorem C09_nystrom {c : Cfg K (X × X) X} {T : NTableau K} {acc : K → X × X → X} {errNorm : X × X → X × X → X × X → ENorm K}
    (hm : c.m = nyMethod T acc errNorm) {fuel : ℕ} {v v' : Solver K (X × X) X} {o : Out} (hrun : v.status = .running)
    (hne : c.tb ≠ some v.st.t) (h : step c fuel v = some (o, v')) : ∃ k, RejectedAttempts c v k ∧ v'.st.nfs = v.st.nfs + k :=
  C09_counter_one_step (by rw [hm]; rfl) hrun hne h

end

/-! ## C39: giving up a stage -/

section
variable {K V : Type*} [Field K] [LinearOrder K] [IsStrictOrderedRing K] [AddCommGroup V] [Module K V]
variable {c : ECfg K V}

theorem newton_gives_up (hlin : c.linear = false) {i : StageIn K V} {z0 : V} : ∀ {n k : ℕ} {z : V} {dz : K} {r : Option K}
    {o : NewtonOut K V}, newton c i n k z dz r = some o → n + k = 5 → 1 ≤ n → newtonIter c i z0 k = some z → o.converged = false →
    ∃ z1, newtonIter c i z0 (o.evals - 1) = some z1 ∧ (c.fn i.t (i.psi + c.T.d • z1) = none ∨
      ∃ q, o.rate = some q ∧ 2 ≤ o.evals ∧ (1 ≤ q ∨
        c.T.kappa * (1 - q) ≤ c.dzNorm i.y (i.psi + c.T.d • z1) (o.z - z1) * q ^ (6 - o.evals)))
  | 0, k, z, dz, r, o, h, hk, hn, hz, hc => by omega
  | n + 1, k, z, dz, r, o, h, hk, hn, hz, hc => by
    unfold newton at h
    dsimp only at h
    cases hf : c.fn i.t (i.psi + c.T.d • z) with
    | none =>
      rw [hf] at h
      cases h
      exact ⟨z, by simpa using hz, Or.inl hf⟩
    | some f =>
      rw [hf] at h
      dsimp only at h
      have hz' : newtonIter c i z0 (k + 1) = some (z + c.lin i.sc i.F (i.h • f - c.M z)) := by
        unfold newtonIter; rw [hz]; dsimp only; rw [hf]
      rw [if_neg (by rw [hlin]; simp)] at h
      by_cases h1 : c.dzNorm i.y (i.psi + c.T.d • z) (c.lin i.sc i.F (i.h • f - c.M z)) ≤ c.tinyErr
      · rw [if_pos h1] at h
        cases h
        cases hc
      rw [if_neg h1] at h
      by_cases h2 : k = 0
      · rw [if_pos h2] at h
        exact newton_gives_up hlin h (by omega) (by omega) hz' hc
      rw [if_neg h2] at h
      split at h
      · rename_i h3
        cases h
        refine ⟨z, by simpa using hz, Or.inr ⟨_, rfl, by show 2 ≤ k + 1; omega, ?_⟩⟩
        have e : 6 - (k + 1) = 5 - k := by omega
        have e' : z + c.lin i.sc i.F (i.h • f - c.M z) - z = c.lin i.sc i.F (i.h • f - c.M z) := by abel
        simp only [e, e']
        exact h3
      · rename_i h3
        split at h
        · cases h
          cases hc
        · rename_i h4
          rcases Nat.eq_zero_or_pos n with hn0 | hn0
          · exfalso
            have hk4 : 5 - k = 1 := by omega
            rw [hk4, pow_one] at h3
            exact h3 (Or.inr (not_lt.mp h4))
          · exact newton_gives_up hlin h (by omega) hn0 hz' hc

/-- **C39**. A stage (of a nonlinear problem) is given up only if the derivative at an iterate is not finite, or, from the second
iteration on, if the iteration diverges (`1 ≤ q`) or its estimated rate `q` is too slow: after the five iterations that are allowed
the error would not be below `kappa`. -/
theorem C39_gives_up (hlin : c.linear = false) {i : StageIn K V} {z0 : V} {o : NewtonOut K V} (h : solveStage c i z0 = some o)
    (hc : o.converged = false) :
    ∃ z1, newtonIter c i z0 (o.evals - 1) = some z1 ∧ (c.fn i.t (i.psi + c.T.d • z1) = none ∨
      ∃ q, o.rate = some q ∧ 2 ≤ o.evals ∧ (1 ≤ q ∨
        c.T.kappa * (1 - q) ≤ c.dzNorm i.y (i.psi + c.T.d • z1) (o.z - z1) * q ^ (6 - o.evals))) :=
  newton_gives_up hlin h rfl (by omega) rfl hc

end

/-! ## C39: the starting values -/

/-- The sum of the coefficients of the starting value of stage `s`, minus one. -/
def predictDefect (R : ESTable) (s : ℕ) : Q2 := ((List.range s).map fun j => (R.Az.getD s []).getD j 0).foldl (· + ·) 0 - 1

/-- **C39**. The starting value of the iteration of every stage is consistent: the coefficients of the known derivatives sum up to
one (up to `1e-15` in the last stage of KC4Ia), so it is `h k` if all of them are `k`. -/
theorem C39_start_consistent : (∀ R ∈ [TRBDF2, TRX2, KC3I, KC4I, Kv3I], ∀ s, 1 ≤ s → s < R.n → predictDefect R s = 0) ∧
    (∀ s, 1 ≤ s → s < 6 → predictDefect KC4Ia s = 0) ∧ predictDefect KC4Ia 6 = ⟨8 / 10 ^ 16, 0⟩ := by
  have key : ∀ R ∈ [TRBDF2, TRX2, KC3I, KC4I, Kv3I], ∀ s ∈ List.range R.n, s ≠ 0 → predictDefect R s = 0 := by decide +kernel
  have key2 : ∀ s ∈ List.range 6, s ≠ 0 → predictDefect KC4Ia s = 0 := by decide +kernel
  exact ⟨fun R hR s h1 h2 => key R hR s (List.mem_range.mpr h2) (by omega),
    fun s h1 h2 => key2 s (List.mem_range.mpr h2) (by omega), by decide +kernel⟩

/-- **C78**. The methods that filter the error estimate are TRBDF2 and TRX2. -/
theorem C78_filtered : ∀ R ∈ [TRBDF2, TRX2, KC3I, KC4I, KC4Ia, Kv3I], (R.tab ℝ (√2)).filter = true ↔ R ∈ [TRBDF2, TRX2] := by
  intro R hR
  have e : (R.tab ℝ (√2)).filter = R.filter := rfl
  rw [e]
  simp only [List.mem_cons, List.not_mem_nil, or_false] at hR
  have h1 : TRBDF2.filter = true := rfl
  have h2 : TRX2.filter = true := rfl
  constructor
  · intro h
    rcases hR with rfl | rfl | rfl | rfl | rfl | rfl
    · simp
    · simp
    all_goals cases h
  · intro h
    simp only [List.mem_cons, List.not_mem_nil, or_false] at h
    rcases h with rfl | rfl <;> rfl

/-! ## C88: the derivative handed to the root finder -/

section
open Matrix
variable {ι α β : Type*} [Fintype ι] [Fintype α] [Fintype β] [DecidableEq ι] [DecidableEq α] [DecidableEq β]

/-- **C88**. If `jac` is the derivative of `fun` with respect to `y`, the matrix handed to the root finder is at every point the
derivative of the residual of the algebraic equations. -/
theorem C88_root_jacobian {p : IcIn ℝ ι α β}
    (hjac : ∀ y : ι → ℝ, ∃ L : (ι → ℝ) →L[ℝ] (ι → ℝ), HasFDerivAt (p.fn p.t) L y ∧ ∀ z, L z = p.jac p.t y *ᵥ z)
    (u : α → ℝ) (v : β → ℝ) :
    ∃ L : (β → ℝ) →L[ℝ] (β → ℝ), HasFDerivAt (p.funC u) L v ∧ ∀ z, L z = p.jacC u v *ᵥ z := by
  obtain ⟨L, hL, hLz⟩ := hjac (p.join u v)
  let lin : (β → ℝ) →ₗ[ℝ] (ι → ℝ) :=
    { toFun := fun w => p.V *ᵥ Sum.elim (0 : α → ℝ) w
      map_add' := fun a b => by
        rw [← mulVec_add]; congr 1; funext j; cases j <;> simp
      map_smul' := fun c a => by
        rw [RingHom.id_apply, ← mulVec_smul]; congr 1; funext j; cases j <;> simp }
  let proj : (ι → ℝ) →ₗ[ℝ] (β → ℝ) :=
    { toFun := fun w j => (p.Uᵀ *ᵥ w) (.inr j)
      map_add' := fun a b => by funext j; simp [mulVec_add]
      map_smul' := fun c a => by funext j; simp [mulVec_smul] }
  have e1 : ∀ w, p.join u w = p.V *ᵥ Sum.elim u (0 : β → ℝ) + lin w := by
    intro w
    show p.V *ᵥ Sum.elim u w = p.V *ᵥ Sum.elim u (0 : β → ℝ) + p.V *ᵥ Sum.elim (0 : α → ℝ) w
    rw [← mulVec_add]
    congr 1
    funext j
    cases j <;> simp
  have hin : HasFDerivAt (p.join u) (LinearMap.toContinuousLinearMap lin) v := by
    have : p.join u = fun w => p.V *ᵥ Sum.elim u (0 : β → ℝ) + LinearMap.toContinuousLinearMap lin w := by
      funext w; exact e1 w
    rw [this]
    exact (LinearMap.toContinuousLinearMap lin).hasFDerivAt.const_add _
  have hout := ((LinearMap.toContinuousLinearMap proj).hasFDerivAt (x := p.fn p.t (p.join u v))).comp v (hL.comp v hin)
  refine ⟨_, hout, fun z => ?_⟩
  show proj (L (lin z)) = p.jacC u v *ᵥ z
  rw [hLz]
  have e2 : ∀ w : ι → ℝ, proj w = fun j => (p.Uᵀ *ᵥ w) (.inr j) := fun _ => rfl
  have e3 : lin z = p.V *ᵥ Sum.elim (0 : α → ℝ) z := rfl
  rw [e2, e3, mulVec_mulVec, mulVec_mulVec]
  funext j
  unfold IcIn.jacC IcIn.G
  simp only [mulVec, dotProduct, Fintype.sum_sum_type, Sum.elim_inl, Sum.elim_inr, Pi.zero_apply, mul_zero, Finset.sum_const_zero,
    zero_add, toBlocks₂₂, of_apply]

end

/-! ## Examples that meet the hypotheses -/

/-- C05: a successful step of BS5 after an attempt rejected by the preliminary estimate. -/
example :
    let err := scalarErr (1 / 10 ^ 9) (1 / 10 ^ 9)
    let c := { exCfg (fun _ y => -y) err (some (-5)) (-1) none 0 with m := bs5Method ℚ (fun _ y => -y) err }
    c.tb ≠ some (newSolver c 0 1 1 1 fun _ => 0).st.t ∧
      (step c 9 (newSolver c 0 1 1 1 fun _ => 0)).map (fun p => (p.1, p.2.st.nfs)) = some (.ok, 2) := by decide +kernel

/-- C09: the example solvers of `C95` are of the form required. -/
example (R : NyTable) (η : ℝ) : ∃ T acc e, (exCfgNy R η).m = nyMethod T acc e := ⟨_, _, _, rfl⟩

/-- C39: `y' = -y^2` with the Jacobian 8 (wrong): the iterates diverge and the stage is given up. -/
def exGiveUp : StageIn ℚ ℚ := ⟨1, 1, 1, 1, ⟨1, scal 8⟩, none, true, none⟩

example : exNon.linear = false ∧ (solveStage exNon exGiveUp 0).map (fun o => (o.converged, o.evals)) = some (false, 2) := by
  decide +kernel

/-- C88: a linear problem with its Jacobian meets the hypothesis of `C88_root_jacobian`. -/
example (p : IcIn ℝ (Fin 2) (Fin 1) (Fin 1)) (A : Matrix (Fin 2) (Fin 2) ℝ) (hf : ∀ t y, p.fn t y = A.mulVec y)
    (hj : ∀ t y, p.jac t y = A) (y : Fin 2 → ℝ) :
    ∃ L : (Fin 2 → ℝ) →L[ℝ] (Fin 2 → ℝ), HasFDerivAt (p.fn p.t) L y ∧ ∀ z, L z = (p.jac p.t y).mulVec z := by
  have e : p.fn p.t = fun y => (LinearMap.toContinuousLinearMap A.mulVecLin) y := funext fun y => hf _ _
  refine ⟨LinearMap.toContinuousLinearMap A.mulVecLin, ?_, fun z => by rw [hj]; rfl⟩
  rw [e]
  exact ContinuousLinearMap.hasFDerivAt _

end Extensisq
