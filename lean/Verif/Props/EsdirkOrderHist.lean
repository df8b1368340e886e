import Verif.Props.EsdirkOrder
import Mathlib.Analysis.Calculus.ImplicitFunction.ProdDomain
import Mathlib.Analysis.Calculus.ContDiff.Operations
import Mathlib.Analysis.SpecialFunctions.ExpDeriv

/-!
# C85: existence of the stages, and the stages of the solver in linear mode
-/

set_option linter.unusedSectionVars false

namespace Extensisq
open scoped ContDiff
open Finset Asymptotics Filter Topology

section
variable {E : Type*} [NormedAddCommGroup E] [NormedSpace ℝ E]

/-- Zeroth stage and others, for any table: the equations have a solution for small `h` that depends continuously on
`h`. -/
theorem exists_solution [CompleteSpace E] {n : ℕ} {A : ℕ → ℕ → ℝ} {c : ℕ → ℝ} {g : ℝ → E → E} {t0 : ℝ} {y0 : E}
    (hg : ContDiffAt ℝ ∞ (fun z : ℝ × E => g z.1 z.2) (t0, y0)) :
    ∃ k : ℝ → ℕ → E, (∀ᶠ h in 𝓝 (0 : ℝ), ∀ i, i < n →
      k h i = g (t0 + c i * h) (y0 + h • ∑ j ∈ range n, A i j • k h j)) ∧
      ∀ i, i < n → (fun h => k h i) =O[𝓝 0] fun _ : ℝ => (1 : ℝ) := by
  let G : ℝ × (Fin n → E) → (Fin n → E) := fun z i =>
    z.2 i - g (t0 + c i * z.1) (y0 + z.1 • ∑ j : Fin n, A i j • z.2 j)
  let x0 : Fin n → E := fun _ => g t0 y0
  have hG : ContDiffAt ℝ ∞ G (0, x0) := by
    rw [contDiffAt_pi]
    intro i
    have hx : ∀ j : Fin n, ContDiffAt ℝ ∞ (fun z : ℝ × (Fin n → E) => z.2 j) (0, x0) := fun j =>
      ((ContinuousLinearMap.proj (R := ℝ) (φ := fun _ : Fin n => E) j).comp
        (ContinuousLinearMap.snd ℝ ℝ (Fin n → E))).contDiff.contDiffAt
    have h1 : ContDiffAt ℝ ∞ (fun z : ℝ × (Fin n → E) => t0 + c i * z.1) (0, x0) :=
      contDiffAt_const.add (contDiffAt_const.mul contDiffAt_fst)
    have h2 : ContDiffAt ℝ ∞ (fun z : ℝ × (Fin n → E) => y0 + z.1 • ∑ j : Fin n, A i j • z.2 j) (0, x0) := by
      refine contDiffAt_const.add (contDiffAt_fst.smul ?_)
      refine ContDiffAt.sum fun j _ => ?_
      exact contDiffAt_const.smul (hx j)
    refine (hx i).sub ?_
    have h3 : ContDiffAt ℝ ∞ (fun z : ℝ × E => g z.1 z.2)
        ((fun z : ℝ × (Fin n → E) => (t0 + c i * z.1, y0 + z.1 • ∑ j : Fin n, A i j • z.2 j)) (0, x0)) := by
      simpa using hg
    exact ContDiffAt.comp (0, x0) (f := fun z : ℝ × (Fin n → E) => (t0 + c i * z.1, y0 + z.1 • ∑ j : Fin n, A i j • z.2 j))
      h3 (h1.prodMk h2)
  have hD := hG.hasStrictFDerivAt (by simp)
  have hG0 : G (0, x0) = 0 := by funext i; simp [G, x0]
  have hpart : fderiv ℝ G (0, x0) ∘L .inr ℝ ℝ (Fin n → E) = ContinuousLinearMap.id ℝ (Fin n → E) := by
    have a1 : HasFDerivAt (fun x => G (0, x)) (fderiv ℝ G (0, x0) ∘L .inr ℝ ℝ (Fin n → E)) x0 :=
      hD.hasFDerivAt.comp x0 (hasFDerivAt_prodMk_right (0 : ℝ) x0)
    have a2 : HasFDerivAt (fun x => G (0, x)) (ContinuousLinearMap.id ℝ (Fin n → E)) x0 := by
      have : (fun x => G (0, x)) = fun x => x - x0 := by
        funext x i; simp [G, x0]
      rw [this]
      exact (hasFDerivAt_id x0).sub_const x0
    exact a1.unique a2
  have hinv : (fderiv ℝ G (0, x0) ∘L .inr ℝ ℝ (Fin n → E)).IsInvertible := by
    rw [hpart]; exact ⟨ContinuousLinearEquiv.refl ℝ _, rfl⟩
  let ψ := hD.implicitFunctionOfProdDomain hinv
  have e1 := hD.eventually_apply_implicitFunctionOfProdDomain hinv
  have e2 := hD.tendsto_implicitFunctionOfProdDomain hinv
  rw [hG0] at e1
  refine ⟨fun h i => if hi : i < n then ψ h ⟨i, hi⟩ else 0, ?_, fun i hi => ?_⟩
  · filter_upwards [e1] with h hh i hi
    have := congrFun hh ⟨i, hi⟩
    simp only [G, Pi.zero_apply, sub_eq_zero] at this
    rw [dif_pos hi]
    refine this.trans ?_
    congr 3
    rw [Finset.sum_range]
    apply sum_congr rfl
    intro j _
    rw [dif_pos j.2]
  · simp only [dif_pos hi]
    have : Tendsto (fun h => ψ h ⟨i, hi⟩) (𝓝 0) (𝓝 (x0 ⟨i, hi⟩)) :=
      ((continuous_apply (⟨i, hi⟩ : Fin n)).tendsto x0).comp e2
    exact this.isBigO_one ℝ

/-- **C85.** The hypotheses of the theorems on local errors can always be met: for every table, regular mass matrix and
smooth right-hand side there are stages that solve the equations exactly for small `h`. -/
theorem C85_stages_exist [CompleteSpace E] (T : ETab ℝ) (M : E ≃L[ℝ] E) {f : ℝ → E → E} {t0 : ℝ} {y0 : E}
    (hf : ContDiffAt ℝ ∞ (fun z : ℝ × E => f z.1 z.2) (t0, y0)) :
    ∃ k : ℝ → ℕ → E, (∀ᶠ h in 𝓝 (0 : ℝ), ∀ i, i < T.n → stageDefect T M f t0 y0 h (k h) i = 0) ∧
      ∀ q, StageFamily T M f t0 y0 q k := by
  have hg : ContDiffAt ℝ ∞ (fun z : ℝ × E => M.symm (f z.1 z.2)) (t0, y0) :=
    ((M.symm : E →L[ℝ] E).contDiff.contDiffAt).comp (t0, y0) hf
  obtain ⟨k, h1, h2⟩ := exists_solution (n := T.n) (A := T.mat) (c := T.C) (g := fun t y => M.symm (f t y)) hg
  have h3 : ∀ᶠ h in 𝓝 (0 : ℝ), ∀ i, i < T.n → stageDefect T M f t0 y0 h (k h) i = 0 := by
    filter_upwards [h1] with h hh i hi
    unfold stageDefect
    rw [stageVal_mat hi, sub_eq_zero]
    have := congrArg M (hh i hi)
    rw [M.apply_symm_apply] at this
    exact this.symm
  refine ⟨k, h3, fun q => ⟨fun i hi => ?_, h2⟩⟩
  have : (fun h => stageDefect T M f t0 y0 h (k h) i) =ᶠ[𝓝 0] fun _ => 0 := h3.mono fun h hh => hh i hi
  exact (isBigO_zero _ _).congr' this.symm (EventuallyEq.refl _ _)

/-- The problem `y' = exp(y) - t` with KC4I. -/
example : ∃ k : ℝ → ℕ → ℝ, StageFamily (KC4I.tab ℝ (√2)) (ContinuousLinearEquiv.refl ℝ ℝ)
    (fun t y => Real.exp y - t) 0 0 4 k := by
  obtain ⟨k, -, h⟩ := C85_stages_exist (KC4I.tab ℝ (√2)) (ContinuousLinearEquiv.refl ℝ ℝ)
    (f := fun t y => Real.exp y - t) (t0 := 0) (y0 := 0) (by
      exact ContDiff.contDiffAt (by fun_prop))
  exact ⟨k, h 4⟩

end

section
variable {E : Type*} [NormedAddCommGroup E] [NormedSpace ℝ E] {c : ECfg ℝ E}

/-- **C85.** In linear mode, for `M y' = J y + r(t)`, the stages of every successful step of every history solve their
equations exactly. -/
theorem C85_linear_mode {R : ESTable} (hR : R ∈ [TRBDF2, TRX2, KC3I, KC4I, KC4Ia, Kv3I]) (hc : ECfgOK c)
    (hTok : ETabOK c.T) (hT : c.T = R.tab ℝ (√2)) (hj : c.jac = none) (hlin : LinSolves c) {J0 : E →ₗ[ℝ] E} {r : ℝ → E}
    (haff : ∀ t y, c.fn t y = some (J0 y + r t)) (hreg : ∀ h, 0 < h → Regular c (h * c.dir) J0)
    {v0 v v' : ESolver ℝ E} {t0 : ℝ} {y0 yp0 : E} (hn : IsNew v0 t0 y0 yp0 J0) (hyp0 : c.M yp0 = J0 y0 + r t0)
    (hr : EReach c v0 v) {fuel : ℕ} (ht : c.tb ≠ some v.st.t) (h : eStep c fuel v = some (.ok, v')) :
    (∀ i < R.n, stageDefect (R.tab ℝ (√2)) c.M (fun t y => J0 y + r t) v.st.t v.st.y (v'.st.t - v.st.t) v'.st.Ks i = 0) ∧
      v'.st.y = eSolution (R.tab ℝ (√2)) v.st.y (v'.st.t - v.st.t) v'.st.Ks := by
  have hnn : c.T.n = R.n := by rw [hT]; rfl
  have exact : ∀ {w w' : ESolver ℝ E} {fuel : ℕ}, EReach c v0 w → c.tb ≠ some w.st.t →
      eStep c fuel w = some (.ok, w') → ∀ i, 1 ≤ i → i < c.T.n →
      J0 (stageVal c.T w.st.y (w'.st.t - w.st.t) w'.st.Ks i) + r (w.st.t + c.T.C i * (w'.st.t - w.st.t)) =
        c.M (w'.st.Ks i) := by
    intro w w' fuel hr ht h i h1 h2
    have hreg' : RegularAt c w'.st := by
      obtain ⟨l, a, hv, hL, ha, hcv, hrun, e1, e2, e3, e4, e5, e6, -⟩ := eStep_accepted hc (hr.inv hc hn.inv) ht h
      obtain ⟨-, -, hJJ⟩ := C36_linear_mode hc hj hn hr hrun h
      obtain ⟨j1, -, -, j2⟩ := hJJ rfl
      obtain ⟨hLU', q1, q2, q3, -⟩ := C37_factors_current hc hlin hn hr hrun ht hv
      intro hh hhe
      rw [e6, q1] at hhe
      cases hhe
      rw [q3 hj, j1, j2]
      exact hreg _ hL.pos
    have := C36_linear_exact hc hTok hj hlin hn (r := r) haff hr ht h hreg' h1 h2
    rw [haff] at this
    exact Option.some.inj this
  have hyp : ∀ {w : ESolver ℝ E}, EReach c v0 w → w.status = .running → c.M w.st.yp = J0 w.st.y + r w.st.t := by
    intro w hw
    induction hw with
    | refl => obtain ⟨h0, Ks0, nfev, njev, hh, rfl⟩ := hn.new; exact fun _ => hyp0
    | @tail w w' o fuel hr hs ho ih =>
      intro hrun'
      rcases eStep_cases hs with ⟨h1, -, rfl⟩ | ⟨-, -, -, rfl⟩ | ⟨hrun, ht, s', hs', rfl, hcase⟩
      · exact absurd hrun' h1
      · cases hrun'
      · rcases hcase with ⟨rfl, -⟩ | ⟨-, h2⟩ | ⟨e, rfl, -⟩
        · obtain ⟨-, b2, b3, -⟩ := C38_solution hc hTok hn hr ht hs
          have hn2 := hTok.n
          have := exact hr ht hs (c.T.n - 1) (by omega) (by omega)
          rw [b3, ← this, ← b2, hTok.c1, one_mul]
          congr 2
          ring
        · rw [h2] at hrun'; cases hrun'
        · exact absurd (by rw [eStepImpl_exc hc ((hr.inv hc hn.inv) hrun) ht hs']) ho
  obtain ⟨l, a, hv, hL, ha, hcv, hrun, -⟩ := eStep_accepted hc (hr.inv hc hn.inv) ht h
  obtain ⟨b1, b2, b3, b4⟩ := C38_solution hc hTok hn hr ht h
  refine ⟨fun i hi => ?_, by rw [b1, hT]; rfl⟩
  unfold stageDefect
  rw [sub_eq_zero]
  by_cases h0 : i = 0
  · subst h0
    have key : ∀ R ∈ [TRBDF2, TRX2, KC3I, KC4I, KC4Ia, Kv3I], R.C.getD 0 0 = 0 ∧ (R.A.getD 0 []).getD 0 0 = 0 := by
      intro R hR
      simp only [List.mem_cons, List.not_mem_nil, or_false] at hR
      rcases hR with rfl | rfl | rfl | rfl | rfl | rfl <;> decide +kernel
    have k1 : (R.tab ℝ (√2)).C 0 = 0 := by
      show homR (R.C.getD 0 0) = 0
      rw [(key R hR).1, map_zero]
    have k2 : (R.tab ℝ (√2)).A 0 0 = 0 := by
      show homR ((R.A.getD 0 []).getD 0 0) = 0
      rw [(key R hR).2, map_zero]
    rw [k1, zero_mul, add_zero, b4, hyp hr hrun]
    congr 2
    simp [stageVal, k2]
  · have := exact hr ht h i (by omega) (by omega)
    rw [hT] at this
    exact this

end

end Extensisq
