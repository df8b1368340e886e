import Verif.Props.Sens
import Verif.Lemmas.Param
import Mathlib.Analysis.Calculus.Deriv.Mul
import Mathlib.Analysis.Calculus.Deriv.Add
import Mathlib.Analysis.Calculus.Deriv.Prod
import Mathlib.Analysis.ODE.PicardLindelof
import Mathlib.Analysis.Calculus.FDeriv.Pi
import Mathlib.Analysis.Calculus.FDeriv.Comp
import Mathlib.Topology.Algebra.Module.FiniteDimension
import Mathlib.MeasureTheory.Integral.IntervalIntegral.FundThmCalculus
import Mathlib.Topology.Instances.Matrix
import Mathlib.LinearAlgebra.Matrix.ToLin
import Mathlib.LinearAlgebra.FiniteDimensional.Basic

/-!
# C51, C52, C65: what the sensitivity functions compute, for exact solutions
-/

namespace Extensisq
open Matrix Set Filter Topology

variable {Ny Np : ℕ}

/-- A matrix as a continuous linear map. -/
noncomputable def matL {m n : ℕ} (A : Matrix (Fin m) (Fin n) ℝ) : (Fin n → ℝ) →L[ℝ] (Fin m → ℝ) :=
  LinearMap.toContinuousLinearMap (Matrix.mulVecLin A)

/-- A vector as a continuous linear functional, `v ↦ sum_j a_j v_j`. -/
noncomputable def vecL {n : ℕ} (a : Fin n → ℝ) : (Fin n → ℝ) →L[ℝ] ℝ :=
  LinearMap.toContinuousLinearMap
    { toFun := fun v => a ⬝ᵥ v, map_add' := fun u v => dotProduct_add _ _ _, map_smul' := fun r v => dotProduct_smul _ _ _ }

@[simp] theorem matL_apply {m n : ℕ} (A : Matrix (Fin m) (Fin n) ℝ) (v : Fin n → ℝ) : matL A v = A *ᵥ v := rfl
@[simp] theorem vecL_apply {n : ℕ} (a v : Fin n → ℝ) : vecL a v = a ⬝ᵥ v := rfl

theorem continuous_matL {m n : ℕ} : Continuous (matL : Matrix (Fin m) (Fin n) ℝ → _) := by
  have h : Continuous fun A : Matrix (Fin m) (Fin n) ℝ =>
      ((LinearMap.toContinuousLinearMap.toLinearMap ∘ₗ (Matrix.toLin' (R := ℝ)).toLinearMap) A) :=
    LinearMap.continuous_of_finiteDimensional _
  exact h

theorem continuous_vecL {n : ℕ} : Continuous (vecL : (Fin n → ℝ) → _) := by
  let L : (Fin n → ℝ) →ₗ[ℝ] ((Fin n → ℝ) →L[ℝ] ℝ) :=
    { toFun := vecL, map_add' := fun a b => by ext; simp, map_smul' := fun r a => by ext; simp }
  exact LinearMap.continuous_of_finiteDimensional L

theorem continuous_coprod {α : Type*} [TopologicalSpace α] {U : Set α} {m k l : ℕ}
    {A : α → Matrix (Fin m) (Fin k) ℝ} {B : α → Matrix (Fin m) (Fin l) ℝ} (hA : ContinuousOn A U)
    (hB : ContinuousOn B U) : ContinuousOn (fun x => (matL (A x)).coprod (matL (B x))) U := by
  have e : ∀ (A : (Fin k → ℝ) →L[ℝ] (Fin m → ℝ)) (B : (Fin l → ℝ) →L[ℝ] (Fin m → ℝ)),
      A.coprod B = A.comp (ContinuousLinearMap.fst ℝ _ _) + B.comp (ContinuousLinearMap.snd ℝ _ _) := by
    intro A B; ext <;> simp
  simp only [e]
  exact ((continuous_matL.comp_continuousOn hA).clm_comp continuousOn_const).add
    ((continuous_matL.comp_continuousOn hB).clm_comp continuousOn_const)

/-- On the open set `U` of `(t, y, p)`, `jac` and `dfdp` are the partial derivatives of `fun`, and continuous. -/
structure DerivOK (P : SensProb ℝ Ny Np) (U : Set (ℝ × ((Fin Ny → ℝ) × (Fin Np → ℝ)))) : Prop where
  isOpen : IsOpen U
  deriv : ∀ t y p, (t, (y, p)) ∈ U → HasFDerivAt (fun z : (Fin Ny → ℝ) × (Fin Np → ℝ) => P.fn t z.1 z.2)
    ((matL (P.jac t y p)).coprod (matL (P.dfdp t y p))) (y, p)
  jac : ContinuousOn (fun x : ℝ × ((Fin Ny → ℝ) × (Fin Np → ℝ)) => P.jac x.1 x.2.1 x.2.2) U
  dfdp : ContinuousOn (fun x : ℝ × ((Fin Ny → ℝ) × (Fin Np → ℝ)) => P.dfdp x.1 x.2.1 x.2.2) U

/-- On `U`, `dgdy` and `dgdp` are the partial derivatives of `g`; `g` and both are continuous. -/
structure OutOK (O : SensOut ℝ Ny Np) (U : Set (ℝ × ((Fin Ny → ℝ) × (Fin Np → ℝ)))) : Prop where
  deriv : ∀ t y p, (t, (y, p)) ∈ U → HasFDerivAt (fun z : (Fin Ny → ℝ) × (Fin Np → ℝ) => O.g t z.1 z.2)
    ((vecL (O.dgdy t y p)).coprod (vecL (O.dgdp t y p))) (y, p)
  g : ContinuousOn (fun x : ℝ × ((Fin Ny → ℝ) × (Fin Np → ℝ)) => O.g x.1 x.2.1 x.2.2) U
  dgdy : ContinuousOn (fun x : ℝ × ((Fin Ny → ℝ) × (Fin Np → ℝ)) => O.dgdy x.1 x.2.1 x.2.2) U
  dgdp : ContinuousOn (fun x : ℝ × ((Fin Ny → ℝ) × (Fin Np → ℝ)) => O.dgdp x.1 x.2.1 x.2.2) U

/-- `x` solves `x' = F(t, x)` on the interval between `t0` and `tf` (in either order), with `x(ta) = xa`. -/
structure Solves {E : Type*} [NormedAddCommGroup E] [NormedSpace ℝ E] (F : ℝ → E → E) (t0 tf ta : ℝ) (xa : E)
    (x : ℝ → E) : Prop where
  init : x ta = xa
  deriv : ∀ t ∈ uIcc t0 tf, HasDerivWithinAt x (F t (x t)) (uIcc t0 tf) t

/-- Spec: the variational equation `S' = J S + dfdp` along `y`, entry by entry, `S(t0) = dy0dp`. -/
structure Variational (P : SensProb ℝ Ny Np) (p : Fin Np → ℝ) (t0 tf : ℝ) (y : ℝ → Fin Ny → ℝ)
    (dy0dp : Matrix (Fin Ny) (Fin Np) ℝ) (S : ℝ → Matrix (Fin Ny) (Fin Np) ℝ) : Prop where
  init : S t0 = dy0dp
  deriv : ∀ t ∈ uIcc t0 tf, ∀ i j, HasDerivWithinAt (fun t => S t i j)
    ((∑ k, P.jac t (y t) p i k * S t k j) + P.dfdp t (y t) p i j) (uIcc t0 tf) t

/-! ## C65: the forward problem -/

/-- **C65**. An exact solution of the combined problem contains the solution of the initial value problem and the
solution of the variational equation; the returned values are those at `tf`. -/
theorem C65_forward_parts (P : SensProb ℝ Ny Np) (p : Fin Np → ℝ) {t0 tf : ℝ} (y0 : Fin Ny → ℝ)
    (dy0dp : Matrix (Fin Ny) (Fin Np) ℝ) {Y : ℝ → Fin (Ny + Np * Ny) → ℝ}
    (hY : Solves (totalFun P p) t0 tf t0 (totalY0 y0 dy0dp) Y) :
    Solves (fun t x => P.fn t x p) t0 tf t0 y0 (fun t => fwdY (Y t)) ∧
      Variational P p t0 tf (fun t => fwdY (Y t)) dy0dp (fun t => fwdSens (Y t)) := by
  obtain ⟨i1, i2, -⟩ := C49_inverse y0 dy0dp (totalY0 y0 dy0dp)
  refine ⟨⟨by rw [hY.init, i1], fun t ht => ?_⟩, ⟨by rw [hY.init, i2], fun t ht i j => ?_⟩⟩
  · rw [hasDerivWithinAt_pi]
    intro i
    have := (hasDerivWithinAt_pi.mp (hY.deriv t ht)) (posY i)
    rw [(C49_equations P p t (Y t)).1] at this
    exact this
  · have := (hasDerivWithinAt_pi.mp (hY.deriv t ht)) (posS i j)
    rw [(C49_equations P p t (Y t)).2] at this
    have e : ∀ t, fwdSens (Y t) i j = Y t (posS i j) := fun t => (C49_unpacking (Y t)).2 i j
    have e' : ∀ k, fwdSens (Y t) k j = Y t (posS k j) := fun k => (C49_unpacking (Y t)).2 k j
    simp only [e, e']
    exact this

theorem Variational.mul {P : SensProb ℝ Ny Np} {p : Fin Np → ℝ} {t0 tf : ℝ} {y : ℝ → Fin Ny → ℝ}
    {dy0dp : Matrix (Fin Ny) (Fin Np) ℝ} {S : ℝ → Matrix (Fin Ny) (Fin Np) ℝ}
    (h : Variational P p t0 tf y dy0dp S) {t : ℝ} (ht : t ∈ uIcc t0 tf) (v : Fin Np → ℝ) :
    HasDerivWithinAt (fun t => matL (S t) v)
      (P.jac t (y t) p *ᵥ (S t *ᵥ v) + P.dfdp t (y t) p *ᵥ v) (uIcc t0 tf) t := by
  rw [hasDerivWithinAt_pi]
  intro i
  have : HasDerivWithinAt (fun t => ∑ j, S t i j * v j)
      (∑ j, ((∑ k, P.jac t (y t) p i k * S t k j) + P.dfdp t (y t) p i j) * v j) (uIcc t0 tf) t :=
    HasDerivWithinAt.fun_sum fun j _ => (h.deriv t ht i j).mul_const (v j)
  refine this.congr_deriv ?_
  rw [Pi.add_apply, Matrix.mulVec_mulVec]
  simp only [Matrix.mulVec, dotProduct, Matrix.mul_apply]
  rw [← Finset.sum_add_distrib]
  exact Finset.sum_congr rfl fun j _ => by ring

theorem Variational.continuousOn {P : SensProb ℝ Ny Np} {p : Fin Np → ℝ} {t0 tf : ℝ} {y : ℝ → Fin Ny → ℝ}
    {dy0dp : Matrix (Fin Ny) (Fin Np) ℝ} {S : ℝ → Matrix (Fin Ny) (Fin Np) ℝ}
    (h : Variational P p t0 tf y dy0dp S) : ContinuousOn (fun t => matL (S t)) (uIcc t0 tf) := by
  refine continuous_matL.comp_continuousOn ?_
  have : ∀ i j, ContinuousOn (fun t => S t i j) (uIcc t0 tf) := fun i j t ht =>
    (h.deriv t ht i j).continuousWithinAt
  exact continuousOn_pi.mpr fun i => continuousOn_pi.mpr fun j => this i j

/-- **C65**. The solution of the variational equation is the derivative of the solution with respect to the
parameters: if `y q` is the solution for the parameters `q` and the initial value `y0 q`, for all `q` near `p`, then
`q ↦ y q tf` is differentiable in `p` with derivative `S(tf)`. -/
theorem C65_sensitivity_is_derivative {P : SensProb ℝ Ny Np} {U : Set (ℝ × ((Fin Ny → ℝ) × (Fin Np → ℝ)))}
    (hP : DerivOK P U) {p : Fin Np → ℝ} {t0 tf : ℝ} {y : (Fin Np → ℝ) → ℝ → Fin Ny → ℝ}
    {y0 : (Fin Np → ℝ) → Fin Ny → ℝ} {dy0dp : Matrix (Fin Ny) (Fin Np) ℝ} (h0 : HasFDerivAt y0 (matL dy0dp) p)
    (hU : ∀ t ∈ uIcc t0 tf, (t, (y p t, p)) ∈ U)
    (hy : ∀ᶠ q in 𝓝 p, Solves (fun t x => P.fn t x q) t0 tf t0 (y0 q) (y q))
    {S : ℝ → Matrix (Fin Ny) (Fin Np) ℝ} (hS : Variational P p t0 tf (y p) dy0dp S) :
    HasFDerivAt (fun q => y q tf) (matL (S tf)) p := by
  refine param_deriv (f := fun t z => P.fn t z.1 z.2)
    (f' := fun t z => (matL (P.jac t z.1 z.2)).coprod (matL (P.dfdp t z.1 z.2))) (U := U)
    (S := fun t => matL (S t)) hP.isOpen (fun t z hz => hP.deriv t z.1 z.2 hz) ?_ hU ?_ ?_ hS.continuousOn ?_
  · exact continuous_coprod hP.jac hP.dfdp
  · filter_upwards [hy] with q hq
    exact hq.deriv
  · intro t ht v
    simpa using hS.mul ht v
  · refine HasFDerivAt.congr_of_eventuallyEq (f := y0) (by rw [hS.init]; exact h0) ?_
    filter_upwards [hy] with q hq
    exact hq.init

/-- Solutions are unique where `fun` is continuously differentiable. -/
theorem solves_unique {P : SensProb ℝ Ny Np} {U : Set (ℝ × ((Fin Ny → ℝ) × (Fin Np → ℝ)))} (hP : DerivOK P U)
    {p : Fin Np → ℝ} {t0 tf : ℝ} {y0 : Fin Ny → ℝ} {x z : ℝ → Fin Ny → ℝ}
    (hU : ∀ t ∈ uIcc t0 tf, (t, (x t, p)) ∈ U) (hx : Solves (fun t x => P.fn t x p) t0 tf t0 y0 x)
    (hz : Solves (fun t x => P.fn t x p) t0 tf t0 y0 z) {t : ℝ} (ht : t ∈ uIcc t0 tf) : z t = x t := by
  classical
  have hsub : uIcc t0 t ⊆ uIcc t0 tf := uIcc_subset_uIcc left_mem_uIcc ht
  -- a family that jumps from `x` to `z`
  have key := param_deriv (P := ℝ) (f := fun t w => P.fn t w.1 p)
    (f' := fun t w => (matL (P.jac t w.1 p)).comp (ContinuousLinearMap.fst ℝ (Fin Ny → ℝ) ℝ))
    (U := (fun w : ℝ × ((Fin Ny → ℝ) × ℝ) => (w.1, (w.2.1, p))) ⁻¹' U) (t0 := t0) (tf := t)
    (y := fun q => if q = 0 then x else z) (p := 0) (S := fun _ => 0) (hP.isOpen.preimage (by fun_prop)) ?_ ?_ ?_ ?_
    ?_ continuousOn_const ?_
  · have hc := key.continuousAt
    have h1 : Tendsto (fun q : ℝ => (if q = 0 then x else z) t) (𝓝[≠] 0) (𝓝 (x t)) := by
      have := hc.tendsto.mono_left (nhdsWithin_le_nhds (s := {0}ᶜ))
      simpa using this
    have h2 : Tendsto (fun q : ℝ => (if q = 0 then x else z) t) (𝓝[≠] 0) (𝓝 (z t)) := by
      refine tendsto_const_nhds.congr' ?_
      filter_upwards [self_mem_nhdsWithin] with q hq
      rw [if_neg (show q ≠ 0 from hq)]
    exact tendsto_nhds_unique h2 h1
  · intro s w hw
    have h1 := hP.deriv s w.1 p hw
    have h2 : HasFDerivAt (fun w : (Fin Ny → ℝ) × ℝ => (w.1, p))
        ((ContinuousLinearMap.fst ℝ (Fin Ny → ℝ) ℝ).prod 0) w := hasFDerivAt_fst.prodMk (hasFDerivAt_const _ _)
    refine (HasFDerivAt.comp (g := fun z : (Fin Ny → ℝ) × (Fin Np → ℝ) => P.fn s z.1 z.2) w h1 h2).congr_fderiv ?_
    ext <;> simp
  · refine ContinuousOn.clm_comp ?_ continuousOn_const
    exact continuous_matL.comp_continuousOn
      (hP.jac.comp (f := fun w : ℝ × ((Fin Ny → ℝ) × ℝ) => (w.1, (w.2.1, p))) (by fun_prop) (fun w hw => hw))
  · intro s hs
    simpa using hU s (hsub hs)
  · refine Filter.Eventually.of_forall fun q s hs => ?_
    by_cases hq : q = 0
    · simpa [hq] using (hx.deriv s (hsub hs)).mono hsub
    · simpa [hq] using (hz.deriv s (hsub hs)).mono hsub
  · intro s _ v
    simpa using hasDerivWithinAt_const s (uIcc t0 t) (0 : Fin Ny → ℝ)
  · have : (fun q : ℝ => (if q = 0 then x else z) t0) = fun _ => y0 := by
      funext q
      by_cases hq : q = 0
      · simp [hq, hx.init]
      · simp [hq, hz.init]
    rw [this]
    exact hasFDerivAt_const _ _

/-- **C65**. `sens_forward` returns the solution at `tf` and its derivative with respect to the parameters, if its
combined problem is solved exactly. -/
theorem C65_sens_forward {P : SensProb ℝ Ny Np} {U : Set (ℝ × ((Fin Ny → ℝ) × (Fin Np → ℝ)))}
    (hP : DerivOK P U) {p : Fin Np → ℝ} {t0 tf : ℝ} {y : (Fin Np → ℝ) → ℝ → Fin Ny → ℝ}
    {y0 : (Fin Np → ℝ) → Fin Ny → ℝ} {dy0dp : Matrix (Fin Ny) (Fin Np) ℝ} (h0 : HasFDerivAt y0 (matL dy0dp) p)
    (hU : ∀ t ∈ uIcc t0 tf, (t, (y p t, p)) ∈ U)
    (hy : ∀ᶠ q in 𝓝 p, Solves (fun t x => P.fn t x q) t0 tf t0 (y0 q) (y q))
    {Y : ℝ → Fin (Ny + Np * Ny) → ℝ} (hY : Solves (totalFun P p) t0 tf t0 (totalY0 (y0 p) dy0dp) Y) :
    fwdY (Y tf) = y p tf ∧ HasFDerivAt (fun q => y q tf) (matL (fwdSens (Y tf))) p := by
  obtain ⟨hx, hv⟩ := C65_forward_parts P p (y0 p) dy0dp hY
  have hyY : ∀ t ∈ uIcc t0 tf, fwdY (Y t) = y p t := fun t ht => solves_unique hP hU hy.self_of_nhds hx ht
  refine ⟨hyY tf right_mem_uIcc, ?_⟩
  refine C65_sensitivity_is_derivative (S := fun t => fwdSens (Y t)) hP h0 hU hy ⟨hv.init, fun t ht i j => ?_⟩
  rw [← hyY t ht]
  exact hv.deriv t ht i j

/-! ## C51 -/

theorem const_of_deriv_zero {F : ℝ → ℝ} {t0 tf : ℝ}
    (h : ∀ t ∈ uIcc t0 tf, HasDerivWithinAt F 0 (uIcc t0 tf) t) : F t0 = F tf := by
  have := (convex_uIcc t0 tf).norm_image_sub_le_of_norm_hasDerivWithin_le (C := 0) (f' := fun _ => 0) h
    (by simp) (left_mem_uIcc) (right_mem_uIcc)
  rw [zero_mul, norm_le_zero_iff, sub_eq_zero] at this
  exact this.symm

/-- **C51**. Adjoint and forward sensitivities agree: with an exact solution `y`, an exact solution of the backward
problem and an exact solution `S` of the variational equation, `sens_adjoint_end` returns
`dgdp + dgdy . S(tf)`. -/
theorem C51_adjoint_equals_forward (P : SensProb ℝ Ny Np) (O : SensOut ℝ Ny Np) (p : Fin Np → ℝ) {t0 tf : ℝ}
    (y : ℝ → Fin Ny → ℝ) {dy0dp : Matrix (Fin Ny) (Fin Np) ℝ} {S : ℝ → Matrix (Fin Ny) (Fin Np) ℝ}
    (hS : Variational P p t0 tf y dy0dp S) {Y : ℝ → Fin (Ny + Np) → ℝ}
    (hY : Solves (funBwEnd P p y) t0 tf tf (startBwEnd O p tf (y tf)) Y) :
    sensEnd O p dy0dp tf (y tf) (Y t0) = O.dgdp tf (y tf) p + O.dgdy tf (y tf) p ᵥ* S tf := by
  have hmu : ∀ t ∈ uIcc t0 tf, ∀ i, HasDerivWithinAt (fun t => headOf (Y t) i)
      (-∑ k, P.jac t (y t) p k i * headOf (Y t) k) (uIcc t0 tf) t := by
    intro t ht i
    have := (hasDerivWithinAt_pi.mp (hY.deriv t ht)) (Fin.castAdd Np i)
    simpa [funBwEnd, headOf, Matrix.mulVec, dotProduct] using this
  have hxi : ∀ t ∈ uIcc t0 tf, ∀ j, HasDerivWithinAt (fun t => tailOf (Y t) j)
      (∑ k, P.dfdp t (y t) p k j * headOf (Y t) k) (uIcc t0 tf) t := by
    intro t ht j
    have := (hasDerivWithinAt_pi.mp (hY.deriv t ht)) (Fin.natAdd Ny j)
    simpa [funBwEnd, tailOf, headOf, Matrix.mulVec, dotProduct] using this
  ext j
  have key : ∀ t ∈ uIcc t0 tf, HasDerivWithinAt (fun t => (∑ i, headOf (Y t) i * S t i j) - tailOf (Y t) j) 0
      (uIcc t0 tf) t := by
    intro t ht
    have h1 := HasDerivWithinAt.fun_sum (u := Finset.univ) fun i _ => (hmu t ht i).mul (hS.deriv t ht i j)
    refine (h1.sub (hxi t ht j)).congr_deriv ?_
    have h2 : ∑ i, (-∑ k, P.jac t (y t) p k i * headOf (Y t) k) * S t i j =
        -∑ i, headOf (Y t) i * ∑ k, P.jac t (y t) p i k * S t k j := by
      simp only [neg_mul, Finset.sum_neg_distrib, Finset.sum_mul, Finset.mul_sum]
      rw [Finset.sum_comm]
      congr 1
      exact Finset.sum_congr rfl fun i _ => Finset.sum_congr rfl fun k _ => by ring
    simp only [Finset.sum_add_distrib, mul_add]
    rw [h2]
    have h3 : ∑ k, P.dfdp t (y t) p k j * headOf (Y t) k = ∑ i, headOf (Y t) i * P.dfdp t (y t) p i j :=
      Finset.sum_congr rfl fun i _ => mul_comm _ _
    rw [h3]; ring
  have hc := const_of_deriv_zero key
  have e1 : headOf (Y tf) = O.dgdy tf (y tf) p := by
    rw [hY.init]; ext i; simp [startBwEnd, headOf]
  have e2 : tailOf (Y tf) = 0 := by
    rw [hY.init]; ext i; simp [startBwEnd, tailOf]
  rw [e1, e2, hS.init] at hc
  simp only [sensEnd, Pi.add_apply, Pi.neg_apply, Matrix.vecMul, dotProduct]
  simp only [Pi.zero_apply, sub_zero] at hc
  rw [← hc]; ring

theorem vecMul_vecL {m n : ℕ} (a : Fin m → ℝ) (A : Matrix (Fin m) (Fin n) ℝ) :
    vecL (a ᵥ* A) = (vecL a).comp (matL A) := by
  ext v
  simp only [vecL_apply, ContinuousLinearMap.comp_apply, matL_apply]
  rw [Matrix.dotProduct_mulVec]

theorem vecL_add {n : ℕ} (a b : Fin n → ℝ) : vecL (a + b) = vecL a + vecL b := by ext; simp

/-- **C51**. `sens_adjoint_end` returns the derivative of `p ↦ g(tf, y(tf; p), p)`, if its two problems are solved
exactly. -/
theorem C51_adjoint_is_derivative {P : SensProb ℝ Ny Np} {O : SensOut ℝ Ny Np}
    {U : Set (ℝ × ((Fin Ny → ℝ) × (Fin Np → ℝ)))} (hP : DerivOK P U) (hO : OutOK O U) {p : Fin Np → ℝ} {t0 tf : ℝ}
    {y : (Fin Np → ℝ) → ℝ → Fin Ny → ℝ} {y0 : (Fin Np → ℝ) → Fin Ny → ℝ} {dy0dp : Matrix (Fin Ny) (Fin Np) ℝ}
    (h0 : HasFDerivAt y0 (matL dy0dp) p) (hU : ∀ t ∈ uIcc t0 tf, (t, (y p t, p)) ∈ U)
    (hy : ∀ᶠ q in 𝓝 p, Solves (fun t x => P.fn t x q) t0 tf t0 (y0 q) (y q))
    {S : ℝ → Matrix (Fin Ny) (Fin Np) ℝ} (hS : Variational P p t0 tf (y p) dy0dp S) {Y : ℝ → Fin (Ny + Np) → ℝ}
    (hY : Solves (funBwEnd P p (y p)) t0 tf tf (startBwEnd O p tf (y p tf)) Y) :
    HasFDerivAt (fun q => O.g tf (y q tf) q) (vecL (sensEnd O p dy0dp tf (y p tf) (Y t0))) p := by
  rw [C51_adjoint_equals_forward P O p (y p) hS hY, vecL_add, vecMul_vecL]
  have h1 := C65_sensitivity_is_derivative hP h0 hU hy hS
  have h2 := HasFDerivAt.comp (g := fun z : (Fin Ny → ℝ) × (Fin Np → ℝ) => O.g tf z.1 z.2)
    (f := fun q => (y q tf, q)) p (hO.deriv tf (y p tf) p (hU tf right_mem_uIcc)) (h1.prodMk (hasFDerivAt_id p))
  refine h2.congr_fderiv ?_
  ext v
  simp [add_comm]

/-! ## C52 -/

/-- The parts of a solution of the backward problem of `sens_adjoint_int`. -/
theorem bwInt_parts {P : SensProb ℝ Ny Np} {O : SensOut ℝ Ny Np} {p : Fin Np → ℝ} {t0 tf : ℝ} {y : ℝ → Fin Ny → ℝ}
    {Y : ℝ → Fin (Ny + Np + 1) → ℝ} (hY : Solves (funBwInt P O p y) t0 tf tf 0 Y) {t : ℝ} (ht : t ∈ uIcc t0 tf) :
    (∀ i, HasDerivWithinAt (fun t => headOf (headOf (Y t)) i)
      (-((∑ k, P.jac t (y t) p k i * headOf (headOf (Y t)) k) + O.dgdy t (y t) p i)) (uIcc t0 tf) t) ∧
    (∀ j, HasDerivWithinAt (fun t => tailOf (headOf (Y t)) j)
      ((∑ k, P.dfdp t (y t) p k j * headOf (headOf (Y t)) k) + O.dgdp t (y t) p j) (uIcc t0 tf) t) ∧
    HasDerivWithinAt (fun t => Y t (Fin.last _)) (O.g t (y t) p) (uIcc t0 tf) t := by
  have h := hasDerivWithinAt_pi.mp (hY.deriv t ht)
  refine ⟨fun i => ?_, fun j => ?_, ?_⟩
  · have h1 := h (Fin.castAdd 1 (Fin.castAdd Np i))
    simp only [funBwInt, Fin.append_left] at h1
    simpa [headOf, Matrix.mulVec, dotProduct] using h1
  · have h1 := h (Fin.castAdd 1 (Fin.natAdd Ny j))
    simp only [funBwInt, Fin.append_left, Fin.append_right] at h1
    simpa [headOf, tailOf, Matrix.mulVec, dotProduct] using h1
  · have h1 := h (Fin.natAdd (Ny + Np) 0)
    simp only [funBwInt, Fin.append_right] at h1
    exact h1

/-- `lambda . S - xi`, whose derivative is minus the integrand of the sensitivity. -/
theorem bwInt_key {P : SensProb ℝ Ny Np} {O : SensOut ℝ Ny Np} {p : Fin Np → ℝ} {t0 tf : ℝ} {y : ℝ → Fin Ny → ℝ}
    {dy0dp : Matrix (Fin Ny) (Fin Np) ℝ} {S : ℝ → Matrix (Fin Ny) (Fin Np) ℝ}
    (hS : Variational P p t0 tf y dy0dp S)
    {Y : ℝ → Fin (Ny + Np + 1) → ℝ} (hY : Solves (funBwInt P O p y) t0 tf tf 0 Y) {t : ℝ} (ht : t ∈ uIcc t0 tf)
    (j : Fin Np) :
    HasDerivWithinAt (fun t => (∑ i, headOf (headOf (Y t)) i * S t i j) - tailOf (headOf (Y t)) j)
      (-(O.dgdp t (y t) p j + ∑ i, O.dgdy t (y t) p i * S t i j)) (uIcc t0 tf) t := by
  obtain ⟨h1, h2, -⟩ := bwInt_parts hY ht
  have h3 := HasDerivWithinAt.fun_sum (u := Finset.univ) fun i _ => (h1 i).mul (hS.deriv t ht i j)
  refine (h3.sub (h2 j)).congr_deriv ?_
  have e : ∑ i, -((∑ k, P.jac t (y t) p k i * headOf (headOf (Y t)) k) + O.dgdy t (y t) p i) * S t i j =
      -(∑ i, headOf (headOf (Y t)) i * ∑ k, P.jac t (y t) p i k * S t k j) -
        ∑ i, O.dgdy t (y t) p i * S t i j := by
    simp only [neg_mul, add_mul, neg_add, Finset.sum_add_distrib, Finset.sum_neg_distrib, Finset.sum_mul,
      Finset.mul_sum]
    rw [Finset.sum_comm, sub_eq_add_neg]
    congr 2
    exact Finset.sum_congr rfl fun i _ => Finset.sum_congr rfl fun k _ => by ring
  simp only [Finset.sum_add_distrib, mul_add]
  rw [e]
  have h3 : ∑ k, P.dfdp t (y t) p k j * headOf (headOf (Y t)) k =
      ∑ i, headOf (headOf (Y t)) i * P.dfdp t (y t) p i j := Finset.sum_congr rfl fun i _ => mul_comm _ _
  rw [h3]; ring

theorem integral_of_deriv {F f : ℝ → ℝ} {t0 tf : ℝ} (h : ∀ t ∈ uIcc t0 tf, HasDerivWithinAt F (f t) (uIcc t0 tf) t)
    (hf : ContinuousOn f (uIcc t0 tf)) : ∫ t in t0..tf, f t = F tf - F t0 := by
  refine intervalIntegral.integral_eq_sub_of_hasDeriv_right (fun t ht => (h t ht).continuousWithinAt) ?_
    hf.intervalIntegrable
  intro t ht
  have ht' : t ∈ uIcc t0 tf := Ioo_subset_Icc_self ht
  exact ((h t ht').hasDerivAt (Icc_mem_nhds ht.1 ht.2)).hasDerivWithinAt

theorem OutOK.along {O : SensOut ℝ Ny Np} {U : Set (ℝ × ((Fin Ny → ℝ) × (Fin Np → ℝ)))} (hO : OutOK O U)
    {p : Fin Np → ℝ} {T : Set ℝ} {y : ℝ → Fin Ny → ℝ} (hy : ContinuousOn y T) (hU : ∀ t ∈ T, (t, (y t, p)) ∈ U) :
    ContinuousOn (fun t => O.g t (y t) p) T ∧ ContinuousOn (fun t => O.dgdy t (y t) p) T ∧
      ContinuousOn (fun t => O.dgdp t (y t) p) T := by
  have h : ContinuousOn (fun t => (t, (y t, p))) T := continuousOn_id.prodMk (hy.prodMk continuousOn_const)
  exact ⟨hO.g.comp h hU, hO.dgdy.comp h hU, hO.dgdp.comp h hU⟩

theorem Solves.continuousOn {E : Type*} [NormedAddCommGroup E] [NormedSpace ℝ E] {F : ℝ → E → E} {t0 tf ta : ℝ}
    {xa : E} {x : ℝ → E} (h : Solves F t0 tf ta xa x) : ContinuousOn x (uIcc t0 tf) :=
  fun t ht => (h.deriv t ht).continuousWithinAt

/-- **C52**. `sens_adjoint_int` with exact solutions: the sensitivity is the integral of `dgdp + dgdy . S`, and `G` is
the integral of `g`. -/
theorem C52_adjoint_equals_forward {P : SensProb ℝ Ny Np} {O : SensOut ℝ Ny Np}
    {U : Set (ℝ × ((Fin Ny → ℝ) × (Fin Np → ℝ)))} (hO : OutOK O U) {p : Fin Np → ℝ} {t0 tf : ℝ} {y : ℝ → Fin Ny → ℝ}
    (hy : ContinuousOn y (uIcc t0 tf)) (hU : ∀ t ∈ uIcc t0 tf, (t, (y t, p)) ∈ U)
    {dy0dp : Matrix (Fin Ny) (Fin Np) ℝ} {S : ℝ → Matrix (Fin Ny) (Fin Np) ℝ}
    (hS : Variational P p t0 tf y dy0dp S) {Y : ℝ → Fin (Ny + Np + 1) → ℝ}
    (hY : Solves (funBwInt P O p y) t0 tf tf 0 Y) :
    (∀ j, sensInt dy0dp (Y t0) j = ∫ t in t0..tf, (O.dgdp t (y t) p j + ∑ i, O.dgdy t (y t) p i * S t i j)) ∧
      outInt (Y t0) = ∫ t in t0..tf, O.g t (y t) p := by
  obtain ⟨c1, c2, c3⟩ := hO.along hy hU
  constructor
  · intro j
    have hcont : ContinuousOn (fun t => O.dgdp t (y t) p j + ∑ i, O.dgdy t (y t) p i * S t i j) (uIcc t0 tf) := by
      refine ((continuous_apply j).comp_continuousOn c3).add (continuousOn_finsetSum _ fun i _ => ?_)
      exact ((continuous_apply i).comp_continuousOn c2).mul fun t ht => (hS.deriv t ht i j).continuousWithinAt
    have h := integral_of_deriv (fun t ht => (bwInt_key hS hY ht j).neg) (by simpa using hcont)
    simp only [neg_neg, Pi.neg_apply] at h
    rw [h, hY.init, hS.init]
    simp [sensInt, headOf, tailOf, Matrix.vecMul, dotProduct]
    ring
  · have h := integral_of_deriv (fun t ht => (bwInt_parts hY ht).2.2) c1
    rw [h, hY.init]
    simp [outInt]

/-- Forget the added component. -/
noncomputable def projL (Ny Np : ℕ) :
    (((Fin Ny → ℝ) × ℝ) × (Fin Np → ℝ)) →L[ℝ] ((Fin Ny → ℝ) × (Fin Np → ℝ)) :=
  ((ContinuousLinearMap.fst ℝ (Fin Ny → ℝ) ℝ).comp (ContinuousLinearMap.fst ℝ ((Fin Ny → ℝ) × ℝ) (Fin Np → ℝ))).prod
    (ContinuousLinearMap.snd ℝ ((Fin Ny → ℝ) × ℝ) (Fin Np → ℝ))

theorem projL_apply (z : ((Fin Ny → ℝ) × ℝ) × (Fin Np → ℝ)) : projL Ny Np z = (z.1.1, z.2) := rfl

/-- **C52**. `sens_adjoint_int` returns the derivative of `p ↦ G(p)`, the integral of `g(t, y(t; p), p)` over the
interval, if its two problems are solved exactly. -/
theorem C52_adjoint_is_derivative {P : SensProb ℝ Ny Np} {O : SensOut ℝ Ny Np}
    {U : Set (ℝ × ((Fin Ny → ℝ) × (Fin Np → ℝ)))} (hP : DerivOK P U) (hO : OutOK O U) {p : Fin Np → ℝ} {t0 tf : ℝ}
    {y : (Fin Np → ℝ) → ℝ → Fin Ny → ℝ} {y0 : (Fin Np → ℝ) → Fin Ny → ℝ} {dy0dp : Matrix (Fin Ny) (Fin Np) ℝ}
    (h0 : HasFDerivAt y0 (matL dy0dp) p) (hU : ∀ᶠ q in 𝓝 p, ∀ t ∈ uIcc t0 tf, (t, (y q t, q)) ∈ U)
    (hy : ∀ᶠ q in 𝓝 p, Solves (fun t x => P.fn t x q) t0 tf t0 (y0 q) (y q))
    {S : ℝ → Matrix (Fin Ny) (Fin Np) ℝ} (hS : Variational P p t0 tf (y p) dy0dp S)
    {Y : ℝ → Fin (Ny + Np + 1) → ℝ} (hY : Solves (funBwInt P O p (y p)) t0 tf tf 0 Y) :
    HasFDerivAt (fun q => ∫ t in t0..tf, O.g t (y q t) q) (vecL (sensInt dy0dp (Y t0))) p := by
  classical
  let w : ℝ → Fin Np → ℝ := fun t j => sensInt dy0dp (Y t0) j -
    ((∑ i, headOf (headOf (Y t)) i * S t i j) - tailOf (headOf (Y t)) j)
  have hw : ∀ t ∈ uIcc t0 tf, ∀ j, HasDerivWithinAt (fun t => w t j)
      (O.dgdp t (y p t) p j + ∑ i, O.dgdy t (y p t) p i * S t i j) (uIcc t0 tf) t := by
    intro t ht j
    have := (bwInt_key hS hY ht j).const_sub (sensInt dy0dp (Y t0) j)
    simpa using this
  have hw0 : w t0 = 0 := by
    ext j
    simp only [w, sensInt, hS.init, Pi.add_apply, Pi.neg_apply, Matrix.vecMul, dotProduct, Pi.zero_apply]
    ring
  have hwf : w tf = sensInt dy0dp (Y t0) := by
    ext j
    simp only [w, hY.init]
    simp [headOf, tailOf]
  have key := param_deriv (E := (Fin Ny → ℝ) × ℝ) (P := Fin Np → ℝ)
    (f := fun t z => (P.fn t z.1.1 z.2, O.g t z.1.1 z.2))
    (f' := fun t z => (((matL (P.jac t z.1.1 z.2)).coprod (matL (P.dfdp t z.1.1 z.2))).comp (projL Ny Np)).prod
      (((vecL (O.dgdy t z.1.1 z.2)).coprod (vecL (O.dgdp t z.1.1 z.2))).comp (projL Ny Np)))
    (U := (fun x : ℝ × (((Fin Ny → ℝ) × ℝ) × (Fin Np → ℝ)) => (x.1, projL Ny Np x.2)) ⁻¹' U) (t0 := t0) (tf := tf)
    (y := fun q t => (y q t, ∫ s in t0..t, O.g s (y q s) q)) (p := p)
    (S := fun t => (matL (S t)).prod (vecL (w t))) (hP.isOpen.preimage (by fun_prop)) ?_ ?_ ?_ ?_ ?_ ?_ ?_
  · have h1 := (hasFDerivAt_snd (𝕜 := ℝ) (E := Fin Ny → ℝ) (F := ℝ)
      (p := (y p tf, ∫ s in t0..tf, O.g s (y p s) p))).comp p key
    rw [hwf] at h1
    refine h1.congr_fderiv ?_
    ext v; simp
  · intro t z hz
    have hπ : HasFDerivAt (fun z : ((Fin Ny → ℝ) × ℝ) × (Fin Np → ℝ) => (z.1.1, z.2))
        (projL Ny Np) z := (projL Ny Np).hasFDerivAt
    have a := HasFDerivAt.comp (g := fun z : (Fin Ny → ℝ) × (Fin Np → ℝ) => P.fn t z.1 z.2) z
      (hP.deriv t z.1.1 z.2 hz) hπ
    have b := HasFDerivAt.comp (g := fun z : (Fin Ny → ℝ) × (Fin Np → ℝ) => O.g t z.1 z.2) z
      (hO.deriv t z.1.1 z.2 hz) hπ
    exact a.prodMk b
  · have hm : ContinuousOn (fun x : ℝ × (((Fin Ny → ℝ) × ℝ) × (Fin Np → ℝ)) => (x.1, (x.2.1.1, x.2.2)))
        ((fun x : ℝ × (((Fin Ny → ℝ) × ℝ) × (Fin Np → ℝ)) => (x.1, projL Ny Np x.2)) ⁻¹' U) := by fun_prop
    have mem : MapsTo (fun x : ℝ × (((Fin Ny → ℝ) × ℝ) × (Fin Np → ℝ)) => (x.1, (x.2.1.1, x.2.2)))
        ((fun x : ℝ × (((Fin Ny → ℝ) × ℝ) × (Fin Np → ℝ)) => (x.1, projL Ny Np x.2)) ⁻¹' U) U := fun x hx => hx
    have a := continuous_coprod (hP.jac.comp hm mem) (hP.dfdp.comp hm mem)
    have b : ContinuousOn (fun x : ℝ × (((Fin Ny → ℝ) × ℝ) × (Fin Np → ℝ)) => (vecL (O.dgdy x.1 x.2.1.1 x.2.2)).coprod
        (vecL (O.dgdp x.1 x.2.1.1 x.2.2))) ((fun x : ℝ × (((Fin Ny → ℝ) × ℝ) × (Fin Np → ℝ)) => (x.1, projL Ny Np x.2)) ⁻¹' U) := by
      have e : ∀ (A : (Fin Ny → ℝ) →L[ℝ] ℝ) (B : (Fin Np → ℝ) →L[ℝ] ℝ),
          A.coprod B = A.comp (ContinuousLinearMap.fst ℝ _ _) + B.comp (ContinuousLinearMap.snd ℝ _ _) := by
        intro A B; ext <;> simp
      simp only [e]
      exact ((continuous_vecL.comp_continuousOn (hO.dgdy.comp hm mem)).clm_comp continuousOn_const).add
        ((continuous_vecL.comp_continuousOn (hO.dgdp.comp hm mem)).clm_comp continuousOn_const)
    have e : ∀ (A : ((Fin Ny → ℝ) × ℝ) × (Fin Np → ℝ) →L[ℝ] (Fin Ny → ℝ)) (B : ((Fin Ny → ℝ) × ℝ) × (Fin Np → ℝ) →L[ℝ] ℝ),
        A.prod B = (ContinuousLinearMap.inl ℝ (Fin Ny → ℝ) ℝ).comp A + (ContinuousLinearMap.inr ℝ (Fin Ny → ℝ) ℝ).comp B := by
      intro A B
      ext v <;> simp
    simp only [e]
    exact (continuousOn_const.clm_comp (a.clm_comp continuousOn_const)).add
      (continuousOn_const.clm_comp (b.clm_comp continuousOn_const))
  · intro t ht
    exact hU.self_of_nhds t ht
  · filter_upwards [hy, hU] with q hq hqU t ht
    refine (hq.deriv t ht).prodMk ?_
    have hg := (hO.along hq.continuousOn hqU).1
    have h1 := ODE.hasDerivWithinAt_picard_Icc (f := fun s (_ : ℝ) => O.g s (y q s) q) (u := univ) (α := fun _ => 0)
      (t₀ := t0) (tmin := min t0 tf) (tmax := max t0 tf) left_mem_uIcc
      (by
        have : ContinuousOn (fun x : ℝ × ℝ => O.g x.1 (y q x.1) q) (uIcc t0 tf ×ˢ univ) :=
          hg.comp continuousOn_fst (fun x hx => hx.1)
        exact this) continuousOn_const (fun _ _ => mem_univ _) (0 : ℝ) ht
    refine h1.congr_of_mem (fun s _ => ?_) ht
    simp [ODE.picard]
  · intro t ht v
    refine HasDerivWithinAt.congr_deriv (f' := (P.jac t (y p t) p *ᵥ (S t *ᵥ v) + P.dfdp t (y p t) p *ᵥ v,
      ∑ j, (O.dgdp t (y p t) p j + ∑ i, O.dgdy t (y p t) p i * S t i j) * v j)) ?_ ?_
    · refine HasDerivWithinAt.prodMk (hS.mul ht v) ?_
      have h1 : HasDerivWithinAt (fun t => ∑ j, w t j * v j)
          (∑ j, (O.dgdp t (y p t) p j + ∑ i, O.dgdy t (y p t) p i * S t i j) * v j) (uIcc t0 tf) t :=
        HasDerivWithinAt.fun_sum fun j _ => (hw t ht j).mul_const (v j)
      exact h1
    · have h2 : ∑ j, (O.dgdp t (y p t) p j + ∑ i, O.dgdy t (y p t) p i * S t i j) * v j =
          O.dgdy t (y p t) p ⬝ᵥ (S t *ᵥ v) + O.dgdp t (y p t) p ⬝ᵥ v := by
        rw [Matrix.dotProduct_mulVec]
        simp only [dotProduct, Matrix.vecMul, add_mul, Finset.sum_add_distrib]
        ring
      rw [h2]
      rfl
  · have e : ∀ (A : (Fin Np → ℝ) →L[ℝ] (Fin Ny → ℝ)) (B : (Fin Np → ℝ) →L[ℝ] ℝ),
        A.prod B = (ContinuousLinearMap.inl ℝ (Fin Ny → ℝ) ℝ).comp A + (ContinuousLinearMap.inr ℝ (Fin Ny → ℝ) ℝ).comp B := by
      intro A B
      ext v <;> simp
    simp only [e]
    refine (continuousOn_const.clm_comp hS.continuousOn).add (continuousOn_const.clm_comp ?_)
    refine continuous_vecL.comp_continuousOn (continuousOn_pi.mpr fun j t ht => (hw t ht j).continuousWithinAt)
  · simp only [intervalIntegral.integral_same]
    rw [hw0, hS.init]
    have h1 : HasFDerivAt (fun q => y q t0) (matL dy0dp) p := by
      refine HasFDerivAt.congr_of_eventuallyEq h0 ?_
      filter_upwards [hy] with q hq
      exact hq.init
    refine (h1.prodMk (hasFDerivAt_const (0 : ℝ) p)).congr_fderiv ?_
    ext <;> simp

end Extensisq
