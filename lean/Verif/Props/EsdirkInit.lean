import Verif.Model.EsdirkInit
import Mathlib.Analysis.Calculus.FDeriv.Prod
import Mathlib.Analysis.Calculus.FDeriv.Comp
import Mathlib.Analysis.Calculus.Deriv.Comp
import Mathlib.Analysis.Calculus.Deriv.Prod
import Mathlib.Analysis.Calculus.Deriv.Pi
import Mathlib.Analysis.Calculus.Deriv.Mul
import Mathlib.Analysis.Calculus.Deriv.Add
import Mathlib.Analysis.Calculus.FDeriv.Add
import Mathlib.Analysis.Calculus.FDeriv.Pi
import Mathlib.Analysis.InnerProductSpace.Basic
import Mathlib.LinearAlgebra.Matrix.ToLin
import Mathlib.LinearAlgebra.Matrix.ToLinearEquiv
import Mathlib.LinearAlgebra.Matrix.Notation
import Mathlib.Tactic.FinCases
import Mathlib.LinearAlgebra.Matrix.Determinant.Basic

/-!
# C88: consistent initialisation of DAEs by the ESDIRK methods
-/

set_option linter.unusedSectionVars false

namespace Extensisq
open Matrix Finset Filter Topology

/-! ## Specification, without reference to the singular value decomposition -/

section
variable {K ι : Type*} [Field K] [Fintype ι]

/-- The algebraic equations hold at a point with derivative data `x`: every combination of the equations without
derivatives vanishes. -/
def OnConstraint (M : Matrix ι ι K) (x : ι → K) : Prop := ∀ w : ι → K, w ᵥ* M = 0 → w ⬝ᵥ x = 0

/-- `z` is a consistent derivative for `M y' = f(t, y)` at a point with `f = f(t, y)`, `fdot` the time derivative and
`J` the Jacobian of `f`: it satisfies the equations and the time derivative of the algebraic
equations. -/
def ConsistentDerivative (M J : Matrix ι ι K) (f fdot z : ι → K) : Prop :=
  M *ᵥ z = f ∧ OnConstraint M (fdot + J *ᵥ z)

/-- The problem has index one: no direction leaves both the derivative part and the algebraic equations unchanged. -/
def IndexOne (M J : Matrix ι ι K) : Prop := ∀ z : ι → K, M *ᵥ z = 0 → OnConstraint M (J *ᵥ z) → z = 0

end

section
variable {K ι α β : Type*} [Field K] [DecidableEq K] [Fintype ι] [Fintype α] [Fintype β] [DecidableEq ι]
  [DecidableEq α] [DecidableEq β]

/-- `U`, `s`, `V` are a singular value decomposition of the mass matrix, and `β` are the indices of the singular values
zero. -/
structure IsSVD (p : IcIn K ι α β) (M : Matrix ι ι K) : Prop where
  uu : p.Uᵀ * p.U = 1
  uu' : p.U * p.Uᵀ = 1
  vv : p.Vᵀ * p.V = 1
  vv' : p.V * p.Vᵀ = 1
  mat : M = p.U * Matrix.diagonal p.s * p.Vᵀ
  pos : ∀ i, p.s (.inl i) ≠ 0
  zero : ∀ j, p.s (.inr j) = 0

variable {p : IcIn K ι α β} {M : Matrix ι ι K}

theorem IsSVD.mulVec_coord (h : IsSVD p M) (z : ι → K) (i : α ⊕ β) :
    (p.Uᵀ *ᵥ (M *ᵥ z)) i = p.s i * (p.Vᵀ *ᵥ z) i := by
  rw [h.mat, mulVec_mulVec, ← Matrix.mul_assoc, ← Matrix.mul_assoc, h.uu, Matrix.one_mul, ← mulVec_mulVec,
    mulVec_diagonal]

theorem IsSVD.u_inj (h : IsSVD p M) {x x' : ι → K} (he : ∀ i, (p.Uᵀ *ᵥ x) i = (p.Uᵀ *ᵥ x') i) : x = x' := by
  have : p.Uᵀ *ᵥ x = p.Uᵀ *ᵥ x' := funext he
  have := congrArg (fun v => p.U *ᵥ v) this
  simpa [mulVec_mulVec, h.uu'] using this

theorem IsSVD.v_inj (h : IsSVD p M) {x x' : ι → K} (he : ∀ i, (p.Vᵀ *ᵥ x) i = (p.Vᵀ *ᵥ x') i) : x = x' := by
  have : p.Vᵀ *ᵥ x = p.Vᵀ *ᵥ x' := funext he
  have := congrArg (fun v => p.V *ᵥ v) this
  simpa [mulVec_mulVec, h.vv'] using this

theorem IsSVD.coord_join (h : IsSVD p M) (u : α → K) (v : β → K) : p.Vᵀ *ᵥ p.join u v = Sum.elim u v := by
  unfold IcIn.join
  rw [mulVec_mulVec, h.vv, one_mulVec]

/-- The algebraic equations are the components `β` in the coordinates of the decomposition. -/
theorem IsSVD.onConstraint_iff (h : IsSVD p M) (x : ι → K) :
    OnConstraint M x ↔ ∀ j, (p.Uᵀ *ᵥ x) (.inr j) = 0 := by
  constructor
  · intro hx j
    have := hx (p.U *ᵥ Pi.single (.inr j) 1) (by
      rw [h.mat, ← vecMul_vecMul, ← vecMul_vecMul]
      have e : (p.U *ᵥ Pi.single (.inr j) 1) ᵥ* p.U = Pi.single (Sum.inr j) (1 : K) := by
        rw [← mulVec_transpose, mulVec_mulVec, h.uu, one_mulVec]
      rw [e]
      have e2 : (Pi.single (Sum.inr j) (1 : K)) ᵥ* Matrix.diagonal p.s = 0 := by
        funext i
        rw [vecMul_diagonal]
        by_cases hi : i = .inr j
        · subst hi; simp [h.zero j]
        · simp [Pi.single_eq_of_ne hi]
      rw [e2, zero_vecMul])
    rw [dotProduct_comm, dotProduct_mulVec, ← mulVec_transpose] at this
    simpa using this
  · intro hx w hw
    have hw' : ∀ i, (p.Uᵀ *ᵥ w) (.inl i) = 0 := by
      intro i
      have h1 : (p.Uᵀ *ᵥ w) ᵥ* Matrix.diagonal p.s = 0 := by
        have h2 : w ᵥ* (p.U * Matrix.diagonal p.s * p.Vᵀ) = 0 := by rw [← h.mat]; exact hw
        have h3 := congrArg (fun v => v ᵥ* p.V) h2
        simp only [vecMul_vecMul, Matrix.mul_assoc, h.vv, Matrix.mul_one, zero_vecMul] at h3
        rw [← vecMul_vecMul] at h3
        rw [mulVec_transpose]
        exact h3
      have h4 := congrFun h1 (.inl i)
      rw [vecMul_diagonal] at h4
      exact (mul_eq_zero.mp h4).resolve_right (h.pos i)
    have e : w ⬝ᵥ x = (p.Uᵀ *ᵥ w) ⬝ᵥ (p.Uᵀ *ᵥ x) := by
      rw [dotProduct_mulVec, mulVec_transpose, vecMul_vecMul, h.uu', vecMul_one]
    rw [e, dotProduct, Fintype.sum_sum_type]
    simp [hw', hx]

/-- Components of `J z` in the coordinates of the decomposition. -/
theorem IsSVD.jac_coord (h : IsSVD p M) (J : Matrix ι ι K) (u : α → K) (v : β → K) :
    p.Uᵀ *ᵥ (J *ᵥ p.join u v) = p.G J *ᵥ Sum.elim u v := by
  unfold IcIn.join IcIn.G
  simp only [mulVec_mulVec, Matrix.mul_assoc]

theorem G_inr (G : Matrix (α ⊕ β) (α ⊕ β) K) (u : α → K) (v : β → K) (j : β) :
    (G *ᵥ Sum.elim u v) (.inr j) = (G.toBlocks₂₁ *ᵥ u) j + (G.toBlocks₂₂ *ᵥ v) j := by
  rw [mulVec, dotProduct, Fintype.sum_sum_type]
  rfl

theorem G_inl (G : Matrix (α ⊕ β) (α ⊕ β) K) (u : α → K) (v : β → K) (i : α) :
    (G *ᵥ Sum.elim u v) (.inl i) = (G.toBlocks₁₁ *ᵥ u) i + (G.toBlocks₁₂ *ᵥ v) i := by
  rw [mulVec, dotProduct, Fintype.sum_sum_type]
  rfl

theorem solve_eq {A : Matrix β β K} (hA : A.det ≠ 0) (b : β → K) : A *ᵥ (A⁻¹ *ᵥ b) = b := by
  rw [mulVec_mulVec, mul_nonsing_inv _ (isUnit_iff_ne_zero.mpr hA), one_mulVec]

theorem solve_unique {A : Matrix β β K} (hA : A.det ≠ 0) {x b : β → K} (hx : A *ᵥ x = b) : x = A⁻¹ *ᵥ b := by
  rw [← hx, mulVec_mulVec, nonsing_inv_mul _ (isUnit_iff_ne_zero.mpr hA), one_mulVec]

/-- The index test of the code decides whether the problem has index one. -/
theorem IsSVD.index_iff (h : IsSVD p M) (J : Matrix ι ι K) : (p.G J).toBlocks₂₂.det ≠ 0 ↔ IndexOne M J := by
  have key : ∀ u v, (M *ᵥ p.join u v = 0 ↔ u = 0) := by
    intro u v
    constructor
    · intro hz
      funext i
      have := h.mulVec_coord (p.join u v) (.inl i)
      rw [hz, mulVec_zero, h.coord_join] at this
      exact (mul_eq_zero.mp this.symm).resolve_left (h.pos i)
    · rintro rfl
      apply h.u_inj
      intro i
      rw [h.mulVec_coord, h.coord_join, mulVec_zero]
      rcases i with i | j
      · simp
      · simp [h.zero j]
  constructor
  · intro hd z hz hc
    obtain ⟨u, v, rfl⟩ : ∃ u v, z = p.join u v := by
      refine ⟨fun i => (p.Vᵀ *ᵥ z) (.inl i), fun j => (p.Vᵀ *ᵥ z) (.inr j), ?_⟩
      apply h.v_inj
      intro i
      rw [h.coord_join]
      rcases i with i | j <;> rfl
    have hu := (key u v).mp hz
    subst hu
    have hv : (p.G J).toBlocks₂₂ *ᵥ v = 0 := by
      funext j
      have := (h.onConstraint_iff _).mp hc j
      rw [h.jac_coord, G_inr, mulVec_zero] at this
      simpa using this
    have := solve_unique hd hv
    rw [mulVec_zero] at this
    subst this
    apply h.v_inj
    intro i
    rw [h.coord_join, mulVec_zero]
    rcases i with i | j <;> rfl
  · intro hI hd
    obtain ⟨v, hv0, hv⟩ := (exists_mulVec_eq_zero_iff (M := (p.G J).toBlocks₂₂)).mpr hd
    have := hI (p.join 0 v) ((key 0 v).mpr rfl) ((h.onConstraint_iff _).mpr fun j => by
      rw [h.jac_coord, G_inr, mulVec_zero, hv]; simp)
    apply hv0
    funext j
    have h2 := congrFun (h.coord_join 0 v) (.inr j)
    rw [this, mulVec_zero] at h2
    exact h2.symm

/-- Consistent derivatives in the coordinates of the decomposition. -/
theorem IsSVD.consistent_iff (h : IsSVD p M) (J : Matrix ι ι K) (f fdot : ι → K) (u : α → K) (v : β → K) :
    ConsistentDerivative M J f fdot (p.join u v) ↔ OnConstraint M f ∧
      (∀ i, p.s (.inl i) * u i = (p.Uᵀ *ᵥ f) (.inl i)) ∧
      (∀ j, (p.Uᵀ *ᵥ fdot) (.inr j) + ((p.G J).toBlocks₂₁ *ᵥ u) j + ((p.G J).toBlocks₂₂ *ᵥ v) j = 0) := by
  unfold ConsistentDerivative
  have e1 : M *ᵥ p.join u v = f ↔ OnConstraint M f ∧ ∀ i, p.s (.inl i) * u i = (p.Uᵀ *ᵥ f) (.inl i) := by
    rw [h.onConstraint_iff]
    constructor
    · rintro rfl
      refine ⟨fun j => ?_, fun i => ?_⟩
      · rw [h.mulVec_coord, h.zero, zero_mul]
      · rw [h.mulVec_coord, h.coord_join]; rfl
    · rintro ⟨h1, h2⟩
      apply h.u_inj
      rintro (i | j)
      · rw [h.mulVec_coord, h.coord_join, ← h2]; rfl
      · rw [h.mulVec_coord, h.zero, zero_mul, h1]
  rw [e1, h.onConstraint_iff (fdot + _), and_assoc]
  refine and_congr_right fun _ => and_congr_right fun _ => forall_congr' fun j => ?_
  rw [mulVec_add, Pi.add_apply, h.jac_coord, G_inr, ← add_assoc]

/-! ## Consistent initial values -/

/-- scipy's `root`: a successful result is a zero of the function. -/
def RootOK (p : IcIn K ι α β) : Prop := ∀ g j v0 v, p.root g j v0 = some v → g v = 0

/-- The results of the last part of `_consistent_ICs`. -/
theorem finish_spec (h : IsSVD p M) {y f : ι → K} {J : Matrix ι ι K} {u : α → K} {w : Bool} {r : IcRes K ι α}
    (hr : p.finish y f J u w = .ok r) :
    (p.G J).toBlocks₂₂.det ≠ 0 ∧ r.y = y ∧ r.J = J ∧ r.u = u ∧ r.warned = w ∧
    (∃ v, r.ydot = p.join r.udot v ∧ (∀ i, p.s (.inl i) * r.udot i = (p.Uᵀ *ᵥ f) (.inl i)) ∧
      ∀ j, (p.Uᵀ *ᵥ p.fdot y f) (.inr j) + ((p.G J).toBlocks₂₁ *ᵥ r.udot) j + ((p.G J).toBlocks₂₂ *ᵥ v) j = 0) := by
  unfold IcIn.finish at hr
  dsimp only at hr
  split at hr
  · cases hr
  · rename_i hd
    injection hr with hr
    subst hr
    refine ⟨hd, rfl, rfl, rfl, rfl, _, rfl, fun i => ?_, fun j => ?_⟩
    · dsimp only
      rw [mul_div_cancel₀ _ (h.pos i)]
    · dsimp only
      rw [mulVec_neg, Pi.neg_apply, solve_eq hd]
      simp only [Pi.add_apply]
      ring

/-- **C88**. The initial values after a successful initialisation: either the given ones passed the test of the
algebraic equations and are returned without warning, or the returned ones satisfy the algebraic equations, have the
same differential part `M y` as the given ones, and a warning is issued if and only if they differ from them by more
than the tolerance. -/
theorem C88_consistent_values (h : IsSVD p M) (hroot : RootOK p) {r : IcRes K ι α} (hr : consistentICs p = .ok r) :
    M *ᵥ r.y = M *ᵥ p.y ∧
    ((r.y = p.y ∧ r.J = p.J ∧ r.warned = false ∧ p.close (fun j => (p.Uᵀ *ᵥ p.fn p.t p.y) (.inr j)) = true) ∨
     (OnConstraint M (p.fn p.t r.y) ∧ r.J = p.jac p.t r.y ∧ (r.warned = true ↔ p.near r.y p.y = false))) := by
  unfold consistentICs at hr
  split at hr
  · cases hr
  dsimp only at hr
  split at hr
  · rename_i hc
    obtain ⟨-, e1, e2, -, e3, -⟩ := finish_spec h hr
    exact ⟨by rw [e1], Or.inl ⟨e1, e2, e3, hc⟩⟩
  · split at hr
    · cases hr
    · rename_i v hv
      obtain ⟨-, e1, e2, -, e3, -⟩ := finish_spec h hr
      refine ⟨?_, Or.inr ⟨?_, by rw [e2, e1], by rw [e3, e1]; simp⟩⟩
      · apply h.u_inj
        intro i
        rw [h.mulVec_coord, h.mulVec_coord, e1, h.coord_join]
        rcases i with i | j
        · rfl
        · simp [h.zero j]
      · rw [e1, h.onConstraint_iff]
        exact fun j => congrFun (hroot _ _ _ _ hv) j

/-- **C88**. The initial derivative is the consistent one and there is no other: `M y' = f` and the time derivative of
the algebraic equations vanishes, with the numerical time derivative of `f` and the Jacobian at the returned
point. -/
theorem C88_consistent_derivative (h : IsSVD p M) {r : IcRes K ι α} (hr : consistentICs p = .ok r)
    (hc : OnConstraint M (p.fn p.t r.y)) (z : ι → K) :
    ConsistentDerivative M r.J (p.fn p.t r.y) (p.fdot r.y (p.fn p.t r.y)) z ↔ z = r.ydot := by
  obtain ⟨y, J, u, w, hr'⟩ : ∃ y J u w, p.finish y (p.fn p.t y) J u w = .ok r := by
    unfold consistentICs at hr
    split at hr
    · cases hr
    dsimp only at hr
    split at hr
    · exact ⟨_, _, _, _, hr⟩
    · split at hr
      · cases hr
      · exact ⟨_, _, _, _, hr⟩
  obtain ⟨hd, e1, e2, -, -, v, ev, hu, hv⟩ := finish_spec h hr'
  subst e1 e2
  constructor
  · intro hz
    obtain ⟨a, b, rfl⟩ : ∃ a b, z = p.join a b := by
      refine ⟨fun i => (p.Vᵀ *ᵥ z) (.inl i), fun j => (p.Vᵀ *ᵥ z) (.inr j), ?_⟩
      apply h.v_inj
      intro i
      rw [h.coord_join]
      rcases i with i | j <;> rfl
    obtain ⟨-, z2, z3⟩ := (h.consistent_iff _ _ _ _ _).mp hz
    have ea : a = r.udot := by
      funext i
      exact mul_left_cancel₀ (h.pos i) ((z2 i).trans (hu i).symm)
    subst ea
    have eb : (p.G r.J).toBlocks₂₂ *ᵥ b = (p.G r.J).toBlocks₂₂ *ᵥ v := by
      funext j
      linear_combination z3 j - hv j
    have := solve_unique hd eb
    rw [this, ← solve_unique hd rfl, ev]
  · rintro rfl
    rw [ev]
    exact (h.consistent_iff _ _ _ _ _).mpr ⟨hc, hu, hv⟩

/-- **C88**. The derivative part is right even if the numerical time derivative is not: `M ydot = f`. -/
theorem C88_derivative_solves (h : IsSVD p M) {r : IcRes K ι α} (hr : consistentICs p = .ok r)
    (hc : OnConstraint M (p.fn p.t r.y)) : M *ᵥ r.ydot = p.fn p.t r.y :=
  ((C88_consistent_derivative h hr hc r.ydot).mpr rfl).1

/-- **C88**. The index test: a problem is rejected as of higher index exactly if the given point is not of index
one. -/
theorem C88_index_test (h : IsSVD p M) : consistentICs p = .highIndex ↔ ¬ IndexOne M p.J := by
  rw [← h.index_iff, not_not]
  constructor
  · intro hi
    unfold consistentICs at hi
    split at hi
    · assumption
    · dsimp only at hi
      split at hi
      · unfold IcIn.finish at hi
        dsimp only at hi
        split at hi <;> cases hi
      · split at hi
        · cases hi
        · unfold IcIn.finish at hi
          dsimp only at hi
          split at hi <;> cases hi
  · intro hi
    unfold consistentICs
    rw [if_pos hi]

/-! ## Failures -/

/-- **C88**. If the first guess is of index one, the initialisation can only fail because `root` failed or because the
problem is not of index one at the values found by it (this is an error of the linear algebra routines, not the
message about the index). -/
theorem C88_failures (h : IsSVD p M) (hi : IndexOne M p.J) : (∃ r, consistentICs p = .ok r) ∨
    (consistentICs p = .notFound) ∨ ∃ u v, M *ᵥ p.join u v = M *ᵥ p.y ∧ consistentICs p = .singular ∧
      ¬ IndexOne M (p.jac p.t (p.join u v)) := by
  have hd := (h.index_iff p.J).mpr hi
  have hfin : ∀ y f J u w, (p.G J).toBlocks₂₂.det ≠ 0 → ∃ r, p.finish y f J u w = .ok r := by
    intro y f J u w hJ
    unfold IcIn.finish
    dsimp only
    rw [if_neg hJ]
    exact ⟨_, rfl⟩
  unfold consistentICs
  rw [if_neg hd]
  dsimp only
  split
  · exact Or.inl (hfin _ _ _ _ _ hd)
  · split
    · exact Or.inr (Or.inl rfl)
    · rename_i v _
      by_cases hJ : (p.G (p.jac p.t (p.join (fun i => (p.Vᵀ *ᵥ p.y) (Sum.inl i)) v))).toBlocks₂₂.det = 0
      · right; right
        refine ⟨_, v, ?_, ?_, fun hI => (h.index_iff _).mpr hI hJ⟩
        · apply h.u_inj
          intro i
          rw [h.mulVec_coord, h.mulVec_coord, h.coord_join]
          rcases i with i | j
          · rfl
          · simp [h.zero j]
        · unfold IcIn.finish
          dsimp only
          rw [if_pos hJ]
      · exact Or.inl (hfin _ _ _ _ _ hJ)

/-! ## The reduced problem -/

/-- **C88**. What `h_start` is told about the reduced problem is wrong by twice the Schur term: if `M y' = J y + r`
and `M y'' = J y' + rdot` with index one, the differential part satisfies
`s u'' = (Guu - Guv Gvv⁻¹ Gvu) u' + ...`, while the reduced Jacobian handed to `h_start` is
`1/s (Guu + Guv Gvv⁻¹ Gvu)`. -/
theorem C88_reduced_jacobian (h : IsSVD p M) {r : IcRes K ι α} (hr : consistentICs p = .ok r) :
    ∃ Jtrue : Matrix α α K,
      (∀ z z' q : ι → K, M *ᵥ z' = r.J *ᵥ z + q → OnConstraint M q →
        (∀ i, (p.Vᵀ *ᵥ z') (.inl i) = (Jtrue *ᵥ fun i => (p.Vᵀ *ᵥ z) (.inl i)) i + (p.Uᵀ *ᵥ q) (.inl i) / p.s (.inl i))) ∧
      r.Jr - Jtrue = Matrix.diagonal (fun i => 2 / p.s (.inl i)) *
        ((p.G r.J).toBlocks₁₂ * ((p.G r.J).toBlocks₂₂⁻¹ * (p.G r.J).toBlocks₂₁)) := by
  obtain ⟨y, f, J, u, w, hr'⟩ : ∃ y f J u w, p.finish y f J u w = .ok r := by
    unfold consistentICs at hr
    split at hr
    · cases hr
    dsimp only at hr
    split at hr
    · exact ⟨_, _, _, _, _, hr⟩
    · split at hr
      · cases hr
      · exact ⟨_, _, _, _, _, hr⟩
  obtain ⟨hd, e1, e2, -⟩ := finish_spec h hr'
  subst e2
  have eJr : r.Jr = Matrix.diagonal (fun i => 1 / p.s (.inl i)) *
      ((p.G r.J).toBlocks₁₁ + (p.G r.J).toBlocks₁₂ * ((p.G r.J).toBlocks₂₂⁻¹ * (p.G r.J).toBlocks₂₁)) := by
    unfold IcIn.finish at hr'
    dsimp only at hr'
    rw [if_neg hd] at hr'
    injection hr' with hr'
    exact (congrArg IcRes.Jr hr').symm
  refine ⟨Matrix.diagonal (fun i => 1 / p.s (.inl i)) *
      ((p.G r.J).toBlocks₁₁ - (p.G r.J).toBlocks₁₂ * ((p.G r.J).toBlocks₂₂⁻¹ * (p.G r.J).toBlocks₂₁)), ?_, ?_⟩
  · intro z z' q hz hq i
    obtain ⟨a, b, rfl⟩ : ∃ a b, z = p.join a b := by
      refine ⟨fun i => (p.Vᵀ *ᵥ z) (.inl i), fun j => (p.Vᵀ *ᵥ z) (.inr j), ?_⟩
      apply h.v_inj
      intro i
      rw [h.coord_join]
      rcases i with i | j <;> rfl
    have hq' := (h.onConstraint_iff _).mp hq
    have hb : (p.G r.J).toBlocks₂₂ *ᵥ b = -((p.G r.J).toBlocks₂₁ *ᵥ a) := by
      funext j
      have h1 := h.mulVec_coord z' (.inr j)
      rw [hz, h.zero, zero_mul, mulVec_add, Pi.add_apply, hq', add_zero, h.jac_coord, G_inr] at h1
      rw [Pi.neg_apply]
      linear_combination h1
    have hb' := solve_unique hd hb
    have h1 := h.mulVec_coord z' (.inl i)
    rw [hz, mulVec_add, Pi.add_apply, h.jac_coord, G_inl] at h1
    have hs := h.pos i
    have e3 : ((p.G r.J).toBlocks₁₂ *ᵥ b) i =
        -(((p.G r.J).toBlocks₁₂ * ((p.G r.J).toBlocks₂₂⁻¹ * (p.G r.J).toBlocks₂₁)) *ᵥ a) i := by
      rw [hb', mulVec_neg, mulVec_neg, mulVec_mulVec, mulVec_mulVec, Pi.neg_apply, Matrix.mul_assoc]
    rw [← mulVec_mulVec, mulVec_diagonal, sub_mulVec, Pi.sub_apply, h.coord_join]
    simp only [Sum.elim_inl]
    rw [e3] at h1
    field_simp
    linear_combination -h1
  · rw [eJr, ← Matrix.mul_sub]
    ext i j
    simp only [diagonal_mul, Matrix.sub_apply, Matrix.add_apply]
    ring

/-- **C88**. The numerical time derivative is exact if the right-hand side is affine in time. -/
theorem C88_time_derivative (hda : p.da ≠ 0) {a b : (ι → K) → ι → K} (hf : ∀ t y, p.fn t y = a y + t • b y) (y : ι → K) :
    p.fdot y (p.fn p.t y) = b y := by
  funext i
  simp only [IcIn.fdot, hf, Pi.add_apply, Pi.smul_apply, smul_eq_mul]
  field_simp
  ring

/-- **C88**. Without algebraic equations the initial derivative solves `M y' = f`. -/
theorem C88_ode_derivative (hM : M.det ≠ 0) (f : ι → K) : M *ᵥ odeDerivative M f = f := by
  unfold odeDerivative
  rw [mulVec_mulVec, mul_nonsing_inv _ (isUnit_iff_ne_zero.mpr hM), one_mulVec]

end

/-! ## The derivative of the solution -/

section
variable {ι α β : Type*} [Fintype ι] [Fintype α] [Fintype β] [DecidableEq ι] [DecidableEq α] [DecidableEq β]

/-- **C88**. The initial derivative is the derivative of the exact solution: for every differentiable solution `Y` of
`M Y' = f(t, Y)` through the returned initial values, where the Jacobian and the numerical time derivative are the
exact ones. -/
theorem C88_true_derivative [DecidableEq ℝ] {p : IcIn ℝ ι α β} {M : Matrix ι ι ℝ} (h : IsSVD p M) {r : IcRes ℝ ι α}
    (hr : consistentICs p = .ok r) {L : ℝ × (ι → ℝ) →L[ℝ] (ι → ℝ)}
    (hL : HasFDerivAt (fun x : ℝ × (ι → ℝ) => p.fn x.1 x.2) L (p.t, r.y)) (hJ : ∀ z, L (0, z) = r.J *ᵥ z)
    (hdot : p.fdot r.y (p.fn p.t r.y) = L (1, 0)) {Y Y' : ℝ → ι → ℝ} (hY0 : Y p.t = r.y)
    (hY : ∀ᶠ t in 𝓝 p.t, HasDerivAt Y (Y' t) t ∧ M *ᵥ Y' t = p.fn t (Y t)) : Y' p.t = r.ydot := by
  have h0 := hY.self_of_nhds
  rw [hY0] at h0
  have hnull : ∀ w : ι → ℝ, w ᵥ* M = 0 → ∀ t, M *ᵥ Y' t = p.fn t (Y t) → w ⬝ᵥ p.fn t (Y t) = 0 := by
    intro w hw t ht
    rw [← ht, dotProduct_mulVec, hw, zero_dotProduct]
  refine (C88_consistent_derivative h hr ?_ _).mp ⟨h0.2, fun w hw => ?_⟩
  · intro w hw
    have := hnull w hw p.t (by rw [hY0]; exact h0.2)
    rwa [hY0] at this
  · have hd1 : HasDerivAt (fun t => p.fn t (Y t)) (L (1, Y' p.t)) p.t := by
      have e : HasDerivAt (fun t => (t, Y t)) (1, Y' p.t) p.t := (hasDerivAt_id p.t).prodMk h0.1
      have hL' : HasFDerivAt (fun x : ℝ × (ι → ℝ) => p.fn x.1 x.2) L ((fun t => (t, Y t)) p.t) := by
        rw [← hY0] at hL; exact hL
      exact hL'.comp_hasDerivAt p.t e
    have hd2 : HasDerivAt (fun t => w ⬝ᵥ p.fn t (Y t)) (w ⬝ᵥ L (1, Y' p.t)) p.t := by
      unfold dotProduct
      apply HasDerivAt.fun_sum
      intro i _
      exact ((hasDerivAt_pi.mp hd1) i).const_mul (w i)
    have hd3 : HasDerivAt (fun t => w ⬝ᵥ p.fn t (Y t)) 0 p.t := by
      refine (hasDerivAt_const p.t (0 : ℝ)).congr_of_eventuallyEq ?_
      filter_upwards [hY] with t ht
      exact hnull w hw t ht.2
    have e := hd2.unique hd3
    have e2 : L (1, Y' p.t) = L (1, 0) + L (0, Y' p.t) := by
      rw [← map_add]; simp
    rw [e2, hJ, ← hdot] at e
    exact e

end

/-! ## Detection of algebraic equations -/

section
variable {K : Type*} [Field K] [LinearOrder K] [IsStrictOrderedRing K] {n : ℕ}

/-- **C88**. The slice of algebraic equations contains exactly the singular values below the limit. -/
theorem C88_algebraic_slice {s : Fin (n + 1) → K} {eps : K} (hs : Antitone s) (i : Fin (n + 1)) :
    inAE s eps i ↔ s i < s 0 * ((n : K) + 1) ^ 2 * eps := by
  have hlim : s 0 * ((n : K) + 1) ^ 2 * eps = condLim (s 0) eps (n + 1) := by unfold condLim; push_cast; ring
  rw [hlim]
  unfold inAE nAE
  set P : Fin (n + 1) → Prop := fun i => s i < condLim (s 0) eps (n + 1) with hP
  change n + 1 - (univ.filter P).card ≤ i.val ↔ P i
  have hmono : ∀ i j, i ≤ j → P i → P j := fun i j hij hi => lt_of_le_of_lt (hs hij) hi
  have hcard : (univ.filter P).card ≤ n + 1 := by simpa using card_filter_le univ P
  constructor
  · intro hi
    by_contra hPi
    have hsub : univ.filter P ⊆ univ.filter fun j : Fin (n + 1) => i < j := by
      intro j hj
      rw [mem_filter] at hj ⊢
      refine ⟨mem_univ _, lt_of_not_ge fun hji => hPi (hmono j i hji hj.2)⟩
    have h1 := card_le_card hsub
    have h2 : (univ.filter fun j : Fin (n + 1) => i < j).card = n - i.val := by
      rw [show (univ.filter fun j : Fin (n + 1) => i < j) = Finset.Ioi i by ext; simp, Fin.card_Ioi]
      omega
    have := i.2
    omega
  · intro hPi
    have hsub : (univ.filter fun j : Fin (n + 1) => i ≤ j) ⊆ univ.filter P := by
      intro j hj
      rw [mem_filter] at hj ⊢
      exact ⟨mem_univ _, hmono i j hj.2 hPi⟩
    have h1 := card_le_card hsub
    have h2 : (univ.filter fun j : Fin (n + 1) => i ≤ j).card = n + 1 - i.val := by
      rw [show (univ.filter fun j : Fin (n + 1) => i ≤ j) = Finset.Ici i by ext; simp, Fin.card_Ici]
    have := i.2
    omega

/-- **C88**. A mass matrix that is not zero, with singular values that are zero or not below the limit, is treated as a
DAE exactly if it is singular. -/
theorem C88_dae_detection {s : Fin (n + 1) → K} {eps : K} (heps : 0 < eps) (h0 : 0 < s 0)
    (hs : ∀ i, s i = 0 ∨ s 0 * ((n : K) + 1) ^ 2 * eps ≤ s i) {M U V : Matrix (Fin (n + 1)) (Fin (n + 1)) K}
    (hU : U.det ≠ 0) (hV : V.det ≠ 0) (hM : M = U * Matrix.diagonal s * V) : isDAE s eps = true ↔ M.det = 0 := by
  have hcl : s 0 * ((n : K) + 1) ^ 2 * eps = condLim (s 0) eps (n + 1) := by unfold condLim; push_cast; ring
  rw [hcl] at hs
  have hlim : 0 < condLim (s 0) eps (n + 1) := by
    unfold condLim
    positivity
  have e : M.det = 0 ↔ ∃ i, s i = 0 := by
    rw [hM, det_mul, det_mul, det_diagonal, mul_eq_zero, mul_eq_zero, prod_eq_zero_iff]
    simp [hU, hV]
  rw [e]
  unfold isDAE nAE
  rw [decide_eq_true_eq, card_pos]
  constructor
  · rintro ⟨i, hi⟩
    rw [mem_filter] at hi
    exact ⟨i, (hs i).resolve_right (not_le.mpr hi.2)⟩
  · rintro ⟨i, hi⟩
    exact ⟨i, by rw [mem_filter]; exact ⟨mem_univ _, by rw [hi]; exact hlim⟩⟩

omit [IsStrictOrderedRing K] in
/-- **C88**. The mass matrix zero (only algebraic equations) is not recognised as a DAE. -/
theorem C88_zero_mass_matrix (eps : K) : isDAE (fun _ : Fin (n + 1) => (0 : K)) eps = false := by
  unfold isDAE nAE condLim
  simp

end

/-- **C88**. With an array `atol` and without `first_step`, the constructor raises for a DAE with at least one algebraic and
at least two differential equations; with a number it does not, and the tolerance has the length of the differential
part. -/
theorem C88_array_atol {n k : ℕ} (hk : 0 < k) (hkn : k < n) :
    (etolLength false n k = none ↔ 2 ≤ n - k) ∧ etolLength true n k = some (n - k) := by
  refine ⟨?_, rfl⟩
  unfold etolLength bcast
  have h1 : n ≠ n - k := by omega
  have h2 : n ≠ 1 := by omega
  simp only [Bool.false_eq_true, if_false, h1, h2]
  split <;> simp <;> omega

/-! ## An example: `u' = -u + v`, `0 = u - v` -/

/-- The problem `u' = -u + v`, `0 = u - v` started at the inconsistent point `(1, 0)`. -/
noncomputable def exIc : IcIn ℚ (Fin 1 ⊕ Fin 1) (Fin 1) (Fin 1) where
  t := 0
  y := Sum.elim (fun _ => 1) (fun _ => 0)
  fn := fun _ y => Sum.elim (fun _ => -y (.inl 0) + y (.inr 0)) (fun _ => y (.inl 0) - y (.inr 0))
  J := Matrix.fromBlocks !![-1] !![1] !![1] !![-1]
  jac := fun _ _ => Matrix.fromBlocks !![-1] !![1] !![1] !![-1]
  U := 1
  V := 1
  s := Sum.elim (fun _ => 1) (fun _ => 0)
  close := fun b => decide (b = 0)
  near := fun a b => decide (a = b)
  root := fun g _ _ => if g (fun _ => 1) = 0 then some (fun _ => 1) else none
  da := 1

theorem exIc_svd : IsSVD exIc (Matrix.fromBlocks 1 0 0 0) where
  uu := by simp [exIc]
  uu' := by simp [exIc]
  vv := by simp [exIc]
  vv' := by simp [exIc]
  mat := by
    simp only [exIc, Matrix.transpose_one, Matrix.one_mul, Matrix.mul_one]
    ext i j
    rcases i with i | i <;> rcases j with j | j <;> fin_cases i <;> fin_cases j <;> simp
  pos := by intro i; simp [exIc]
  zero := by intro j; rfl

theorem exIc_root : RootOK exIc := by
  intro g j v0 v hv
  simp only [exIc] at hv
  split at hv
  · injection hv with hv; rw [← hv]; assumption
  · cases hv

/-- The example is initialised to `(1, 1)` with a warning and derivative zero; the hypotheses of C88 are met. -/
theorem C88_example : ∃ r, consistentICs exIc = .ok r ∧ (∀ i, r.y i = 1) ∧ (∀ i, r.ydot i = 0) ∧ r.warned = true ∧
    r.Jr = !![-2] := by
  have hG : exIc.G exIc.J = Matrix.fromBlocks !![-1] !![1] !![1] !![-1] := by simp [IcIn.G, exIc]
  have hinv : (!![-1] : Matrix (Fin 1) (Fin 1) ℚ)⁻¹ = !![-1] := by
    apply Matrix.inv_eq_right_inv
    ext i j; fin_cases i; fin_cases j; simp
  have hd : (exIc.G exIc.J).toBlocks₂₂.det ≠ 0 := by
    rw [hG, Matrix.toBlocks_fromBlocks₂₂]
    simp [Matrix.det_fin_one]
  have hjac : ∀ t y, exIc.jac t y = exIc.J := fun _ _ => rfl
  have hj : exIc.join (fun i => (exIc.Vᵀ *ᵥ exIc.y) (.inl i)) (fun _ => 1) = fun _ => 1 := by
    funext i
    rcases i with i | i <;> simp [IcIn.join, exIc]
  have hroot : exIc.root (exIc.funC (fun i => (exIc.Vᵀ *ᵥ exIc.y) (.inl i)))
      (exIc.jacC (fun i => (exIc.Vᵀ *ᵥ exIc.y) (.inl i))) (fun j => (exIc.Vᵀ *ᵥ exIc.y) (.inr j)) = some (fun _ => 1) := by
    have : exIc.funC (fun i => (exIc.Vᵀ *ᵥ exIc.y) (.inl i)) (fun _ => 1) = 0 := by
      unfold IcIn.funC
      rw [hj]
      funext j
      simp [exIc]
    exact if_pos this
  have hclose : exIc.close (fun j => (exIc.Uᵀ *ᵥ exIc.fn exIc.t exIc.y) (.inr j)) = false := by
    change decide ((fun j => (exIc.Uᵀ *ᵥ exIc.fn exIc.t exIc.y) (.inr j)) = 0) = false
    rw [decide_eq_false_iff_not]
    intro h
    have := congrFun h 0
    simp [exIc] at this
  have hnear : exIc.near (fun _ => 1) exIc.y = false := by
    change decide ((fun _ => 1) = exIc.y) = false
    rw [decide_eq_false_iff_not]
    intro h
    have := congrFun h (.inr 0)
    simp [exIc] at this
  have hr : ∃ r, consistentICs exIc = .ok r := by
    unfold consistentICs
    rw [if_neg hd]
    dsimp only
    rw [hclose, hroot]
    simp only [Bool.false_eq_true, if_false]
    unfold IcIn.finish
    dsimp only
    rw [hjac, if_neg hd]
    exact ⟨_, rfl⟩
  obtain ⟨r, hr⟩ := hr
  have hr' := hr
  unfold consistentICs at hr'
  rw [if_neg hd] at hr'
  dsimp only at hr'
  rw [hclose, hroot] at hr'
  simp only [Bool.false_eq_true, if_false] at hr'
  rw [hj, hjac, hnear] at hr'
  obtain ⟨-, e1, e2, -, e4, -⟩ := finish_spec exIc_svd hr'
  refine ⟨r, hr, fun i => by rw [e1], ?_, by rw [e4]; rfl, ?_⟩
  · have hf : exIc.fn exIc.t r.y = 0 := by
      rw [e1]
      funext i
      rcases i with i | i <;> simp [exIc]
    have hfd : exIc.fdot r.y (exIc.fn exIc.t r.y) = 0 := by
      funext i
      rw [e1]
      simp [IcIn.fdot, exIc]
    have := (C88_consistent_derivative exIc_svd hr (by rw [hf]; intro w _; simp) 0).mp (by
      rw [hfd, hf]
      exact ⟨by simp, by intro w _; simp⟩)
    intro i
    rw [← this]; rfl
  · unfold IcIn.finish at hr'
    dsimp only at hr'
    rw [if_neg hd] at hr'
    injection hr' with hr'
    rw [← hr', hG]
    simp only [toBlocks_fromBlocks₁₁, toBlocks_fromBlocks₁₂, toBlocks_fromBlocks₂₁, toBlocks_fromBlocks₂₂, hinv]
    ext i j
    fin_cases i; fin_cases j
    simp [exIc]
    norm_num

/-- In this example the differential part of every solution of the reduced problem is constant (`u' = 0`), but the
Jacobian handed to `h_start` is `-2`. -/
theorem C88_wrong_jacobian : ∃ r, consistentICs exIc = .ok r ∧ r.Jr = !![-2] ∧
    ∀ z z' : Fin 1 ⊕ Fin 1 → ℚ, Matrix.fromBlocks 1 0 0 0 *ᵥ z' = r.J *ᵥ z → z' (.inl 0) = 0 := by
  obtain ⟨r, hr, _, _, _, hJr⟩ := C88_example
  refine ⟨r, hr, hJr, fun z z' hz => ?_⟩
  have hJ : r.J = exIc.J := by
    rcases (C88_consistent_values exIc_svd exIc_root hr).2 with ⟨-, h, -⟩ | ⟨-, h, -⟩
    · exact h
    · exact h
  rw [hJ] at hz
  have h1 := congrFun hz (.inl 0)
  have h2 := congrFun hz (.inr 0)
  simp [exIc, mulVec, dotProduct, Fintype.sum_sum_type] at h1 h2
  linarith

end Extensisq
