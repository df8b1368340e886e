import Verif.Model.StiffWeights
import Verif.Props.Stiff

/-!
# The stiffness test on arrays (C104)
-/

set_option linter.unusedSectionVars false

namespace Extensisq
open Finset
open scoped RealInnerProductSpace

noncomputable section

/-! ## Specification -/

variable {ι : Type*} [Fintype ι]

/-- The norm in which the stiffness test measures: the Euclidean norm of the components relative to their weights. -/
def wNorm {𝕜 : Type*} [Norm 𝕜] (wt : ι → ℝ) (v : ι → 𝕜) : ℝ := Real.sqrt (∑ i, (‖v i‖ / wt i) ^ 2)

/-- What a successful test has found, in terms of arrays: `root1` is real, and an eigenvalue of `hJ` up to a relative
residual of 0.1 percent; or `root1`, `root2` are the roots of a quadratic that nearly annihilates some non-zero vector.
`rho` is the modulus of `root1`. -/
def GoodRootsArr {𝕜 : Type*} [RCLike 𝕜] (wt : ι → ℝ) (hJ : (ι → 𝕜) → ι → 𝕜) (root1 root2 : Root) (rho : ℝ) : Prop :=
  rho = ‖Root.toC root1‖ ∧
  ((∃ (v : ι → 𝕜) (r : ℝ), root1 = (r, 0) ∧ v ≠ 0 ∧ wNorm wt (hJ v - r • v) ≤ 1 / 1000 * wNorm wt (hJ v)) ∨
   (∃ (v : ι → 𝕜) (a b : ℝ), (∀ x : ℂ, x ^ 2 + a * x + b = (x - Root.toC root1) * (x - Root.toC root2)) ∧
      ‖Root.toC root2‖ ≤ ‖Root.toC root1‖ ∧ v ≠ 0 ∧
      wNorm wt (hJ (hJ v) + a • hJ v + b • v) ≤ 1 / 1000 * wNorm wt (hJ (hJ v))))

/-! ## Invariance of the test under isometries -/

section
variable {V W : Type*} [NormedAddCommGroup V] [InnerProductSpace ℝ V] [NormedAddCommGroup W] [InnerProductSpace ℝ W]

/-- Transport of the result of a pass. -/
def Try.map (e : V → W) : Try V → Try W
  | .ret o => .ret o
  | .brk a b c d => .brk a b c d
  | .next v r => .next (e v) r

theorem stiffD_map (e : V →ₗᵢ[ℝ] W) {f : ℝ → V → V} {g : ℝ → W → W} (hfg : ∀ x u, g x (e u) = e (f x u)) (v : V)
    (havg x : ℝ) (y fxy : V) (scale vv : ℝ) :
    stiffD (e v) havg x (e y) g (e fxy) scale vv =
      (e (stiffD v havg x y f fxy scale vv).1, (stiffD v havg x y f fxy scale vv).2) := by
  unfold stiffD
  dsimp only
  rw [← map_smul, ← map_add, hfg, ← map_sub, ← map_smul, e.inner_map_map]

theorem tryC_map (e : V →ₗᵢ[ℝ] W) (v1 v2 v3 : V) (a b c d al be r : ℝ) :
    tryC (e v1) (e v2) (e v3) a b c d al be r =
      ((tryC v1 v2 v3 a b c d al be r).1.map e, (tryC v1 v2 v3 a b c d al be r).2) := by
  unfold tryC
  simp only [e.inner_map_map]
  split_ifs <;> simp [Try.map]

theorem tryB_map (e : V →ₗᵢ[ℝ] W) {p : StiffIn V} {g : ℝ → W → W} (hfg : ∀ x u, g x (e u) = e (p.f x u)) (first : Bool)
    (v0 v1 : V) (a b c r : ℝ) :
    tryB ⟨g, p.x, e p.y, e p.fxy, p.havg, p.scale, p.epsneg⟩ first (e v0) (e v1) a b c r =
      ((tryB p first v0 v1 a b c r).1.map e, (tryB p first v0 v1 a b c r).2) := by
  unfold tryB
  simp only [stiffD_map e hfg, tryC_map, e.inner_map_map]
  split_ifs <;> simp [Try.map]

theorem stiffTry_map (e : V →ₗᵢ[ℝ] W) {p : StiffIn V} {g : ℝ → W → W} (hfg : ∀ x u, g x (e u) = e (p.f x u)) (first : Bool)
    (v0 : V) (r : ℝ) :
    stiffTry ⟨g, p.x, e p.y, e p.fxy, p.havg, p.scale, p.epsneg⟩ first (e v0) r =
      ((stiffTry p first v0 r).1.map e, (stiffTry p first v0 r).2) := by
  unfold stiffTry
  simp only [stiffD_map e hfg, tryB_map e hfg, e.inner_map_map]
  split_ifs <;> simp [Try.map]

theorem stiffLoop_map (e : V →ₗᵢ[ℝ] W) {p : StiffIn V} {g : ℝ → W → W} (hfg : ∀ x u, g x (e u) = e (p.f x u)) :
    ∀ (n : ℕ) (first : Bool) (v0 : V) (r : ℝ),
      stiffLoop ⟨g, p.x, e p.y, e p.fxy, p.havg, p.scale, p.epsneg⟩ n first (e v0) r = stiffLoop p n first v0 r
  | 0, _, _, _ => rfl
  | n + 1, first, v0, r => by
    unfold stiffLoop
    dsimp only
    rw [stiffTry_map e hfg]
    rcases h : (stiffTry p first v0 r).1 with o | ⟨a, b, c, d⟩ | ⟨v', r'⟩
    · rfl
    · rfl
    · dsimp only [Try.map]
      rw [stiffLoop_map e hfg n]

/-- The stiffness test gives the same answer, with the same evaluations and divisions, for two problems which correspond
under a linear isometry, if the starting vector is not zero or the vectors of ones correspond too. -/
theorem stiffA_map (e : V →ₗᵢ[ℝ] W) {f : ℝ → V → V} {g : ℝ → W → W} (hfg : ∀ x u, g x (e u) = e (f x u)) (x : ℝ) (y : V)
    (hnow havg xend maxfcn : ℝ) (fxy v0 one : V) (one' : W) (h1 : v0 ≠ 0 ∨ one' = e one) (cost epsneg : ℝ) :
    stiffA g x (e y) hnow havg xend maxfcn (e fxy) (e v0) one' cost epsneg =
      stiffA f x y hnow havg xend maxfcn fxy v0 one cost epsneg := by
  have hs : startVector (e v0) one' = e (startVector v0 one) ∧
      (if (⟪e v0, e v0⟫ : ℝ) = 0 then one' else e v0) = e (if (⟪v0, v0⟫ : ℝ) = 0 then one else v0) := by
    have h2 : (if (⟪e v0, e v0⟫ : ℝ) = 0 then one' else e v0) = e (if (⟪v0, v0⟫ : ℝ) = 0 then one else v0) := by
      rw [e.inner_map_map]
      rcases h1 with h | h
      · have : (⟪v0, v0⟫ : ℝ) ≠ 0 := by rw [Ne, inner_self_eq_zero]; exact h
        rw [if_neg this, if_neg this]
      · split_ifs
        · exact h
        · rfl
    refine ⟨?_, h2⟩
    unfold startVector
    dsimp only
    rw [h2, e.inner_map_map, map_smul]
  unfold stiffA stiffMain
  dsimp only
  simp only [hs.1]
  have h3 := hs.2
  simp only [e.inner_map_map] at h3 ⊢
  generalize hsc : (if Real.sqrt ⟪y, y⟫ * Real.sqrt epsneg = 0 then Real.sqrt ⟪v0, v0⟫ * Real.sqrt epsneg
    else Real.sqrt ⟪y, y⟫ * Real.sqrt epsneg) = sc
  rw [h3, e.inner_map_map, stiffLoop_map e (p := ⟨f, x, y, fxy, havg, sc, epsneg⟩) hfg]

end

/-! ## Arrays -/

theorem norm_toW (wt : ι → ℝ) (v : ι → ℝ) : ‖toW wt v‖ = wNorm wt v := by
  rw [EuclideanSpace.norm_eq]
  unfold wNorm toW
  congr 1
  apply sum_congr rfl
  intro i _
  simp [div_pow]

theorem inner_toW (wt v w : ι → ℝ) : (⟪toW wt v, toW wt w⟫ : ℝ) = ∑ i, v i / wt i * (w i / wt i) := by
  rw [PiLp.inner_apply]
  apply sum_congr rfl
  intro i _
  simp [toW, mul_comm]

theorem ofW_toW {wt : ι → ℝ} (hw : ∀ i, 0 < wt i) (v : ι → ℝ) : ofW wt (toW wt v) = v := by
  funext i
  have := (hw i).ne'
  simp only [ofW, toW]
  field_simp

theorem toW_ofW {wt : ι → ℝ} (hw : ∀ i, 0 < wt i) (u : EuclideanSpace ℝ ι) : toW wt (ofW wt u) = u := by
  ext i
  have := (hw i).ne'
  simp only [ofW, toW]
  field_simp

/-- `toW`, linear. -/
def toWL (wt : ι → ℝ) : (ι → ℝ) →ₗ[ℝ] EuclideanSpace ℝ ι where
  toFun := toW wt
  map_add' v w := by ext i; simp [toW, add_div]
  map_smul' a v := by ext i; simp [toW, mul_div_assoc]

/-- `ofW`, linear. -/
def ofWL (wt : ι → ℝ) : EuclideanSpace ℝ ι →ₗ[ℝ] (ι → ℝ) where
  toFun := ofW wt
  map_add' v w := by ext i; simp [ofW, add_mul]
  map_smul' a v := by ext i; simp [ofW, mul_assoc]

/-- **C104.** The weights are positive. -/
theorem C104_weights_positive {𝕜 : Type*} [Norm 𝕜] {tiny : ℝ} (ht : 0 < tiny) (y yOld : ι → 𝕜) (i : ι) :
    0 < stiffWeights tiny y yOld i := lt_max_of_lt_right (Real.sqrt_pos.mpr ht)

/-- **C104.** The products of the test are those of the components relative to their weights. -/
theorem C104_dot (wt v w : ι → ℝ) : (⟪toW wt v, toW wt w⟫ : ℝ) = ∑ i, v i / wt i * (w i / wt i) := inner_toW wt v w

/-- **C104.** What the test reports for a real problem that is linear near `(t, y)`. -/
theorem C104_real_roots [Nonempty ι] {wt : ι → ℝ} (hw : ∀ i, 0 < wt i) {f : ℝ → (ι → ℝ) → ι → ℝ} {x : ℝ} {y fxy : ι → ℝ}
    {J : (ι → ℝ) →ₗ[ℝ] (ι → ℝ)} (hJ : ∀ v, f x (y + v) = fxy + J v) {hnow havg xend maxfcn : ℝ} {v0 : ι → ℝ}
    {cost epsneg : ℝ} (he : 0 < epsneg) {r1 r2 : Root} {rho : ℝ}
    (h : (stiffReal wt f x y hnow havg xend maxfcn fxy v0 cost epsneg).1.roots = some (r1, r2, rho)) :
    GoodRootsArr wt (fun v => havg • J v) r1 r2 rho := by
  have h1 : toW wt (fun _ => 1) ≠ 0 := by
    intro e
    have := congrArg (ofW wt) e
    rw [ofW_toW hw] at this
    have := congrFun this (Classical.arbitrary ι)
    simp [ofW] at this
  obtain ⟨g1, g2⟩ := C63_reported_roots (J := (toWL wt).comp (J.comp (ofWL wt))) (fun v => by
    have e : ofW wt (toW wt y + v) = y + ofW wt v := by
      have := map_add (ofWL wt) (toW wt y) v
      have h2 : ofWL wt (toW wt y) = y := ofW_toW hw y
      rw [h2] at this
      exact this
    rw [e, hJ]
    exact map_add (toWL wt) _ _) h1 he h
  have key : ∀ v, havg • (toWL wt).comp (J.comp (ofWL wt)) v = toW wt (havg • J (ofW wt v)) := fun v =>
    (map_smul (toWL wt) _ _).symm
  have hne : ∀ {v : EuclideanSpace ℝ ι}, v ≠ 0 → ofW wt v ≠ 0 := by
    intro v hv e
    apply hv
    rw [← toW_ofW hw v, e]
    exact map_zero (toWL wt)
  refine ⟨g1, ?_⟩
  rcases g2 with ⟨v, r, a1, a2, a3⟩ | ⟨v, a, b, a1, a2, a3, a4⟩
  · refine Or.inl ⟨ofW wt v, r, a1, hne a2, ?_⟩
    dsimp only at a3
    rw [key, norm_toW] at a3
    have e : toW wt (havg • J (ofW wt v) - r • ofW wt v) = toW wt (havg • J (ofW wt v)) - r • v := by
      conv_rhs => rw [← toW_ofW hw v]
      rw [ofW_toW hw]
      exact (map_sub (toWL wt) _ _).trans (congrArg _ (map_smul (toWL wt) _ _))
    rw [← e, norm_toW] at a3
    exact a3
  · refine Or.inr ⟨ofW wt v, a, b, a1, a2, hne a3, ?_⟩
    dsimp only at a4
    rw [key, key, ofW_toW hw, norm_toW] at a4
    have e : toW wt (havg • J (havg • J (ofW wt v)) + a • havg • J (ofW wt v) + b • ofW wt v) =
        toW wt (havg • J (havg • J (ofW wt v))) + a • toW wt (havg • J (ofW wt v)) + b • v := by
      conv_rhs => rw [← toW_ofW hw v]
      rw [ofW_toW hw]
      refine (map_add (toWL wt) _ _).trans ?_
      refine congrArg₂ (· + ·) ((map_add (toWL wt) _ _).trans ?_) (map_smul (toWL wt) _ _)
      exact congrArg₂ (· + ·) rfl (map_smul (toWL wt) _ _)
    rw [← e, norm_toW] at a4
    exact a4

/-! ## Complex arrays -/

theorem contract_expand (v : ι → ℂ) : contractC (expandC v) = v := by
  funext i
  simp [contractC, expandC, Complex.re_add_im]

theorem expand_contract (u : ι ⊕ ι → ℝ) : expandC (contractC u) = u := by
  funext i
  rcases i with i | i <;> simp [contractC, expandC]

/-- `expand_complex`, linear over the reals. -/
def expandL : (ι → ℂ) →ₗ[ℝ] (ι ⊕ ι → ℝ) where
  toFun := expandC
  map_add' v w := by ext i; rcases i with i | i <;> simp [expandC]
  map_smul' a v := by ext i; rcases i with i | i <;> simp [expandC]

/-- `contract_complex`, linear over the reals. -/
def contractL : (ι ⊕ ι → ℝ) →ₗ[ℝ] (ι → ℂ) where
  toFun := contractC
  map_add' v w := by funext i; simp [contractC]; ring
  map_smul' a v := by funext i; simp [contractC]; ring

theorem wNorm_expand (wt : ι → ℝ) (v : ι → ℂ) : wNorm (Sum.elim wt wt) (expandC v) = wNorm wt v := by
  unfold wNorm
  congr 1
  rw [Fintype.sum_sum_type, ← sum_add_distrib]
  apply sum_congr rfl
  intro i _
  simp only [expandC, Sum.elim_inl, Sum.elim_inr, Real.norm_eq_abs, div_pow, sq_abs]
  rw [Complex.sq_norm, Complex.normSq_apply]
  ring

/-- **C104.** What the test reports for a complex problem: the same, with the complex Jacobian (which need only be linear
over the reals) and the moduli of the components. -/
theorem C104_complex_roots [Nonempty ι] {wt : ι → ℝ} (hw : ∀ i, 0 < wt i) {f : ℝ → (ι → ℂ) → ι → ℂ} {x : ℝ} {y fxy : ι → ℂ}
    {J : (ι → ℂ) →ₗ[ℝ] (ι → ℂ)} (hJ : ∀ v, f x (y + v) = fxy + J v) {hnow havg xend maxfcn : ℝ} {v0 : ι → ℂ}
    {cost epsneg : ℝ} (he : 0 < epsneg) {r1 r2 : Root} {rho : ℝ}
    (h : (stiffComplex wt f x y hnow havg xend maxfcn fxy v0 cost epsneg).1.roots = some (r1, r2, rho)) :
    GoodRootsArr wt (fun v => havg • J v) r1 r2 rho := by
  obtain ⟨g1, g2⟩ := C104_real_roots (wt := Sum.elim wt wt) (by rintro (i | i) <;> exact hw i)
    (J := expandL.comp (J.comp contractL)) (fun v => by
      have e : contractC (expandC y + v) = y + contractC v := by
        have := map_add contractL (expandC y) v
        have h2 : contractL (expandC y) = y := contract_expand y
        rw [h2] at this
        exact this
      rw [e, hJ]
      exact map_add expandL _ _) he h
  have key : ∀ v, havg • expandL.comp (J.comp contractL) v = expandC (havg • J (contractC v)) := fun v =>
    (map_smul expandL _ _).symm
  have hne : ∀ {v : ι ⊕ ι → ℝ}, v ≠ 0 → contractC v ≠ 0 := by
    intro v hv e
    apply hv
    rw [← expand_contract v, e]
    exact map_zero expandL
  refine ⟨g1, ?_⟩
  rcases g2 with ⟨v, r, a1, a2, a3⟩ | ⟨v, a, b, a1, a2, a3, a4⟩
  · refine Or.inl ⟨contractC v, r, a1, hne a2, ?_⟩
    dsimp only at a3
    rw [key, wNorm_expand] at a3
    have e : expandC (havg • J (contractC v) - r • contractC v) = expandC (havg • J (contractC v)) - r • v := by
      conv_rhs => rw [← expand_contract v]
      rw [contract_expand]
      exact (map_sub expandL _ _).trans (congrArg _ (map_smul expandL _ _))
    rw [← e, wNorm_expand] at a3
    exact a3
  · refine Or.inr ⟨contractC v, a, b, a1, a2, hne a3, ?_⟩
    dsimp only at a4
    rw [key, key, contract_expand, wNorm_expand] at a4
    have e : expandC (havg • J (havg • J (contractC v)) + a • havg • J (contractC v) + b • contractC v) =
        expandC (havg • J (havg • J (contractC v))) + a • expandC (havg • J (contractC v)) + b • v := by
      conv_rhs => rw [← expand_contract v]
      rw [contract_expand]
      refine (map_add expandL _ _).trans ?_
      refine congrArg₂ (· + ·) ((map_add expandL _ _).trans ?_) (map_smul expandL _ _)
      exact congrArg₂ (· + ·) rfl (map_smul expandL _ _)
    rw [← e, wNorm_expand] at a4
    exact a4

/-! ## Invariance -/

/-- The isometry of the weighted spaces that belongs to a linear map of arrays which preserves the weighted norm. -/
def wIso {κ : Type*} [Fintype κ] {wt : ι → ℝ} (hw : ∀ i, 0 < wt i) {wt' : κ → ℝ} (F : (ι → ℝ) →ₗ[ℝ] (κ → ℝ))
    (hF : ∀ v, wNorm wt' (F v) = wNorm wt v) : EuclideanSpace ℝ ι →ₗᵢ[ℝ] EuclideanSpace ℝ κ where
  toLinearMap := (toWL wt').comp (F.comp (ofWL wt))
  norm_map' u := by
    show ‖toW wt' (F (ofW wt u))‖ = ‖u‖
    rw [norm_toW, hF, ← norm_toW, toW_ofW hw]

/-- Two problems on arrays which correspond under a linear map that preserves the weighted norm. -/
theorem stiffReal_map {κ : Type*} [Fintype κ] {wt : ι → ℝ} (hw : ∀ i, 0 < wt i) {wt' : κ → ℝ} (hw' : ∀ i, 0 < wt' i)
    (F : (ι → ℝ) →ₗ[ℝ] (κ → ℝ)) (hF : ∀ v, wNorm wt' (F v) = wNorm wt v) {f : ℝ → (ι → ℝ) → ι → ℝ}
    {g : ℝ → (κ → ℝ) → κ → ℝ} (hfg : ∀ x u, g x (F u) = F (f x u)) (x : ℝ) (y : ι → ℝ) (hnow havg xend maxfcn : ℝ)
    (fxy v0 : ι → ℝ) (h1 : v0 ≠ 0 ∨ (fun _ => 1) = F (fun _ => 1)) (cost epsneg : ℝ) :
    stiffReal wt' g x (F y) hnow havg xend maxfcn (F fxy) (F v0) cost epsneg =
      stiffReal wt f x y hnow havg xend maxfcn fxy v0 cost epsneg := by
  have he : ∀ v, wIso hw F hF (toW wt v) = toW wt' (F v) := by
    intro v
    show toW wt' (F (ofW wt (toW wt v))) = _
    rw [ofW_toW hw]
  unfold stiffReal
  rw [← he, ← he, ← he]
  refine stiffA_map (wIso hw F hF) (fun x u => ?_) x _ hnow havg xend maxfcn _ _ _ _ ?_ cost epsneg
  · show toW wt' (g x (ofW wt' (toW wt' (F (ofW wt u))))) = toW wt' (F (ofW wt (toW wt (f x (ofW wt u)))))
    rw [ofW_toW hw', hfg, ofW_toW hw]
  · rcases h1 with h | h
    · left
      intro e
      apply h
      rw [← ofW_toW hw v0, e]
      exact map_zero (ofWL wt)
    · right
      rw [he, ← h]

/-- **C104.** The answer does not depend on the units of the components of a complex problem, nor on their phases: with all
quantities of component `i` multiplied by `s_i ≠ 0` the test makes the same evaluations and gives the same answer. (The
starting vector is not zero: otherwise the test uses a vector of ones, in whatever units.) -/
theorem C104_units_complex {wt : ι → ℝ} (hw : ∀ i, 0 < wt i) {s : ι → ℂ} (hs : ∀ i, s i ≠ 0) (f : ℝ → (ι → ℂ) → ι → ℂ)
    (x : ℝ) (y : ι → ℂ) (hnow havg xend maxfcn : ℝ) (fxy v0 : ι → ℂ) (hv : v0 ≠ 0) (cost epsneg : ℝ) :
    stiffComplex (fun i => ‖s i‖ * wt i) (fun x u i => s i * f x (fun j => u j / s j) i) x (fun i => s i * y i) hnow havg xend
      maxfcn (fun i => s i * fxy i) (fun i => s i * v0 i) cost epsneg =
      stiffComplex wt f x y hnow havg xend maxfcn fxy v0 cost epsneg := by
  let S : (ι → ℂ) →ₗ[ℝ] (ι → ℂ) :=
    { toFun := fun v i => s i * v i
      map_add' := fun v w => by funext i; simp [mul_add]
      map_smul' := fun a v => by funext i; simp [mul_left_comm] }
  let F := expandL.comp (S.comp contractL)
  have hFe : ∀ v, F (expandC v) = expandC (S v) := by
    intro v
    show expandC (S (contractC (expandC v))) = _
    rw [contract_expand]
  have hw1 : ∀ i, 0 < (Sum.elim wt wt : ι ⊕ ι → ℝ) i := by rintro (i | i) <;> exact hw i
  have hw2 : ∀ i, 0 < (Sum.elim (fun i => ‖s i‖ * wt i) (fun i => ‖s i‖ * wt i) : ι ⊕ ι → ℝ) i := by
    rintro (i | i) <;> exact mul_pos (norm_pos_iff.mpr (hs i)) (hw i)
  unfold stiffComplex
  have e1 := hFe y
  have e2 := hFe fxy
  have e3 := hFe v0
  have := stiffReal_map hw1 hw2 F (fun v => by
      conv_lhs => rw [← expand_contract v, hFe]
      conv_rhs => rw [← expand_contract v]
      rw [wNorm_expand, wNorm_expand]
      unfold wNorm
      congr 1
      apply sum_congr rfl
      intro i _
      have h1 := norm_pos_iff.mpr (hs i)
      have h2 := hw i
      simp only [S, LinearMap.coe_mk, AddHom.coe_mk, norm_mul]
      field_simp)
    (f := fun x u => expandC (f x (contractC u))) (g := fun x u => expandC (fun i => s i * f x (fun j => contractC u j / s j) i))
    (fun x u => by
      rw [hFe]
      show expandC _ = expandC (fun i => s i * f x (contractC u) i)
      congr 1
      funext i
      congr 2
      funext j
      have e : contractC (F u) j = s j * contractC u j := by
        show contractC (expandC (S (contractC u))) j = _
        rw [contract_expand]
        rfl
      rw [e, mul_div_cancel_left₀ _ (hs j)])
    x (expandC y) hnow havg xend maxfcn (expandC fxy) (expandC v0)
    (Or.inl (by
      intro e
      apply hv
      rw [← contract_expand v0, e]
      exact map_zero contractL)) cost epsneg
  rw [e1, e2, e3] at this
  exact this

/-- **C104**, the same for real problems. -/
theorem C104_units_real {wt : ι → ℝ} (hw : ∀ i, 0 < wt i) {s : ι → ℝ} (hs : ∀ i, s i ≠ 0) (f : ℝ → (ι → ℝ) → ι → ℝ)
    (x : ℝ) (y : ι → ℝ) (hnow havg xend maxfcn : ℝ) (fxy v0 : ι → ℝ) (hv : v0 ≠ 0) (cost epsneg : ℝ) :
    stiffReal (fun i => |s i| * wt i) (fun x u i => s i * f x (fun j => u j / s j) i) x (fun i => s i * y i) hnow havg xend
      maxfcn (fun i => s i * fxy i) (fun i => s i * v0 i) cost epsneg =
      stiffReal wt f x y hnow havg xend maxfcn fxy v0 cost epsneg := by
  let S : (ι → ℝ) →ₗ[ℝ] (ι → ℝ) :=
    { toFun := fun v i => s i * v i
      map_add' := fun v w => by funext i; simp [mul_add]
      map_smul' := fun a v => by funext i; simp [mul_left_comm] }
  refine stiffReal_map hw (fun i => mul_pos (abs_pos.mpr (hs i)) (hw i)) S (fun v => ?_) (f := f) (fun x u => ?_) x y hnow
    havg xend maxfcn fxy v0 (Or.inl hv) cost epsneg
  · unfold wNorm
    congr 1
    apply sum_congr rfl
    intro i _
    have h1 := abs_pos.mpr (hs i)
    have h2 := hw i
    simp only [S, LinearMap.coe_mk, AddHom.coe_mk, norm_mul, Real.norm_eq_abs]
    field_simp
  · funext i
    show s i * f x (fun j => s j * u j / s j) i = s i * f x u i
    congr 2
    funext j
    exact mul_div_cancel_left₀ _ (hs j)

/-- **C104.** The weights follow the units, as long as no component is tiny. -/
theorem C104_units_weights {𝕜 : Type*} [RCLike 𝕜] {tiny : ℝ} {s : 𝕜} {y yOld : ι → 𝕜} {i : ι}
    (h1 : Real.sqrt tiny ≤ 1 / 2 * (‖y i‖ + ‖yOld i‖)) (h2 : Real.sqrt tiny ≤ ‖s‖ * (1 / 2 * (‖y i‖ + ‖yOld i‖))) :
    stiffWeights tiny (fun j => s * y j) (fun j => s * yOld j) i = ‖s‖ * stiffWeights tiny y yOld i := by
  unfold stiffWeights
  rw [max_eq_left h1, norm_mul, norm_mul, max_eq_left]
  · ring
  · refine h2.trans (le_of_eq ?_); ring

/-- **C104.** The answer does not depend on the order of the components. -/
theorem C104_permutation {κ : Type*} [Fintype κ] (σ : κ ≃ ι) {wt : ι → ℝ} (hw : ∀ i, 0 < wt i) (f : ℝ → (ι → ℝ) → ι → ℝ)
    (x : ℝ) (y : ι → ℝ) (hnow havg xend maxfcn : ℝ) (fxy v0 : ι → ℝ) (cost epsneg : ℝ) :
    stiffReal (wt ∘ σ) (fun x u => f x (u ∘ σ.symm) ∘ σ) x (y ∘ σ) hnow havg xend maxfcn (fxy ∘ σ) (v0 ∘ σ) cost epsneg =
      stiffReal wt f x y hnow havg xend maxfcn fxy v0 cost epsneg := by
  refine stiffReal_map hw (fun i => hw _) (LinearMap.funLeft ℝ ℝ σ) (fun v => ?_) (f := f) (fun x u => ?_) x y hnow havg
    xend maxfcn fxy v0 (Or.inr rfl) cost epsneg
  · unfold wNorm
    congr 1
    exact Equiv.sum_comp σ fun i => (‖v i‖ / wt i) ^ 2
  · show f x ((u ∘ σ) ∘ σ.symm) ∘ σ = f x u ∘ σ
    congr 2
    funext i
    simp

/-- **C104.** A real problem solved in complex arithmetic gets the same answer (if the starting vector is not zero; if it is,
the vector of ones has ones in the imaginary parts too). -/
theorem C104_real_as_complex {wt : ι → ℝ} (hw : ∀ i, 0 < wt i) {f : ℝ → (ι → ℝ) → ι → ℝ} {g : ℝ → (ι → ℂ) → ι → ℂ}
    (hfg : ∀ x u, g x (fun i => (u i : ℂ)) = fun i => (f x u i : ℂ))
    (x : ℝ) (y : ι → ℝ) (hnow havg xend maxfcn : ℝ) (fxy v0 : ι → ℝ) (hv : v0 ≠ 0) (cost epsneg : ℝ) :
    stiffComplex wt g x (fun i => (y i : ℂ)) hnow havg xend maxfcn (fun i => (fxy i : ℂ)) (fun i => (v0 i : ℂ)) cost epsneg =
      stiffReal wt f x y hnow havg xend maxfcn fxy v0 cost epsneg := by
  let F : (ι → ℝ) →ₗ[ℝ] (ι ⊕ ι → ℝ) :=
    { toFun := fun v => expandC fun i => (v i : ℂ)
      map_add' := fun v w => by funext i; rcases i with i | i <;> simp [expandC]
      map_smul' := fun a v => by funext i; rcases i with i | i <;> simp [expandC] }
  have hw1 : ∀ i, 0 < (Sum.elim wt wt : ι ⊕ ι → ℝ) i := by rintro (i | i) <;> exact hw i
  refine stiffReal_map hw hw1 F (fun v => ?_) (f := f) (fun x u => ?_) x y hnow havg xend maxfcn fxy v0 (Or.inl hv) cost
    epsneg
  · show wNorm (Sum.elim wt wt) (expandC fun i => (v i : ℂ)) = _
    rw [wNorm_expand]
    unfold wNorm
    congr 1
    apply sum_congr rfl
    intro i _
    rw [Complex.norm_real]
  · show expandC (g x (contractC (expandC fun i => (u i : ℂ)))) = expandC fun i => (f x u i : ℂ)
    rw [contract_expand, hfg]

/-- The hypotheses of `C104_real_roots` are met: `y' = -y` as an array problem reports the root `-havg`. -/
theorem exStiffReal_roots : (stiffReal (ι := Unit) (fun _ => 1) (fun _ u i => -u i) 0 (fun _ => 1) 1 1 100 0 (fun _ => -1)
    (fun _ => 1) 1 (1 / 4)).1.roots = some ((-1, 0), (0, 0), 1) := by
  let e : ℝ →ₗᵢ[ℝ] EuclideanSpace ℝ Unit :=
    { toFun := fun a => toW (fun _ => 1) fun _ => a
      map_add' := fun a b => by ext i; simp [toW]
      map_smul' := fun a b => by ext i; simp [toW]
      norm_map' := fun a => by
        show ‖toW _ _‖ = _
        rw [norm_toW]
        simp [wNorm, Real.sqrt_sq_eq_abs] }
  rw [← exStiff_roots]
  unfold stiffReal
  have := stiffA_map e (f := fun _ u => -u) (g := fun x u => toW (fun _ => 1) fun i => -(ofW (fun _ => 1) u i))
    (fun x u => by
      show toW _ _ = toW _ _
      congr 1
      funext i
      simp [e, toW, ofW]) 0 1 1 1 100 0 (-1) 1 1 (toW (fun _ => 1) fun _ => 1) (Or.inr rfl) 1 (1 / 4)
  exact congrArg (fun o => o.1.roots) this

/-- The hypotheses of `C104_complex_roots` are met: the same problem with a complex array. -/
example : (stiffComplex (ι := Unit) (fun _ => 1) (fun _ u i => -u i) 0 (fun _ => 1) 1 1 100 0 (fun _ => -1)
    (fun _ => 1) 1 (1 / 4)).1.roots = some ((-1, 0), (0, 0), 1) := by
  rw [← exStiffReal_roots]
  have := C104_real_as_complex (ι := Unit) (wt := fun _ => 1) (fun _ => one_pos) (f := fun _ u i => -u i)
    (g := fun _ u i => -u i) (fun x u => by funext i; simp) 0 (fun _ => 1) 1 1 100 0 (fun _ => -1) (fun _ => 1)
    (fun e => one_ne_zero (congrFun e ())) 1 (1 / 4)
  rw [← this]
  simp

end
end Extensisq
