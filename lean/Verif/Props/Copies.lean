import Verif.Props.Units

/-!
# C123: a real problem solved with complex data, and several copies of a problem solved together

Both follow from C122: the map from the real to the complex problem, and the map that copies the components, keep the error norm of the
code.
-/

set_option linter.unusedSectionVars false

namespace Extensisq
open Finset

section
variable {n : ℕ}

/-- Real arrays as complex arrays. -/
noncomputable def complexify : (Fin n → ℝ) →ₗ[ℝ] (Fin n → ℂ) where
  toFun y i := (y i : ℂ)
  map_add' y z := by funext i; simp
  map_smul' a y := by funext i; simp

/-- **C123.** The error norm of a real problem is the same with complex data. -/
theorem C123_norm_complex (atol : Fin n → ℝ) (rtol : ℝ) (y z e : Fin n → ℝ) :
    scaledNorm atol rtol (fun i => (y i : ℂ)) (fun i => (z i : ℂ)) (fun i => (e i : ℂ)) = scaledNorm atol rtol y z e := by
  have hs : ∀ i, errScale atol rtol (fun i => (y i : ℂ)) (fun i => (z i : ℂ)) i = errScale atol rtol y z i := by
    intro i
    simp only [errScale, Complex.norm_real]
  unfold scaledNorm
  rw [rmsNorm_eq, rmsNorm_eq, EuclideanSpace.norm_eq, EuclideanSpace.norm_eq]
  simp only [hs]
  simp [norm_div]

/-- **C123.** A real problem whose function also accepts complex arrays, started from the same values with complex data type: every sequence
of calls of `step()` gives the same outcomes, times, step sizes and counters, and the values are the real ones, with imaginary part zero. -/
theorem C123_complex {atol : Fin n → ℝ} {rtol : ℝ} {f : ℝ → (Fin n → ℝ) → Fin n → ℝ} {g : ℝ → (Fin n → ℂ) → Fin n → ℂ}
    (hg : ∀ t y i, g t (fun j => (y j : ℂ)) i = (f t y i : ℂ)) {T : Tableau ℝ}
    {c : Cfg ℝ (Fin n → ℝ) (Fin n → ℝ)} {c' : Cfg ℝ (Fin n → ℂ) (Fin n → ℂ)} (hc : SameOptions complexify c c')
    (hm : let eN := fun y z e => ENorm.num (scaledNorm atol rtol y z e)
      let eN' := fun y z e => ENorm.num (scaledNorm atol rtol y z e)
      c.m = rkMethod T f eN ∧ c'.m = rkMethod T g eN' ∨
      c.m = bs5Method ℝ f eN ∧ c'.m = bs5Method ℝ g eN' ∨ c.m = cfmr7oscMethod ℝ f eN ∧ c'.m = cfmr7oscMethod ℝ g eN')
    {t0 : ℝ} {y0 : Fin n → ℝ} {h0 : ℝ} {e0 : ℕ} {outs : List Out} {v : Solver ℝ (Fin n → ℝ) (Fin n → ℝ)}
    (hr : Run c (newSolver c t0 y0 h0 e0 fun _ => 0) outs v) :
    ∃ v', Run c' (newSolver c' t0 (fun i => (y0 i : ℂ)) h0 e0 fun _ => 0) outs v' ∧
      v'.status = v.status ∧ v'.tOld = v.tOld ∧ v'.st.t = v.st.t ∧ v'.st.hAbs = v.st.hAbs ∧ v'.st.nfev = v.st.nfev ∧
      v'.st.nfs = v.st.nfs ∧ (∀ i, v'.st.y i = (v.st.y i : ℂ)) ∧ (∀ i, v'.st.f i = (v.st.f i : ℂ)) := by
  have := C122_runge_kutta complexify (f := f) (g := g) (fun t y => funext fun i => hg t y i) (T := T)
    (eN := fun y z e => ENorm.num (scaledNorm atol rtol y z e)) (eN' := fun y z e => ENorm.num (scaledNorm atol rtol y z e))
    (fun y z e => congrArg ENorm.num (C123_norm_complex atol rtol y z e)) hc hm hr
  simp only [map_zero] at this
  exact ⟨_, this, rfl, rfl, rfl, rfl, rfl, rfl, fun _ => rfl, fun _ => rfl⟩

end

section
variable {𝕜 : Type*} [RCLike 𝕜] {n N : ℕ}

/-- Each component of the large problem is a copy of a component of the small one. -/
noncomputable def copies (π : Fin N → Fin n) : (Fin n → 𝕜) →ₗ[ℝ] (Fin N → 𝕜) where
  toFun y i := y (π i)
  map_add' y z := by funext i; simp
  map_smul' a y := by funext i; simp

/-- **C123.** The error norm does not see how many copies are solved together, if every component is copied the same number `k > 0` of
times. -/
theorem C123_norm_copies {π : Fin N → Fin n} {k : ℕ} (hk : 0 < k) (hπ : ∀ j, #{i | π i = j} = k) (atol : Fin n → ℝ) (rtol : ℝ)
    (y z e : Fin n → 𝕜) :
    scaledNorm (fun i => atol (π i)) rtol (fun i => y (π i)) (fun i => z (π i)) (fun i => e (π i)) = scaledNorm atol rtol y z e := by
  have hN : N = k * n := by
    have := card_eq_sum_card_fiberwise (f := π) (s := univ) (t := univ) (fun i _ => mem_univ (π i))
    simp only [card_univ, Fintype.card_fin, hπ, sum_const, smul_eq_mul] at this
    rw [this, mul_comm]
  unfold scaledNorm
  have hs : ∀ i, errScale (fun i => atol (π i)) rtol (fun i => y (π i)) (fun i => z (π i)) i = errScale atol rtol y z (π i) := fun _ => rfl
  simp only [hs]
  unfold rmsNorm
  congr 1
  have hsum : ∀ w : Fin n → 𝕜, ∑ i, w (π i) = (k : 𝕜) * ∑ j, w j := by
    intro w
    rw [← sum_fiberwise_of_maps_to (s := univ) (t := univ) (g := π) (fun i _ => mem_univ (π i)), mul_sum]
    refine sum_congr rfl fun j _ => ?_
    rw [sum_congr rfl (g := fun _ => w j) (fun i hi => by rw [(mem_filter.1 hi).2]), sum_const, hπ, nsmul_eq_mul]
  rw [hsum fun j => e j / ((errScale atol rtol y z j : ℝ) : 𝕜) * (starRingEnd 𝕜) (e j / ((errScale atol rtol y z j : ℝ) : 𝕜))]
  have hre : ∀ s : 𝕜, RCLike.re ((k : 𝕜) * s) = (k : ℝ) * RCLike.re s := by
    intro s
    have : ((k : ℕ) : 𝕜) = ((k : ℝ) : 𝕜) := by simp
    rw [this, RCLike.re_ofReal_mul]
  rw [hre, hN]
  push_cast
  exact mul_div_mul_left _ _ (by exact_mod_cast hk.ne')

/-- **C123.** Several copies of a problem solved together (in any order of the components) are solved as one of them: same outcomes, times,
step sizes and counters, and each copy has the values of the single run. -/
theorem C123_copies {π : Fin N → Fin n} {k : ℕ} (hk : 0 < k) (hπ : ∀ j, #{i | π i = j} = k) {atol : Fin n → ℝ} {rtol : ℝ}
    {f : ℝ → (Fin n → 𝕜) → Fin n → 𝕜} {g : ℝ → (Fin N → 𝕜) → Fin N → 𝕜} (hg : ∀ t y i, g t (fun j => y (π j)) i = f t y (π i))
    {T : Tableau ℝ} {c : Cfg ℝ (Fin n → 𝕜) (Fin n → 𝕜)} {c' : Cfg ℝ (Fin N → 𝕜) (Fin N → 𝕜)} (hc : SameOptions (copies π) c c')
    (hm : let eN := fun y z e => ENorm.num (scaledNorm atol rtol y z e)
      let eN' := fun y z e => ENorm.num (scaledNorm (fun i => atol (π i)) rtol y z e)
      c.m = rkMethod T f eN ∧ c'.m = rkMethod T g eN' ∨
      c.m = bs5Method ℝ f eN ∧ c'.m = bs5Method ℝ g eN' ∨ c.m = cfmr7oscMethod ℝ f eN ∧ c'.m = cfmr7oscMethod ℝ g eN')
    {t0 : ℝ} {y0 : Fin n → 𝕜} {h0 : ℝ} {e0 : ℕ} {outs : List Out} {v : Solver ℝ (Fin n → 𝕜) (Fin n → 𝕜)}
    (hr : Run c (newSolver c t0 y0 h0 e0 fun _ => 0) outs v) :
    ∃ v', Run c' (newSolver c' t0 (fun i => y0 (π i)) h0 e0 fun _ => 0) outs v' ∧
      v'.status = v.status ∧ v'.tOld = v.tOld ∧ v'.st.t = v.st.t ∧ v'.st.hAbs = v.st.hAbs ∧ v'.st.nfev = v.st.nfev ∧
      v'.st.nfs = v.st.nfs ∧ (∀ i, v'.st.y i = v.st.y (π i)) ∧ (∀ i, v'.st.f i = v.st.f (π i)) := by
  have := C122_runge_kutta (copies π) (f := f) (g := g) (fun t y => funext fun i => hg t y i) (T := T)
    (eN := fun y z e => ENorm.num (scaledNorm atol rtol y z e))
    (eN' := fun y z e => ENorm.num (scaledNorm (fun i => atol (π i)) rtol y z e))
    (fun y z e => congrArg ENorm.num (C123_norm_copies hk hπ atol rtol y z e)) hc hm hr
  simp only [map_zero] at this
  exact ⟨_, this, rfl, rfl, rfl, rfl, rfl, rfl, fun _ => rfl, fun _ => rfl⟩

end

/-! ## The hypotheses are met -/

/-- Two copies of a system of three components, stored interleaved. -/
example : ∀ j : Fin 3, #{i : Fin 6 | (⟨i.1 / 2, by omega⟩ : Fin 3) = j} = 2 := by decide

/-- A nonlinear function for real and complex arrays. -/
example : ∀ (t : ℝ) (y : Fin 2 → ℝ) i, (fun (t : ℝ) (z : Fin 2 → ℂ) => ![z 1, t - z 0 ^ 3]) t (fun j => (y j : ℂ)) i =
    (((fun (t : ℝ) (z : Fin 2 → ℝ) => ![z 1, t - z 0 ^ 3]) t y i : ℝ) : ℂ) := by
  intro t y i
  fin_cases i <;> simp

end Extensisq
