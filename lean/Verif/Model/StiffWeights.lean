import Verif.Model.Stiff
import Mathlib.Analysis.InnerProductSpace.PiL2

/-!
# The stiffness test on arrays

`Model/Stiff.lean` describes `stiff_a` for vectors of a space whose inner product is the weighted dot product. Here are the
weights, the real arrays with these weights, and the expansion of complex arrays.
-/

namespace Extensisq

noncomputable section
variable {ι : Type*} [Fintype ι]

/-- The weights made in `_diagnose_stiffness` (`common.py:413-415`): `max(0.5 (|y| + |y_old|), sqrt(tiny))`. -/
def stiffWeights {𝕜 : Type*} [Norm 𝕜] (tiny : ℝ) (y yOld : ι → 𝕜) (i : ι) : ℝ :=
  max (1 / 2 * (‖y i‖ + ‖yOld i‖)) (Real.sqrt tiny)

/-- `v / wt`, as it occurs in all dot products of `stiff_a` (for instance `common.py:957`). -/
def toW (wt : ι → ℝ) (v : ι → ℝ) : EuclideanSpace ℝ ι := WithLp.toLp 2 fun i => v i / wt i

/-- The array that belongs to `v / wt`. -/
def ofW (wt : ι → ℝ) (u : EuclideanSpace ℝ ι) : ι → ℝ := fun i => u i * wt i

/-- `stiff_a` for real arrays (`common.py:824-1105`), with weights `wt`. The vectors of the model are the arrays divided by
`wt`, since `stiff_a` uses products only in the form `(v/wt) @ (w/wt)`; all other operations are linear. -/
def stiffReal (wt : ι → ℝ) (f : ℝ → (ι → ℝ) → ι → ℝ) (x : ℝ) (y : ι → ℝ) (hnow havg xend maxfcn : ℝ) (fxy v0 : ι → ℝ)
    (cost epsneg : ℝ) : StiffOut × ℕ × List (Bool × ℝ) :=
  stiffA (fun x u => toW wt (f x (ofW wt u))) x (toW wt y) hnow havg xend maxfcn (toW wt fxy) (toW wt v0)
    (toW wt fun _ => 1) cost epsneg

/-- `expand_complex` (`common.py:918`): `np.concatenate((v.real, v.imag))`. -/
def expandC (v : ι → ℂ) : ι ⊕ ι → ℝ := Sum.elim (fun i => (v i).re) fun i => (v i).im

/-- `contract_complex` (`common.py:919`): `v[:v.size//2] + v[v.size//2:]*1j`. -/
def contractC (u : ι ⊕ ι → ℝ) : ι → ℂ := fun i => (u (.inl i) : ℂ) + (u (.inr i) : ℂ) * Complex.I

/-- `stiff_a` for complex arrays (`common.py:917-926`): everything is expanded, also the weights. -/
def stiffComplex (wt : ι → ℝ) (f : ℝ → (ι → ℂ) → ι → ℂ) (x : ℝ) (y : ι → ℂ) (hnow havg xend maxfcn : ℝ) (fxy v0 : ι → ℂ)
    (cost epsneg : ℝ) : StiffOut × ℕ × List (Bool × ℝ) :=
  stiffReal (Sum.elim wt wt) (fun x u => expandC (f x (contractC u))) x (expandC y) hnow havg xend maxfcn (expandC fxy)
    (expandC v0) cost epsneg

end
end Extensisq
