import Mathlib.LinearAlgebra.Matrix.NonsingularInverse
import Mathlib.Data.Matrix.Block
import Mathlib.Data.Fintype.Basic
import Mathlib.Data.Rat.Defs
import Mathlib.Algebra.Order.Field.Basic

/-!
# Initialisation of the ESDIRK methods for differential-algebraic equations

Models `ESDIRK._handle_M`, `_consistent_ICs` and the part of `ESDIRK.__init__` that uses them
(`common.py:1778-2006`): detection of algebraic equations, consistent initial values, the initial derivative, and
the data handed to `h_start` for the first step size.

Simplifications: real data (the code uses `U.T` and `Vh.T`, which is only the inverse for a real mass matrix) and
exact arithmetic. The two ranges of indices `[:-nAE]` and `[-nAE:]` of arrays in the coordinates of the
singular value decomposition are the two summands of an index type `α ⊕ β`; `V` is the transpose of `Vh`.
`np.allclose`, scipy's `root`, `np.linalg.solve` and the singular value decomposition are parameters or their
mathematical meaning.
-/

namespace Extensisq
open Matrix

/-! ## `_handle_M` -/

/-- `cond_lim` (`common.py:1806`). -/
def condLim {K : Type*} [Field K] (s0 eps : K) (n : ℕ) : K := s0 * (n : K) ^ 2 * eps

/-- `nAE = np.sum(s < cond_lim)` (`common.py:1806-1807`) for the singular values in the order of numpy. -/
def nAE {K : Type*} [Field K] [LinearOrder K] {n : ℕ} (s : Fin (n + 1) → K) (eps : K) : ℕ :=
  (Finset.univ.filter fun i => s i < condLim (s 0) eps (n + 1)).card

/-- `isDAE` (`common.py:1808`). -/
def isDAE {K : Type*} [Field K] [LinearOrder K] {n : ℕ} (s : Fin (n + 1) → K) (eps : K) : Bool :=
  decide (0 < nAE s eps)

/-- Is an index in the slice `s_AE = np.s_[-nAE:]` (`common.py:1818`)? -/
def inAE {K : Type*} [Field K] [LinearOrder K] {n : ℕ} (s : Fin (n + 1) → K) (eps : K) (i : Fin (n + 1)) : Prop :=
  n + 1 - nAE s eps ≤ i.val

/-! ## `_consistent_ICs` -/

section
variable {K ι α β : Type*} [Field K] [DecidableEq K] [Fintype ι] [Fintype α] [Fintype β] [DecidableEq ι] [DecidableEq α] [DecidableEq β]

/-- What `_consistent_ICs` reads: `t`, `y`, `fun`, the Jacobian `J` stored by the constructor, the function
`jac` (constant in linear mode), the singular value decomposition, the two uses of `np.allclose`
(`close`, `near`), scipy's `root` (`none` if not successful) and the increment `da` of the
numerical time derivative (`h_start`, `common.py:604-606`). -/
structure IcIn (K ι α β : Type*) where
  t : K
  y : ι → K
  fn : K → (ι → K) → ι → K
  J : Matrix ι ι K
  jac : K → (ι → K) → Matrix ι ι K
  U : Matrix ι (α ⊕ β) K
  V : Matrix ι (α ⊕ β) K
  s : α ⊕ β → K
  close : (β → K) → Bool
  near : (ι → K) → (ι → K) → Bool
  root : ((β → K) → β → K) → ((β → K) → Matrix β β K) → (β → K) → Option (β → K)
  da : K

/-- What it returns: `y`, `ydot`, `J`, the arguments of `h_start` (`y`, `yprime`, `J`, `T` of the reduced
problem), and whether the warning about changed initial values was issued. -/
structure IcRes (K ι α : Type*) where
  y : ι → K
  ydot : ι → K
  J : Matrix ι ι K
  u : α → K
  udot : α → K
  Jr : Matrix α α K
  Tr : α → K
  warned : Bool

/-- Results: the two `ValueError`s, numpy's `LinAlgError` for a singular matrix, or a normal return. -/
inductive IcOut (K ι α : Type*) where
  | highIndex
  | notFound
  | singular
  | ok (r : IcRes K ι α)

/-- `Vh.T @ np.r_[u, v]` (`common.py:1861, 1867, 1878, 1903`). -/
def IcIn.join (p : IcIn K ι α β) (u : α → K) (v : β → K) : ι → K := p.V *ᵥ Sum.elim u v

/-- `U.T @ J @ Vh.T` (`common.py:1844, 1868, 1898`). -/
def IcIn.G (p : IcIn K ι α β) (J : Matrix ι ι K) : Matrix (α ⊕ β) (α ⊕ β) K := p.Uᵀ * J * p.V

/-- `funC` (`common.py:1860-1864`). -/
def IcIn.funC (p : IcIn K ι α β) (u : α → K) (v : β → K) : β → K :=
  fun j => (p.Uᵀ *ᵥ p.fn p.t (p.join u v)) (.inr j)

/-- `jacC` (`common.py:1866-1870`). -/
def IcIn.jacC (p : IcIn K ι α β) (u : α → K) (v : β → K) : Matrix β β K :=
  (p.G (p.jac p.t (p.join u v))).toBlocks₂₂

/-- The numerical time derivative of `fun` (`common.py:1892-1893` with `h_start(..., returnT=True)`,
`common.py:604-620`). -/
def IcIn.fdot (p : IcIn K ι α β) (y f : ι → K) : ι → K := fun i => (p.fn (p.t + p.da) y i - f i) / p.da

/-- The end of `_consistent_ICs` (`common.py:1888-1920`): derivatives and data of the reduced problem. `S` is
added to `Guu` as in the code. -/
noncomputable def IcIn.finish (p : IcIn K ι α β) (y f : ι → K) (J : Matrix ι ι K) (u : α → K) (warned : Bool) : IcOut K ι α :=
  let gdot := p.Uᵀ *ᵥ p.fdot y f
  let g := p.Uᵀ *ᵥ f
  let G := p.G J
  let udot : α → K := fun i => g (.inl i) / p.s (.inl i)
  if G.toBlocks₂₂.det = 0 then .singular
  else
    let vdot : β → K := -(G.toBlocks₂₂⁻¹ *ᵥ ((fun j => gdot (.inr j)) + G.toBlocks₂₁ *ᵥ udot))
    let S := G.toBlocks₁₂ * (G.toBlocks₂₂⁻¹ * G.toBlocks₂₁)
    .ok { y := y
          ydot := p.join udot vdot
          J := J
          u := u
          udot := udot
          Jr := Matrix.diagonal (fun i => 1 / p.s (.inl i)) * (G.toBlocks₁₁ + S)
          Tr := Matrix.diagonal (fun i => 1 / p.s (.inl i)) *ᵥ ((fun i => gdot (.inl i)) + G.toBlocks₁₂ *ᵥ vdot)
          warned := warned }

/-- `ESDIRK._consistent_ICs` (`common.py:1823-1920`). -/
noncomputable def consistentICs (p : IcIn K ι α β) : IcOut K ι α :=
  if (p.G p.J).toBlocks₂₂.det = 0 then .highIndex
  else
    let f := p.fn p.t p.y
    let z := p.Vᵀ *ᵥ p.y
    let u : α → K := fun i => z (.inl i)
    if p.close fun j => (p.Uᵀ *ᵥ f) (.inr j) then p.finish p.y f p.J u false
    else
      match p.root (p.funC u) (p.jacC u) (fun j => z (.inr j)) with
      | none => .notFound
      | some v =>
        let y := p.join u v
        p.finish y (p.fn p.t y) (p.jac p.t y) u (!p.near y p.y)

/-- The initial derivative without algebraic equations: `lu_solve(lu_factor(M), f)` (`common.py:1980-1984`). -/
noncomputable def odeDerivative (M : Matrix ι ι K) (f : ι → K) : ι → K := M⁻¹ *ᵥ f

end

/-! ## The tolerances handed to `h_start` -/

/-- Length of the sum of two one-dimensional numpy arrays, `none` for the `ValueError` of incompatible
lengths. -/
def bcast (m n : ℕ) : Option ℕ :=
  if m = n then some m else if n = 1 then some m else if m = 1 then some n else none

/-- `etol = atol + rtol * np.abs(y)` (`common.py:577`) when `h_start` is called for a DAE with `n` unknowns, of which
`k` are algebraic, without `first_step` (`common.py:1991-1997`): `y` has length `n - k` (`kwargs_hstart`,
`common.py:1914`), `atol` is a number or has length `n` (`common.py:36`). -/
def etolLength (atolScalar : Bool) (n k : ℕ) : Option ℕ :=
  if atolScalar then some (n - k) else bcast n (n - k)

end Extensisq
