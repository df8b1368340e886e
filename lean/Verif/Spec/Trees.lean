import Mathlib.Algebra.BigOperators.Fin
import Mathlib.Algebra.Field.Basic
import Mathlib.Data.Nat.Cast.Basic
import Verif.Model.RK

/-!
# Specification: rooted trees and Butcher's order conditions

Textbook definitions (Hairer, Nørsett, Wanner, *Solving ODEs I*, II.2). Trees are ordered; every rooted
tree has at least one ordered representative, and elementary weight, size and density do not depend on
the order, so quantifying over ordered trees is quantifying over all rooted trees.
-/

namespace Extensisq
open Finset

/-- A rooted tree: a root with `k` subtrees. -/
inductive OTree : Type
  | node (k : ℕ) (c : Fin k → OTree) : OTree

namespace OTree

/-- Number of vertices. -/
def size : OTree → ℕ
  | node _ c => 1 + ∑ l, (c l).size

/-- Density `γ`. -/
def dens : OTree → ℕ
  | node _ c => (1 + ∑ l, (c l).size) * ∏ l, (c l).dens

/-- Elementary weights of the stages: `Φ_i(τ) = ∏_l ∑_{j<n} a_ij Φ_j(τ_l)`. -/
def weight {K : Type*} [CommSemiring K] (n : ℕ) (A : ℕ → ℕ → K) : OTree → ℕ → K
  | node _ c => fun i => ∏ l, ∑ j ∈ range n, A i j * (c l).weight n A j

end OTree

/-- The weights `b` satisfy the order conditions of all trees with at most `p` vertices. -/
def OrderCond {K : Type*} [Field K] (n : ℕ) (A : ℕ → ℕ → K) (b : ℕ → K) (p : ℕ) : Prop :=
  ∀ τ : OTree, τ.size ≤ p → ∑ i ∈ range n, b i * τ.weight n A i = 1 / (τ.dens : K)

/-- The weights `e` annihilate all trees with at most `p` vertices (error estimates). -/
def ErrorCond {K : Type*} [Field K] (n : ℕ) (A : ℕ → ℕ → K) (e : ℕ → K) (p : ℕ) : Prop :=
  ∀ τ : OTree, τ.size ≤ p → ∑ i ∈ range n, e i * τ.weight n A i = 0

/-- Butcher matrix of an explicit tableau, including the evaluation at the new point as last stage
(row `s` is `B`). -/
def Tableau.full {K : Type*} [Zero K] (T : Tableau K) (i j : ℕ) : K :=
  if j < i then (if i < T.s then T.A i j else if i = T.s then T.B j else 0) else 0

/-- The embedded weights `B + E` (over the `s` stages and the evaluation at the new point). -/
def Tableau.embedded {K : Type*} [Add K] [Zero K] (T : Tableau K) (i : ℕ) : K :=
  (if i < T.s then T.B i else 0) + T.E i

/-- The weights of the solution. -/
def Tableau.main {K : Type*} [Zero K] (T : Tableau K) (i : ℕ) : K := if i < T.s then T.B i else 0

end Extensisq
