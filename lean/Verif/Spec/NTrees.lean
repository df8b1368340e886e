import Mathlib.Algebra.BigOperators.Fin
import Mathlib.Algebra.Field.Basic
import Mathlib.Data.Nat.Cast.Basic
import Verif.Model.Nystrom

/-!
# Specification: trees and order conditions of Nystrom methods

Textbook definitions (Hairer, Nørsett, Wanner, *Solving ODEs I*, II.14), in the following form. The
increment of `(u, v)` along `u'' = a(u, v)` is a sum of terms `h^ord(τ) F(τ)` over trees: `vel` stands for
`h (v, 0)`; a node with subtrees `c_1..c_k` stands for the `k`-th derivative of `a` applied to the
subtrees, added to the position (`pos`, integrated twice) or to the velocity (`dot`, integrated once).
Trees are ordered, as in `Spec/Trees.lean`.
-/

namespace Extensisq
open Finset

inductive NTree : Type
  | vel : NTree
  | pos (k : ℕ) (c : Fin k → NTree) : NTree
  | dot (k : ℕ) (c : Fin k → NTree) : NTree

/-- The subtrees of a node. -/
abbrev NForest := Σ k : ℕ, Fin k → NTree

namespace NTree

/-- Power of `h`. -/
def ord : NTree → ℕ
  | vel => 1
  | pos _ c => 2 + ∑ l, (c l).ord
  | dot _ c => 1 + ∑ l, (c l).ord

/-- Coefficient in the exact solution (one over the density): an acceleration term `h^m` integrates
to `h^(m+1)/(m+1)` in the velocity and to `h^(m+2)/((m+1)(m+2))` in the position. -/
def exact {K : Type*} [Field K] : NTree → K
  | vel => 1
  | pos _ c => (∏ l, (c l).exact) / ((1 + (∑ l, (c l).ord : ℕ)) * (2 + (∑ l, (c l).ord : ℕ)))
  | dot _ c => (∏ l, (c l).exact) / (1 + (∑ l, (c l).ord : ℕ))

/-- Coefficient in the argument of stage `i` of a method with `n` stages. -/
def weight {K : Type*} [Field K] (n : ℕ) (A Ap : ℕ → ℕ → K) (C : ℕ → K) : NTree → ℕ → K
  | vel => fun i => C i
  | pos _ c => fun i => ∑ j ∈ range n, A i j * ∏ l, (c l).weight n A Ap C j
  | dot _ c => fun i => ∑ j ∈ range n, Ap i j * ∏ l, (c l).weight n A Ap C j

/-- Trees that occur for velocity independent accelerations: no `dot` below the root. -/
def velFree : NTree → Prop
  | vel => True
  | pos _ c => ∀ l, (c l).velFree
  | dot _ _ => False

end NTree

/-- Order of the forest: sum over its trees. -/
def NForest.ord (q : NForest) : ℕ := ∑ l, (q.2 l).ord

/-- Coefficient of the acceleration of stage `i`. -/
def NForest.weight {K : Type*} [Field K] (n : ℕ) (A Ap : ℕ → ℕ → K) (C : ℕ → K) (q : NForest) (i : ℕ) : K :=
  ∏ l, (q.2 l).weight n A Ap C i

/-- The weights `B` (position) and `Bp` (velocity) satisfy all order conditions up to order `p`, for the
forests allowed by `ok`. -/
def NyOrder {K : Type*} [Field K] (ok : NForest → Prop) (n : ℕ) (A Ap : ℕ → ℕ → K) (C B Bp : ℕ → K)
    (p : ℕ) : Prop :=
  ∀ q : NForest, ok q →
    (q.ord + 2 ≤ p → ∑ i ∈ range n, B i * q.weight n A Ap C i = (NTree.pos q.1 q.2).exact) ∧
    (q.ord + 1 ≤ p → ∑ i ∈ range n, Bp i * q.weight n A Ap C i = (NTree.dot q.1 q.2).exact)

/-- The weights `E`, `Ep` annihilate all trees up to order `p`. -/
def NyError {K : Type*} [Field K] (ok : NForest → Prop) (n : ℕ) (A Ap : ℕ → ℕ → K) (C E Ep : ℕ → K)
    (p : ℕ) : Prop :=
  ∀ q : NForest, ok q →
    (q.ord + 2 ≤ p → ∑ i ∈ range n, E i * q.weight n A Ap C i = 0) ∧
    (q.ord + 1 ≤ p → ∑ i ∈ range n, Ep i * q.weight n A Ap C i = 0)

/-- All problems. -/
def anyForest (_ : NForest) : Prop := True

/-- Velocity independent problems. -/
def velFreeForest (q : NForest) : Prop := ∀ l, (q.2 l).velFree

/-- Forests that occur for problems that depend on the velocity (`vd = true`) or not (`vd = false`). -/
def okVd (vd : Bool) (q : NForest) : Prop := vd = true ∨ velFreeForest q

namespace NTableau
variable {K : Type*} [Zero K] [One K]

/-- Matrices and nodes extended by the evaluation at the new point (row `s`). -/
def fullA (T : NTableau K) (i j : ℕ) : K :=
  if j < i then (if i < T.s then T.A i j else if i = T.s then T.B j else 0) else 0

def fullAp (T : NTableau K) (i j : ℕ) : K :=
  if j < i then (if i < T.s then T.Ap i j else if i = T.s then T.Bp j else 0) else 0

def fullC (T : NTableau K) (i : ℕ) : K := if i < T.s then T.C i else 1

/-- Weights extended by zero. -/
def mainB (T : NTableau K) (i : ℕ) : K := if i < T.s then T.B i else 0

def mainBp (T : NTableau K) (i : ℕ) : K := if i < T.s then T.Bp i else 0

end NTableau

end Extensisq
