import Verif.Lemmas.Trees
import Verif.Lemmas.Dense

/-! # General kernel check over all rooted trees up to a given size -/

set_option linter.unusedSectionVars false

namespace Extensisq
open Finset

/-- All trees with at most `p` vertices pass `test size weights density`. -/
def treeCheck (M : List (List ℚ)) (test : ℕ → List ℚ → ℕ → Bool) : ℕ → Bool
  | 0 => true
  | p + 1 =>
    let tb := forestTable M p
    (List.range (p + 1)).all fun k => (tb.getD k []).all fun vg => test (k + 1) vg.1 ((k + 1) * vg.2)

/-- Stage weights of a tree as a list. -/
def weightL (M : List (List ℚ)) (τ : OTree) : List ℚ :=
  (List.range M.length).map fun i => τ.weight M.length (matOf M) i

theorem treeCheck_sound {M : List (List ℚ)} {test : ℕ → List ℚ → ℕ → Bool} {p : ℕ}
    (h : treeCheck M test p = true) (τ : OTree) (hτ : τ.size ≤ p) :
    test τ.size (weightL M τ) τ.dens = true := by
  obtain ⟨k, cs⟩ := τ
  simp only [OTree.size] at hτ
  obtain ⟨p, rfl⟩ : ∃ q, p = q + 1 := ⟨p - 1, by omega⟩
  simp only [treeCheck, List.all_eq_true, List.mem_range] at h
  have := h (∑ l, (cs l).size) (by omega) _ (forestTable_mem M p _ (by omega) k cs rfl)
  simp only [OTree.dens, OTree.size]
  rw [add_comm 1 (∑ l, (cs l).size)]
  have e : weightL M (.node k cs) = forestVec M cs := by
    simp [weightL, forestVec, OTree.weight]
  rw [e]
  exact this

theorem dotL_weightL (M : List (List ℚ)) (b : List ℚ) (τ : OTree) :
    dotL b (weightL M τ) = ∑ i ∈ range M.length, b.getD i 0 * τ.weight M.length (matOf M) i := by
  rw [dotL_eq _ _ M.length (by left; simp [weightL])]
  apply sum_congr rfl
  intro i hi
  rw [mem_range] at hi
  congr 1
  rw [List.getD_eq_getElem _ _ (by simpa [weightL] using hi)]
  simp [weightL]

/-- Column `j` of a table with `n` rows. -/
def colL (P : List (List ℚ)) (n j : ℕ) : List ℚ := (List.range n).map fun i => (P.getD i []).getD j 0

/-- Order conditions of an interpolant, per power of the scaled time: the weights of power `j + 1`
integrate a tree with `m` vertices to `c m j / γ`. -/
def interpCheck (M P : List (List ℚ)) (c : ℕ → ℕ → ℚ) (p : ℕ) : Bool :=
  treeCheck M (fun m v g => (List.range (cols P)).all fun j =>
    decide (dotL (colL P M.length j) v * (g : ℚ) = c m j)) p

theorem interpCheck_sound (K : Type*) [Field K] [CharZero K] {M P : List (List ℚ)} {c : ℕ → ℕ → ℚ} {p : ℕ}
    (h : interpCheck M P c p = true) (τ : OTree) (hτ : τ.size ≤ p) (x : K) :
    (∑ i ∈ range M.length, pWeight K P i x *
      τ.weight M.length (fun i j => ((matOf M i j : ℚ) : K)) i) * (τ.dens : K) =
      ∑ j ∈ range (cols P), ((c τ.size j : ℚ) : K) * x ^ (j + 1) := by
  have h1 := treeCheck_sound h τ hτ
  simp only [List.all_eq_true, List.mem_range, decide_eq_true_eq] at h1
  rw [sum_mul]
  simp only [pWeight, sum_mul]
  rw [sum_comm]
  apply sum_congr rfl
  intro j hj
  have h2 := h1 j (mem_range.mp hj)
  rw [dotL_weightL] at h2
  rw [← h2]
  push_cast
  rw [sum_mul, sum_mul]
  apply sum_congr rfl
  intro i hi
  rw [mem_range] at hi
  have e : (colL P M.length j).getD i 0 = (P.getD i []).getD j 0 := by
    rw [List.getD_eq_getElem _ _ (by simpa [colL] using hi)]
    simp [colL]
  rw [OTree.weight_cast, e]
  unfold entry
  ring

end Extensisq
