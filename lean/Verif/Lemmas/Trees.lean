import Verif.Spec.Trees
import Mathlib.Tactic.Ring
import Mathlib.Tactic.FieldSimp
import Mathlib.Algebra.Order.BigOperators.Group.Finset
import Mathlib.Data.Rat.Cast.CharZero
import Mathlib.Data.List.GetD

/-! Complete enumeration of the order conditions up to a given order, for evaluation in the kernel. -/

namespace Extensisq
open Finset

/-- Row times vector. -/
def dotL : List ℚ → List ℚ → ℚ
  | a :: r, b :: v => (if a = 0 then 0 else a * b) + dotL r v
  | _, _ => 0

/-- New level `n+1` of forests: first tree has `k+1` vertices. -/
def forestLevel (M : List (List ℚ)) (tb : List (List (List ℚ × ℕ))) (n : ℕ) : List (List ℚ × ℕ) :=
  (List.range (n + 1)).flatMap fun k =>
    (tb.getD k []).flatMap fun vg =>
      let av := M.map fun r => dotL r vg.1
      (tb.getD (n - k) []).map fun ug => (List.zipWith (· * ·) av ug.1, (k + 1) * vg.2 * ug.2)

/-- Levels `0..n` of forests: (products of stage sums, products of densities). -/
def forestTable (M : List (List ℚ)) : ℕ → List (List (List ℚ × ℕ))
  | 0 => [[(M.map fun _ => 1, 1)]]
  | n + 1 => let tb := forestTable M n; tb ++ [forestLevel M tb n]

/-- All trees with `k+1 ≤ p` vertices satisfy `⟨b, Φ⟩ * γ = c`. -/
def orderCheck (M : List (List ℚ)) (b : List ℚ) (c : ℚ) : ℕ → Bool
  | 0 => true
  | p + 1 =>
    let tb := forestTable M p
    (List.range (p + 1)).all fun k => (tb.getD k []).all fun vg =>
      decide (dotL b vg.1 * (((k + 1) * vg.2 : ℕ) : ℚ) = c)

theorem dotL_eq (r v : List ℚ) (n : ℕ) (hv : v.length ≤ n ∨ r.length ≤ n) :
    dotL r v = ∑ j ∈ range n, r.getD j 0 * v.getD j 0 := by
  induction r generalizing v n with
  | nil => simp [dotL]
  | cons a r ih =>
    cases v with
    | nil => simp [dotL]
    | cons b v =>
      cases n with
      | zero => simp at hv
      | succ n =>
        rw [sum_range_succ', dotL, ih v n (by simpa using hv)]
        simp only [List.getD_cons_succ, List.getD_cons_zero]
        split_ifs with h
        · rw [h]; ring
        · ring

theorem forestTable_length (M : List (List ℚ)) (n : ℕ) : (forestTable M n).length = n + 1 := by
  induction n with
  | zero => rfl
  | succ n ih => simp [forestTable, ih]

theorem forestTable_getD (M : List (List ℚ)) (n k : ℕ) (h : k ≤ n) :
    (forestTable M (n + 1)).getD k [] = (forestTable M n).getD k [] := by
  simp only [forestTable]
  rw [List.getD_append _ _ _ _ (by rw [forestTable_length]; omega)]

theorem forestTable_last (M : List (List ℚ)) (n : ℕ) :
    (forestTable M (n + 1)).getD (n + 1) [] = forestLevel M (forestTable M n) n := by
  simp only [forestTable]
  rw [List.getD_append_right _ _ _ _ (by rw [forestTable_length])]
  simp [forestTable_length]

/-- The list matrix as a function. -/
def matOf (M : List (List ℚ)) (i j : ℕ) : ℚ := (M.getD i []).getD j 0

/-- Forest data as a list. -/
def forestVec (M : List (List ℚ)) {k : ℕ} (c : Fin k → OTree) : List ℚ :=
  (List.range M.length).map fun i => ∏ l, ∑ j ∈ range M.length, matOf M i j * (c l).weight M.length (matOf M) j

theorem forestTable_mem (M : List (List ℚ)) :
    ∀ (n m : ℕ), m ≤ n → ∀ (k : ℕ) (c : Fin k → OTree), ∑ l, (c l).size = m →
      (forestVec M c, ∏ l, (c l).dens) ∈ (forestTable M n).getD m [] := by
  have hpos : ∀ t : OTree, 1 ≤ t.size := by
    intro t; cases t; simp [OTree.size]
  intro n
  induction n with
  | zero =>
    intro m hm k c hc
    obtain rfl : m = 0 := by omega
    have hk : k = 0 := by
      by_contra hk
      obtain ⟨k, rfl⟩ := Nat.exists_eq_succ_of_ne_zero hk
      rw [Fin.sum_univ_succ] at hc
      have := hpos (c 0)
      omega
    subst hk
    simp only [forestTable, forestVec, univ_eq_empty, prod_empty, List.getD_cons_zero]
    simp
  | succ n ih =>
    intro m hm k c hc
    by_cases hmn : m ≤ n
    · rw [forestTable_getD M n m hmn]; exact ih m hmn k c hc
    · obtain rfl : m = n + 1 := by omega
      rw [forestTable_last]
      cases k with
      | zero => simp at hc
      | succ k =>
        rw [Fin.sum_univ_succ] at hc
        obtain ⟨k0, c0, hc0⟩ : ∃ k0 c0, c 0 = OTree.node k0 c0 := by
          cases c 0 with
          | node k0 c0 => exact ⟨k0, c0, rfl⟩
        have hs0 : (c 0).size = 1 + ∑ l, (c0 l).size := by rw [hc0]; rfl
        set q := ∑ l, (c0 l).size with hq
        unfold forestLevel
        rw [List.mem_flatMap]
        refine ⟨q, List.mem_range.mpr (by omega), ?_⟩
        rw [List.mem_flatMap]
        refine ⟨(forestVec M c0, ∏ l, (c0 l).dens), ih q (by omega) k0 c0 rfl, ?_⟩
        rw [List.mem_map]
        refine ⟨(forestVec M (fun l => c l.succ), ∏ l : Fin k, (c l.succ).dens),
          ih (n - q) (by omega) k _ (by omega), ?_⟩
        rw [Prod.mk.injEq]
        constructor
        · apply List.ext_getElem
          · simp [forestVec]
          · intro i h1 h2
            simp only [forestVec, List.getElem_zipWith, List.getElem_map, List.getElem_range]
            rw [Fin.prod_univ_succ]
            congr 1
            have hi : i < M.length := by simpa [forestVec] using h2
            rw [dotL_eq _ _ M.length (by left; simp [forestVec])]
            apply sum_congr rfl
            intro j hj
            rw [mem_range] at hj
            congr 1
            · unfold matOf; rw [List.getD_eq_getElem _ _ hi]
            · rw [hc0, List.getD_eq_getElem _ _ (by simpa using hj)]
              simp [OTree.weight]
        · rw [Fin.prod_univ_succ, hc0]
          simp only [OTree.dens]
          rw [← hq]; ring

theorem orderCheck_sound {M : List (List ℚ)} {b : List ℚ} {c : ℚ} {p : ℕ}
    (h : orderCheck M b c p = true) (τ : OTree) (hτ : τ.size ≤ p) :
    (∑ i ∈ range M.length, b.getD i 0 * τ.weight M.length (matOf M) i) * (τ.dens : ℚ) = c := by
  obtain ⟨k, cs⟩ := τ
  simp only [OTree.size] at hτ
  obtain ⟨p, rfl⟩ : ∃ q, p = q + 1 := ⟨p - 1, by omega⟩
  simp only [orderCheck, List.all_eq_true, List.mem_range, decide_eq_true_eq] at h
  have := h (∑ l, (cs l).size) (by omega) _ (forestTable_mem M p _ (by omega) k cs rfl)
  rw [← this]
  rw [dotL_eq _ _ M.length (by left; simp [forestVec])]
  simp only [OTree.dens]
  rw [add_comm (∑ l, (cs l).size) 1]
  congr 1
  apply sum_congr rfl
  intro i hi
  rw [mem_range] at hi
  congr 1
  rw [List.getD_eq_getElem _ _ (by simpa [forestVec] using hi)]
  simp [forestVec, OTree.weight]

theorem OTree.dens_pos (t : OTree) : 0 < t.dens := by
  induction t with
  | node k c ih =>
    simp only [OTree.dens]
    exact Nat.mul_pos (by omega) (Finset.prod_pos fun l _ => ih l)

theorem OTree.weight_cast {K : Type*} [Field K] [CharZero K] (n : ℕ) (A : ℕ → ℕ → ℚ) (t : OTree) :
    ∀ i, t.weight n (fun i j => ((A i j : ℚ) : K)) i = ((t.weight n A i : ℚ) : K) := by
  induction t with
  | node k c ih =>
    intro i
    simp only [OTree.weight]
    push_cast
    apply prod_congr rfl
    intro l _
    apply sum_congr rfl
    intro j _
    rw [ih]

end Extensisq
