import Verif.Lemmas.Trees
import Verif.Model.EsdirkTables
import Mathlib.Tactic.Linarith

/-!
# Enumeration of all rooted trees up to a given size, with weights in a ring

The same as `Verif.Lemmas.Trees` and `Verif.Lemmas.TreeCheck`, for coefficients in any commutative ring.
-/

set_option linter.unusedSectionVars false

namespace Extensisq
open Finset

section
variable {S : Type*} [CommRing S] [DecidableEq S]

/-- Row times vector. -/
def dotLG : List S → List S → S
  | a :: r, b :: v => (if a = 0 then 0 else a * b) + dotLG r v
  | _, _ => 0

/-- New level `n+1` of forests: first tree has `k+1` vertices. -/
def forestLevelG (M : List (List S)) (tb : List (List (List S × ℕ))) (n : ℕ) : List (List S × ℕ) :=
  (List.range (n + 1)).flatMap fun k =>
    (tb.getD k []).flatMap fun vg =>
      let av := M.map fun r => dotLG r vg.1
      (tb.getD (n - k) []).map fun ug => (List.zipWith (· * ·) av ug.1, (k + 1) * vg.2 * ug.2)

/-- Levels `0..n` of forests: (products of stage sums, products of densities). -/
def forestTableG (M : List (List S)) : ℕ → List (List (List S × ℕ))
  | 0 => [[(M.map fun _ => 1, 1)]]
  | n + 1 => let tb := forestTableG M n; tb ++ [forestLevelG M tb n]

theorem dotL_eqG (r v : List S) (n : ℕ) (hv : v.length ≤ n ∨ r.length ≤ n) :
    dotLG r v = ∑ j ∈ range n, r.getD j 0 * v.getD j 0 := by
  induction r generalizing v n with
  | nil => simp [dotLG]
  | cons a r ih =>
    cases v with
    | nil => simp [dotLG]
    | cons b v =>
      cases n with
      | zero => simp at hv
      | succ n =>
        rw [sum_range_succ', dotLG, ih v n (by simpa using hv)]
        simp only [List.getD_cons_succ, List.getD_cons_zero]
        split_ifs with h
        · rw [h]; ring
        · ring

theorem forestTable_lengthG (M : List (List S)) (n : ℕ) : (forestTableG M n).length = n + 1 := by
  induction n with
  | zero => rfl
  | succ n ih => simp [forestTableG, ih]

theorem forestTable_getDG (M : List (List S)) (n k : ℕ) (h : k ≤ n) :
    (forestTableG M (n + 1)).getD k [] = (forestTableG M n).getD k [] := by
  simp only [forestTableG]
  rw [List.getD_append _ _ _ _ (by rw [forestTable_lengthG]; omega)]

theorem forestTable_lastG (M : List (List S)) (n : ℕ) :
    (forestTableG M (n + 1)).getD (n + 1) [] = forestLevelG M (forestTableG M n) n := by
  simp only [forestTableG]
  rw [List.getD_append_right _ _ _ _ (by rw [forestTable_lengthG])]
  simp [forestTable_lengthG]

/-- The list matrix as a function. -/
def matOfG (M : List (List S)) (i j : ℕ) : S := (M.getD i []).getD j 0

/-- Forest data as a list. -/
def forestVecG (M : List (List S)) {k : ℕ} (c : Fin k → OTree) : List S :=
  (List.range M.length).map fun i => ∏ l, ∑ j ∈ range M.length, matOfG M i j * (c l).weight M.length (matOfG M) j

theorem forestTable_memG (M : List (List S)) :
    ∀ (n m : ℕ), m ≤ n → ∀ (k : ℕ) (c : Fin k → OTree), ∑ l, (c l).size = m →
      (forestVecG M c, ∏ l, (c l).dens) ∈ (forestTableG M n).getD m [] := by
  have hpos : ∀ t : OTree, 1 ≤ t.size := by
    intro t; cases t; simp [OTree.size]
  intro n
  induction n with
  | zero =>
    intro m hm k c hc
    obtain rfl : m = 0 := by omega
    have hk : k = 0 := by
      by_contra hk
      obtain ⟨k, rfl⟩ := Nat.exists_eq_succ_of_ne_zero hk
      rw [Fin.sum_univ_succ] at hc
      have := hpos (c 0)
      omega
    subst hk
    simp only [forestTableG, forestVecG, univ_eq_empty, prod_empty, List.getD_cons_zero]
    simp
  | succ n ih =>
    intro m hm k c hc
    by_cases hmn : m ≤ n
    · rw [forestTable_getDG M n m hmn]; exact ih m hmn k c hc
    · obtain rfl : m = n + 1 := by omega
      rw [forestTable_lastG]
      cases k with
      | zero => simp at hc
      | succ k =>
        rw [Fin.sum_univ_succ] at hc
        obtain ⟨k0, c0, hc0⟩ : ∃ k0 c0, c 0 = OTree.node k0 c0 := by
          cases c 0 with
          | node k0 c0 => exact ⟨k0, c0, rfl⟩
        have hs0 : (c 0).size = 1 + ∑ l, (c0 l).size := by rw [hc0]; rfl
        set q := ∑ l, (c0 l).size with hq
        unfold forestLevelG
        rw [List.mem_flatMap]
        refine ⟨q, List.mem_range.mpr (by omega), ?_⟩
        rw [List.mem_flatMap]
        refine ⟨(forestVecG M c0, ∏ l, (c0 l).dens), ih q (by omega) k0 c0 rfl, ?_⟩
        rw [List.mem_map]
        refine ⟨(forestVecG M (fun l => c l.succ), ∏ l : Fin k, (c l.succ).dens),
          ih (n - q) (by omega) k _ (by omega), ?_⟩
        rw [Prod.mk.injEq]
        constructor
        · apply List.ext_getElem
          · simp [forestVecG]
          · intro i h1 h2
            simp only [forestVecG, List.getElem_zipWith, List.getElem_map, List.getElem_range]
            rw [Fin.prod_univ_succ]
            congr 1
            have hi : i < M.length := by simpa [forestVecG] using h2
            rw [dotL_eqG _ _ M.length (by left; simp [forestVecG])]
            apply sum_congr rfl
            intro j hj
            rw [mem_range] at hj
            congr 1
            · unfold matOfG; rw [List.getD_eq_getElem _ _ hi]
            · rw [hc0, List.getD_eq_getElem _ _ (by simpa using hj)]
              simp [OTree.weight]
        · rw [Fin.prod_univ_succ, hc0]
          simp only [OTree.dens]
          rw [← hq]; ring

/-- All trees with at most `p` vertices pass `test size weights density`. -/
def treeCheckG (M : List (List S)) (test : ℕ → List S → ℕ → Bool) : ℕ → Bool
  | 0 => true
  | p + 1 =>
    let tb := forestTableG M p
    (List.range (p + 1)).all fun k => (tb.getD k []).all fun vg => test (k + 1) vg.1 ((k + 1) * vg.2)

/-- Stage weights of a tree as a list. -/
def weightLG (M : List (List S)) (τ : OTree) : List S :=
  (List.range M.length).map fun i => τ.weight M.length (matOfG M) i

theorem treeCheckG_sound {M : List (List S)} {test : ℕ → List S → ℕ → Bool} {p : ℕ}
    (h : treeCheckG M test p = true) (τ : OTree) (hτ : τ.size ≤ p) :
    test τ.size (weightLG M τ) τ.dens = true := by
  obtain ⟨k, cs⟩ := τ
  simp only [OTree.size] at hτ
  obtain ⟨p, rfl⟩ : ∃ q, p = q + 1 := ⟨p - 1, by omega⟩
  simp only [treeCheckG, List.all_eq_true, List.mem_range] at h
  have := h (∑ l, (cs l).size) (by omega) _ (forestTable_memG M p _ (by omega) k cs rfl)
  simp only [OTree.dens, OTree.size]
  rw [add_comm 1 (∑ l, (cs l).size)]
  have e : weightLG M (.node k cs) = forestVecG M cs := by
    simp [weightLG, forestVecG, OTree.weight]
  rw [e]
  exact this

theorem dotLG_weightL (M : List (List S)) (b : List S) (τ : OTree) :
    dotLG b (weightLG M τ) = ∑ i ∈ range M.length, b.getD i 0 * τ.weight M.length (matOfG M) i := by
  rw [dotL_eqG _ _ M.length (by left; simp [weightLG])]
  apply sum_congr rfl
  intro i hi
  rw [mem_range] at hi
  congr 1
  rw [List.getD_eq_getElem _ _ (by simpa [weightLG] using hi)]
  simp [weightLG]

/-- Weights under a ring homomorphism. -/
theorem OTree.weight_hom {T : Type*} [CommRing T] (φ : S →+* T) (n : ℕ) (A : ℕ → ℕ → S) (t : OTree) :
    ∀ i, t.weight n (fun i j => φ (A i j)) i = φ (t.weight n A i) := by
  induction t with
  | node k c ih =>
    intro i
    simp only [OTree.weight, map_prod, map_sum, map_mul]
    apply prod_congr rfl
    intro l _
    apply sum_congr rfl
    intro j _
    rw [ih]

/-- The sum of an order condition, under a homomorphism. -/
theorem dotLG_hom {T : Type*} [CommRing T] (φ : S →+* T) (M : List (List S)) (b : List S) (τ : OTree) :
    φ (dotLG b (weightLG M τ)) =
      ∑ i ∈ range M.length, φ (b.getD i 0) * τ.weight M.length (fun i j => φ (matOfG M i j)) i := by
  rw [dotLG_weightL, map_sum]
  apply sum_congr rfl
  intro i _
  rw [map_mul, OTree.weight_hom]

end

end Extensisq
