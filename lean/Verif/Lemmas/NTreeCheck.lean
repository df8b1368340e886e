import Verif.Spec.NTrees
import Verif.Lemmas.Trees

/-! # Complete enumeration of the Nystrom order conditions, for evaluation in the kernel -/

set_option linter.unusedSectionVars false

namespace Extensisq
open Finset

/-- Matrix times vector. -/
def mulL (M : List (List ℚ)) (v : List ℚ) : List ℚ := M.map fun r => dotL r v

/-- Possible first trees of order `k + 1`: (weights, exact coefficient). -/
def nKids (vd : Bool) (A Ap : List (List ℚ)) (C : List ℚ) (tb : List (List (List ℚ × ℚ))) (k : ℕ) :
    List (List ℚ × ℚ) :=
  (if k = 0 then [(C, 1)] else []) ++
  (if vd then (tb.getD k []).map fun x => (mulL Ap x.1, x.2 / (1 + (k : ℚ))) else []) ++
  (match k with
    | 0 => []
    | m + 1 => (tb.getD m []).map fun x => (mulL A x.1, x.2 / ((1 + (m : ℚ)) * (2 + (m : ℚ)))))

def nLevel (vd : Bool) (A Ap : List (List ℚ)) (C : List ℚ) (tb : List (List (List ℚ × ℚ))) (n : ℕ) :
    List (List ℚ × ℚ) :=
  (List.range (n + 1)).flatMap fun k =>
    (nKids vd A Ap C tb k).flatMap fun x =>
      (tb.getD (n - k) []).map fun u => (List.zipWith (· * ·) x.1 u.1, x.2 * u.2)

/-- Levels `0..n` of forests. -/
def nTable (vd : Bool) (A Ap : List (List ℚ)) (C : List ℚ) : ℕ → List (List (List ℚ × ℚ))
  | 0 => [[(C.map fun _ => 1, 1)]]
  | n + 1 => let tb := nTable vd A Ap C n; tb ++ [nLevel vd A Ap C tb n]

/-- All forests of order below `p` pass the test. -/
def nCheck (vd : Bool) (A Ap : List (List ℚ)) (C : List ℚ) (test : ℕ → List ℚ → ℚ → Bool) : ℕ → Bool
  | 0 => true
  | p + 1 =>
    let tb := nTable vd A Ap C p
    (List.range (p + 1)).all fun k => (tb.getD k []).all fun x => test k x.1 x.2

theorem nTable_length (vd : Bool) (A Ap : List (List ℚ)) (C : List ℚ) (n : ℕ) :
    (nTable vd A Ap C n).length = n + 1 := by
  induction n with
  | zero => rfl
  | succ n ih => simp [nTable, ih]

theorem nTable_getD (vd : Bool) (A Ap : List (List ℚ)) (C : List ℚ) (n k : ℕ) (h : k ≤ n) :
    (nTable vd A Ap C (n + 1)).getD k [] = (nTable vd A Ap C n).getD k [] := by
  simp only [nTable]
  rw [List.getD_append _ _ _ _ (by rw [nTable_length]; omega)]

theorem nTable_last (vd : Bool) (A Ap : List (List ℚ)) (C : List ℚ) (n : ℕ) :
    (nTable vd A Ap C (n + 1)).getD (n + 1) [] = nLevel vd A Ap C (nTable vd A Ap C n) n := by
  simp only [nTable]
  rw [List.getD_append_right _ _ _ _ (by rw [nTable_length])]
  simp [nTable_length]

/-- The list as a function. -/
def vecOf (C : List ℚ) (i : ℕ) : ℚ := C.getD i 0

/-- Weights of a forest as a list. -/
def nVec (A Ap : List (List ℚ)) (C : List ℚ) (q : NForest) : List ℚ :=
  (List.range C.length).map fun i => q.weight C.length (matOf A) (matOf Ap) (vecOf C) i

/-- Weights of a tree as a list. -/
def nTreeVec (A Ap : List (List ℚ)) (C : List ℚ) (t : NTree) : List ℚ :=
  (List.range C.length).map fun i => t.weight C.length (matOf A) (matOf Ap) (vecOf C) i

theorem mulL_nVec {A Ap M : List (List ℚ)} {C : List ℚ} (hM : M.length = C.length) (q : NForest) :
    mulL M (nVec A Ap C q) = (List.range C.length).map fun i =>
      ∑ j ∈ range C.length, matOf M i j * q.weight C.length (matOf A) (matOf Ap) (vecOf C) j := by
  apply List.ext_getElem
  · simp [mulL, hM]
  · intro i h1 h2
    simp only [mulL, List.getElem_map, List.getElem_range]
    have hi : i < M.length := by simpa [mulL] using h1
    rw [dotL_eq _ _ C.length (by left; simp [nVec])]
    apply sum_congr rfl
    intro j hj
    rw [mem_range] at hj
    congr 1
    · unfold matOf; rw [List.getD_eq_getElem _ _ hi]
    · rw [List.getD_eq_getElem _ _ (by simpa [nVec] using hj)]
      simp [nVec]

theorem NTree.one_le_ord (t : NTree) : 1 ≤ t.ord := by
  cases t <;> simp only [NTree.ord] <;> omega

theorem nTable_mem {vd : Bool} {A Ap : List (List ℚ)} {C : List ℚ} (hA : A.length = C.length)
    (hAp : vd = true → Ap.length = C.length) :
    ∀ (n m : ℕ), m ≤ n → ∀ q : NForest, q.ord = m → okVd vd q →
      (nVec A Ap C q, ∏ l, (q.2 l).exact) ∈ (nTable vd A Ap C n).getD m [] := by
  intro n
  induction n with
  | zero =>
    rintro m hm ⟨k, c⟩ hc -
    obtain rfl : m = 0 := by omega
    simp only [NForest.ord] at hc
    have hk : k = 0 := by
      by_contra hk
      obtain ⟨k, rfl⟩ := Nat.exists_eq_succ_of_ne_zero hk
      rw [Fin.sum_univ_succ] at hc
      have := (c 0).one_le_ord
      omega
    subst hk
    simp only [nTable, nVec, NForest.weight, univ_eq_empty, prod_empty, List.getD_cons_zero]
    simp
  | succ n ih =>
    rintro m hm ⟨k, c⟩ hc hok
    by_cases hmn : m ≤ n
    · rw [nTable_getD _ _ _ _ n m hmn]; exact ih m hmn ⟨k, c⟩ hc hok
    · obtain rfl : m = n + 1 := by omega
      rw [nTable_last]
      simp only [NForest.ord] at hc
      cases k with
      | zero => simp at hc
      | succ k =>
        rw [Fin.sum_univ_succ] at hc
        have h1 := (c 0).one_le_ord
        set tb := nTable vd A Ap C n with htb
        -- the first tree is in nKids
        have hkid : (nTreeVec A Ap C (c 0), (c 0).exact) ∈ nKids vd A Ap C tb ((c 0).ord - 1) := by
          have hok0 : vd = true ∨ (c 0).velFree := hok.imp id (fun h => h 0)
          generalize hc0 : c 0 = t0
          rw [hc0] at hok0 h1 hc
          cases t0 with
          | vel =>
            unfold nKids
            rw [List.mem_append, List.mem_append]
            left; left
            simp only [NTree.ord, NTree.exact, nTreeVec, NTree.weight]
            simp only [Nat.sub_self, if_true, List.mem_singleton, Prod.mk.injEq, and_true]
            apply List.ext_getElem
            · simp
            · intro i h1 h2
              simp [vecOf, h2]
          | dot k0 c0 =>
            have hvd : vd = true := by
              rcases hok0 with h | h
              · exact h
              · exact absurd h (by simp [NTree.velFree])
            unfold nKids
            rw [List.mem_append, List.mem_append]
            left; right
            rw [if_pos hvd, List.mem_map]
            simp only [NTree.ord] at hc ⊢
            refine ⟨(nVec A Ap C ⟨k0, c0⟩, ∏ l, (c0 l).exact), ?_, ?_⟩
            · have := ih (∑ l, (c0 l).ord) (by omega) ⟨k0, c0⟩ rfl (Or.inl hvd)
              rw [Nat.add_sub_cancel_left]
              exact this
            · rw [mulL_nVec (hAp hvd), Nat.add_sub_cancel_left]
              simp only [NTree.exact]
              rfl
          | pos k0 c0 =>
            unfold nKids
            rw [List.mem_append]
            right
            simp only [NTree.ord] at hc ⊢
            rw [show 2 + ∑ l, (c0 l).ord - 1 = (∑ l, (c0 l).ord) + 1 by omega]
            simp only
            rw [List.mem_map]
            refine ⟨(nVec A Ap C ⟨k0, c0⟩, ∏ l, (c0 l).exact), ?_, ?_⟩
            · exact ih (∑ l, (c0 l).ord) (by omega) ⟨k0, c0⟩ rfl
                (hok0.imp id fun h => h)
            · rw [mulL_nVec hA]
              simp only [NTree.exact]
              rfl
        unfold nLevel
        rw [List.mem_flatMap]
        refine ⟨(c 0).ord - 1, List.mem_range.mpr (by omega), ?_⟩
        rw [List.mem_flatMap]
        refine ⟨_, hkid, ?_⟩
        rw [List.mem_map]
        refine ⟨(nVec A Ap C ⟨k, fun l => c l.succ⟩, ∏ l : Fin k, (c l.succ).exact),
          ih _ (by omega) ⟨k, fun l => c l.succ⟩ (by simp only [NForest.ord]; omega)
            (hok.imp id fun h l => h l.succ), ?_⟩
        rw [Prod.mk.injEq]
        constructor
        · apply List.ext_getElem
          · simp [nVec, nTreeVec]
          · intro i h1 h2
            simp only [nVec, nTreeVec, List.getElem_zipWith, List.getElem_map, List.getElem_range,
              NForest.weight]
            rw [Fin.prod_univ_succ]
        · rw [Fin.prod_univ_succ]

theorem nCheck_sound {vd : Bool} {A Ap : List (List ℚ)} {C : List ℚ} (hA : A.length = C.length)
    (hAp : vd = true → Ap.length = C.length) {test : ℕ → List ℚ → ℚ → Bool} {p : ℕ}
    (h : nCheck vd A Ap C test p = true) (q : NForest) (hok : okVd vd q) (hq : q.ord < p) :
    test q.ord (nVec A Ap C q) (∏ l, (q.2 l).exact) = true := by
  obtain ⟨p, rfl⟩ : ∃ r, p = r + 1 := ⟨p - 1, by omega⟩
  simp only [nCheck, List.all_eq_true, List.mem_range] at h
  exact h q.ord hq _ (nTable_mem hA hAp p q.ord (by omega) q rfl hok)

theorem dotL_nVec (A Ap : List (List ℚ)) (C b : List ℚ) (q : NForest) :
    dotL b (nVec A Ap C q) = ∑ i ∈ range C.length, vecOf b i *
      q.weight C.length (matOf A) (matOf Ap) (vecOf C) i := by
  rw [dotL_eq _ _ C.length (by left; simp [nVec])]
  apply sum_congr rfl
  intro i hi
  rw [mem_range] at hi
  congr 1
  rw [List.getD_eq_getElem _ _ (by simpa [nVec] using hi)]
  simp [nVec]

/-! ### Casts -/

variable {K : Type*} [Field K] [CharZero K]

theorem NTree.exact_cast (t : NTree) : t.exact (K := K) = ((t.exact (K := ℚ) : ℚ) : K) := by
  induction t with
  | vel => simp [NTree.exact]
  | pos k c ih => simp only [NTree.exact]; push_cast; simp only [ih]
  | dot k c ih => simp only [NTree.exact]; push_cast; simp only [ih]

theorem NTree.weight_cast (n : ℕ) (A Ap : ℕ → ℕ → ℚ) (C : ℕ → ℚ) (t : NTree) :
    ∀ i, t.weight n (fun i j => ((A i j : ℚ) : K)) (fun i j => ((Ap i j : ℚ) : K))
      (fun i => ((C i : ℚ) : K)) i = ((t.weight n A Ap C i : ℚ) : K) := by
  induction t with
  | vel => intro i; simp [NTree.weight]
  | pos k c ih => intro i; simp only [NTree.weight]; push_cast; simp only [ih]
  | dot k c ih => intro i; simp only [NTree.weight]; push_cast; simp only [ih]

theorem NForest.weight_cast (n : ℕ) (A Ap : ℕ → ℕ → ℚ) (C : ℕ → ℚ) (q : NForest) (i : ℕ) :
    q.weight n (fun i j => ((A i j : ℚ) : K)) (fun i j => ((Ap i j : ℚ) : K))
      (fun i => ((C i : ℚ) : K)) i = ((q.weight n A Ap C i : ℚ) : K) := by
  simp only [NForest.weight, NTree.weight_cast]
  push_cast
  rfl

theorem NTree.weight_congr {n : ℕ} {A A' Ap Ap' : ℕ → ℕ → K} {C C' : ℕ → K}
    (hA : ∀ i, i < n → ∀ j, j < n → A i j = A' i j) (hAp : ∀ i, i < n → ∀ j, j < n → Ap i j = Ap' i j)
    (hC : ∀ i, i < n → C i = C' i) (t : NTree) :
    ∀ i, i < n → t.weight n A Ap C i = t.weight n A' Ap' C' i := by
  induction t with
  | vel => intro i hi; simp only [NTree.weight]; exact hC i hi
  | pos k c ih =>
    intro i hi
    simp only [NTree.weight]
    apply sum_congr rfl
    intro j hj
    rw [mem_range] at hj
    rw [hA i hi j hj]
    congr 1
    exact prod_congr rfl fun l _ => ih l j hj
  | dot k c ih =>
    intro i hi
    simp only [NTree.weight]
    apply sum_congr rfl
    intro j hj
    rw [mem_range] at hj
    rw [hAp i hi j hj]
    congr 1
    exact prod_congr rfl fun l _ => ih l j hj

theorem NForest.weight_congr {n : ℕ} {A A' Ap Ap' : ℕ → ℕ → K} {C C' : ℕ → K}
    (hA : ∀ i, i < n → ∀ j, j < n → A i j = A' i j) (hAp : ∀ i, i < n → ∀ j, j < n → Ap i j = Ap' i j)
    (hC : ∀ i, i < n → C i = C' i) (q : NForest) (i : ℕ) (hi : i < n) :
    q.weight n A Ap C i = q.weight n A' Ap' C' i :=
  prod_congr rfl fun l _ => NTree.weight_congr hA hAp hC _ i hi

/-- Test for the order conditions. -/
def orderTest (B Bp : List ℚ) (p : ℕ) (m : ℕ) (v : List ℚ) (e : ℚ) : Bool :=
  (decide (p < m + 2) || decide (dotL B v = e / ((1 + (m : ℚ)) * (2 + (m : ℚ))))) &&
    decide (dotL Bp v = e / (1 + (m : ℚ)))

/-- Test for error estimates. -/
def errorTest (E Ep : List ℚ) (p : ℕ) (m : ℕ) (v : List ℚ) (_ : ℚ) : Bool :=
  (decide (p < m + 2) || decide (dotL E v = 0)) && decide (dotL Ep v = 0)

theorem nyOrder_of_check {vd : Bool} {A Ap : List (List ℚ)} {C B Bp : List ℚ} {p : ℕ}
    (hA : A.length = C.length) (hAp : vd = true → Ap.length = C.length)
    (h : nCheck vd A Ap C (orderTest B Bp p) p = true) :
    NyOrder (K := K) (okVd vd) C.length (fun i j => ((matOf A i j : ℚ) : K))
      (fun i j => ((matOf Ap i j : ℚ) : K)) (fun i => ((vecOf C i : ℚ) : K))
      (fun i => ((vecOf B i : ℚ) : K)) (fun i => ((vecOf Bp i : ℚ) : K)) p := by
  intro q hok
  simp only [NForest.weight_cast]
  rw [NTree.exact_cast (K := K), NTree.exact_cast (K := K)]
  constructor
  · intro hq
    have := nCheck_sound hA hAp h q hok (by omega)
    simp only [orderTest, Bool.and_eq_true, Bool.or_eq_true, decide_eq_true_eq] at this
    have h1 := this.1.resolve_left (by omega)
    rw [dotL_nVec] at h1
    have h2 := congrArg (fun q : ℚ => (q : K)) h1
    simp only [NTree.exact]
    push_cast at h2 ⊢
    rw [h2]
    simp only [NForest.ord]
    push_cast
    rfl
  · intro hq
    have := nCheck_sound hA hAp h q hok (by omega)
    simp only [orderTest, Bool.and_eq_true, Bool.or_eq_true, decide_eq_true_eq] at this
    have h1 := this.2
    rw [dotL_nVec] at h1
    have h2 := congrArg (fun q : ℚ => (q : K)) h1
    simp only [NTree.exact]
    push_cast at h2 ⊢
    rw [h2]
    simp only [NForest.ord]
    push_cast
    rfl

theorem nyError_of_check {vd : Bool} {A Ap : List (List ℚ)} {C B Bp : List ℚ} {p : ℕ}
    (hA : A.length = C.length) (hAp : vd = true → Ap.length = C.length)
    (h : nCheck vd A Ap C (errorTest B Bp p) p = true) :
    NyError (K := K) (okVd vd) C.length (fun i j => ((matOf A i j : ℚ) : K))
      (fun i j => ((matOf Ap i j : ℚ) : K)) (fun i => ((vecOf C i : ℚ) : K))
      (fun i => ((vecOf B i : ℚ) : K)) (fun i => ((vecOf Bp i : ℚ) : K)) p := by
  intro q hok
  simp only [NForest.weight_cast]
  constructor
  · intro hq
    have := nCheck_sound hA hAp h q hok (by omega)
    simp only [errorTest, Bool.and_eq_true, Bool.or_eq_true, decide_eq_true_eq] at this
    have h1 := this.1.resolve_left (by omega)
    rw [dotL_nVec] at h1
    have h2 := congrArg (fun q : ℚ => (q : K)) h1
    push_cast at h2 ⊢
    exact h2
  · intro hq
    have := nCheck_sound hA hAp h q hok (by omega)
    simp only [errorTest, Bool.and_eq_true, Bool.or_eq_true, decide_eq_true_eq] at this
    have h1 := this.2
    rw [dotL_nVec] at h1
    have h2 := congrArg (fun q : ℚ => (q : K)) h1
    push_cast at h2 ⊢
    exact h2

end Extensisq
