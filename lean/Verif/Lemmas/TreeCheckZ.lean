import Verif.Lemmas.Trees
import Mathlib.Tactic.Linarith

/-!
# Enumeration of all rooted trees up to a given size, in integer arithmetic

The same enumeration as in `Verif.Lemmas.Trees`, arranged for evaluation by the kernel with large tables: integers
(a matrix scaled by a common denominator), duplicates removed, and values forced to literals at every level.
-/

set_option linter.unusedSectionVars false

namespace Extensisq
open Finset

/-- `k n`, with `n` evaluated first. -/
def forceN {α : Type} (n : ℕ) (k : ℕ → α) : α := Nat.casesOn n (k 0) fun m => k (m + 1)

theorem forceN_eq {α : Type} (n : ℕ) (k : ℕ → α) : forceN n k = k n := by cases n <;> rfl

def forceZ {α : Type} (z : ℤ) (k : ℤ → α) : α :=
  match z with
  | .ofNat n => forceN n fun n => k (.ofNat n)
  | .negSucc n => forceN n fun n => k (.negSucc n)

theorem forceZ_eq {α : Type} (z : ℤ) (k : ℤ → α) : forceZ z k = k z := by
  cases z <;> simp only [forceZ, forceN_eq]

def forceL {α : Type} : List ℤ → (List ℤ → α) → α
  | [], k => k []
  | a :: l, k => forceZ a fun a => forceL l fun l => k (a :: l)

theorem forceL_eq {α : Type} (l : List ℤ) (k : List ℤ → α) : forceL l k = k l := by
  induction l generalizing k with
  | nil => rfl
  | cons a l ih => simp only [forceL, forceZ_eq, ih]

def forceLL {α : Type} : List (List ℤ) → (List (List ℤ) → α) → α
  | [], k => k []
  | a :: l, k => forceL a fun a => forceLL l fun l => k (a :: l)

theorem forceLL_eq {α : Type} (l : List (List ℤ)) (k : List (List ℤ) → α) : forceLL l k = k l := by
  induction l generalizing k with
  | nil => rfl
  | cons a l ih => simp only [forceLL, forceL_eq, ih]

/-- Row times vector. -/
def dotZ : List ℤ → List ℤ → ℤ
  | a :: r, b :: v => Int.add (Int.mul a b) (dotZ r v)
  | _, _ => 0

theorem dotZ_eq (r v : List ℤ) (n : ℕ) (hv : v.length ≤ n ∨ r.length ≤ n) :
    dotZ r v = ∑ j ∈ range n, r.getD j 0 * v.getD j 0 := by
  induction r generalizing v n with
  | nil => simp [dotZ]
  | cons a r ih =>
    cases v with
    | nil => simp [dotZ]
    | cons b v =>
      cases n with
      | zero => simp at hv
      | succ n =>
        rw [sum_range_succ', dotZ, ih v n (by simpa using hv)]
        simp only [List.getD_cons_succ, List.getD_cons_zero]
        exact add_comm _ _

def mulZ : List ℤ → List ℤ → List ℤ
  | a :: r, b :: v => Int.mul a b :: mulZ r v
  | _, _ => []

theorem mulZ_eq (r v : List ℤ) : mulZ r v = List.zipWith (· * ·) r v := by
  induction r generalizing v with
  | nil => simp [mulZ]
  | cons a r ih => cases v with
    | nil => simp [mulZ]
    | cons b v => simp only [mulZ, ih, List.zipWith_cons_cons]; rfl

def eqZ : List ℤ → List ℤ → Bool
  | [], [] => true
  | .ofNat m :: r, .ofNat n :: v => Nat.beq m n && eqZ r v
  | .negSucc m :: r, .negSucc n :: v => Nat.beq m n && eqZ r v
  | _, _ => false

theorem eqZ_sound : ∀ (r v : List ℤ), eqZ r v = true → r = v := by
  intro r
  induction r with
  | nil => intro v h; cases v with
    | nil => rfl
    | cons => simp [eqZ] at h
  | cons a r ih =>
    intro v h
    cases v with
    | nil => cases a <;> simp [eqZ] at h
    | cons b v =>
      cases a <;> cases b <;> simp only [eqZ, Bool.and_eq_true, reduceCtorEq, Bool.false_eq_true] at h
      · rw [Nat.eq_of_beq_eq_true h.1, ih v h.2]
      · rw [Nat.eq_of_beq_eq_true h.1, ih v h.2]

/-- Is the pair in the list? -/
def memZ (v : List ℤ) (g : ℕ) : List (List ℤ × ℕ) → Bool
  | [] => false
  | p :: l => (Nat.beq g p.2 && eqZ v p.1) || memZ v g l

theorem memZ_sound {v : List ℤ} {g : ℕ} {l : List (List ℤ × ℕ)} (h : memZ v g l = true) : (v, g) ∈ l := by
  induction l with
  | nil => simp [memZ] at h
  | cons p l ih =>
    simp only [memZ, Bool.or_eq_true, Bool.and_eq_true] at h
    rcases h with ⟨h1, h2⟩ | h
    · rw [Nat.eq_of_beq_eq_true h1, eqZ_sound _ _ h2]
      exact List.mem_cons_self
    · exact List.mem_cons_of_mem _ (ih h)

/-- Add the products of `av` with the elements of `us` to `acc`, without duplicates, and continue. -/
def addZ {α : Type} (av : List ℤ) (g : ℕ) : List (List ℤ × ℕ) → List (List ℤ × ℕ) → (List (List ℤ × ℕ) → α) → α
  | [], acc, k => k acc
  | u :: us, acc, k =>
    forceL (mulZ av u.1) fun w => forceN (g * u.2) fun gw =>
      match memZ w gw acc with
      | true => addZ av g us acc k
      | false => addZ av g us ((w, gw) :: acc) k

theorem addZ_spec {α : Type} (av : List ℤ) (g : ℕ) (us acc : List (List ℤ × ℕ)) (k : List (List ℤ × ℕ) → α) :
    ∃ l, addZ av g us acc k = k l ∧ (∀ p ∈ acc, p ∈ l) ∧
      ∀ u ∈ us, (List.zipWith (· * ·) av u.1, g * u.2) ∈ l := by
  induction us generalizing acc with
  | nil => exact ⟨acc, rfl, fun p hp => hp, by simp⟩
  | cons u us ih =>
    simp only [addZ, forceL_eq, forceN_eq, mulZ_eq]
    split
    · next h =>
      obtain ⟨l, h1, h2, h3⟩ := ih acc
      refine ⟨l, h1, h2, fun v hv => ?_⟩
      rcases List.mem_cons.mp hv with rfl | hv
      · exact h2 _ (memZ_sound h)
      · exact h3 v hv
    · obtain ⟨l, h1, h2, h3⟩ := ih ((List.zipWith (· * ·) av u.1, g * u.2) :: acc)
      refine ⟨l, h1, fun p hp => h2 p (List.mem_cons_of_mem _ hp), fun v hv => ?_⟩
      rcases List.mem_cons.mp hv with rfl | hv
      · exact h2 _ List.mem_cons_self
      · exact h3 v hv

/-- All products of first trees from `vs` (with `k+1` vertices) and remaining forests from `us`. -/
def prodZ {α : Type} (M : List (List ℤ)) (k1 : ℕ) (us : List (List ℤ × ℕ)) :
    List (List ℤ × ℕ) → List (List ℤ × ℕ) → (List (List ℤ × ℕ) → α) → α
  | [], acc, k => k acc
  | v :: vs, acc, k =>
    forceL (M.map fun r => dotZ r v.1) fun av => forceN (k1 * v.2) fun g =>
      addZ av g us acc fun acc => prodZ M k1 us vs acc k

theorem prodZ_spec {α : Type} (M : List (List ℤ)) (k1 : ℕ) (us vs acc : List (List ℤ × ℕ))
    (k : List (List ℤ × ℕ) → α) :
    ∃ l, prodZ M k1 us vs acc k = k l ∧ (∀ p ∈ acc, p ∈ l) ∧ ∀ v ∈ vs, ∀ u ∈ us,
      (List.zipWith (· * ·) (M.map fun r => dotZ r v.1) u.1, k1 * v.2 * u.2) ∈ l := by
  induction vs generalizing acc with
  | nil => exact ⟨acc, rfl, fun p hp => hp, by simp⟩
  | cons v vs ih =>
    simp only [prodZ, forceL_eq, forceN_eq]
    obtain ⟨l, h1, h2, h3⟩ := addZ_spec (M.map fun r => dotZ r v.1) (k1 * v.2) us acc
      (fun acc => prodZ M k1 us vs acc k)
    obtain ⟨l', h4, h5, h6⟩ := ih l
    refine ⟨l', h1.trans h4, fun p hp => h5 p (h2 p hp), fun w hw u hu => ?_⟩
    rcases List.mem_cons.mp hw with rfl | hw
    · exact h5 _ (h3 u hu)
    · exact h6 w hw u hu

/-- New level: `lo` counts up the size of the first tree, `tb` holds the levels, `rtb` the remaining levels in reverse
order. -/
def levelZ {α : Type} (M : List (List ℤ)) :
    ℕ → List (List (List ℤ × ℕ)) → List (List (List ℤ × ℕ)) → List (List ℤ × ℕ) → (List (List ℤ × ℕ) → α) → α
  | k1, vs :: tb, us :: rtb, acc, k =>
    prodZ M k1 us vs acc fun acc => forceN (k1 + 1) fun k1 => levelZ M k1 tb rtb acc k
  | _, _, _, acc, k => k acc

theorem levelZ_spec {α : Type} (M : List (List ℤ)) (k1 : ℕ) (tb rtb : List (List (List ℤ × ℕ)))
    (acc : List (List ℤ × ℕ)) (k : List (List ℤ × ℕ) → α) :
    ∃ l, levelZ M k1 tb rtb acc k = k l ∧ (∀ p ∈ acc, p ∈ l) ∧
      ∀ i, i < tb.length → i < rtb.length → ∀ v ∈ tb.getD i [], ∀ u ∈ rtb.getD i [],
        (List.zipWith (· * ·) (M.map fun r => dotZ r v.1) u.1, (k1 + i) * v.2 * u.2) ∈ l := by
  induction tb generalizing k1 rtb acc with
  | nil => exact ⟨acc, by simp [levelZ], fun p hp => hp, by simp⟩
  | cons vs tb ih =>
    cases rtb with
    | nil => exact ⟨acc, by simp [levelZ], fun p hp => hp, by simp⟩
    | cons us rtb =>
      simp only [levelZ, forceN_eq]
      obtain ⟨l, h1, h2, h3⟩ := prodZ_spec M k1 us vs acc fun acc => levelZ M (k1 + 1) tb rtb acc k
      obtain ⟨l', h4, h5, h6⟩ := ih (k1 + 1) rtb l
      refine ⟨l', h1.trans h4, fun p hp => h5 p (h2 p hp), fun i hi hi' v hv u hu => ?_⟩
      cases i with
      | zero => exact h5 _ (h3 v hv u hu)
      | succ i =>
        simp only [List.length_cons] at hi hi'
        have := h6 i (by omega) (by omega) v (by simpa using hv) u (by simpa using hu)
        rwa [show k1 + 1 + i = k1 + (i + 1) by ring] at this

/-- `n` further levels; `tb` the levels so far and `rtb` the same in reverse order. -/
def tableZ {α : Type} (M : List (List ℤ)) :
    ℕ → List (List (List ℤ × ℕ)) → List (List (List ℤ × ℕ)) → (List (List (List ℤ × ℕ)) → α) → α
  | 0, tb, _, k => k tb
  | n + 1, tb, rtb, k => levelZ M 1 tb rtb [] fun l => tableZ M n (tb ++ [l]) (l :: rtb) k

/-- The list matrix as a function. -/
def matZ (M : List (List ℤ)) (i j : ℕ) : ℤ := (M.getD i []).getD j 0

/-- Forest data as a list. -/
def forestZ (M : List (List ℤ)) {k : ℕ} (c : Fin k → OTree) : List ℤ :=
  (List.range M.length).map fun i => ∏ l, ∑ j ∈ range M.length, matZ M i j * (c l).weight M.length (matZ M) j

/-- The levels contain all forests. -/
def Complete (M : List (List ℤ)) (tb : List (List (List ℤ × ℕ))) : Prop :=
  ∀ m, m < tb.length → ∀ (k : ℕ) (c : Fin k → OTree), ∑ l, (c l).size = m →
    (forestZ M c, ∏ l, (c l).dens) ∈ tb.getD m []

theorem complete_step {M : List (List ℤ)} {tb : List (List (List ℤ × ℕ))} (h : Complete M tb) (hne : tb ≠ [])
    {l : List (List ℤ × ℕ)}
    (hl : ∀ i, i < tb.length → i < tb.reverse.length → ∀ v ∈ tb.getD i [], ∀ u ∈ tb.reverse.getD i [],
        (List.zipWith (· * ·) (M.map fun r => dotZ r v.1) u.1, (1 + i) * v.2 * u.2) ∈ l) :
    Complete M (tb ++ [l]) := by
  have hpos : ∀ t : OTree, 1 ≤ t.size := by
    intro t; cases t; simp [OTree.size]
  have hlen : 0 < tb.length := List.length_pos_iff.mpr hne
  intro m hm k c hc
  rw [List.length_append, List.length_singleton] at hm
  by_cases hmn : m < tb.length
  · rw [List.getD_append _ _ _ _ hmn]; exact h m hmn k c hc
  · obtain rfl : m = tb.length := by omega
    rw [List.getD_append_right _ _ _ _ le_rfl, Nat.sub_self, List.getD_cons_zero]
    cases k with
    | zero => simp at hc; omega
    | succ k =>
      rw [Fin.sum_univ_succ] at hc
      obtain ⟨k0, c0, hc0⟩ : ∃ k0 c0, c 0 = OTree.node k0 c0 := by
        cases c 0 with
        | node k0 c0 => exact ⟨k0, c0, rfl⟩
      have hs0 : (c 0).size = 1 + ∑ l, (c0 l).size := by rw [hc0]; rfl
      set q := ∑ l, (c0 l).size with hq
      have e1 : tb.reverse.getD q [] = tb.getD (tb.length - 1 - q) [] := by
        rw [List.getD_eq_getElem _ _ (by rw [List.length_reverse]; omega), List.getElem_reverse,
          List.getD_eq_getElem]
      have := hl q (by omega) (by rw [List.length_reverse]; omega) _ (h q (by omega) k0 c0 rfl)
        (forestZ M (fun l => c l.succ), ∏ l : Fin k, (c l.succ).dens) (by
          rw [e1]; exact h _ (by omega) k _ (by omega))
      convert this using 1
      rw [Prod.mk.injEq]
      constructor
      · apply List.ext_getElem
        · simp [forestZ]
        · intro i h1 h2
          simp only [forestZ, List.getElem_zipWith, List.getElem_map, List.getElem_range]
          rw [Fin.prod_univ_succ]
          congr 1
          have hi : i < M.length := by simpa [forestZ] using h1
          rw [dotZ_eq _ _ M.length (by left; simp)]
          apply sum_congr rfl
          intro j hj
          rw [mem_range] at hj
          congr 1
          · unfold matZ; rw [List.getD_eq_getElem _ _ hi]
          · rw [hc0, List.getD_eq_getElem _ _ (by simpa using hj)]
            simp [OTree.weight]
      · rw [Fin.prod_univ_succ, hc0]
        simp only [OTree.dens]
        rw [← hq]

theorem tableZ_spec {α : Type} (M : List (List ℤ)) (n : ℕ) (tb : List (List (List ℤ × ℕ)))
    (hne : tb ≠ []) (h : Complete M tb) (k : List (List (List ℤ × ℕ)) → α) :
    ∃ tb', tableZ M n tb tb.reverse k = k tb' ∧ tb'.length = tb.length + n ∧ Complete M tb' := by
  induction n generalizing tb with
  | zero => exact ⟨tb, rfl, rfl, h⟩
  | succ n ih =>
    simp only [tableZ]
    obtain ⟨l, h1, -, h3⟩ := levelZ_spec M 1 tb tb.reverse [] fun l => tableZ M n (tb ++ [l]) (l :: tb.reverse) k
    have hc := complete_step h hne h3
    obtain ⟨tb', h4, h5, h6⟩ := ih (tb ++ [l]) (by simp) hc
    refine ⟨tb', ?_, by rw [h5, List.length_append, List.length_singleton]; omega, h6⟩
    rw [h1, ← h4, List.reverse_append]
    rfl

/-- Test all levels. -/
def allZ (test : ℕ → List ℤ → ℕ → Bool) : ℕ → List (List (List ℤ × ℕ)) → Bool
  | _, [] => true
  | k1, l :: tb => (l.all fun p => test k1 p.1 (k1 * p.2)) && allZ test (k1 + 1) tb

theorem allZ_sound {test : ℕ → List ℤ → ℕ → Bool} {k1 : ℕ} {tb : List (List (List ℤ × ℕ))}
    (h : allZ test k1 tb = true) (m : ℕ) (hm : m < tb.length) (p : List ℤ × ℕ) (hp : p ∈ tb.getD m []) :
    test (k1 + m) p.1 ((k1 + m) * p.2) = true := by
  induction tb generalizing k1 m with
  | nil => simp at hm
  | cons l tb ih =>
    simp only [allZ, Bool.and_eq_true, List.all_eq_true] at h
    cases m with
    | zero => exact h.1 p (by simpa using hp)
    | succ m =>
      have := ih h.2 m (by simpa using hm) (by simpa using hp)
      rwa [show k1 + 1 + m = k1 + (m + 1) by ring] at this

/-- All trees with at most `p` vertices pass `test size weights density`. -/
def treeCheckZ (M : List (List ℤ)) (test : ℕ → List ℤ → ℕ → Bool) : ℕ → Bool
  | 0 => true
  | p + 1 => forceL (M.map fun _ => 1) fun v => tableZ M p [[(v, 1)]] [[(v, 1)]] fun tb => allZ test 1 tb

/-- Stage weights of a tree as a list. -/
def weightZ (M : List (List ℤ)) (τ : OTree) : List ℤ :=
  (List.range M.length).map fun i => τ.weight M.length (matZ M) i

theorem treeCheckZ_sound {M : List (List ℤ)} {test : ℕ → List ℤ → ℕ → Bool} {p : ℕ}
    (h : treeCheckZ M test p = true) (τ : OTree) (hτ : τ.size ≤ p) :
    test τ.size (weightZ M τ) τ.dens = true := by
  obtain ⟨k, cs⟩ := τ
  simp only [OTree.size] at hτ
  obtain ⟨p, rfl⟩ : ∃ q, p = q + 1 := ⟨p - 1, by omega⟩
  simp only [treeCheckZ, forceL_eq] at h
  have hpos : ∀ t : OTree, 1 ≤ t.size := by
    intro t; cases t; simp [OTree.size]
  have h0 : Complete M [[(M.map fun _ => (1 : ℤ), 1)]] := by
    intro m hm k c hc
    obtain rfl : m = 0 := by simpa using hm
    have hk : k = 0 := by
      by_contra hk
      obtain ⟨k, rfl⟩ := Nat.exists_eq_succ_of_ne_zero hk
      rw [Fin.sum_univ_succ] at hc
      have := hpos (c 0)
      omega
    subst hk
    simp only [forestZ, univ_eq_empty, prod_empty, List.getD_cons_zero]
    simp
  obtain ⟨tb, h1, h2, h3⟩ := tableZ_spec M p _ (by simp) h0 fun tb => allZ test 1 tb
  rw [List.reverse_singleton] at h1
  rw [h1] at h
  have := allZ_sound h (∑ l, (cs l).size) (by rw [h2, List.length_singleton]; omega) _ (h3 _ (by
    rw [h2, List.length_singleton]; omega) k cs rfl)
  simp only [OTree.dens, OTree.size]
  have e : weightZ M (.node k cs) = forestZ M cs := by
    simp [weightZ, forestZ, OTree.weight]
  rw [e]
  exact this

theorem dotZ_weightZ (M : List (List ℤ)) (b : List ℤ) (τ : OTree) :
    dotZ b (weightZ M τ) = ∑ i ∈ range M.length, b.getD i 0 * τ.weight M.length (matZ M) i := by
  rw [dotZ_eq _ _ M.length (by left; simp [weightZ])]
  apply sum_congr rfl
  intro i hi
  rw [mem_range] at hi
  congr 1
  rw [List.getD_eq_getElem _ _ (by simpa [weightZ] using hi)]
  simp [weightZ]

/-- Weights of a scaled matrix. -/
theorem OTree.weight_scale {K : Type*} [CommRing K] (D : K) (n : ℕ) (A : ℕ → ℕ → K) (t : OTree) :
    ∀ i, t.weight n (fun i j => D * A i j) i = D ^ (t.size - 1) * t.weight n A i := by
  induction t with
  | node k c ih =>
    intro i
    simp only [OTree.weight, OTree.size, Nat.add_sub_cancel_left]
    rw [← prod_pow_eq_pow_sum, ← prod_mul_distrib]
    apply prod_congr rfl
    intro l _
    rw [mul_sum]
    apply sum_congr rfl
    intro j _
    rw [ih]
    obtain ⟨s, hs⟩ : ∃ s, (c l).size = s + 1 := ⟨(c l).size - 1, by
      have : 1 ≤ (c l).size := by cases c l; simp [OTree.size]
      omega⟩
    rw [hs, Nat.add_sub_cancel, pow_succ]
    ring

/-! ## Scaled tables -/

/-- Multiply by a common denominator. -/
def scaleZ (D : ℕ) (l : List ℚ) : List ℤ := l.map fun x => (x * (D : ℚ)).num

/-- Is `D` a common denominator? -/
def scaleOK (D : ℕ) (l : List ℚ) : Bool := l.all fun x => decide ((x * (D : ℚ)).den = 1)

theorem scaleZ_getD {D : ℕ} {l : List ℚ} (h : scaleOK D l = true) (i : ℕ) :
    (((scaleZ D l).getD i 0 : ℤ) : ℝ) = (D : ℝ) * ((l.getD i 0 : ℚ) : ℝ) := by
  by_cases hi : i < l.length
  · simp only [scaleOK, List.all_eq_true, decide_eq_true_eq] at h
    have h1 := h l[i] (List.getElem_mem hi)
    rw [scaleZ, List.getD_eq_getElem _ _ (by simpa using hi), List.getD_eq_getElem _ _ hi, List.getElem_map]
    have h2 : (((l[i] * (D : ℚ)).num : ℤ) : ℚ) = l[i] * (D : ℚ) := Rat.coe_int_num_of_den_eq_one h1
    have h3 := congrArg (fun q : ℚ => (q : ℝ)) h2
    push_cast at h3
    rw [h3]; ring
  · rw [List.getD_eq_default _ _ (by simpa [scaleZ] using hi), List.getD_eq_default _ _ (by simpa using hi)]
    simp

theorem scaleZ_sum {D : ℕ} {M : List (List ℚ)} (hM : ∀ r ∈ M, scaleOK D r = true) {b : List ℚ}
    (hb : scaleOK D b = true) (τ : OTree) :
    ((dotZ (scaleZ D b) (weightZ (M.map (scaleZ D)) τ) : ℤ) : ℝ) = (D : ℝ) ^ τ.size *
      ∑ i ∈ range M.length, ((b.getD i 0 : ℚ) : ℝ) * τ.weight M.length (fun i j => ((matOf M i j : ℚ) : ℝ)) i := by
  rw [dotZ_weightZ, List.length_map]
  push_cast
  rw [mul_sum]
  apply sum_congr rfl
  intro i _
  have e : (fun i j => ((matZ (M.map (scaleZ D)) i j : ℤ) : ℝ)) = fun i j => (D : ℝ) * ((matOf M i j : ℚ) : ℝ) := by
    funext i j
    unfold matZ matOf
    by_cases hi : i < M.length
    · rw [List.getD_eq_getElem (M.map _) _ (by simpa using hi), List.getElem_map, List.getD_eq_getElem M _ hi]
      exact scaleZ_getD (hM _ (List.getElem_mem hi)) j
    · rw [List.getD_eq_default (M.map _) _ (by simpa using hi), List.getD_eq_default M _ (by simpa using hi)]
      simp
  have ew : ((τ.weight M.length (matZ (M.map (scaleZ D))) i : ℤ) : ℝ) =
      τ.weight M.length (fun i j => ((matZ (M.map (scaleZ D)) i j : ℤ) : ℝ)) i := by
    have : ∀ (t : OTree) i, ((t.weight M.length (matZ (M.map (scaleZ D))) i : ℤ) : ℝ) =
        t.weight M.length (fun i j => ((matZ (M.map (scaleZ D)) i j : ℤ) : ℝ)) i := by
      intro t
      induction t with
      | node k c ih =>
        intro i
        simp only [OTree.weight]
        push_cast
        apply prod_congr rfl
        intro l _
        apply sum_congr rfl
        intro j _
        rw [ih]
    exact this τ i
  rw [scaleZ_getD hb, ew, e, OTree.weight_scale]
  obtain ⟨s, hs⟩ : ∃ s, τ.size = s + 1 := ⟨τ.size - 1, by
    have : 1 ≤ τ.size := by cases τ; simp [OTree.size]
    omega⟩
  rw [hs, Nat.add_sub_cancel, pow_succ]
  ring

end Extensisq
