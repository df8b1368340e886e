import Verif.Lemmas.TreeCheck
import Verif.Lemmas.TreeCheckZ
import Verif.Props.Order

/-! # Order conditions up to a rounding error, for all trees at once -/

set_option linter.unusedSectionVars false

namespace Extensisq
open Finset

/-- `|X / Dm - c / g| ≤ en / ed` in integers. -/
def nearZ (en ed : ℕ) (X : ℤ) (c g Dm : ℕ) : Bool :=
  Nat.ble (Nat.mul (Int.natAbs (Int.sub (Int.mul X (Int.ofNat g)) (Int.ofNat (Nat.mul c Dm)))) ed)
    (Nat.mul en (Nat.mul g Dm))

theorem nearZ_sound {en ed c g Dm : ℕ} {X : ℤ} {x : ℝ} (h : nearZ en ed X c g Dm = true) (hg : 0 < g) (hD : 0 < Dm)
    (hed : 0 < ed) (hX : (X : ℝ) = Dm * x) : |x - (c : ℝ) / (g : ℝ)| ≤ (en : ℝ) / (ed : ℝ) := by
  have h1 := Nat.le_of_ble_eq_true h
  have h2 : (((X * (g : ℤ) - ((c * Dm : ℕ) : ℤ)).natAbs * ed : ℕ) : ℝ) ≤ ((en * (g * Dm) : ℕ) : ℝ) := by
    exact_mod_cast h1
  rw [Nat.cast_mul, Nat.cast_natAbs] at h2
  push_cast at h2
  have hg' : (0 : ℝ) < g := by exact_mod_cast hg
  have hD' : (0 : ℝ) < Dm := by exact_mod_cast hD
  have hed' : (0 : ℝ) < ed := by exact_mod_cast hed
  rw [le_div_iff₀ hed']
  have e : (X : ℝ) * g - c * Dm = (x - c / g) * (g * Dm) := by
    rw [hX]; field_simp
  rw [e, abs_mul, abs_of_pos (mul_pos hg' hD')] at h2
  have h3 : |x - c / g| * ed * (g * Dm) ≤ en * (g * Dm) := by linarith
  exact le_of_mul_le_mul_right h3 (mul_pos hg' hD')

/-- Interpolation weights, power by power. -/
def colTest (dn dd : ℕ) (v : List ℤ) (m g Dm : ℕ) : ℕ → List (List ℤ) → Bool
  | _, [] => true
  | j1, p :: ps => nearZ dn dd (dotZ p v) (if Nat.beq j1 m then 1 else 0) g Dm && colTest dn dd v m g Dm (j1 + 1) ps

theorem colTest_sound {dn dd : ℕ} {v : List ℤ} {m g Dm j1 : ℕ} {ps : List (List ℤ)}
    (h : colTest dn dd v m g Dm j1 ps = true) (j : ℕ) (hj : j < ps.length) :
    nearZ dn dd (dotZ (ps.getD j []) v) (if j1 + j = m then 1 else 0) g Dm = true := by
  induction ps generalizing j1 j with
  | nil => simp at hj
  | cons p ps ih =>
    simp only [colTest, Bool.and_eq_true, Nat.beq_eq_true_eq] at h
    cases j with
    | zero => simpa using h.1
    | succ j =>
      have := ih h.2 j (by simpa using hj)
      rwa [show j1 + 1 + j = j1 + (j + 1) by ring] at this

/-- One tree: main weights (tolerance `en / ed`), error weights up to size `sec` (same tolerance), interpolation weights
up to order `q`, power by power (tolerance `dn / dd`). -/
def decTest (D : ℕ) (B E : List ℤ) (P : List (List ℤ)) (sec q en ed dn dd : ℕ) (m : ℕ) (v : List ℤ) (g : ℕ) : Bool :=
  forceN g fun g => forceN (Nat.pow D m) fun Dm =>
    nearZ en ed (dotZ B v) 1 g Dm && (Nat.blt sec m || nearZ en ed (dotZ E v) 0 g Dm) &&
      (Nat.blt q m || colTest dn dd v m g Dm 1 P)

/-- The columns of the interpolation table. -/
def colsL (R : RKTable) : List (List ℚ) := (List.range (cols R.P)).map (colL R.P (R.s + 1))

/-- All trees up to the order of the method. -/
def decCheck (R : RKTable) (D q en ed dn dd : ℕ) : Bool :=
  forceLL ((fullL R).map (scaleZ D)) fun M => forceL (scaleZ D R.B) fun B => forceL (scaleZ D R.E) fun E =>
    forceLL ((colsL R).map (scaleZ D)) fun P => treeCheckZ M (decTest D B E P R.orderSec q en ed dn dd) R.order

/-- Shape of the table. -/
def decShape (R : RKTable) (D q : ℕ) : Prop :=
  (fullL R).length = R.s + 1 ∧
  (∀ i, i < R.s + 1 → ∀ j, j < R.s + 1 → (R.tab ℚ).full i j = matOf (fullL R) i j) ∧
  (∀ i, i < R.s + 1 → (R.tab ℚ).main i = R.B.getD i 0) ∧
  (R.orderSec ≤ R.order ∧ q ≤ R.order ∧ q ≤ cols R.P ∧ 1 ≤ q ∧ R.C.getD 0 0 = 0 ∧ 0 < R.s) ∧
  0 < D ∧ (∀ r ∈ fullL R, scaleOK D r = true) ∧ scaleOK D R.B = true ∧ scaleOK D R.E = true ∧
  ∀ r ∈ colsL R, scaleOK D r = true

instance (R : RKTable) (D q : ℕ) : Decidable (decShape R D q) := by unfold decShape; infer_instance

theorem dec_sum {R : RKTable} {D q : ℕ} (hs : decShape R D q) {b : List ℚ} (hb : scaleOK D b = true) (τ : OTree) :
    ((dotZ (scaleZ D b) (weightZ ((fullL R).map (scaleZ D)) τ) : ℤ) : ℝ) = ((D ^ τ.size : ℕ) : ℝ) *
      ∑ i ∈ range (R.s + 1), ((b.getD i 0 : ℚ) : ℝ) * τ.weight (R.s + 1) (R.tab ℝ).full i := by
  obtain ⟨hlen, hM, -, -, -, hA, -⟩ := hs
  rw [scaleZ_sum hA hb, hlen, Nat.cast_pow]
  congr 1
  apply sum_congr rfl
  intro i hi
  rw [mem_range] at hi
  congr 1
  have h2 : (R.tab ℝ).full = fun i j => (((R.tab ℚ).full i j : ℚ) : ℝ) := by
    funext i j; exact tab_full_cast ℝ R i j
  rw [h2, OTree.weight_cast, OTree.weight_cast, OTree.weight_congr _ hM τ i hi]

theorem dec_sound {R : RKTable} {D q en ed dn dd : ℕ} (hs : decShape R D q) (hed : 0 < ed) (hdd : 0 < dd)
    (h : decCheck R D q en ed dn dd = true) :
    (∀ τ : OTree, τ.size ≤ R.order →
      |∑ i ∈ range (R.s + 1), (R.tab ℝ).main i * τ.weight (R.s + 1) (R.tab ℝ).full i - 1 / (τ.dens : ℝ)|
        ≤ (en : ℝ) / ed) ∧
    (∀ τ : OTree, τ.size ≤ R.orderSec →
      |∑ i ∈ range (R.s + 1), (R.tab ℝ).E i * τ.weight (R.s + 1) (R.tab ℝ).full i| ≤ (en : ℝ) / ed) ∧
    ∀ τ : OTree, τ.size ≤ q → ∀ j, j < cols R.P →
      |∑ i ∈ range (R.s + 1), entry ℝ R.P i j * τ.weight (R.s + 1) (R.tab ℝ).full i -
        (if j + 1 = τ.size then 1 / (τ.dens : ℝ) else 0)| ≤ (dn : ℝ) / dd := by
  simp only [decCheck, forceLL_eq, forceL_eq] at h
  have all := fun (τ : OTree) (hτ : τ.size ≤ R.order) => treeCheckZ_sound h τ hτ
  simp only [decTest, forceN_eq, Bool.and_eq_true, Bool.or_eq_true] at all
  have hs' := hs
  obtain ⟨-, -, hm, ⟨ho, hq, -⟩, hD, -, hB, hE, hP⟩ := hs'
  have hDm : ∀ τ : OTree, 0 < D ^ τ.size := fun τ => pow_pos hD _
  refine ⟨fun τ hτ => ?_, fun τ hτ => ?_, fun τ hτ j hj => ?_⟩
  · have h1 := nearZ_sound (all τ hτ).1.1 τ.dens_pos (hDm τ) hed (dec_sum hs hB τ)
    rw [Nat.cast_one] at h1
    refine le_trans (le_of_eq ?_) h1
    congr 2
    apply sum_congr rfl
    intro i hi
    rw [tab_main_cast, hm i (mem_range.mp hi)]
  · have h1 := (all τ (by omega)).1.2.resolve_left (by
      intro hh
      have := Nat.le_of_ble_eq_true hh
      omega)
    have h2 := nearZ_sound h1 τ.dens_pos (hDm τ) hed (dec_sum hs hE τ)
    rw [Nat.cast_zero, zero_div, sub_zero] at h2
    exact h2
  · have h1 := (all τ (by omega)).2.resolve_left (by
      intro hh
      have := Nat.le_of_ble_eq_true hh
      omega)
    have hj' : j < (colsL R).length := by simpa [colsL] using hj
    have hc : (colsL R).getD j [] = colL R.P (R.s + 1) j := by
      rw [List.getD_eq_getElem _ _ hj']
      simp [colsL]
    have h2 := colTest_sound h1 j (by simpa using hj')
    rw [List.getD_eq_getElem _ _ (by simpa using hj'), List.getElem_map] at h2
    have h3 := nearZ_sound h2 τ.dens_pos (hDm τ) hdd (dec_sum hs (hP _ (List.getElem_mem hj')) τ)
    rw [← List.getD_eq_getElem _ [] hj', hc] at h3
    have e1 : ∑ i ∈ range (R.s + 1), entry ℝ R.P i j * τ.weight (R.s + 1) (R.tab ℝ).full i =
        ∑ i ∈ range (R.s + 1), (((colL R.P (R.s + 1) j).getD i 0 : ℚ) : ℝ) * τ.weight (R.s + 1) (R.tab ℝ).full i := by
      apply sum_congr rfl
      intro i hi
      rw [mem_range] at hi
      have e : (colL R.P (R.s + 1) j).getD i 0 = (R.P.getD i []).getD j 0 := by
        rw [List.getD_eq_getElem _ _ (by simpa [colL] using hi)]
        simp [colL]
      rw [e]
      rfl
    rw [e1]
    refine le_trans (le_of_eq ?_) h3
    congr 2
    rw [add_comm 1 j]
    split_ifs <;> simp

end Extensisq
