import Verif.Model.Sens
import Mathlib.Tactic.Ring
import Mathlib.Tactic.Linarith
import Mathlib.Tactic.LinearCombination
import Mathlib.Algebra.BigOperators.Fin

/-!
# C49, C50, C66: packing, equations, sparsity and Jacobians of the sensitivity problems
-/

namespace Extensisq
open Matrix

variable {K : Type*} {Ny Np : ℕ}

/-- Position of `y_i` in the flat array: `i`. -/
def posY (i : Fin Ny) : Fin (Ny + Np * Ny) := ⟨i, by have := i.2; omega⟩

/-- Position of `s_{ij}` in the flat array: `(j + 1) Ny + i`. -/
def posS (i : Fin Ny) (j : Fin Np) : Fin (Ny + Np * Ny) :=
  ⟨(j + 1) * Ny + i, by
    have h1 := i.2
    have h2 : ((j : ℕ) + 1) * Ny ≤ Np * Ny := Nat.mul_le_mul_right _ j.2
    nlinarith⟩

theorem castAdd_eq_posY (i : Fin Ny) : Fin.castAdd (Np * Ny) i = posY i := rfl

theorem natAdd_eq_posS (i : Fin Ny) (j : Fin Np) :
    Fin.natAdd Ny (finProdFinEquiv (j, i)) = (posS i j : Fin (Ny + Np * Ny)) := by
  apply Fin.ext
  simp only [Fin.val_natAdd, finProdFinEquiv_apply_val, posS]
  ring

/-- Every position is one of the two kinds. -/
theorem pos_cases (k : Fin (Ny + Np * Ny)) : (∃ i, k = posY i) ∨ ∃ i j, k = posS i j := by
  refine Fin.addCases (fun i => Or.inl ⟨i, rfl⟩) (fun q => Or.inr ?_) k
  refine ⟨(finProdFinEquiv.symm q).2, (finProdFinEquiv.symm q).1, ?_⟩
  rw [← natAdd_eq_posS, Prod.mk.eta, Equiv.apply_symm_apply]

/-- **C49**. The packed initial value: `y0` first, then the columns of `dy0dp` one after the other. -/
theorem C49_packing (y0 : Fin Ny → K) (dy0dp : Matrix (Fin Ny) (Fin Np) K) [CommRing K] :
    (∀ i, totalY0 y0 dy0dp (posY i) = y0 i) ∧ ∀ i j, totalY0 y0 dy0dp (posS i j) = dy0dp i j := by
  constructor
  · intro i
    rw [← castAdd_eq_posY]; simp [totalY0]
  · intro i j
    rw [← natAdd_eq_posS]; simp [totalY0, flat]

/-- **C49**. Unpacking the final value: `yf` and `sensf` are the entries at the same positions. -/
theorem C49_unpacking [CommRing K] (Y : Fin (Ny + Np * Ny) → K) :
    (∀ i, fwdY Y i = Y (posY i)) ∧ ∀ i j, fwdSens Y i j = Y (posS i j) := by
  refine ⟨fun i => rfl, fun i j => ?_⟩
  rw [← natAdd_eq_posS]; rfl

/-- **C49**. Packing and unpacking are inverse to each other. -/
theorem C49_inverse [CommRing K] (y0 : Fin Ny → K) (s : Matrix (Fin Ny) (Fin Np) K) (Y : Fin (Ny + Np * Ny) → K) :
    fwdY (totalY0 y0 s) = y0 ∧ fwdSens (totalY0 y0 s) = s ∧ totalY0 (fwdY Y) (fwdSens Y) = Y := by
  obtain ⟨p1, p2⟩ := C49_packing y0 s
  refine ⟨?_, ?_, ?_⟩
  · ext i; rw [(C49_unpacking _).1, p1]
  · ext i j; rw [(C49_unpacking _).2, p2]
  · ext k
    obtain ⟨q1, q2⟩ := C49_packing (fwdY Y) (fwdSens Y)
    rcases pos_cases k with ⟨i, rfl⟩ | ⟨i, j, rfl⟩
    · rw [q1, (C49_unpacking _).1]
    · rw [q2, (C49_unpacking _).2]

/-- **C49**. The combined right-hand side: the `y` part is `fun`, the part of `s_{ij}` is
`sum_k J_{ik} s_{kj} + (dfdp)_{ij}`, all evaluated at the `y` part. -/
theorem C49_equations [CommRing K] (P : SensProb K Ny Np) (p : Fin Np → K) (t : K) (Y : Fin (Ny + Np * Ny) → K) :
    (∀ i, totalFun P p t Y (posY i) = P.fn t (fun i => Y (posY i)) p i) ∧
    ∀ i j, totalFun P p t Y (posS i j) =
      (∑ k, P.jac t (fun i => Y (posY i)) p i k * Y (posS k j)) + P.dfdp t (fun i => Y (posY i)) p i j := by
  constructor
  · intro i
    rw [← castAdd_eq_posY]; simp [totalFun]; rfl
  · intro i j
    rw [← natAdd_eq_posS]
    simp only [totalFun, Fin.append_right, flat, Equiv.symm_apply_apply, Matrix.add_apply, Matrix.mul_apply]
    congr 1
    refine Finset.sum_congr rfl fun k _ => ?_
    rw [← natAdd_eq_posS]; rfl

/-- **C49**. The `y` part of the combined problem does not depend on the sensitivities. -/
theorem C49_decoupled [CommRing K] (P : SensProb K Ny Np) (p : Fin Np → K) (t : K) (Y Y' : Fin (Ny + Np * Ny) → K)
    (h : ∀ i, Y (posY i) = Y' (posY i)) (i : Fin Ny) : totalFun P p t Y (posY i) = totalFun P p t Y' (posY i) := by
  rw [(C49_equations P p t Y).1, (C49_equations P p t Y').1, funext h]

/-- **C49**. Tolerances: `atol` for `y`, `atol/|p_j|` for the sensitivities to a non-zero `p_j`, `atol` otherwise;
positive if `atol` is. -/
theorem C49_tolerances [Field K] [LinearOrder K] [IsStrictOrderedRing K] (atol : Fin Ny → K) (p : Fin Np → K) :
    (∀ i, totalAtol atol p (posY i) = atol i) ∧
    (∀ i j, p j ≠ 0 → totalAtol atol p (posS i j) * |p j| = atol i) ∧
    (∀ i j, p j = 0 → totalAtol atol p (posS i j) = atol i) ∧
    ((∀ i, 0 < atol i) → ∀ k, 0 < totalAtol atol p k) := by
  have a1 : ∀ i, totalAtol atol p (posY i) = atol i := by
    intro i; rw [← castAdd_eq_posY]; simp [totalAtol]
  have a2 : ∀ i j, totalAtol atol p (posS i j) = atol i / (if |p j| = 0 then 1 else |p j|) := by
    intro i j
    rw [← natAdd_eq_posS]
    simp [totalAtol, flat]
  refine ⟨a1, ?_, ?_, ?_⟩
  · intro i j hp
    have hp' : |p j| ≠ 0 := abs_ne_zero.mpr hp
    rw [a2, if_neg hp', div_mul_cancel₀ _ hp']
  · intro i j hp
    rw [a2, hp]; simp
  · intro h k
    rcases pos_cases k with ⟨i, rfl⟩ | ⟨i, j, rfl⟩
    · rw [a1]; exact h i
    · rw [a2]
      apply div_pos (h i)
      split_ifs with h0
      · exact one_pos
      · exact lt_of_le_of_ne (abs_nonneg _) (Ne.symm h0)

/-! ## C50 -/

theorem sparsity_Y (k : Fin (Ny + Np * Ny)) (i : Fin Ny) : sparsity Ny Np k (posY i) = true := by
  simp [sparsity, posY]

theorem sparsity_S (i i' : Fin Ny) (j : Fin Np) : sparsity Ny Np (posS i j) (posS i' j) = true := by
  have h1 := i.2
  have h2 := i'.2
  unfold sparsity
  rw [Bool.or_eq_true]
  right
  rw [List.any_eq_true]
  refine ⟨j, List.mem_range.mpr j.2, ?_⟩
  simp only [Bool.and_eq_true, decide_eq_true_eq]
  simp only [posS]
  refine ⟨⟨⟨?_, ?_⟩, ?_⟩, ?_⟩ <;> nlinarith

/-- **C50**. The declared sparsity is sound: if two arguments agree in all entries flagged in row `k`, the `k`-th
entry of the combined right-hand side is the same. -/
theorem C50_sparsity_sound [CommRing K] (P : SensProb K Ny Np) (p : Fin Np → K) (t : K)
    (Y Y' : Fin (Ny + Np * Ny) → K) (k : Fin (Ny + Np * Ny)) (h : ∀ l, sparsity Ny Np k l = true → Y l = Y' l) :
    totalFun P p t Y k = totalFun P p t Y' k := by
  have hy : (fun i => Y (posY i)) = fun i => Y' (posY i) := funext fun i => h _ (sparsity_Y k i)
  rcases pos_cases k with ⟨i, rfl⟩ | ⟨i, j, rfl⟩
  · rw [(C49_equations P p t Y).1, (C49_equations P p t Y').1, hy]
  · rw [(C49_equations P p t Y).2, (C49_equations P p t Y').2, hy]
    congr 1
    exact Finset.sum_congr rfl fun k _ => by rw [h _ (sparsity_S i k j)]

/-- **C50**. The pattern is not trivial: the sensitivities to different parameters are not coupled. -/
theorem C50_sparsity_sharp (i i' : Fin Ny) (j j' : Fin Np) (h : j ≠ j') :
    sparsity Ny Np (posS i j) (posS i' j') = false := by
  have h1 := i.2
  have h2 := i'.2
  rw [Bool.eq_false_iff]
  intro hs
  unfold sparsity at hs
  rw [Bool.or_eq_true, List.any_eq_true] at hs
  rcases hs with hs | ⟨q, -, hs⟩
  · simp only [decide_eq_true_eq] at hs
    simp only [posS] at hs
    nlinarith
  · simp only [Bool.and_eq_true, decide_eq_true_eq] at hs
    simp only [posS] at hs
    obtain ⟨⟨⟨a1, a2⟩, a3⟩, a4⟩ := hs
    have e : ∀ (x : ℕ) (y : Fin Ny), (q + 1) * Ny ≤ (x + 1) * Ny + y → (x + 1) * Ny + y < (q + 2) * Ny → q = x := by
      intro x y b1 b2
      have hy := y.2
      by_contra hne
      rcases Nat.lt_or_gt_of_ne hne with hl | hl
      · have : (q + 2) * Ny ≤ (x + 1) * Ny := Nat.mul_le_mul_right _ (by omega)
        omega
      · have : (x + 2) * Ny ≤ (q + 1) * Ny := Nat.mul_le_mul_right _ (by omega)
        have : (x + 2) * Ny = (x + 1) * Ny + Ny := by ring
        omega
    exact h (Fin.ext ((e _ i a1 a2).symm.trans (e _ i' a3 a4)))

theorem totalJac_SS [CommRing K] (P : SensProb K Ny Np) (p : Fin Np → K) (t : K) (Y : Fin (Ny + Np * Ny) → K)
    (i i' : Fin Ny) (j j' : Fin Np) : totalJac P p t Y (posS i j) (posS i' j') =
      if j = j' then P.jac t (fun i => Y (posY i)) p i i' else 0 := by
  have hN : 0 < Ny := Nat.lt_of_le_of_lt (Nat.zero_le _) i.2
  have hd : ∀ (i : Fin Ny) (j : Fin Np), ((posS i j : Fin (Ny + Np * Ny)) : ℕ) / Ny = j + 1 := by
    intro i j
    simp only [posS]
    rw [Nat.mul_comm, Nat.mul_add_div hN, Nat.div_eq_of_lt i.2, add_zero]
  have hm : ∀ (i : Fin Ny) (j : Fin Np), ((posS i j : Fin (Ny + Np * Ny)) : ℕ) % Ny = i := by
    intro i j
    simp only [posS]
    rw [Nat.mul_comm, Nat.mul_add_mod, Nat.mod_eq_of_lt i.2]
  unfold totalJac
  rw [dif_pos hN, hd, hd]
  simp only [hm]
  by_cases h : j = j'
  · rw [if_pos h, if_pos (by rw [h])]; rfl
  · rw [if_neg h, if_neg (fun e => h (Fin.ext (by omega)))]

theorem totalJac_SY [CommRing K] (P : SensProb K Ny Np) (p : Fin Np → K) (t : K) (Y : Fin (Ny + Np * Ny) → K)
    (i i' : Fin Ny) (j : Fin Np) : totalJac P p t Y (posS i j) (posY i') = 0 := by
  have hN : 0 < Ny := Nat.lt_of_le_of_lt (Nat.zero_le _) i.2
  unfold totalJac
  rw [dif_pos hN, if_neg]
  simp only [posS, posY]
  rw [Nat.mul_comm, Nat.mul_add_div hN, Nat.div_eq_of_lt i.2, Nat.div_eq_of_lt i'.2]
  omega

theorem totalJac_YY [CommRing K] (P : SensProb K Ny Np) (p : Fin Np → K) (t : K) (Y : Fin (Ny + Np * Ny) → K)
    (i i' : Fin Ny) : totalJac P p t Y (posY i) (posY i') = P.jac t (fun i => Y (posY i)) p i i' := by
  have hN : 0 < Ny := Nat.lt_of_le_of_lt (Nat.zero_le _) i.2
  unfold totalJac
  rw [dif_pos hN]
  simp only [posY, Nat.div_eq_of_lt i.2, Nat.div_eq_of_lt i'.2, Nat.mod_eq_of_lt i.2, Nat.mod_eq_of_lt i'.2, if_true]
  rfl

/-- Sums over all positions. -/
theorem sum_pos {M : Type*} [AddCommMonoid M] (F : Fin (Ny + Np * Ny) → M) :
    ∑ l, F l = (∑ i, F (posY i)) + ∑ j : Fin Np, ∑ i : Fin Ny, F (posS i j) := by
  rw [Fin.sum_univ_add]
  congr 1
  rw [← Fintype.sum_prod_type', ← Equiv.sum_comp finProdFinEquiv]
  refine Finset.sum_congr rfl fun q _ => ?_
  rw [← natAdd_eq_posS]

/-- **C50**. The approximate Jacobian of `use_approx_jac` is exact with respect to the sensitivities (only the
derivatives of the sensitivity equations to `y` are left out), and its first block is the Jacobian of `fun`. -/
theorem C50_approx_jac [CommRing K] (P : SensProb K Ny Np) (p : Fin Np → K) (t : K) (Y Y' : Fin (Ny + Np * Ny) → K)
    (h : ∀ i, Y (posY i) = Y' (posY i)) :
    (∀ k, totalFun P p t Y' k - totalFun P p t Y k = ∑ l, totalJac P p t Y k l * (Y' l - Y l)) ∧
    (∀ i i', totalJac P p t Y (posY i) (posY i') = P.jac t (fun i => Y (posY i)) p i i') ∧
    ∀ i i' j, totalJac P p t Y (posS i j) (posY i') = 0 := by
  refine ⟨fun k => ?_, totalJac_YY P p t Y, totalJac_SY P p t Y⟩
  rw [sum_pos]
  have z : ∑ i, totalJac P p t Y k (posY i) * (Y' (posY i) - Y (posY i)) = 0 :=
    Finset.sum_eq_zero fun i _ => by rw [h i]; ring
  rw [z, zero_add]
  rcases pos_cases k with ⟨i, rfl⟩ | ⟨i, j, rfl⟩
  · rw [C49_decoupled P p t Y' Y (fun i => (h i).symm), sub_self]
    symm
    refine Finset.sum_eq_zero fun j _ => Finset.sum_eq_zero fun i' _ => ?_
    have hN : 0 < Ny := Nat.lt_of_le_of_lt (Nat.zero_le _) i.2
    have : totalJac P p t Y (posY i) (posS i' j) = 0 := by
      unfold totalJac
      rw [dif_pos hN, if_neg]
      simp only [posS, posY]
      rw [Nat.mul_comm, Nat.mul_add_div hN, Nat.div_eq_of_lt i.2, Nat.div_eq_of_lt i'.2]
      omega
    rw [this, zero_mul]
  · rw [(C49_equations P p t Y).2, (C49_equations P p t Y').2, Finset.sum_eq_single j]
    · have hh : (fun i => Y' (posY i)) = fun i => Y (posY i) := funext fun i => (h i).symm
      rw [hh, add_sub_add_right_eq_sub, ← Finset.sum_sub_distrib]
      refine Finset.sum_congr rfl fun i' _ => ?_
      rw [totalJac_SS, if_pos rfl]; ring
    · intro j' _ hj
      refine Finset.sum_eq_zero fun i' _ => ?_
      rw [totalJac_SS, if_neg (Ne.symm hj), zero_mul]
    · intro hj; exact absurd (Finset.mem_univ j) hj

/-! ## C66 -/

/-- **C66**. The backward problem of `sens_adjoint_end` is linear and its Jacobian, as passed to implicit
solvers, is exact. -/
theorem C66_jac_end [CommRing K] (P : SensProb K Ny Np) (p : Fin Np → K) (y : K → Fin Ny → K) (t : K)
    (Y Y' : Fin (Ny + Np) → K) :
    funBwEnd P p y t Y' - funBwEnd P p y t Y = jacBwEnd P p y t *ᵥ (Y' - Y) := by
  ext k
  simp only [Matrix.mulVec, dotProduct, Fin.sum_univ_add, Pi.sub_apply]
  refine Fin.addCases (fun i => ?_) (fun i => ?_) k
  · simp only [jacBwEnd, Fin.addCases_left, Fin.addCases_right, zero_mul, Finset.sum_const_zero, add_zero, funBwEnd,
      Fin.append_left, Pi.neg_apply, Matrix.mulVec, dotProduct, Matrix.transpose_apply, headOf]
    rw [← Finset.sum_neg_distrib, ← Finset.sum_neg_distrib, ← Finset.sum_sub_distrib]
    exact Finset.sum_congr rfl fun j _ => by ring
  · simp only [jacBwEnd, Fin.addCases_left, Fin.addCases_right, zero_mul, Finset.sum_const_zero, add_zero, funBwEnd,
      Fin.append_right, Matrix.mulVec, dotProduct, Matrix.transpose_apply, headOf]
    rw [← Finset.sum_sub_distrib]
    exact Finset.sum_congr rfl fun j _ => by ring

/-- **C66**. The same for `sens_adjoint_int`. -/
theorem C66_jac_int [CommRing K] (P : SensProb K Ny Np) (O : SensOut K Ny Np) (p : Fin Np → K) (y : K → Fin Ny → K)
    (t : K) (Y Y' : Fin (Ny + Np + 1) → K) :
    funBwInt P O p y t Y' - funBwInt P O p y t Y = jacBwInt P p y t *ᵥ (Y' - Y) := by
  ext k
  simp only [Matrix.mulVec, dotProduct, Fin.sum_univ_add (a := Ny + Np), Fin.sum_univ_add (a := Ny), Pi.sub_apply]
  refine Fin.addCases (fun k => Fin.addCases (fun i => ?a) (fun i => ?b) k) (fun i => ?c) k
  case a =>
    simp only [jacBwInt, Fin.addCases_left, Fin.addCases_right, zero_mul, Finset.sum_const_zero, add_zero, funBwInt,
      Fin.append_left, Pi.neg_apply, Pi.add_apply, Matrix.mulVec, dotProduct, Matrix.transpose_apply, headOf]
    rw [neg_add, neg_add, ← Finset.sum_neg_distrib, ← Finset.sum_neg_distrib, add_sub_add_right_eq_sub,
      ← Finset.sum_sub_distrib]
    exact Finset.sum_congr rfl fun j _ => by ring
  case b =>
    simp only [jacBwInt, Fin.addCases_left, Fin.addCases_right, zero_mul, Finset.sum_const_zero, add_zero, funBwInt,
      Fin.append_left, Fin.append_right, Pi.add_apply, Matrix.mulVec, dotProduct, Matrix.transpose_apply, headOf]
    rw [add_sub_add_right_eq_sub, ← Finset.sum_sub_distrib]
    exact Finset.sum_congr rfl fun j _ => by ring
  case c =>
    simp only [jacBwInt, Fin.addCases_left, Fin.addCases_right, zero_mul, Finset.sum_const_zero, add_zero, funBwInt,
      Fin.append_right, sub_self]

end Extensisq
