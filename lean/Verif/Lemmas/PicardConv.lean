import Verif.Lemmas.NearConv

/-!
# Implicit Runge-Kutta methods as limits of explicit ones

The stages of an implicit method with matrix `A` are compared with the iterates of the fixed-point iteration
`K^{m+1}_i = f(t + c_i h, u + h ∑_j a_ij K^m_j)`, `K^0_i = f(t, u)`. The iterates are the stages of an explicit method with
`n (N + 1)` stages, whose elementary weights agree with those of the implicit method for all trees with at most
`N + 1` vertices. So the theory of explicit methods (`NearConv`) applies to them.
-/

set_option linter.unusedSectionVars false

namespace Extensisq
open Finset Asymptotics Filter Topology

/-- The matrix of the iteration; stage `m n + i` is stage `i` of iterate `m`. -/
def pA (n : ℕ) (A : ℕ → ℕ → ℝ) (I J : ℕ) : ℝ := if J / n + 1 = I / n then A (I % n) (J % n) else 0
/-- Its nodes. -/
def pC (n : ℕ) (c : ℕ → ℝ) (I : ℕ) : ℝ := if I / n = 0 then 0 else c (I % n)
/-- Its weights: those of the method at the last iterate. -/
def pW (n N : ℕ) (b : ℕ → ℝ) (I : ℕ) : ℝ := if I / n = N then b (I % n) else 0

section
variable {V : Type*} [AddCommGroup V] [Module ℝ V]

theorem div_block {n m i : ℕ} (hi : i < n) : (m * n + i) / n = m := by
  rw [Nat.add_comm, Nat.add_mul_div_right _ _ (by omega), Nat.div_eq_of_lt hi, Nat.zero_add]

theorem mod_block {n m i : ℕ} (hi : i < n) : (m * n + i) % n = i := by
  rw [Nat.add_comm, Nat.add_mul_mod_self_right, Nat.mod_eq_of_lt hi]

/-- A sum in which only the block `m` counts. -/
theorem sum_block {n m T : ℕ} (hn : 0 < n) (hT : (m + 1) * n ≤ T) (g : ℕ → V) (h0 : ∀ J, J / n ≠ m → g J = 0) :
    ∑ J ∈ range T, g J = ∑ j ∈ range n, g (m * n + j) := by
  have hsub : Ico (m * n) (m * n + n) ⊆ range T := by
    intro J hJ
    rw [mem_Ico] at hJ
    rw [mem_range]
    have : (m + 1) * n = m * n + n := by ring
    omega
  rw [← sum_subset hsub]
  · rw [sum_Ico_eq_sum_range]
    simp
  · intro J _ hJ
    apply h0
    intro e
    apply hJ
    rw [mem_Ico]
    have h1 := Nat.div_add_mod J n
    have h2 := Nat.mod_lt J hn
    rw [e] at h1
    have : n * m = m * n := by ring
    omega

theorem sum_pA {n m i T : ℕ} (A : ℕ → ℕ → ℝ) (hi : i < n) (hT : (m + 1) * n ≤ T) (g : ℕ → V) :
    ∑ J ∈ range T, pA n A ((m + 1) * n + i) J • g J = ∑ j ∈ range n, A i j • g (m * n + j) := by
  have hn : 0 < n := by omega
  rw [sum_block hn hT]
  · apply sum_congr rfl
    intro j hj
    have hj := mem_range.1 hj
    rw [pA, div_block hi, mod_block hi, div_block hj, mod_block hj, if_pos rfl]
  · intro J hJ
    rw [pA, div_block hi, if_neg (by omega), zero_smul]

theorem sum_pA_zero {n i T : ℕ} (A : ℕ → ℕ → ℝ) (hi : i < n) (g : ℕ → V) :
    ∑ J ∈ range T, pA n A i J • g J = 0 := by
  apply sum_eq_zero
  intro J _
  rw [pA, Nat.div_eq_of_lt hi, if_neg (Nat.succ_ne_zero _), zero_smul]

theorem sum_pW {n N : ℕ} (hn : 0 < n) (b : ℕ → ℝ) (g : ℕ → V) :
    ∑ I ∈ range ((N + 1) * n), pW n N b I • g I = ∑ i ∈ range n, b i • g (N * n + i) := by
  rw [sum_block hn le_rfl]
  · apply sum_congr rfl
    intro j hj
    have hj := mem_range.1 hj
    rw [pW, div_block hj, mod_block hj, if_pos rfl]
  · intro J hJ
    rw [pW, if_neg hJ, zero_smul]

end

theorem lowA_pA {n : ℕ} (hn : 0 < n) (A : ℕ → ℕ → ℝ) : lowA (pA n A) = pA n A := by
  funext I J
  unfold lowA
  split_ifs with h
  · rfl
  · rw [pA, if_neg]
    intro e
    apply h
    have h1 : J / n < I / n := by omega
    by_contra h2
    exact absurd (Nat.div_le_div_right (c := n) (not_lt.mp h2)) (by omega)

/-- The nodes are the row sums. -/
theorem rowC_pA {n : ℕ} {A : ℕ → ℕ → ℝ} {m i : ℕ} (hi : i < n) :
    rowC (pA n A) (m * n + i) = if m = 0 then 0 else ∑ j ∈ range n, A i j := by
  unfold rowC
  cases m with
  | zero =>
    have := sum_pA_zero (V := ℝ) (T := 0 * n + i) A hi (fun _ => 1)
    simpa using this
  | succ m =>
    have := sum_pA (V := ℝ) (m := m) (T := (m + 1) * n + i) A hi (Nat.le_add_right _ _) (fun _ => 1)
    simpa using this

/-- Elementary weights of the iterates. -/
theorem weight_pA {n N : ℕ} {A : ℕ → ℕ → ℝ} (τ : OTree) : ∀ m i, i < n → m ≤ N → τ.size ≤ m + 1 →
    τ.weight ((N + 1) * n) (pA n A) (m * n + i) = τ.weight n A i := by
  induction τ with
  | node k c ih =>
    intro m i hi hm hs
    simp only [OTree.weight]
    apply prod_congr rfl
    intro l _
    have hc : (c l).size ≤ m := by
      have : (c l).size ≤ ∑ i, (c i).size := single_le_sum (f := fun i => (c i).size) (fun _ _ => Nat.zero_le _) (mem_univ l)
      simp only [OTree.size] at hs
      omega
    cases m with
    | zero => have := (c l).size_pos; omega
    | succ m =>
      have h1 := sum_pA (V := ℝ) (T := (N + 1) * n) A hi (m := m) (Nat.mul_le_mul_right n (by omega))
        (fun J => (c l).weight ((N + 1) * n) (pA n A) J)
      simp only [smul_eq_mul] at h1
      rw [h1]
      apply sum_congr rfl
      intro j hj
      rw [ih l m j (mem_range.1 hj) (by omega) hc]

variable {E : Type*} [NormedAddCommGroup E] [NormedSpace ℝ E]

/-- Stage `i` of iterate `m`. -/
noncomputable def picard (n : ℕ) (A : ℕ → ℕ → ℝ) (c : ℕ → ℝ) (f : ℝ → E → E) (t : ℝ) (u : E) (h : ℝ) (m i : ℕ) : E :=
  exStage (pA n A) (pC n c) f (m * n + i) (t, u, h)

theorem picard_zero {n : ℕ} (A : ℕ → ℕ → ℝ) (c : ℕ → ℝ) (f : ℝ → E → E) (t : ℝ) (u : E) (h : ℝ) {i : ℕ} (hi : i < n) :
    picard n A c f t u h 0 i = f t u := by
  unfold picard
  rw [exStage_eq, Nat.zero_mul, Nat.zero_add, sum_pA_zero A hi, pC, if_pos (Nat.div_eq_of_lt hi)]
  simp

theorem picard_succ {n : ℕ} (A : ℕ → ℕ → ℝ) (c : ℕ → ℝ) (f : ℝ → E → E) (t : ℝ) (u : E) (h : ℝ) (m : ℕ) {i : ℕ} (hi : i < n) :
    picard n A c f t u h (m + 1) i =
      f (t + c i * h) (u + h • ∑ j ∈ range n, A i j • picard n A c f t u h m j) := by
  unfold picard
  rw [exStage_eq, sum_pA (m := m) A hi (Nat.le_add_right _ _), pC, div_block hi, mod_block hi, if_neg (by omega)]

/-- Sum of the moduli of the coefficients. -/
noncomputable def absA (n : ℕ) (A : ℕ → ℕ → ℝ) : ℝ := ∑ i ∈ range n, ∑ j ∈ range n, |A i j|

theorem absA_nonneg (n : ℕ) (A : ℕ → ℕ → ℝ) : 0 ≤ absA n A := sum_nonneg fun _ _ => sum_nonneg fun _ _ => abs_nonneg _

theorem sum_absA {n : ℕ} (A : ℕ → ℕ → ℝ) (v : ℕ → E) :
    ∑ i ∈ range n, ‖∑ j ∈ range n, A i j • v j‖ ≤ absA n A * ∑ j ∈ range n, ‖v j‖ := by
  unfold absA
  rw [sum_mul]
  apply sum_le_sum
  intro i _
  refine (norm_sum_le _ _).trans ?_
  rw [sum_mul]
  apply sum_le_sum
  intro j hj
  rw [norm_smul, Real.norm_eq_abs]
  exact mul_le_mul_of_nonneg_left (single_le_sum (f := fun j => ‖v j‖) (fun _ _ => norm_nonneg _) hj) (abs_nonneg _)

section
variable {f : ℝ → E → E} {L : ℝ} {n : ℕ} {A : ℕ → ℕ → ℝ} {c : ℕ → ℝ} {t h : ℝ} {u : E} {k : ℕ → E} {δ B : ℝ}

/-- Bound of stages that solve their equations up to `δ`. -/
theorem implicit_stage_bound (hL : 0 ≤ L) (hlip : ∀ t y y', ‖f t y - f t y'‖ ≤ L * ‖y - y'‖)
    (hB : ∀ i, i < n → ‖f (t + c i * h) u‖ ≤ B)
    (hk : ∀ i, i < n → ‖f (t + c i * h) (u + h • ∑ j ∈ range n, A i j • k j) - k i‖ ≤ δ)
    (hh : L * (|h| * absA n A) ≤ 1 / 2) : ∑ i ∈ range n, ‖k i‖ ≤ 2 * (n * (B + δ)) := by
  have h1 : ∑ i ∈ range n, ‖k i‖ ≤ ∑ i ∈ range n, (B + δ + L * (|h| * ‖∑ j ∈ range n, A i j • k j‖)) := by
    apply sum_le_sum
    intro i hi
    have hi := mem_range.1 hi
    have e : k i = f (t + c i * h) u + (f (t + c i * h) (u + h • ∑ j ∈ range n, A i j • k j) - f (t + c i * h) u)
        - (f (t + c i * h) (u + h • ∑ j ∈ range n, A i j • k j) - k i) := by abel
    have h2 := hlip (t + c i * h) (u + h • ∑ j ∈ range n, A i j • k j) u
    rw [add_sub_cancel_left, norm_smul, Real.norm_eq_abs] at h2
    calc ‖k i‖ ≤ ‖f (t + c i * h) u‖ + ‖f (t + c i * h) (u + h • ∑ j ∈ range n, A i j • k j) - f (t + c i * h) u‖
        + ‖f (t + c i * h) (u + h • ∑ j ∈ range n, A i j • k j) - k i‖ := by
          conv_lhs => rw [e]
          exact (norm_sub_le _ _).trans (add_le_add_left (norm_add_le _ _) _)
      _ ≤ _ := by linarith [hB i hi, hk i hi]
  rw [sum_add_distrib, sum_const, card_range, nsmul_eq_mul, ← mul_sum, ← mul_sum] at h1
  have h3 := sum_absA (n := n) A k
  have h4 : L * (|h| * ∑ i ∈ range n, ‖∑ j ∈ range n, A i j • k j‖) ≤ L * (|h| * (absA n A * ∑ j ∈ range n, ‖k j‖)) :=
    mul_le_mul_of_nonneg_left (mul_le_mul_of_nonneg_left h3 (abs_nonneg _)) hL
  have h5 : 0 ≤ ∑ j ∈ range n, ‖k j‖ := sum_nonneg fun _ _ => norm_nonneg _
  have h6 : L * (|h| * (absA n A * ∑ j ∈ range n, ‖k j‖)) ≤ 1 / 2 * ∑ j ∈ range n, ‖k j‖ := by
    have := mul_le_mul_of_nonneg_right hh h5
    calc _ = L * (|h| * absA n A) * ∑ j ∈ range n, ‖k j‖ := by ring
      _ ≤ _ := this
  linarith

/-- Distance of the stages from the iterates. -/
theorem picard_dist (hL : 0 ≤ L) (hδ : 0 ≤ δ) (hlip : ∀ t y y', ‖f t y - f t y'‖ ≤ L * ‖y - y'‖)
    (hk : ∀ i, i < n → ‖f (t + c i * h) (u + h • ∑ j ∈ range n, A i j • k j) - k i‖ ≤ δ)
    (hh : L * (|h| * absA n A) ≤ 1 / 2) (m : ℕ) :
    ∑ i ∈ range n, ‖k i - picard n A c f t u h m i‖ ≤
      (L * (|h| * absA n A)) ^ m * (∑ i ∈ range n, ‖k i - picard n A c f t u h 0 i‖) + 2 * (n * δ) := by
  have hr0 : 0 ≤ L * (|h| * absA n A) := mul_nonneg hL (mul_nonneg (abs_nonneg _) (absA_nonneg _ _))
  have hnδ : 0 ≤ n * δ := mul_nonneg (Nat.cast_nonneg _) hδ
  induction m with
  | zero => rw [pow_zero, one_mul]; linarith
  | succ m ih =>
    have h1 : ∑ i ∈ range n, ‖k i - picard n A c f t u h (m + 1) i‖ ≤
        ∑ i ∈ range n, (δ + L * (|h| * ‖∑ j ∈ range n, A i j • (k j - picard n A c f t u h m j)‖)) := by
      apply sum_le_sum
      intro i hi
      have hi := mem_range.1 hi
      rw [picard_succ A c f t u h m hi]
      have e : k i - f (t + c i * h) (u + h • ∑ j ∈ range n, A i j • picard n A c f t u h m j) =
          (f (t + c i * h) (u + h • ∑ j ∈ range n, A i j • k j) -
            f (t + c i * h) (u + h • ∑ j ∈ range n, A i j • picard n A c f t u h m j)) -
          (f (t + c i * h) (u + h • ∑ j ∈ range n, A i j • k j) - k i) := by abel
      have h2 := hlip (t + c i * h) (u + h • ∑ j ∈ range n, A i j • k j)
        (u + h • ∑ j ∈ range n, A i j • picard n A c f t u h m j)
      rw [add_sub_add_left_eq_sub, ← smul_sub, norm_smul, Real.norm_eq_abs, ← sum_sub_distrib] at h2
      simp only [← smul_sub] at h2
      rw [e]
      refine (norm_sub_le _ _).trans ?_
      linarith [hk i hi]
    rw [sum_add_distrib, sum_const, card_range, nsmul_eq_mul, ← mul_sum, ← mul_sum] at h1
    have h3 := sum_absA (n := n) A (fun j => k j - picard n A c f t u h m j)
    have h4 : L * (|h| * ∑ i ∈ range n, ‖∑ j ∈ range n, A i j • (k j - picard n A c f t u h m j)‖) ≤
        L * (|h| * (absA n A * ∑ j ∈ range n, ‖k j - picard n A c f t u h m j‖)) :=
      mul_le_mul_of_nonneg_left (mul_le_mul_of_nonneg_left h3 (abs_nonneg _)) hL
    have h5 := mul_le_mul_of_nonneg_left ih hr0
    have h6 : L * (|h| * absA n A) * (2 * (n * δ)) ≤ 1 / 2 * (2 * (n * δ)) := mul_le_mul_of_nonneg_right hh (by linarith)
    calc _ ≤ _ := h1
      _ ≤ n * δ + L * (|h| * absA n A) * ∑ j ∈ range n, ‖k j - picard n A c f t u h m j‖ := by
        rw [mul_assoc L, mul_assoc |h|]; linarith
      _ ≤ n * δ + L * (|h| * absA n A) * ((L * (|h| * absA n A)) ^ m *
            (∑ i ∈ range n, ‖k i - picard n A c f t u h 0 i‖) + 2 * (n * δ)) := by linarith
      _ = (L * (|h| * absA n A)) ^ (m + 1) * (∑ i ∈ range n, ‖k i - picard n A c f t u h 0 i‖) +
            (n * δ + L * (|h| * absA n A) * (2 * (n * δ))) := by ring
      _ ≤ _ := by linarith

end

/-- Any point of a step of an implicit method whose stages solve their equations up to `δ'`, for a right-hand side that
satisfies a Lipschitz condition with constant `L'`; `δ` bounds the defects of the order conditions at the scaled times `θ` of a
compact set, `γ` those of the row sums. -/
theorem implicit_step_dense [CompleteSpace E] {f : ℝ → E → E} {y : ℝ → E} {t0 b : ℝ} {q : ℕ} {ρ L B M L' : ℝ}
    (hp : ProblemBounds f y t0 b q ρ L B M) (hy : SolvesOn f y t0 b) (hL' : 0 ≤ L')
    (hlip : ∀ t y y', ‖f t y - f t y'‖ ≤ L' * ‖y - y'‖)
    {n : ℕ} (hn : 0 < n) {A : ℕ → ℕ → ℝ} {c : ℕ → ℝ} {w : ℕ → ℝ → ℝ} {Θ : Set ℝ}
    (hΘ : IsCompact Θ) (hwc : ∀ i, ContDiff ℝ (q + 1 : ℕ) (w i)) {β γ δ : ℝ} (hδ : 0 ≤ δ) (hγ0 : 0 ≤ γ)
    (hw : ∀ θ ∈ Θ, ∀ τ : OTree, τ.size ≤ q →
      |∑ i ∈ range n, w i θ * τ.weight n A i - θ ^ τ.size / (τ.dens : ℝ)| ≤ δ)
    (hβ : ∀ θ ∈ Θ, ∑ i ∈ range n, |w i θ| ≤ β) (hγ : ∀ i, i < n → |c i - ∑ j ∈ range n, A i j| ≤ γ) :
    ∃ ε C : ℝ, 0 < ε ∧ 0 ≤ C ∧ ∀ t ∈ Set.uIcc t0 b, ∀ θ ∈ Θ, ∀ (u : E) (h δ' : ℝ) (k : ℕ → E), ‖u - y t‖ < ρ / 2 →
      |h| < ε →
      0 ≤ δ' → (∀ i, i < n → ‖f (t + c i * h) (u + h • ∑ j ∈ range n, A i j • k j) - k i‖ ≤ δ') →
      ‖u + h • ∑ i ∈ range n, w i θ • k i - y (t + θ * h)‖ ≤ (1 + 2 * L * β * |h|) * ‖u - y t‖ +
        (nearConst q * M * δ + 2 * L * β * γ + 4 * β * n * δ') * |h| + C * |h| ^ (q + 1) := by
  obtain ⟨ε, C, h1, h2, h3⟩ := near_step hp hy (n := (q + 1) * n) (A := pA n A) (c := pC n c)
    (w := fun I θ => pW n q (fun i => w i θ) I) (Θ := Θ) (β := β) (γ := γ) (δ := δ) hΘ hδ hγ0
    (fun I => by
      unfold pW
      split_ifs
      · exact hwc _
      · exact contDiff_const)
    (by
      intro θ hθ τ hτ
      rw [lowA_pA hn]
      refine le_of_eq_of_le ?_ (hw θ hθ τ hτ)
      congr 2
      have := sum_pW (V := ℝ) (N := q) hn (fun i => w i θ) (fun I => τ.weight ((q + 1) * n) (pA n A) I)
      simp only [smul_eq_mul] at this
      rw [this]
      apply sum_congr rfl
      intro i hi
      rw [weight_pA τ q i (mem_range.1 hi) le_rfl (by omega)])
    (by
      intro θ hθ
      refine le_of_eq_of_le ?_ (hβ θ hθ)
      have h0 : ∀ I, |pW n q (fun i => w i θ) I| = pW n q (fun i => |w i θ|) I := by
        intro I; unfold pW; split_ifs <;> simp
      have := sum_pW (V := ℝ) (N := q) hn (fun i => |w i θ|) (fun _ => 1)
      simp only [smul_eq_mul, mul_one] at this
      simp only [h0]
      exact this)
    (by
      intro I hI
      have hm := Nat.mod_lt I hn
      have e : I = I / n * n + I % n := by rw [Nat.mul_comm]; exact (Nat.div_add_mod I n).symm
      have h4 : rowC (pA n A) I = if I / n = 0 then 0 else ∑ j ∈ range n, A (I % n) j := by
        conv_lhs => rw [e]
        exact rowC_pA hm
      rw [h4, pC]
      split_ifs
      · simpa using hγ0
      · exact hγ _ hm)
  set a := absA n A with ha
  have ha0 : 0 ≤ a := absA_nonneg _ _
  set Γ := ∑ i ∈ range n, |c i| with hΓ
  have hΓ0 : 0 ≤ Γ := sum_nonneg fun _ _ => abs_nonneg _
  have hρ := hp.rho
  have hB0 := hp.bnd
  have hn0 : (0 : ℝ) ≤ n := Nat.cast_nonneg _
  refine ⟨min ε (min (1 / (2 * (L' * a + 1))) (ρ / (2 * (Γ + 1)))), C + |β| * ((L' * a) ^ q * (3 * (n * B))), by positivity,
    by positivity, fun t ht θ hθ u h δ' k hu hh hδ' hk => ?_⟩
  have hβ0 : 0 ≤ β := (sum_nonneg fun _ _ => abs_nonneg _).trans (hβ θ hθ)
  rw [abs_of_nonneg hβ0]
  simp only [lt_min_iff] at hh
  obtain ⟨hh1, hh2, hh3⟩ := hh
  have hh0 := abs_nonneg h
  rw [lt_div_iff₀ (by positivity)] at hh2 hh3
  have hr : L' * (|h| * a) ≤ 1 / 2 := by nlinarith
  have hr0 : 0 ≤ L' * (|h| * a) := by positivity
  have h4 := h3 t ht θ hθ u h hu hh1
  have e1 : stageComb ((q + 1) * n) (pA n A) (pC n c) (fun I θ => pW n q (fun i => w i θ) I) f θ (t, u, h) =
      ∑ i ∈ range n, w i θ • picard n A c f t u h q i := by
    unfold stageComb picard
    exact sum_pW hn (fun i => w i θ) _
  rw [e1] at h4
  have hbd : ∀ i, i < n → ‖f (t + c i * h) u‖ ≤ B := by
    intro i hi
    have hc : |c i| ≤ Γ := single_le_sum (f := fun i => |c i|) (fun _ _ => abs_nonneg _) (mem_range.2 hi)
    refine (hp.tube t ht (t + c i * h, u) (t + c i * h, u) ?_ ?_).2 <;>
    · rw [Prod.dist_eq]
      apply max_lt
      · rw [Real.dist_eq, add_sub_cancel_left, abs_mul]
        nlinarith
      · rw [dist_eq_norm]; linarith
  have hbd0 : ‖f t u‖ ≤ B := by
    refine (hp.tube t ht (t, u) (t, u) ?_ ?_).2 <;>
    · rw [Prod.dist_eq]
      apply max_lt
      · simpa using hρ
      · rw [dist_eq_norm]; linarith
  have hS := implicit_stage_bound hL' hlip hbd hk hr
  have hD0 : ∑ i ∈ range n, ‖k i - picard n A c f t u h 0 i‖ ≤ 3 * (n * B) + 2 * (n * δ') := by
    calc _ ≤ ∑ i ∈ range n, (‖k i‖ + B) := by
          apply sum_le_sum
          intro i hi
          rw [picard_zero A c f t u h (mem_range.1 hi)]
          exact (norm_sub_le _ _).trans (add_le_add_right hbd0 _)
      _ = ∑ i ∈ range n, ‖k i‖ + n * B := by rw [sum_add_distrib, sum_const, card_range, nsmul_eq_mul]
      _ ≤ _ := by linarith
  have hD := picard_dist hL' hδ' hlip hk hr q
  have hpow : (L' * (|h| * a)) ^ q ≤ 1 := pow_le_one₀ hr0 (by linarith)
  have hpow0 : 0 ≤ (L' * (|h| * a)) ^ q := pow_nonneg hr0 _
  have hDq : ∑ i ∈ range n, ‖k i - picard n A c f t u h q i‖ ≤ (L' * a) ^ q * |h| ^ q * (3 * (n * B)) + 4 * (n * δ') := by
    have h5 := mul_le_mul_of_nonneg_left hD0 hpow0
    have h6 : (L' * (|h| * a)) ^ q * (2 * (n * δ')) ≤ 1 * (2 * (n * δ')) := mul_le_mul_of_nonneg_right hpow (by positivity)
    have e : (L' * (|h| * a)) ^ q = (L' * a) ^ q * |h| ^ q := by rw [← mul_pow]; ring
    calc _ ≤ (L' * (|h| * a)) ^ q * (3 * (n * B) + 2 * (n * δ')) + 2 * (n * δ') := by linarith
      _ = (L' * (|h| * a)) ^ q * (3 * (n * B)) + (L' * (|h| * a)) ^ q * (2 * (n * δ')) + 2 * (n * δ') := by ring
      _ ≤ _ := by rw [e] at h6 ⊢; linarith
  have hcmp : ‖∑ i ∈ range n, w i θ • k i - ∑ i ∈ range n, w i θ • picard n A c f t u h q i‖ ≤
      β * ∑ i ∈ range n, ‖k i - picard n A c f t u h q i‖ := by
    rw [← sum_sub_distrib]
    refine (norm_sum_le _ _).trans ?_
    refine le_trans ?_ (mul_le_mul_of_nonneg_right (hβ θ hθ) (sum_nonneg fun _ _ => norm_nonneg _))
    rw [sum_mul]
    apply sum_le_sum
    intro i hi
    rw [← smul_sub, norm_smul, Real.norm_eq_abs]
    exact mul_le_mul_of_nonneg_left
      (single_le_sum (f := fun i => ‖k i - picard n A c f t u h q i‖) (fun _ _ => norm_nonneg _) hi) (abs_nonneg _)
  have e2 : u + h • ∑ i ∈ range n, w i θ • k i - y (t + θ * h) =
      (u + h • ∑ i ∈ range n, w i θ • picard n A c f t u h q i - y (t + θ * h)) +
      h • (∑ i ∈ range n, w i θ • k i - ∑ i ∈ range n, w i θ • picard n A c f t u h q i) := by
    rw [smul_sub]; abel
  rw [e2]
  refine (norm_add_le _ _).trans ?_
  rw [norm_smul, Real.norm_eq_abs]
  have h7 : |h| * ‖∑ i ∈ range n, w i θ • k i - ∑ i ∈ range n, w i θ • picard n A c f t u h q i‖ ≤
      |h| * (β * ((L' * a) ^ q * |h| ^ q * (3 * (n * B)) + 4 * (n * δ'))) :=
    mul_le_mul_of_nonneg_left (hcmp.trans (mul_le_mul_of_nonneg_left hDq hβ0)) hh0
  calc _ ≤ _ := add_le_add h4 h7
    _ = _ := by ring

/-- The end of the step. -/
theorem implicit_step [CompleteSpace E] {f : ℝ → E → E} {y : ℝ → E} {t0 b : ℝ} {q : ℕ} {ρ L B M L' : ℝ}
    (hp : ProblemBounds f y t0 b q ρ L B M) (hy : SolvesOn f y t0 b) (hL' : 0 ≤ L')
    (hlip : ∀ t y y', ‖f t y - f t y'‖ ≤ L' * ‖y - y'‖)
    {n : ℕ} (hn : 0 < n) {A : ℕ → ℕ → ℝ} {c w : ℕ → ℝ} {β γ δ : ℝ} (hδ : 0 ≤ δ) (hγ0 : 0 ≤ γ)
    (hw : ∀ τ : OTree, τ.size ≤ q → |∑ i ∈ range n, w i * τ.weight n A i - 1 / (τ.dens : ℝ)| ≤ δ)
    (hβ : ∑ i ∈ range n, |w i| ≤ β) (hγ : ∀ i, i < n → |c i - ∑ j ∈ range n, A i j| ≤ γ) :
    ∃ ε C : ℝ, 0 < ε ∧ 0 ≤ C ∧ ∀ t ∈ Set.uIcc t0 b, ∀ (u : E) (h δ' : ℝ) (k : ℕ → E), ‖u - y t‖ < ρ / 2 → |h| < ε →
      0 ≤ δ' → (∀ i, i < n → ‖f (t + c i * h) (u + h • ∑ j ∈ range n, A i j • k j) - k i‖ ≤ δ') →
      ‖u + h • ∑ i ∈ range n, w i • k i - y (t + h)‖ ≤ (1 + 2 * L * β * |h|) * ‖u - y t‖ +
        (nearConst q * M * δ + 2 * L * β * γ + 4 * β * n * δ') * |h| + C * |h| ^ (q + 1) := by
  obtain ⟨ε, C, h1, h2, h3⟩ := implicit_step_dense hp hy hL' hlip hn (A := A) (c := c) (w := fun i _ => w i) (Θ := {1})
    isCompact_singleton (fun _ => contDiff_const) hδ hγ0 (by rintro θ rfl τ hτ; rw [one_pow]; exact hw τ hτ)
    (fun _ _ => hβ) hγ
  refine ⟨ε, C, h1, h2, fun t ht u h δ' k hu hh hδ' hk => ?_⟩
  have := h3 t ht 1 rfl u h δ' k hu hh hδ' hk
  rwa [one_mul] at this

end Extensisq
