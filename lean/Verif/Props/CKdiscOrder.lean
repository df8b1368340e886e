import Verif.Props.CKdisc
import Verif.Props.DenseC1

/-!
# C74, C75: accuracy and dense output of `CKdisc`
-/

set_option linter.unusedSectionVars false
set_option maxRecDepth 100000

namespace Extensisq
open scoped ContDiff
open Finset Asymptotics Filter Topology

/-- The main method of `CKdisc` is `CK5`, except that its error weights have the opposite sign. -/
theorem ckdisc_eq_ck5 : { CKdiscTab with E := CKdiscTab.E.map (-·) } = CK5 := by
  unfold CKdiscTab CK5
  norm_num

section
variable {E : Type*} [NormedAddCommGroup E] [NormedSpace ℝ E]

/-- First `n` rows of the coefficient matrix. -/
def ckM (n : ℕ) : List (List ℚ) := (CKdiscTab.A.take n).map fun r => r.take n

/-- Weights `b` over `n` stages integrate all trees with at most `p` vertices to `θ^size/γ`. -/
def ckCheck (n : ℕ) (b : List ℚ) (c : ℕ → ℚ) (p : ℕ) : Bool :=
  treeCheck (ckM n) (fun m v g => decide (dotL b v * (g : ℚ) = c m)) p

theorem ckCheck_sound {n : ℕ} (hn : (ckM n).length = n) {b : List ℚ} {c : ℕ → ℚ} {p : ℕ}
    (h : ckCheck n b c p = true) (τ : OTree) (hτ : τ.size ≤ p) :
    ∑ i ∈ range n, ((b.getD i 0 : ℚ) : ℝ) * τ.weight n (fun i j => ((matOf (ckM n) i j : ℚ) : ℝ)) i =
      ((c τ.size : ℚ) : ℝ) / (τ.dens : ℝ) := by
  have h1 := treeCheck_sound h τ hτ
  rw [decide_eq_true_eq, dotL_weightL, hn] at h1
  have hd : (τ.dens : ℝ) ≠ 0 := by exact_mod_cast τ.dens_pos.ne'
  rw [eq_div_iff hd, ← h1]
  push_cast
  congr 1
  apply sum_congr rfl
  intro i _
  rw [OTree.weight_cast]

/-- Facts about the leading part of the coefficient matrix, for two and four stages. -/
theorem ckM_facts : ∀ n ∈ [2, 4], (ckM n).length = n ∧
    (∀ i, i < n → ∑ j ∈ range n, matOf (ckM n) i j = (CKdiscTab.tab ℚ).C i) ∧
    (∀ i, i < n → ∀ j, j < n → i ≤ j → matOf (ckM n) i j = 0) ∧
    (∀ i, i < n → ∀ j, j < i → matOf (ckM n) i j = (CKdiscTab.tab ℚ).A i j) := by decide +kernel

/-- Local error for combinations of the first two or four stages. -/
theorem ck_local_error {n : ℕ} (hn : n ∈ [2, 4]) {f : ℝ → E → E} {t0 : ℝ} {y0 : E}
    (hf : ContDiffAt ℝ ∞ (fun z : ℝ × E => f z.1 z.2) (t0, y0)) {k : ℝ → ℕ → E}
    (hk : ∀ h, IsStages (CKdiscTab.tab ℝ) f t0 y0 h n (k h)) :
    (∀ (b : List ℚ) (θ : ℚ) (q : ℕ), 1 ≤ q → ckCheck n b (fun m => θ ^ m) q = true →
      ∀ y : ℝ → E, y t0 = y0 → (∀ᶠ t in 𝓝 t0, HasDerivAt y (f t (y t)) t) →
      (fun h => y0 + h • comb (K := ℝ) b n (k h) - y (t0 + θ * h)) =O[𝓝 0] fun h : ℝ => h ^ (q + 1)) ∧
    (∀ (e : List ℚ) (q : ℕ), ckCheck n e (fun _ => 0) q = true →
      (fun h => h • comb (K := ℝ) e n (k h)) =O[𝓝 0] fun h : ℝ => h ^ (q + 1)) := by
  obtain ⟨hl, hrow, hz, hlow⟩ := ckM_facts n hn
  have hA : ∀ i, i < n → ∑ j ∈ range n, ((matOf (ckM n) i j : ℚ) : ℝ) = (CKdiscTab.tab ℝ).C i := by
    intro i hi
    have := congrArg (fun q : ℚ => (q : ℝ)) (hrow i hi)
    push_cast at this
    rw [this]
    simp [RKTable.tab]
  have hk' : ∀ i, i < n → ∀ᶠ h in 𝓝 (0 : ℝ), k h i = f (t0 + (CKdiscTab.tab ℝ).C i * h)
      (y0 + h • ∑ j ∈ range n, ((matOf (ckM n) i j : ℚ) : ℝ) • k h j) := by
    intro i hi
    refine Eventually.of_forall fun h => ?_
    rw [hk h i hi]
    congr 3
    rw [← sum_subset (range_subset_range.mpr hi.le)]
    · apply sum_congr rfl
      intro j hj
      rw [hlow i hi j (mem_range.mp hj)]
      simp [RKTable.tab]
    · intro j hj hj'
      rw [mem_range] at hj
      rw [mem_range, not_lt] at hj'
      rw [hz i hi j hj hj', Rat.cast_zero, zero_smul]
  have hb := explicit_bounded_rk (n := n) (A := fun i j => ((matOf (ckM n) i j : ℚ) : ℝ))
    (by intro i hi j hj hij; rw [hz i hi j hj hij, Rat.cast_zero]) hf.continuousAt hk'
  obtain ⟨h1, h2⟩ := local_error_rk hA hf hk' hb
  constructor
  · intro b θ q hq hc y hy0 hy
    exact h1 (fun i => ((b.getD i 0 : ℚ) : ℝ)) θ q hq (by
      intro τ hτ
      rw [ckCheck_sound hl hc τ hτ]; push_cast; rfl) y hy0 hy
  · intro e q hc
    refine h2 (fun i => ((e.getD i 0 : ℚ) : ℝ)) q ?_
    intro τ hτ
    rw [ckCheck_sound hl hc τ hτ]; simp

/-- **C74**. The third order fallback solution at `3/5` of the attempt has a local error `O(h^4)`, and the
error estimate it is accepted with is `O(h^3)`; the second order fallback solution at `1/5` has a local error
`O(h^3)`, with an estimate `O(h^2)`. The assessment estimates are `O(h^2)` and `O(h^3)`. For every right-hand
side that is smooth at the starting point. -/
theorem C74_fallback_accuracy {f : ℝ → E → E} {t0 : ℝ} {y0 : E}
    (hf : ContDiffAt ℝ ∞ (fun z : ℝ × E => f z.1 z.2) (t0, y0)) {k : ℝ → ℕ → E}
    (hk : ∀ h, IsStages (CKdiscTab.tab ℝ) f t0 y0 h 4 (k h)) (y : ℝ → E) (hy0 : y t0 = y0)
    (hy : ∀ᶠ t in 𝓝 t0, HasDerivAt y (f t (y t)) t) :
    ((fun h => y0 + h • comb (K := ℝ) [1/10, 0, 2/5, 1/10] 4 (k h) - y (t0 + 3 / 5 * h))
      =O[𝓝 0] fun h : ℝ => h ^ 4) ∧
    ((fun h => h • comb (K := ℝ) [1/10, 0, -1/5, 1/10] 4 (k h)) =O[𝓝 0] fun h : ℝ => h ^ 3) ∧
    ((fun h => y0 + h • comb (K := ℝ) [1/10, 1/10] 2 (k h) - y (t0 + 1 / 5 * h))
      =O[𝓝 0] fun h : ℝ => h ^ 3) ∧
    ((fun h => h • comb (K := ℝ) [-1/10, 1/10] 2 (k h)) =O[𝓝 0] fun h : ℝ => h ^ 2) ∧
    ((fun h => h • comb (K := ℝ) [-5/2, 5/2] 2 (k h)) =O[𝓝 0] fun h : ℝ => h ^ 2) ∧
    ((fun h => h • comb (K := ℝ) [50/27, -5/2, -10/27, 55/54] 4 (k h)) =O[𝓝 0] fun h : ℝ => h ^ 3) := by
  obtain ⟨a1, a2⟩ := ck_local_error (n := 4) (by simp) hf hk
  obtain ⟨b1, b2⟩ := ck_local_error (n := 2) (by simp) hf (fun h => (hk h).mono (by omega))
  refine ⟨?_, a2 _ 2 (by decide +kernel), ?_, b2 _ 1 (by decide +kernel), b2 _ 1 (by decide +kernel),
    a2 _ 2 (by decide +kernel)⟩
  · have := a1 [1/10, 0, 2/5, 1/10] (3 / 5) 3 (by omega) (by decide +kernel) y hy0 hy
    push_cast at this
    exact this
  · have := b1 [1/10, 1/10] (1 / 5) 2 (by omega) (by decide +kernel) y hy0 hy
    push_cast at this
    exact this

/-- The fifth order stages, completed by the derivative at the new point, are a step of the main method. -/
theorem ck_isRKStep {a : CkCfg ℝ E} {t : ℝ} {y : E} {h : ℝ} {k : ℕ → E}
    (hs : IsStages (CKdiscTab.tab ℝ) a.rhs t y h 6 k) {yN : E}
    (hy : yN = y + h • comb (K := ℝ) CKdiscTab.B 6 k) :
    IsRKStep (CK5.tab ℝ) a.rhs t y h (Function.update k 6 (a.rhs (t + h) yN)) yN := by
  have hlt : ∀ i, i < 6 → Function.update k 6 (a.rhs (t + h) yN) i = k i := fun i hi =>
    Function.update_of_ne (by omega) _ _
  refine ⟨?_, ?_, ?_⟩
  · intro i hi
    have hi : i < 6 := hi
    have e : ∑ j ∈ range i, (CK5.tab ℝ).A i j • Function.update k 6 (a.rhs (t + h) yN) j =
        ∑ j ∈ range i, (CK5.tab ℝ).A i j • k j :=
      sum_congr rfl fun j hj => by rw [hlt j (by have := mem_range.mp hj; omega)]
    rw [hlt i hi, e]
    exact hs i hi
  · rw [hy]
    congr 2
  · show Function.update k 6 _ 6 = _
    rw [Function.update_self]

/-- **C74**. The fifth order solution has a local error `O(h^6)` and the fourth order estimate is `O(h^5)`. -/
theorem C74_fifth_order_accuracy {a : CkCfg ℝ E} {t0 : ℝ} {y0 : E}
    (hf : ContDiffAt ℝ ∞ (fun z : ℝ × E => a.rhs z.1 z.2) (t0, y0)) {k : ℝ → ℕ → E}
    (hk : ∀ h, IsStages (CKdiscTab.tab ℝ) a.rhs t0 y0 h 6 (k h)) (y : ℝ → E) (hy0 : y t0 = y0)
    (hy : ∀ᶠ t in 𝓝 t0, HasDerivAt y (a.rhs t (y t)) t) :
    ((fun h => y0 + h • comb (K := ℝ) CKdiscTab.B 6 (k h) - y (t0 + h)) =O[𝓝 0] fun h : ℝ => h ^ 6) ∧
    ((fun h => h • comb (K := ℝ) CKdiscTab.E 6 (k h)) =O[𝓝 0] fun h : ℝ => h ^ 5) := by
  have hR : CK5 ∈ rationalRK := by simp [rationalRK]
  obtain ⟨h1, h2⟩ := C59_local_error_order CK5 hR hf (fun h => ck_isRKStep (hk h) rfl)
  refine ⟨h1 y hy0 hy, h2.neg_left.congr_left ?_⟩
  intro h
  unfold errorEstimate comb
  have h6 : (CK5.tab ℝ).E 6 = 0 := by simp [RKTable.tab, CK5]
  have hE : ∀ j, j < 6 → -(CK5.tab ℝ).E j = ((CKdiscTab.E.getD j 0 : ℚ) : ℝ) := by
    have : ∀ j, j < 6 → -(CK5.tab ℚ).E j = CKdiscTab.E.getD j 0 := by decide +kernel
    intro j hj
    rw [← this j hj]
    simp [RKTable.tab]
  rw [show (CK5.tab ℝ).s + 1 = 6 + 1 from rfl, sum_range_succ, h6, zero_smul, add_zero, ← smul_neg,
    ← sum_neg_distrib]
  congr 1
  refine sum_congr rfl fun j hj => ?_
  rw [Function.update_of_ne (by have := mem_range.mp hj; omega), ← neg_smul, hE j (mem_range.mp hj)]

/-! ## C75 -/

/-- **C75**. After every successful step of `CKdisc`, whatever the order it was accepted with, `dense_output()`
returns a function which runs from the old to the new solution and has the slopes `fun(t_old, y_old)` and
`fun(t, y)` at the ends; consecutive pieces join with a continuous derivative. -/
theorem C75_dense_output_C1 {a : CkCfg ℝ E} (hc : CfgOK a.c) (t0 : ℝ) (y0 : E) (h0 : ℝ) (e0 : ℕ)
    (Ks0 : ℕ → E) {v v' : CkSolver ℝ E} (hr : CkReach a (ckNew a t0 y0 h0 e0 Ks0) v) {fuel : ℕ}
    (hne : a.c.tb ≠ some v.σ.st.t) (h : ckStep a fuel v = some (.ok, v')) :
    ∃ u, ckDense v' = some u ∧ Joins u v.σ.st.t v.σ.st.y (a.rhs v.σ.st.t v.σ.st.y)
      v'.σ.st.t v'.σ.st.y (a.rhs v'.σ.st.t v'.σ.st.y) := by
  have hi := (ckInv_reach hc (ckInv_new a t0 y0 h0 e0 Ks0) hr).1
  have hadv := (C33_strict_advance hc t0 y0 h0 e0 Ks0 hr hne h).1
  have ht : v'.σ.st.t ≠ v.σ.st.t := by
    intro he
    rw [he, sub_self, mul_zero] at hadv
    exact lt_irrefl _ hadv
  rcases ckStep_cases hc hi h with ⟨_, ⟨_, h2, _⟩ | ⟨h2, _⟩⟩ | ⟨_, _, r, d, hok, _⟩
  · cases h2
  · exact absurd h2 hne
  · obtain ⟨htO, _⟩ := hok rfl
    rcases d.result with ⟨⟨m, hm⟩, _⟩ | ⟨_, hA, hs, k, ord, r1, r2, r3, r4, r5, r6, r7, r8, r9, r10, r11, r12, _⟩
    · cases hm
    · have hyO : v'.σ.st.yOld = some v.σ.st.y := r8
      have hdiff : v'.σ.st.t - v.σ.st.t = hs * a.c.dir := by
        rw [r6]; show v.σ.st.t + hs * a.c.dir - v.σ.st.t = _; ring
      have hk0 : k 0 = a.rhs v.σ.st.t v.σ.st.y := by rw [r12]; exact hi.deriv
      have hK0 : v'.σ.st.Ks 0 = k 0 := by rw [r11, Function.update_of_ne (by omega)]
      have hK6 : v'.σ.st.Ks 6 = a.rhs v'.σ.st.t v'.σ.st.y := by rw [r11, Function.update_self, r7]
      unfold ckDense
      rw [htO, hyO]
      dsimp only
      rw [if_neg ht]
      by_cases h4 : ord = 4
      · rw [if_pos (by rw [r10, h4])]
        refine ⟨_, rfl, ?_⟩
        have hfw : FwdOK (CKdiscTab.tab ℚ).main CKdiscTab.P 7 6 := by decide +kernel
        have hsol : v'.σ.st.y = v.σ.st.y + (v'.σ.st.t - v.σ.st.t) •
            ∑ i ∈ range 7, (((CKdiscTab.tab ℚ).main i : ℚ) : ℝ) • v'.σ.st.Ks i := by
          rw [hdiff]
          generalize hgd : hs * a.c.dir = g at r3
          cases r3 with
          | fifth hst hy he =>
            rw [hy]
            congr 2
            rw [← sum_main (R := CKdiscTab) v'.σ.st.Ks 7 (by decide)]
            unfold comb
            refine sum_congr rfl fun j hj => ?_
            have hj6 : j < 6 := mem_range.mp hj
            rw [r11, Function.update_of_ne (by omega)]
            rfl
          | third => cases h4
          | second => cases h4
        have := forward_joins hfw ht hsol
        rw [hK0, hK6, hk0] at this
        exact this
      · rw [if_neg (by rw [r10]; intro hcon; exact h4 (Option.some.inj hcon))]
        refine ⟨_, rfl, ?_⟩
        rw [hK0, hK6, hk0]
        exact ⟨(C24_cubic_ends ht _ _ _ _).1, (C24_cubic_ends ht _ _ _ _).2,
          (C24_cubic_derivatives ht _ _ _ _).1, (C24_cubic_derivatives ht _ _ _ _).2⟩

/-- **C75**. Accuracy of the dense output of a fifth order step: `O(h^5)` uniformly over the step. -/
theorem C75_dense_accuracy {a : CkCfg ℝ E} {t0 : ℝ} {y0 : E}
    (hf : ContDiffAt ℝ ∞ (fun z : ℝ × E => a.rhs z.1 z.2) (t0, y0)) {k : ℝ → ℕ → E}
    (hk : ∀ h, IsStages (CKdiscTab.tab ℝ) a.rhs t0 y0 h 6 (k h)) (θ : ℝ → ℝ) (M : ℝ) (hθ : ∀ h, |θ h| ≤ M)
    (y : ℝ → E) (hy0 : y t0 = y0) (hy : ∀ᶠ t in 𝓝 t0, HasDerivAt y (a.rhs t (y t)) t) :
    (fun h => horner t0 (t0 + h) y0 (denseQ ℝ CKdiscTab.P 7
      (Function.update (k h) 6 (a.rhs (t0 + h) (y0 + h • comb (K := ℝ) CKdiscTab.B 6 (k h)))))
      (t0 + θ h * h) - y (t0 + θ h * h)) =O[𝓝 0] fun h : ℝ => h ^ 5 := by
  have hR : (CK5, 4) ∈ interpOrders := by simp [interpOrders]
  exact C60_dense_accuracy hR hf (fun h => ck_isRKStep (hk h) rfl) θ M hθ y hy0 hy

end

/-! ## Examples and witnesses -/

/-- A right-hand side with a jump at `t = 1`. -/
def exCk (w : ℚ) (rhs : ℚ → ℚ → ℚ) (errNorm : ℚ → ℚ → ℚ → ENorm ℚ := fun _ _ e => .num (|e| * w)) :
    CkCfg ℚ ℚ where
  c := exCfg rhs errNorm (some 2) 1 none 0
  rhs := rhs
  errNorm := errNorm
  tiny4 := 1 / 10 ^ 160

def exCkJump : CkCfg ℚ ℚ := exCk 200 fun t _ => if t < 1 then 0 else 1

/-- Times, accepted orders and failed step counter along a run. -/
def ckTrace (a : CkCfg ℚ ℚ) (fuel : ℕ) : ℕ → CkSolver ℚ ℚ → List (ℚ × Option ℕ × ℕ)
  | 0, v => [(v.σ.st.t, v.σ.orderAcc, v.σ.st.nfs)]
  | n + 1, v => (v.σ.st.t, v.σ.orderAcc, v.σ.st.nfs) :: match ckStep a fuel v with
    | some (_, v') => ckTrace a fuel n v'
    | none => []

/-- C32, C33, C75: the hypotheses are met, and all three kinds of acceptance and retries occur when the solver
meets the jump at `1`. -/
example : CfgOK exCkJump.c ∧
    ckTrace exCkJump 20 3 (ckNew exCkJump 0 0 (3 / 2) 1 (fun _ => 0)) =
      [(0, none, 0), (3 / 5, some 2, 0), (24 / 25, some 2, 0), (57 / 50, some 4, 1)] ∧
    ckTrace exCkJump 20 2 (ckNew exCkJump 0 0 (7 / 10) 1 (fun _ => 0)) =
      [(0, none, 0), (7 / 10, some 4, 0), (24 / 25, some 1, 0)] := by
  refine ⟨exCfg_ok _ _ _ (.inl rfl) _ (fun _ h => by cases h) _, ?_, ?_⟩ <;> decide +kernel

/-- C74: the hypotheses are met: for every right-hand side and step the stages exist. -/
example {a : CkCfg ℝ ℝ} (s : St ℝ ℝ ℝ) (hf : s.f = a.rhs s.t s.y) (hd : a.c.dir = 1) (h : ℝ) :
    IsStages (CKdiscTab.tab ℝ) a.rhs s.t s.y h 6 (ckK5 a s h) := by
  have := ckK5_stages hf h
  rw [hd, mul_one] at this
  exact this

/-- **C33**, witness. A right-hand side that is `nan` from the start makes the first assessment `nan`: the
attempt is retried with a fifth of the step until the step is too small (not reported as overflow, unlike
the other Runge-Kutta methods). -/
theorem C33_nan_is_too_small :
    (ckStep (exCk 1 (fun _ _ => 0) (fun _ _ _ => .nan)) 30
      (ckNew (exCk 1 (fun _ _ => 0) (fun _ _ _ => .nan)) 0 0 1 1 (fun _ => 0))).map
      (fun p => (p.1, p.2.σ.st.t, p.2.σ.st.nfs)) = some (.fail .tooSmall, 0, 21) := by decide +kernel

end Extensisq
