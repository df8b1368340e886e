import Verif.Lemmas.BSeriesVar
import Verif.Lemmas.TreeCheck
import Verif.Props.LocalError
import Verif.Props.Dense
import Verif.Props.DriverMore

/-!
# C27, C60, C16 (dense part): the interpolants of the shipped methods
-/

set_option linter.unusedSectionVars false

namespace Extensisq
open scoped ContDiff
open Finset Asymptotics Filter Topology

/-! ## Stage equations including extra stages -/

/-- Butcher matrix (as lists) of a table with extra stages. -/
def extM (R : RKTable) (l : List (List ℚ × ℚ)) : List (List ℚ) := fullL R ++ l.map (·.1)

/-- The list matrix describes the stages of table `R` followed by the extra stages `l`. -/
structure ExtOK (R : RKTable) (l : List (List ℚ × ℚ)) : Prop where
  len : (extM R l).length = R.s + 1 + l.length
  stage : ∀ i, i < R.s + 1 → ∀ j, j < R.s + 1 + l.length → matOf (extM R l) i j =
    if j < R.s + 1 then (R.tab ℚ).full i j else 0
  extra : ∀ m, m < l.length → ∀ j, j < R.s + 1 + l.length → matOf (extM R l) (R.s + 1 + m) j =
    if j < R.s + 1 + m then (l.getD m ([], 0)).1.getD j 0 else 0
  node : ∀ m, m < l.length → ∑ j ∈ range (R.s + 1 + l.length), matOf (extM R l) (R.s + 1 + m) j =
    (l.getD m ([], 0)).2

instance (R : RKTable) (l : List (List ℚ × ℚ)) : Decidable (ExtOK R l) :=
  decidable_of_iff (_ ∧ _ ∧ _ ∧ _)
    ⟨fun h => ⟨h.1, h.2.1, h.2.2.1, h.2.2.2⟩, fun h => ⟨h.1, h.2, h.3, h.4⟩⟩

section
variable {E : Type*} [NormedAddCommGroup E] [NormedSpace ℝ E]

/-- Matrix of the extended scheme over the reals. -/
def extA (R : RKTable) (l : List (List ℚ × ℚ)) (i j : ℕ) : ℝ := ((matOf (extM R l) i j : ℚ) : ℝ)

theorem ext_stage {R : RKTable} {l : List (List ℚ × ℚ)} (hx : ExtOK R l)
    (hrows : (∀ i, i < (R.tab ℝ).s → ∑ j ∈ range i, (R.tab ℝ).A i j = (R.tab ℝ).C i) ∧
      ∑ i ∈ range (R.tab ℝ).s, (R.tab ℝ).B i = 1)
    {f : ℝ → E → E} {t0 h : ℝ} {y0 yNew : E} {k : ℕ → E}
    (hk : IsRKStep (R.tab ℝ) f t0 y0 h k yNew) (i : ℕ) (hi : i < R.s + 1 + l.length) :
    let ke := extraStages f t0 y0 h (R.s + 1) l k
    ke i = f (t0 + (∑ j ∈ range (R.s + 1 + l.length), extA R l i j) * h)
      (y0 + h • ∑ j ∈ range (R.s + 1 + l.length), extA R l i j • ke j) := by
  intro ke
  by_cases his : i < R.s + 1
  · have hsub : range (R.s + 1) ⊆ range (R.s + 1 + l.length) := range_subset_range.mpr (by omega)
    have e1 : ∀ (g : ℕ → E), ∑ j ∈ range (R.s + 1 + l.length), extA R l i j • g j =
        ∑ j ∈ range (R.s + 1), (R.tab ℝ).full i j • g j := by
      intro g
      rw [← sum_subset hsub]
      · apply sum_congr rfl
        intro j hj
        have hj := mem_range.mp hj
        rw [extA, hx.stage i his j (by omega), if_pos hj, tab_full_cast ℝ]
      · intro j hj hj'
        rw [extA, hx.stage i his j (mem_range.mp hj), if_neg (by simpa using hj'), Rat.cast_zero, zero_smul]
    have e2 : ∑ j ∈ range (R.s + 1 + l.length), extA R l i j = if i < R.s then (R.tab ℝ).C i else 1 := by
      have e3 : ∑ j ∈ range (R.s + 1 + l.length), extA R l i j =
          ∑ j ∈ range (R.s + 1), (R.tab ℝ).full i j := by
        rw [← sum_subset hsub]
        · apply sum_congr rfl
          intro j hj
          have hj := mem_range.mp hj
          rw [extA, hx.stage i his j (by omega), if_pos hj, tab_full_cast ℝ]
        · intro j hj hj'
          rw [extA, hx.stage i his j (mem_range.mp hj), if_neg (by simpa using hj'), Rat.cast_zero]
      rw [e3]
      exact full_rows hrows.1 hrows.2 i his
    rw [e1, e2]
    have e4 : ∀ j, j < R.s + 1 → ke j = k j := fun j hj => extraStages_lt _ _ _ _ _ _ _ _ hj
    rw [e4 i his, sum_congr rfl fun j hj => by rw [e4 j (mem_range.mp hj)]]
    exact full_stage hk i his
  · obtain ⟨m, rfl⟩ : ∃ m, i = R.s + 1 + m := ⟨i - (R.s + 1), by omega⟩
    have hm : m < l.length := by omega
    have h1 := extraStages_eq f t0 y0 h l (R.s + 1) k m hm
    dsimp only at h1
    have hg : l.getD m ([], 0) = l[m] := List.getD_eq_getElem _ _ hm
    have hsub : range (R.s + 1 + m) ⊆ range (R.s + 1 + l.length) := range_subset_range.mpr (by omega)
    have e1 : ∑ j ∈ range (R.s + 1 + l.length), extA R l (R.s + 1 + m) j • ke j =
        ∑ j ∈ range (R.s + 1 + m), ((l[m].1.getD j 0 : ℚ) : ℝ) • ke j := by
      rw [← sum_subset hsub]
      · apply sum_congr rfl
        intro j hj
        have hj := mem_range.mp hj
        rw [extA, hx.extra m hm j (by omega), if_pos hj, hg]
      · intro j hj hj'
        rw [extA, hx.extra m hm j (mem_range.mp hj), if_neg (by simpa using hj'), Rat.cast_zero, zero_smul]
    have e2 : ∑ j ∈ range (R.s + 1 + l.length), extA R l (R.s + 1 + m) j = ((l[m].2 : ℚ) : ℝ) := by
      have := congrArg (fun q : ℚ => (q : ℝ)) (hx.node m hm)
      push_cast at this
      rw [hg] at this
      exact this
    rw [e1, e2]
    exact h1

theorem pWeight_bounded (P : List (List ℚ)) (i : ℕ) {θ : ℝ → ℝ} (hθ : θ =O[𝓝 0] fun _ : ℝ => (1 : ℝ)) :
    (fun h => pWeight ℝ P i (θ h)) =O[𝓝 0] fun _ : ℝ => (1 : ℝ) := by
  unfold pWeight
  apply IsBigO.fun_sum
  intro j _
  have := (hθ.pow (j + 1)).const_mul_left (entry ℝ P i j)
  refine this.congr_right ?_
  intro h; simp

/-- Accuracy of an interpolant on an extended scheme. `w0` are additional fixed weights (used for
interpolants that look back from the end of the step). -/
theorem interp_error {R : RKTable} {l : List (List ℚ × ℚ)} (hx : ExtOK R l)
    (hrows : (∀ i, i < (R.tab ℝ).s → ∑ j ∈ range i, (R.tab ℝ).A i j = (R.tab ℝ).C i) ∧
      ∑ i ∈ range (R.tab ℝ).s, (R.tab ℝ).B i = 1)
    {f : ℝ → E → E} {t0 : ℝ} {y0 : E}
    (hf : ContDiffAt ℝ ∞ (fun z : ℝ × E => f z.1 z.2) (t0, y0)) {k : ℝ → ℕ → E} {yNew : ℝ → E}
    (hk : ∀ h, IsRKStep (R.tab ℝ) f t0 y0 h (k h) (yNew h))
    (b : ℝ → ℕ → ℝ) (θ : ℝ → ℝ) (q : ℕ)
    (hb : ∀ i, i < R.s + 1 + l.length → (fun h => b h i) =O[𝓝 0] fun _ : ℝ => (1 : ℝ))
    (hθ : θ =O[𝓝 0] fun _ : ℝ => (1 : ℝ))
    (hq : ∀ h, ∀ τ : OTree, τ.size ≤ q →
      ∑ i ∈ range (R.s + 1 + l.length), b h i * τ.weight (R.s + 1 + l.length) (extA R l) i =
        (θ h) ^ τ.size / (τ.dens : ℝ))
    (y : ℝ → E) (hy0 : y t0 = y0) (hy : ∀ᶠ t in 𝓝 t0, HasDerivAt y (f t (y t)) t) :
    (fun h => y0 + h • ∑ i ∈ range (R.s + 1 + l.length),
        b h i • extraStages f t0 y0 h (R.s + 1) l (k h) i - y (t0 + θ h * h)) =O[𝓝 0]
      fun h : ℝ => h ^ (q + 1) := by
  have hk' : ∀ i, i < R.s + 1 + l.length → ∀ᶠ h in 𝓝 (0 : ℝ),
      extraStages f t0 y0 h (R.s + 1) l (k h) i =
      f (t0 + (∑ j ∈ range (R.s + 1 + l.length), extA R l i j) * h)
        (y0 + h • ∑ j ∈ range (R.s + 1 + l.length), extA R l i j •
          extraStages f t0 y0 h (R.s + 1) l (k h) j) :=
    fun i hi => Eventually.of_forall fun h => ext_stage hx hrows (hk h) i hi
  have hA0 : ∀ i, i < R.s + 1 + l.length → ∀ j, j < R.s + 1 + l.length → i ≤ j → extA R l i j = 0 := by
    intro i hi j hj hij
    by_cases his : i < R.s + 1
    · rw [extA, hx.stage i his j hj]
      split_ifs
      · unfold Tableau.full; rw [if_neg (by omega), Rat.cast_zero]
      · exact Rat.cast_zero
    · obtain ⟨m, rfl⟩ : ∃ m, i = R.s + 1 + m := ⟨i - (R.s + 1), by omega⟩
      rw [extA, hx.extra m (by omega) j hj, if_neg (by omega), Rat.cast_zero]
  exact local_error_rk_var (fun i _ => rfl) hf hk' (explicit_bounded_rk hA0 hf.continuousAt hk')
    b θ q hb hθ hq y hy0 hy

/-! ## C60: accuracy between the grid points -/

/-- Interpolation order conditions, forward form. -/
theorem forward_cond {R : RKTable} {l : List (List ℚ × ℚ)} (hx : ExtOK R l) {P : List (List ℚ)} {q : ℕ}
    (hc : interpCheck (extM R l) P (fun m j => if j + 1 = m then 1 else 0) q = true) (hcol : q ≤ cols P)
    (x : ℝ) (τ : OTree) (hτ : τ.size ≤ q) :
    ∑ i ∈ range (R.s + 1 + l.length), pWeight ℝ P i x *
      τ.weight (R.s + 1 + l.length) (extA R l) i = x ^ τ.size / (τ.dens : ℝ) := by
  have h1 := interpCheck_sound ℝ hc τ hτ x
  rw [hx.len] at h1
  have hd : (τ.dens : ℝ) ≠ 0 := by exact_mod_cast τ.dens_pos.ne'
  rw [eq_div_iff hd]
  refine h1.trans ?_
  have hs := τ.size_pos
  rw [sum_eq_single (τ.size - 1)]
  · rw [if_pos (by omega), Rat.cast_one, one_mul, show τ.size - 1 + 1 = τ.size by omega]
  · intro j _ hj
    rw [if_neg (by omega), Rat.cast_zero, zero_mul]
  · intro hj
    exact absurd (mem_range.mpr (by omega)) hj

/-- Interpolation order conditions of a formula that looks back from the end of the step. -/
theorem backward_cond {R : RKTable} {l : List (List ℚ × ℚ)} (hx : ExtOK R l) {P : List (List ℚ)} {q : ℕ}
    (hc0 : orderCheck (extM R l) R.B 1 q = true)
    (hc : interpCheck (extM R l) P (fun m j => (m.choose (j + 1) : ℚ)) q = true) (hcol : q ≤ cols P)
    (x : ℝ) (τ : OTree) (hτ : τ.size ≤ q) :
    ∑ i ∈ range (R.s + 1 + l.length), (((R.B.getD i 0 : ℚ) : ℝ) + pWeight ℝ P i x) *
      τ.weight (R.s + 1 + l.length) (extA R l) i = (1 + x) ^ τ.size / (τ.dens : ℝ) := by
  have h1 := interpCheck_sound ℝ hc τ hτ x
  have h0 := orderCheck_sound hc0 τ hτ
  rw [hx.len] at h1 h0
  have h0' := congrArg (fun q : ℚ => (q : ℝ)) h0
  push_cast at h0'
  have hw : ∀ i, ((τ.weight (R.s + 1 + l.length) (matOf (extM R l)) i : ℚ) : ℝ) =
      τ.weight (R.s + 1 + l.length) (extA R l) i := fun i => (OTree.weight_cast _ _ _ i).symm
  simp only [hw] at h0'
  have hd : (τ.dens : ℝ) ≠ 0 := by exact_mod_cast τ.dens_pos.ne'
  rw [eq_div_iff hd]
  simp only [add_mul, sum_add_distrib]
  rw [h0']
  have h1' : (∑ i ∈ range (R.s + 1 + l.length), pWeight ℝ P i x *
      τ.weight (R.s + 1 + l.length) (extA R l) i) * (τ.dens : ℝ) = _ := h1
  rw [h1', add_comm 1 x, add_pow]
  simp only [one_pow, mul_one]
  rw [sum_range_succ', pow_zero, Nat.choose_zero_right, Nat.cast_one, one_mul, add_comm]
  congr 1
  have hsub : range τ.size ⊆ range (cols P) := range_subset_range.mpr (by omega)
  rw [← sum_subset hsub]
  · apply sum_congr rfl
    intro j _
    push_cast
    ring
  · intro j _ hj
    rw [mem_range, not_lt] at hj
    rw [Nat.choose_eq_zero_of_lt (by omega)]
    simp

/-- Order of the standard interpolant (table `P`) of the rational methods. -/
def interpOrders : List (RKTable × ℕ) := [(Me4, 3), (CK5, 4), (BS5, 4), (CFMR7osc, 5), (Pr7, 6)]

set_option maxHeartbeats 0 in
theorem interpOrders_check : ∀ p ∈ interpOrders, p.1 ∈ rationalRK ∧ ExtOK p.1 [] ∧ p.2 ≤ cols p.1.P ∧
    1 ≤ p.2 ∧ interpCheck (extM p.1 []) p.1.P (fun m j => if j + 1 = m then 1 else 0) p.2 = true := by
  have h1 : ∀ p ∈ interpOrders, ExtOK p.1 [] ∧ p.2 ≤ cols p.1.P ∧
    1 ≤ p.2 ∧ interpCheck (extM p.1 []) p.1.P (fun m j => if j + 1 = m then 1 else 0) p.2 = true := by
    decide +kernel
  intro p hp
  refine ⟨?_, h1 p hp⟩
  simp only [interpOrders, List.mem_cons, List.not_mem_nil, or_false] at hp
  rcases hp with rfl | rfl | rfl | rfl | rfl <;> simp [rationalRK]

/-- The Horner output on a step `h` at the point `t0 + θ h`. -/
theorem horner_scaled (t0 h θ : ℝ) (y0 : E) (P : List (List ℚ)) (n : ℕ) (k : ℕ → E) :
    horner t0 (t0 + h) y0 (denseQ ℝ P n k) (t0 + θ * h) =
      y0 + h • ∑ i ∈ range n, pWeight ℝ P i θ • k i := by
  rw [horner_denseQ, show t0 + h - t0 = h by ring, show t0 + θ * h - t0 = θ * h by ring]
  by_cases hh : h = 0
  · rw [hh, zero_smul, zero_smul]
  · rw [mul_div_assoc, div_self hh, mul_one]

/-- **C60**. Accuracy of the dense output: on a step of size `h`, at any point `t0 + θ(h) h` of the step
(`θ` an arbitrary bounded function, so the bound is uniform over the step), the dense output of the
rational methods differs from the exact solution by `O(h^(q+1))`, with `q = 3` (Me4), `4` (CK5, BS5 with
`interpolant='free'`), `5` (CFMR7osc), `6` (Pr7). -/
theorem C60_dense_accuracy {R : RKTable} {q : ℕ} (hR : (R, q) ∈ interpOrders)
    {f : ℝ → E → E} {t0 : ℝ} {y0 : E}
    (hf : ContDiffAt ℝ ∞ (fun z : ℝ × E => f z.1 z.2) (t0, y0)) {k : ℝ → ℕ → E} {yNew : ℝ → E}
    (hk : ∀ h, IsRKStep (R.tab ℝ) f t0 y0 h (k h) (yNew h)) (θ : ℝ → ℝ) (M : ℝ) (hθ : ∀ h, |θ h| ≤ M)
    (y : ℝ → E) (hy0 : y t0 = y0) (hy : ∀ᶠ t in 𝓝 t0, HasDerivAt y (f t (y t)) t) :
    (fun h => horner t0 (t0 + h) y0 (denseQ ℝ R.P (R.s + 1) (k h)) (t0 + θ h * h) - y (t0 + θ h * h))
      =O[𝓝 0] fun h : ℝ => h ^ (q + 1) := by
  obtain ⟨hmem, hx, hcol, _, hc⟩ := interpOrders_check _ hR
  obtain ⟨r1, r2, _, _⟩ := rationalRK_rows R hmem
  have hθO : θ =O[𝓝 0] fun _ : ℝ => (1 : ℝ) := by
    apply IsBigO.of_bound M
    apply Eventually.of_forall
    intro h; simpa using hθ h
  have := interp_error hx ⟨r1, r2⟩ hf hk (fun h i => pWeight ℝ R.P i (θ h)) θ q
    (fun i _ => pWeight_bounded R.P i hθO) hθO (fun h τ hτ => forward_cond hx hc hcol (θ h) τ hτ) y hy0 hy
  refine this.congr_left ?_
  intro h
  rw [horner_scaled]
  rfl

set_option maxHeartbeats 0 in
theorem bs5_low_check : ExtOK BS5 ((BS5_A_extra.zip BS5_C_extra).take 1) ∧
    interpCheck (extM BS5 ((BS5_A_extra.zip BS5_C_extra).take 1)) BS5_Plow
      (fun m j => if j + 1 = m then 1 else 0) 5 = true ∧ 5 ≤ cols BS5_Plow := by decide +kernel

set_option maxHeartbeats 0 in
theorem bs5_best_check : ExtOK BS5 (BS5_A_extra.zip BS5_C_extra) ∧
    orderCheck (extM BS5 (BS5_A_extra.zip BS5_C_extra)) BS5.B 1 5 = true ∧
    interpCheck (extM BS5 (BS5_A_extra.zip BS5_C_extra)) BS5_Pbest
      (fun m j => (m.choose (j + 1) : ℚ)) 5 = true ∧ 5 ≤ cols BS5_Pbest := by decide +kernel

end

section
variable (K : Type*) [Field K] [CharZero K] {V : Type*} [AddCommGroup V] [Module K V]

/-- The grouped summation of the accurate interpolant is the matrix product `K.T @ Pbest`. -/
theorem bs5BestQ_eq (Ks : ℕ → V) : bs5BestQ K Ks = denseQ K BS5_Pbest 11 Ks := by
  have hz : ∀ j, j < 6 → entry K BS5_Pbest 1 j = 0 := by
    have : ∀ j, j < 6 → (BS5_Pbest.getD 1 []).getD j 0 = 0 := by decide +kernel
    intro j hj
    rw [entry, this j hj, Rat.cast_zero]
  have h0 : ∀ i, i < 11 → entry K BS5_Pbest i 0 = if i = 7 then 1 else 0 := by
    have : ∀ i, i < 11 → (BS5_Pbest.getD i []).getD 0 0 = if i = 7 then 1 else 0 := by decide +kernel
    intro i hi
    rw [entry, this i hi]
    split_ifs <;> simp
  have hc : cols BS5_Pbest = 6 := rfl
  unfold denseQ
  rw [hc]
  simp only [List.range_succ, List.range_zero, List.nil_append, List.cons_append, List.map_cons, List.map_nil]
  unfold bs5BestQ
  dsimp only
  have e0 : ∑ i ∈ range 11, entry K BS5_Pbest i 0 • Ks i = Ks 7 := by
    rw [sum_congr rfl fun i hi => by rw [h0 i (mem_range.mp hi)]]
    simp [ite_smul, sum_ite_eq']
  rw [e0]
  simp only [sum_range_succ, sum_range_zero, hz 1 (by omega), hz 2 (by omega), hz 3 (by omega),
    hz 4 (by omega), hz 5 (by omega), zero_smul]
  congr 1
  congr 1
  · abel
  congr 1
  · abel
  congr 1
  · abel
  congr 1
  · abel
  congr 1
  abel

end

section
variable {E : Type*} [NormedAddCommGroup E] [NormedSpace ℝ E]

/-- Interpolation order of the options of `BS5`. -/
def BS5Interp.order : BS5Interp → ℕ
  | .free => 4
  | .low => 5
  | .best => 5

/-- The output of `BS5` as a weighted sum of stages. -/
theorem bs5Dense_best_scaled (f : ℝ → E → E) (t0 h θ : ℝ) {y0 yNew : E} {k : ℕ → E}
    (hk : IsRKStep (BS5.tab ℝ) f t0 y0 h k yNew) :
    (bs5DenseImpl .best f (t0 + h) yNew k h t0 y0).1 (t0 + θ * h) =
      y0 + h • ∑ i ∈ range 11, (((BS5.B.getD i 0 : ℚ) : ℝ) + pWeight ℝ BS5_Pbest i (θ - 1)) •
        extraStages f t0 y0 h 8 (BS5_A_extra.zip BS5_C_extra) k i := by
  simp only [bs5DenseImpl]
  rw [bs5BestQ_eq, show t0 + θ * h = t0 + h + (θ - 1) * h by ring, horner_scaled]
  simp only [add_smul, sum_add_distrib, smul_add]
  rw [← add_assoc]
  congr 1
  rw [hk.sol, show (BS5.tab ℝ).s = 7 from rfl]
  congr 2
  have hsub : range 7 ⊆ range 11 := range_subset_range.mpr (by omega)
  rw [← sum_subset hsub]
  · apply sum_congr rfl
    intro i hi
    have hi := mem_range.mp hi
    rw [extraStages_lt _ _ _ _ _ _ _ _ (by omega)]
    rfl
  · intro i hi hi'
    rw [mem_range] at hi hi'
    have : ∀ i, i < 11 → ¬ i < 7 → BS5.B.getD i 0 = 0 := by decide +kernel
    rw [this i hi hi', Rat.cast_zero, zero_smul]

/-- **C60** for the three interpolants of `BS5`: orders 4 (`free`), 5 (`low`) and 5 (`best`), uniformly
over the step. -/
theorem C60_BS5_dense_accuracy (o : BS5Interp) {f : ℝ → E → E} {t0 : ℝ} {y0 : E}
    (hf : ContDiffAt ℝ ∞ (fun z : ℝ × E => f z.1 z.2) (t0, y0)) {k : ℝ → ℕ → E} {yNew : ℝ → E}
    (hk : ∀ h, IsRKStep (BS5.tab ℝ) f t0 y0 h (k h) (yNew h)) (θ : ℝ → ℝ) (M : ℝ) (hθ : ∀ h, |θ h| ≤ M)
    (y : ℝ → E) (hy0 : y t0 = y0) (hy : ∀ᶠ t in 𝓝 t0, HasDerivAt y (f t (y t)) t) :
    (fun h => (bs5DenseImpl o f (t0 + h) (yNew h) (k h) h t0 y0).1 (t0 + θ h * h) - y (t0 + θ h * h))
      =O[𝓝 0] fun h : ℝ => h ^ (o.order + 1) := by
  obtain ⟨r1, r2, _, _⟩ := rationalRK_rows BS5 (by simp [rationalRK])
  have hθO : θ =O[𝓝 0] fun _ : ℝ => (1 : ℝ) := by
    apply IsBigO.of_bound M
    apply Eventually.of_forall
    intro h; simpa using hθ h
  cases o with
  | free =>
    exact C60_dense_accuracy (R := BS5) (q := 4) (by simp [interpOrders]) hf hk θ M hθ y hy0 hy
  | low =>
    obtain ⟨hx, hc, hcol⟩ := bs5_low_check
    have := interp_error hx ⟨r1, r2⟩ hf hk (fun h i => pWeight ℝ BS5_Plow i (θ h)) θ 5
      (fun i _ => pWeight_bounded BS5_Plow i hθO) hθO
      (fun h τ hτ => forward_cond hx hc hcol (θ h) τ hτ) y hy0 hy
    refine this.congr_left ?_
    intro h
    simp only [bs5DenseImpl]
    rw [horner_scaled]
    rfl
  | best =>
    obtain ⟨hx, hc0, hc, hcol⟩ := bs5_best_check
    have hθ1 : (fun h => θ h - 1) =O[𝓝 0] fun _ : ℝ => (1 : ℝ) :=
      hθO.sub (isBigO_refl _ _)
    have := interp_error hx ⟨r1, r2⟩ hf hk
      (fun h i => ((BS5.B.getD i 0 : ℚ) : ℝ) + pWeight ℝ BS5_Pbest i (θ h - 1)) θ 5
      (fun i _ => (isBigO_const_const _ one_ne_zero _).add (pWeight_bounded BS5_Pbest i hθ1)) hθO
      (fun h τ hτ => by
        have := backward_cond hx hc0 hc hcol (θ h - 1) τ hτ
        rw [show 1 + (θ h - 1) = θ h by ring] at this
        exact this) y hy0 hy
    refine this.congr_left ?_
    intro h
    rw [bs5Dense_best_scaled f t0 h (θ h) (hk h)]
    rfl

end
end Extensisq
