import Verif.Lemmas.Trees
import Verif.Lemmas.Taylor
import Mathlib.Analysis.Calculus.MeanValue
import Mathlib.Analysis.Calculus.Deriv.Pow
import Mathlib.Analysis.Calculus.Deriv.Mul
import Mathlib.Analysis.Calculus.Deriv.Add

/-!
# B-series over ordered trees

If `f(y0+z)` has the Taylor series `∑ p_k(z,...,z)` and `F(node k c) = p_k(F(c_1),...,F(c_k))`, then both the exact solution and
the stages of a Runge-Kutta method expand in `h^size(τ) F(τ)`, with weights `1/γ(τ)` and elementary
weights. (No symmetry factors occur because trees are ordered and `p_k` contains the `1/k!`.)
-/

namespace Extensisq
open scoped ContDiff
open Finset Asymptotics Filter Topology

variable {E : Type*} [NormedAddCommGroup E] [NormedSpace ℝ E]

/-- Elementary differential. -/
noncomputable def OTree.diff (p : FormalMultilinearSeries ℝ E E) : OTree → E
  | .node k c => p k fun l => (c l).diff p

theorem OTree.size_pos (t : OTree) : 1 ≤ t.size := by cases t; simp [OTree.size]

theorem OTree.finite_size (n : ℕ) : {t : OTree | t.size ≤ n}.Finite := by
  induction n with
  | zero =>
    apply Set.Finite.subset Set.finite_empty
    intro t ht
    have := t.size_pos
    simp only [Set.mem_setOf_eq] at ht
    omega
  | succ n ih =>
    haveI : Finite {t : OTree // t.size ≤ n} := ih
    have : {t : OTree | t.size ≤ n + 1} ⊆ Set.range
        (fun q : (Σ k : Fin (n + 1), Fin k → {t : OTree // t.size ≤ n}) =>
          OTree.node q.1 fun l => (q.2 l).1) := by
      intro t ht
      obtain ⟨k, c⟩ := t
      simp only [Set.mem_setOf_eq, OTree.size] at ht
      have h1 : ∀ l, (c l).size ≤ n := by
        intro l
        have := single_le_sum (f := fun l => (c l).size) (fun _ _ => Nat.zero_le _) (mem_univ l)
        omega
      have h2 : k < n + 1 := by
        have : ∑ l : Fin k, 1 ≤ ∑ l, (c l).size := sum_le_sum fun l _ => (c l).size_pos
        simp only [sum_const, card_univ, Fintype.card_fin, smul_eq_mul, mul_one] at this
        omega
      exact ⟨⟨⟨k, h2⟩, fun l => ⟨c l, h1 l⟩⟩, rfl⟩
    exact (Set.finite_range _).subset this

/-- Trees with at most `n` vertices. -/
noncomputable def trees (n : ℕ) : Finset OTree := (OTree.finite_size n).toFinset

theorem mem_trees {n : ℕ} {t : OTree} : t ∈ trees n ↔ t.size ≤ n := by simp [trees]

/-- Truncated series `∑ a(τ) h^size(τ) F(τ)`. -/
noncomputable def bser (p : FormalMultilinearSeries ℝ E E) (n : ℕ) (a : OTree → ℝ) (h : ℝ) : E :=
  ∑ t ∈ trees n, (a t * h ^ t.size) • t.diff p

/-- Truncated series `∑ a(τ) h^(size(τ)-1) F(τ)`. -/
noncomputable def bser' (p : FormalMultilinearSeries ℝ E E) (n : ℕ) (a : OTree → ℝ) (h : ℝ) : E :=
  ∑ t ∈ trees n, (a t * h ^ (t.size - 1)) • t.diff p

theorem isBigO_pow_pow {m n : ℕ} (h : n ≤ m) : (fun h : ℝ => h ^ m) =O[𝓝 0] fun h : ℝ => h ^ n := by
  apply IsBigO.of_bound 1
  have h1 : Tendsto (fun h : ℝ => |h|) (𝓝 0) (𝓝 0) := by
    simpa using (continuous_abs.tendsto (0 : ℝ))
  filter_upwards [h1.eventually (Iic_mem_nhds one_pos)] with x hx
  rw [one_mul, norm_pow, norm_pow]
  exact pow_le_pow_of_le_one (norm_nonneg _) hx h

theorem term_isBigO (c : ℝ) (v : E) (m : ℕ) :
    (fun h : ℝ => (c * h ^ m) • v) =O[𝓝 0] fun h : ℝ => h ^ m := by
  apply IsBigO.of_bound (‖c‖ * ‖v‖)
  apply Eventually.of_forall
  intro h
  rw [norm_smul, norm_mul]
  exact le_of_eq (by ring)

theorem bser_isBigO (p : FormalMultilinearSeries ℝ E E) (n : ℕ) (a : OTree → ℝ) :
    bser p n a =O[𝓝 0] fun h : ℝ => h := by
  unfold bser
  apply IsBigO.fun_sum
  intro t _
  refine (term_isBigO _ _ _).trans ?_
  simpa using isBigO_pow_pow t.size_pos

/-- Dropping the trees with `n+1` vertices. -/
theorem bser'_succ (p : FormalMultilinearSeries ℝ E E) (n : ℕ) (a : OTree → ℝ) :
    (fun h => bser' p (n + 1) a h - bser' p n a h) =O[𝓝 0] fun h : ℝ => h ^ n := by
  classical
  have hs : trees n ⊆ trees (n + 1) := by
    intro t ht; rw [mem_trees] at *; omega
  have : ∀ h, bser' p (n + 1) a h - bser' p n a h =
      ∑ t ∈ trees (n + 1) \ trees n, (a t * h ^ (t.size - 1)) • t.diff p := by
    intro h
    unfold bser'
    rw [← sum_sdiff hs]
    simp
  simp only [this]
  apply IsBigO.fun_sum
  intro t ht
  rw [Finset.mem_sdiff, mem_trees, mem_trees] at ht
  refine (term_isBigO _ _ _).trans (isBigO_pow_pow (by omega))

/-- Product weight of the subtrees. -/
noncomputable def prodW (a : OTree → ℝ) : OTree → ℝ
  | .node _ c => ∏ l, a (c l)

/-- Terms of the multilinear expansion. -/
theorem multilinear_bser (p : FormalMultilinearSeries ℝ E E) (n : ℕ) (a : OTree → ℝ) (k : ℕ) (h : ℝ) :
    p k (fun _ => bser p n a h) = ∑ r ∈ Fintype.piFinset (fun _ : Fin k => trees n),
      (prodW a (.node k r) * h ^ ((OTree.node k r).size - 1)) • (OTree.node k r).diff p := by
  unfold bser
  rw [ContinuousMultilinearMap.map_sum_finset]
  apply sum_congr rfl
  intro r _
  rw [ContinuousMultilinearMap.map_smul_univ]
  congr 1
  rw [prod_mul_distrib, prod_pow_eq_pow_sum]
  simp only [prodW, OTree.size]
  congr 2
  omega

/-- Sum of all multilinear terms: the truncated series of `f`, up to high powers of `h`. -/
theorem partialSum_bser (p : FormalMultilinearSeries ℝ E E) (n : ℕ) (a : OTree → ℝ) :
    (fun h => p.partialSum (n + 1) (bser p n a h) - bser' p (n + 1) (prodW a) h)
      =O[𝓝 0] fun h : ℝ => h ^ (n + 1) := by
  classical
  -- all pairs (k, children)
  let S : Finset (Σ k : ℕ, Fin k → OTree) :=
    (range (n + 1)).sigma fun k => Fintype.piFinset (fun _ : Fin k => trees n)
  let T : (Σ k : ℕ, Fin k → OTree) → OTree := fun q => .node q.1 q.2
  have hT : Function.Injective T := by
    rintro ⟨k, c⟩ ⟨k', c'⟩ h
    simp only [T, OTree.node.injEq] at h
    obtain ⟨rfl, h⟩ := h
    rw [eq_of_heq h]
  let g : ℝ → OTree → E := fun h t => (prodW a t * h ^ (t.size - 1)) • t.diff p
  have e1 : ∀ h, p.partialSum (n + 1) (bser p n a h) = ∑ t ∈ S.image T, g h t := by
    intro h
    rw [sum_image (fun x _ y _ hxy => hT hxy), sum_sigma]
    unfold FormalMultilinearSeries.partialSum
    apply sum_congr rfl
    intro k _
    exact multilinear_bser p n a k h
  have e2 : trees (n + 1) ⊆ S.image T := by
    intro t ht
    obtain ⟨k, c⟩ := t
    rw [mem_trees] at ht
    simp only [OTree.size] at ht
    rw [mem_image]
    refine ⟨⟨k, c⟩, ?_, rfl⟩
    rw [mem_sigma, mem_range, Fintype.mem_piFinset]
    constructor
    · have : ∑ l : Fin k, 1 ≤ ∑ l, (c l).size := sum_le_sum fun l _ => (c l).size_pos
      simp only [sum_const, card_univ, Fintype.card_fin, smul_eq_mul, mul_one] at this
      dsimp only
      omega
    · intro l
      rw [mem_trees]
      have := single_le_sum (f := fun l => (c l).size) (fun _ _ => Nat.zero_le _) (mem_univ l)
      simp only at this
      dsimp only
      omega
  have e3 : ∀ h, p.partialSum (n + 1) (bser p n a h) - bser' p (n + 1) (prodW a) h =
      ∑ t ∈ S.image T \ trees (n + 1), g h t := by
    intro h
    rw [e1, ← sum_sdiff e2]
    exact add_sub_cancel_right _ _
  simp only [e3]
  apply IsBigO.fun_sum
  intro t ht
  rw [Finset.mem_sdiff, mem_trees] at ht
  exact (term_isBigO _ _ _).trans (isBigO_pow_pow (by omega))

/-- Composition: the expansion of `f(y0 + z)` from the expansion of `z`. -/
theorem comp_bser {f : E → E} {y0 : E} {p : FormalMultilinearSeries ℝ E E}
    (hf : TaylorAt f p y0) (n : ℕ) (a : OTree → ℝ) {z : ℝ → E}
    (hz : (fun h => z h - bser p n a h) =O[𝓝 0] fun h : ℝ => h ^ (n + 1)) :
    (fun h => f (y0 + z h) - bser' p (n + 1) (prodW a) h) =O[𝓝 0] fun h : ℝ => h ^ (n + 1) := by
  have hS := bser_isBigO p n a
  have hz1 : z =O[𝓝 0] fun h : ℝ => h := by
    have h1 : (fun h : ℝ => h ^ (n + 1)) =O[𝓝 0] fun h : ℝ => h := by
      simpa using isBigO_pow_pow (show 1 ≤ n + 1 by omega)
    simpa using (hz.trans h1).add hS
  have hz0 : Tendsto z (𝓝 0) (𝓝 0) := hz1.trans_tendsto tendsto_id
  -- Taylor
  have t1 : (fun h => f (y0 + z h) - p.partialSum (n + 1) (z h)) =O[𝓝 0] fun h : ℝ => h ^ (n + 1) := by
    have := (hf.isBigO_sub_partialSum_pow (n + 1)).comp_tendsto hz0
    refine this.trans ?_
    have h2 := (hz1.norm_left).pow (n + 1)
    exact h2
  -- replace z by its expansion
  have t2 : (fun h => p.partialSum (n + 1) (z h) - p.partialSum (n + 1) (bser p n a h))
      =O[𝓝 0] fun h : ℝ => h ^ (n + 1) := by
    unfold FormalMultilinearSeries.partialSum
    simp only [← sum_sub_distrib]
    apply IsBigO.fun_sum
    intro k _
    have b1 : ∀ h, ‖p k (fun _ => z h) - p k (fun _ => bser p n a h)‖ ≤
        ‖p k‖ * k * max ‖z h‖ ‖bser p n a h‖ ^ (k - 1) * ‖z h - bser p n a h‖ := by
      intro h
      have := (p k).norm_image_sub_le (fun _ => z h) (fun _ => bser p n a h)
      rw [Fintype.card_fin] at this
      refine this.trans ?_
      have c1 : ∀ v : E, ‖(fun _ : Fin k => v)‖ ≤ ‖v‖ := fun v => pi_norm_const_le v
      have c2 : ‖(fun _ : Fin k => z h) - fun _ => bser p n a h‖ ≤ ‖z h - bser p n a h‖ :=
        pi_norm_const_le (z h - bser p n a h)
      gcongr
      · exact c1 _
      · exact c1 _
    have hm : ∀ᶠ h in 𝓝 (0 : ℝ), max ‖z h‖ ‖bser p n a h‖ ≤ 1 := by
      have h1 : Tendsto (fun h => max ‖z h‖ ‖bser p n a h‖) (𝓝 0) (𝓝 0) := by
        have hb : Tendsto (bser p n a) (𝓝 0) (𝓝 0) := hS.trans_tendsto tendsto_id
        simpa using hz0.norm.max hb.norm
      exact h1.eventually (Iic_mem_nhds one_pos)
    refine IsBigO.trans ?_ hz
    apply IsBigO.of_bound (‖p k‖ * k)
    filter_upwards [hm] with h hh
    refine (b1 h).trans ?_
    have : max ‖z h‖ ‖bser p n a h‖ ^ (k - 1) ≤ 1 :=
      pow_le_one₀ (le_max_of_le_left (norm_nonneg _)) hh
    have h0 : 0 ≤ ‖p k‖ * k := by positivity
    calc ‖p k‖ * k * max ‖z h‖ ‖bser p n a h‖ ^ (k - 1) * ‖z h - bser p n a h‖
        ≤ ‖p k‖ * k * 1 * ‖z h - bser p n a h‖ := by gcongr
      _ = _ := by ring
  have t3 := partialSum_bser p n a
  have := (t1.add t2).add t3
  refine this.congr_left ?_
  intro h
  abel

/-! ## Exact solution -/

theorem dens_rec (t : OTree) :
    (t.size : ℝ) * (1 / (t.dens : ℝ)) = prodW (fun t => 1 / (t.dens : ℝ)) t := by
  obtain ⟨k, c⟩ := t
  simp only [prodW, OTree.dens, OTree.size]
  have h1 : ((1 + ∑ l, (c l).size : ℕ) : ℝ) ≠ 0 := by positivity
  push_cast at h1 ⊢
  rw [prod_div_distrib]
  simp only [prod_const_one]
  field_simp

/-- The exact solution has the expansion with weights `1/γ`. -/
theorem exact_bser {f : E → E} {y0 : E} {p : FormalMultilinearSeries ℝ E E}
    (hf : TaylorAt f p y0) {y : ℝ → E} (h0 : y 0 = y0)
    (hy : ∀ᶠ h in 𝓝 (0 : ℝ), HasDerivAt y (f (y h)) h) (n : ℕ) :
    (fun h => y h - y0 - bser p n (fun t => 1 / (t.dens : ℝ)) h) =O[𝓝 0] fun h : ℝ => h ^ (n + 1) := by
  induction n with
  | zero =>
    have e : ∀ h, bser p 0 (fun t => 1 / (t.dens : ℝ)) h = 0 := by
      intro h
      unfold bser
      apply sum_eq_zero
      intro t ht
      rw [mem_trees] at ht
      have := t.size_pos
      omega
    have := hy.self_of_nhds.isBigO_sub
    simp only [h0, sub_zero] at this
    simp only [e, sub_zero, zero_add, pow_one]
    exact this
  | succ n ih =>
    have hc := comp_bser hf n (fun t => 1 / (t.dens : ℝ)) (z := fun h => y h - y0) ih
    simp only [add_sub_cancel] at hc
    obtain ⟨C, hC⟩ := hc.bound
    -- derivative of the remainder
    have hd : ∀ h : ℝ, HasDerivAt (fun h => bser p (n + 1) (fun t => 1 / (t.dens : ℝ)) h)
        (bser' p (n + 1) (prodW fun t => 1 / (t.dens : ℝ)) h) h := by
      intro h
      unfold bser bser'
      apply HasDerivAt.fun_sum
      intro t _
      apply HasDerivAt.smul_const
      have := (hasDerivAt_pow t.size h).const_mul (1 / (t.dens : ℝ))
      convert this using 1
      rw [← dens_rec]
      ring
    obtain ⟨ε, hε, hball⟩ := Metric.eventually_nhds_iff_ball.mp (hy.and hC)
    apply IsBigO.of_bound |C|
    rw [Metric.eventually_nhds_iff_ball]
    refine ⟨ε, hε, fun h hh => ?_⟩
    have hh' : |h| < ε := by simpa [Real.dist_eq] using hh
    set r : ℝ → E := fun h => y h - y0 - bser p (n + 1) (fun t => 1 / (t.dens : ℝ)) h with hr
    have hr0 : r 0 = 0 := by
      rw [hr]
      simp only [h0, sub_self, zero_sub, neg_eq_zero]
      unfold bser
      apply sum_eq_zero
      intro t _
      rw [zero_pow (by have := t.size_pos; omega), mul_zero, zero_smul]
    have hmem : ∀ x ∈ Set.uIcc 0 h, x ∈ Metric.ball (0 : ℝ) ε ∧ |x| ≤ |h| := by
      intro x hx
      have : |x - 0| ≤ |h - 0| := Set.abs_sub_left_of_mem_uIcc hx
      simp only [sub_zero] at this
      refine ⟨?_, this⟩
      simp only [Metric.mem_ball, Real.dist_eq, sub_zero]
      linarith
    have hder : ∀ x ∈ Set.uIcc 0 h, HasDerivWithinAt r
        (f (y x) - bser' p (n + 1) (prodW fun t => 1 / (t.dens : ℝ)) x) (Set.uIcc 0 h) x := by
      intro x hx
      have h1 := (hball x (hmem x hx).1).1
      exact ((h1.sub_const y0).sub (hd x)).hasDerivWithinAt
    have hbound : ∀ x ∈ Set.uIcc 0 h,
        ‖f (y x) - bser' p (n + 1) (prodW fun t => 1 / (t.dens : ℝ)) x‖ ≤ |C| * |h| ^ (n + 1) := by
      intro x hx
      refine (hball x (hmem x hx).1).2.trans ?_
      rw [norm_pow, Real.norm_eq_abs]
      calc C * |x| ^ (n + 1) ≤ |C| * |x| ^ (n + 1) := by gcongr; exact le_abs_self C
        _ ≤ |C| * |h| ^ (n + 1) :=
          mul_le_mul_of_nonneg_left (pow_le_pow_left₀ (abs_nonneg _) (hmem x hx).2 _) (abs_nonneg _)
    have hfin := Convex.norm_image_sub_le_of_norm_hasDerivWithin_le hder hbound (convex_uIcc 0 h) Set.left_mem_uIcc Set.right_mem_uIcc
    rw [hr0, sub_zero, sub_zero, Real.norm_eq_abs] at hfin
    exact hfin.trans (by rw [norm_pow, Real.norm_eq_abs]; exact le_of_eq (by ring))

end Extensisq
