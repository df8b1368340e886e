import Verif.Spec.NTrees
import Verif.Lemmas.BSeries

/-! Composition of a Taylor series with a finite expansion in powers of `h`. -/

namespace Extensisq
open scoped ContDiff
open Finset Asymptotics Filter Topology

variable {G H : Type*} [NormedAddCommGroup G] [NormedSpace ℝ G] [NormedAddCommGroup H] [NormedSpace ℝ H]

section generic
variable {ι : Type*} (ord : ι → ℕ) (hpos : ∀ i, 1 ≤ ord i) (hfin : ∀ n, {i | ord i ≤ n}.Finite)

/-- Terms of order at most `n`. -/
noncomputable def upTo (n : ℕ) : Finset ι := (hfin n).toFinset

theorem mem_upTo {n : ℕ} {i : ι} : i ∈ upTo ord hfin n ↔ ord i ≤ n := by simp [upTo]

include hpos hfin in
/-- Forests with total order below `m`. -/
theorem forests_finite (m : ℕ) : {q : Σ k : ℕ, Fin k → ι | ∑ l, ord (q.2 l) < m}.Finite := by
  classical
  have : {q : Σ k : ℕ, Fin k → ι | ∑ l, ord (q.2 l) < m} ⊆
      (((range m).sigma fun k => Fintype.piFinset (fun _ : Fin k => (hfin m).toFinset) :
        Finset (Σ k : ℕ, Fin k → ι)) : Set (Σ k : ℕ, Fin k → ι)) := by
    rintro ⟨k, c⟩ hq
    simp only [Set.mem_ofPred_eq] at hq
    rw [Finset.mem_coe, mem_sigma, mem_range, Fintype.mem_piFinset]
    constructor
    · have : ∑ l : Fin k, 1 ≤ ∑ l, ord (c l) := sum_le_sum fun l _ => hpos (c l)
      simp only [sum_const, card_univ, Fintype.card_fin, smul_eq_mul, mul_one] at this
      dsimp only
      omega
    · intro l
      simp only [Set.Finite.mem_toFinset, Set.mem_ofPred_eq]
      have := single_le_sum (f := fun l => ord (c l)) (fun _ _ => Nat.zero_le _) (mem_univ l)
      simp only at this
      omega
  exact (Finset.finite_toSet _).subset this

/-- The composition of a Taylor series with a finite expansion. -/
theorem comp_series (F : ι → G) (a : ι → ℝ) {f : G → H} {y0 : G} {p : FormalMultilinearSeries ℝ G H}
    (hf : TaylorAt f p y0) (n : ℕ) {z : ℝ → G}
    (hz : (fun h => z h - ∑ i ∈ upTo ord hfin n, (a i * h ^ ord i) • F i)
      =O[𝓝 0] fun h : ℝ => h ^ (n + 1)) :
    (fun h => f (y0 + z h) - ∑ q ∈ (forests_finite ord hpos hfin (n + 1)).toFinset,
      ((∏ l, a (q.2 l)) * h ^ (∑ l, ord (q.2 l))) • p q.1 (fun l => F (q.2 l)))
      =O[𝓝 0] fun h : ℝ => h ^ (n + 1) := by
  classical
  set S : ℝ → G := fun h => ∑ i ∈ upTo ord hfin n, (a i * h ^ ord i) • F i with hS'
  have hS : S =O[𝓝 0] fun h : ℝ => h := by
    apply IsBigO.fun_sum
    intro t _
    refine (term_isBigO _ _ _).trans ?_
    simpa using isBigO_pow_pow (hpos t)
  have hz1 : z =O[𝓝 0] fun h : ℝ => h := by
    have h1 : (fun h : ℝ => h ^ (n + 1)) =O[𝓝 0] fun h : ℝ => h := by
      simpa using isBigO_pow_pow (show 1 ≤ n + 1 by omega)
    refine ((hz.trans h1).add hS).congr_left ?_
    intro h
    simp only [hS', sub_add_cancel]
  have hz0 : Tendsto z (𝓝 0) (𝓝 0) := hz1.trans_tendsto tendsto_id
  have t1 : (fun h => f (y0 + z h) - p.partialSum (n + 1) (z h)) =O[𝓝 0] fun h : ℝ => h ^ (n + 1) := by
    have := (hf.isBigO_sub_partialSum_pow (n + 1)).comp_tendsto hz0
    exact this.trans ((hz1.norm_left).pow (n + 1))
  have t2 : (fun h => p.partialSum (n + 1) (z h) - p.partialSum (n + 1) (S h))
      =O[𝓝 0] fun h : ℝ => h ^ (n + 1) := by
    unfold FormalMultilinearSeries.partialSum
    simp only [← sum_sub_distrib]
    apply IsBigO.fun_sum
    intro k _
    have b1 : ∀ h, ‖p k (fun _ => z h) - p k (fun _ => S h)‖ ≤
        ‖p k‖ * k * max ‖z h‖ ‖S h‖ ^ (k - 1) * ‖z h - S h‖ := by
      intro h
      have := (p k).norm_image_sub_le (fun _ => z h) (fun _ => S h)
      rw [Fintype.card_fin] at this
      refine this.trans ?_
      have c1 : ∀ v : G, ‖(fun _ : Fin k => v)‖ ≤ ‖v‖ := fun v => pi_norm_const_le v
      have c2 : ‖(fun _ : Fin k => z h) - fun _ => S h‖ ≤ ‖z h - S h‖ := pi_norm_const_le (z h - S h)
      gcongr
      · exact c1 _
      · exact c1 _
    have hm : ∀ᶠ h in 𝓝 (0 : ℝ), max ‖z h‖ ‖S h‖ ≤ 1 := by
      have h1 : Tendsto (fun h => max ‖z h‖ ‖S h‖) (𝓝 0) (𝓝 0) := by
        have hb : Tendsto S (𝓝 0) (𝓝 0) := hS.trans_tendsto tendsto_id
        simpa using hz0.norm.max hb.norm
      exact h1.eventually (Iic_mem_nhds one_pos)
    refine IsBigO.trans ?_ hz
    apply IsBigO.of_bound (‖p k‖ * k)
    filter_upwards [hm] with h hh
    refine (b1 h).trans ?_
    have : max ‖z h‖ ‖S h‖ ^ (k - 1) ≤ 1 := pow_le_one₀ (le_max_of_le_left (norm_nonneg _)) hh
    have h0 : 0 ≤ ‖p k‖ * k := by positivity
    calc ‖p k‖ * k * max ‖z h‖ ‖S h‖ ^ (k - 1) * ‖z h - S h‖
        ≤ ‖p k‖ * k * 1 * ‖z h - S h‖ := by gcongr
      _ = _ := by ring
  -- multilinear expansion
  let g : ℝ → (Σ k : ℕ, Fin k → ι) → H := fun h q =>
    ((∏ l, a (q.2 l)) * h ^ (∑ l, ord (q.2 l))) • p q.1 (fun l => F (q.2 l))
  let T : Finset (Σ k : ℕ, Fin k → ι) :=
    (range (n + 1)).sigma fun k => Fintype.piFinset (fun _ : Fin k => upTo ord hfin n)
  have e1 : ∀ h, p.partialSum (n + 1) (S h) = ∑ q ∈ T, g h q := by
    intro h
    rw [sum_sigma]
    unfold FormalMultilinearSeries.partialSum
    apply sum_congr rfl
    intro k _
    simp only [hS']
    rw [ContinuousMultilinearMap.map_sum_finset]
    apply sum_congr rfl
    intro r _
    rw [ContinuousMultilinearMap.map_smul_univ]
    simp only [g]
    congr 1
    rw [prod_mul_distrib, prod_pow_eq_pow_sum]
  have e2 : (forests_finite ord hpos hfin (n + 1)).toFinset ⊆ T := by
    rintro ⟨k, c⟩ hq
    simp only [Set.Finite.mem_toFinset, Set.mem_ofPred_eq] at hq
    rw [mem_sigma, mem_range, Fintype.mem_piFinset]
    constructor
    · have : ∑ l : Fin k, 1 ≤ ∑ l, ord (c l) := sum_le_sum fun l _ => hpos (c l)
      simp only [sum_const, card_univ, Fintype.card_fin, smul_eq_mul, mul_one] at this
      dsimp only
      omega
    · intro l
      rw [mem_upTo]
      show ord (c l) ≤ n
      have := single_le_sum (f := fun l => ord (c l)) (fun _ _ => Nat.zero_le _) (mem_univ l)
      simp only at this
      omega
  have t3 : (fun h => p.partialSum (n + 1) (S h) -
      ∑ q ∈ (forests_finite ord hpos hfin (n + 1)).toFinset, g h q)
      =O[𝓝 0] fun h : ℝ => h ^ (n + 1) := by
    have e3 : ∀ h, p.partialSum (n + 1) (S h) -
        ∑ q ∈ (forests_finite ord hpos hfin (n + 1)).toFinset, g h q =
        ∑ q ∈ T \ (forests_finite ord hpos hfin (n + 1)).toFinset, g h q := by
      intro h
      rw [e1, ← sum_sdiff e2]
      exact add_sub_cancel_right _ _
    simp only [e3]
    apply IsBigO.fun_sum
    intro q hq
    rw [Finset.mem_sdiff, Set.Finite.mem_toFinset, Set.mem_ofPred_eq] at hq
    exact (term_isBigO _ _ _).trans (isBigO_pow_pow (by omega))
  have := (t1.add t2).add t3
  refine this.congr_left ?_
  intro h
  simp only [g]
  abel

end generic

/-- Integration of a remainder. -/
theorem isBigO_of_deriv {r r' : ℝ → G} {m : ℕ} (h0 : r 0 = 0)
    (hd : ∀ᶠ h in 𝓝 (0 : ℝ), HasDerivAt r (r' h) h) (hr : r' =O[𝓝 0] fun h : ℝ => h ^ m) :
    r =O[𝓝 0] fun h : ℝ => h ^ (m + 1) := by
  obtain ⟨C, hC⟩ := hr.bound
  obtain ⟨ε, hε, hball⟩ := Metric.eventually_nhds_iff_ball.mp (hd.and hC)
  apply IsBigO.of_bound |C|
  rw [Metric.eventually_nhds_iff_ball]
  refine ⟨ε, hε, fun h hh => ?_⟩
  have hh' : |h| < ε := by simpa [Real.dist_eq] using hh
  have hmem : ∀ x ∈ Set.uIcc 0 h, x ∈ Metric.ball (0 : ℝ) ε ∧ |x| ≤ |h| := by
    intro x hx
    have : |x - 0| ≤ |h - 0| := Set.abs_sub_left_of_mem_uIcc hx
    simp only [sub_zero] at this
    refine ⟨?_, this⟩
    simp only [Metric.mem_ball, Real.dist_eq, sub_zero]
    linarith
  have hder : ∀ x ∈ Set.uIcc 0 h, HasDerivWithinAt r (r' x) (Set.uIcc 0 h) x := fun x hx =>
    (hball x (hmem x hx).1).1.hasDerivWithinAt
  have hbound : ∀ x ∈ Set.uIcc 0 h, ‖r' x‖ ≤ |C| * |h| ^ m := by
    intro x hx
    refine (hball x (hmem x hx).1).2.trans ?_
    rw [norm_pow, Real.norm_eq_abs]
    calc C * |x| ^ m ≤ |C| * |x| ^ m := by gcongr; exact le_abs_self C
      _ ≤ |C| * |h| ^ m :=
        mul_le_mul_of_nonneg_left (pow_le_pow_left₀ (abs_nonneg _) (hmem x hx).2 _) (abs_nonneg _)
  have hfin := Convex.norm_image_sub_le_of_norm_hasDerivWithin_le hder hbound (convex_uIcc 0 h)
    Set.left_mem_uIcc Set.right_mem_uIcc
  rw [h0, sub_zero, sub_zero, Real.norm_eq_abs] at hfin
  exact hfin.trans (by rw [norm_pow, Real.norm_eq_abs]; exact le_of_eq (by ring))

end Extensisq
