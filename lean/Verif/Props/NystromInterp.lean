import Verif.Props.NystromDense
import Verif.Props.DenseMethods

/-!
# C72: accuracy of the Nystrom dense output
-/

set_option linter.unusedSectionVars false
set_option maxRecDepth 100000

namespace Extensisq
open scoped ContDiff
open Finset Asymptotics Filter Topology

/-- Interpolation conditions, per power of the scaled time: power `m + 2` of the position, power `m + 1` of the
velocity. -/
def posTest (P : List (List ℚ)) (n m : ℕ) (v : List ℚ) (e : ℚ) : Bool :=
  (List.range (cols P)).all fun j =>
    decide (dotL (colL P n j) v = if j = m then e / ((1 + (m : ℚ)) * (2 + (m : ℚ))) else 0)

def velTest (Pp : List (List ℚ)) (n m : ℕ) (v : List ℚ) (e : ℚ) : Bool :=
  (List.range (cols Pp)).all fun j =>
    decide (dotL (colL Pp n j) v = if j = m then e / (1 + (m : ℚ)) else 0)

theorem nyInterp_ok : ∀ I ∈ [mr6I, fi5I1, fi5I2, fi5I3, mu5I], I.OK := by decide +kernel

/-- Orders of position and velocity of the interpolants with exact coefficients. -/
def nyInterpOrders : List (NyInterp × ℕ × ℕ) := [(mr6I, 6, 5), (fi5I1, 6, 5), (fi5I2, 5, 5)]

set_option maxHeartbeats 0 in
theorem nyInterp_check : ∀ p ∈ nyInterpOrders,
    nCheck p.1.R.hasAp p.1.eA p.1.eAp p.1.eC (posTest p.1.P p.1.n) (p.2.1 - 1) = true ∧
    nCheck p.1.R.hasAp p.1.eA p.1.eAp p.1.eC (velTest p.1.Pp p.1.n) p.2.2 = true ∧
    p.2.1 - 1 ≤ cols p.1.P ∧ p.2.2 ≤ cols p.1.Pp ∧ 2 ≤ p.2.1 ∧ 2 ≤ p.2.2 := by decide +kernel

/-- Extended matrices over the reals. -/
def nyExtA (I : NyInterp) (i j : ℕ) : ℝ := ((matOf I.eA i j : ℚ) : ℝ)
def nyExtAp (I : NyInterp) (i j : ℕ) : ℝ := ((matOf I.eAp i j : ℚ) : ℝ)
def nyExtC (I : NyInterp) (i : ℕ) : ℝ := ((vecOf I.eC i : ℚ) : ℝ)

theorem colL_getD (P : List (List ℚ)) (n j i : ℕ) (hi : i < n) :
    vecOf (colL P n j) i = (P.getD i []).getD j 0 := by
  unfold vecOf
  rw [List.getD_eq_getElem _ _ (by simpa [colL] using hi)]
  simp [colL]

theorem col_cond {I : NyInterp} (hI : I.OK) (P : List (List ℚ)) (q : NForest) (c : ℚ)
    (h : ∀ j, j < cols P → dotL (colL P I.n j) (nVec I.eA I.eAp I.eC q) = if j = q.ord then c else 0)
    (hcol : q.ord < cols P) (x : ℝ) :
    ∑ i ∈ range I.n, pWeight ℝ P i x * q.weight I.n (nyExtA I) (nyExtAp I) (nyExtC I) i =
      x ^ (q.ord + 1) * (c : ℝ) := by
  simp only [pWeight, sum_mul]
  rw [sum_comm]
  have e : ∀ j, j < cols P → ∑ i ∈ range I.n, entry ℝ P i j * x ^ (j + 1) *
      q.weight I.n (nyExtA I) (nyExtAp I) (nyExtC I) i =
      x ^ (j + 1) * (((if j = q.ord then c else 0 : ℚ)) : ℝ) := by
    intro j hj
    rw [← h j hj, dotL_nVec, hI.lenC]
    push_cast
    rw [mul_sum]
    apply sum_congr rfl
    intro i hi
    rw [mem_range] at hi
    rw [colL_getD P I.n j i hi]
    have : q.weight I.n (nyExtA I) (nyExtAp I) (nyExtC I) i =
        ((q.weight I.n (matOf I.eA) (matOf I.eAp) (vecOf I.eC) i : ℚ) : ℝ) :=
      NForest.weight_cast _ _ _ _ _ _
    rw [this]
    unfold entry
    ring
  rw [sum_congr rfl fun j hj => e j (mem_range.mp hj)]
  rw [sum_eq_single q.ord]
  · rw [if_pos rfl]
  · intro j _ hj
    rw [if_neg hj, Rat.cast_zero, mul_zero]
  · intro hj
    exact absurd (mem_range.mpr hcol) hj

theorem ny_conds {I : NyInterp} {p q : ℕ} (hp : (I, p, q) ∈ nyInterpOrders) (hI : I.OK) (x : ℝ)
    (f : NForest) (hf : okVd I.R.hasAp f) :
    (f.ord + 2 ≤ p → ∑ i ∈ range I.n, (x * pWeight ℝ I.P i x) *
        f.weight I.n (nyExtA I) (nyExtAp I) (nyExtC I) i = x ^ (f.ord + 2) * (NTree.pos f.1 f.2).exact) ∧
    (f.ord + 1 ≤ q → ∑ i ∈ range I.n, pWeight ℝ I.Pp i x *
        f.weight I.n (nyExtA I) (nyExtAp I) (nyExtC I) i = x ^ (f.ord + 1) * (NTree.dot f.1 f.2).exact) := by
  obtain ⟨h1, h2, h3, h4, -, -⟩ := nyInterp_check _ hp
  dsimp only at h1 h2 h3 h4
  rw [NTree.exact_cast (K := ℝ), NTree.exact_cast (K := ℝ)]
  have hA : I.eA.length = I.eC.length := by rw [hI.lenA, hI.lenC]
  have hAp : I.R.hasAp = true → I.eAp.length = I.eC.length := fun _ => by rw [hI.lenAp, hI.lenC]
  constructor
  · intro ho
    have := nCheck_sound hA hAp h1 f hf (by omega)
    simp only [posTest, List.all_eq_true, List.mem_range, decide_eq_true_eq] at this
    have h5 := col_cond hI I.P f _ this (by omega) x
    simp only [mul_assoc]
    rw [← mul_sum, h5, pow_succ' x (f.ord + 1), mul_assoc]
    simp only [NTree.exact, NForest.ord]
  · intro ho
    have := nCheck_sound hA hAp h2 f hf (by omega)
    simp only [velTest, List.all_eq_true, List.mem_range, decide_eq_true_eq] at this
    have h5 := col_cond hI I.Pp f _ this (by omega) x
    rw [h5]
    simp only [NTree.exact, NForest.ord]

variable {E : Type*} [NormedAddCommGroup E] [NormedSpace ℝ E]

/-- All stages, including the extra ones, satisfy the stage equations of the extended scheme. -/
theorem nyExt_stage {I : NyInterp} (hI : I.OK) {acc : ℝ → E × E → E} {t0 : ℝ} {y0 : E × E} {h : ℝ}
    {k : ℕ → E} {yN : E × E} (hk : IsNyStep (I.R.tab ℝ) acc t0 y0 h k yN) (i : ℕ) (hi : i < I.n) :
    nyExtra acc t0 y0 h (I.R.s + 1) I.l k i = acc (t0 + nyExtC I i * h)
      (y0.1 + (nyExtC I i * h) • y0.2 + h ^ 2 • ∑ j ∈ range I.n, nyExtA I i j •
          nyExtra acc t0 y0 h (I.R.s + 1) I.l k j,
       y0.2 + h • ∑ j ∈ range I.n, nyExtAp I i j • nyExtra acc t0 y0 h (I.R.s + 1) I.l k j) := by
  set ke := nyExtra acc t0 y0 h (I.R.s + 1) I.l k with hke
  have hn : I.n = I.R.s + 1 + I.l.length := rfl
  by_cases his : i < I.R.s + 1
  · have hsub : range (I.R.s + 1) ⊆ range I.n := range_subset_range.mpr (by omega)
    have e4 : ∀ j, j < I.R.s + 1 → ke j = k j := fun j hj => nyExtra_lt _ _ _ _ _ _ _ _ hj
    have e1 : ∑ j ∈ range I.n, nyExtA I i j • ke j =
        ∑ j ∈ range (I.R.s + 1), (I.R.tab ℝ).fullA i j • k j := by
      rw [← sum_subset hsub]
      · apply sum_congr rfl
        intro j hj
        have hj := mem_range.mp hj
        rw [nyExtA, (hI.stage i his j (by omega)).1, if_pos hj, ← (I.R.full_cast ℝ i j).1, e4 j hj]
      · intro j hj hj'
        rw [nyExtA, (hI.stage i his j (mem_range.mp hj)).1, if_neg (by simpa using hj'), Rat.cast_zero,
          zero_smul]
    have e2 : ∑ j ∈ range I.n, nyExtAp I i j • ke j =
        ∑ j ∈ range (I.R.s + 1), (I.R.tab ℝ).fullAp i j • k j := by
      rw [← sum_subset hsub]
      · apply sum_congr rfl
        intro j hj
        have hj := mem_range.mp hj
        rw [nyExtAp, (hI.stage i his j (by omega)).2, if_pos hj, ← (I.R.full_cast ℝ i j).2.1, e4 j hj]
      · intro j hj hj'
        rw [nyExtAp, (hI.stage i his j (mem_range.mp hj)).2, if_neg (by simpa using hj'), Rat.cast_zero,
          zero_smul]
    have e3 : nyExtC I i = (I.R.tab ℝ).fullC i := by
      rw [nyExtC, hI.node i his, ← (I.R.full_cast ℝ i 0).2.2.1]
    rw [e1, e2, e3, e4 i his]
    have s1 := (sum_fullA (T := I.R.tab ℝ) i (Nat.lt_succ_iff.mp his) k).1
    have s2 := (sum_fullA (T := I.R.tab ℝ) i (Nat.lt_succ_iff.mp his) k).2
    have hs' : (I.R.tab ℝ).s = I.R.s := rfl
    rw [hs'] at s1 s2
    rw [s1, s2]
    unfold NTableau.fullC
    rw [hs']
    split_ifs with hs
    · exact hk.stage i hs
    · obtain rfl : i = I.R.s := by omega
      rw [one_mul]
      have p := hk.pos
      have v := hk.vel
      rw [hs'] at p v
      rw [← p, ← v]
      exact hk.last
  · obtain ⟨m, rfl⟩ : ∃ m, i = I.R.s + 1 + m := ⟨i - (I.R.s + 1), by omega⟩
    have hm : m < I.l.length := by omega
    have h1 := nyExtra_eq acc t0 y0 h I.l (I.R.s + 1) k m hm
    dsimp only at h1
    have hg : I.l.getD m ([], [], 0) = I.l[m] := List.getD_eq_getElem _ _ hm
    have hsub : range (I.R.s + 1 + m) ⊆ range I.n := range_subset_range.mpr (by omega)
    have e1 : ∑ j ∈ range I.n, nyExtA I (I.R.s + 1 + m) j • ke j =
        ∑ j ∈ range (I.R.s + 1 + m), ((I.l[m].1.getD j 0 : ℚ) : ℝ) • ke j := by
      rw [← sum_subset hsub]
      · apply sum_congr rfl
        intro j hj
        have hj := mem_range.mp hj
        rw [nyExtA, (hI.extra m hm j (by omega)).1, if_pos hj, hg]
      · intro j hj hj'
        rw [nyExtA, (hI.extra m hm j (mem_range.mp hj)).1, if_neg (by simpa using hj'), Rat.cast_zero,
          zero_smul]
    have e2 : ∑ j ∈ range I.n, nyExtAp I (I.R.s + 1 + m) j • ke j =
        ∑ j ∈ range (I.R.s + 1 + m), ((I.l[m].2.1.getD j 0 : ℚ) : ℝ) • ke j := by
      rw [← sum_subset hsub]
      · apply sum_congr rfl
        intro j hj
        have hj := mem_range.mp hj
        rw [nyExtAp, (hI.extra m hm j (by omega)).2, if_pos hj, hg]
      · intro j hj hj'
        rw [nyExtAp, (hI.extra m hm j (mem_range.mp hj)).2, if_neg (by simpa using hj'), Rat.cast_zero,
          zero_smul]
    have e3 : nyExtC I (I.R.s + 1 + m) = ((I.l[m].2.2 : ℚ) : ℝ) := by
      rw [nyExtC, hI.enode m hm, hg]
    rw [e1, e2, e3]
    exact h1

theorem hornerEval_denseQ (P : List (List ℚ)) (n : ℕ) (ke : ℕ → E) (x c : ℝ) :
    hornerEval x ((denseQ ℝ P n ke).map fun q => c • q) = c • ∑ i ∈ range n, pWeight ℝ P i x • ke i := by
  have h := horner_denseQ (K := ℝ) 0 c (0 : E) P n ke (x * c)
  by_cases hc : c = 0
  · subst hc
    rw [hornerEval_eq, zero_smul]
    apply sum_eq_zero
    intro j _
    rw [List.getD_eq_getElem?_getD, List.getElem?_map]
    cases (denseQ ℝ P n ke)[j]? <;> simp
  · unfold horner at h
    simp only [sub_zero, add_zero, zero_add] at h
    rw [mul_div_assoc, div_self hc, mul_one] at h
    exact h

theorem nyHorner_scaled (acc : ℝ → E × E → E) (I : NyInterp) (t0 h θ : ℝ) (y0 : E × E) (yN : E × E)
    (a0 a1 : E) (k : ℕ → E) :
    nyHorner acc I.R.s I.l I.P I.Pp ⟨t0, t0 + h, y0, yN, a0, a1, k⟩ (t0 + θ * h) =
      (y0.1 + (θ * h) • y0.2 + h ^ 2 • ∑ i ∈ range I.n, (θ * pWeight ℝ I.P i θ) •
          nyExtra acc t0 y0 h (I.R.s + 1) I.l k i,
       y0.2 + h • ∑ i ∈ range I.n, pWeight ℝ I.Pp i θ • nyExtra acc t0 y0 h (I.R.s + 1) I.l k i) := by
  have hh : t0 + h - t0 = h := by ring
  have hx : h ≠ 0 → (t0 + θ * h - t0) / h = θ := by
    intro h0; field_simp; ring
  unfold nyHorner
  rw [hh]
  generalize nyExtra acc t0 y0 h (I.R.s + 1) I.l k = ke
  change hornerNystrom t0 (t0 + h) y0 (denseQ ℝ I.P I.n ke) (denseQ ℝ I.Pp I.n ke) (t0 + θ * h) = _
  unfold hornerNystrom
  rw [hh]
  dsimp only
  rw [hornerEval_denseQ, hornerEval_denseQ]
  have e : ∑ i ∈ range I.n, (θ * pWeight ℝ I.P i θ) • ke i = θ • ∑ i ∈ range I.n, pWeight ℝ I.P i θ • ke i := by
    rw [smul_sum]
    exact sum_congr rfl fun i _ => mul_smul _ _ _
  rw [e]
  by_cases h0 : h = 0
  · subst h0
    simp
  · rw [hx h0]
    apply Prod.ext
    · dsimp only
      module
    · dsimp only
      rw [add_comm]

/-- **C72**. Accuracy between the grid points: on a step of size `h` with an acceleration smooth at the start
(for `MR6NN`: independent of the velocity), at any point `t0 + θ(h) h` with bounded `θ`, the interpolated
position differs from the solution by `O(h^(p+1))` and the velocity by `O(h^(q+1))`, with `p, q = 6, 5`
(`MR6NN`), `6, 5` (`Fi5N` interpolant 1), `5, 5` (`Fi5N` interpolant 2). -/
theorem C72_dense_accuracy {I : NyInterp} {p q : ℕ} (hp : (I, p, q) ∈ nyInterpOrders)
    {acc : ℝ → E × E → E} {t0 : ℝ} {y0 : E × E}
    (ha : ContDiffAt ℝ ∞ (fun z : ℝ × (E × E) => acc z.1 z.2) (t0, y0))
    (hv : I.R.hasAp = false → ∀ t u v w, acc t (u, v) = acc t (u, w))
    {k : ℝ → ℕ → E} {yNew : ℝ → E × E} (hk : ∀ h, IsNyStep (I.R.tab ℝ) acc t0 y0 h (k h) (yNew h))
    (a0 a1 : ℝ → E) (θ : ℝ → ℝ) (M : ℝ) (hθ : ∀ h, |θ h| ≤ M)
    (y : ℝ → E × E) (hy0 : y t0 = y0) (hy : ∀ᶠ t in 𝓝 t0, HasDerivAt y ((y t).2, acc t (y t)) t) :
    (fun h => (nyHorner acc I.R.s I.l I.P I.Pp ⟨t0, t0 + h, y0, yNew h, a0 h, a1 h, k h⟩
        (t0 + θ h * h)).1 - (y (t0 + θ h * h)).1) =O[𝓝 0] (fun h : ℝ => h ^ (p + 1)) ∧
    (fun h => (nyHorner acc I.R.s I.l I.P I.Pp ⟨t0, t0 + h, y0, yNew h, a0 h, a1 h, k h⟩
        (t0 + θ h * h)).2 - (y (t0 + θ h * h)).2) =O[𝓝 0] (fun h : ℝ => h ^ (q + 1)) := by
  have hI : I.OK := by
    apply nyInterp_ok
    simp only [nyInterpOrders, List.mem_cons, Prod.mk.injEq, List.not_mem_nil, or_false] at hp ⊢
    tauto
  obtain ⟨-, -, -, -, h5, h6⟩ := nyInterp_check _ hp
  dsimp only at h5 h6
  obtain ⟨p, rfl⟩ : ∃ r, p = r + 1 := ⟨p - 1, by omega⟩
  obtain ⟨q, rfl⟩ : ∃ r, q = r + 1 := ⟨q - 1, by omega⟩
  have hθO : θ =O[𝓝 0] fun _ : ℝ => (1 : ℝ) := by
    apply IsBigO.of_bound M
    apply Eventually.of_forall
    intro h; simpa using hθ h
  have hst : ∀ i, i < I.n → ∀ᶠ h in 𝓝 (0 : ℝ), nyExtra acc t0 y0 h (I.R.s + 1) I.l (k h) i =
      acc (t0 + nyExtC I i * h)
      (y0.1 + (nyExtC I i * h) • y0.2 + h ^ 2 • ∑ j ∈ range I.n, nyExtA I i j •
          nyExtra acc t0 y0 h (I.R.s + 1) I.l (k h) j,
       y0.2 + h • ∑ j ∈ range I.n, nyExtAp I i j • nyExtra acc t0 y0 h (I.R.s + 1) I.l (k h) j) :=
    fun i hi => Eventually.of_forall fun h => nyExt_stage hI (hk h) i hi
  have hA0 : ∀ i, i < I.n → ∀ j, j < I.n → i ≤ j → nyExtA I i j = 0 ∧ nyExtAp I i j = 0 := by
    intro i hi j hj hij
    have hn : I.n = I.R.s + 1 + I.l.length := rfl
    unfold nyExtA nyExtAp
    by_cases his : i < I.R.s + 1
    · rw [(hI.stage i his j hj).1, (hI.stage i his j hj).2]
      unfold NTableau.fullA NTableau.fullAp
      rw [if_neg (show ¬ j < i by omega), if_neg (show ¬ j < i by omega)]
      simp
    · obtain ⟨m, rfl⟩ : ∃ m, i = I.R.s + 1 + m := ⟨i - (I.R.s + 1), by omega⟩
      rw [(hI.extra m (by omega) j hj).1, (hI.extra m (by omega) j hj).2, if_neg (by omega),
        if_neg (by omega)]
      simp
  have hbd := explicit_bounded_ny hA0 ha.continuousAt hst
  have hpw : ∀ i, i < I.n → (fun h => θ h * pWeight ℝ I.P i (θ h)) =O[𝓝 0] fun _ : ℝ => (1 : ℝ) := by
    intro i _
    refine (hθO.mul (pWeight_bounded I.P i hθO)).congr_right ?_
    intro h; simp
  constructor
  · have := (local_error_ny_var I.R.hasAp ha hv hst hbd (fun h i => θ h * pWeight ℝ I.P i (θ h)) θ p
      hpw hθO y hy0 hy).1 (fun h f hf ho => (ny_conds hp hI (θ h) f hf).1 ho)
    refine this.congr_left ?_
    intro h
    rw [nyHorner_scaled]
  · have := (local_error_ny_var I.R.hasAp ha hv hst hbd (fun h i => pWeight ℝ I.Pp i (θ h)) θ q
      (fun i _ => pWeight_bounded I.Pp i hθO) hθO y hy0 hy).2 (fun h f hf ho => (ny_conds hp hI (θ h) f hf).2 ho)
    refine this.congr_left ?_
    intro h
    rw [nyHorner_scaled]

end Extensisq
