import Verif.Lemmas.BSeriesN
import Verif.Lemmas.NTreeCheck
import Mathlib.Tactic.Module

/-! # Local error of Nystrom methods for `u'' = acc(t, u, u')` -/

set_option linter.unusedSectionVars false

namespace Extensisq
open scoped ContDiff
open Finset Asymptotics Filter Topology

variable {E : Type*} [NormedAddCommGroup E] [NormedSpace ℝ E]

/-- Velocity independent accelerations: trees with a `dot` below the root do not occur. -/
theorem diff_velFree (pb : FormalMultilinearSeries ℝ E E) (v0 : E) (t : NTree) (ht : ¬ t.velFree) :
    (t.diff (pb.compContinuousLinearMap (ContinuousLinearMap.fst ℝ E E)) v0).1 = 0 := by
  induction t with
  | vel => exact absurd trivial ht
  | dot k c _ => rfl
  | pos k c ih =>
    simp only [NTree.velFree, not_forall] at ht
    obtain ⟨l, hl⟩ := ht
    simp only [NTree.diff]
    exact (pb k).map_coord_zero l (ih l hl)

theorem diff_velFreeForest (pb : FormalMultilinearSeries ℝ E E) (v0 : E) (q : NForest)
    (hq : ¬ velFreeForest q) :
    q.diff (pb.compContinuousLinearMap (ContinuousLinearMap.fst ℝ E E)) v0 = 0 := by
  unfold velFreeForest at hq
  rw [not_forall] at hq
  obtain ⟨l, hl⟩ := hq
  exact (pb q.1).map_coord_zero l (diff_velFree pb v0 _ hl)

/-- Taylor series of the problem with time as additional position: position `(t, u)`, velocity `(1, v)`. -/
theorem ny_augmented (vd : Bool) {acc : ℝ → E × E → E} {t0 : ℝ}
    {y0 : E × E} (ha : ContDiffAt ℝ ∞ (fun z : ℝ × (E × E) => acc z.1 z.2) (t0, y0))
    (hvd : vd = false → ∀ t u v w, acc t (u, v) = acc t (u, w)) :
    ∃ p : FormalMultilinearSeries ℝ ((ℝ × E) × (ℝ × E)) (ℝ × E),
      TaylorAt (fun z : (ℝ × E) × (ℝ × E) => ((0 : ℝ), acc z.1.1 (z.1.2, z.2.2))) p
        ((t0, y0.1), (1, y0.2)) ∧ ∀ q, ¬ okVd vd q → q.diff p ((1 : ℝ), y0.2) = 0 := by
  -- augmented problem: position (t, u), velocity (1, v)
  let a' : (ℝ × E) × (ℝ × E) → ℝ × E := fun z => (0, acc z.1.1 (z.1.2, z.2.2))
  let y0' : (ℝ × E) × (ℝ × E) := ((t0, y0.1), (1, y0.2))
  cases vd with
  | true =>
    have h1 : ContDiffAt ℝ ∞ a' y0' := by
      refine contDiffAt_const.prodMk ?_
      have hL : ContDiffAt ℝ ∞ (fun z : (ℝ × E) × (ℝ × E) => (z.1.1, (z.1.2, z.2.2))) y0' :=
        ContDiff.contDiffAt (by fun_prop)
      exact ContDiffAt.comp y0' (f := fun z : (ℝ × E) × (ℝ × E) => (z.1.1, (z.1.2, z.2.2)))
        (g := fun z : ℝ × (E × E) => acc z.1 z.2) ha hL
    obtain ⟨p, hp⟩ := exists_taylorAt h1
    exact ⟨p, hp, fun q hq => absurd (Or.inl rfl) hq⟩
  | false =>
    let b' : ℝ × E → ℝ × E := fun z => (0, acc z.1 (z.2, y0.2))
    have h1 : ContDiffAt ℝ ∞ b' (t0, y0.1) := by
      refine contDiffAt_const.prodMk ?_
      have hL : ContDiffAt ℝ ∞ (fun z : ℝ × E => (z.1, (z.2, y0.2))) (t0, y0.1) :=
        ContDiff.contDiffAt (by fun_prop)
      exact ContDiffAt.comp (t0, y0.1) (f := fun z : ℝ × E => (z.1, (z.2, y0.2)))
        (g := fun z : ℝ × (E × E) => acc z.1 z.2) ha hL
    obtain ⟨pb, hpb⟩ := exists_taylorAt h1
    refine ⟨pb.compContinuousLinearMap (ContinuousLinearMap.fst ℝ (ℝ × E) (ℝ × E)), ?_, ?_⟩
    · have e : a' = b' ∘ (ContinuousLinearMap.fst ℝ (ℝ × E) (ℝ × E)) := by
        funext z
        simp only [a', b', Function.comp, ContinuousLinearMap.coe_fst']
        rw [hvd rfl _ _ _ y0.2]
      change TaylorAt a' _ y0'
      rw [e]
      exact TaylorAt.compContinuousLinearMap (x := y0') hpb
    · intro q hq
      exact diff_velFreeForest _ _ _ fun h => hq (Or.inr h)

/-- Local error for `u'' = acc(t, u, u')`; with `vd = false` the acceleration may not depend on the
velocity and only the order conditions of that case are needed. -/
theorem local_error_ny (vd : Bool) {n : ℕ} {A Ap : ℕ → ℕ → ℝ} {C : ℕ → ℝ} {acc : ℝ → E × E → E} {t0 : ℝ}
    {y0 : E × E} (ha : ContDiffAt ℝ ∞ (fun z : ℝ × (E × E) => acc z.1 z.2) (t0, y0))
    (hvd : vd = false → ∀ t u v w, acc t (u, v) = acc t (u, w)) {k : ℝ → ℕ → E}
    (hk : ∀ i, i < n → ∀ᶠ h in 𝓝 (0 : ℝ), k h i = acc (t0 + C i * h)
      (y0.1 + (C i * h) • y0.2 + h ^ 2 • ∑ j ∈ range n, A i j • k h j,
       y0.2 + h • ∑ j ∈ range n, Ap i j • k h j))
    (hb : ∀ i, i < n → (fun h => k h i) =O[𝓝 0] fun _ : ℝ => (1 : ℝ)) :
    (∀ (B Bp : ℕ → ℝ) (r : ℕ), 1 ≤ r → NyOrder (okVd vd) n A Ap C B Bp r →
      ∀ y : ℝ → E × E, y t0 = y0 → (∀ᶠ t in 𝓝 t0, HasDerivAt y ((y t).2, acc t (y t)) t) →
      (fun h => (y0.1 + h • y0.2 + h ^ 2 • ∑ j ∈ range n, B j • k h j,
        y0.2 + h • ∑ j ∈ range n, Bp j • k h j) - y (t0 + h)) =O[𝓝 0] fun h : ℝ => h ^ (r + 1)) ∧
    (∀ (e ep : ℕ → ℝ) (r : ℕ), NyError (okVd vd) n A Ap C e ep r →
      (fun h => (h ^ 2 • ∑ j ∈ range n, e j • k h j, h • ∑ j ∈ range n, ep j • k h j))
        =O[𝓝 0] fun h : ℝ => h ^ (r + 1)) := by
  -- augmented problem: position (t, u), velocity (1, v)
  let a' : (ℝ × E) × (ℝ × E) → ℝ × E := fun z => (0, acc z.1.1 (z.1.2, z.2.2))
  let y0' : (ℝ × E) × (ℝ × E) := ((t0, y0.1), (1, y0.2))
  obtain ⟨p, hp, hok⟩ := ny_augmented vd ha hvd
  have hsum : ∀ (c : ℕ → ℝ) (h : ℝ), ∑ j ∈ range n, c j • ((0 : ℝ), k h j) =
      ((0 : ℝ), ∑ j ∈ range n, c j • k h j) := by
    intro c h
    rw [Prod.ext_iff]
    simp [Prod.fst_sum, Prod.snd_sum]
  obtain ⟨h1, h2⟩ := local_error_ny_auto (n := n) (A := A) (Ap := Ap) (C := C) (a := a') (y0 := y0') hp
    (k := fun h i => ((0 : ℝ), k h i))
    (by
      intro i hi
      filter_upwards [hk i hi] with h hh
      simp only [hsum]
      apply Prod.ext
      · simp [a']
      · simp only [a', y0', Prod.smul_mk, Prod.mk_add_mk]
        rw [hh]
        congr 1
        · simp
        · apply Prod.ext
          · simp only; abel
          · rfl)
    (by
      intro i hi
      exact (isBigO_const_const (0 : ℝ) one_ne_zero _).prod_left (hb i hi))
    (okVd vd) hok
  constructor
  · intro B Bp r hr1 hr y hy0 hy
    have hadd : Tendsto (fun h : ℝ => t0 + h) (𝓝 0) (𝓝 t0) := by
      have : ContinuousAt (fun h : ℝ => t0 + h) 0 := by fun_prop
      simpa [ContinuousAt] using this
    have h3 := h1 B Bp r hr1 hr (fun h => ((t0 + h, (y (t0 + h)).1), (1, (y (t0 + h)).2)))
      (by simp [hy0, y0']) (by
        filter_upwards [hadd.eventually hy] with h hh
        have hc : HasDerivAt (fun h => y (t0 + h)) _ h := HasDerivAt.comp_const_add t0 h hh
        have hc1 := (ContinuousLinearMap.fst ℝ E E).hasFDerivAt.comp_hasDerivAt h hc
        have hc2 := (ContinuousLinearMap.snd ℝ E E).hasFDerivAt.comp_hasDerivAt h hc
        refine HasDerivAt.prodMk (HasDerivAt.prodMk ?_ ?_) (HasDerivAt.prodMk ?_ ?_)
        · simpa using (hasDerivAt_id h).const_add t0
        · exact hc1
        · exact hasDerivAt_const _ _
        · exact hc2)
    have h4 := isBigO_prod_left.mp h3
    have h5 := (isBigO_prod_left.mp h4.1).2
    have h6 := (isBigO_prod_left.mp h4.2).2
    refine (h5.prod_left h6).congr_left ?_
    intro h
    simp only [hsum]
    apply Prod.ext
    · simp [y0']; abel
    · simp [y0']
  · intro e ep r hr
    have h4 := isBigO_prod_left.mp (h2 e ep r hr)
    have h5 := (isBigO_prod_left.mp h4.1).2
    have h6 := (isBigO_prod_left.mp h4.2).2
    refine (h5.prod_left h6).congr_left ?_
    intro h
    simp only [hsum]

/-- Explicit methods: boundedness of the stages is automatic. -/
theorem explicit_bounded_ny {n : ℕ} {A Ap : ℕ → ℕ → ℝ} {C : ℕ → ℝ}
    (hA0 : ∀ i, i < n → ∀ j, j < n → i ≤ j → A i j = 0 ∧ Ap i j = 0) {acc : ℝ → E × E → E} {t0 : ℝ}
    {y0 : E × E} (ha : ContinuousAt (fun z : ℝ × (E × E) => acc z.1 z.2) (t0, y0)) {k : ℝ → ℕ → E}
    (hk : ∀ i, i < n → ∀ᶠ h in 𝓝 (0 : ℝ), k h i = acc (t0 + C i * h)
      (y0.1 + (C i * h) • y0.2 + h ^ 2 • ∑ j ∈ range n, A i j • k h j,
       y0.2 + h • ∑ j ∈ range n, Ap i j • k h j)) :
    ∀ i, i < n → (fun h => k h i) =O[𝓝 0] fun _ : ℝ => (1 : ℝ) := by
  intro i
  induction i using Nat.strong_induction_on with
  | _ i ih =>
    intro hi
    have hS : ∀ c : ℕ → ℝ, (∀ j, j < n → i ≤ j → c j = 0) →
        (fun h : ℝ => ∑ j ∈ range n, c j • k h j) =O[𝓝 0] fun _ : ℝ => (1 : ℝ) := by
      intro c hc
      apply IsBigO.fun_sum
      intro j hj
      by_cases hji : j < i
      · exact (ih j hji (mem_range.mp hj)).const_smul_left _
      · simp only [hc j (mem_range.mp hj) (by omega), zero_smul]
        exact isBigO_zero _ _
    have hT : ∀ (c : ℕ → ℝ) (m : ℕ), 0 < m → (∀ j, j < n → i ≤ j → c j = 0) →
        Tendsto (fun h : ℝ => h ^ m • ∑ j ∈ range n, c j • k h j) (𝓝 0) (𝓝 0) := by
      intro c m hm hc
      have h2 : (fun h : ℝ => h ^ m • ∑ j ∈ range n, c j • k h j) =O[𝓝 0] fun h : ℝ => h ^ m := by
        refine ((isBigO_refl (fun h : ℝ => h ^ m) (𝓝 0)).smul (hS c hc)).congr_right ?_
        intro h; simp
      refine h2.trans_tendsto ?_
      have : ContinuousAt (fun h : ℝ => h ^ m) 0 := by fun_prop
      simpa [ContinuousAt, hm.ne'] using this
    have hz1 : Tendsto (fun h : ℝ => y0.1 + (C i * h) • y0.2 + h ^ 2 • ∑ j ∈ range n, A i j • k h j)
        (𝓝 0) (𝓝 y0.1) := by
      have h3 : Tendsto (fun h : ℝ => y0.1 + (C i * h) • y0.2) (𝓝 0) (𝓝 y0.1) := by
        have : ContinuousAt (fun h : ℝ => y0.1 + (C i * h) • y0.2) 0 := by fun_prop
        simpa [ContinuousAt] using this
      have := h3.add (hT (A i) 2 (by norm_num) fun j hj hij => (hA0 i hi j hj hij).1)
      simpa using this
    have hz2 : Tendsto (fun h : ℝ => y0.2 + h • ∑ j ∈ range n, Ap i j • k h j) (𝓝 0) (𝓝 y0.2) := by
      have := (hT (Ap i) 1 (by norm_num) fun j hj hij => (hA0 i hi j hj hij).2).const_add y0.2
      simpa using this
    have ht0 : Tendsto (fun h : ℝ => t0 + C i * h) (𝓝 0) (𝓝 t0) := by
      have : ContinuousAt (fun h : ℝ => t0 + C i * h) 0 := by fun_prop
      simpa [ContinuousAt] using this
    have h3 := ha.tendsto.comp (ht0.prodMk_nhds (hz1.prodMk_nhds hz2))
    refine (h3.isBigO_one ℝ).congr' ?_ (EventuallyEq.refl _ _)
    filter_upwards [hk i hi] with h hh
    rw [hh]
    rfl

end Extensisq
