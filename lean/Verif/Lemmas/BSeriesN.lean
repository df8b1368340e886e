import Verif.Lemmas.NSeries
import Mathlib.Analysis.Calculus.Deriv.Prod
import Mathlib.Analysis.Calculus.Deriv.Shift

/-! # Expansion of the exact solution and of a Nystrom step in trees -/

set_option linter.unusedSectionVars false

namespace Extensisq
open scoped ContDiff
open Finset Asymptotics Filter Topology

variable {E : Type*} [NormedAddCommGroup E] [NormedSpace ℝ E]

theorem NTree.ord_pos (t : NTree) : 1 ≤ t.ord := by
  cases t <;> simp only [NTree.ord] <;> omega

theorem NTree.finite_ord (n : ℕ) : {t : NTree | t.ord ≤ n}.Finite := by
  induction n with
  | zero =>
    apply Set.Finite.subset Set.finite_empty
    intro t ht
    have := t.ord_pos
    simp only [Set.mem_ofPred_eq] at ht
    omega
  | succ n ih =>
    haveI : Finite {t : NTree // t.ord ≤ n} := ih
    let Q := Σ k : Fin (n + 1), Fin k → {t : NTree // t.ord ≤ n}
    have : {t : NTree | t.ord ≤ n + 1} ⊆ {NTree.vel} ∪
        (Set.range (fun q : Q => NTree.pos q.1 fun l => (q.2 l).1) ∪
         Set.range (fun q : Q => NTree.dot q.1 fun l => (q.2 l).1)) := by
      intro t ht
      have key : ∀ (k : ℕ) (c : Fin k → NTree), 1 + ∑ l, (c l).ord ≤ n + 1 →
          ∃ q : Q, (⟨(q.1 : ℕ), fun l => (q.2 l).1⟩ : NForest) = ⟨k, c⟩ := by
        intro k c ht
        have h1 : ∀ l, (c l).ord ≤ n := by
          intro l
          have := single_le_sum (f := fun l => (c l).ord) (fun _ _ => Nat.zero_le _) (mem_univ l)
          omega
        have h2 : k < n + 1 := by
          have : ∑ l : Fin k, 1 ≤ ∑ l, (c l).ord := sum_le_sum fun l _ => (c l).ord_pos
          simp only [sum_const, card_univ, Fintype.card_fin, smul_eq_mul, mul_one] at this
          omega
        exact ⟨⟨⟨k, h2⟩, fun l => ⟨c l, h1 l⟩⟩, rfl⟩
      cases t with
      | vel => left; rfl
      | pos k c =>
        simp only [Set.mem_ofPred_eq, NTree.ord] at ht
        obtain ⟨q, hq⟩ := key k c (by omega)
        right; left
        refine ⟨q, ?_⟩
        simp only [Sigma.mk.injEq] at hq
        obtain ⟨h1, h2⟩ := hq
        subst h1
        rw [← eq_of_heq h2]
      | dot k c =>
        simp only [Set.mem_ofPred_eq, NTree.ord] at ht
        obtain ⟨q, hq⟩ := key k c (by omega)
        right; right
        refine ⟨q, ?_⟩
        simp only [Sigma.mk.injEq] at hq
        obtain ⟨h1, h2⟩ := hq
        subst h1
        rw [← eq_of_heq h2]
    exact ((Set.finite_singleton _).union ((Set.finite_range _).union (Set.finite_range _))).subset this

/-- Elementary differential of a tree: an increment of (position, velocity). -/
noncomputable def NTree.diff (p : FormalMultilinearSeries ℝ (E × E) E) (v0 : E) : NTree → E × E
  | .vel => (v0, 0)
  | .pos k c => (p k fun l => (c l).diff p v0, 0)
  | .dot k c => (0, p k fun l => (c l).diff p v0)

/-- Acceleration term of a forest. -/
noncomputable def NForest.diff (p : FormalMultilinearSeries ℝ (E × E) E) (v0 : E) (q : NForest) : E :=
  p q.1 fun l => (q.2 l).diff p v0

/-- Trees of order at most `n`. -/
noncomputable def ntrees (n : ℕ) : Finset NTree := upTo NTree.ord NTree.finite_ord n

/-- Forests of order below `m`. -/
noncomputable def nforests (m : ℕ) : Finset NForest :=
  (forests_finite NTree.ord NTree.ord_pos NTree.finite_ord m).toFinset

theorem mem_nforests {m : ℕ} {q : NForest} : q ∈ nforests m ↔ q.ord < m := by
  simp [nforests, NForest.ord]

/-- `∑ a(τ) h^ord F(τ)`. -/
noncomputable def nser (p : FormalMultilinearSeries ℝ (E × E) E) (v0 : E) (n : ℕ) (a : NTree → ℝ)
    (h : ℝ) : E × E :=
  ∑ t ∈ ntrees n, (a t * h ^ t.ord) • t.diff p v0

/-- `∑ w(q) h^(ord q + e) F(q)` over forests of order below `m`. -/
noncomputable def fser (p : FormalMultilinearSeries ℝ (E × E) E) (v0 : E) (m e : ℕ) (w : NForest → ℝ)
    (h : ℝ) : E :=
  ∑ q ∈ nforests m, (w q * h ^ (q.ord + e)) • q.diff p v0

/-- The trees of order at most `n`, by root. -/
theorem nser_split (p : FormalMultilinearSeries ℝ (E × E) E) (v0 : E) (n : ℕ) (a : NTree → ℝ) (h : ℝ) :
    nser p v0 (n + 1) a h =
      ((a .vel * h) • v0 + fser p v0 n 2 (fun q => a (.pos q.1 q.2)) h,
       fser p v0 (n + 1) 1 (fun q => a (.dot q.1 q.2)) h) := by
  classical
  let iP : NForest → NTree := fun q => .pos q.1 q.2
  let iD : NForest → NTree := fun q => .dot q.1 q.2
  have hP : Function.Injective iP := by
    rintro ⟨k, c⟩ ⟨k', c'⟩ h
    simp only [iP, NTree.pos.injEq] at h
    obtain ⟨rfl, h⟩ := h
    rw [eq_of_heq h]
  have hD : Function.Injective iD := by
    rintro ⟨k, c⟩ ⟨k', c'⟩ h
    simp only [iD, NTree.dot.injEq] at h
    obtain ⟨rfl, h⟩ := h
    rw [eq_of_heq h]
  have hset : ntrees (n + 1) = {NTree.vel} ∪ ((nforests n).image iP ∪ (nforests (n + 1)).image iD) := by
    ext t
    rw [mem_union, mem_union, mem_singleton, mem_image, mem_image]
    unfold ntrees
    rw [mem_upTo]
    cases t with
    | vel => simp [NTree.ord]
    | pos k c =>
      constructor
      · intro ht
        simp only [NTree.ord] at ht
        exact Or.inr (Or.inl ⟨⟨k, c⟩, mem_nforests.mpr (by simp only [NForest.ord]; omega), rfl⟩)
      · rintro (h | ⟨q, hq, h⟩ | ⟨q, hq, h⟩)
        · cases h
        · rw [← h]
          rw [mem_nforests] at hq
          simp only [iP, NTree.ord, NForest.ord] at hq ⊢
          omega
        · simp [iD] at h
    | dot k c =>
      constructor
      · intro ht
        simp only [NTree.ord] at ht
        exact Or.inr (Or.inr ⟨⟨k, c⟩, mem_nforests.mpr (by simp only [NForest.ord]; omega), rfl⟩)
      · rintro (h | ⟨q, hq, h⟩ | ⟨q, hq, h⟩)
        · cases h
        · simp [iP] at h
        · rw [← h]
          rw [mem_nforests] at hq
          simp only [iD, NTree.ord, NForest.ord] at hq ⊢
          omega
  unfold nser
  rw [hset, sum_union, sum_union, sum_singleton, sum_image (fun x _ y _ hxy => hP hxy),
    sum_image (fun x _ y _ hxy => hD hxy)]
  · have e1 : ∀ q : NForest, (a (iP q) * h ^ (iP q).ord) • (iP q).diff p v0 =
        ((a (iP q) * h ^ (q.ord + 2)) • q.diff p v0, 0) := by
      intro q
      simp only [iP, NTree.ord, NTree.diff, NForest.ord, NForest.diff, Prod.smul_mk, smul_zero]
      rw [add_comm 2]
    have e2 : ∀ q : NForest, (a (iD q) * h ^ (iD q).ord) • (iD q).diff p v0 =
        (0, (a (iD q) * h ^ (q.ord + 1)) • q.diff p v0) := by
      intro q
      simp only [iD, NTree.ord, NTree.diff, NForest.ord, NForest.diff, Prod.smul_mk, smul_zero]
      rw [add_comm 1]
    simp only [e1, e2, NTree.ord, NTree.diff]
    rw [Prod.ext_iff]
    simp [Prod.fst_sum, Prod.snd_sum, fser, iP, iD]
  · rw [Finset.disjoint_left]
    intro t h1 h2
    rw [mem_image] at h1 h2
    obtain ⟨q, _, rfl⟩ := h1
    obtain ⟨q', _, h⟩ := h2
    simp [iP, iD] at h
  · rw [Finset.disjoint_left]
    intro t h1 h2
    rw [mem_singleton] at h1
    rw [mem_union, mem_image, mem_image] at h2
    subst h1
    rcases h2 with ⟨q, _, h⟩ | ⟨q, _, h⟩ <;> simp [iP, iD] at h

/-- Dropping the forests of the highest order. -/
theorem fser_succ (p : FormalMultilinearSeries ℝ (E × E) E) (v0 : E) (m e : ℕ) (w : NForest → ℝ) :
    (fun h => fser p v0 (m + 1) e w h - fser p v0 m e w h) =O[𝓝 0] fun h : ℝ => h ^ (m + e) := by
  classical
  have hs : nforests m ⊆ nforests (m + 1) := by
    intro q hq; rw [mem_nforests] at *; omega
  have : ∀ h, fser p v0 (m + 1) e w h - fser p v0 m e w h =
      ∑ q ∈ nforests (m + 1) \ nforests m, (w q * h ^ (q.ord + e)) • q.diff p v0 := by
    intro h
    unfold fser
    rw [← sum_sdiff hs]
    simp
  simp only [this]
  apply IsBigO.fun_sum
  intro q hq
  rw [Finset.mem_sdiff, mem_nforests, mem_nforests] at hq
  refine (term_isBigO _ _ _).trans (isBigO_pow_pow (by omega))

/-- The expansion of the acceleration from the expansion of the increment. -/
theorem comp_nser {a : E × E → E} {y0 : E × E} {p : FormalMultilinearSeries ℝ (E × E) E}
    (ha : TaylorAt a p y0) (n : ℕ) (c : NTree → ℝ) {z : ℝ → E × E}
    (hz : (fun h => z h - nser p y0.2 n c h) =O[𝓝 0] fun h : ℝ => h ^ (n + 1)) :
    (fun h => a (y0 + z h) - fser p y0.2 (n + 1) 0 (fun q => ∏ l, c (q.2 l)) h)
      =O[𝓝 0] fun h : ℝ => h ^ (n + 1) :=
  comp_series NTree.ord NTree.ord_pos NTree.finite_ord (NTree.diff p y0.2) c ha n hz

theorem hasDerivAt_fser (p : FormalMultilinearSeries ℝ (E × E) E) (v0 : E) (m e : ℕ) (w : NForest → ℝ)
    (h : ℝ) : HasDerivAt (fser p v0 m (e + 1) fun q => w q / ((q.ord : ℝ) + (e + 1)))
      (fser p v0 m e w h) h := by
  unfold fser
  apply HasDerivAt.fun_sum
  intro q _
  apply HasDerivAt.smul_const
  have := (hasDerivAt_pow (q.ord + (e + 1)) h).const_mul (w q / ((q.ord : ℝ) + (e + 1)))
  convert this using 1
  rw [show q.ord + (e + 1) - 1 = q.ord + e by omega]
  have : ((q.ord : ℝ) + (e + 1)) ≠ 0 := by positivity
  push_cast
  field_simp

theorem fser_zero (p : FormalMultilinearSeries ℝ (E × E) E) (v0 : E) (m e : ℕ) (w : NForest → ℝ) :
    fser p v0 m (e + 1) w 0 = 0 := by
  unfold fser
  apply sum_eq_zero
  intro q _
  rw [zero_pow (by omega), mul_zero, zero_smul]

/-- Exact solution of `u' = v, v' = a(u, v)`. -/
theorem exact_nser {a : E × E → E} {y0 : E × E} {p : FormalMultilinearSeries ℝ (E × E) E}
    (ha : TaylorAt a p y0) {y : ℝ → E × E} (h0 : y 0 = y0)
    (hy : ∀ᶠ h in 𝓝 (0 : ℝ), HasDerivAt y ((y h).2, a (y h)) h) (n : ℕ) :
    (fun h => y h - y0 - nser p y0.2 n NTree.exact h) =O[𝓝 0] fun h : ℝ => h ^ (n + 1) := by
  have hu : ∀ᶠ h in 𝓝 (0 : ℝ), HasDerivAt (fun h => (y h).1) (y h).2 h :=
    hy.mono fun h hh => (ContinuousLinearMap.fst ℝ E E).hasFDerivAt.comp_hasDerivAt h hh
  have hv : ∀ᶠ h in 𝓝 (0 : ℝ), HasDerivAt (fun h => (y h).2) (a (y h)) h :=
    hy.mono fun h hh => (ContinuousLinearMap.snd ℝ E E).hasFDerivAt.comp_hasDerivAt h hh
  induction n with
  | zero =>
    have e : ∀ h, nser p y0.2 0 NTree.exact h = 0 := by
      intro h
      unfold nser
      apply sum_eq_zero
      intro t ht
      unfold ntrees at ht
      rw [mem_upTo] at ht
      have := t.ord_pos
      omega
    have := hy.self_of_nhds.isBigO_sub
    simp only [h0, sub_zero] at this
    simp only [e, sub_zero, zero_add, pow_one]
    exact this
  | succ n ih =>
    have hc := comp_nser ha n NTree.exact (z := fun h => y h - y0) ih
    simp only [add_sub_cancel] at hc
    set W : NForest → ℝ := fun q => ∏ l, (q.2 l).exact with hW
    -- velocity
    have h1 : (fun h => (y h).2 - y0.2 - fser p y0.2 (n + 1) 1 (fun q => W q / ((q.ord : ℝ) + ((0 : ℕ) + 1))) h)
        =O[𝓝 0] fun h : ℝ => h ^ (n + 1 + 1) := by
      refine isBigO_of_deriv (by simp [h0, fser_zero]) ?_ hc
      filter_upwards [hv] with h hh
      exact (hh.sub_const y0.2).sub (hasDerivAt_fser p y0.2 (n + 1) 0 W h)
    -- position
    have h2 : (fun h => (y h).1 - y0.1 - (h • y0.2 + fser p y0.2 (n + 1) 2
        (fun q => W q / ((q.ord : ℝ) + ((0 : ℕ) + 1)) / ((q.ord : ℝ) + ((1 : ℕ) + 1))) h))
        =O[𝓝 0] fun h : ℝ => h ^ (n + 1 + 1 + 1) := by
      refine isBigO_of_deriv (r' := fun h => (y h).2 - (y0.2 + fser p y0.2 (n + 1) 1
        (fun q => W q / ((q.ord : ℝ) + ((0 : ℕ) + 1))) h)) (by simp [h0, fser_zero]) ?_ ?_
      · filter_upwards [hu] with h hh
        refine (hh.sub_const y0.1).sub (HasDerivAt.add ?_ (hasDerivAt_fser p y0.2 (n + 1) 1 _ h))
        simpa using (hasDerivAt_id h).smul_const y0.2
      · refine h1.congr_left ?_
        intro h
        abel
    have h3 := (h2.trans (isBigO_pow_pow (show n + 1 + 1 ≤ n + 1 + 1 + 1 by omega))).add
      (fser_succ p y0.2 n 2
        (fun q => W q / ((q.ord : ℝ) + ((0 : ℕ) + 1)) / ((q.ord : ℝ) + ((1 : ℕ) + 1))))
    refine (h3.prod_left h1).congr_left ?_
    intro h
    rw [nser_split, Prod.ext_iff]
    have e1 : (fun q : NForest => (NTree.pos q.1 q.2).exact (K := ℝ)) =
        fun q => W q / ((q.ord : ℝ) + ((0 : ℕ) + 1)) / ((q.ord : ℝ) + ((1 : ℕ) + 1)) := by
      funext q
      simp only [NTree.exact, hW, NForest.ord]
      rw [div_div]
      congr 1
      push_cast
      ring
    have e2 : (fun q : NForest => (NTree.dot q.1 q.2).exact (K := ℝ)) =
        fun q => W q / ((q.ord : ℝ) + ((0 : ℕ) + 1)) := by
      funext q
      simp only [NTree.exact, hW, NForest.ord]
      congr 1
      push_cast
      ring
    rw [e1, e2]
    constructor
    · simp only [NTree.exact, one_mul, Prod.fst_sub]
      abel
    · simp only [Prod.snd_sub]

/-- Weighted sums of the stage accelerations. -/
theorem weighted_fser {p : FormalMultilinearSeries ℝ (E × E) E} {v0 : E} {n m : ℕ} (e : ℕ)
    {k : ℝ → ℕ → E} (c : ℕ → ℝ) (w : ℕ → NForest → ℝ)
    (hk : ∀ j, j < n → (fun h => k h j - fser p v0 m 0 (w j) h) =O[𝓝 0] fun h : ℝ => h ^ m) :
    (fun h => h ^ e • ∑ j ∈ range n, c j • k h j -
      fser p v0 m e (fun q => ∑ j ∈ range n, c j * w j q) h) =O[𝓝 0] fun h : ℝ => h ^ (m + e) := by
  have e' : ∀ h : ℝ, h ^ e • ∑ j ∈ range n, c j • k h j -
      fser p v0 m e (fun q => ∑ j ∈ range n, c j * w j q) h =
      ∑ j ∈ range n, h ^ e • c j • (k h j - fser p v0 m 0 (w j) h) := by
    intro h
    simp only [smul_sub, sum_sub_distrib, ← smul_sum]
    congr 1
    unfold fser
    simp only [smul_sum]
    rw [sum_comm]
    apply sum_congr rfl
    intro q _
    rw [sum_mul, sum_smul]
    apply sum_congr rfl
    intro j _
    rw [smul_smul, smul_smul]
    congr 1
    rw [pow_add, add_zero]
    ring
  simp only [e']
  apply IsBigO.fun_sum
  intro j hj
  have h1 := (hk j (mem_range.mp hj)).const_smul_left (c j)
  have h2 := (isBigO_refl (fun h : ℝ => h ^ e) (𝓝 0)).smul h1
  refine h2.congr_right ?_
  intro h
  rw [smul_eq_mul, pow_add]; ring

/-- Expansion of an increment computed from the stages. -/
theorem incr_nser {p : FormalMultilinearSeries ℝ (E × E) E} {v0 : E} {n m : ℕ}
    {k : ℝ → ℕ → E} (b bp : ℕ → ℝ) (c : ℝ) (w : ℕ → NForest → ℝ) (W : NTree → ℝ)
    (hWv : W .vel = c) (hWp : ∀ q : NForest, W (.pos q.1 q.2) = ∑ j ∈ range n, b j * w j q)
    (hWd : ∀ q : NForest, W (.dot q.1 q.2) = ∑ j ∈ range n, bp j * w j q)
    (hk : ∀ j, j < n → (fun h => k h j - fser p v0 m 0 (w j) h) =O[𝓝 0] fun h : ℝ => h ^ m) :
    (fun h => (h ^ 2 • (∑ j ∈ range n, b j • k h j) + (c * h) • v0, h • ∑ j ∈ range n, bp j • k h j) -
      nser p v0 m W h) =O[𝓝 0] fun h : ℝ => h ^ (m + 1) := by
  have h1 := weighted_fser (p := p) (v0 := v0) 2 b w hk
  have h2 := weighted_fser (p := p) (v0 := v0) 1 bp w hk
  have h1' := h1.trans (isBigO_pow_pow (show m + 1 ≤ m + 2 by omega))
  cases m with
  | zero =>
    have e : ∀ h, nser p v0 0 W h = 0 := by
      intro h
      unfold nser
      apply sum_eq_zero
      intro t ht
      unfold ntrees at ht
      rw [mem_upTo] at ht
      have := t.ord_pos
      omega
    have e0 : ∀ (e : ℕ) (w : NForest → ℝ) (h : ℝ), fser p v0 0 e w h = 0 := by
      intro e w h
      unfold fser
      apply sum_eq_zero
      intro q hq
      rw [mem_nforests] at hq
      omega
    simp only [e, e0, sub_zero] at h1' h2 ⊢
    refine IsBigO.prod_left ?_ (by simpa using h2)
    refine h1'.add ?_
    have := term_isBigO c v0 1
    simpa using this
  | succ m =>
    have hs := fser_succ p v0 m 2 (fun q => ∑ j ∈ range n, b j * w j q)
    refine ((h1'.add hs).prod_left h2).congr_left ?_
    intro h
    rw [nser_split, Prod.ext_iff]
    simp only [hWp, hWd, hWv, Prod.fst_sub, Prod.snd_sub, pow_one]
    exact ⟨by abel, trivial⟩

/-- Expansion of bounded stages. -/
theorem stages_nser {n : ℕ} {A Ap : ℕ → ℕ → ℝ} {C : ℕ → ℝ} {a : E × E → E} {y0 : E × E}
    {p : FormalMultilinearSeries ℝ (E × E) E} (ha : TaylorAt a p y0) {k : ℝ → ℕ → E}
    (hk : ∀ i, i < n → ∀ᶠ h in 𝓝 (0 : ℝ), k h i = a (y0 +
      (h ^ 2 • (∑ j ∈ range n, A i j • k h j) + (C i * h) • y0.2, h • ∑ j ∈ range n, Ap i j • k h j)))
    (hb : ∀ i, i < n → (fun h => k h i) =O[𝓝 0] fun _ : ℝ => (1 : ℝ)) :
    ∀ m i, i < n → (fun h => k h i - fser p y0.2 m 0 (fun q => q.weight n A Ap C i) h)
      =O[𝓝 0] fun h : ℝ => h ^ m := by
  intro m
  induction m with
  | zero =>
    intro i hi
    have e : ∀ h, fser p y0.2 0 0 (fun q => q.weight n A Ap C i) h = 0 := by
      intro h
      unfold fser
      apply sum_eq_zero
      intro q hq
      rw [mem_nforests] at hq
      omega
    simpa [e] using hb i hi
  | succ m ih =>
    intro i hi
    have hz := incr_nser (p := p) (v0 := y0.2) (n := n) (m := m) (k := k) (fun j => A i j) (fun j => Ap i j)
      (C i) (fun j q => q.weight n A Ap C j) (fun t => t.weight n A Ap C i) rfl
      (fun q => rfl) (fun q => rfl) ih
    have := comp_nser ha m _ hz
    refine this.congr' ?_ (EventuallyEq.refl _ _)
    filter_upwards [hk i hi] with h hh
    rw [hh]
    rfl

/-- Autonomous problems: local error and error estimate. Conditions are needed only for forests whose
elementary differential does not vanish. -/
theorem local_error_ny_auto {n : ℕ} {A Ap : ℕ → ℕ → ℝ} {C : ℕ → ℝ} {a : E × E → E} {y0 : E × E}
    {p : FormalMultilinearSeries ℝ (E × E) E} (ha : TaylorAt a p y0) {k : ℝ → ℕ → E}
    (hk : ∀ i, i < n → ∀ᶠ h in 𝓝 (0 : ℝ), k h i = a (y0 +
      (h ^ 2 • (∑ j ∈ range n, A i j • k h j) + (C i * h) • y0.2, h • ∑ j ∈ range n, Ap i j • k h j)))
    (hb : ∀ i, i < n → (fun h => k h i) =O[𝓝 0] fun _ : ℝ => (1 : ℝ))
    (ok : NForest → Prop) (hok : ∀ q, ¬ ok q → q.diff p y0.2 = 0) :
    (∀ (B Bp : ℕ → ℝ) (r : ℕ), 1 ≤ r → NyOrder ok n A Ap C B Bp r →
      ∀ y : ℝ → E × E, y 0 = y0 → (∀ᶠ h in 𝓝 (0 : ℝ), HasDerivAt y ((y h).2, a (y h)) h) →
      (fun h => y0 + (h ^ 2 • (∑ j ∈ range n, B j • k h j) + h • y0.2,
        h • ∑ j ∈ range n, Bp j • k h j) - y h) =O[𝓝 0] fun h : ℝ => h ^ (r + 1)) ∧
    (∀ (e ep : ℕ → ℝ) (r : ℕ), NyError ok n A Ap C e ep r →
      (fun h => (h ^ 2 • ∑ j ∈ range n, e j • k h j, h • ∑ j ∈ range n, ep j • k h j))
        =O[𝓝 0] fun h : ℝ => h ^ (r + 1)) := by
  have hst := stages_nser ha hk hb
  let W : (ℕ → ℝ) → (ℕ → ℝ) → ℝ → NTree → ℝ := fun B Bp c t => match t with
    | .vel => c
    | .pos k c => ∑ j ∈ range n, B j * NForest.weight n A Ap C ⟨k, c⟩ j
    | .dot k c => ∑ j ∈ range n, Bp j * NForest.weight n A Ap C ⟨k, c⟩ j
  have hfs : ∀ (m e : ℕ) (w w' : NForest → ℝ) (h : ℝ), (∀ q, q.ord < m → ok q → w q = w' q) →
      fser p y0.2 m e w h = fser p y0.2 m e w' h := by
    intro m e w w' h hw
    unfold fser
    apply sum_congr rfl
    intro q hq
    by_cases ho : ok q
    · rw [hw q (mem_nforests.mp hq) ho]
    · rw [hok q ho, smul_zero, smul_zero]
  constructor
  · intro B Bp r hr ho y h0 hy
    have h1 := incr_nser (p := p) (v0 := y0.2) (n := n) (m := r) (k := k) B Bp 1
      (fun j q => q.weight n A Ap C j) (W B Bp 1) rfl (fun q => rfl) (fun q => rfl) (hst r)
    have h2 := exact_nser ha h0 hy r
    refine (h1.sub h2).congr_left ?_
    intro h
    obtain ⟨r, rfl⟩ : ∃ r', r = r' + 1 := ⟨r - 1, by omega⟩
    have e : nser p y0.2 (r + 1) (W B Bp 1) h = nser p y0.2 (r + 1) NTree.exact h := by
      rw [nser_split, nser_split]
      rw [Prod.ext_iff]
      constructor
      · dsimp only
        congr 1
        exact hfs _ _ _ _ _ fun q hq hoq => (ho q hoq).1 (by omega)
      · exact hfs _ _ _ _ _ fun q hq hoq => (ho q hoq).2 (by omega)
    rw [e, one_mul]
    abel
  · intro e ep r he
    cases r with
    | zero =>
      have h1 := incr_nser (p := p) (v0 := y0.2) (n := n) (m := 0) (k := k) e ep 0
        (fun j q => q.weight n A Ap C j) (W e ep 0) rfl (fun q => rfl) (fun q => rfl) (hst 0)
      refine h1.congr_left ?_
      intro h
      have e0 : nser p y0.2 0 (W e ep 0) h = 0 := by
        unfold nser
        apply sum_eq_zero
        intro t ht
        unfold ntrees at ht
        rw [mem_upTo] at ht
        have := t.ord_pos
        omega
      rw [e0]
      simp
    | succ r =>
      have h1 := incr_nser (p := p) (v0 := y0.2) (n := n) (m := r + 1) (k := k) e ep 0
        (fun j q => q.weight n A Ap C j) (W e ep 0) rfl (fun q => rfl) (fun q => rfl) (hst (r + 1))
      refine h1.congr_left ?_
      intro h
      have e0 : nser p y0.2 (r + 1) (W e ep 0) h = 0 := by
        rw [nser_split]
        have z : ∀ (m e : ℕ), fser p y0.2 m e (fun _ => 0) h = 0 := by
          intro m e; unfold fser; apply sum_eq_zero; intro q _; rw [zero_mul, zero_smul]
        rw [Prod.ext_iff]
        constructor
        · dsimp only
          rw [hfs r 2 _ (fun _ => 0) h (fun q hq hoq => (he q hoq).1 (by omega)), z]
          simp [W]
        · dsimp only
          rw [hfs (r + 1) 1 _ (fun _ => 0) h (fun q hq hoq => (he q hoq).2 (by omega)), z]
          rfl
      rw [e0]
      simp

end Extensisq
