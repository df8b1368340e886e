import Verif.Lemmas.OneStep
import Verif.Props.NystromOrder
import Verif.Props.NystromInterp

/-!
# C95: convergence of the Nystrom methods

On an interval on which the exact solution exists, position and velocity computed by any run of `MR6NN`, `Fi4N` or `Fi5N` differ
from the exact ones by at most a constant times the `order`-th power of the longest step; likewise their dense output.
-/

set_option linter.unusedSectionVars false

namespace Extensisq
open scoped ContDiff
open Finset Asymptotics Filter Topology

/-! ## Every returning step is a Nystrom step or no step -/

section
variable {K X : Type*} [Field K] [LinearOrder K] [IsStrictOrderedRing K] [AddCommGroup X] [Module K X]

theorem ny_step_or {c : Cfg K (X × X) X} {T : NTableau K} {acc : K → X × X → X}
    {errNorm : X × X → X × X → X × X → ENorm K} (hm : c.m = nyMethod T acc errNorm) (hC : T.C 0 = 0)
    (hs : 0 < T.s) {t0 : K} {y0 : X × X} {h0 : K} {e0 : ℕ} {Ks0 : ℕ → X} {v v' : Solver K (X × X) X}
    (hr : Reach c (newSolver c t0 y0 h0 e0 Ks0) v) {fuel : ℕ} {o : Out} (h : step c fuel v = some (o, v')) :
    (v'.st.t = v.st.t ∧ v'.st.y = v.st.y) ∨
    ∃ h : K, v'.st.t = v.st.t + h ∧ ∃ k : ℕ → X, IsNyStep T acc v.st.t v.st.y h k v'.st.y := by
  have hf := C55_stored_acceleration_current hm hr
  rcases step_impl_or h with ⟨h1, _⟩ | ⟨_, hi⟩
  · exact Or.inl (by rw [h1]; exact ⟨rfl, rfl⟩)
  · rcases stepImpl_effect hi with ⟨k, Ks, e, j, ho, hs⟩ |
      ⟨k, ch, x, f0, std, s1, hmin, hpre, herr, hx, haf, hs1, ho⟩
    · exact Or.inl (by rw [hs]; exact ⟨rfl, rfl⟩)
    · right
      obtain ⟨hrk, _, _⟩ := nyTrial_isNyStep T acc errNorm v.st.t v.st.y (ch.hs k * c.dir)
        (ch.Ks k) hC hs
      have e1 : (c.m.trial v.st.t v.st.y v.st.f (ch.hs k * c.dir) (ch.Ks k)).yNew =
          (nyTrial T acc errNorm v.st.t v.st.y (acc v.st.t v.st.y) (ch.hs k * c.dir) (ch.Ks k)).yNew := by
        rw [← hf]; generalize ch.hs k = hh; generalize ch.Ks k = KK; rw [hm]; rfl
      have ey : s1.y = (nyTrial T acc errNorm v.st.t v.st.y (acc v.st.t v.st.y) (ch.hs k * c.dir) (ch.Ks k)).yNew := by
        rw [← e1, hs1]; rfl
      have et : s1.t = v.st.t + ch.hs k * c.dir := by rw [hs1]; rfl
      have e2 : v'.st.y = s1.y ∧ v'.st.t = s1.t := by
        rcases ho with ⟨_, b, hd⟩ | ⟨_, _, hd⟩
        · rw [diagnose_same hd]; exact ⟨rfl, rfl⟩
        · rw [hd]; exact ⟨rfl, rfl⟩
      rw [← ey, ← e2.1] at hrk
      exact ⟨_, e2.2.trans et, _, hrk⟩

end

/-! ## The scheme as a function -/

section
variable {E : Type*} [NormedAddCommGroup E] [NormedSpace ℝ E]

/-- Stage accelerations of an explicit Nystrom scheme, as functions of `(t, (u, v), h)`. -/
noncomputable def nyEx (A Ap : ℕ → ℕ → ℝ) (c : ℕ → ℝ) (acc : ℝ → E × E → E) (i : ℕ) (z : ℝ × (E × E) × ℝ) : E :=
  acc (z.1 + c i * z.2.2)
    (z.2.1.1 + (c i * z.2.2) • z.2.1.2 + z.2.2 ^ 2 • ∑ j : Fin i, A i j • nyEx A Ap c acc j z,
     z.2.1.2 + z.2.2 • ∑ j : Fin i, Ap i j • nyEx A Ap c acc j z)
termination_by i
decreasing_by all_goals exact j.2

theorem nyEx_eq (A Ap : ℕ → ℕ → ℝ) (c : ℕ → ℝ) (acc : ℝ → E × E → E) (i : ℕ) (z : ℝ × (E × E) × ℝ) :
    nyEx A Ap c acc i z = acc (z.1 + c i * z.2.2)
      (z.2.1.1 + (c i * z.2.2) • z.2.1.2 + z.2.2 ^ 2 • ∑ j ∈ range i, A i j • nyEx A Ap c acc j z,
       z.2.1.2 + z.2.2 • ∑ j ∈ range i, Ap i j • nyEx A Ap c acc j z) := by
  rw [nyEx, Finset.sum_range fun j => A i j • nyEx A Ap c acc j z,
    Finset.sum_range fun j => Ap i j • nyEx A Ap c acc j z]

theorem nyEx_contDiffAt {A Ap : ℕ → ℕ → ℝ} {c : ℕ → ℝ} {acc : ℝ → E × E → E} {tb : ℝ} {yb : E × E} {n : ℕ}
    (hf : ContDiffAt ℝ n (fun z : ℝ × (E × E) => acc z.1 z.2) (tb, yb)) (i : ℕ) :
    ContDiffAt ℝ n (nyEx A Ap c acc i) (tb, yb, 0) := by
  induction i using Nat.strong_induction_on with
  | _ i ih =>
    have e : nyEx A Ap c acc i = (fun z : ℝ × (E × E) => acc z.1 z.2) ∘ fun z : ℝ × (E × E) × ℝ =>
        (z.1 + c i * z.2.2,
          (z.2.1.1 + (c i * z.2.2) • z.2.1.2 + z.2.2 ^ 2 • ∑ j ∈ range i, A i j • nyEx A Ap c acc j z,
           z.2.1.2 + z.2.2 • ∑ j ∈ range i, Ap i j • nyEx A Ap c acc j z)) := by
      funext z
      rw [nyEx_eq]
      rfl
    rw [e]
    apply ContDiffAt.comp
    · simpa using hf
    · have h1 : ContDiffAt ℝ n (fun z : ℝ × (E × E) × ℝ => z.1) (tb, yb, 0) := contDiffAt_fst
      have h2 : ContDiffAt ℝ n (fun z : ℝ × (E × E) × ℝ => z.2.1.1) (tb, yb, 0) := contDiffAt_snd.fst.fst
      have h2' : ContDiffAt ℝ n (fun z : ℝ × (E × E) × ℝ => z.2.1.2) (tb, yb, 0) := contDiffAt_snd.fst.snd
      have h3 : ContDiffAt ℝ n (fun z : ℝ × (E × E) × ℝ => z.2.2) (tb, yb, 0) := contDiffAt_snd.snd
      have hs : ∀ B : ℕ → ℕ → ℝ, ContDiffAt ℝ n (fun z : ℝ × (E × E) × ℝ =>
          ∑ j ∈ range i, B i j • nyEx A Ap c acc j z) (tb, yb, 0) := by
        intro B
        apply ContDiffAt.sum
        intro j hj
        exact contDiffAt_const.smul (ih j (mem_range.mp hj))
      exact (h1.add (contDiffAt_const.mul h3)).prodMk
        (((h2.add ((contDiffAt_const.mul h3).smul h2')).add ((h3.pow 2).smul (hs A))).prodMk
          (h2'.add (h3.smul (hs Ap))))

/-- An explicit scheme has one solution only. -/
theorem nyEx_unique {n : ℕ} {A Ap : ℕ → ℕ → ℝ} {c : ℕ → ℝ} {acc : ℝ → E × E → E} {t : ℝ} {u : E × E} {h : ℝ} {k : ℕ → E}
    (hA0 : ∀ i, i < n → ∀ j, j < n → i ≤ j → A i j = 0 ∧ Ap i j = 0)
    (hk : ∀ i, i < n → k i = acc (t + c i * h)
      (u.1 + (c i * h) • u.2 + h ^ 2 • ∑ j ∈ range n, A i j • k j, u.2 + h • ∑ j ∈ range n, Ap i j • k j)) :
    ∀ i, i < n → k i = nyEx A Ap c acc i (t, u, h) := by
  intro i
  induction i using Nat.strong_induction_on with
  | _ i ih =>
    intro hi
    have hs : ∀ B : ℕ → ℕ → ℝ, (∀ j, j < n → i ≤ j → B i j = 0) →
        ∑ j ∈ range n, B i j • k j = ∑ j ∈ range i, B i j • nyEx A Ap c acc j (t, u, h) := by
      intro B hB
      rw [← sum_subset (range_subset_range.mpr hi.le)]
      · apply sum_congr rfl
        intro j hj
        rw [mem_range] at hj
        rw [ih j hj (by omega)]
      · intro j hj hj'
        rw [mem_range] at hj hj'
        rw [hB j hj (by omega), zero_smul]
    rw [hk i hi, hs A (fun j hj hij => (hA0 i hi j hj hij).1), hs Ap (fun j hj hij => (hA0 i hi j hj hij).2), nyEx_eq]

/-- The equations of all stages of a Nystrom step, with the extended matrices. -/
theorem IsNyStep.full {T : NTableau ℝ} {acc : ℝ → E × E → E} {t : ℝ} {u u' : E × E} {h : ℝ} {k : ℕ → E}
    (hk : IsNyStep T acc t u h k u') (i : ℕ) (hi : i < T.s + 1) : k i = acc (t + T.fullC i * h)
      (u.1 + (T.fullC i * h) • u.2 + h ^ 2 • ∑ j ∈ range (T.s + 1), T.fullA i j • k j,
       u.2 + h • ∑ j ∈ range (T.s + 1), T.fullAp i j • k j) := by
  rw [(sum_fullA i (by omega) k).1, (sum_fullA i (by omega) k).2]
  unfold NTableau.fullC
  split_ifs with hs
  · exact hk.stage i hs
  · obtain rfl : i = T.s := by omega
    rw [one_mul, ← hk.pos, ← hk.vel]
    exact hk.last

theorem fullA_explicit (T : NTableau ℝ) (i : ℕ) (_ : i < T.s + 1) (j : ℕ) (_ : j < T.s + 1) (hij : i ≤ j) :
    T.fullA i j = 0 ∧ T.fullAp i j = 0 := by
  unfold NTableau.fullA NTableau.fullAp
  rw [if_neg (by omega), if_neg (by omega)]
  exact ⟨rfl, rfl⟩

/-- The Nystrom step of a given size from a given point. -/
theorem nyEx_isNyStep (T : NTableau ℝ) (acc : ℝ → E × E → E) (t : ℝ) (u : E × E) (h : ℝ) :
    IsNyStep T acc t u h (fun i => nyEx T.fullA T.fullAp T.fullC acc i (t, u, h))
      (u.1 + h • u.2 + h ^ 2 • ∑ i ∈ range T.s, T.B i • nyEx T.fullA T.fullAp T.fullC acc i (t, u, h),
       u.2 + h • ∑ i ∈ range T.s, T.Bp i • nyEx T.fullA T.fullAp T.fullC acc i (t, u, h)) := by
  have hs : ∀ i, i ≤ T.s → ∀ k : ℕ → E, (∑ j ∈ range i, T.fullA i j • k j =
      if i < T.s then ∑ j ∈ range i, T.A i j • k j else ∑ j ∈ range T.s, T.B j • k j) ∧
      (∑ j ∈ range i, T.fullAp i j • k j =
      if i < T.s then ∑ j ∈ range i, T.Ap i j • k j else ∑ j ∈ range T.s, T.Bp j • k j) := by
    intro i hi k
    rw [← (sum_fullA i hi k).1, ← (sum_fullA i hi k).2]
    constructor
    all_goals
      apply sum_subset (range_subset_range.mpr (by omega))
      intro j _ hj
      rw [mem_range] at hj
      first | unfold NTableau.fullA | unfold NTableau.fullAp
      rw [if_neg hj, zero_smul]
  refine ⟨fun i hi => ?_, rfl, rfl, ?_⟩
  · rw [nyEx_eq, (hs i hi.le _).1, (hs i hi.le _).2, if_pos hi, if_pos hi]
    simp only [NTableau.fullC, if_pos hi]
  · rw [nyEx_eq, (hs T.s le_rfl _).1, (hs T.s le_rfl _).2, if_neg (lt_irrefl _), if_neg (lt_irrefl _)]
    simp only [NTableau.fullC, if_neg (lt_irrefl T.s), one_mul]

/-- The increment: position and velocity at `t + θ h` are `u + h Φ`. -/
noncomputable def nyInc (n : ℕ) (A Ap : ℕ → ℕ → ℝ) (c : ℕ → ℝ) (w wp : ℕ → ℝ → ℝ) (acc : ℝ → E × E → E) (θ : ℝ)
    (z : ℝ × (E × E) × ℝ) : E × E :=
  (θ • z.2.1.2 + z.2.2 • ∑ i ∈ range n, w i θ • nyEx A Ap c acc i z, ∑ i ∈ range n, wp i θ • nyEx A Ap c acc i z)

theorem add_smul_nyInc (n : ℕ) (A Ap : ℕ → ℕ → ℝ) (c : ℕ → ℝ) (w wp : ℕ → ℝ → ℝ) (acc : ℝ → E × E → E) (θ t : ℝ)
    (u : E × E) (h : ℝ) :
    u + h • nyInc n A Ap c w wp acc θ (t, u, h) =
      (u.1 + (θ * h) • u.2 + h ^ 2 • ∑ i ∈ range n, w i θ • nyEx A Ap c acc i (t, u, h),
       u.2 + h • ∑ i ∈ range n, wp i θ • nyEx A Ap c acc i (t, u, h)) := by
  unfold nyInc
  refine Prod.ext ?_ rfl
  simp only [Prod.fst_add, Prod.smul_fst, smul_add, smul_smul]
  rw [mul_comm h θ, ← sq, add_assoc]

theorem nyInc_contDiffAt {n : ℕ} {A Ap : ℕ → ℕ → ℝ} {c : ℕ → ℝ} {w wp : ℕ → ℝ → ℝ} {acc : ℝ → E × E → E} {tb θb : ℝ}
    {yb : E × E} {m : ℕ} (hw : ∀ i, ContDiff ℝ m (w i)) (hwp : ∀ i, ContDiff ℝ m (wp i))
    (hf : ContDiffAt ℝ m (fun z : ℝ × (E × E) => acc z.1 z.2) (tb, yb)) :
    ContDiffAt ℝ m (fun z : ℝ × ℝ × (E × E) × ℝ => nyInc n A Ap c w wp acc z.1 z.2) (θb, tb, yb, 0) := by
  have h1 : ContDiffAt ℝ m (fun z : ℝ × ℝ × (E × E) × ℝ => z.1) (θb, tb, yb, 0) := contDiffAt_fst
  have h2 : ContDiffAt ℝ m (fun z : ℝ × ℝ × (E × E) × ℝ => z.2.2.1.2) (θb, tb, yb, 0) := contDiffAt_snd.snd.fst.snd
  have h3 : ContDiffAt ℝ m (fun z : ℝ × ℝ × (E × E) × ℝ => z.2.2.2) (θb, tb, yb, 0) := contDiffAt_snd.snd.snd
  have hs : ∀ w : ℕ → ℝ → ℝ, (∀ i, ContDiff ℝ m (w i)) → ContDiffAt ℝ m (fun z : ℝ × ℝ × (E × E) × ℝ =>
      ∑ i ∈ range n, w i z.1 • nyEx A Ap c acc i z.2) (θb, tb, yb, 0) := by
    intro w hw
    apply ContDiffAt.sum
    intro i _
    refine ContDiffAt.smul ?_ ?_
    · exact ContDiffAt.comp (θb, tb, yb, (0 : ℝ)) (g := w i) (f := fun z : ℝ × ℝ × (E × E) × ℝ => z.1)
        (hw i).contDiffAt h1
    · exact ContDiffAt.comp (θb, tb, yb, (0 : ℝ)) (g := nyEx A Ap c acc i) (f := fun z : ℝ × ℝ × (E × E) × ℝ => z.2)
        (nyEx_contDiffAt hf i) contDiffAt_snd
  exact ((h1.smul h2).add (h3.smul (hs w hw))).prodMk (hs wp hwp)

/-- The first order system of `u'' = acc(t, u, u')`. -/
def nyRhs (acc : ℝ → E × E → E) (t : ℝ) (y : E × E) : E × E := (y.2, acc t y)

theorem nyRhs_smooth {acc : ℝ → E × E → E} {z : ℝ × (E × E)}
    (h : ContDiffAt ℝ ∞ (fun z : ℝ × (E × E) => acc z.1 z.2) z) :
    ContDiffAt ℝ ∞ (fun z : ℝ × (E × E) => nyRhs acc z.1 z.2) z :=
  (ContDiff.contDiffAt (by fun_prop : ContDiff ℝ ∞ fun z : ℝ × (E × E) => z.2.2)).prodMk h

/-- The exact solution `y = (u, u')` exists on the interval from `t0` to `b`, with a smooth acceleration along it. -/
structure NySolvesOn (acc : ℝ → E × E → E) (y : ℝ → E × E) (t0 b : ℝ) : Prop where
  smooth : ∀ t ∈ Set.uIcc t0 b, ContDiffAt ℝ ∞ (fun z : ℝ × (E × E) => acc z.1 z.2) (t, y t)
  solves : ∀ t ∈ Set.uIcc t0 b, ∀ᶠ s in 𝓝 t, HasDerivAt y ((y s).2, acc s (y s)) s

theorem NySolvesOn.solution_smooth [CompleteSpace E] {acc : ℝ → E × E → E} {y : ℝ → E × E} {t0 b : ℝ} (hy : NySolvesOn acc y t0 b)
    {t : ℝ} (ht : t ∈ Set.uIcc t0 b) (n : ℕ) : ContDiffAt ℝ n y t :=
  solution_contDiffAt (f := nyRhs acc) (fun m => smooth_nat (nyRhs_smooth (hy.smooth t ht)) m) (hy.solves t ht) n

/-- Uniform consistency and stability of one step along the exact solution. -/
theorem ny_main_bound [CompleteSpace E] (R : NyTable) (hR : R ∈ rationalNy) {acc : ℝ → E × E → E} {y : ℝ → E × E}
    {t0 b : ℝ} (hy : NySolvesOn acc y t0 b) (hv : R.hasAp = false → ∀ t u v w, acc t (u, v) = acc t (u, w)) :
    ∃ ε C Λ : ℝ, 0 < ε ∧ 0 ≤ C ∧ 0 ≤ Λ ∧ ∀ t ∈ Set.uIcc t0 b, ∀ (u u' : E × E) (h : ℝ) (k : ℕ → E),
      IsNyStep (R.tab ℝ) acc t u h k u' → ‖u - y t‖ < ε → |h| < ε →
      ‖u' - y (t + h)‖ ≤ (1 + Λ * |h|) * ‖u - y t‖ + C * |h| ^ (R.order + 1) := by
  have hS : IsCompact ((Set.uIcc t0 b) ×ˢ ({1} : Set ℝ)) := isCompact_uIcc.prod isCompact_singleton
  set T := R.tab ℝ with hT
  have e : ∀ (t : ℝ) (u : E × E) (h : ℝ) (k : ℕ → E) (u' : E × E), IsNyStep T acc t u h k u' →
      u + h • nyInc T.s T.fullA T.fullAp T.fullC (fun i _ => T.B i) (fun i _ => T.Bp i) acc 1 (t, u, h) = u' := by
    intro t u h k u' hk
    have hun := nyEx_unique (fullA_explicit T) (fun i hi => hk.full i hi)
    rw [add_smul_nyInc, one_mul]
    refine Prod.ext ?_ ?_
    · rw [hk.pos]
      dsimp only
      congr 2
      exact sum_congr rfl fun i hi => by rw [hun i (by rw [mem_range] at hi; omega)]
    · rw [hk.vel]
      dsimp only
      congr 2
      exact sum_congr rfl fun i hi => by rw [hun i (by rw [mem_range] at hi; omega)]
  obtain ⟨ε, C, Λ, h1, h2, h3, h4⟩ := inc_compact_bound (q := R.order) (y := y)
    (Φ := nyInc T.s T.fullA T.fullAp T.fullC (fun i _ => T.B i) (fun i _ => T.Bp i) acc) hS
    (fun x hx n => nyInc_contDiffAt (fun i => contDiff_const) (fun i => contDiff_const)
      (smooth_nat (hy.smooth x.1 hx.1) _))
    (fun x hx n => hy.solution_smooth hx.1 n) (by
      rintro ⟨t, θ⟩ ⟨ht, hθ⟩
      have hθ : θ = 1 := hθ
      subst hθ
      have := (C71_local_error_order R hR (hy.smooth t ht) hv
        (fun h => nyEx_isNyStep T acc t (y t) h)).1 y rfl (hy.solves t ht)
      refine this.congr_left fun h => ?_
      dsimp only
      rw [e _ _ _ _ _ (nyEx_isNyStep T acc t (y t) h), one_mul])
  refine ⟨ε, C, Λ, h1, h2, h3, fun t ht u u' h k hk hu hh => ?_⟩
  have h5 := h4 (t, 1) ⟨ht, rfl⟩ u h hu hh
  rw [one_mul, e _ _ _ _ _ hk] at h5
  exact h5

/-- **C95**. Convergence with the advertised order. For a problem `u'' = acc(t, u, u')` (for `MR6NN`: independent of `u'`) whose exact
solution `y = (u, u')` exists on the closed interval from `t0` to `b` there are constants `C` and `h*` such that, for every solver
configuration and every history of `step()` calls in which no step was longer than `H ≤ h*`, position and velocity
differ from the exact ones by at most `C H^order`. -/
theorem C95_global_error [CompleteSpace E] (R : NyTable) (hR : R ∈ rationalNy) {acc : ℝ → E × E → E} {y : ℝ → E × E}
    {t0 b : ℝ} (hy : NySolvesOn acc y t0 b) (hv : R.hasAp = false → ∀ t u v w, acc t (u, v) = acc t (u, w)) :
    ∃ C hstar : ℝ, 0 ≤ C ∧ 0 < hstar ∧
      ∀ (c : Cfg ℝ (E × E) E) (errNorm : E × E → E × E → E × E → ENorm ℝ) (h0 H : ℝ) (e0 : ℕ) (Ks0 : ℕ → E)
        (v : Solver ℝ (E × E) E), CfgOK c → c.m = nyMethod (R.tab ℝ) acc errNorm → 0 ≤ c.dir * (b - t0) →
        0 ≤ H → H ≤ hstar →
        ReachWithin c (newSolver c t0 (y t0) h0 e0 Ks0) t0 b H v → ‖v.st.y - y v.st.t‖ ≤ C * H ^ R.order := by
  obtain ⟨ε, C, Λ, h1, h2, h3, h4⟩ := ny_main_bound R hR hy hv
  have key : ∀ R ∈ rationalNy, R.C.getD 0 0 = 0 ∧ 0 < R.s ∧ 1 ≤ R.order := by decide +kernel
  have hC0 : (R.tab ℝ).C 0 = 0 := by
    have := congrArg (fun q : ℚ => (q : ℝ)) (key R hR).1
    simpa [NyTable.tab] using this
  set L := |b - t0| with hL
  have hL0 : 0 ≤ L := abs_nonneg _
  set G := C * (L * Real.exp (Λ * L)) with hG
  have hG0 : 0 ≤ G := by positivity
  refine ⟨G, min 1 (ε / (2 * (G + 1))), hG0, lt_min one_pos (by positivity), ?_⟩
  intro c errNorm h0 H e0 Ks0 v hc hm hdir hH0 hH hr
  have hH1 : H ≤ 1 := hH.trans (min_le_left _ _)
  have hH2 : H * (2 * (G + 1)) ≤ ε := (le_div_iff₀ (by positivity)).mp (hH.trans (min_le_right _ _))
  have hHε : H < ε := by nlinarith
  have hpow : H ^ R.order ≤ H := by
    calc H ^ R.order ≤ H ^ 1 := pow_le_pow_of_le_one hH0 hH1 (key R hR).2.2
      _ = H := pow_one H
  have hGH : G * H ^ R.order < ε := by
    have : G * H ^ R.order ≤ G * H := mul_le_mul_of_nonneg_left hpow hG0
    nlinarith
  have e : C * H ^ R.order * (L * Real.exp (Λ * L)) = G * H ^ R.order := by rw [hG]; ring
  rw [← e]
  refine driver_global_error (Step := fun t u h u' => ∃ k : ℕ → E, IsNyStep (R.tab ℝ) acc t u h k u') h3 (by positivity) hHε
    (by rw [← hL, e]; exact hGH) ?_ hc hdir rfl rfl
    (fun w w' fuel o hw hs => ny_step_or hm hC0 (key R hR).2.1 hw hs) hr
  rintro t ht u u' h ⟨k, hk⟩ hu hh hle
  refine (h4 t ht u u' h k hk hu hh).trans ?_
  have : |h| ^ (R.order + 1) ≤ H ^ R.order * |h| := by
    rw [pow_succ]
    exact mul_le_mul_of_nonneg_right (pow_le_pow_left₀ (abs_nonneg _) hle _) (abs_nonneg _)
  have := mul_le_mul_of_nonneg_left this h2
  linarith

/-- **C95** with `max_step`. -/
theorem C95_max_step_error [CompleteSpace E] (R : NyTable) (hR : R ∈ rationalNy) {acc : ℝ → E × E → E} {y : ℝ → E × E}
    {t0 b : ℝ} (hy : NySolvesOn acc y t0 b) (hv : R.hasAp = false → ∀ t u v w, acc t (u, v) = acc t (u, w)) :
    ∃ C hstar : ℝ, 0 ≤ C ∧ 0 < hstar ∧
      ∀ (c : Cfg ℝ (E × E) E) (errNorm : E × E → E × E → E × E → ENorm ℝ) (h0 H : ℝ) (e0 : ℕ) (Ks0 : ℕ → E)
        (v : Solver ℝ (E × E) E), CfgOK c → c.m = nyMethod (R.tab ℝ) acc errNorm → c.tb = some b →
        0 ≤ c.dir * (b - t0) → c.maxStep = some H → H ≤ hstar →
        (∀ w, Reach c (newSolver c t0 (y t0) h0 e0 Ks0) w → MaxStepUsable c w.st) →
        Reach c (newSolver c t0 (y t0) h0 e0 Ks0) v → ‖v.st.y - y v.st.t‖ ≤ C * H ^ R.order := by
  obtain ⟨C, hstar, h1, h2, h3⟩ := C95_global_error R hR hy hv
  refine ⟨C, hstar, h1, h2, ?_⟩
  intro c errNorm h0 H e0 Ks0 v hc hm hb hdir hmax hH hu hr
  refine h3 c errNorm h0 H e0 Ks0 v hc hm hdir (hc.maxStep H hmax).le hH ?_
  induction hr with
  | refl => exact .refl
  | @tail w w' o fuel hr hs ih =>
    refine .tail ih hs (C03_max_step hc hmax (hu w hr) hs) ?_
    obtain ⟨a1, a2⟩ := C01_never_past_t_bound hc hb (v0 := newSolver c t0 (y t0) h0 e0 Ks0) hdir hu (hr.tail hs)
    have a1 : 0 ≤ c.dir * (w'.st.t - t0) := a1
    rcases hc.dir with hd | hd <;> rw [hd] at a1 a2
    · exact Set.mem_uIcc.mpr (Or.inl ⟨by linarith, by linarith⟩)
    · exact Set.mem_uIcc.mpr (Or.inr ⟨by linarith, by linarith⟩)

/-! ## Dense output -/

theorem nyExt_explicit {I : NyInterp} (hI : I.OK) (i : ℕ) (hi : i < I.n) (j : ℕ) (hj : j < I.n) (hij : i ≤ j) :
    nyExtA I i j = 0 ∧ nyExtAp I i j = 0 := by
  have hn : I.n = I.R.s + 1 + I.l.length := rfl
  unfold nyExtA nyExtAp
  by_cases his : i < I.R.s + 1
  · rw [(hI.stage i his j hj).1, (hI.stage i his j hj).2]
    unfold NTableau.fullA NTableau.fullAp
    rw [if_neg (show ¬ j < i by omega), if_neg (show ¬ j < i by omega)]
    simp
  · obtain ⟨m, rfl⟩ : ∃ m, i = I.R.s + 1 + m := ⟨i - (I.R.s + 1), by omega⟩
    rw [(hI.extra m (by omega) j hj).1, (hI.extra m (by omega) j hj).2, if_neg (by omega),
      if_neg (by omega)]
    simp

theorem pWeight_contDiff (P : List (List ℚ)) (i : ℕ) {n : ℕ} : ContDiff ℝ n (fun θ => pWeight ℝ P i θ) := by
  unfold pWeight
  apply ContDiff.sum
  intro j _
  exact contDiff_const.mul (contDiff_id.pow _)

/-- Uniform consistency and stability of the dense output along the exact solution. -/
theorem ny_dense_bound [CompleteSpace E] {I : NyInterp} {p q : ℕ} (hI : (I, p, q) ∈ nyInterpOrders)
    {acc : ℝ → E × E → E} {y : ℝ → E × E} {t0 b : ℝ} (hy : NySolvesOn acc y t0 b)
    (hv : I.R.hasAp = false → ∀ t u v w, acc t (u, v) = acc t (u, w)) :
    ∃ ε C Λ : ℝ, 0 < ε ∧ 0 ≤ C ∧ 0 ≤ Λ ∧ ∀ t ∈ Set.uIcc t0 b, ∀ θ ∈ Set.Icc (0 : ℝ) 1,
      ∀ (u u' : E × E) (h : ℝ) (k : ℕ → E) (a0 a1 : E), IsNyStep (I.R.tab ℝ) acc t u h k u' → ‖u - y t‖ < ε → |h| < ε →
      ‖nyHorner acc I.R.s I.l I.P I.Pp ⟨t, t + h, u, u', a0, a1, k⟩ (t + θ * h) - y (t + θ * h)‖ ≤
        (1 + Λ * |h|) * ‖u - y t‖ + C * |h| ^ (q + 1) := by
  have hqp : ∀ r ∈ nyInterpOrders, r.2.2 ≤ r.2.1 := by decide +kernel
  have hok : I.OK := by
    apply nyInterp_ok
    simp only [nyInterpOrders, List.mem_cons, Prod.mk.injEq, List.not_mem_nil, or_false] at hI ⊢
    tauto
  have hS : IsCompact ((Set.uIcc t0 b) ×ˢ (Set.Icc (0 : ℝ) 1)) := isCompact_uIcc.prod isCompact_Icc
  have e : ∀ (t θ : ℝ) (u : E × E) (h : ℝ) (k : ℕ → E) (u' : E × E) (a0 a1 : E), IsNyStep (I.R.tab ℝ) acc t u h k u' →
      u + h • nyInc I.n (nyExtA I) (nyExtAp I) (nyExtC I) (fun i θ => θ * pWeight ℝ I.P i θ)
        (fun i θ => pWeight ℝ I.Pp i θ) acc θ (t, u, h) =
      nyHorner acc I.R.s I.l I.P I.Pp ⟨t, t + h, u, u', a0, a1, k⟩ (t + θ * h) := by
    intro t θ u h k u' a0 a1 hk
    have hun := nyEx_unique (nyExt_explicit hok) (fun i hi => nyExt_stage hok hk i hi)
    rw [add_smul_nyInc, nyHorner_scaled]
    congr 1
    · congr 2
      exact sum_congr rfl fun i hi => by rw [hun i (mem_range.mp hi)]
    · congr 2
      exact sum_congr rfl fun i hi => by rw [hun i (mem_range.mp hi)]
  obtain ⟨ε, C, Λ, h1, h2, h3, h4⟩ := inc_compact_bound (q := q) (y := y)
    (Φ := nyInc I.n (nyExtA I) (nyExtAp I) (nyExtC I) (fun i θ => θ * pWeight ℝ I.P i θ)
        (fun i θ => pWeight ℝ I.Pp i θ) acc) hS
    (fun x hx n => nyInc_contDiffAt (fun i => contDiff_id.mul (pWeight_contDiff I.P i)) (fun i => pWeight_contDiff I.Pp i)
      (smooth_nat (hy.smooth x.1 hx.1) _))
    (fun x hx n => hy.solution_smooth hx.1 n) (by
      rintro ⟨t, θ⟩ ⟨ht, _⟩
      obtain ⟨o1, o2⟩ := C72_dense_accuracy hI (hy.smooth t ht) hv
        (fun h => nyEx_isNyStep (I.R.tab ℝ) acc t (y t) h) (fun _ => 0) (fun _ => 0) (fun _ => θ) |θ| (fun _ => le_rfl)
        y rfl (hy.solves t ht)
      have o1 := o1.trans (IsBigO.of_bound 1 (by
        filter_upwards [Metric.ball_mem_nhds (0 : ℝ) one_pos] with h hh
        have hh : |h| ≤ 1 := by simpa using (Metric.mem_ball.mp hh).le
        rw [one_mul, norm_pow, norm_pow, Real.norm_eq_abs]
        exact pow_le_pow_of_le_one (abs_nonneg _) hh (Nat.succ_le_succ (hqp _ hI)) :
          ∀ᶠ h in 𝓝 (0 : ℝ), ‖h ^ (p + 1)‖ ≤ 1 * ‖h ^ (q + 1)‖))
      refine (o1.prod_left o2).congr_left fun h => ?_
      dsimp only
      rw [e _ _ _ _ _ _ 0 0 (nyEx_isNyStep (I.R.tab ℝ) acc t (y t) h)]
      rfl)
  refine ⟨ε, C, Λ, h1, h2, h3, fun t ht θ hθ u u' h k a0 a1 hk hu hh => ?_⟩
  have h5 := h4 (t, θ) ⟨ht, hθ⟩ u h hu hh
  rw [e _ _ _ _ _ _ a0 a1 hk] at h5
  exact h5

/-- The data the dense output reads after a step of a solver. -/
def NyAfter (v v' : Solver ℝ (E × E) E) (d : NyState ℝ E) : Prop :=
  d.tOld = v.st.t ∧ d.t = v'.st.t ∧ v'.st.yOld = some d.yOld ∧ d.y = v'.st.y ∧ d.Ks = v'.st.Ks

/-- **C95** for the dense output of `MR6NN` and of interpolants 1 and 2 of `Fi5N`: position and velocity on the whole step are accurate to
`C H^m`, `m` the smaller of the order of the method and `q + 1`, with `q` the order of the velocity. -/
theorem C95_dense_error [CompleteSpace E] {I : NyInterp} {p q : ℕ} (hI : (I, p, q) ∈ nyInterpOrders)
    {acc : ℝ → E × E → E} {y : ℝ → E × E} {t0 b : ℝ} (hy : NySolvesOn acc y t0 b)
    (hv : I.R.hasAp = false → ∀ t u v w, acc t (u, v) = acc t (u, w)) :
    ∃ C hstar : ℝ, 0 ≤ C ∧ 0 < hstar ∧
      ∀ (c : Cfg ℝ (E × E) E) (errNorm : E × E → E × E → E × E → ENorm ℝ) (h0 H : ℝ) (e0 : ℕ) (Ks0 : ℕ → E)
        (v v' : Solver ℝ (E × E) E) (fuel : ℕ) (d : NyState ℝ E), CfgOK c → c.m = nyMethod (I.R.tab ℝ) acc errNorm →
        0 ≤ c.dir * (b - t0) → 0 ≤ H → H ≤ hstar →
        ReachWithin c (newSolver c t0 (y t0) h0 e0 Ks0) t0 b H v → v.st.t ∈ Set.uIcc t0 b →
        c.tb ≠ some v.st.t → step c fuel v = some (.ok, v') → |v'.st.t - v.st.t| ≤ H → NyAfter v v' d →
        ∀ τ ∈ Set.uIcc v.st.t v'.st.t,
          ‖nyHorner acc I.R.s I.l I.P I.Pp d τ - y τ‖ ≤ C * H ^ (min I.R.order (q + 1)) := by
  have hmem : I.R ∈ rationalNy := by
    simp only [nyInterpOrders, List.mem_cons, Prod.mk.injEq, List.not_mem_nil, or_false] at hI
    rcases hI with h | h | h <;> rw [h.1] <;> simp [rationalNy, mr6I, fi5I1, fi5I2]
  obtain ⟨C, hstar, h1, h2, h3⟩ := C95_global_error I.R hmem hy hv
  obtain ⟨ε, C', Λ, g1, g2, g3, g4⟩ := ny_dense_bound hI hy hv
  have key : ∀ R ∈ rationalNy, R.C.getD 0 0 = 0 ∧ 0 < R.s ∧ 1 ≤ R.order := by decide +kernel
  have hC0 : (I.R.tab ℝ).C 0 = 0 := by
    have := congrArg (fun q : ℚ => (q : ℝ)) (key I.R hmem).1
    simpa [NyTable.tab] using this
  refine ⟨(1 + Λ) * C + C', min hstar (min 1 (ε / (2 * (C + 1)))), by positivity,
    lt_min h2 (lt_min one_pos (by positivity)), ?_⟩
  intro c errNorm h0 H e0 Ks0 v v' fuel d hc hm hdir hH0 hH hr hmemv hne hs hle hd τ hτ
  set m := min I.R.order (q + 1) with hm'
  have hHs : H ≤ hstar := hH.trans (min_le_left _ _)
  have hH1 : H ≤ 1 := hH.trans ((min_le_right _ _).trans (min_le_left _ _))
  have hH2 : H * (2 * (C + 1)) ≤ ε :=
    (le_div_iff₀ (by positivity)).mp (hH.trans ((min_le_right _ _).trans (min_le_right _ _)))
  have hHε : H < ε := by nlinarith
  have he := h3 c errNorm h0 H e0 Ks0 v hc hm hdir hH0 hHs hr
  have hpow : H ^ I.R.order ≤ H ^ m := pow_le_pow_of_le_one hH0 hH1 (min_le_left _ _)
  have hpow2 : H ^ (q + 1) ≤ H ^ m := pow_le_pow_of_le_one hH0 hH1 (min_le_right _ _)
  have hpow1 : H ^ I.R.order ≤ H := by
    calc H ^ I.R.order ≤ H ^ 1 := pow_le_pow_of_le_one hH0 hH1 (key I.R hmem).2.2
      _ = H := pow_one H
  have heε : ‖v.st.y - y v.st.t‖ < ε := by
    have : C * H ^ I.R.order ≤ C * H := mul_le_mul_of_nonneg_left hpow1 h1
    nlinarith
  obtain ⟨h, k, x, hk, ht, _, _, hKs, _, hyO, _⟩ := C55_successful_step_is_nystrom_step hm hC0 (key I.R hmem).2.1 hr.reach hne hs
  have hh : v'.st.t - v.st.t = h := by rw [ht]; ring
  obtain ⟨d1, d2, d3, d4, d5⟩ := hd
  have d3 : d.yOld = v.st.y := by
    rw [hyO] at d3
    exact (Option.some.inj d3).symm
  -- the stored stages are those of the step
  have hk' : IsNyStep (I.R.tab ℝ) acc v.st.t v.st.y h d.Ks v'.st.y := by
    have hks : ∀ i, i ≤ (I.R.tab ℝ).s → d.Ks i = k i := fun i hi => by rw [d5]; exact hKs i hi
    have hsum : ∀ (g : ℕ → ℝ) (n : ℕ), n ≤ (I.R.tab ℝ).s → ∑ i ∈ range n, g i • d.Ks i = ∑ i ∈ range n, g i • k i := by
      intro g n hn
      exact sum_congr rfl fun i hi => by rw [hks i (by rw [mem_range] at hi; omega)]
    refine ⟨fun i hi => ?_, ?_, ?_, ?_⟩
    · rw [hks i hi.le, hsum _ i hi.le, hsum _ i hi.le]; exact hk.stage i hi
    · rw [hsum _ _ le_rfl]; exact hk.pos
    · rw [hsum _ _ le_rfl]; exact hk.vel
    · rw [hks _ le_rfl]; exact hk.last
  obtain ⟨θ, hθ, eτ⟩ : ∃ θ ∈ Set.Icc (0 : ℝ) 1, τ = v.st.t + θ * h := by
    rw [ht] at hτ
    rcases lt_trichotomy h 0 with hneg | hz | hpos
    · rw [Set.uIcc_of_ge (by linarith)] at hτ
      refine ⟨(τ - v.st.t) / h, ⟨div_nonneg_of_nonpos (by linarith [hτ.2]) hneg.le,
        (div_le_one_of_neg hneg).mpr (by linarith [hτ.1])⟩, ?_⟩
      rw [div_mul_cancel₀ _ hneg.ne]; ring
    · rw [hz, add_zero, Set.uIcc_self] at hτ
      exact ⟨0, ⟨le_rfl, zero_le_one⟩, by rw [zero_mul, add_zero]; exact hτ⟩
    · rw [Set.uIcc_of_le (by linarith)] at hτ
      refine ⟨(τ - v.st.t) / h, ⟨div_nonneg (by linarith [hτ.1]) hpos.le, (div_le_one hpos).mpr (by linarith [hτ.2])⟩, ?_⟩
      rw [div_mul_cancel₀ _ hpos.ne']; ring
  rw [hh] at hle
  have hb := g4 v.st.t hmemv θ hθ _ _ h d.Ks d.aOld d.a hk' heε (hle.trans_lt hHε)
  have hd' : (⟨v.st.t, v.st.t + h, v.st.y, v'.st.y, d.aOld, d.a, d.Ks⟩ : NyState ℝ E) = d := by
    rw [← d1, ← d3, ← d4]
    have : d.tOld + h = d.t := by rw [d1, d2, ht]
    rw [this]
  rw [hd', ← eτ] at hb
  refine hb.trans ?_
  have p1 : (1 + Λ * |h|) * ‖v.st.y - y v.st.t‖ ≤ (1 + Λ) * (C * H ^ m) := by
    apply mul_le_mul _ (he.trans (mul_le_mul_of_nonneg_left hpow h1)) (norm_nonneg _) (by positivity)
    have : Λ * |h| ≤ Λ * 1 := mul_le_mul_of_nonneg_left (hle.trans hH1) g3
    linarith
  have p2 : C' * |h| ^ (q + 1) ≤ C' * H ^ m :=
    mul_le_mul_of_nonneg_left ((pow_le_pow_left₀ (abs_nonneg _) hle _).trans hpow2) g2
  calc _ ≤ (1 + Λ) * (C * H ^ m) + C' * H ^ m := add_le_add p1 p2
    _ = _ := by ring

/-! ## The hypotheses are met -/

/-- The harmonic oscillator. -/
theorem exOscillator_solves (t0 b : ℝ) : NySolvesOn (fun (_ : ℝ) (y : ℝ × ℝ) => -y.1)
    (fun t => (Real.cos t, -Real.sin t)) t0 b where
  smooth _ _ := ContDiff.contDiffAt (by fun_prop)
  solves _ _ := Eventually.of_forall fun t => (Real.hasDerivAt_cos t).prodMk (Real.hasDerivAt_sin t).neg

/-- A configuration for the oscillator on `[0, 1]` with `max_step = η`. -/
noncomputable def exCfgNy (R : NyTable) (η : ℝ) : Cfg ℝ (ℝ × ℝ) ℝ where
  m := nyMethod (R.tab ℝ) (fun _ y => -y.1) (fun _ _ _ => .num (1 / 2))
  tb := some 1
  dir := 1
  maxStep := some η
  hMinA := 0
  hMinB := η
  tinyErr := 1 / 10 ^ 100
  minFactor := 1 / 5
  errExp := -1 / 4
  minbeta1 := -1 / 4
  minbeta2 := 0
  minalpha := 0
  safety := 9 / 10
  safetySc := 9 / 10
  pw := fun x e => x ^ e
  nfevStiff := 0

theorem exCfgNy_ok (R : NyTable) {η : ℝ} (hη : 0 < η) : CfgOK (exCfgNy R η) where
  dir := Or.inl rfl
  hMinA := le_rfl
  hMinB := hη
  tiny := by norm_num [exCfgNy]
  minF0 := by norm_num [exCfgNy]
  minF1 := by norm_num [exCfgNy]
  errExp := by norm_num [exCfgNy]
  safety0 := by norm_num [exCfgNy]
  safety1 := by norm_num [exCfgNy]
  safetySc := by norm_num [exCfgNy]
  pw := PowOK.rpow
  maxStep := fun m h => by simp only [exCfgNy, Option.some.injEq] at h; rw [← h]; exact hη

theorem exCfgNy_step (R : NyTable) {η : ℝ} (hη : 0 < η) (hη1 : η ≤ 1 / 2) : ∃ v', step (exCfgNy R η) 1
    (newSolver (exCfgNy R η) 0 (1, 0) η 1 (fun _ => 0)) = some (.ok, v') := by
  have hms : minStepOf (exCfgNy R η) 0 η = η := by
    simp only [minStepOf, exCfgNy, zero_mul]
    exact max_eq_right hη.le
  have hre : reassess (exCfgNy R η) (newSolver (exCfgNy R η) 0 (1, 0) η 1 (fun _ => 0)).st = (η, η, true) := by
    have e1 : (newSolver (exCfgNy R η) 0 (1, 0) η 1 (fun _ => 0)).st.hAbs = η := rfl
    have e2 : (newSolver (exCfgNy R η) 0 (1, 0) η 1 (fun _ => 0)).st.t = 0 := rfl
    have e3 : (newSolver (exCfgNy R η) 0 (1, 0) η 1 (fun _ => 0)).st.stdSc = true := rfl
    have e4 : (exCfgNy R η).tb = some 1 := rfl
    have e5 : (exCfgNy R η).maxStep = some η := rfl
    unfold reassess
    simp only [e1, e2, e3, e4, e5, hms, overMax, lt_irrefl, decide_false, Bool.or_false, Bool.false_eq_true, if_false]
    have : ¬ (|(1 : ℝ) - 0| < 2 * η) := by rw [sub_zero, abs_one]; linarith
    simp only [this, if_false]
  obtain ⟨s', hs'⟩ := loop_accepts (c := exCfgNy R η) (n := 0)
    (s := { (newSolver (exCfgNy R η) 0 (1, 0) η 1 (fun _ => 0)).st with stdSc := true }) (h := η)
    (ms := η) (x := 1 / 2) (rej := false) (lt_irrefl η)
    (by simp [exCfgNy, nyMethod, nyTrial, PreTest.none, ENorm.gt]) rfl (by norm_num) rfl rfl
  refine ⟨{ status := if reached (exCfgNy R η) s'.t then .finished else .running,
            tOld := some 0, st := s' }, ?_⟩
  have h0 : (exCfgNy R η).tb ≠ some (0 : ℝ) := by simp [exCfgNy]
  unfold step
  change (if (exCfgNy R η).tb = some 0 then _ else _) = _
  rw [if_neg h0]
  unfold stepImpl
  rw [hre]
  dsimp only
  rw [hs']
  rfl

/-- C95: all hypotheses are met by a run of every rational Nystrom method on the oscillator which makes a successful
step; so the error of that step is at most `C max_step^order`, for every small `max_step`. -/
example (R : NyTable) (hR : R ∈ rationalNy) : ∃ C hstar : ℝ, 0 < hstar ∧ ∀ η, 0 < η → η ≤ hstar →
    ∃ v', step (exCfgNy R η) 1 (newSolver (exCfgNy R η) 0 (1, 0) η 1 (fun _ => 0)) = some (.ok, v') ∧
      ‖v'.st.y - (Real.cos v'.st.t, -Real.sin v'.st.t)‖ ≤ C * η ^ R.order := by
  obtain ⟨C, hstar, _, h2, h3⟩ := C95_max_step_error R hR (exOscillator_solves 0 1) (fun _ _ _ _ _ => rfl)
  refine ⟨C, min hstar (1 / 2), lt_min h2 (by norm_num), fun η hη hle => ?_⟩
  obtain ⟨v', hv⟩ := exCfgNy_step R hη (hle.trans (min_le_right _ _))
  refine ⟨v', hv, ?_⟩
  have e : ((Real.cos 0, -Real.sin 0) : ℝ × ℝ) = (1, 0) := by simp
  exact h3 (exCfgNy R η) _ η η 1 (fun _ => 0) v' (exCfgNy_ok R hη) rfl rfl (by norm_num [exCfgNy]) rfl
    (hle.trans (min_le_left _ _))
    (fun w _ m hm => by
      simp only [exCfgNy, Option.some.injEq] at hm
      simp only [minStepOf, exCfgNy, zero_mul]
      rw [← hm]
      exact max_le hη.le le_rfl)
    (by rw [e]; exact .tail .refl hv)

end
end Extensisq
