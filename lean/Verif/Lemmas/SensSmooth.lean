import Verif.Props.SensCalculus
import Verif.Props.Convergence
import Verif.Lemmas.LinearODE
import Verif.Lemmas.NearConv

/-!
# Smoothness and existence of the auxiliary solutions of the sensitivity functions
-/

set_option linter.unusedSectionVars false

namespace Extensisq
open Matrix Set Filter Topology
open scoped ContDiff

variable {Ny Np : ℕ}

/-- Partial derivatives of a smooth function are smooth. -/
theorem partial_smooth {G H : Type*} [NormedAddCommGroup G] [NormedSpace ℝ G] [NormedAddCommGroup H] [NormedSpace ℝ H]
    {F : ℝ × G → H} {L : ℝ × G → G →L[ℝ] H} {U : Set (ℝ × G)} (hU : IsOpen U)
    (hL : ∀ z ∈ U, HasFDerivAt (fun w => F (z.1, w)) (L z) z.2) {z : ℝ × G} (hz : z ∈ U) (hs : ContDiffAt ℝ ∞ F z) (v : G) :
    ContDiffAt ℝ ∞ (fun z => L z v) z := by
  have h1 : ContDiffAt ℝ ∞ (fun z => fderiv ℝ F z ((0 : ℝ), v)) z :=
    (hs.fderiv_right (m := ∞) (by simp)).clm_apply contDiffAt_const
  refine h1.congr_of_eventuallyEq ?_
  have h2 : ∀ᶠ w in 𝓝 z, ContDiffAt ℝ 1 F w := (smooth_nat hs 1).eventually (by simp)
  filter_upwards [hU.mem_nhds hz, h2] with w hw hd
  have h3 := (hd.differentiableAt (by simp)).hasFDerivAt
  have h4 : HasFDerivAt (fun u : G => F (w.1, u)) ((fderiv ℝ F w).comp (ContinuousLinearMap.inr ℝ ℝ G)) w.2 :=
    HasFDerivAt.comp (g := F) (f := fun u : G => (w.1, u)) w.2 h3 (hasFDerivAt_prodMk_right w.1 w.2)
  have h5 := (hL w hw).unique h4
  rw [h5]
  rfl

/-- The problem along the solution `x`: everything is smooth in `(t, y)`, and `x` solves the equation on an open interval. -/
structure AlongOK (P : SensProb ℝ Ny Np) (p : Fin Np → ℝ) (x : ℝ → Fin Ny → ℝ) (t0 tf : ℝ) : Prop where
  fn : ∀ t ∈ uIcc t0 tf, ContDiffAt ℝ ∞ (fun z : ℝ × (Fin Ny → ℝ) => P.fn z.1 z.2 p) (t, x t)
  jac : ∀ t ∈ uIcc t0 tf, ∀ i j, ContDiffAt ℝ ∞ (fun z : ℝ × (Fin Ny → ℝ) => P.jac z.1 z.2 p i j) (t, x t)
  dfdp : ∀ t ∈ uIcc t0 tf, ∀ i j, ContDiffAt ℝ ∞ (fun z : ℝ × (Fin Ny → ℝ) => P.dfdp z.1 z.2 p i j) (t, x t)
  solves : ∀ t ∈ uIcc t0 tf, ∀ᶠ s in 𝓝 t, HasDerivAt x (P.fn s (x s) p) s

/-- The functions of the output are smooth along the solution. -/
structure OutSmooth (O : SensOut ℝ Ny Np) (p : Fin Np → ℝ) (x : ℝ → Fin Ny → ℝ) (t0 tf : ℝ) : Prop where
  g : ∀ t ∈ uIcc t0 tf, ContDiffAt ℝ ∞ (fun z : ℝ × (Fin Ny → ℝ) => O.g z.1 z.2 p) (t, x t)
  dgdy : ∀ t ∈ uIcc t0 tf, ∀ i, ContDiffAt ℝ ∞ (fun z : ℝ × (Fin Ny → ℝ) => O.dgdy z.1 z.2 p i) (t, x t)
  dgdp : ∀ t ∈ uIcc t0 tf, ∀ i, ContDiffAt ℝ ∞ (fun z : ℝ × (Fin Ny → ℝ) => O.dgdp z.1 z.2 p i) (t, x t)

theorem restrict_p {H : Type*} [NormedAddCommGroup H] [NormedSpace ℝ H]
    {F : ℝ × ((Fin Ny → ℝ) × (Fin Np → ℝ)) → H} {t : ℝ} {x : Fin Ny → ℝ} {p : Fin Np → ℝ}
    (h : ContDiffAt ℝ ∞ F (t, (x, p))) : ContDiffAt ℝ ∞ (fun z : ℝ × (Fin Ny → ℝ) => F (z.1, (z.2, p))) (t, x) := by
  have hL : ContDiffAt ℝ ∞ (fun z : ℝ × (Fin Ny → ℝ) => (z.1, (z.2, p))) (t, x) := ContDiff.contDiffAt (by fun_prop)
  exact ContDiffAt.comp (t, x) (g := F) (f := fun z : ℝ × (Fin Ny → ℝ) => (z.1, (z.2, p))) h hL

/-- If `fun` is smooth in `(t, y, p)` and `jac`, `dfdp` are its derivatives, they are smooth. -/
theorem DerivOK.alongOK {P : SensProb ℝ Ny Np} {U : Set (ℝ × ((Fin Ny → ℝ) × (Fin Np → ℝ)))} (hP : DerivOK P U)
    {p : Fin Np → ℝ} {x : ℝ → Fin Ny → ℝ} {t0 tf : ℝ} (hU : ∀ t ∈ uIcc t0 tf, (t, (x t, p)) ∈ U)
    (hs : ∀ t ∈ uIcc t0 tf, ContDiffAt ℝ ∞ (fun z : ℝ × ((Fin Ny → ℝ) × (Fin Np → ℝ)) => P.fn z.1 z.2.1 z.2.2) (t, (x t, p)))
    (hx : ∀ t ∈ uIcc t0 tf, ∀ᶠ s in 𝓝 t, HasDerivAt x (P.fn s (x s) p) s) : AlongOK P p x t0 tf where
  fn t ht := restrict_p (hs t ht)
  jac t ht i j := by
    have h := partial_smooth (F := fun z : ℝ × ((Fin Ny → ℝ) × (Fin Np → ℝ)) => P.fn z.1 z.2.1 z.2.2)
      (L := fun z => (matL (P.jac z.1 z.2.1 z.2.2)).coprod (matL (P.dfdp z.1 z.2.1 z.2.2))) hP.isOpen
      (fun z hz => hP.deriv z.1 z.2.1 z.2.2 hz) (hU t ht) (hs t ht) (Pi.single j 1, 0)
    have h2 := restrict_p (contDiffAt_pi.mp h i)
    refine h2.congr_of_eventuallyEq (Eventually.of_forall fun z => ?_)
    simp
  dfdp t ht i j := by
    have h := partial_smooth (F := fun z : ℝ × ((Fin Ny → ℝ) × (Fin Np → ℝ)) => P.fn z.1 z.2.1 z.2.2)
      (L := fun z => (matL (P.jac z.1 z.2.1 z.2.2)).coprod (matL (P.dfdp z.1 z.2.1 z.2.2))) hP.isOpen
      (fun z hz => hP.deriv z.1 z.2.1 z.2.2 hz) (hU t ht) (hs t ht) (0, Pi.single j 1)
    have h2 := restrict_p (contDiffAt_pi.mp h i)
    refine h2.congr_of_eventuallyEq (Eventually.of_forall fun z => ?_)
    simp
  solves := hx

/-- The same for the output. -/
theorem OutOK.outSmooth {O : SensOut ℝ Ny Np} {U : Set (ℝ × ((Fin Ny → ℝ) × (Fin Np → ℝ)))} (hU' : IsOpen U) (hO : OutOK O U)
    {p : Fin Np → ℝ} {x : ℝ → Fin Ny → ℝ} {t0 tf : ℝ} (hU : ∀ t ∈ uIcc t0 tf, (t, (x t, p)) ∈ U)
    (hs : ∀ t ∈ uIcc t0 tf, ContDiffAt ℝ ∞ (fun z : ℝ × ((Fin Ny → ℝ) × (Fin Np → ℝ)) => O.g z.1 z.2.1 z.2.2) (t, (x t, p))) :
    OutSmooth O p x t0 tf where
  g t ht := restrict_p (hs t ht)
  dgdy t ht i := by
    have h := partial_smooth (F := fun z : ℝ × ((Fin Ny → ℝ) × (Fin Np → ℝ)) => O.g z.1 z.2.1 z.2.2)
      (L := fun z => (vecL (O.dgdy z.1 z.2.1 z.2.2)).coprod (vecL (O.dgdp z.1 z.2.1 z.2.2))) hU'
      (fun z hz => hO.deriv z.1 z.2.1 z.2.2 hz) (hU t ht) (hs t ht) (Pi.single i 1, 0)
    refine (restrict_p h).congr_of_eventuallyEq (Eventually.of_forall fun z => ?_)
    simp
  dgdp t ht i := by
    have h := partial_smooth (F := fun z : ℝ × ((Fin Ny → ℝ) × (Fin Np → ℝ)) => O.g z.1 z.2.1 z.2.2)
      (L := fun z => (vecL (O.dgdy z.1 z.2.1 z.2.2)).coprod (vecL (O.dgdp z.1 z.2.1 z.2.2))) hU'
      (fun z hz => hO.deriv z.1 z.2.1 z.2.2 hz) (hU t ht) (hs t ht) (0, Pi.single i 1)
    refine (restrict_p h).congr_of_eventuallyEq (Eventually.of_forall fun z => ?_)
    simp

/-! ## Existence -/

/-- A smooth function along the solution is continuous near every time. -/
theorem continuous_along {G H : Type*} [NormedAddCommGroup G] [NormedSpace ℝ G] [NormedAddCommGroup H] [NormedSpace ℝ H]
    {F : ℝ × G → H} {x : ℝ → G} {t : ℝ} (hF : ContDiffAt ℝ ∞ F (t, x t)) (hx : ∀ᶠ s in 𝓝 t, ContinuousAt x s) :
    ∀ᶠ s in 𝓝 t, ContinuousAt (fun s => F (s, x s)) s := by
  have h1 : ∀ᶠ w in 𝓝 (t, x t), ContDiffAt ℝ 1 F w := (smooth_nat hF 1).eventually (by simp)
  have h2 : ContinuousAt (fun s => (s, x s)) t := continuousAt_id.prodMk hx.self_of_nhds
  filter_upwards [h2.eventually h1, hx] with s hs hxs
  exact ContinuousAt.comp (f := fun s => (s, x s)) (g := F) hs.continuousAt (continuousAt_id.prodMk hxs)

/-- Linear initial value problems have solutions on the whole interval and a bit beyond. -/
theorem linear_exists {ι : Type*} [Fintype ι] {A : ℝ → ι → ι → ℝ} {g : ℝ → ι → ℝ} {t0 b ta : ℝ} (hta : ta ∈ uIcc t0 b)
    (hA : ∀ t ∈ uIcc t0 b, ∀ i j, ∀ᶠ s in 𝓝 t, ContinuousAt (fun s => A s i j) s)
    (hg : ∀ t ∈ uIcc t0 b, ∀ i, ∀ᶠ s in 𝓝 t, ContinuousAt (fun s => g s i) s) (x0 : ι → ℝ) :
    ∃ x : ℝ → ι → ℝ, x ta = x0 ∧
      ∀ t ∈ uIcc t0 b, ∀ᶠ s in 𝓝 t, HasDerivAt x (fun i => ∑ j, A s i j * x s j + g s i) s := by
  obtain ⟨ε, hε, he⟩ := extend_interval (Q := fun s => (∀ i j, ContinuousAt (fun s => A s i j) s) ∧ ∀ i, ContinuousAt (fun s => g s i) s)
    (t0 := t0) (b := b) (fun t ht => (eventually_all.mpr fun i => eventually_all.mpr fun j => hA t ht i j).and
      (eventually_all.mpr fun i => hg t ht i))
  set I := Icc (min t0 b - ε) (max t0 b + ε) with hI
  have hAc : ∀ i j, ContinuousOn (fun s => A s i j) I := fun i j s hs => ((he s hs).1 i j).continuousWithinAt
  have hgc : ∀ i, ContinuousOn (fun s => g s i) I := fun i s hs => ((he s hs).2 i).continuousWithinAt
  have hb : ∀ i j, ∃ C, ∀ s ∈ I, ‖A s i j‖ ≤ C := fun i j => isCompact_Icc.exists_bound_of_continuousOn (hAc i j)
  choose C hC using hb
  have hsub : ∀ t ∈ uIcc t0 b, t ∈ Ioo (min t0 b - ε) (max t0 b + ε) := fun t ht =>
    ⟨by linarith [ht.1], by linarith [ht.2]⟩
  set K := ∑ i, ∑ j, |C i j| with hK
  have hK0 : 0 ≤ K := Finset.sum_nonneg fun i _ => Finset.sum_nonneg fun j _ => abs_nonneg _
  obtain ⟨x, h1, h2⟩ := lipschitz_global_exists (F := fun s y i => ∑ j, A s i j * y j + g s i) (K := K) (a := min t0 b - ε)
    (b := max t0 b + ε) (t0 := ta) (Ioo_subset_Icc_self (hsub ta hta)) hK0 (by
      intro s hs y z
      rw [pi_norm_le_iff_of_nonneg (by positivity)]
      intro i
      have e : (∑ j, A s i j * y j + g s i) - (∑ j, A s i j * z j + g s i) = ∑ j, A s i j * (y j - z j) := by
        rw [add_sub_add_right_eq_sub, ← Finset.sum_sub_distrib]
        exact Finset.sum_congr rfl fun j _ => by ring
      simp only [Pi.sub_apply]
      rw [e]
      calc ‖∑ j, A s i j * (y j - z j)‖ ≤ ∑ j, |C i j| * ‖y - z‖ := by
            refine (norm_sum_le _ _).trans (Finset.sum_le_sum fun j _ => ?_)
            rw [norm_mul]
            exact mul_le_mul ((hC i j s hs).trans (le_abs_self _)) (norm_le_pi_norm (y - z) j) (norm_nonneg _) (abs_nonneg _)
        _ = (∑ j, |C i j|) * ‖y - z‖ := by rw [Finset.sum_mul]
        _ ≤ K * ‖y - z‖ := mul_le_mul_of_nonneg_right (Finset.single_le_sum (f := fun i => ∑ j, |C i j|)
            (fun i _ => Finset.sum_nonneg fun j _ => abs_nonneg _) (Finset.mem_univ i)) (norm_nonneg _))
    (by
      intro y
      refine continuousOn_pi.mpr fun i => ?_
      exact (continuousOn_finsetSum _ fun j _ => (hAc i j).mul continuousOn_const).add (hgc i)) x0
  refine ⟨x, h1, fun t ht => ?_⟩
  filter_upwards [Ioo_mem_nhds (hsub t ht).1 (hsub t ht).2] with s hs
  exact (h2 s (Ioo_subset_Icc_self hs)).hasDerivAt (Icc_mem_nhds hs.1 hs.2)

theorem AlongOK.cont {P : SensProb ℝ Ny Np} {p : Fin Np → ℝ} {x : ℝ → Fin Ny → ℝ} {t0 tf : ℝ} (h : AlongOK P p x t0 tf) :
    ∀ t ∈ uIcc t0 tf, ∀ᶠ s in 𝓝 t, ContinuousAt x s :=
  fun t ht => (h.solves t ht).mono fun _ hs => hs.continuousAt

theorem AlongOK.solvesOn {P : SensProb ℝ Ny Np} {p : Fin Np → ℝ} {x : ℝ → Fin Ny → ℝ} {t0 tf : ℝ} (h : AlongOK P p x t0 tf) :
    SolvesOn (fun t y => P.fn t y p) x t0 tf := ⟨h.fn, h.solves⟩

theorem AlongOK.smooth_x {P : SensProb ℝ Ny Np} {p : Fin Np → ℝ} {x : ℝ → Fin Ny → ℝ} {t0 tf : ℝ} (h : AlongOK P p x t0 tf) :
    ∀ t ∈ uIcc t0 tf, ContDiffAt ℝ ∞ x t := fun t ht =>
  contDiffAt_infty.mpr fun n => solution_contDiffAt (f := fun t y => P.fn t y p) (fun m => smooth_nat (h.fn t ht) m) (h.solves t ht) n

/-- A smooth function along the solution, as a function of time. -/
theorem AlongOK.comp {P : SensProb ℝ Ny Np} {p : Fin Np → ℝ} {x : ℝ → Fin Ny → ℝ} {t0 tf : ℝ} (h : AlongOK P p x t0 tf)
    {H : Type*} [NormedAddCommGroup H] [NormedSpace ℝ H] {F : ℝ × (Fin Ny → ℝ) → H} {t : ℝ} (ht : t ∈ uIcc t0 tf)
    (hF : ContDiffAt ℝ ∞ F (t, x t)) : ContDiffAt ℝ ∞ (fun t => F (t, x t)) t :=
  ContDiffAt.comp t (g := F) (f := fun t => (t, x t)) hF (contDiffAt_id.prodMk (h.smooth_x t ht))

/-- The combined problem of `sens_forward` has a solution. -/
theorem AlongOK.forward {P : SensProb ℝ Ny Np} {p : Fin Np → ℝ} {x : ℝ → Fin Ny → ℝ} {t0 tf : ℝ} (h : AlongOK P p x t0 tf)
    (dy0dp : Matrix (Fin Ny) (Fin Np) ℝ) :
    ∃ Y, SolvesOn (totalFun P p) Y t0 tf ∧ Y t0 = totalY0 (x t0) dy0dp ∧ ∀ t, fwdY (Y t) = x t := by
  have hcol : ∀ j : Fin Np, ∃ w : ℝ → Fin Ny → ℝ, w t0 = (fun i => dy0dp i j) ∧ ∀ t ∈ uIcc t0 tf, ∀ᶠ s in 𝓝 t,
      HasDerivAt w (fun i => ∑ k, P.jac s (x s) p i k * w s k + P.dfdp s (x s) p i j) s := fun j =>
    linear_exists left_mem_uIcc
      (fun t ht i k => continuous_along (F := fun z : ℝ × (Fin Ny → ℝ) => P.jac z.1 z.2 p i k) (h.jac t ht i k) (h.cont t ht))
      (fun t ht i => continuous_along (F := fun z : ℝ × (Fin Ny → ℝ) => P.dfdp z.1 z.2 p i j) (h.dfdp t ht i j) (h.cont t ht)) _
  choose w hw0 hw using hcol
  let Y : ℝ → Fin (Ny + Np * Ny) → ℝ := fun t => totalY0 (x t) (fun i j => w j t i)
  have hYy : ∀ t i, Y t (posY i) = x t i := fun t i => (C49_packing (x t) (fun i j => w j t i)).1 i
  have hYs : ∀ t i j, Y t (posS i j) = w j t i := fun t i j => (C49_packing (x t) (fun i j => w j t i)).2 i j
  have hhead : ∀ t, (fun i => Y t (posY i)) = x t := fun t => funext fun i => hYy t i
  refine ⟨Y, ⟨fun t ht => ?_, fun t ht => ?_⟩, ?_, fun t => (C49_inverse (x t) _ (Y t)).1⟩
  · rw [contDiffAt_pi]
    intro k
    have hpr : ContDiffAt ℝ ∞ (fun z : ℝ × (Fin (Ny + Np * Ny) → ℝ) => (z.1, fun i : Fin Ny => z.2 (posY i))) (t, Y t) :=
      ContDiff.contDiffAt (by fun_prop)
    have hcmp : ∀ {F : ℝ × (Fin Ny → ℝ) → ℝ}, ContDiffAt ℝ ∞ F (t, x t) →
        ContDiffAt ℝ ∞ (fun z : ℝ × (Fin (Ny + Np * Ny) → ℝ) => F (z.1, fun i : Fin Ny => z.2 (posY i))) (t, Y t) := by
      intro F hF
      refine ContDiffAt.comp (t, Y t) (g := F)
        (f := fun z : ℝ × (Fin (Ny + Np * Ny) → ℝ) => (z.1, fun i : Fin Ny => z.2 (posY i))) ?_ hpr
      simp only [hhead]
      exact hF
    rcases pos_cases k with ⟨i, rfl⟩ | ⟨i, j, rfl⟩
    · simp only [(C49_equations P p _ _).1]
      exact hcmp (F := fun z => P.fn z.1 z.2 p i) (contDiffAt_pi.mp (h.fn t ht) i)
    · simp only [(C49_equations P p _ _).2]
      refine ContDiffAt.add (ContDiffAt.sum fun k _ => ContDiffAt.mul ?_ ?_) ?_
      · exact hcmp (F := fun z => P.jac z.1 z.2 p i k) (h.jac t ht i k)
      · exact ContDiff.contDiffAt (by fun_prop)
      · exact hcmp (F := fun z => P.dfdp z.1 z.2 p i j) (h.dfdp t ht i j)
  · filter_upwards [h.solves t ht, eventually_all.mpr fun j => hw j t ht] with s h1 h2
    rw [hasDerivAt_pi]
    intro k
    rcases pos_cases k with ⟨i, rfl⟩ | ⟨i, j, rfl⟩
    · simp only [(C49_equations P p _ _).1, hYy]
      exact hasDerivAt_pi.mp h1 i
    · simp only [(C49_equations P p _ _).2, hYs, hYy]
      exact hasDerivAt_pi.mp (h2 j) i
  · change totalY0 (x t0) _ = _
    congr 1
    ext i j
    rw [hw0 j]

theorem jacBwEnd_entry {P : SensProb ℝ Ny Np} {p : Fin Np → ℝ} {x : ℝ → Fin Ny → ℝ} {t0 tf : ℝ} (h : AlongOK P p x t0 tf) :
    ∀ t ∈ uIcc t0 tf, ∀ k l, ContDiffAt ℝ ∞ (fun s => jacBwEnd P p x s k l) t := by
  intro t ht k l
  refine Fin.addCases (fun j => ?_) (fun j => ?_) l
  · refine Fin.addCases (fun i => ?_) (fun i => ?_) k
    · simp only [jacBwEnd, Fin.addCases_left]
      exact (h.comp (F := fun z => P.jac z.1 z.2 p j i) ht (h.jac t ht j i)).neg
    · simp only [jacBwEnd, Fin.addCases_left, Fin.addCases_right]
      exact h.comp (F := fun z => P.dfdp z.1 z.2 p j i) ht (h.dfdp t ht j i)
  · simp only [jacBwEnd, Fin.addCases_right]
    exact contDiffAt_const

theorem funBwEnd_zero (P : SensProb ℝ Ny Np) (p : Fin Np → ℝ) (x : ℝ → Fin Ny → ℝ) (t : ℝ) : funBwEnd P p x t 0 = 0 := by
  have : headOf (0 : Fin (Ny + Np) → ℝ) = 0 := rfl
  simp only [funBwEnd, this, Matrix.mulVec_zero, neg_zero]
  ext k
  refine Fin.addCases (fun i => ?_) (fun i => ?_) k
  · simp
  · rw [Fin.append_right]; rfl

theorem funBwEnd_eq (P : SensProb ℝ Ny Np) (p : Fin Np → ℝ) (x : ℝ → Fin Ny → ℝ) (t : ℝ) (Y : Fin (Ny + Np) → ℝ) :
    funBwEnd P p x t Y = jacBwEnd P p x t *ᵥ Y := by
  have := C66_jac_end P p x t 0 Y
  rwa [funBwEnd_zero, sub_zero, sub_zero] at this

/-- Solutions of a problem that is linear with smooth coefficients. -/
theorem linear_solvesOn {n : ℕ} {F : ℝ → (Fin n → ℝ) → (Fin n → ℝ)} {A : ℝ → Matrix (Fin n) (Fin n) ℝ} {g : ℝ → Fin n → ℝ}
    (hF : ∀ t x, F t x = A t *ᵥ x + g t) {t0 b ta : ℝ} (hta : ta ∈ uIcc t0 b)
    (hA : ∀ t ∈ uIcc t0 b, ∀ i j, ContDiffAt ℝ ∞ (fun s => A s i j) t)
    (hg : ∀ t ∈ uIcc t0 b, ∀ i, ContDiffAt ℝ ∞ (fun s => g s i) t) (x0 : Fin n → ℝ) :
    ∃ x, x ta = x0 ∧ SolvesOn F x t0 b := by
  have hev : ∀ {u : ℝ → ℝ} {t : ℝ}, ContDiffAt ℝ ∞ u t → ∀ᶠ s in 𝓝 t, ContinuousAt u s := fun hu =>
    ((smooth_nat hu 1).eventually (by simp)).mono fun _ hs => hs.continuousAt
  obtain ⟨x, h1, h2⟩ := linear_exists (A := fun s i j => A s i j) (g := g) hta (fun t ht i j => hev (hA t ht i j))
    (fun t ht i => hev (hg t ht i)) x0
  refine ⟨x, h1, fun t ht => ?_, fun t ht => ?_⟩
  · simp only [hF]
    rw [contDiffAt_pi]
    intro i
    simp only [Pi.add_apply, Matrix.mulVec, dotProduct]
    have hfst : ∀ {u : ℝ → ℝ}, ContDiffAt ℝ ∞ u t → ContDiffAt ℝ ∞ (fun z : ℝ × (Fin n → ℝ) => u z.1) (t, x t) := fun {u} hu =>
      ContDiffAt.comp (t, x t) (g := u) (f := Prod.fst) hu contDiffAt_fst
    refine ContDiffAt.add (ContDiffAt.sum fun j _ => ContDiffAt.mul (hfst (hA t ht i j)) ?_) (hfst (hg t ht i))
    exact ContDiff.contDiffAt (by fun_prop)
  · filter_upwards [h2 t ht] with s hs
    rw [hF]
    exact hs

/-- The backward problem of `sens_adjoint_end` has a solution. -/
theorem AlongOK.backwardEnd {P : SensProb ℝ Ny Np} {p : Fin Np → ℝ} {x : ℝ → Fin Ny → ℝ} {t0 tf : ℝ} (h : AlongOK P p x t0 tf)
    (x0 : Fin (Ny + Np) → ℝ) : ∃ M, M tf = x0 ∧ SolvesOn (funBwEnd P p x) M tf t0 := by
  refine linear_solvesOn (A := jacBwEnd P p x) (g := fun _ => 0) (fun t Y => by rw [add_zero, funBwEnd_eq]) left_mem_uIcc ?_
    (fun _ _ _ => contDiffAt_const) x0
  rw [uIcc_comm]
  exact jacBwEnd_entry h

theorem jacBwInt_entry {P : SensProb ℝ Ny Np} {p : Fin Np → ℝ} {x : ℝ → Fin Ny → ℝ} {t0 tf : ℝ} (h : AlongOK P p x t0 tf) :
    ∀ t ∈ uIcc t0 tf, ∀ k l, ContDiffAt ℝ ∞ (fun s => jacBwInt P p x s k l) t := by
  intro t ht k l
  refine Fin.addCases (fun l => ?_) (fun l => ?_) l
  · refine Fin.addCases (fun j => ?_) (fun j => ?_) l
    · refine Fin.addCases (fun k => ?_) (fun k => ?_) k
      · refine Fin.addCases (fun i => ?_) (fun i => ?_) k
        · simp only [jacBwInt, Fin.addCases_left]
          exact (h.comp (F := fun z => P.jac z.1 z.2 p j i) ht (h.jac t ht j i)).neg
        · simp only [jacBwInt, Fin.addCases_left, Fin.addCases_right]
          exact h.comp (F := fun z => P.dfdp z.1 z.2 p j i) ht (h.dfdp t ht j i)
      · simp only [jacBwInt, Fin.addCases_left, Fin.addCases_right]
        exact contDiffAt_const
    · simp only [jacBwInt, Fin.addCases_left, Fin.addCases_right]
      exact contDiffAt_const
  · simp only [jacBwInt, Fin.addCases_right]
    exact contDiffAt_const

theorem funBwInt_eq (P : SensProb ℝ Ny Np) (O : SensOut ℝ Ny Np) (p : Fin Np → ℝ) (x : ℝ → Fin Ny → ℝ) (t : ℝ)
    (Y : Fin (Ny + Np + 1) → ℝ) : funBwInt P O p x t Y = jacBwInt P p x t *ᵥ Y + funBwInt P O p x t 0 := by
  have := C66_jac_int P O p x t 0 Y
  rw [sub_zero] at this
  rw [← this, sub_add_cancel]

theorem funBwInt_zero (P : SensProb ℝ Ny Np) (O : SensOut ℝ Ny Np) (p : Fin Np → ℝ) (x : ℝ → Fin Ny → ℝ) (t : ℝ) :
    funBwInt P O p x t 0 = Fin.append (Fin.append (-O.dgdy t (x t) p) (O.dgdp t (x t) p)) (fun _ => O.g t (x t) p) := by
  have : headOf (headOf (0 : Fin (Ny + Np + 1) → ℝ)) = 0 := rfl
  simp only [funBwInt, this, Matrix.mulVec_zero, zero_add]

/-- The backward problem of `sens_adjoint_int` has a solution. -/
theorem AlongOK.backwardInt {P : SensProb ℝ Ny Np} {O : SensOut ℝ Ny Np} {p : Fin Np → ℝ} {x : ℝ → Fin Ny → ℝ} {t0 tf : ℝ}
    (h : AlongOK P p x t0 tf) (hO : OutSmooth O p x t0 tf) (x0 : Fin (Ny + Np + 1) → ℝ) :
    ∃ M, M tf = x0 ∧ SolvesOn (funBwInt P O p x) M tf t0 := by
  refine linear_solvesOn (A := jacBwInt P p x) (g := fun t => funBwInt P O p x t 0) (fun t Y => funBwInt_eq P O p x t Y)
    left_mem_uIcc ?_ ?_ x0
  · rw [uIcc_comm]
    exact jacBwInt_entry h
  · rw [uIcc_comm]
    intro t ht k
    simp only [funBwInt_zero]
    refine Fin.addCases (fun k => ?_) (fun k => ?_) k
    · refine Fin.addCases (fun i => ?_) (fun i => ?_) k
      · simp only [Fin.append_left]
        exact (h.comp (F := fun z => O.dgdy z.1 z.2 p i) ht (hO.dgdy t ht i)).neg
      · simp only [Fin.append_left, Fin.append_right]
        exact h.comp (F := fun z => O.dgdp z.1 z.2 p i) ht (hO.dgdp t ht i)
    · simp only [Fin.append_right]
      exact h.comp (F := fun z => O.g z.1 z.2 p) ht (hO.g t ht)

end Extensisq
