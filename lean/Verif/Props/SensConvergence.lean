import Verif.Lemmas.SensSmooth
import Verif.Props.Robustness
import Verif.Props.SensWitness
import Verif.Props.BS5Convergence

/-!
# C109: the sensitivity functions converge

C51, C52 and C65 are about exact solutions of the problems that `sens_forward`, `sens_adjoint_end` and `sens_adjoint_int` pass to
the solver. Here the problems are solved by a Runge-Kutta method with finite steps, and the backward problems use a computed
approximation of the forward solution (the dense output `sol_y.sol`). The errors of all results are bounded.
-/

set_option linter.unusedSectionVars false

namespace Extensisq
open Matrix Set Filter Topology
open scoped ContDiff

variable {Ny Np : ℕ}

/-! ## Lipschitz bounds along a curve -/

/-- A smooth function is Lipschitz at a curve, with the same constants along the whole curve. -/
theorem lip_along {G H : Type*} [NormedAddCommGroup G] [NormedSpace ℝ G] [NormedAddCommGroup H] [NormedSpace ℝ H]
    {F : ℝ × G → H} {x : ℝ → G} {t0 tf : ℝ} (hF : ∀ t ∈ uIcc t0 tf, ContDiffAt ℝ ∞ F (t, x t))
    (hx : ∀ t ∈ uIcc t0 tf, ContinuousAt x t) :
    ∃ ρ L : ℝ, 0 < ρ ∧ 0 ≤ L ∧ ∀ t ∈ uIcc t0 tf, ∀ u, ‖u - x t‖ < ρ → ‖F (t, u) - F (t, x t)‖ ≤ L * ‖u - x t‖ := by
  refine (isCompact_uIcc (a := t0) (b := tf)).induction_on (p := fun S => ∃ ρ L : ℝ, 0 < ρ ∧ 0 ≤ L ∧ ∀ t ∈ S,
    ∀ u, ‖u - x t‖ < ρ → ‖F (t, u) - F (t, x t)‖ ≤ L * ‖u - x t‖) ?_ ?_ ?_ ?_
  · exact ⟨1, 0, one_pos, le_rfl, fun t ht => absurd ht (Set.notMem_empty t)⟩
  · rintro s t hst ⟨ρ, L, h1, h2, h3⟩
    exact ⟨ρ, L, h1, h2, fun x hx => h3 x (hst hx)⟩
  · rintro s t ⟨ρ, L, h1, h2, h3⟩ ⟨ρ', L', h1', h2', h3'⟩
    refine ⟨min ρ ρ', max L L', lt_min h1 h1', le_max_of_le_left h2, fun t ht u hu => ?_⟩
    rcases ht with ht | ht
    · exact (h3 t ht u (hu.trans_le (min_le_left _ _))).trans (mul_le_mul_of_nonneg_right (le_max_left _ _) (norm_nonneg _))
    · exact (h3' t ht u (hu.trans_le (min_le_right _ _))).trans (mul_le_mul_of_nonneg_right (le_max_right _ _) (norm_nonneg _))
  · intro tb htb
    obtain ⟨L, U, hU, hLip⟩ := ContDiffAt.exists_lipschitzOnWith (𝕂 := ℝ) (f := F) (x := (tb, x tb)) (smooth_nat (hF tb htb) _)
    obtain ⟨r, hr, hball⟩ := Metric.mem_nhds_iff.mp hU
    have hcont : ContinuousAt (fun t => (t, x t)) tb := continuousAt_id.prodMk (hx tb htb)
    have hev : ∀ᶠ t in 𝓝[uIcc t0 tf] tb, dist (t, x t) (tb, x tb) < r / 2 :=
      nhdsWithin_le_nhds (hcont.eventually (Metric.ball_mem_nhds (tb, x tb) (half_pos hr)))
    refine ⟨{t | dist (t, x t) (tb, x tb) < r / 2}, hev, r / 2, L, half_pos hr, L.2, ?_⟩
    intro t ht u hu
    have ht : dist (t, x t) (tb, x tb) < r / 2 := ht
    have e : dist (t, u) (t, x t) = ‖u - x t‖ := by
      rw [Prod.dist_eq, dist_self, dist_eq_norm]
      exact max_eq_right (norm_nonneg _)
    have hmem : dist (t, u) (tb, x tb) < r := by
      have := dist_triangle (t, u) (t, x t) (tb, x tb)
      linarith
    have := hLip.dist_le_mul (t, u) (hball hmem) (t, x t) (hball (by rw [Metric.mem_ball]; linarith))
    rwa [dist_eq_norm, e] at this

theorem mulVec_bound {m n : ℕ} (A : Matrix (Fin m) (Fin n) ℝ) (v : Fin n → ℝ) {c : ℝ} (hc : 0 ≤ c) (h : ∀ i j, |A i j| ≤ c) :
    ‖A *ᵥ v‖ ≤ n * c * ‖v‖ := by
  rw [pi_norm_le_iff_of_nonneg (by positivity)]
  intro i
  calc ‖(A *ᵥ v) i‖ ≤ ∑ j : Fin n, c * ‖v‖ := by
        refine (norm_sum_le Finset.univ (fun j => A i j * v j)).trans (Finset.sum_le_sum fun j _ => ?_)
        rw [norm_mul]
        exact mul_le_mul (h i j) (norm_le_pi_norm v j) (norm_nonneg _) hc
    _ = n * c * ‖v‖ := by simp [mul_assoc]

/-- A right-hand side that is linear in its second argument, with coefficients that depend on an approximated curve: the error
of the right-hand side is proportional to the error of the curve. -/
theorem linear_data {n : ℕ} {F : (Fin Ny → ℝ) → ℝ → (Fin n → ℝ) → (Fin n → ℝ)}
    {A : ℝ × (Fin Ny → ℝ) → Matrix (Fin n) (Fin n) ℝ} {b : ℝ × (Fin Ny → ℝ) → Fin n → ℝ}
    (hF : ∀ t u X, F u t X = A (t, u) *ᵥ X + b (t, u)) {x : ℝ → Fin Ny → ℝ} {t0 tf : ℝ}
    (hA : ∀ t ∈ uIcc t0 tf, ∀ i j, ContDiffAt ℝ ∞ (fun z => A z i j) (t, x t))
    (hb : ∀ t ∈ uIcc t0 tf, ∀ i, ContDiffAt ℝ ∞ (fun z => b z i) (t, x t))
    (hx : ∀ t ∈ uIcc t0 tf, ContinuousAt x t) (B : ℝ) :
    ∃ ρ K : ℝ, 0 < ρ ∧ 0 ≤ K ∧ ∀ t ∈ uIcc t0 tf, ∀ u X, ‖u - x t‖ < ρ → ‖X‖ ≤ B →
      ‖F u t X - F (x t) t X‖ ≤ K * ‖u - x t‖ := by
  obtain ⟨ρ, L, h1, h2, h3⟩ := lip_along (F := fun z => ((fun i j => A z i j : Fin n → Fin n → ℝ), b z)) (x := x) (t0 := t0) (tf := tf)
    (fun t ht => (contDiffAt_pi.mpr fun i => contDiffAt_pi.mpr fun j => hA t ht i j).prodMk (contDiffAt_pi.mpr fun i => hb t ht i)) hx
  refine ⟨ρ, n * L * |B| + L, h1, by positivity, fun t ht u X hu hX => ?_⟩
  have h4 := h3 t ht u hu
  have hA' : ‖(fun i j => A (t, u) i j : Fin n → Fin n → ℝ) - fun i j => A (t, x t) i j‖ ≤ L * ‖u - x t‖ :=
    (le_max_left _ _).trans h4
  have hb' : ‖b (t, u) - b (t, x t)‖ ≤ L * ‖u - x t‖ := (le_max_right _ _).trans h4
  have e : F u t X - F (x t) t X = (A (t, u) - A (t, x t)) *ᵥ X + (b (t, u) - b (t, x t)) := by
    rw [hF, hF, Matrix.sub_mulVec]
    abel
  have hAe : ∀ i j, |(A (t, u) - A (t, x t)) i j| ≤ L * ‖u - x t‖ := fun i j =>
    ((norm_le_pi_norm (((fun i j => A (t, u) i j : Fin n → Fin n → ℝ) - fun i j => A (t, x t) i j) i) j).trans
      (norm_le_pi_norm ((fun i j => A (t, u) i j : Fin n → Fin n → ℝ) - fun i j => A (t, x t) i j) i)).trans hA'
  have h5 := mulVec_bound (A (t, u) - A (t, x t)) X (by positivity) hAe
  rw [e]
  calc _ ≤ (n : ℝ) * (L * ‖u - x t‖) * ‖X‖ + L * ‖u - x t‖ := (norm_add_le _ _).trans (add_le_add h5 hb')
    _ ≤ (n : ℝ) * (L * ‖u - x t‖) * |B| + L * ‖u - x t‖ := by
        have : ‖X‖ ≤ |B| := hX.trans (le_abs_self B)
        gcongr
    _ = _ := by ring

/-! ## The common hypotheses -/

/-- A smooth parametrised problem: `jac` and `dfdp` are the derivatives of `fun` on the open set `U`, `y q` solves the problem with
parameters `q` and starting value `y0 q` for all `q` near `p`, `fun` is smooth in time, state and parameters along the solution
for `p`, which extends a little beyond both ends of the interval. -/
structure SensOK (P : SensProb ℝ Ny Np) (U : Set (ℝ × ((Fin Ny → ℝ) × (Fin Np → ℝ)))) (p : Fin Np → ℝ) (t0 tf : ℝ)
    (y : (Fin Np → ℝ) → ℝ → Fin Ny → ℝ) (y0 : (Fin Np → ℝ) → Fin Ny → ℝ) (dy0dp : Matrix (Fin Ny) (Fin Np) ℝ) : Prop where
  deriv : DerivOK P U
  start : HasFDerivAt y0 (matL dy0dp) p
  inU : ∀ᶠ q in 𝓝 p, ∀ t ∈ uIcc t0 tf, (t, (y q t, q)) ∈ U
  sol : ∀ᶠ q in 𝓝 p, Solves (fun t x => P.fn t x q) t0 tf t0 (y0 q) (y q)
  smooth : ∀ t ∈ uIcc t0 tf,
    ContDiffAt ℝ ∞ (fun z : ℝ × ((Fin Ny → ℝ) × (Fin Np → ℝ)) => P.fn z.1 z.2.1 z.2.2) (t, (y p t, p))
  beyond : ∀ t ∈ uIcc t0 tf, ∀ᶠ s in 𝓝 t, HasDerivAt (y p) (P.fn s (y p s) p) s

/-- The same for an output function. -/
structure OutputOK (O : SensOut ℝ Ny Np) (U : Set (ℝ × ((Fin Ny → ℝ) × (Fin Np → ℝ)))) (p : Fin Np → ℝ) (t0 tf : ℝ)
    (y : (Fin Np → ℝ) → ℝ → Fin Ny → ℝ) : Prop where
  deriv : OutOK O U
  smooth : ∀ t ∈ uIcc t0 tf,
    ContDiffAt ℝ ∞ (fun z : ℝ × ((Fin Ny → ℝ) × (Fin Np → ℝ)) => O.g z.1 z.2.1 z.2.2) (t, (y p t, p))

section
variable {P : SensProb ℝ Ny Np} {U : Set (ℝ × ((Fin Ny → ℝ) × (Fin Np → ℝ)))} {p : Fin Np → ℝ} {t0 tf : ℝ}
  {y : (Fin Np → ℝ) → ℝ → Fin Ny → ℝ} {y0 : (Fin Np → ℝ) → Fin Ny → ℝ} {dy0dp : Matrix (Fin Ny) (Fin Np) ℝ}

theorem SensOK.along (h : SensOK P U p t0 tf y y0 dy0dp) : AlongOK P p (y p) t0 tf :=
  h.deriv.alongOK h.inU.self_of_nhds h.smooth h.beyond

theorem SensOK.at_start (h : SensOK P U p t0 tf y y0 dy0dp) : y p t0 = y0 p := h.sol.self_of_nhds.init

theorem solves_of_solvesOn {E : Type*} [NormedAddCommGroup E] [NormedSpace ℝ E] {F : ℝ → E → E} {x : ℝ → E} {t0 tf : ℝ}
    (h : SolvesOn F x t0 tf) (ta : ℝ) : Solves F t0 tf ta (x ta) x :=
  ⟨rfl, fun t ht => (h.solves t ht).self_of_nhds.hasDerivWithinAt⟩

theorem SolvesOn.symm' {E : Type*} [NormedAddCommGroup E] [NormedSpace ℝ E] {F : ℝ → E → E} {x : ℝ → E} {t0 tf : ℝ}
    (h : SolvesOn F x t0 tf) : SolvesOn F x tf t0 := ⟨by rw [uIcc_comm]; exact h.smooth, by rw [uIcc_comm]; exact h.solves⟩

/-- Restriction to a part of the interval. -/
theorem Solves.restrict {E : Type*} [NormedAddCommGroup E] [NormedSpace ℝ E] {F : ℝ → E → E} {x : ℝ → E} {t0 tf ta : ℝ} {xa : E}
    (h : Solves F t0 tf ta xa x) {t : ℝ} (ht : t ∈ uIcc t0 tf) : Solves F t0 t ta xa x := by
  have hs : uIcc t0 t ⊆ uIcc t0 tf := uIcc_subset_uIcc left_mem_uIcc ht
  exact ⟨h.init, fun s hs' => (h.deriv s (hs hs')).mono hs⟩

/-- There is a solution of the variational equation. -/
theorem SensOK.variational (h : SensOK P U p t0 tf y y0 dy0dp) : ∃ S, Variational P p t0 tf (y p) dy0dp S := by
  obtain ⟨Y, h1, h2, h3⟩ := h.along.forward dy0dp
  have h4 := solves_of_solvesOn h1 t0
  rw [h2] at h4
  have h5 := (C65_forward_parts P p (y p t0) dy0dp h4).2
  simp only [h3] at h5
  exact ⟨_, h5⟩

/-! ## `sens_forward` -/

/-- **C109.** `sens_forward` with a Runge-Kutta method: at every point of every history with steps of at most `H`, the
computed solution and the computed sensitivities are within `C H^order` of the exact solution and of its derivatives with
respect to the parameters. -/
theorem C109_forward (R : RKTable) (hR : R ∈ rationalRK) (h : SensOK P U p t0 tf y y0 dy0dp) :
    ∃ D : ℝ → Matrix (Fin Ny) (Fin Np) ℝ, (∀ t ∈ uIcc t0 tf, HasFDerivAt (fun q => y q t) (matL (D t)) p) ∧
    ∃ C hstar : ℝ, 0 ≤ C ∧ 0 < hstar ∧
      ∀ (c : Cfg ℝ (Fin (Ny + Np * Ny) → ℝ) (Fin (Ny + Np * Ny) → ℝ))
        (errNorm : (Fin (Ny + Np * Ny) → ℝ) → (Fin (Ny + Np * Ny) → ℝ) → (Fin (Ny + Np * Ny) → ℝ) → ENorm ℝ)
        (T : PreTest ℝ (Fin (Ny + Np * Ny) → ℝ)) (h0 H : ℝ) (e0 : ℕ) (Ks0 : ℕ → (Fin (Ny + Np * Ny) → ℝ))
        (v : Solver ℝ (Fin (Ny + Np * Ny) → ℝ) (Fin (Ny + Np * Ny) → ℝ)),
        CfgOK c → c.m = rkMethod (R.tab ℝ) (totalFun P p) errNorm T → 0 ≤ c.dir * (tf - t0) → 0 ≤ H → H ≤ hstar →
        ReachWithin c (newSolver c t0 (totalY0 (y0 p) dy0dp) h0 e0 Ks0) t0 tf H v →
        (∀ i, |fwdY v.st.y i - y p v.st.t i| ≤ C * H ^ R.order) ∧
        ∀ i j, |fwdSens v.st.y i j - D v.st.t i j| ≤ C * H ^ R.order := by
  obtain ⟨Y, h1, h2, h3⟩ := h.along.forward dy0dp
  have hY := solves_of_solvesOn h1 t0
  rw [h2, h.at_start] at hY
  refine ⟨fun t => fwdSens (Y t), fun t ht => ?_, ?_⟩
  · have hs : uIcc t0 t ⊆ uIcc t0 tf := uIcc_subset_uIcc left_mem_uIcc ht
    exact (C65_sens_forward h.deriv h.start (fun s hs' => h.inU.self_of_nhds s (hs hs'))
      (h.sol.mono fun q hq => hq.restrict ht) (hY.restrict ht)).2
  obtain ⟨C, hstar, g1, g2, g3⟩ := C87_global_error R hR h1
  refine ⟨C, hstar, g1, g2, ?_⟩
  intro c errNorm T h0 H e0 Ks0 v hc hm hdir hH0 hH hr
  rw [← h.at_start, ← h2] at hr
  have hb := g3 c errNorm T h0 H e0 Ks0 v hc hm hdir hH0 hH hr
  constructor
  · intro i
    rw [← h3 v.st.t]
    have := norm_le_pi_norm (v.st.y - Y v.st.t) (posY i)
    exact this.trans hb
  · intro i j
    dsimp only
    rw [(C49_unpacking v.st.y).2 i j, (C49_unpacking (Y v.st.t)).2 i j]
    have := norm_le_pi_norm (v.st.y - Y v.st.t) (posS i j)
    exact this.trans hb

/-! ## `sens_adjoint_end` -/

theorem vecMul_bound {m n : ℕ} (A : Matrix (Fin m) (Fin n) ℝ) (v : Fin m → ℝ) (j : Fin n) :
    |(v ᵥ* A) j| ≤ (∑ i, ∑ j, |A i j|) * ‖v‖ := by
  calc |(v ᵥ* A) j| ≤ ∑ i, ‖v‖ * |A i j| := by
        refine (Finset.abs_sum_le_sum_abs (fun i => v i * A i j) Finset.univ).trans (Finset.sum_le_sum fun i _ => ?_)
        rw [abs_mul]
        exact mul_le_mul_of_nonneg_right (norm_le_pi_norm v i) (abs_nonneg _)
    _ ≤ ∑ i, ‖v‖ * ∑ j, |A i j| := Finset.sum_le_sum fun i _ => mul_le_mul_of_nonneg_left
        (Finset.single_le_sum (f := fun j => |A i j|) (fun _ _ => abs_nonneg _) (Finset.mem_univ j)) (norm_nonneg _)
    _ = _ := by rw [← Finset.mul_sum, mul_comm]

theorem headOf_norm {m n : ℕ} (a : Fin (m + n) → ℝ) : ‖headOf a‖ ≤ ‖a‖ := by
  rw [pi_norm_le_iff_of_nonneg (norm_nonneg _)]
  exact fun i => norm_le_pi_norm a _

variable {O : SensOut ℝ Ny Np}

theorem OutputOK.outSmooth (hO : OutputOK O U p t0 tf y) (h : SensOK P U p t0 tf y y0 dy0dp) : OutSmooth O p (y p) t0 tf :=
  hO.deriv.outSmooth h.deriv.isOpen h.inU.self_of_nhds hO.smooth

/-- The backward right-hand side of `sens_adjoint_end` with an approximation of the forward solution. -/
theorem bwEnd_data (h : SensOK P U p t0 tf y y0 dy0dp) (B : ℝ) :
    ∃ ρ K : ℝ, 0 < ρ ∧ 0 ≤ K ∧ ∀ z : ℝ → Fin Ny → ℝ, ∀ t ∈ uIcc t0 tf, ∀ X, ‖z t - y p t‖ < ρ → ‖X‖ ≤ B →
      ‖funBwEnd P p z t X - funBwEnd P p (y p) t X‖ ≤ K * ‖z t - y p t‖ := by
  obtain ⟨ρ, K, h1, h2, h3⟩ := linear_data (F := fun u t X => funBwEnd P p (fun _ => u) t X)
    (A := fun z => jacBwEnd P p (fun _ => z.2) z.1) (b := fun _ => 0) (x := y p) (t0 := t0) (tf := tf)
    (fun t u X => by rw [add_zero, funBwEnd_eq]) (by
      intro t ht k l
      refine Fin.addCases (fun j => ?_) (fun j => ?_) l
      · refine Fin.addCases (fun i => ?_) (fun i => ?_) k
        · simp only [jacBwEnd, Fin.addCases_left]
          exact (h.along.jac t ht j i).neg
        · simp only [jacBwEnd, Fin.addCases_left, Fin.addCases_right]
          exact h.along.dfdp t ht j i
      · simp only [jacBwEnd, Fin.addCases_right]
        exact contDiffAt_const) (fun _ _ _ => contDiffAt_const) (fun t ht => (h.along.cont t ht).self_of_nhds) B
  exact ⟨ρ, K, h1, h2, fun z t ht X hz hX => h3 t ht (z t) X hz hX⟩

theorem SolvesOn.bounded {E : Type*} [NormedAddCommGroup E] [NormedSpace ℝ E] {F : ℝ → E → E} {x : ℝ → E} {t0 tf : ℝ}
    (h : SolvesOn F x t0 tf) : ∃ B, 0 ≤ B ∧ ∀ t ∈ uIcc t0 tf, ‖x t‖ ≤ B := by
  obtain ⟨B, hB⟩ := (isCompact_uIcc (a := t0) (b := tf)).exists_bound_of_continuousOn (f := x)
    (fun t ht => (h.solves t ht).self_of_nhds.continuousAt.continuousWithinAt)
  exact ⟨|B|, abs_nonneg _, fun t ht => (hB t ht).trans (le_abs_self _)⟩

/-- **C109.** `sens_adjoint_end` with a Runge-Kutta method for the backward problem: if the approximation `z` of the forward
solution is within `δ` of it, every history from `tf` to `t0` with steps of at most `H` gives sensitivities within
`C (H^order + δ)` of the derivative of `p ↦ g(tf, y(tf; p), p)`, and the returned value of `g` is within `C δ`. -/
theorem C109_adjoint_end (R : RKTable) (hR : R ∈ rationalRK) (h : SensOK P U p t0 tf y y0 dy0dp)
    (hO : OutputOK O U p t0 tf y) :
    ∃ D : Fin Np → ℝ, HasFDerivAt (fun q => O.g tf (y q tf) q) (vecL D) p ∧
    ∃ C hstar : ℝ, 0 ≤ C ∧ 0 < hstar ∧
      ∀ (z : ℝ → Fin Ny → ℝ) (c : Cfg ℝ (Fin (Ny + Np) → ℝ) (Fin (Ny + Np) → ℝ))
        (errNorm : (Fin (Ny + Np) → ℝ) → (Fin (Ny + Np) → ℝ) → (Fin (Ny + Np) → ℝ) → ENorm ℝ)
        (T : PreTest ℝ (Fin (Ny + Np) → ℝ)) (h0 H δ : ℝ) (e0 : ℕ) (Ks0 : ℕ → (Fin (Ny + Np) → ℝ))
        (v : Solver ℝ (Fin (Ny + Np) → ℝ) (Fin (Ny + Np) → ℝ)),
        0 ≤ δ → δ ≤ hstar → (∀ t ∈ uIcc t0 tf, ‖z t - y p t‖ ≤ δ) →
        CfgOK c → c.m = rkMethod (R.tab ℝ) (funBwEnd P p z) errNorm T → 0 ≤ c.dir * (t0 - tf) → 0 ≤ H → H ≤ hstar →
        ReachWithin c (newSolver c tf (startBwEnd O p tf (z tf)) h0 e0 Ks0) tf t0 H v → v.st.t = t0 →
        (∀ j, |sensEnd O p dy0dp tf (z tf) v.st.y j - D j| ≤ C * (H ^ R.order + δ)) ∧
        |O.g tf (z tf) p - O.g tf (y p tf) p| ≤ C * δ := by
  have hOs := hO.outSmooth h
  obtain ⟨S, hS⟩ := h.variational
  obtain ⟨M, m1, m2⟩ := h.along.backwardEnd (startBwEnd O p tf (y p tf))
  have hM := solves_of_solvesOn m2.symm' tf
  rw [m1] at hM
  refine ⟨_, C51_adjoint_is_derivative h.deriv hO.deriv h.start h.inU.self_of_nhds h.sol hS hM, ?_⟩
  obtain ⟨B, b1, b2⟩ := m2.bounded
  obtain ⟨ρ, K, k1, k2, k3⟩ := bwEnd_data h (B + 1)
  obtain ⟨ρ', L, l1, l2, l3⟩ := lip_along (F := fun z : ℝ × (Fin Ny → ℝ) => (O.g z.1 z.2 p, O.dgdy z.1 z.2 p, O.dgdp z.1 z.2 p))
    (x := y p) (t0 := t0) (tf := tf)
    (fun t ht => (hOs.g t ht).prodMk ((contDiffAt_pi.mpr (hOs.dgdy t ht)).prodMk (contDiffAt_pi.mpr (hOs.dgdp t ht))))
    (fun t ht => (h.along.cont t ht).self_of_nhds)
  obtain ⟨C, hstar, g1, g2, g3⟩ := C107_inexact_data R hR m2 one_pos
  set W := (∑ i, ∑ j, |dy0dp i j|) + 1 with hW
  have hW0 : 0 ≤ W := by
    have : 0 ≤ ∑ i, ∑ j, |dy0dp i j| := Finset.sum_nonneg fun i _ => Finset.sum_nonneg fun j _ => abs_nonneg _
    linarith
  set Q := K + L + 1 with hQ
  have hQ1 : 1 ≤ Q := by linarith
  have hQ0 : 0 < Q := by linarith
  refine ⟨L + W * C * Q, min (hstar / Q) (min (ρ / 2) (ρ' / 2)), by positivity,
    lt_min (by positivity) (lt_min (by positivity) (by positivity)), ?_⟩
  intro z c errNorm T h0 H δ e0 Ks0 v hδ0 hδ hz hc hm hdir hH0 hH hr hvt
  have hδ1 : Q * δ ≤ hstar := by
    have := hδ.trans (min_le_left _ _)
    rwa [le_div_iff₀ hQ0, mul_comm] at this
  have hδ2 : δ < ρ := (hδ.trans ((min_le_right _ _).trans (min_le_left _ _))).trans_lt (by linarith)
  have hδ3 : δ < ρ' := (hδ.trans ((min_le_right _ _).trans (min_le_right _ _))).trans_lt (by linarith)
  have hH1 : H ≤ hstar := (hH.trans (min_le_left _ _)).trans (div_le_self g2.le hQ1)
  have hzf := hz tf right_mem_uIcc
  have hl := (l3 tf right_mem_uIcc (z tf) (hzf.trans_lt hδ3)).trans (mul_le_mul_of_nonneg_left hzf l2)
  have hlg : |O.g tf (z tf) p - O.g tf (y p tf) p| ≤ L * δ := (le_max_left _ _).trans hl
  have hl2 := (le_max_right _ _).trans hl
  have hly : ‖O.dgdy tf (z tf) p - O.dgdy tf (y p tf) p‖ ≤ L * δ := (le_max_left _ _).trans hl2
  have hlp : ‖O.dgdp tf (z tf) p - O.dgdp tf (y p tf) p‖ ≤ L * δ := (le_max_right _ _).trans hl2
  have hLδ : 0 ≤ L * δ := by positivity
  have hKδ : 0 ≤ K * δ := by positivity
  have hb := g3 c (funBwEnd P p z) errNorm T (startBwEnd O p tf (z tf)) h0 H (Q * δ) e0 Ks0 v hc hm hdir hH0 hH1 (by positivity) hδ1
    (by
      rw [m1]
      refine le_trans ?_ (show L * δ ≤ Q * δ by rw [hQ]; linarith)
      rw [pi_norm_le_iff_of_nonneg hLδ]
      intro k
      refine Fin.addCases (fun i => ?_) (fun i => ?_) k
      · simp only [startBwEnd, Pi.sub_apply, Fin.append_left]
        exact (norm_le_pi_norm (O.dgdy tf (z tf) p - O.dgdy tf (y p tf) p) i).trans hly
      · simp only [startBwEnd, Pi.sub_apply, Fin.append_right, sub_self, norm_zero]
        exact hLδ)
    (by
      intro t ht X hX
      have ht' : t ∈ uIcc t0 tf := by rwa [uIcc_comm]
      have hXB : ‖X‖ ≤ B + 1 := by
        have := norm_le_norm_add_norm_sub' X (M t)
        have := b2 t ht
        linarith
      have := (k3 z t ht' X ((hz t ht').trans_lt hδ2) hXB).trans (mul_le_mul_of_nonneg_left (hz t ht') k2)
      refine this.trans ?_
      rw [hQ]; linarith) hr
  rw [hvt] at hb
  have hHo : 0 ≤ H ^ R.order := pow_nonneg hH0 _
  refine ⟨fun j => ?_, hlg.trans ?_⟩
  · have e : sensEnd O p dy0dp tf (z tf) v.st.y j - sensEnd O p dy0dp tf (y p tf) (M t0) j =
        (O.dgdp tf (z tf) p - O.dgdp tf (y p tf) p) j + (headOf (v.st.y - M t0) ᵥ* dy0dp) j - tailOf (v.st.y - M t0) j := by
      have e1 : headOf (v.st.y - M t0) = headOf v.st.y - headOf (M t0) := rfl
      have e2 : tailOf (v.st.y - M t0) = tailOf v.st.y - tailOf (M t0) := rfl
      rw [e1, e2, Matrix.sub_vecMul]
      simp only [sensEnd, Pi.add_apply, Pi.sub_apply, Pi.neg_apply]
      ring
    have a1 : |(O.dgdp tf (z tf) p - O.dgdp tf (y p tf) p) j| ≤ L * δ := (norm_le_pi_norm _ j).trans hlp
    have a2 := (vecMul_bound dy0dp (headOf (v.st.y - M t0)) j).trans (mul_le_mul_of_nonneg_left (headOf_norm _)
      (Finset.sum_nonneg fun i _ => Finset.sum_nonneg fun j _ => abs_nonneg _))
    have a3 : |tailOf (v.st.y - M t0) j| ≤ ‖v.st.y - M t0‖ := norm_le_pi_norm (v.st.y - M t0) _
    have a4 : W * ‖v.st.y - M t0‖ ≤ W * (C * (H ^ R.order + Q * δ)) := mul_le_mul_of_nonneg_left hb hW0
    have a5 : W * C * (H ^ R.order + Q * δ) ≤ W * C * Q * (H ^ R.order + δ) := by
      have : 0 ≤ W * C := by positivity
      have h6 : H ^ R.order + Q * δ ≤ Q * (H ^ R.order + δ) := by nlinarith
      calc _ ≤ W * C * (Q * (H ^ R.order + δ)) := mul_le_mul_of_nonneg_left h6 this
        _ = _ := by ring
    have a6 : 0 ≤ L * H ^ R.order := by positivity
    rw [e]
    have t1 := abs_sub ((O.dgdp tf (z tf) p - O.dgdp tf (y p tf) p) j + (headOf (v.st.y - M t0) ᵥ* dy0dp) j) (tailOf (v.st.y - M t0) j)
    have t2 := abs_add_le ((O.dgdp tf (z tf) p - O.dgdp tf (y p tf) p) j) ((headOf (v.st.y - M t0) ᵥ* dy0dp) j)
    rw [hW] at a4 a5 ⊢
    linarith
  · have : 0 ≤ W * C * Q * δ := by positivity
    linarith

/-! ## `sens_adjoint_int` -/

/-- The backward right-hand side of `sens_adjoint_int` with an approximation of the forward solution. -/
theorem bwInt_data (h : SensOK P U p t0 tf y y0 dy0dp) (hOs : OutSmooth O p (y p) t0 tf) (B : ℝ) :
    ∃ ρ K : ℝ, 0 < ρ ∧ 0 ≤ K ∧ ∀ z : ℝ → Fin Ny → ℝ, ∀ t ∈ uIcc t0 tf, ∀ X, ‖z t - y p t‖ < ρ → ‖X‖ ≤ B →
      ‖funBwInt P O p z t X - funBwInt P O p (y p) t X‖ ≤ K * ‖z t - y p t‖ := by
  obtain ⟨ρ, K, h1, h2, h3⟩ := linear_data (F := fun u t X => funBwInt P O p (fun _ => u) t X)
    (A := fun z => jacBwInt P p (fun _ => z.2) z.1) (b := fun z => funBwInt P O p (fun _ => z.2) z.1 0) (x := y p) (t0 := t0)
    (tf := tf) (fun t u X => funBwInt_eq P O p _ t X) (by
      intro t ht k l
      refine Fin.addCases (fun l => ?_) (fun l => ?_) l
      · refine Fin.addCases (fun j => ?_) (fun j => ?_) l
        · refine Fin.addCases (fun k => ?_) (fun k => ?_) k
          · refine Fin.addCases (fun i => ?_) (fun i => ?_) k
            · simp only [jacBwInt, Fin.addCases_left]
              exact (h.along.jac t ht j i).neg
            · simp only [jacBwInt, Fin.addCases_left, Fin.addCases_right]
              exact h.along.dfdp t ht j i
          · simp only [jacBwInt, Fin.addCases_left, Fin.addCases_right]
            exact contDiffAt_const
        · simp only [jacBwInt, Fin.addCases_left, Fin.addCases_right]
          exact contDiffAt_const
      · simp only [jacBwInt, Fin.addCases_right]
        exact contDiffAt_const) (by
      intro t ht k
      simp only [funBwInt_zero]
      refine Fin.addCases (fun k => ?_) (fun k => ?_) k
      · refine Fin.addCases (fun i => ?_) (fun i => ?_) k
        · simp only [Fin.append_left]
          exact (hOs.dgdy t ht i).neg
        · simp only [Fin.append_left, Fin.append_right]
          exact hOs.dgdp t ht i
      · simp only [Fin.append_right]
        exact hOs.g t ht) (fun t ht => (h.along.cont t ht).self_of_nhds) B
  exact ⟨ρ, K, h1, h2, fun z t ht X hz hX => h3 t ht (z t) X hz hX⟩

/-- **C109.** `sens_adjoint_int` with a Runge-Kutta method for the backward problem: if the approximation `z` of the forward
solution is within `δ` of it, every history from `tf` to `t0` with steps of at most `H` gives sensitivities within
`C (H^order + δ)` of the derivative of `p ↦ ∫ g(t, y(t; p), p) dt`, and an integral within `C (H^order + δ)` of it. -/
theorem C109_adjoint_int (R : RKTable) (hR : R ∈ rationalRK) (h : SensOK P U p t0 tf y y0 dy0dp)
    (hO : OutputOK O U p t0 tf y) :
    ∃ D : Fin Np → ℝ, HasFDerivAt (fun q => ∫ t in t0..tf, O.g t (y q t) q) (vecL D) p ∧
    ∃ C hstar : ℝ, 0 ≤ C ∧ 0 < hstar ∧
      ∀ (z : ℝ → Fin Ny → ℝ) (c : Cfg ℝ (Fin (Ny + Np + 1) → ℝ) (Fin (Ny + Np + 1) → ℝ))
        (errNorm : (Fin (Ny + Np + 1) → ℝ) → (Fin (Ny + Np + 1) → ℝ) → (Fin (Ny + Np + 1) → ℝ) → ENorm ℝ)
        (T : PreTest ℝ (Fin (Ny + Np + 1) → ℝ)) (h0 H δ : ℝ) (e0 : ℕ) (Ks0 : ℕ → (Fin (Ny + Np + 1) → ℝ))
        (v : Solver ℝ (Fin (Ny + Np + 1) → ℝ) (Fin (Ny + Np + 1) → ℝ)),
        0 ≤ δ → δ ≤ hstar → (∀ t ∈ uIcc t0 tf, ‖z t - y p t‖ ≤ δ) →
        CfgOK c → c.m = rkMethod (R.tab ℝ) (funBwInt P O p z) errNorm T → 0 ≤ c.dir * (t0 - tf) → 0 ≤ H → H ≤ hstar →
        ReachWithin c (newSolver c tf 0 h0 e0 Ks0) tf t0 H v → v.st.t = t0 →
        (∀ j, |sensInt dy0dp v.st.y j - D j| ≤ C * (H ^ R.order + δ)) ∧
        |outInt v.st.y - ∫ t in t0..tf, O.g t (y p t) p| ≤ C * (H ^ R.order + δ) := by
  have hOs := hO.outSmooth h
  obtain ⟨S, hS⟩ := h.variational
  obtain ⟨M, m1, m2⟩ := h.along.backwardInt hOs 0
  have hM := solves_of_solvesOn m2.symm' tf
  rw [m1] at hM
  refine ⟨_, C52_adjoint_is_derivative h.deriv hO.deriv h.start h.inU h.sol hS hM, ?_⟩
  have hG := (C52_adjoint_equals_forward hO.deriv h.sol.self_of_nhds.continuousOn h.inU.self_of_nhds hS hM).2
  rw [← hG]
  obtain ⟨B, b1, b2⟩ := m2.bounded
  obtain ⟨ρ, K, k1, k2, k3⟩ := bwInt_data h hOs (B + 1)
  obtain ⟨C, hstar, g1, g2, g3⟩ := C107_inexact_data R hR m2 one_pos
  set W := (∑ i, ∑ j, |dy0dp i j|) + 1 with hW
  have hW1 : 1 ≤ W := by
    have : 0 ≤ ∑ i, ∑ j, |dy0dp i j| := Finset.sum_nonneg fun i _ => Finset.sum_nonneg fun j _ => abs_nonneg _
    linarith
  have hW0 : 0 ≤ W := by linarith
  set Q := K + 1 with hQ
  have hQ1 : 1 ≤ Q := by linarith
  have hQ0 : 0 < Q := by linarith
  refine ⟨W * C * Q, min (hstar / Q) (ρ / 2), by positivity, lt_min (by positivity) (by positivity), ?_⟩
  intro z c errNorm T h0 H δ e0 Ks0 v hδ0 hδ hz hc hm hdir hH0 hH hr hvt
  have hδ1 : Q * δ ≤ hstar := by
    have := hδ.trans (min_le_left _ _)
    rwa [le_div_iff₀ hQ0, mul_comm] at this
  have hδ2 : δ < ρ := (hδ.trans (min_le_right _ _)).trans_lt (by linarith)
  have hH1 : H ≤ hstar := (hH.trans (min_le_left _ _)).trans (div_le_self g2.le hQ1)
  have hb := g3 c (funBwInt P O p z) errNorm T 0 h0 H (Q * δ) e0 Ks0 v hc hm hdir hH0 hH1 (by positivity) hδ1
    (by
      rw [m1, sub_zero, norm_zero]
      positivity)
    (by
      intro t ht X hX
      have ht' : t ∈ uIcc t0 tf := by rwa [uIcc_comm]
      have hXB : ‖X‖ ≤ B + 1 := by
        have := norm_le_norm_add_norm_sub' X (M t)
        have := b2 t ht
        linarith
      have := (k3 z t ht' X ((hz t ht').trans_lt hδ2) hXB).trans (mul_le_mul_of_nonneg_left (hz t ht') k2)
      refine this.trans ?_
      rw [hQ]; linarith) hr
  rw [hvt] at hb
  have hHo : 0 ≤ H ^ R.order := pow_nonneg hH0 _
  have a5 : W * (C * (H ^ R.order + Q * δ)) ≤ W * C * Q * (H ^ R.order + δ) := by
    have : 0 ≤ W * C := by positivity
    have h6 : H ^ R.order + Q * δ ≤ Q * (H ^ R.order + δ) := by nlinarith
    calc _ = W * C * (H ^ R.order + Q * δ) := by ring
      _ ≤ W * C * (Q * (H ^ R.order + δ)) := mul_le_mul_of_nonneg_left h6 this
      _ = _ := by ring
  have a4 : W * ‖v.st.y - M t0‖ ≤ W * (C * (H ^ R.order + Q * δ)) := mul_le_mul_of_nonneg_left hb hW0
  refine ⟨fun j => ?_, ?_⟩
  · have e : sensInt dy0dp v.st.y j - sensInt dy0dp (M t0) j =
        (headOf (headOf (v.st.y - M t0)) ᵥ* dy0dp) j - tailOf (headOf (v.st.y - M t0)) j := by
      have e1 : headOf (headOf (v.st.y - M t0)) = headOf (headOf v.st.y) - headOf (headOf (M t0)) := rfl
      have e2 : tailOf (headOf (v.st.y - M t0)) = tailOf (headOf v.st.y) - tailOf (headOf (M t0)) := rfl
      rw [e1, e2, Matrix.sub_vecMul]
      simp only [sensInt, Pi.add_apply, Pi.sub_apply, Pi.neg_apply]
      ring
    have a2 := (vecMul_bound dy0dp (headOf (headOf (v.st.y - M t0))) j).trans (mul_le_mul_of_nonneg_left
      ((headOf_norm _).trans (headOf_norm _)) (Finset.sum_nonneg fun i _ => Finset.sum_nonneg fun j _ => abs_nonneg _))
    have a3 : |tailOf (headOf (v.st.y - M t0)) j| ≤ ‖v.st.y - M t0‖ := norm_le_pi_norm (v.st.y - M t0) _
    rw [e]
    have t1 := abs_sub ((headOf (headOf (v.st.y - M t0)) ᵥ* dy0dp) j) (tailOf (headOf (v.st.y - M t0)) j)
    have : W * ‖v.st.y - M t0‖ = (∑ i, ∑ j, |dy0dp i j|) * ‖v.st.y - M t0‖ + ‖v.st.y - M t0‖ := by rw [hW]; ring
    linarith
  · have e : outInt v.st.y - outInt (M t0) = -((v.st.y - M t0) (Fin.last _)) := by
      simp only [outInt, Pi.sub_apply]; ring
    rw [e, abs_neg]
    have a3 : |(v.st.y - M t0) (Fin.last _)| ≤ ‖v.st.y - M t0‖ := norm_le_pi_norm (v.st.y - M t0) _
    have a6 : ‖v.st.y - M t0‖ ≤ W * ‖v.st.y - M t0‖ := le_mul_of_one_le_left (norm_nonneg _) hW1
    linarith

/-! ## Both solves with the default method -/

/-- `z` is the continuous solution of a run (`sol_y.sol`): at every time it is the value of the dense output of a step of the run
that covers this time, the steps being at most `H` long. -/
def DenseOfRun {E : Type*} [NormedAddCommGroup E] [NormedSpace ℝ E] (c : Cfg ℝ E E)
    (dense : Solver ℝ E E → Option ((ℝ → E) × Solver ℝ E E)) (v0 : Solver ℝ E E) (t0 tf H : ℝ) (z : ℝ → E) : Prop :=
  ∀ t ∈ uIcc t0 tf, ∃ (v v' w : Solver ℝ E E) (fuel : ℕ) (u : ℝ → E), ReachWithin c v0 t0 tf H v ∧ v.st.t ∈ uIcc t0 tf ∧
    c.tb ≠ some v.st.t ∧ step c fuel v = some (.ok, v') ∧ |v'.st.t - v.st.t| ≤ H ∧ dense v' = some (u, w) ∧
    t ∈ uIcc v.st.t v'.st.t ∧ z t = u t

/-- The error of the continuous forward solution computed by `BS5`. -/
theorem bs5_forward (o : BS5Interp) (h : SensOK P U p t0 tf y y0 dy0dp) :
    ∃ C hstar : ℝ, 0 ≤ C ∧ 0 < hstar ∧
      ∀ (c : Cfg ℝ (Fin Ny → ℝ) (Fin Ny → ℝ)) (errNorm : (Fin Ny → ℝ) → (Fin Ny → ℝ) → (Fin Ny → ℝ) → ENorm ℝ) (h0 H : ℝ)
        (e0 : ℕ) (Ks0 : ℕ → (Fin Ny → ℝ)) (z : ℝ → Fin Ny → ℝ), CfgOK c →
        c.m = bs5Method ℝ (fun t x => P.fn t x p) errNorm → 0 ≤ c.dir * (tf - t0) → 0 ≤ H → H ≤ hstar →
        DenseOfRun c (bs5Dense o (fun t x => P.fn t x p)) (newSolver c t0 (y0 p) h0 e0 Ks0) t0 tf H z →
        ∀ t ∈ uIcc t0 tf, ‖z t - y p t‖ ≤ C * H ^ 5 := by
  obtain ⟨C, hstar, h1, h2, h3⟩ := C87_BS5_dense_error o h.along.solvesOn
  refine ⟨C, hstar, h1, h2, ?_⟩
  intro c errNorm h0 H e0 Ks0 z hc hm hdir hH0 hH hz t ht
  obtain ⟨v, v', w, fuel, u, z1, z2, z3, z4, z5, z6, z7, z8⟩ := hz t ht
  rw [← h.at_start] at z1
  obtain ⟨u', w', a1, a2⟩ := h3 c errNorm h0 H e0 Ks0 v v' fuel hc hm hdir hH0 hH z1 z2 z3 z4 z5
  rw [z6] at a1
  obtain ⟨rfl, -⟩ := Prod.ext_iff.mp (Option.some.inj a1)
  rw [z8]
  exact a2 t z7

/-- **C109.** `sens_adjoint_end` with its default method `BS5` (any interpolant): with steps of at most `H` in both solves, the
sensitivities are within `C H^5` of the derivative of `p ↦ g(tf, y(tf; p), p)` and the value of `g` within `C H^5`. -/
theorem C109_adjoint_end_BS5 (o : BS5Interp) (h : SensOK P U p t0 tf y y0 dy0dp) (hO : OutputOK O U p t0 tf y) :
    ∃ D : Fin Np → ℝ, HasFDerivAt (fun q => O.g tf (y q tf) q) (vecL D) p ∧
    ∃ C hstar : ℝ, 0 ≤ C ∧ 0 < hstar ∧
      ∀ (cf : Cfg ℝ (Fin Ny → ℝ) (Fin Ny → ℝ)) (normf : (Fin Ny → ℝ) → (Fin Ny → ℝ) → (Fin Ny → ℝ) → ENorm ℝ)
        (c : Cfg ℝ (Fin (Ny + Np) → ℝ) (Fin (Ny + Np) → ℝ))
        (errNorm : (Fin (Ny + Np) → ℝ) → (Fin (Ny + Np) → ℝ) → (Fin (Ny + Np) → ℝ) → ENorm ℝ)
        (h0f h0 H : ℝ) (e0f e0 : ℕ) (Ks0f : ℕ → (Fin Ny → ℝ)) (Ks0 : ℕ → (Fin (Ny + Np) → ℝ)) (z : ℝ → Fin Ny → ℝ)
        (v : Solver ℝ (Fin (Ny + Np) → ℝ) (Fin (Ny + Np) → ℝ)), 0 ≤ H → H ≤ hstar →
        CfgOK cf → cf.m = bs5Method ℝ (fun t x => P.fn t x p) normf → 0 ≤ cf.dir * (tf - t0) →
        DenseOfRun cf (bs5Dense o (fun t x => P.fn t x p)) (newSolver cf t0 (y0 p) h0f e0f Ks0f) t0 tf H z →
        CfgOK c → c.m = bs5Method ℝ (funBwEnd P p z) errNorm → 0 ≤ c.dir * (t0 - tf) →
        ReachWithin c (newSolver c tf (startBwEnd O p tf (z tf)) h0 e0 Ks0) tf t0 H v → v.st.t = t0 →
        (∀ j, |sensEnd O p dy0dp tf (z tf) v.st.y j - D j| ≤ C * H ^ 5) ∧
        |O.g tf (z tf) p - O.g tf (y p tf) p| ≤ C * H ^ 5 := by
  obtain ⟨C1, hs1, a1, a2, a3⟩ := bs5_forward o h
  obtain ⟨D, hD, C2, hs2, b1, b2, b3⟩ := C109_adjoint_end BS5 (by simp [rationalRK]) h hO
  refine ⟨D, hD, C2 * (1 + C1), min (min hs1 hs2) (min 1 (hs2 / (C1 + 1))), by positivity,
    lt_min (lt_min a2 b2) (lt_min one_pos (by positivity)), ?_⟩
  intro cf normf c errNorm h0f h0 H e0f e0 Ks0f Ks0 z v hH0 hH hcf hmf hdf hz hc hm hd hr hvt
  have hH1 := hH.trans ((min_le_left _ _).trans (min_le_left _ _))
  have hH2 := hH.trans ((min_le_left _ _).trans (min_le_right _ _))
  have hH3 : H ≤ 1 := hH.trans ((min_le_right _ _).trans (min_le_left _ _))
  have hH4 : H * (C1 + 1) ≤ hs2 := (le_div_iff₀ (by positivity)).mp (hH.trans ((min_le_right _ _).trans (min_le_right _ _)))
  have hzb := a3 cf normf h0f H e0f Ks0f z hcf hmf hdf hH0 hH1 hz
  have h5 : H ^ 5 ≤ H := by
    calc H ^ 5 ≤ H ^ 1 := pow_le_pow_of_le_one hH0 hH3 (by omega)
      _ = H := pow_one H
  have hδ : C1 * H ^ 5 ≤ hs2 := by
    have := mul_le_mul_of_nonneg_left h5 a1
    linarith
  have h50 : 0 ≤ H ^ 5 := by positivity
  obtain ⟨r1, r2⟩ := b3 z c errNorm _ h0 H (C1 * H ^ 5) e0 Ks0 v (by positivity) hδ hzb hc hm hd hH0 hH2 hr hvt
  have e : C2 * (H ^ BS5.order + C1 * H ^ 5) = C2 * (1 + C1) * H ^ 5 := by
    rw [show BS5.order = 5 from rfl]; ring
  rw [e] at r1
  refine ⟨r1, r2.trans ?_⟩
  have : 0 ≤ C2 * H ^ 5 := by positivity
  nlinarith

/-- **C109.** `sens_adjoint_int` with its default method `BS5` (any interpolant): with steps of at most `H` in both solves, the
sensitivities are within `C H^5` of the derivative of the integral of `g`, and the returned integral within `C H^5` of it. -/
theorem C109_adjoint_int_BS5 (o : BS5Interp) (h : SensOK P U p t0 tf y y0 dy0dp) (hO : OutputOK O U p t0 tf y) :
    ∃ D : Fin Np → ℝ, HasFDerivAt (fun q => ∫ t in t0..tf, O.g t (y q t) q) (vecL D) p ∧
    ∃ C hstar : ℝ, 0 ≤ C ∧ 0 < hstar ∧
      ∀ (cf : Cfg ℝ (Fin Ny → ℝ) (Fin Ny → ℝ)) (normf : (Fin Ny → ℝ) → (Fin Ny → ℝ) → (Fin Ny → ℝ) → ENorm ℝ)
        (c : Cfg ℝ (Fin (Ny + Np + 1) → ℝ) (Fin (Ny + Np + 1) → ℝ))
        (errNorm : (Fin (Ny + Np + 1) → ℝ) → (Fin (Ny + Np + 1) → ℝ) → (Fin (Ny + Np + 1) → ℝ) → ENorm ℝ)
        (h0f h0 H : ℝ) (e0f e0 : ℕ) (Ks0f : ℕ → (Fin Ny → ℝ)) (Ks0 : ℕ → (Fin (Ny + Np + 1) → ℝ)) (z : ℝ → Fin Ny → ℝ)
        (v : Solver ℝ (Fin (Ny + Np + 1) → ℝ) (Fin (Ny + Np + 1) → ℝ)), 0 ≤ H → H ≤ hstar →
        CfgOK cf → cf.m = bs5Method ℝ (fun t x => P.fn t x p) normf → 0 ≤ cf.dir * (tf - t0) →
        DenseOfRun cf (bs5Dense o (fun t x => P.fn t x p)) (newSolver cf t0 (y0 p) h0f e0f Ks0f) t0 tf H z →
        CfgOK c → c.m = bs5Method ℝ (funBwInt P O p z) errNorm → 0 ≤ c.dir * (t0 - tf) →
        ReachWithin c (newSolver c tf 0 h0 e0 Ks0) tf t0 H v → v.st.t = t0 →
        (∀ j, |sensInt dy0dp v.st.y j - D j| ≤ C * H ^ 5) ∧
        |outInt v.st.y - ∫ t in t0..tf, O.g t (y p t) p| ≤ C * H ^ 5 := by
  obtain ⟨C1, hs1, a1, a2, a3⟩ := bs5_forward o h
  obtain ⟨D, hD, C2, hs2, b1, b2, b3⟩ := C109_adjoint_int BS5 (by simp [rationalRK]) h hO
  refine ⟨D, hD, C2 * (1 + C1), min (min hs1 hs2) (min 1 (hs2 / (C1 + 1))), by positivity,
    lt_min (lt_min a2 b2) (lt_min one_pos (by positivity)), ?_⟩
  intro cf normf c errNorm h0f h0 H e0f e0 Ks0f Ks0 z v hH0 hH hcf hmf hdf hz hc hm hd hr hvt
  have hH1 := hH.trans ((min_le_left _ _).trans (min_le_left _ _))
  have hH2 := hH.trans ((min_le_left _ _).trans (min_le_right _ _))
  have hH3 : H ≤ 1 := hH.trans ((min_le_right _ _).trans (min_le_left _ _))
  have hH4 : H * (C1 + 1) ≤ hs2 := (le_div_iff₀ (by positivity)).mp (hH.trans ((min_le_right _ _).trans (min_le_right _ _)))
  have hzb := a3 cf normf h0f H e0f Ks0f z hcf hmf hdf hH0 hH1 hz
  have h5 : H ^ 5 ≤ H := by
    calc H ^ 5 ≤ H ^ 1 := pow_le_pow_of_le_one hH0 hH3 (by omega)
      _ = H := pow_one H
  have hδ : C1 * H ^ 5 ≤ hs2 := by
    have := mul_le_mul_of_nonneg_left h5 a1
    linarith
  obtain ⟨r1, r2⟩ := b3 z c errNorm _ h0 H (C1 * H ^ 5) e0 Ks0 v (by positivity) hδ hzb hc hm hd hH0 hH2 hr hvt
  have e : C2 * (H ^ BS5.order + C1 * H ^ 5) = C2 * (1 + C1) * H ^ 5 := by
    rw [show BS5.order = 5 from rfl]; ring
  rw [e] at r1 r2
  exact ⟨r1, r2⟩

end
end Extensisq
