import Mathlib.Analysis.Calculus.Deriv.Polynomial
import Mathlib.Analysis.Calculus.LocalExtr.Rolle
import Verif.Props.NystromConvergence
import Verif.Props.SwagDense
import Verif.Props.ChebDense
import Verif.Props.SwagWitness
import Verif.Props.NystromDense
import Verif.Props.NystromOptions
import Verif.Props.Convergence
import Verif.Model.Example

/-!
# C121: conserved and linearly growing quantities of the other solvers

C16 and C40 treat the Runge-Kutta and the ESDIRK methods. Here: a linear quantity `l` of the solution for which the problem
prescribes a constant rate (`l(fun(t, y)) = w`; `w = 0` is a conserved quantity, such as total mass, charge or momentum) is
reproduced exactly in every history of `step()` calls by the explicit Runge-Kutta methods (`w ≠ 0`), the Nystrom methods, the
stabilised Chebyshev method and the multistep method.
-/

set_option linter.unusedSectionVars false
set_option maxRecDepth 100000

namespace Extensisq
open Finset Polynomial

section
variable {K V X : Type*} [Field K] [LinearOrder K] [IsStrictOrderedRing K] [AddCommGroup V] [Module K V] [AddCommGroup X]
  [Module K X]

/-! ## Runge-Kutta methods -/

/-- **C121.** Explicit Runge-Kutta methods with exact coefficients: in every history `l(y) = l(y0) + (t - t0) w`. (For `w = 0` and all
methods see C16.) -/
theorem C121_runge_kutta {R : RKTable} (hR : R ∈ rationalRK) {c : Cfg K V V} {rhs : K → V → V}
    {errNorm : V → V → V → ENorm K} {P : PreTest K V} (hm : c.m = rkMethod (R.tab K) rhs errNorm P)
    {U : Type*} [AddCommGroup U] [Module K U] (l : V →ₗ[K] U) (w : U) (hl : ∀ t y, l (rhs t y) = w)
    {t0 : K} {y0 : V} {h0 : K} {e0 : ℕ} {Ks0 : ℕ → V} {v : Solver K V V}
    (hr : Reach c (newSolver c t0 y0 h0 e0 Ks0) v) : l v.st.y = l y0 + (v.st.t - t0) • w := by
  have key : ∀ R ∈ rationalRK, R.C.getD 0 0 = 0 ∧ 0 < R.s ∧ ∑ i ∈ range R.s, R.B.getD i 0 = 1 := by decide +kernel
  obtain ⟨q1, q2, q3⟩ := key R hR
  have hC : (R.tab K).C 0 = 0 := by
    have := congrArg (fun q : ℚ => (q : K)) q1
    simpa [RKTable.tab] using this
  have hB : ∑ i ∈ range (R.tab K).s, (R.tab K).B i = 1 := by
    have := congrArg (fun q : ℚ => (q : K)) q3
    simpa [RKTable.tab] using this
  induction hr with
  | refl => simp [newSolver]
  | @tail v v' o fuel hr h ih =>
    rcases rk_step_or hm hC q2 hr h with ⟨e1, e2⟩ | ⟨h, k, hk, e1⟩
    · rw [e1, e2]; exact ih
    · have e2 : l (∑ i ∈ range (R.tab K).s, (R.tab K).B i • k i) = w := by
        rw [map_sum]
        calc _ = ∑ i ∈ range (R.tab K).s, (R.tab K).B i • w :=
              sum_congr rfl fun i hi => by rw [map_smul, hk.stage i (mem_range.mp hi), hl]
          _ = w := by rw [← sum_smul, hB, one_smul]
      rw [hk.sol, map_add, map_smul, e2, ih, e1]
      module

/-! ## Nystrom methods -/

theorem IsNyStep.linear_rate {T : NTableau K} {acc : K → X × X → X} {U : Type*} [AddCommGroup U] [Module K U]
    {l : X →ₗ[K] U} {w : U} (hl : ∀ t y, l (acc t y) = w) {t : K} {y : X × X} {h : K} {k : ℕ → X} {yNew : X × X}
    (hk : IsNyStep T acc t y h k yNew) :
    l yNew.1 = l y.1 + h • l y.2 + (h ^ 2 * ∑ i ∈ range T.s, T.B i) • w ∧
    l yNew.2 = l y.2 + (h * ∑ i ∈ range T.s, T.Bp i) • w := by
  have h0 : ∀ i, i < T.s → l (k i) = w := fun i hi => by rw [hk.stage i hi]; exact hl _ _
  have hs : ∀ b : ℕ → K, l (∑ i ∈ range T.s, b i • k i) = (∑ i ∈ range T.s, b i) • w := by
    intro b
    rw [map_sum, sum_smul]
    exact sum_congr rfl fun i hi => by rw [map_smul, h0 i (mem_range.mp hi)]
  constructor
  · rw [hk.pos, map_add, map_add, map_smul, map_smul, hs, mul_smul]
  · rw [hk.vel, map_add, map_smul, hs, mul_smul]

/-- **C121.** Nystrom methods, every tableau: if the total force `l(acc)` vanishes, then `l(velocity)` keeps its initial value and
`l(position)` moves uniformly, in every history: conservation of momentum and the uniform motion of the centre of mass. -/
theorem C121_momentum {c : Cfg K (X × X) X} {T : NTableau K} {acc : K → X × X → X}
    {errNorm : X × X → X × X → X × X → ENorm K} (hm : c.m = nyMethod T acc errNorm) (hC : T.C 0 = 0) (hs : 0 < T.s)
    {U : Type*} [AddCommGroup U] [Module K U] (l : X →ₗ[K] U) (hl : ∀ t y, l (acc t y) = 0)
    {t0 : K} {y0 : X × X} {h0 : K} {e0 : ℕ} {Ks0 : ℕ → X} {v : Solver K (X × X) X}
    (hr : Reach c (newSolver c t0 y0 h0 e0 Ks0) v) :
    l v.st.y.2 = l y0.2 ∧ l v.st.y.1 = l y0.1 + (v.st.t - t0) • l y0.2 := by
  induction hr with
  | refl => simp [newSolver]
  | @tail v v' o fuel hr h ih =>
    obtain ⟨i1, i2⟩ := ih
    rcases ny_step_or hm hC hs hr h with ⟨e1, e2⟩ | ⟨h, e1, k, hk⟩
    · rw [e1, e2]; exact ⟨i1, i2⟩
    · obtain ⟨a, b⟩ := hk.linear_rate hl
      rw [a, b, e1, i1, i2]
      refine ⟨by simp, ?_⟩
      module

/-- **C121.** Nystrom methods with exact coefficients: if the total force is a constant `w` (uniform gravity), then `l(velocity)` and
`l(position)` follow the law of free fall exactly, in every history. -/
theorem C121_free_fall {R : NyTable} (hR : R ∈ rationalNy) {c : Cfg K (X × X) X} {acc : K → X × X → X}
    {errNorm : X × X → X × X → X × X → ENorm K} (hm : c.m = nyMethod (R.tab K) acc errNorm)
    {U : Type*} [AddCommGroup U] [Module K U] (l : X →ₗ[K] U) (w : U) (hl : ∀ t y, l (acc t y) = w)
    {t0 : K} {y0 : X × X} {h0 : K} {e0 : ℕ} {Ks0 : ℕ → X} {v : Solver K (X × X) X}
    (hr : Reach c (newSolver c t0 y0 h0 e0 Ks0) v) :
    l v.st.y.2 = l y0.2 + (v.st.t - t0) • w ∧
    l v.st.y.1 = l y0.1 + (v.st.t - t0) • l y0.2 + ((v.st.t - t0) ^ 2 / 2) • w := by
  have key : ∀ R ∈ rationalNy, R.C.getD 0 0 = 0 ∧ 0 < R.s ∧ ∑ i ∈ range R.s, R.B.getD i 0 = 1 / 2 ∧
      ∑ i ∈ range R.s, R.Bp.getD i 0 = 1 := by decide +kernel
  obtain ⟨q1, q2, q3, q4⟩ := key R hR
  have hC : (R.tab K).C 0 = 0 := by
    have := congrArg (fun q : ℚ => (q : K)) q1
    simpa [NyTable.tab] using this
  have hB : ∑ i ∈ range (R.tab K).s, (R.tab K).B i = 1 / 2 := by
    have := congrArg (fun q : ℚ => (q : K)) q3
    simpa [NyTable.tab] using this
  have hBp : ∑ i ∈ range (R.tab K).s, (R.tab K).Bp i = 1 := by
    have := congrArg (fun q : ℚ => (q : K)) q4
    simpa [NyTable.tab] using this
  induction hr with
  | refl => simp [newSolver]
  | @tail v v' o fuel hr h ih =>
    obtain ⟨i1, i2⟩ := ih
    rcases ny_step_or hm hC q2 hr h with ⟨e1, e2⟩ | ⟨h, e1, k, hk⟩
    · rw [e1, e2]; exact ⟨i1, i2⟩
    · obtain ⟨a, b⟩ := hk.linear_rate hl
      rw [hB] at a
      rw [hBp] at b
      rw [a, b, e1, i1, i2]
      refine ⟨by module, ?_⟩
      module

end

/-! ### Dense output of the Nystrom methods -/

section
variable {K X : Type*} [Field K] [LinearOrder K] [CharZero K] [AddCommGroup X] [Module K X] {U : Type*} [AddCommGroup U] [Module K U]

theorem hornerLoop_linear_zero (l : X →ₗ[K] U) (x : K) : ∀ (Q : List X) (y : X), (∀ q ∈ Q, l q = 0) → l y = 0 →
    l (hornerLoop x Q y) = 0
  | [], _, _, hy => hy
  | q :: r, y, hQ, hy => hornerLoop_linear_zero l x r _ (fun a ha => hQ a (List.mem_cons_of_mem _ ha)) (by
      rw [map_smul, map_add, hy, hQ q List.mem_cons_self, add_zero, smul_zero])

theorem hornerEval_linear_zero (l : X →ₗ[K] U) (x : K) (Q : List X) (hQ : ∀ q ∈ Q, l q = 0) : l (hornerEval x Q) = 0 := by
  unfold hornerEval
  have h : ∀ q ∈ Q.reverse, l q = 0 := fun q hq => hQ q (List.mem_reverse.mp hq)
  split
  · exact map_zero l
  · rename_i q r e
    rw [e] at h
    exact hornerLoop_linear_zero l x r _ (fun a ha => h a (List.mem_cons_of_mem _ ha)) (by
      rw [map_smul, h q List.mem_cons_self, smul_zero])

theorem nyExtra_linear_zero (l : X →ₗ[K] U) {acc : K → X × X → X} (hl : ∀ t y, l (acc t y) = 0) (tOld : K) (yOld : X × X) (h : K) :
    ∀ (L : List (List ℚ × List ℚ × ℚ)) (s : ℕ) (Ks : ℕ → X), (∀ i, i < s → l (Ks i) = 0) →
      ∀ i, i < s + L.length → l (nyExtra acc tOld yOld h s L Ks i) = 0
  | [], s, Ks, hK, i, hi => by
    unfold nyExtra; exact hK i (by simpa using hi)
  | (a, ap, c) :: r, s, Ks, hK, i, hi => by
    unfold nyExtra
    refine nyExtra_linear_zero l hl tOld yOld h r (s + 1) _ (fun j hj => ?_) i (by simp only [List.length_cons] at hi; omega)
    by_cases e : j = s
    · subst e; rw [Function.update_self]; exact hl _ _
    · rw [Function.update_of_ne e]; exact hK j (by omega)

theorem nyHorner_linear_zero (l : X →ₗ[K] U) {acc : K → X × X → X} (hl : ∀ t y, l (acc t y) = 0) {d : NyState K X}
    (ht : d.t ≠ d.tOld) (s : ℕ) (hK : ∀ i, i < s + 1 → l (d.Ks i) = 0) (L : List (List ℚ × List ℚ × ℚ))
    (P Pp : List (List ℚ)) (τ : K) :
    l (nyHorner acc s L P Pp d τ).2 = l d.yOld.2 ∧
    l (nyHorner acc s L P Pp d τ).1 = l d.yOld.1 + (τ - d.tOld) • l d.yOld.2 := by
  have hz := nyExtra_linear_zero l hl d.tOld d.yOld (d.t - d.tOld) L (s + 1) d.Ks hK
  have hq : ∀ (P : List (List ℚ)) (a : K), ∀ q ∈ (denseQ K P (s + 1 + L.length)
      (nyExtra acc d.tOld d.yOld (d.t - d.tOld) (s + 1) L d.Ks)).map (fun q => a • q), l q = 0 := by
    intro P a q hq
    obtain ⟨x, hx, rfl⟩ := List.mem_map.mp hq
    unfold denseQ at hx
    obtain ⟨j, _, rfl⟩ := List.mem_map.mp hx
    rw [map_smul, map_sum, sum_eq_zero, smul_zero]
    intro i hi
    rw [map_smul, hz i (mem_range.mp hi), smul_zero]
  have hne : d.t - d.tOld ≠ 0 := sub_ne_zero.mpr ht
  unfold nyHorner hornerNystrom
  dsimp only
  constructor
  · rw [map_add, hornerEval_linear_zero l _ _ (hq Pp _), zero_add]
  · rw [map_add, map_smul, map_add, hornerEval_linear_zero l _ _ (hq P _), zero_add, map_smul, smul_smul, div_mul_cancel₀ _ hne,
      add_comm]

theorem quintic_linear_zero (l : X →ₗ[K] U) {tOld t : K} (ht : t ≠ tOld) {yOld y : X × X} {aOld a : X} (h1 : l aOld = 0) (h2 : l a = 0)
    (h3 : l y.2 = l yOld.2) (h4 : l y.1 = l yOld.1 + (t - tOld) • l yOld.2) (τ : K) :
    l (quintic tOld t yOld y aOld a τ).2 = l yOld.2 ∧
    l (quintic tOld t yOld y aOld a τ).1 = l yOld.1 + (τ - tOld) • l yOld.2 := by
  have hne : t - tOld ≠ 0 := sub_ne_zero.mpr ht
  obtain ⟨x, hx⟩ : ∃ x, τ - tOld = x * (t - tOld) := ⟨(τ - tOld) / (t - tOld), by field_simp⟩
  have hx' : (τ - tOld) / (t - tOld) = x := by rw [hx]; field_simp
  unfold quintic
  simp only [hx', hx]
  generalize hh : t - tOld = h at *
  constructor
  · simp only [quinticQp, quinticQ, hornerEval', hornerLoop', List.reverse_cons, List.reverse_nil, List.nil_append,
      List.cons_append, List.zipIdx_cons, List.zipIdx_nil, List.map_cons, List.map_nil, map_add, map_smul, h1, h2, h3, h4, smul_zero,
      add_zero, zero_add]
    match_scalars <;> (push_cast; field_simp; ring)
  · simp only [quinticQ, hornerEval', hornerLoop', List.reverse_cons, List.reverse_nil, List.nil_append,
      List.cons_append, map_add, map_smul, h1, h2, h3, h4, smul_zero, add_zero, zero_add]
    match_scalars <;> (field_simp; ring)

/-- **C121.** The dense output of every Nystrom class has the same momentum at every time, and the centre of mass on the straight line:
the interpolants of `MR6NN`, `Fi4N`, `Fi5N` (all options) and `Mu5Nmb` (both options). -/
theorem C121_nystrom_dense {R : NyTable} {acc : K → X × X → X} (l : X →ₗ[K] U) (hl : ∀ t y, l (acc t y) = 0) {d : NyState K X}
    (hd : IsNyDone R acc d) (ht : d.t ≠ d.tOld) (ha : d.aOld = acc d.tOld d.yOld) (ha' : d.a = acc d.t d.y) (τ : K) :
    (R = MR6NN → l (mr6Dense acc d τ).2 = l d.yOld.2 ∧ l (mr6Dense acc d τ).1 = l d.yOld.1 + (τ - d.tOld) • l d.yOld.2) ∧
    (R = Fi4N → l (fi4Dense d τ).2 = l d.yOld.2 ∧ l (fi4Dense d τ).1 = l d.yOld.1 + (τ - d.tOld) • l d.yOld.2) ∧
    (R = Fi5N → ∀ o, l ((fi5Dense o acc d).1 τ).2 = l d.yOld.2 ∧
      l ((fi5Dense o acc d).1 τ).1 = l d.yOld.1 + (τ - d.tOld) • l d.yOld.2) ∧
    (R = Mu5Nmb → ∀ b, l (mu5Dense b acc d τ).2 = l d.yOld.2 ∧
      l (mu5Dense b acc d τ).1 = l d.yOld.1 + (τ - d.tOld) • l d.yOld.2) := by
  have hK : ∀ i, i < R.s + 1 → l (d.Ks i) = 0 := by
    intro i hi
    rcases Nat.lt_succ_iff_lt_or_eq.mp hi with hi | rfl
    · rw [hd.stage i hi]; exact hl _ _
    · have := hd.last
      change d.Ks R.s = _ at this
      rw [this]; exact hl _ _
  have hs : ∀ b : ℕ → K, l (∑ i ∈ range (R.tab K).s, b i • d.Ks i) = 0 := by
    intro b
    rw [map_sum, sum_eq_zero]
    intro i hi
    have := mem_range.mp hi
    change i < R.s at this
    rw [map_smul, hK i (by omega), smul_zero]
  have hv : l d.y.2 = l d.yOld.2 := by rw [hd.vel, map_add, map_smul, hs, smul_zero, add_zero]
  have hp : l d.y.1 = l d.yOld.1 + (d.t - d.tOld) • l d.yOld.2 := by
    rw [hd.pos, map_add, map_add, map_smul, map_smul, hs, smul_zero, add_zero]
  have hq := quintic_linear_zero l ht (by rw [ha, hl] : l d.aOld = 0) (by rw [ha', hl] : l d.a = 0) hv hp τ
  refine ⟨?_, ?_, ?_, ?_⟩
  · rintro rfl; exact nyHorner_linear_zero l hl ht _ hK _ _ _ τ
  · rintro rfl; exact hq
  · rintro rfl o
    cases o
    · exact hq
    all_goals exact nyHorner_linear_zero l hl ht _ hK _ _ _ τ
  · rintro rfl b
    cases b
    · exact hq
    · exact nyHorner_linear_zero l hl ht _ hK _ _ _ τ

end

/-! ## The Chebyshev method -/

section
variable {V W : Type*} [AddCommGroup V] [Module ℝ V] [AddCommGroup W] [Module ℝ W]

/-- **C121.** `SSV2stab`: in every history `l(y) = l(y0) + (t - t0) w`, whatever the numbers of stages. -/
theorem C121_chebyshev {c : ChebCfg ℝ V} {t0 : ℝ} {y0 : V} {first : Option ℝ} (hs : ChebStart c t0 first)
    (hstg : c.stg = rkcStages c.rhs) (l : V →ₗ[ℝ] W) (w : W) (hl : ∀ t y, l (c.rhs t y) = w)
    {v : ChebSolver ℝ V} (hr : ChebReach c (newCheb c t0 y0 first) v) :
    l v.st.yn = l y0 + (v.st.t - t0) • w := by
  induction hr with
  | refl => simp [newCheb]
  | @tail v v' o fuel hr h ih =>
    have hi := hr.inv hs
    rcases (chebStep_spec hs.ok hi h).2.1 with ⟨e, -⟩ | ⟨-, -, -, -, -, q, hqa⟩ | ⟨-, -, e1, e2, -⟩
    · rw [e]; exact ih
    · rw [hqa.yn, hqa.t, hstg, hi.fn, C44_linear_functional l c.rhs w hl _ _ _ hqa.ok.m2, ih]
      module
    · rw [e1, e2]; exact ih

end

/-- **C121.** `SSV2stab`: the dense output after every successful step has `l(u(τ)) = l(y0) + (τ - t0) w` at all `τ`. -/
theorem C121_chebyshev_dense {E W : Type*} [NormedAddCommGroup E] [NormedSpace ℝ E] [AddCommGroup W] [Module ℝ W] {c : ChebCfg ℝ E}
    {t0 : ℝ} {y0 : E} {first : Option ℝ} (hs : ChebStart c t0 first)
    (hstg : c.stg = rkcStages c.rhs) (l : E →ₗ[ℝ] W) (w : W) (hl : ∀ t y, l (c.rhs t y) = w)
    {v v' : ChebSolver ℝ E} (hr : ChebReach c (newCheb c t0 y0 first) v) {fuel : ℕ}
    (h : chebStep c fuel v = some (.ok, v')) (hne : c.tb ≠ some v.st.t) :
    ∃ u, chebDense v' = some u ∧ ∀ τ, l (u τ) = l y0 + (τ - t0) • w := by
  obtain ⟨ht, e⟩ := chebDense_eq hs hr h hne
  refine ⟨_, e, fun τ => ?_⟩
  have h1 := C121_chebyshev hs hstg l w hl hr
  have h2 := C121_chebyshev hs hstg l w hl (hr.tail h)
  have hne : v'.st.t - v.st.t ≠ 0 := sub_ne_zero.mpr ht
  simp only [cubic, map_add, map_smul, hl, h1, h2]
  match_scalars <;> (field_simp; ring)

/-! ## The multistep method -/

section
variable {K V : Type*} [Field K] [LinearOrder K] [IsStrictOrderedRing K] [AddCommGroup V] [Module K V]

/-- The accepted times stay distinct after the last step, too. -/
theorem distinct_next {c : SwCfg K V} (ok : SwOK c) (hfin : ∀ p y x, c.scale p y x ≠ .inf) {t0 : K} {y0 yp0 : V}
    {h0 : K} {wt0 : V → ENorm K} {phi0 : ℕ → V} {co0 : Coef K} {nfev : ℕ} (hh : 0 < c.dir * h0)
    (hb : ∀ b, c.tb = some b → 0 ≤ c.dir * (b - t0)) {v v' : SwSolver K V} {fuel : ℕ}
    (hr : SwReach c (newSwag t0 y0 yp0 h0 wt0 phi0 co0 nfev) v) (hs : v.status = .running) (hb0 : c.tb ≠ some v.st.t)
    (h : swStep c fuel v = some (.ok, v')) (hk : v'.st.kold ≠ 0) : Distinct v'.st := by
  have hkn := known ok hh hb hr hs
  have hd := C46_distinct_times ok hfin hh hb hr hs
  have hp := C46_progress_finite ok hfin hh hb hr hs hb0 h
  rcases step_hist hs hb0 h with ⟨b, _, e⟩ | ⟨l, _, _, _, e⟩
  · rw [e] at hk; exact absurd rfl hk
  obtain ⟨a1, a2, _⟩ := accept_hist e
  unfold Distinct at hd ⊢
  rw [a1, List.map_cons, List.nodup_cons]
  refine ⟨fun hc => ?_, hd⟩
  obtain ⟨a, ha, ea⟩ := List.mem_map.mp hc
  have hm1 := (hkn.mesh hd)
  obtain ⟨i, hi', rfl⟩ := List.mem_iff_getElem.mp ha
  have h3 : 0 ≤ c.dir * (v.st.t - v.st.hist[i].1) := by
    rw [← hm1.now, ← hx_getElem v.st.hist hi']
    rcases Nat.eq_zero_or_pos i with h0 | h0
    · rw [h0, sub_self, mul_zero]
    · exact ((hkn.strict hd).lt h0 hi').le
  simp only at ea
  rw [ea] at h3
  have e4 : c.dir * (v'.st.t - v.st.t) + c.dir * (v.st.t - v'.st.t) = 0 := by ring
  linarith

/-- `C121_multistep` for a scalar quantity. -/
theorem multistep_rate {c : SwCfg K V} (ok : SwOK c) (hfin : ∀ p y x, c.scale p y x ≠ .inf) {t0 : K} {y0 : V}
    {h0 : K} {wt0 : V → ENorm K} {phi0 : ℕ → V} {co0 : Coef K} {nfev : ℕ} (hh : 0 < c.dir * h0)
    (hb : ∀ b, c.tb = some b → 0 ≤ c.dir * (b - t0)) (l : V →ₗ[K] K) (w : K) (hl : ∀ t y, l (c.fn t y) = w)
    {v : SwSolver K V} (hr : SwReach c (newSwag t0 y0 (c.fn t0 y0) h0 wt0 phi0 co0 nfev) v) :
    l v.st.y = l y0 + (v.st.t - t0) * w ∧ ∀ a ∈ v.st.hist, l a.2 = w := by
  induction hr with
  | refl => simp [newSwag, hl]
  | @tail v v' o fuel hr h ih =>
    obtain ⟨i1, i2⟩ := ih
    rcases swStep_cases h with ⟨_, _, e⟩ | ⟨_, _, _, e⟩ | ⟨r, hb', s', hi, eo, e⟩ | ⟨_, _, hne, s', hi, e⟩
    · rw [e]; exact ⟨i1, i2⟩
    · rw [e]; exact ⟨i1, i2⟩
    · subst eo
      by_cases hk : v'.st.kold = 0
      · obtain ⟨g1, g2, _, g4⟩ := C48_extrapolated hr r ok.kMax hb' h hk
        have hist : v'.st.hist = v.st.hist := by
          rcases step_hist r hb' h with ⟨b, _, e⟩ | ⟨l, hl', _, _, e⟩
          · obtain ⟨_, _, _, _, _, _, _, _, _, _, _, _, _, _, e15, _⟩ := swStiff_same c v.st
            rw [e]; exact e15
          · obtain ⟨_, _, _, _, _, a6⟩ := accept_hist e
            have := (hl'.ok (hr.inv (new_inv c ok.kMax _ _ _ _ _ _ _ _) r)).k1
            omega
        refine ⟨?_, by rw [hist]; exact i2⟩
        rw [← g4, g2, map_add, map_smul, hl, i1, smul_eq_mul]
        ring
      · have hd := distinct_next ok hfin hh hb hr r hb' h hk
        obtain ⟨p, hp⟩ := C77_adams ok hh hb hr r hb' h hk hd
        have hist := C77_history r hb' h hk
        refine ⟨?_, ?_⟩
        · rw [(hp l).2 (C (l v.st.y) + C w * (X - C v.st.t))]
          · simp only [eval_add, eval_C, eval_mul, eval_sub, eval_X, i1]
            ring
          · refine (natDegree_add_le _ _).trans (max_le (by simp) ?_)
            refine (natDegree_C_mul_le _ _).trans ?_
            rw [natDegree_X_sub_C]; omega
          · simp
          · intro m hm
            have hlen := ((known ok hh hb hr r).mesh (C46_distinct_times ok hfin hh hb hr r)).len
            have hkk : v'.st.kold ≤ v.st.kold + 1 := by
              obtain ⟨l', R⟩ := regular ok hh hb hr r hb' h hk hd
              have := R.att.loc.kM
              have := (accept_hist R.eq).2.2.2.2.2
              omega
            have hml : m < v.st.hist.length := by omega
            have e2 : hf v.st.hist m = v.st.hist[m].2 := by
              simp [hf, hml]
            rw [e2, i2 _ (List.getElem_mem _)]
            simp
          · simp [hl]
        · rw [hist]
          intro a ha
          rcases List.mem_cons.mp ha with rfl | ha
          · exact hl _ _
          · exact i2 a ha
    · have key : s'.t = v.st.t ∧ s'.y = v.st.y ∧ s'.hist = v.st.hist := by
        obtain ⟨e1, e2, _, _, _, _, _, _, _, _, _, _, _, _, e15, _⟩ := swStiff_same c v.st
        rcases swStepImpl_cases (fun _ => True) trivial (fun _ _ _ => trivial) hi with
          ⟨_, _, _, ho, _⟩ | ⟨_, _, e⟩ | ⟨_, e⟩ | ⟨_, _, _, ho, _⟩ | ⟨_, _, _, _, _, e⟩
        · exact absurd ho hne
        · rw [e]; exact ⟨e1, e2, e15⟩
        · rw [e]; exact ⟨e1, e2, e15⟩
        · exact absurd ho hne
        · rw [e]; exact ⟨e1, e2, e15⟩
      rw [e]
      dsimp only
      rw [key.1, key.2.1, key.2.2]
      exact ⟨i1, i2⟩

/-- **C121.** `SWAG`: in every history `l(y) = l(y0) + (t - t0) w`, with any orders and meshes, and in the extrapolated last step. -/
theorem C121_multistep {c : SwCfg K V} (ok : SwOK c) (hfin : ∀ p y x, c.scale p y x ≠ .inf) {t0 : K} {y0 : V}
    {h0 : K} {wt0 : V → ENorm K} {phi0 : ℕ → V} {co0 : Coef K} {nfev : ℕ} (hh : 0 < c.dir * h0)
    (hb : ∀ b, c.tb = some b → 0 ≤ c.dir * (b - t0)) {U : Type*} [AddCommGroup U] [Module K U] (l : V →ₗ[K] U) (w : U)
    (hl : ∀ t y, l (c.fn t y) = w)
    {v : SwSolver K V} (hr : SwReach c (newSwag t0 y0 (c.fn t0 y0) h0 wt0 phi0 co0 nfev) v) :
    l v.st.y = l y0 + (v.st.t - t0) • w := by
  refine eq_of_functionals (K := K) fun g => ?_
  have := (multistep_rate ok hfin hh hb (g ∘ₗ l) (g w) (fun t y => by rw [LinearMap.comp_apply, hl]) hr).1
  rw [LinearMap.comp_apply, LinearMap.comp_apply] at this
  rw [this, map_add, map_smul, smul_eq_mul]

end

/-- **C121.** `SWAG`: the dense output after every successful step has `l(u(τ)) = l(y0) + (τ - t0) w` at all `τ`. -/
theorem C121_multistep_dense {V : Type*} [AddCommGroup V] [Module ℝ V] {c : SwCfg ℝ V} (ok : SwOK c)
    (hfin : ∀ p y x, c.scale p y x ≠ .inf) {t0 : ℝ} {y0 : V}
    {h0 : ℝ} {wt0 : V → ENorm ℝ} {phi0 : ℕ → V} {co0 : Coef ℝ} {nfev : ℕ} (hh : 0 < c.dir * h0)
    (hb : ∀ b, c.tb = some b → 0 ≤ c.dir * (b - t0)) {U : Type*} [AddCommGroup U] [Module ℝ U] (l : V →ₗ[ℝ] U) (w : U)
    (hl : ∀ t y, l (c.fn t y) = w)
    {v v' : SwSolver ℝ V} {fuel : ℕ} (hr : SwReach c (newSwag t0 y0 (c.fn t0 y0) h0 wt0 phi0 co0 nfev) v) (hs : v.status = .running)
    (hb0 : c.tb ≠ some v.st.t) (h : swStep c fuel v = some (.ok, v')) (τ : ℝ) :
    l (swOutput v.st.t v'.st τ) = l y0 + (τ - t0) • w := by
  refine eq_of_functionals (K := ℝ) fun g => ?_
  set f := g ∘ₗ l with hf0
  have hf' : ∀ t y, f (c.fn t y) = g w := fun t y => by rw [hf0, LinearMap.comp_apply, hl]
  obtain ⟨i1, _⟩ := multistep_rate ok hfin hh hb f (g w) hf' hr
  obtain ⟨j1, j2⟩ := multistep_rate ok hfin hh hb f (g w) hf' (hr.tail h)
  change f (swOutput v.st.t v'.st τ) = g (l y0 + (τ - t0) • w)
  rw [map_add, map_smul, smul_eq_mul, ← LinearMap.comp_apply, ← hf0]
  by_cases hk : v'.st.kold = 0
  · obtain ⟨_, g2, _⟩ := C48_extrapolated hr hs ok.kMax hb0 h hk
    rw [g2, map_add, map_smul, hf', i1, smul_eq_mul]
    ring
  · have hd := distinct_next ok hfin hh hb hr hs hb0 h hk
    have hp := C46_progress_finite ok hfin hh hb hr hs hb0 h
    obtain ⟨l', R⟩ := regular ok hh hb hr hs hb0 h hk hd
    obtain ⟨D, d1, d2, d3, d4, d5⟩ := C48_polynomial ok hh hb hr hs hb0 h hk hd f
    obtain ⟨a1, a2, a3, a4, a5, a6⟩ := accept_hist R.eq
    have hlen := R.mesh'.len
    have hnow' := R.mesh'.now
    have hstr : Strict c.dir v'.st.hist := by
      have hm := hr.mono ok (newSwag_time hh hb) ⟨by intro a ha; simp [newSwag] at ha; subst ha; simp [newSwag],
        List.pairwise_singleton _ _⟩ hs
      refine strict_of_nodup ok.dir ?_ hd
      rw [a1]
      refine List.pairwise_cons.mpr ⟨fun a ha => ?_, hm.2⟩
      have := hm.1 a ha
      have e : c.dir * (v'.st.t - a.1) = c.dir * (v'.st.t - v.st.t) + c.dir * (v.st.t - a.1) := by ring
      simp only
      linarith
    -- the difference to the straight line
    set P : ℝ[X] := D - (C (f v.st.y) + C (g w) * (X - C v.st.t)) with hP
    have P0 : P.eval v.st.t = 0 := by rw [hP]; simp [d3]
    have P1 : P.eval v'.st.t = 0 := by rw [hP]; simp [d4, i1, j1]; ring
    have hroots : ∀ m ≤ v'.st.kold, (derivative P).eval (hx v'.st.hist m) = 0 := by
      intro m hm
      have hml : m < v'.st.hist.length := by omega
      have e2 : hf v'.st.hist m = v'.st.hist[m].2 := by simp [hf, hml]
      rw [hP, derivative_sub, eval_sub, d5 m hm, e2, j2 _ (List.getElem_mem _)]
      simp
    have hne : v.st.t ≠ v'.st.t := by intro e; rw [e, sub_self, mul_zero] at hp; exact lt_irrefl _ hp
    have hx1 : hx v'.st.hist 1 = v.st.t := by rw [a1, hx_succ, R.mesh.now]
    obtain ⟨ξ, hξ, hξ0⟩ : ∃ ξ, (∀ m ≤ v'.st.kold, hx v'.st.hist m ≠ ξ) ∧ (derivative P).eval ξ = 0 := by
      have rolle : ∀ a b : ℝ, a < b → P.eval a = P.eval b → ∃ x ∈ Set.Ioo a b, (derivative P).eval x = 0 := by
        intro a b hab e
        obtain ⟨x, hx, h0⟩ := exists_deriv_eq_zero hab P.differentiable.continuous.continuousOn e
        exact ⟨x, hx, by rwa [Polynomial.deriv] at h0⟩
      have hord : ∀ m, m ≤ v'.st.kold → m = 0 ∨ 0 ≤ c.dir * (v.st.t - hx v'.st.hist m) := by
        intro m hm
        rcases Nat.lt_or_ge 1 m with h1 | h1
        · right; rw [← hx1]; exact (hstr.lt h1 (by omega)).le
        · interval_cases m
          · exact Or.inl rfl
          · right; rw [hx1, sub_self, mul_zero]
      rcases ok.dir with hd1 | hd1
      · rw [hd1] at hp hord
        obtain ⟨x, ⟨x1, x2⟩, x3⟩ := rolle v.st.t v'.st.t (by linarith) (P0.trans P1.symm)
        refine ⟨x, fun m hm e => ?_, x3⟩
        rcases hord m hm with rfl | h5
        · rw [hnow'] at e; linarith
        · rw [e] at h5; linarith
      · rw [hd1] at hp hord
        obtain ⟨x, ⟨x1, x2⟩, x3⟩ := rolle v'.st.t v.st.t (by linarith) (P1.trans P0.symm)
        refine ⟨x, fun m hm e => ?_, x3⟩
        rcases hord m hm with rfl | h5
        · rw [hnow'] at e; linarith
        · rw [e] at h5; linarith
    have hdeg : P.natDegree ≤ v'.st.kold + 2 := by
      rw [hP]
      refine (natDegree_sub_le _ _).trans (max_le d1 ((natDegree_add_le _ _).trans (max_le (by simp) ?_)))
      refine (natDegree_C_mul_le _ _).trans ?_
      rw [natDegree_X_sub_C]; omega
    have hz : derivative P = 0 := by
      refine eq_of_points (k := v'.st.kold + 2) (X0 := consX ξ (hx v'.st.hist)) (degree_lt_of_natDegree_deriv (by omega) hdeg)
        (by rw [degree_zero]; exact bot_lt_iff_ne_bot.mpr (by simp)) ?_ ?_
      · intro i hi j hj e
        cases i with
        | zero =>
          cases j with
          | zero => rfl
          | succ j => exact absurd (show ξ = hx v'.st.hist j from e).symm (hξ j (by omega))
        | succ i =>
          cases j with
          | zero => exact absurd (show hx v'.st.hist i = ξ from e) (hξ i (by omega))
          | succ j =>
            rw [mesh_inj (c := c) (k := v'.st.kold + 1) R.mesh' hstr le_rfl i (by omega) j (by omega) e]
      · intro m hm
        rw [eval_zero]
        cases m with
        | zero => exact hξ0
        | succ m => exact hroots m (by omega)
    have hPz : P = 0 := by
      have h1 := derivative_eq_zero.mp hz
      rw [natDegree_eq_zero] at h1
      obtain ⟨x, hx⟩ := h1
      rw [← hx, eval_C] at P0
      rw [← hx, P0, C_0]
    have hD : D = C (f v.st.y) + C (g w) * (X - C v.st.t) := by rw [← sub_eq_zero]; exact hPz
    rw [d2, hD]
    simp only [eval_add, eval_C, eval_mul, eval_sub, eval_X, i1]
    ring

/-! ## Witnesses -/

/-- Two unit masses joined by a spring, in a uniform field `g`. -/
def springs (g : ℚ) : ℚ → (ℚ × ℚ) × (ℚ × ℚ) → ℚ × ℚ := fun _ y => (y.1.2 - y.1.1 + g, y.1.1 - y.1.2 + g)

/-- The total of a pair. -/
def total : ℚ × ℚ →ₗ[ℚ] ℚ := LinearMap.fst ℚ ℚ ℚ + LinearMap.snd ℚ ℚ ℚ

theorem springs_total (g : ℚ) : ∀ t y, total (springs g t y) = 2 * g := by
  intro t y
  simp only [total, springs, LinearMap.add_apply, LinearMap.fst_apply, LinearMap.snd_apply]
  ring

/-- A Nystrom solver for the two masses. -/
def springCfg (R : NyTable) (g : ℚ) : Cfg ℚ ((ℚ × ℚ) × (ℚ × ℚ)) (ℚ × ℚ) where
  m := nyMethod (R.tab ℚ) (springs g) fun _ _ e => .num (max (max |e.1.1| |e.1.2|) (max |e.2.1| |e.2.2|))
  tb := some 1
  dir := 1
  maxStep := none
  hMinA := 1 / 10 ^ 14
  hMinB := 1 / 10 ^ 100
  tinyErr := 1 / 10 ^ 100
  minFactor := 1 / 5
  errExp := -1 / 4
  minbeta1 := -1 / 4
  minbeta2 := 0
  minalpha := 0
  safety := 9 / 10
  safetySc := 9 / 10
  pw := pwInv
  nfevStiff := 0

/-- C121: after a step of `1/4` of each class with exact coefficients in the field `g = 1` the masses have moved with respect to each
other, and the total momentum is `2 (t - t0)`. -/
example : ∀ R ∈ rationalNy,
    ((step (springCfg R 1) 5 (newSolver (springCfg R 1) 0 ((0, 1), (0, 0)) (1 / 4) 1 fun _ => 0)).map fun p =>
      (p.1, p.2.st.t, p.2.st.y.2.1 + p.2.st.y.2.2, decide (p.2.st.y.2.1 = p.2.st.y.2.2))) =
    some (.ok, 1 / 4, 1 / 2, false) := by decide +kernel

/-- C121: and so in all histories. -/
example {R : NyTable} (hR : R ∈ rationalNy) {v : Solver ℚ ((ℚ × ℚ) × (ℚ × ℚ)) (ℚ × ℚ)}
    (hr : Reach (springCfg R 1) (newSolver (springCfg R 1) 0 ((0, 1), (0, 0)) (1 / 4) 1 fun _ => 0) v) :
    total v.st.y.2 = 2 * v.st.t := by
  have := (C121_free_fall hR (c := springCfg R 1) rfl total _ (springs_total 1) hr).1
  rw [this]
  simp [total]
  ring

/-- C121: the dense output, for a step of `Fi5N` without field: the state after the step satisfies the hypotheses. -/
example : ∃ d : NyState ℚ (ℚ × ℚ), IsNyDone Fi5N (springs 0) d ∧ d.t ≠ d.tOld ∧ d.aOld = springs 0 d.tOld d.yOld ∧
    d.a = springs 0 d.t d.y ∧ d.y.2.1 ≠ d.yOld.2.1 := by
  obtain ⟨h1, _, _⟩ := nyTrial_isNyStep (Fi5N.tab ℚ) (springs 0)
    (fun _ _ e => .num (max (max |e.1.1| |e.1.2|) (max |e.2.1| |e.2.2|))) 0 ((0, 1), (0, 0)) (1 / 4) (fun _ => 0)
    (by decide +kernel) (by decide +kernel)
  set r := nyTrial (Fi5N.tab ℚ) (springs 0) (fun _ _ e => .num (max (max |e.1.1| |e.1.2|) (max |e.2.1| |e.2.2|))) 0
    ((0, 1), (0, 0)) (springs 0 0 ((0, 1), (0, 0))) (1 / 4) (fun _ => 0) with hr
  refine ⟨⟨0, 1 / 4, ((0, 1), (0, 0)), r.yNew, springs 0 0 ((0, 1), (0, 0)), springs 0 (1 / 4) r.yNew,
    Function.update r.stages (Fi5N.tab ℚ).s (springs 0 (0 + 1 / 4) r.yNew)⟩, ?_, by norm_num, rfl,
    rfl, ?_⟩
  · unfold IsNyDone
    simp only [sub_zero]
    exact h1
  · rw [hr]; decide +kernel

/-- Two cells that exchange mass, with a source `1` in the first one, integrated by the multistep method. -/
def swCells : SwCfg ℚ (ℚ × ℚ) where
  fn _ y := (y.2 - y.1 + 1, y.1 - y.2)
  tb := some 10
  dir := 1
  maxStep := some 3
  fouru := 1 / 1000000
  twou := 1 / 2000000
  kMax := 4
  gstr := gstrQ
  scale := fun _ _ x => .num (max |x.1| |x.2|)
  sqrt := id
  pw := fun x _ => x

theorem swCells_ok : SwOK swCells where
  dir := Or.inl rfl
  fouru := by norm_num [swCells]
  maxStep := by intro m h; cases h; norm_num
  sqrt_pos := fun x h => h
  sqrt_zero := rfl
  sqrt_half := (swQ_ok (fun _ y => y) fun _ => .num 0).sqrt_half
  kMax := by norm_num [swCells]

/-- The new solver for the two cells. -/
def swCellsV : SwSolver ℚ (ℚ × ℚ) := newSwag 0 (0, 2) (swCells.fn 0 (0, 2)) (1 / 16) (fun x => .num (max |x.1| |x.2|)) 0
  ⟨0, 0, 0, 0, 0, 0, 0, 0, 0, 0, 0, 0⟩ 1

/-- Some steps. -/
def swCellsRun : ℕ → Option (SwSolver ℚ (ℚ × ℚ))
  | 0 => some swCellsV
  | n + 1 => (swCellsRun n).bind fun v => (swStep swCells 8 v).map Prod.snd

/-- C121: after three steps (orders up to three) the cells have different contents, with the total `2 + t`. -/
example : ((swCellsRun 3).map fun v => (v.status, v.st.kold, decide (0 < v.st.t), decide (v.st.y.1 = v.st.y.2),
    decide (v.st.y.1 + v.st.y.2 = 2 + v.st.t))) = some (.running, 3, true, false, true) := by decide +kernel

/-- C121: and so in all histories. -/
example {v : SwSolver ℚ (ℚ × ℚ)} (hr : SwReach swCells swCellsV v) : total v.st.y = 2 + v.st.t := by
  have hb : ∀ b, swCells.tb = some b → 0 ≤ swCells.dir * (b - 0) := by
    intro b hb
    cases hb
    norm_num [swCells]
  have := C121_multistep swCells_ok (by intro p y x h; cases h) (by norm_num [swCells]) hb total 1
    (by intro t y; simp [total, swCells]; ring) hr
  rw [this]
  simp [total]

/-- C121: the hypotheses on the problem for the Chebyshev method hold for the same cells; with equal numbers in place of the cells,
`y' = y` fails them, so they are a restriction. Whole runs are in the witnesses of C93. -/
example : (∀ (_ : ℝ) (y : ℝ × ℝ), (LinearMap.fst ℝ ℝ ℝ + LinearMap.snd ℝ ℝ ℝ) (y.2 - y.1 + 1, y.1 - y.2) = 1) ∧
    ¬ ∃ w, ∀ (_ : ℝ) (y : ℝ), (LinearMap.id : ℝ →ₗ[ℝ] ℝ) y = w := by
  refine ⟨fun _ y => by simp; ring, ?_⟩
  rintro ⟨w, hw⟩
  have h1 := hw 0 0
  have h2 := hw 0 1
  simp at h1 h2
  linarith

end Extensisq
