import Verif.Props.Esdirk

/-!
# Properties of the ESDIRK stages: C36, C38, C39, C40
-/

set_option linter.unusedSectionVars false

namespace Extensisq
open Finset

section
variable {K V : Type*} [Field K] [LinearOrder K] [IsStrictOrderedRing K] [AddCommGroup V] [Module K V]
variable {c : ECfg K V}

/-! ## C39: the Newton iteration -/

/-- Specification of the simplified Newton iterates: `z_{k+1} = z_k + (M - h_LU d J)^{-1} (h f(t, psi + d z_k) - M z_k)`;
`none` after a non-finite derivative. -/
def newtonIter (c : ECfg K V) (i : StageIn K V) (z0 : V) : ℕ → Option V
  | 0 => some z0
  | k + 1 =>
    match newtonIter c i z0 k with
    | none => none
    | some z =>
      match c.fn i.t (i.psi + c.T.d • z) with
      | none => none
      | some f => some (z + c.lin i.sc i.F (i.h • f - c.M z))

theorem newton_contract {i : StageIn K V} {z0 : V} : ∀ {n k : ℕ} {z : V} {dz : K} {r : Option K}
    {o : NewtonOut K V}, newton c i n k z dz r = some o → newtonIter c i z0 k = some z →
    (k + (if n = 0 then 0 else 1) ≤ o.evals ∧ o.evals ≤ k + n) ∧
    (c.linear = true → 0 < n → o.evals = k + 1) ∧
    (o.converged = true → 0 < n ∧ ∃ z1 f, newtonIter c i z0 (o.evals - 1) = some z1 ∧
      c.fn i.t (i.psi + c.T.d • z1) = some f ∧ o.z = z1 + c.lin i.sc i.F (i.h • f - c.M z1) ∧
      (c.linear = true ∨
        c.dzNorm i.y (i.psi + c.T.d • z1) (c.lin i.sc i.F (i.h • f - c.M z1)) ≤ c.tinyErr ∨
        ∃ q, o.rate = some q ∧ q < 1 ∧ 2 ≤ o.evals ∧
          c.dzNorm i.y (i.psi + c.T.d • z1) (c.lin i.sc i.F (i.h • f - c.M z1)) * q < c.T.kappa * (1 - q)))
  | 0, k, z, dz, r, o, h, hz => by
    cases h
    refine ⟨⟨by simp, by simp⟩, fun _ h => absurd h (lt_irrefl _), fun h => by cases h⟩
  | n + 1, k, z, dz, r, o, h, hz => by
    unfold newton at h
    dsimp only at h
    cases hf : c.fn i.t (i.psi + c.T.d • z) with
    | none =>
      rw [hf] at h
      cases h
      refine ⟨⟨by simp, by simp⟩, fun _ _ => rfl, fun h => by cases h⟩
    | some f =>
      rw [hf] at h
      dsimp only at h
      have hz' : newtonIter c i z0 (k + 1) = some (z + c.lin i.sc i.F (i.h • f - c.M z)) := by
        unfold newtonIter; rw [hz]; dsimp only; rw [hf]
      by_cases hl : c.linear = true
      · rw [if_pos hl] at h
        split_ifs at h with h1
        cases h
        refine ⟨⟨by simp, by simp⟩, fun _ _ => rfl, fun _ => ⟨by omega, z, f, by simpa using hz, hf, rfl,
          Or.inl hl⟩⟩
      · rw [if_neg hl] at h
        have recu : ∀ {dz' r'}, newton c i n (k + 1) (z + c.lin i.sc i.F (i.h • f - c.M z)) dz' r' = some o →
            (k + 1 + (if n = 0 then 0 else 1) ≤ o.evals ∧ o.evals ≤ k + 1 + n) ∧
            (o.converged = true → 0 < n ∧ ∃ z1 f, newtonIter c i z0 (o.evals - 1) = some z1 ∧
            c.fn i.t (i.psi + c.T.d • z1) = some f ∧ o.z = z1 + c.lin i.sc i.F (i.h • f - c.M z1) ∧
            (c.linear = true ∨
              c.dzNorm i.y (i.psi + c.T.d • z1) (c.lin i.sc i.F (i.h • f - c.M z1)) ≤ c.tinyErr ∨
              ∃ q, o.rate = some q ∧ q < 1 ∧ 2 ≤ o.evals ∧
                c.dzNorm i.y (i.psi + c.T.d • z1) (c.lin i.sc i.F (i.h • f - c.M z1)) * q
                  < c.T.kappa * (1 - q))) := by
          intro dz' r' hh
          obtain ⟨h1, -, h2⟩ := newton_contract hh hz'
          exact ⟨h1, h2⟩
        have done : ∀ {dz' r'}, newton c i n (k + 1) (z + c.lin i.sc i.F (i.h • f - c.M z)) dz' r' = some o →
          (k + (if n + 1 = 0 then 0 else 1) ≤ o.evals ∧ o.evals ≤ k + (n + 1)) ∧
          (c.linear = true → 0 < n + 1 → o.evals = k + 1) ∧
          (o.converged = true → 0 < n + 1 ∧ ∃ z1 f, newtonIter c i z0 (o.evals - 1) = some z1 ∧
            c.fn i.t (i.psi + c.T.d • z1) = some f ∧ o.z = z1 + c.lin i.sc i.F (i.h • f - c.M z1) ∧
            (c.linear = true ∨
              c.dzNorm i.y (i.psi + c.T.d • z1) (c.lin i.sc i.F (i.h • f - c.M z1)) ≤ c.tinyErr ∨
              ∃ q, o.rate = some q ∧ q < 1 ∧ 2 ≤ o.evals ∧
                c.dzNorm i.y (i.psi + c.T.d • z1) (c.lin i.sc i.F (i.h • f - c.M z1)) * q
                  < c.T.kappa * (1 - q))) := by
          intro dz' r' hh
          obtain ⟨⟨h1, h2⟩, h3⟩ := recu hh
          refine ⟨⟨?_, by omega⟩, fun h => absurd h hl, fun hcv => ⟨by omega, (h3 hcv).2⟩⟩
          simp
          split_ifs at h1 <;> omega
        split_ifs at h with h1 h2 h3 h4
        · cases h
          refine ⟨⟨by simp, by simp⟩, fun h => absurd h hl, fun _ => ⟨by omega, z, f, by simpa using hz, hf, rfl,
            Or.inr (Or.inl h1)⟩⟩
        · exact done h
        · cases h
          refine ⟨⟨by simp, by simp⟩, fun h => absurd h hl, fun h => by cases h⟩
        · cases h
          refine ⟨⟨by simp, by simp⟩, fun h => absurd h hl, fun _ => ⟨by omega, z, f, by simpa using hz, hf, rfl,
            Or.inr (Or.inr ⟨_, rfl, ?_, ?_, h4⟩)⟩⟩
          · rw [not_or] at h3; exact not_le.mp h3.1
          · show 2 ≤ k + 1; omega
        · exact done h

/-- **C39**. The iteration of one stage evaluates `fun` at least once and at most 5 times (exactly once in linear
mode); if it reports convergence, all derivatives were finite, the result is the iterate after the last
evaluation, and (unless the problem is linear) the last update was negligible, or the estimated rate `q < 1`
was obtained from at least two iterations and predicts a remaining error below `kappa`:
`norm * q / (1 - q) < kappa`. -/
theorem C39_newton_contract {i : StageIn K V} {z0 : V} {o : NewtonOut K V} (h : solveStage c i z0 = some o) :
    1 ≤ o.evals ∧ o.evals ≤ 5 ∧ (c.linear = true → o.evals = 1) ∧
    (o.converged = true → newtonIter c i z0 o.evals = some o.z ∧
      ∃ z1 f, newtonIter c i z0 (o.evals - 1) = some z1 ∧ c.fn i.t (i.psi + c.T.d • z1) = some f ∧
      (c.linear = true ∨ c.dzNorm i.y (i.psi + c.T.d • z1) (o.z - z1) ≤ c.tinyErr ∨
        ∃ q, o.rate = some q ∧ q < 1 ∧ 2 ≤ o.evals ∧
          c.dzNorm i.y (i.psi + c.T.d • z1) (o.z - z1) * q / (1 - q) < c.T.kappa)) := by
  obtain ⟨⟨h1, h2⟩, h3, h4⟩ := newton_contract (z0 := z0) h rfl
  have h1' : 1 ≤ o.evals := by simpa using h1
  refine ⟨h1', by omega, fun hl => h3 hl (by omega), fun hcv => ?_⟩
  obtain ⟨-, z1, f, hz1, hf, hz, hcase⟩ := h4 hcv
  have e : o.z - z1 = c.lin i.sc i.F (i.h • f - c.M z1) := by rw [hz]; abel
  refine ⟨?_, z1, f, hz1, hf, ?_⟩
  · obtain ⟨k, hk⟩ : ∃ k, o.evals = k + 1 := ⟨o.evals - 1, by omega⟩
    rw [hk] at hz1 ⊢
    unfold newtonIter
    rw [Nat.add_sub_cancel] at hz1
    rw [hz1]; dsimp only; rw [hf, hz]
  · rw [e]
    rcases hcase with h | h | ⟨q, hq, hq1, hev, hlt⟩
    · exact Or.inl h
    · exact Or.inr (Or.inl h)
    · refine Or.inr (Or.inr ⟨q, hq, hq1, hev, ?_⟩)
      rw [div_lt_iff₀ (by linarith)]
      exact hlt

/-- **C39**. A non-finite derivative is never accepted: if the iterate number `k` (at most the number of
evaluations) has a non-finite derivative, the stage does not converge. -/
theorem C39_nonfinite_rejected {i : StageIn K V} {z0 zk : V} {o : NewtonOut K V}
    (h : solveStage c i z0 = some o) {k : ℕ} (hk : k < o.evals) (hz : newtonIter c i z0 k = some zk)
    (hf : c.fn i.t (i.psi + c.T.d • zk) = none) : o.converged = false := by
  cases hcv : o.converged
  · rfl
  obtain ⟨-, -, -, h4⟩ := C39_newton_contract h
  have h5 := (h4 hcv).1
  have hnone : ∀ m, newtonIter c i z0 (k + 1 + m) = none := by
    intro m
    induction m with
    | zero => unfold newtonIter; rw [hz]; dsimp only; rw [hf]
    | succ m ih => rw [← Nat.add_assoc]; unfold newtonIter; rw [ih]
  have := hnone (o.evals - (k + 1))
  rw [show k + 1 + (o.evals - (k + 1)) = o.evals by omega, h5] at this
  cases this

/-! ## The stages of an attempt -/

/-- Input of the iteration of stage `i` when the stage derivatives are `Ks`. -/
def stageIn (c : ECfg K V) (t : K) (y : V) (h : K) (F : Fact K V) (sc : Option K) (cj : Bool) (hl : Option K)
    (Ks : ℕ → V) (i : ℕ) : StageIn K V := ⟨t + c.T.C i * h, h, ePsi c.T y h Ks i, y, F, sc, cj, hl⟩

theorem ePsi_congr {T : ETab K} {y : V} {h : K} {Ks Ks' : ℕ → V} {i : ℕ} (e : ∀ j < i, Ks j = Ks' j) :
    ePsi T y h Ks i = ePsi T y h Ks' i := by
  unfold ePsi
  congr 2
  exact sum_congr rfl fun j hj => by rw [e j (mem_range.mp hj)]

theorem ePredict_congr {T : ETab K} {h : K} {Ks Ks' : ℕ → V} {i : ℕ} (e : ∀ j < i, Ks j = Ks' j) :
    ePredict T h Ks i = ePredict T h Ks' i := by
  unfold ePredict
  congr 1
  exact sum_congr rfl fun j hj => by rw [e j (mem_range.mp hj)]

theorem stages_spec {t : K} {y : V} {h : K} {F : Fact K V} {sc : Option K} {cj : Bool} {hl : Option K} :
    ∀ {m s : ℕ} {a b : Stages K V}, stages c t y h F sc cj hl m s a = some b → b.converged = true →
      (∀ j < s, b.Ks j = a.Ks j) ∧
      (∀ i, s ≤ i → i < s + m → ∃ o, solveStage c (stageIn c t y h F sc cj hl b.Ks i)
        (ePredict c.T h b.Ks i) = some o ∧ o.converged = true ∧ b.Ks i = h⁻¹ • o.z ∧
        (i + 1 = s + m → b.z = o.z ∧ b.psi = ePsi c.T y h b.Ks i))
  | 0, s, a, b, hh, hcv => by
    cases hh
    exact ⟨fun _ _ => rfl, fun i h1 h2 => by omega⟩
  | m + 1, s, a, b, hh, hcv => by
    unfold stages at hh
    dsimp only at hh
    split at hh
    · cases hh
    · rename_i o ho
      split_ifs at hh with hoc
      · obtain ⟨h1, h2⟩ := stages_spec hh hcv
        have hlow : ∀ j < s, b.Ks j = a.Ks j := fun j hj => by
          rw [h1 j (by omega)]
          exact Function.update_of_ne (by omega) _ _
        have hs : b.Ks s = h⁻¹ • o.z := by
          rw [h1 s (by omega)]
          exact Function.update_self (β := fun _ => V) _ _ _
        refine ⟨hlow, fun i hi1 hi2 => ?_⟩
        by_cases hi : i = s
        · subst hi
          have e1 : stageIn c t y h F sc cj hl b.Ks i = ⟨t + c.T.C i * h, h, ePsi c.T y h a.Ks i, y, F, sc, cj, hl⟩ := by
            unfold stageIn
            rw [ePsi_congr hlow]
          refine ⟨o, ?_, hoc, hs, fun hm => ?_⟩
          · rw [e1, ePredict_congr hlow]; exact ho
          · -- last stage
            have hm0 : m = 0 := by omega
            subst hm0
            cases hh
            exact ⟨rfl, (ePsi_congr hlow).symm⟩
        · obtain ⟨o', p1, p2, p3, p4⟩ := h2 i (by omega) (by omega)
          exact ⟨o', p1, p2, p3, fun hm => p4 (by omega)⟩
      · cases hh
        exact absurd hcv hoc

/-- Coefficients as checked by the constructor (`common.py:1660-1672`): stiffly accurate, constant diagonal. -/
structure ETabOK (T : ETab K) : Prop where
  n : 2 ≤ T.n
  diag : ∀ s, 1 ≤ s → s < T.n → T.A s s = T.d
  stiff : ∀ j < T.n, T.A (T.n - 1) j = T.B j
  c1 : T.C (T.n - 1) = 1

/-- What is known about the attempt that was accepted in a successful step. -/
theorem eStep_accepted (hc : ECfgOK c) {v v' : ESolver K V} (hi : VInv c v) {fuel : ℕ}
    (ht : c.tb ≠ some v.st.t) (h : eStep c fuel v = some (.ok, v')) :
    ∃ l a, Visits c v.st l ∧ LInv c v.st l ∧ attOf c l = some a ∧ a.converged = true ∧ v.status = .running ∧
      v'.st.t = v.st.t + l.hAbs * c.dir ∧ v'.st.y = a.psi + c.T.d • a.z ∧ v'.st.Ks = a.Ks ∧
      v'.st.yp = a.Ks (c.T.n - 1) ∧ v'.st.J = l.s.J ∧ v'.st.hLU = (s1Of c l).hLU ∧
      v'.st.njev = l.s.njev ∧ v'.st.yOld = some v.st.y := by
  rcases eStep_cases h with ⟨-, h2, -⟩ | ⟨-, h2, -⟩ | ⟨hrun, -, s', hs, rfl, -⟩
  · cases h2
  · exact absurd h2 ht
  rcases eStepImpl_visits hs with ⟨-, h2, -⟩ | ⟨l, hv, hit⟩
  · cases h2
  have hL := hv.inv hc (hi hrun) ht
  obtain ⟨hge, a, x, f0, std, ha, hcv, he, hx, hf, hs'⟩ := eIter_ok hit
  refine ⟨l, a, hv, hL, ha, hcv, hrun, ?_, ?_, ?_, ?_, ?_, ?_, ?_, ?_⟩
  · rw [hs', ← hL.t]
    show (s1Of c l).t + hOf c l = _
    rw [show (s1Of c l).t = l.s.t from factors_t _ _ _]
  · rw [hs']; rfl
  · rw [hs']; rfl
  · rw [hs']; rfl
  · rw [hs']; exact factors_J _ _ _
  · rw [hs']; rfl
  · rw [hs']; exact factors_njev _ _ _
  · rw [hs']
    show some (s1Of c l).y = _
    rw [show (s1Of c l).y = l.s.y from factors_y _ _ _, hL.y]

/-! ## C38 -/

/-- Stage value `Y_i = y + h sum_{j <= i} a_ij K_j`. -/
def stageVal (T : ETab K) (y : V) (h : K) (Ks : ℕ → V) (i : ℕ) : V := y + h • ∑ j ∈ range (i + 1), T.A i j • Ks j

theorem stageVal_eq (hT : ETabOK c.T) {y : V} {h : K} {Ks : ℕ → V} {i : ℕ} (h1 : 1 ≤ i) (hi : i < c.T.n) {z : V}
    (hh : h ≠ 0) (hz : Ks i = h⁻¹ • z) : ePsi c.T y h Ks i + c.T.d • z = stageVal c.T y h Ks i := by
  unfold ePsi stageVal
  rw [sum_range_succ, hT.diag i h1 hi, hz, smul_add, smul_smul, smul_smul, add_assoc]
  congr 2
  rw [show h * c.T.d * h⁻¹ = c.T.d by field_simp]

/-- **C38**. The solution of a successful step is `y + h sum_i b_i K_i` with the stored stage derivatives, it
equals the value of the last stage, and the stored derivative `yp`, which becomes the first stage of the
next step, is that of the last stage; the first stage derivative is the `yp` stored before. -/
theorem C38_solution (hc : ECfgOK c) (hT : ETabOK c.T) {v0 v v' : ESolver K V} {t0 : K} {y0 yp0 : V}
    {J0 : V →ₗ[K] V} (hn : IsNew v0 t0 y0 yp0 J0) (hr : EReach c v0 v) {fuel : ℕ}
    (ht : c.tb ≠ some v.st.t) (h : eStep c fuel v = some (.ok, v')) :
    let hh := v'.st.t - v.st.t
    v'.st.y = v.st.y + hh • ∑ j ∈ range c.T.n, c.T.B j • v'.st.Ks j ∧
      v'.st.y = stageVal c.T v.st.y hh v'.st.Ks (c.T.n - 1) ∧
      v'.st.yp = v'.st.Ks (c.T.n - 1) ∧ v'.st.Ks 0 = v.st.yp := by
  obtain ⟨l, a, hv, hL, ha, hcv, hrun, e1, e2, e3, e4, -⟩ := eStep_accepted hc (hr.inv hc hn.inv) ht h
  have hh : v'.st.t - v.st.t = l.hAbs * c.dir := by rw [e1]; ring
  dsimp only
  rw [hh]
  have hne : l.hAbs * c.dir ≠ 0 := by
    rcases hc.dir with hd | hd <;> rw [hd] <;> simp [hL.pos.ne']
  have hn2 := hT.n
  obtain ⟨s1, s2⟩ := stages_spec ha hcv
  obtain ⟨o, o1, o2, o3, o4⟩ := s2 (c.T.n - 1) (by omega) (by omega)
  obtain ⟨o5, o6⟩ := o4 (by omega)
  have hy : (s1Of c l).y = v.st.y := (factors_y _ _ _).trans hL.y
  have hlast : v'.st.y = stageVal c.T v.st.y (l.hAbs * c.dir) v'.st.Ks (c.T.n - 1) := by
    rw [e2, o5, o6, e3, hy]
    exact stageVal_eq hT (by omega) (by omega) hne o3
  refine ⟨?_, hlast, ?_, ?_⟩
  · rw [hlast]
    unfold stageVal
    rw [show c.T.n - 1 + 1 = c.T.n by omega]
    congr 2
    exact sum_congr rfl fun j hj => by rw [hT.stiff j (mem_range.mp hj)]
  · rw [e4, e3]
  · rw [e3, att_K0 ha, hL.K0]

/-- **C38**. What a stored stage derivative is: the stage equation holds up to the last Newton update `u`,
`M K_i = f(t + c_i h, Y_i - d u) + (h_LU d / h) J u`, where `h_LU` and `J` are the recorded step and Jacobian. So
it holds exactly, `M K_i = f(t + c_i h, Y_i)`, if the last update is zero. -/
theorem C38_stage_equations (hc : ECfgOK c) (hT : ETabOK c.T) (hlin : LinSolves c) {v0 v v' : ESolver K V} {t0 : K}
    {y0 yp0 : V} {J0 : V →ₗ[K] V} (hn : IsNew v0 t0 y0 yp0 J0) (hr : EReach c v0 v) {fuel : ℕ}
    (ht : c.tb ≠ some v.st.t) (h : eStep c fuel v = some (.ok, v')) (hreg : RegularAt c v'.st) {i : ℕ} (h1 : 1 ≤ i) (h2 : i < c.T.n) :
    ∃ u f hLU, v'.st.hLU = some hLU ∧
      c.fn (v.st.t + c.T.C i * (v'.st.t - v.st.t))
        (stageVal c.T v.st.y (v'.st.t - v.st.t) v'.st.Ks i - c.T.d • u) = some f ∧
      c.M (v'.st.Ks i) = f + (hLU * c.T.d / (v'.st.t - v.st.t)) • v'.st.J u := by
  obtain ⟨l, a, hv, hL, ha, hcv, hrun, e1, e2, e3, e4, e5, e6, -⟩ :=
    eStep_accepted hc (hr.inv hc hn.inv) ht h
  have hh : v'.st.t - v.st.t = l.hAbs * c.dir := by rw [e1]; ring
  rw [hh]
  have hne : l.hAbs * c.dir ≠ 0 := by
    rcases hc.dir with hd | hd <;> rw [hd] <;> simp [hL.pos.ne']
  obtain ⟨s1, s2⟩ := stages_spec ha hcv
  obtain ⟨o, o1, o2, o3, -⟩ := s2 i (by omega) (by omega)
  obtain ⟨-, -, -, o4⟩ := C39_newton_contract o1
  obtain ⟨-, z1, f, -, hf, -⟩ := o4 o2
  obtain ⟨-, -, h4⟩ := newton_contract (z0 := _) o1 rfl
  obtain ⟨-, z1, f, -, hf, hz, -⟩ := h4 o2
  obtain ⟨hLU, q1, q2, -, q4⟩ := C37_factors_current hc hlin hn hr hrun ht hv
  have hy : (s1Of c l).y = v.st.y := (factors_y _ _ _).trans hL.y
  have htt : (s1Of c l).t = v.st.t := (factors_t _ _ _).trans hL.t
  have hJ : (s1Of c l).J = v'.st.J := by rw [e5]; exact factors_J _ _ _
  have hval := stageVal_eq hT (y := v.st.y) h1 h2 hne o3
  rw [e3]
  rw [hJ] at q4
  have hq := q4 (hreg _ (e6.trans q1)) ((l.hAbs * c.dir) • f - c.M z1)
  set u : V := c.lin (scOf c l) (factOf c l) ((l.hAbs * c.dir) • f - c.M z1) with hu
  have hz' : o.z = z1 + u := hz
  refine ⟨u, f, hLU, by rw [e6, q1], ?_, ?_⟩
  · rw [← hval, hz', ← hf, ← htt, ← hy]
    show c.fn _ _ = c.fn ((s1Of c l).t + c.T.C i * (l.hAbs * c.dir))
      (ePsi c.T (s1Of c l).y (l.hAbs * c.dir) a.Ks i + c.T.d • z1)
    congr 1
    rw [smul_add]; abel
  · rw [o3, hz', map_smul, map_add]
    have : c.M z1 + c.M u = (l.hAbs * c.dir) • f + (hLU * c.T.d) • v'.st.J u := by
      have : c.M u = (l.hAbs * c.dir) • f - c.M z1 + (hLU * c.T.d) • v'.st.J u := by rw [← hq]; abel
      rw [this]; abel
    rw [this, smul_add, smul_smul, smul_smul, inv_mul_cancel₀ hne, one_smul]
    congr 2
    field_simp

/-- **C38**, algebraic equations: for every linear functional `g` that annihilates the mass matrix (a row of the
algebraic part of a DAE), the constraint `g(f) = 0` holds at the new solution up to the last Newton update. -/
theorem C38_constraints (hc : ECfgOK c) (hT : ETabOK c.T) (hlin : LinSolves c) {v0 v v' : ESolver K V} {t0 : K}
    {y0 yp0 : V} {J0 : V →ₗ[K] V} (hn : IsNew v0 t0 y0 yp0 J0) (hr : EReach c v0 v) {fuel : ℕ}
    (ht : c.tb ≠ some v.st.t) (h : eStep c fuel v = some (.ok, v')) (hreg : RegularAt c v'.st) (g : V →ₗ[K] K) (hg : ∀ x, g (c.M x) = 0) :
    ∃ u f hLU, v'.st.hLU = some hLU ∧ c.fn v'.st.t (v'.st.y - c.T.d • u) = some f ∧
      g f = -(hLU * c.T.d / (v'.st.t - v.st.t)) * g (v'.st.J u) := by
  have hn2 := hT.n
  obtain ⟨u, f, hLU, a1, a2, a3⟩ := C38_stage_equations hc hT hlin hn hr ht h hreg (i := c.T.n - 1) (by omega) (by omega)
  obtain ⟨-, b2, -, -⟩ := C38_solution hc hT hn hr ht h
  refine ⟨u, f, hLU, a1, ?_, ?_⟩
  · rw [hT.c1, ← b2, one_mul] at a2
    rw [← a2]; congr 1; ring
  · have := congrArg g a3
    rw [hg, map_add, map_smul, smul_eq_mul] at this
    linear_combination -this

/-! ## C36 -/

/-- **C36**. In linear mode (a constant Jacobian is given) the assertion "J and LU must be current" never fails and
the Jacobian function, which does not exist, is never called: a step can only raise because of a nan error norm.
The stored Jacobian never changes. -/
theorem C36_linear_mode (hc : ECfgOK c) (hj : c.jac = none) {v0 v v' : ESolver K V} {t0 : K} {y0 yp0 : V}
    {J0 : V →ₗ[K] V} (hn : IsNew v0 t0 y0 yp0 J0) (hr : EReach c v0 v) (hrun : v.status = .running) {fuel : ℕ} {o : EOut}
    (h : eStep c fuel v = some (o, v')) :
    o ≠ .exc .assertErr ∧ o ≠ .exc .typeErr ∧
      (o = .ok → v'.st.J = v.st.J ∧ v'.st.njev = v.st.njev ∧ v'.st.curJ = v.st.curJ ∧ v.st.J = J0) := by
  have main : ∀ {v}, EReach c v0 v → v.status = .running → v.st.J = J0 := by
    intro v hr
    induction hr with
    | refl =>
      obtain ⟨h0, Ks0, nfev, njev, hh, rfl⟩ := hn.new
      exact fun _ => rfl
    | @tail w w' o fuel hr hs ho ih =>
      intro hrun'
      rcases eStep_cases hs with ⟨h1, -, rfl⟩ | ⟨-, -, -, rfl⟩ | ⟨hrun, ht, s', hs', rfl, hcase⟩
      · exact absurd hrun' h1
      · cases hrun'
      · rcases hcase with ⟨rfl, -⟩ | ⟨-, h2⟩ | ⟨e, rfl, -⟩
        · obtain ⟨l, a, hv, hL, -, -, -, -, -, -, -, e5, -⟩ := eStep_accepted hc (hr.inv hc hn.inv) ht hs
          rw [e5, (hL.lin hj).2.1]
          exact ih hrun
        · rw [h2] at hrun'; cases hrun'
        · exact absurd (by rw [eStepImpl_exc hc ((hr.inv hc hn.inv) hrun) ht hs']) ho
  refine ⟨?_, ?_, ?_⟩
  · rintro rfl
    rcases C64_no_exception hc hn hr h with h | ⟨h, -⟩ <;> cases h
  · rintro rfl
    rcases C64_no_exception hc hn hr h with h | ⟨h, -⟩ <;> cases h
  · rintro rfl
    have hi := (hr.inv hc hn.inv) hrun
    by_cases ht : c.tb = some v.st.t
    · rcases eStep_cases h with ⟨h1, -, rfl⟩ | ⟨-, -, -, rfl⟩ | ⟨hrun, ht', s', hs', rfl, hcase⟩
      · exact absurd hrun h1
      · exact ⟨rfl, rfl, rfl, main hr hrun⟩
      · exact absurd ht ht'
    · obtain ⟨l, a, hv, hL, -, -, -, -, -, -, -, e5, -, e7, -⟩ := eStep_accepted hc (hr.inv hc hn.inv) ht h
      refine ⟨by rw [e5, (hL.lin hj).2.1], by rw [e7, (hL.lin hj).2.2], ?_, main hr hrun⟩
      rw [(hi.lin hj).1]
      by_cases hrun' : v'.status = .running
      · exact ((EReach.inv hc hn.inv (.tail hr h (by simp))) hrun' |>.lin hj).1
      · rcases eStep_cases h with ⟨h1, -, rfl⟩ | ⟨-, ht', -, rfl⟩ | ⟨_, _, s', hs', rfl, hcase⟩
        · exact absurd hrun h1
        · exact absurd ht' ht
        · rcases eStepImpl_visits hs' with ⟨-, h2, -⟩ | ⟨l, hv, hit⟩
          · cases h2
          · exact ((eIter_ok_inv hc (hv.inv hc hi ht) hit).lin hj).1

/-- **C36**. If the right-hand side really is affine with the given Jacobian, `f(t, y) = J y + r(t)`, then one
iteration solves every stage exactly: `M K_i = f(t + c_i h, Y_i)` for all implicit stages, in every successful step
of every history. Consequently algebraic equations hold exactly at the new solution (`C36_linear_constraints`). -/
theorem C36_linear_exact (hc : ECfgOK c) (hT : ETabOK c.T) (hj : c.jac = none) (hlin : LinSolves c)
    {v0 v v' : ESolver K V} {t0 : K} {y0 yp0 : V} {J0 : V →ₗ[K] V} (hn : IsNew v0 t0 y0 yp0 J0) {r : K → V}
    (haff : ∀ t y, c.fn t y = some (J0 y + r t)) (hr : EReach c v0 v) {fuel : ℕ}
    (ht : c.tb ≠ some v.st.t) (h : eStep c fuel v = some (.ok, v')) (hreg : RegularAt c v'.st) {i : ℕ} (h1 : 1 ≤ i) (h2 : i < c.T.n) :
    c.fn (v.st.t + c.T.C i * (v'.st.t - v.st.t)) (stageVal c.T v.st.y (v'.st.t - v.st.t) v'.st.Ks i) =
      some (c.M (v'.st.Ks i)) := by
  obtain ⟨l, a, hv, hL, ha, hcv, hrun, e1, e2, e3, e4, e5, e6, -⟩ :=
    eStep_accepted hc (hr.inv hc hn.inv) ht h
  obtain ⟨-, -, hJJ⟩ := C36_linear_mode hc hj hn hr hrun h
  obtain ⟨j1, -, -, j2⟩ := hJJ rfl
  obtain ⟨u, f, hLU, a1, a2, a3⟩ := C38_stage_equations hc hT hlin hn hr ht h hreg h1 h2
  obtain ⟨hLU', q1, q2, q3, -⟩ := C37_factors_current hc hlin hn hr hrun ht hv
  have hE : hLU = v'.st.t - v.st.t := by
    rw [e6, q1] at a1
    cases a1
    rw [q3 hj, e1]; ring
  have hne : v'.st.t - v.st.t ≠ 0 := by
    rw [e1]
    rcases hc.dir with hd | hd <;> rw [hd] <;> simp [hL.pos.ne']
  rw [haff] at a2 ⊢
  rw [a3, hE, j1, j2]
  have hf : f = J0 (stageVal c.T v.st.y (v'.st.t - v.st.t) v'.st.Ks i - c.T.d • u) +
      r (v.st.t + c.T.C i * (v'.st.t - v.st.t)) := by
    cases a2; rfl
  rw [hf, map_sub, map_smul, show (v'.st.t - v.st.t) * c.T.d / (v'.st.t - v.st.t) = c.T.d by field_simp]
  congr 1
  abel

/-- **C36**. For a linear DAE the algebraic equations hold exactly at every computed solution. -/
theorem C36_linear_constraints (hc : ECfgOK c) (hT : ETabOK c.T) (hj : c.jac = none) (hlin : LinSolves c)
    {v0 v v' : ESolver K V} {t0 : K} {y0 yp0 : V} {J0 : V →ₗ[K] V} (hn : IsNew v0 t0 y0 yp0 J0) {r : K → V}
    (haff : ∀ t y, c.fn t y = some (J0 y + r t)) (hr : EReach c v0 v) {fuel : ℕ}
    (ht : c.tb ≠ some v.st.t) (h : eStep c fuel v = some (.ok, v')) (hreg : RegularAt c v'.st) (g : V →ₗ[K] K) (hg : ∀ x, g (c.M x) = 0) :
    g (J0 v'.st.y + r v'.st.t) = 0 := by
  have hn2 := hT.n
  have a := C36_linear_exact hc hT hj hlin hn haff hr ht h hreg (i := c.T.n - 1) (by omega) (by omega)
  obtain ⟨-, b2, -, -⟩ := C38_solution hc hT hn hr ht h
  rw [hT.c1, ← b2, one_mul, show v.st.t + (v'.st.t - v.st.t) = v'.st.t by ring, haff] at a
  have : J0 v'.st.y + r v'.st.t = c.M (v'.st.Ks (c.T.n - 1)) := Option.some.inj a
  rw [this, hg]

/-! ## C40 -/

/-- **C40**. A linear invariant `g` of the problem (`g(f) = 0` everywhere, hence `g J = 0`) is conserved exactly by
every history of steps of an ESDIRK method with unit mass matrix, however inexact the Newton iterations and however
old the Jacobian, as long as the matrices are regular: only `g(yp0) = 0` for the initial derivative is used. -/
theorem C40_linear_invariants (hc : ECfgOK c) (hT : ETabOK c.T) (hlin : LinSolves c) (hM : ∀ x, c.M x = x)
    (g : V →ₗ[K] K) (hf : ∀ t y f, c.fn t y = some f → g f = 0)
    (hJ : ∀ jac, c.jac = some jac → ∀ k t y x, g (jac k t y x) = 0)
    {v0 v : ESolver K V} {t0 : K} {y0 yp0 : V} {J0 : V →ₗ[K] V} (hn : IsNew v0 t0 y0 yp0 J0)
    (hJ0 : ∀ x, g (J0 x) = 0) (hyp : g yp0 = 0)
    (hreg : ∀ {w w' : ESolver K V} {fuel}, EReach c v0 w → eStep c fuel w = some (.ok, w') → RegularAt c w'.st)
    (hr : EReach c v0 v) : g v.st.y = g y0 := by
  -- the Jacobian always comes from `J0` or `jac`
  have visJ : ∀ {s : ESt K V}, SInv c s → (∀ x, g (s.J x) = 0) → ∀ {l}, Visits c s l → ∀ x, g (l.s.J x) = 0 := by
    intro s hi hs l hl
    induction hl with
    | @first s2 hp =>
      obtain ⟨s2', h1, J, njev, curJ, LU, hs2, -, -, hcase, -⟩ := preemptive_spec hc hi (hFirst c s)
      rw [hp] at h1
      cases h1
      subst hs2
      rcases hcase with ⟨rfl, -, -⟩ | ⟨jac', hj', h1, h2⟩
      · exact hs
      · intro x
        show g (J x) = 0
        rw [h1]; exact hJ jac' hj' _ _ _ x
    | @next l l' hv hit ih =>
      obtain ⟨-, a, ha, hA⟩ := eIter_again hit
      cases hA with
      | @newJ jac' hcv hJ1 hj' => exact fun x => hJ jac' hj' _ _ _ x
      | reduce hcv hJ => simpa using ih
      | reject e hcv he hn h1 => simpa using ih
  have main : g v.st.y = g y0 ∧ (v.status = .running → g v.st.yp = 0 ∧ ∀ x, g (v.st.J x) = 0) := by
    induction hr with
    | refl =>
      obtain ⟨h0, Ks0, nfev, njev, hh, rfl⟩ := hn.new
      exact ⟨rfl, fun _ => ⟨hyp, hJ0⟩⟩
    | @tail v v' o fuel hr hs ho ih =>
      by_cases hok : o = .ok
      swap
      · obtain ⟨h1, h2, h3⟩ := C34_failed_step_keeps_solution hc hn hr hs hok
        rw [h2]
        refine ⟨ih.1, fun hrun' => ?_⟩
        rcases eStep_cases hs with ⟨h1, -, rfl⟩ | ⟨-, -, h4, rfl⟩ | ⟨hrun, ht, s', hs', rfl, hcase⟩
        · exact absurd hrun' h1
        · exact absurd h4 hok
        · rcases hcase with ⟨h4, -⟩ | ⟨-, h4⟩ | ⟨e, rfl, -⟩
          · exact absurd h4 hok
          · rw [h4] at hrun'; cases hrun'
          · exact absurd (by rw [eStepImpl_exc hc ((hr.inv hc hn.inv) hrun) ht hs']) ho
      subst hok
      by_cases ht : c.tb = some v.st.t
      · rcases eStep_cases hs with ⟨h1, h2, -⟩ | ⟨-, -, -, rfl⟩ | ⟨-, ht', -⟩
        · cases h2
        · exact ⟨ih.1, fun h => by cases h⟩
        · exact absurd ht ht'
      obtain ⟨l, a, hv, hL, ha, hcv, hrun, e1, e2, e3, e4, e5, e6, -⟩ :=
        eStep_accepted hc (hr.inv hc hn.inv) ht hs
      obtain ⟨i1, i2⟩ := ih.2 hrun
      have hi := (hr.inv hc hn.inv) hrun
      have hlJ := visJ hi i2 hv
      obtain ⟨hLU, q1, q2, -, q4⟩ := C37_factors_current hc hlin hn hr hrun ht hv
      obtain ⟨s1, s2⟩ := stages_spec ha hcv
      have hn2 := hT.n
      -- all stage derivatives are in the kernel of `g`
      have hK : ∀ j < c.T.n, g (v'.st.Ks j) = 0 := by
        intro j hj
        rw [e3]
        by_cases h0 : j = 0
        · subst h0; rw [att_K0 ha, hL.K0]; exact i1
        · obtain ⟨o, o1, o2, o3, -⟩ := s2 j (by omega) (by omega)
          obtain ⟨-, -, h4⟩ := newton_contract (z0 := _) o1 rfl
          obtain ⟨-, z1, f, -, hff, hz, -⟩ := h4 o2
          have hJs : (s1Of c l).J = l.s.J := factors_J _ _ _
          have hreg' : Regular c hLU (s1Of c l).J := by
            have := hreg hr hs hLU (e6.trans q1)
            rwa [e5, ← hJs] at this
          have hq := q4 hreg' ((l.hAbs * c.dir) • f - c.M z1)
          set u : V := c.lin (scOf c l) (factOf c l) ((l.hAbs * c.dir) • f - c.M z1) with hu
          have hz' : o.z = z1 + u := hz
          rw [hM, hM, hJs] at hq
          have := congrArg g hq
          rw [map_sub, map_smul, hlJ, smul_zero, sub_zero, map_sub, map_smul, hf _ _ _ hff, smul_zero, zero_sub]
            at this
          rw [o3, hz', map_smul, map_add, this, add_neg_cancel, smul_zero]
      have hy := (C38_solution hc hT hn hr ht hs).1
      refine ⟨?_, fun _ => ⟨?_, ?_⟩⟩
      · rw [hy, map_add, map_smul, map_sum, ih.1]
        rw [sum_eq_zero, smul_zero, add_zero]
        intro j hj
        rw [map_smul, hK j (mem_range.mp hj), smul_zero]
      · rw [(C38_solution hc hT hn hr ht hs).2.2.1]; exact hK _ (by omega)
      · rw [e5]; exact hlJ
  exact main.1

end
end Extensisq
