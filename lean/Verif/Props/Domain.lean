import Verif.Props.Robustness
import Verif.Props.NystromConvergence
import Verif.Props.Esdirk
import Verif.Props.KcDense
import Verif.Props.EsdirkConvergence
import Verif.Props.SwagStep
import Verif.Props.HStartMore
import Verif.Props.SwagConvergence
import Verif.Props.EsdirkStabWitness

/-!
# C108: the user's function is called between `t0` and `t_bound` only

A function need not make sense outside the interval of integration (tabulated data, a singularity at the end). Two functions which
agree between `t0` and `t_bound` give the same solver: the same states, the same results of every `step()` call, including
rejected attempts. So values outside of the interval are never used.
-/

set_option linter.unusedSectionVars false
set_option maxRecDepth 100000

namespace Extensisq
open Finset

/-! ## The driver of the explicit family -/

section
variable {K V W : Type*} [Field K] [LinearOrder K] [IsStrictOrderedRing K]

/-- Two methods which differ in their functions outside of a set of times. -/
structure AgreeOn (m m' : Method K V W) (I : Set K) : Prop where
  nStages : m'.nStages = m.nStages
  fsal : m'.fsal = m.fsal
  costPre : m'.costPre = m.costPre
  nfsOverflow : m'.nfsOverflow = m.nfsOverflow
  rhs : ∀ t ∈ I, ∀ y, m'.rhs t y = m.rhs t y
  trial : ∀ t h, t ∈ I → t + h ∈ I → ∀ y f Ks, m'.trial t y f h Ks = m.trial t y f h Ks

/-- The same solver with another function. -/
abbrev Cfg.withM (c : Cfg K V W) (m' : Method K V W) : Cfg K V W := { c with m := m' }

theorem AgreeOn.cost {m m' : Method K V W} {I : Set K} (h : AgreeOn m m' I) : m'.cost = m.cost := by
  unfold Method.cost; rw [h.nStages, h.fsal]

theorem AgreeOn.diagnose {c : Cfg K V W} {m' : Method K V W} {I : Set K} (h : AgreeOn c.m m' I) (s : St K V W) :
    diagnose (c.withM m') s = diagnose c s := by
  unfold Extensisq.diagnose
  simp only [Cfg.withM, h.nStages]

theorem AgreeOn.acceptState {c : Cfg K V W} {m' : Method K V W} {I : Set K} (ha : AgreeOn c.m m' I) {s : St K V W}
    {tr : Trial K V W} {h hn x f : K} {std : Bool} (hI : s.t + h ∈ I) :
    acceptState (c.withM m') s tr h hn x f std = acceptState c s tr h hn x f std := by
  unfold Extensisq.acceptState
  simp only [Cfg.withM, ha.nStages, ha.fsal, ha.cost, ha.rhs _ hI]

theorem loop_agree {c : Cfg K V W} (hc : CfgOK c) {m' : Method K V W} {I : Set K} (ha : AgreeOn c.m m' I) {ms : K} (hms : 0 < ms) :
    ∀ (n : ℕ) (s : St K V W) (h : K) (rej : Bool), s.t ∈ I → (∀ x, 0 < x → x ≤ h → s.t + x * c.dir ∈ I) →
      loop (c.withM m') n s h ms rej = loop c n s h ms rej := by
  intro n
  induction n with
  | zero => intro s h rej _ _; rfl
  | succ n ih =>
    intro s h rej ht hI
    unfold loop
    by_cases h1 : h < ms
    · rw [if_pos h1, if_pos h1]
    · rw [if_neg h1, if_neg h1]
      have hpos : 0 < h := lt_of_lt_of_le hms (not_lt.mp h1)
      have hmem := hI h hpos le_rfl
      have etr : (c.withM m').m.trial s.t s.y s.f (h * (c.withM m').dir) s.Ks =
          c.m.trial s.t s.y s.f (h * c.dir) s.Ks := ha.trial _ _ ht hmem _ _ _
      dsimp only
      rw [etr]
      generalize etr' : c.m.trial s.t s.y s.f (h * c.dir) s.Ks = tr
      have shrink : ∀ {b : Bool} {e : ENorm K}, Rejected tr b e → ∀ x, 0 < x → x ≤ h * retryFactor c e →
          s.t + x * c.dir ∈ I := by
        intro b e hr x hx hle
        refine hI x hx (hle.trans ?_)
        exact mul_le_of_le_one_right hpos.le ((retry_factor_le hc hr).trans (shrink_le_one hc))
      by_cases hp : tr.pre.gt 1 = true
      · rw [if_pos hp, if_pos hp]
        have := ih { s with Ks := tr.preStages, nfev := s.nfev + c.m.costPre, nfs := s.nfs + 1,
                            jflstp := s.jflstp + (if c.nfevStiff = 0 then 0 else 1) }
          (h * retryFactor c tr.pre) true ht (shrink (.early hp))
        simp only [ha.costPre] at this ⊢
        exact this
      · rw [if_neg hp, if_neg hp]
        have hp' : tr.pre.gt 1 = false := by simpa using hp
        cases he : tr.err with
        | num x =>
          dsimp only
          by_cases hx : x < 1
          · rw [if_pos hx, if_pos hx]
            have e1 : acceptFactor (c.withM m') s (h * c.dir) x = acceptFactor c s (h * c.dir) x := rfl
            rw [e1, ha.cost]
            cases acceptFactor c s (h * c.dir) x with
            | none => rfl
            | some p =>
              dsimp only
              rw [ha.acceptState hmem, ha.diagnose]
          · rw [if_neg hx, if_neg hx]
            have := ih { s with Ks := tr.stages, nfev := s.nfev + c.m.cost, nfs := s.nfs + 1, jflstp := s.jflstp + 1 }
              (h * retryFactor c (.num x)) true ht (shrink (.late hp' he (not_lt.mp hx)))
            simp only [ha.cost] at this ⊢
            exact this
        | inf => simp only [ha.cost, ha.nfsOverflow]
        | nan => simp only [ha.cost, ha.nfsOverflow]

theorem between_mem {dir t0 b t : K} (hd : dir = 1 ∨ dir = -1) (h1 : 0 ≤ dir * (t - t0)) (h2 : 0 ≤ dir * (b - t)) :
    t ∈ Set.uIcc t0 b := by
  rcases hd with h | h <;> rw [h] at h1 h2
  · exact Set.mem_uIcc.mpr (Or.inl ⟨by linarith, by linarith⟩)
  · exact Set.mem_uIcc.mpr (Or.inr ⟨by linarith, by linarith⟩)

/-- One call of `step()`. -/
theorem step_agree {c : Cfg K V W} (hc : CfgOK c) {m' : Method K V W} {t0 b : K} (ha : AgreeOn c.m m' (Set.uIcc t0 b))
    (hb : c.tb = some b) {v : Solver K V W} (hu : MaxStepUsable c v.st) (h1 : 0 ≤ c.dir * (v.st.t - t0))
    (h2 : 0 ≤ c.dir * (b - v.st.t)) (fuel : ℕ) : step (c.withM m') fuel v = step c fuel v := by
  have key : stepImpl (c.withM m') fuel v.st = stepImpl c fuel v.st := by
    unfold stepImpl
    have e : reassess (c.withM m') v.st = reassess c v.st := rfl
    rw [e]
    refine loop_agree hc ha (by rw [reassess_minStep]; exact minStep_pos hc _ _) _ _ _ _ (between_mem hc.dir h1 h2) ?_
    intro x hx hle
    have h3 := hle.trans (reassess_le_bound hb hu)
    rw [abs_sub_dir hc h2] at h3
    have e1 : c.dir * (v.st.t + x * c.dir - t0) = c.dir * (v.st.t - t0) + x := by linear_combination x * dir_sq hc
    have e2 : c.dir * (b - (v.st.t + x * c.dir)) = c.dir * (b - v.st.t) - x := by linear_combination (-x) * dir_sq hc
    exact between_mem hc.dir (by rw [e1]; linarith) (by rw [e2]; linarith)
  unfold step
  rw [key]
  rfl

/-- Every history. -/
theorem history_agree {c : Cfg K V W} (hc : CfgOK c) {m' : Method K V W} {t0 b : K} (ha : AgreeOn c.m m' (Set.uIcc t0 b))
    (hb : c.tb = some b) (hdir : 0 ≤ c.dir * (b - t0)) {v0 : Solver K V W} (h0 : v0.st.t = t0)
    (hu : ∀ w, Reach c v0 w → MaxStepUsable c w.st) :
    (∀ v, Reach (c.withM m') v0 v ↔ Reach c v0 v) ∧
    ∀ v, Reach c v0 v → ∀ fuel, step (c.withM m') fuel v = step c fuel v := by
  subst h0
  have hs : ∀ v, Reach c v0 v → ∀ fuel, step (c.withM m') fuel v = step c fuel v := by
    intro v hr fuel
    obtain ⟨a1, a2⟩ := C01_never_past_t_bound hc hb hdir hu hr
    exact step_agree hc ha hb (hu v hr) a1 a2 fuel
  refine ⟨fun v => ⟨fun h => ?_, fun h => ?_⟩, hs⟩
  · induction h with
    | refl => exact .refl
    | tail _ hst ih => exact .tail ih (by rw [← hs _ ih]; exact hst)
  · induction h with
    | refl => exact .refl
    | tail hr hst ih => exact .tail ih (by rw [hs _ hr]; exact hst)

theorem newSolver_agree {c : Cfg K V W} {m' : Method K V W} {t0 b : K} (ha : AgreeOn c.m m' (Set.uIcc t0 b)) (y0 : V) (h0 : K)
    (e0 : ℕ) (Ks0 : ℕ → W) : newSolver (c.withM m') t0 y0 h0 e0 Ks0 = newSolver c t0 y0 h0 e0 Ks0 := by
  unfold newSolver
  simp only [Cfg.withM, ha.rhs t0 Set.left_mem_uIcc]

end

/-! ## Runge-Kutta methods -/

section
variable {K V : Type*} [Field K] [LinearOrder K] [IsStrictOrderedRing K] [AddCommGroup V] [Module K V]

theorem segment_mem {t0 b t h θ : K} (ht : t ∈ Set.uIcc t0 b) (hth : t + h ∈ Set.uIcc t0 b) (h0 : 0 ≤ θ) (h1 : θ ≤ 1) :
    t + θ * h ∈ Set.uIcc t0 b := by
  rw [Set.mem_uIcc] at *
  rcases le_total t0 b with hb | hb
  · have ht : t0 ≤ t ∧ t ≤ b := by rcases ht with h | h <;> constructor <;> linarith [h.1, h.2]
    have hth : t0 ≤ t + h ∧ t + h ≤ b := by rcases hth with h | h <;> constructor <;> linarith [h.1, h.2]
    left
    constructor <;> nlinarith [ht.1, ht.2, hth.1, hth.2]
  · have ht : b ≤ t ∧ t ≤ t0 := by rcases ht with h | h <;> constructor <;> linarith [h.1, h.2]
    have hth : b ≤ t + h ∧ t + h ≤ t0 := by rcases hth with h | h <;> constructor <;> linarith [h.1, h.2]
    right
    constructor <;> nlinarith [ht.1, ht.2, hth.1, hth.2]

theorem rkStages_agree {T : Tableau K} {f g : K → V → V} {t0 b : K} (hfg : ∀ t ∈ Set.uIcc t0 b, ∀ y, g t y = f t y)
    (hT : ∀ i, i < T.s → 0 ≤ T.C i ∧ T.C i ≤ 1) {t h : K} (ht : t ∈ Set.uIcc t0 b) (hth : t + h ∈ Set.uIcc t0 b) (y : V) :
    ∀ n, n ≤ T.s → ∀ Ks, rkStages T g t y h n Ks = rkStages T f t y h n Ks := by
  intro n
  induction n using Nat.strong_induction_on with
  | _ n ih =>
    intro hn Ks
    match n with
    | 0 => rfl
    | 1 => rfl
    | n + 2 =>
      obtain ⟨a1, a2⟩ := hT (n + 1) (by omega)
      simp only [rkStages, ih (n + 1) (by omega) (by omega), rkStage, hfg _ (segment_mem ht hth a1 a2)]

theorem rk_agree {T : Tableau K} {f g : K → V → V} {errNorm : V → V → V → ENorm K} {P : PreTest K V} {t0 b : K}
    (hfg : ∀ t ∈ Set.uIcc t0 b, ∀ y, g t y = f t y) (hT : ∀ i, i < T.s → 0 ≤ T.C i ∧ T.C i ≤ 1) :
    AgreeOn (rkMethod T f errNorm P) (rkMethod T g errNorm P) (Set.uIcc t0 b) where
  nStages := rfl
  fsal := rfl
  costPre := rfl
  nfsOverflow := rfl
  rhs := hfg
  trial t h ht hth y f0 Ks := by
    simp only [rkMethod, rkTrial, rkStages_agree hfg hT ht hth y T.s le_rfl,
      rkStages_agree hfg hT ht hth y (T.s - 1) (by omega), hfg _ hth]

/-- The explicit Runge-Kutta tables of the package. -/
def allRK : List RKTable := rationalRK ++ decimalOrders.map (·.R)

theorem allRK_nodes {R : RKTable} (hR : R ∈ allRK) : ∀ i, i < (R.tab K).s → 0 ≤ (R.tab K).C i ∧ (R.tab K).C i ≤ 1 := by
  have h : nodesInQ R := by
    unfold allRK at hR
    rw [List.mem_append, List.mem_map] at hR
    rcases hR with h | ⟨e, he, rfl⟩
    · exact rational_nodes_in R h
    · exact decimal_nodes_in e he
  intro i hi
  obtain ⟨h1, h2⟩ := h i hi
  have g1 := (Rat.cast_le (K := K)).mpr h1
  have g2 := (Rat.cast_le (K := K)).mpr h2
  push_cast [RKTable.tab] at g1 g2
  exact ⟨by simpa [RKTable.tab] using g1, by simpa [RKTable.tab] using g2⟩

/-- **C108.** An explicit Runge-Kutta solver towards `t_bound = b` uses the values of the function between `t0` and `b` only: a
function `g` which agrees with `f` there gives the same new solver, reaches the same states, and every `step()` call, also one
that raises or fails, returns the same. -/
theorem C108_runge_kutta {R : RKTable} (hR : R ∈ allRK) {f g : K → V → V} {t0 b : K}
    (hfg : ∀ t ∈ Set.uIcc t0 b, ∀ y, g t y = f t y) {c : Cfg K V V} (hc : CfgOK c) {errNorm : V → V → V → ENorm K}
    {P : PreTest K V} (hm : c.m = rkMethod (R.tab K) f errNorm P) (hb : c.tb = some b) (hdir : 0 ≤ c.dir * (b - t0)) (y0 : V)
    (h0 : K) (e0 : ℕ) (Ks0 : ℕ → V)
    (hu : ∀ w, Reach c (newSolver c t0 y0 h0 e0 Ks0) w → MaxStepUsable c w.st) :
    let c' : Cfg K V V := { c with m := rkMethod (R.tab K) g errNorm P }
    newSolver c' t0 y0 h0 e0 Ks0 = newSolver c t0 y0 h0 e0 Ks0 ∧
    (∀ v, Reach c' (newSolver c t0 y0 h0 e0 Ks0) v ↔ Reach c (newSolver c t0 y0 h0 e0 Ks0) v) ∧
    ∀ v, Reach c (newSolver c t0 y0 h0 e0 Ks0) v → ∀ fuel, step c' fuel v = step c fuel v := by
  have ha : AgreeOn c.m (rkMethod (R.tab K) g errNorm P) (Set.uIcc t0 b) := by
    rw [hm]; exact rk_agree hfg (allRK_nodes hR)
  exact ⟨newSolver_agree ha y0 h0 e0 Ks0, history_agree hc ha hb hdir rfl hu⟩

end

/-! ## Nyström methods -/

section
variable {K X : Type*} [Field K] [LinearOrder K] [IsStrictOrderedRing K] [AddCommGroup X] [Module K X]

theorem nyStages_agree {T : NTableau K} {f g : K → X × X → X} {t0 b : K} (hfg : ∀ t ∈ Set.uIcc t0 b, ∀ y, g t y = f t y)
    (hT : ∀ i, i < T.s → 0 ≤ T.C i ∧ T.C i ≤ 1) {t h : K} (ht : t ∈ Set.uIcc t0 b) (hth : t + h ∈ Set.uIcc t0 b) (y : X × X) :
    ∀ n, n ≤ T.s → ∀ Ks, nyStages T g t y h n Ks = nyStages T f t y h n Ks := by
  intro n
  induction n using Nat.strong_induction_on with
  | _ n ih =>
    intro hn Ks
    match n with
    | 0 => rfl
    | 1 => rfl
    | n + 2 =>
      obtain ⟨a1, a2⟩ := hT (n + 1) (by omega)
      simp only [nyStages, ih (n + 1) (by omega) (by omega), nyStage, hfg _ (segment_mem ht hth a1 a2)]

theorem ny_agree {T : NTableau K} {f g : K → X × X → X} {errNorm : X × X → X × X → X × X → ENorm K} {t0 b : K}
    (hfg : ∀ t ∈ Set.uIcc t0 b, ∀ y, g t y = f t y) (hT : ∀ i, i < T.s → 0 ≤ T.C i ∧ T.C i ≤ 1) :
    AgreeOn (nyMethod T f errNorm) (nyMethod T g errNorm) (Set.uIcc t0 b) where
  nStages := rfl
  fsal := rfl
  costPre := rfl
  nfsOverflow := rfl
  rhs := hfg
  trial t h ht hth y f0 Ks := by
    simp only [nyMethod, nyTrial, nyStages_agree hfg hT ht hth y T.s le_rfl, hfg _ hth]

/-- The nodes of a Nyström table are in the unit interval. -/
def nyNodesInQ (R : NyTable) : Prop := ∀ i, i < R.s → 0 ≤ (R.tab ℚ).C i ∧ (R.tab ℚ).C i ≤ 1

instance (R : NyTable) : Decidable (nyNodesInQ R) := by unfold nyNodesInQ; infer_instance

theorem ny_nodes_in : ∀ R ∈ nystromTables, nyNodesInQ R := by decide +kernel

/-- **C108** for the Nyström methods. -/
theorem C108_nystrom {R : NyTable} (hR : R ∈ nystromTables) {f g : K → X × X → X} {t0 b : K}
    (hfg : ∀ t ∈ Set.uIcc t0 b, ∀ y, g t y = f t y) {c : Cfg K (X × X) X} (hc : CfgOK c)
    {errNorm : X × X → X × X → X × X → ENorm K} (hm : c.m = nyMethod (R.tab K) f errNorm) (hb : c.tb = some b)
    (hdir : 0 ≤ c.dir * (b - t0)) (y0 : X × X) (h0 : K) (e0 : ℕ) (Ks0 : ℕ → X)
    (hu : ∀ w, Reach c (newSolver c t0 y0 h0 e0 Ks0) w → MaxStepUsable c w.st) :
    let c' : Cfg K (X × X) X := { c with m := nyMethod (R.tab K) g errNorm }
    newSolver c' t0 y0 h0 e0 Ks0 = newSolver c t0 y0 h0 e0 Ks0 ∧
    (∀ v, Reach c' (newSolver c t0 y0 h0 e0 Ks0) v ↔ Reach c (newSolver c t0 y0 h0 e0 Ks0) v) ∧
    ∀ v, Reach c (newSolver c t0 y0 h0 e0 Ks0) v → ∀ fuel, step c' fuel v = step c fuel v := by
  have ha : AgreeOn c.m (nyMethod (R.tab K) g errNorm) (Set.uIcc t0 b) := by
    rw [hm]
    refine ny_agree hfg fun i hi => ?_
    obtain ⟨h1, h2⟩ := ny_nodes_in R hR i hi
    have g1 := (Rat.cast_le (K := K)).mpr h1
    have g2 := (Rat.cast_le (K := K)).mpr h2
    push_cast [NyTable.tab] at g1 g2
    exact ⟨by simpa [NyTable.tab] using g1, by simpa [NyTable.tab] using g2⟩
  exact ⟨newSolver_agree ha y0 h0 e0 Ks0, history_agree hc ha hb hdir rfl hu⟩

end

/-! ## ESDIRK methods -/

section
variable {K V : Type*} [Field K] [LinearOrder K] [IsStrictOrderedRing K] [AddCommGroup V] [Module K V]
variable {c : ECfg K V}

/-- Two Jacobian functions (supplied or numerical) which agree on a set of times. -/
def JacAgree (j j' : Option (ℕ → K → V → (V →ₗ[K] V))) (I : Set K) : Prop :=
  match j, j' with
  | none, none => True
  | some j, some j' => ∀ k, ∀ t ∈ I, ∀ y, j' k t y = j k t y
  | _, _ => False

theorem newton_agree {g : K → V → Option V} {j' : Option (ℕ → K → V → (V →ₗ[K] V))} (hl : j'.isNone = c.jac.isNone) {i : StageIn K V}
    (hg : ∀ y, g i.t y = c.fn i.t y) : ∀ (n k : ℕ) (z : V) (dz : K) (r : Option K),
    newton { c with fn := g, jac := j' } i n k z dz r = newton c i n k z dz r := by
  have hlin : ECfg.linear { c with fn := g, jac := j' } = c.linear := hl
  intro n
  induction n with
  | zero => intro k z dz r; rfl
  | succ n ih =>
    intro k z dz r
    unfold newton
    simp only [hg, ih, hlin]
    rfl

theorem stages_agree {g : K → V → Option V} {j' : Option (ℕ → K → V → (V →ₗ[K] V))} (hl : j'.isNone = c.jac.isNone) {t : K} {y : V}
    {h : K} {F : Fact K V} {sc : Option K} {cj : Bool} {hLU : Option K}
    (hg : ∀ i, i < c.T.n → ∀ y, g (t + c.T.C i * h) y = c.fn (t + c.T.C i * h) y) : ∀ (m s : ℕ) (a : Stages K V), m + s ≤ c.T.n →
    stages { c with fn := g, jac := j' } t y h F sc cj hLU m s a = stages c t y h F sc cj hLU m s a := by
  intro m
  induction m with
  | zero => intro s a _; rfl
  | succ m ih =>
    intro s a hs
    have e : ∀ (i : StageIn K V) (z : V), i.t = t + c.T.C s * h →
        solveStage { c with fn := g, jac := j' } i z = solveStage c i z := by
      intro i z hi
      unfold solveStage
      exact newton_agree hl (fun y => by rw [hi]; exact hg s (by omega) y) _ _ _ _ _
    unfold stages
    dsimp only
    rw [e _ _ rfl]
    generalize solveStage c _ _ = o
    cases o with
    | none => rfl
    | some o =>
      dsimp only
      split
      · exact ih _ _ (by omega)
      · rfl

theorem eIter_agree {g : K → V → Option V} {j' : Option (ℕ → K → V → (V →ₗ[K] V))} (hn : 1 ≤ c.T.n) {ms : K} {l : LSt K V} {I : Set K}
    (hj : JacAgree c.jac j' I) (ht : l.s.t ∈ I)
    (hg : ∀ i, i < c.T.n → ∀ y, g (l.s.t + c.T.C i * (l.hAbs * c.dir)) y = c.fn (l.s.t + c.T.C i * (l.hAbs * c.dir)) y) :
    eIter { c with fn := g, jac := j' } ms l = eIter c ms l := by
  have hl : j'.isNone = c.jac.isNone := by
    unfold JacAgree at hj
    cases h1 : c.jac <;> cases h2 : j' <;> rw [h1, h2] at hj <;> simp_all
  have hlin : ECfg.linear { c with fn := g, jac := j' } = c.linear := hl
  have hf : ∀ h, factors { c with fn := g, jac := j' } l h = factors c l h := by
    intro h
    unfold factors refactor
    simp only [hlin]
  have hfail : ∀ (l : LSt K V) (sc : Option K) (s : ESt K V), s.t ∈ I →
      afterFailure { c with fn := g, jac := j' } l sc s = afterFailure c l sc s := by
    intro l sc s hs
    unfold afterFailure
    dsimp only
    split
    · unfold JacAgree at hj
      cases h1 : c.jac with
      | none =>
        cases h2 : j' with
        | none => rfl
        | some j2 => rw [h1, h2] at hj; exact hj.elim
      | some j1 =>
        cases h2 : j' with
        | none => rw [h1, h2] at hj; exact hj.elim
        | some j2 =>
          rw [h1, h2] at hj
          dsimp only
          rw [hj _ _ hs]
    · rfl
  have hdone : ∀ (l : LSt K V) (h : K) (F : Fact K V) (sc : Option K) (s : ESt K V) (y : V),
      afterStages { c with fn := g, jac := j' } l h F sc s y = afterStages c l h F sc s y := by
    intro l h F sc s y
    have e1 : ∀ (s : ESt K V) (h hn x : K) (y : V) (F : Fact K V) (sc : Option K),
        eAccept { c with fn := g, jac := j' } s h hn x y F sc = eAccept c s h hn x y F sc := by
      intro s h hn x y F sc
      unfold eAccept
      simp only [hlin]
    have e2 : ∀ x, eAccepted { c with fn := g, jac := j' } l h F sc s y x = eAccepted c l h F sc s y x := by
      intro x
      unfold eAccepted
      simp only [e1]
      rfl
    unfold afterStages
    simp only [e2]
    rfl
  have hatt : ∀ (F : Fact K V) (sc : Option K) (cj : Bool) (hLU : Option K) (Ks : ℕ → V),
      attempt { c with fn := g, jac := j' } l.s.t l.s.y (l.hAbs * c.dir) F sc cj hLU Ks =
        attempt c l.s.t l.s.y (l.hAbs * c.dir) F sc cj hLU Ks := by
    intro F sc cj hLU Ks
    unfold attempt
    exact stages_agree hl hg _ _ _ (by dsimp only; omega)
  unfold eIter
  by_cases h1 : l.hAbs < ms
  · rw [if_pos h1, if_pos h1]
  · rw [if_neg h1, if_neg h1]
    dsimp only
    simp only [hf, factors_t, factors_y, hatt, hdone]
    generalize attempt c l.s.t l.s.y _ _ _ _ _ _ = o
    cases o with
    | none => rfl
    | some a =>
      dsimp only
      split
      · rfl
      · exact hfail _ _ _ (by simpa using ht)

theorem preemptive_agree {g : K → V → Option V} {j' : Option (ℕ → K → V → (V →ₗ[K] V))} {I : Set K} (hj : JacAgree c.jac j' I)
    {s : ESt K V} (hs : s.t ∈ I) (h : K) : preemptive { c with fn := g, jac := j' } s h = preemptive c s h := by
  unfold JacAgree at hj
  cases h1 : c.jac with
  | none =>
    cases h2 : j' with
    | none => simp only [preemptive, preemptRate, h1]
    | some j2 => rw [h1, h2] at hj; exact hj.elim
  | some j1 =>
    cases h2 : j' with
    | none => rw [h1, h2] at hj; exact hj.elim
    | some j2 =>
      rw [h1, h2] at hj
      simp only [preemptive, preemptRate, h1, hj _ _ hs]

/-- One call of `step()` of an ESDIRK solver: `J` is a set of times that contains those of all stages. -/
theorem eStep_agree (hc : ECfgOK c) {g : K → V → Option V} {j' : Option (ℕ → K → V → (V →ₗ[K] V))} (hn : 1 ≤ c.T.n) {t0 b : K}
    {J : Set K} (hg : ∀ t ∈ J, ∀ y, g t y = c.fn t y)
    (hJ : ∀ t h, t ∈ Set.uIcc t0 b → t + h ∈ Set.uIcc t0 b → 0 ≤ c.dir * h → ∀ i, i < c.T.n → t + c.T.C i * h ∈ J)
    (hj : JacAgree c.jac j' (Set.uIcc t0 b)) (hb : c.tb = some b) {v : ESolver K V} (hi : VInv c v)
    (h1 : 0 ≤ c.dir * (v.st.t - t0)) (h2 : 0 ≤ c.dir * (b - v.st.t)) (fuel : ℕ) :
    eStep { c with fn := g, jac := j' } fuel v = eStep c fuel v := by
  have hmem : v.st.t ∈ Set.uIcc t0 b := between_mem hc.dir h1 h2
  have key : v.status = .running → c.tb ≠ some v.st.t →
      eStepImpl { c with fn := g, jac := j' } fuel v.st = eStepImpl c fuel v.st := by
    intro hr ht
    have hi := hi hr
    have hloop : ∀ (n : ℕ) (l : LSt K V), Visits c v.st l →
        eLoop { c with fn := g, jac := j' } (eMinStep c v.st.t v.st.hAbs) n l = eLoop c (eMinStep c v.st.t v.st.hAbs) n l := by
      intro n
      induction n with
      | zero => intro l _; rfl
      | succ n ih =>
        intro l hv
        have hL := hv.inv hc hi ht
        have hle : l.hAbs ≤ c.dir * (b - v.st.t) := by
          refine hL.le.trans ?_
          rw [← eAbs_sub_dir hc h2]
          show eFit c.tb v.st.t _ ≤ _
          rw [hb]; exact eFit_le_rest _ _ _
        have e1 : c.dir * (v.st.t + l.hAbs * c.dir - t0) = c.dir * (v.st.t - t0) + l.hAbs := by
          linear_combination l.hAbs * eDir_sq hc
        have e2 : c.dir * (b - (v.st.t + l.hAbs * c.dir)) = c.dir * (b - v.st.t) - l.hAbs := by
          linear_combination (-l.hAbs) * eDir_sq hc
        have e3 : 0 ≤ c.dir * (l.hAbs * c.dir) := by
          have : c.dir * (l.hAbs * c.dir) = l.hAbs := by linear_combination l.hAbs * eDir_sq hc
          rw [this]; exact hL.pos.le
        have hmem2 : v.st.t + l.hAbs * c.dir ∈ Set.uIcc t0 b :=
          between_mem hc.dir (by rw [e1]; linarith [hL.pos]) (by rw [e2]; linarith)
        have e := eIter_agree (g := g) (ms := eMinStep c v.st.t v.st.hAbs) hn hj (by rw [hL.t]; exact hmem) (l := l)
          (fun i hi y => hg _ (by rw [hL.t]; exact hJ _ _ hmem hmem2 e3 i hi) y)
        unfold eLoop
        rw [e]
        cases hit : eIter c (eMinStep c v.st.t v.st.hAbs) l with
        | done o s => rfl
        | again l' => exact ih l' (.next hv hit)
    unfold eStepImpl
    dsimp only
    change (match preemptive { c with fn := g, jac := j' } (eEntry c v.st) (hFirst c v.st) with
      | none => some (EOut.exc .typeErr, eEntry c v.st)
      | some s2 => eLoop { c with fn := g, jac := j' } (eMinStep c v.st.t v.st.hAbs) fuel
          { s := s2, hAbs := hFirst c v.st, LU := s2.LU, sc := s2.sc, rej := false }) =
      (match preemptive c (eEntry c v.st) (hFirst c v.st) with
      | none => some (EOut.exc .typeErr, eEntry c v.st)
      | some s2 => eLoop c (eMinStep c v.st.t v.st.hAbs) fuel
          { s := s2, hAbs := hFirst c v.st, LU := s2.LU, sc := s2.sc, rej := false })
    rw [preemptive_agree hj (show (eEntry c v.st).t ∈ _ from hmem)]
    cases hp : preemptive c (eEntry c v.st) (hFirst c v.st) with
    | none => rfl
    | some s2 => exact hloop _ _ (.first hp)
  unfold eStep
  cases hr : v.status with
  | running =>
    dsimp only
    by_cases ht : c.tb = some v.st.t
    · rw [if_pos ht, if_pos ht]
    · rw [if_neg ht, if_neg ht, key hr ht]
      rfl
  | finished => rfl
  | failed => rfl

theorem eHistory_agree (hc : ECfgOK c) {g : K → V → Option V} {j' : Option (ℕ → K → V → (V →ₗ[K] V))} (hn : 1 ≤ c.T.n) {t0 b : K}
    {J : Set K} (hg : ∀ t ∈ J, ∀ y, g t y = c.fn t y)
    (hJ : ∀ t h, t ∈ Set.uIcc t0 b → t + h ∈ Set.uIcc t0 b → 0 ≤ c.dir * h → ∀ i, i < c.T.n → t + c.T.C i * h ∈ J)
    (hj : JacAgree c.jac j' (Set.uIcc t0 b)) (hb : c.tb = some b) (hdir : 0 ≤ c.dir * (b - t0)) {v0 : ESolver K V} {y0 yp0 : V}
    {J0 : V →ₗ[K] V} (hnew : IsNew v0 t0 y0 yp0 J0) :
    (∀ v, EReach { c with fn := g, jac := j' } v0 v ↔ EReach c v0 v) ∧
    ∀ v, EReach c v0 v → ∀ fuel, eStep { c with fn := g, jac := j' } fuel v = eStep c fuel v := by
  have h0 : v0.st.t = t0 := by
    obtain ⟨_, _, _, _, _, rfl⟩ := hnew.new; rfl
  have hs : ∀ v, EReach c v0 v → ∀ fuel, eStep { c with fn := g, jac := j' } fuel v = eStep c fuel v := by
    intro v hr fuel
    obtain ⟨a1, a2⟩ := C34_never_past_t_bound hc hb hnew (by rw [h0]; exact hdir) hr
    rw [h0] at a1
    exact eStep_agree hc hn hg hJ hj hb (hr.inv hc hnew.inv) a1 a2 fuel
  refine ⟨fun v => ⟨fun h => ?_, fun h => ?_⟩, hs⟩
  · induction h with
    | refl => exact .refl
    | tail _ hst ho ih => exact .tail ih (by rw [← hs _ ih]; exact hst) ho
  · induction h with
    | refl => exact .refl
    | tail hr hst ho ih => exact .tail ih (by rw [hs _ hr]; exact hst) ho

end

/-- **C108** for the ESDIRK methods other than KC4I: `fun` and the Jacobian are not called outside of the interval from `t0` to
`t_bound`. -/
theorem C108_esdirk {V : Type*} [AddCommGroup V] [Module ℝ V] {R : ESTable} (hR : R ∈ [TRBDF2, TRX2, KC3I, KC4Ia, Kv3I])
    {c : ECfg ℝ V} (hc : ECfgOK c) (hT : c.T = R.tab ℝ (√2)) {t0 b : ℝ} {g : ℝ → V → Option V}
    (hg : ∀ t ∈ Set.uIcc t0 b, ∀ y, g t y = c.fn t y) {j' : Option (ℕ → ℝ → V → (V →ₗ[ℝ] V))}
    (hj : JacAgree c.jac j' (Set.uIcc t0 b)) (hb : c.tb = some b) (hdir : 0 ≤ c.dir * (b - t0)) {v0 : ESolver ℝ V} {y0 yp0 : V}
    {J0 : V →ₗ[ℝ] V} (hnew : IsNew v0 t0 y0 yp0 J0) :
    (∀ v, EReach { c with fn := g, jac := j' } v0 v ↔ EReach c v0 v) ∧
    ∀ v, EReach c v0 v → ∀ fuel, eStep { c with fn := g, jac := j' } fuel v = eStep c fuel v := by
  have s1 : (1 : ℝ) ≤ √2 := by rw [Real.one_le_sqrt]; norm_num
  have s2 : √2 ≤ 3 / 2 := by rw [Real.sqrt_le_left (by norm_num)]; norm_num
  have key : 1 ≤ R.n ∧ ∀ i, i < R.n → 0 ≤ (R.tab ℝ (√2)).C i ∧ (R.tab ℝ (√2)).C i ≤ 1 := by
    simp only [List.mem_cons, List.not_mem_nil, or_false] at hR
    rcases hR with rfl | rfl | rfl | rfl | rfl
    all_goals
      refine ⟨by decide, fun i hi => ?_⟩
      simp only [TRBDF2, TRX2, KC3I, KC4Ia, Kv3I] at hi
      interval_cases i <;> simp [ESTable.tab, TRBDF2, TRX2, KC3I, KC4Ia, Kv3I, Q2.val] <;>
        (try constructor) <;> (try norm_num) <;> (try linarith)
  refine eHistory_agree hc (by rw [hT]; exact key.1) hg ?_ hj hb hdir hnew
  intro t h ht hth hdh i hi
  rw [hT] at hi ⊢
  exact segment_mem ht hth (key.2 i hi).1 (key.2 i hi).2

/-- **C108** for KC4I, whose fifth stage is at `t + 26/25 h`: `fun` is called beyond `t_bound`, but by no more than 4% of the length
of the interval. The Jacobian is not. -/
theorem C108_kc4i {V : Type*} [AddCommGroup V] [Module ℝ V] {c : ECfg ℝ V} (hc : ECfgOK c) (hT : c.T = KC4I.tab ℝ (√2)) {t0 b : ℝ}
    {g : ℝ → V → Option V} (hg : ∀ t ∈ Set.uIcc t0 (b + (b - t0) / 25), ∀ y, g t y = c.fn t y)
    {j' : Option (ℕ → ℝ → V → (V →ₗ[ℝ] V))} (hj : JacAgree c.jac j' (Set.uIcc t0 b)) (hb : c.tb = some b)
    (hdir : 0 ≤ c.dir * (b - t0)) {v0 : ESolver ℝ V} {y0 yp0 : V} {J0 : V →ₗ[ℝ] V} (hnew : IsNew v0 t0 y0 yp0 J0) :
    (∀ v, EReach { c with fn := g, jac := j' } v0 v ↔ EReach c v0 v) ∧
    ∀ v, EReach c v0 v → ∀ fuel, eStep { c with fn := g, jac := j' } fuel v = eStep c fuel v := by
  have s1 : (1 : ℝ) ≤ √2 := by rw [Real.one_le_sqrt]; norm_num
  have s2 : √2 ≤ 3 / 2 := by rw [Real.sqrt_le_left (by norm_num)]; norm_num
  have key : 1 ≤ KC4I.n ∧ ∀ i, i < KC4I.n → 0 ≤ (KC4I.tab ℝ (√2)).C i ∧ (KC4I.tab ℝ (√2)).C i ≤ 26 / 25 := by
    refine ⟨by decide, fun i hi => ?_⟩
    simp only [KC4I] at hi
    interval_cases i <;> simp [ESTable.tab, KC4I, Q2.val] <;>
      (try constructor) <;> (try norm_num) <;> (try linarith)
  refine eHistory_agree hc (by rw [hT]; exact key.1) hg ?_ hj hb hdir hnew
  intro t h ht hth hdh i hi
  rw [hT] at hi ⊢
  obtain ⟨k1, k2⟩ := key.2 i hi
  generalize (KC4I.tab ℝ (√2)).C i = x at k1 k2
  rcases hc.dir with hd | hd
  · rw [hd] at hdir hdh
    rw [Set.uIcc_of_le (by linarith)] at ht hth ⊢
    obtain ⟨p1, p2⟩ := ht; obtain ⟨q1, q2⟩ := hth
    have m1 := mul_nonneg k1 (show 0 ≤ h by linarith)
    have m2 := mul_le_mul_of_nonneg_right k2 (show 0 ≤ h by linarith)
    constructor <;> linarith
  · rw [hd] at hdir hdh
    rw [Set.uIcc_of_ge (by linarith)] at ht hth ⊢
    obtain ⟨p1, p2⟩ := ht; obtain ⟨q1, q2⟩ := hth
    have m1 := mul_nonneg k1 (show 0 ≤ -h by linarith)
    have m2 := mul_le_mul_of_nonneg_right k2 (show 0 ≤ -h by linarith)
    constructor <;> linarith

section
variable {K V : Type*} [Field K] [LinearOrder K] [IsStrictOrderedRing K] [AddCommGroup V] [Module K V] {c : ECfg K V}

theorem newton_defined {i : StageIn K V} : ∀ (n k : ℕ) (z : V) (dz : K) (r : Option K) (o : NewtonOut K V),
    newton c i n k z dz r = some o → o.converged = true → ∃ y, c.fn i.t y ≠ none := by
  intro n k z dz r o h hc
  cases n with
  | zero => cases h; cases hc
  | succ n =>
    cases hf : c.fn i.t (i.psi + c.T.d • z) with
    | some f => exact ⟨_, by rw [hf]; exact Option.some_ne_none f⟩
    | none =>
      unfold newton at h
      simp only [hf] at h
      cases h; cases hc

theorem stages_defined {t : K} {y : V} {h : K} {F : Fact K V} {sc : Option K} {cj : Bool} {hLU : Option K} :
    ∀ (m s : ℕ) (a a' : Stages K V), stages c t y h F sc cj hLU m s a = some a' → a'.converged = true →
      ∀ i, s ≤ i → i < s + m → ∃ y, c.fn (t + c.T.C i * h) y ≠ none := by
  intro m
  induction m with
  | zero => intro s a a' _ _ i h1 h2; omega
  | succ m ih =>
    intro s a a' ha hcv i h1 h2
    unfold stages at ha
    dsimp only at ha
    generalize ho : solveStage c _ _ = o at ha
    cases o with
    | none => cases ha
    | some o =>
      dsimp only at ha
      split at ha
      · rename_i hoc
        rcases Nat.eq_or_lt_of_le h1 with rfl | h1'
        · unfold solveStage at ho
          exact newton_defined _ _ _ _ _ _ ho hoc
        · exact ih _ _ _ ha hcv i h1' (by omega)
      · rename_i hoc
        cases ha
        exact absurd hcv hoc

end

/-- **C108** for KC4I, the negative side (finding F47): if the derivative is not defined beyond `t_bound` then the solver never gets
there. No history of a solver that did not start at `t_bound` reaches it: any step that ends there calls `fun` beyond it, and a step with
an undefined stage is not accepted. -/
theorem C108_kc4i_never_finishes {V : Type*} [AddCommGroup V] [Module ℝ V] {c : ECfg ℝ V} (hc : ECfgOK c)
    (hT : c.T = KC4I.tab ℝ (√2)) {t0 b : ℝ} (hb : c.tb = some b) (h0 : 0 < c.dir * (b - t0))
    (hf : ∀ t y, 0 < c.dir * (t - b) → c.fn t y = none) {v0 : ESolver ℝ V} {y0 yp0 : V} {J0 : V →ₗ[ℝ] V}
    (hnew : IsNew v0 t0 y0 yp0 J0) {v : ESolver ℝ V} (hr : EReach c v0 v) : 0 < c.dir * (b - v.st.t) ∧ v.status ≠ .finished := by
  have e0 : v0.st.t = t0 ∧ v0.status = .running := by
    obtain ⟨_, _, _, _, _, rfl⟩ := hnew.new; exact ⟨rfl, rfl⟩
  induction hr with
  | refl => rw [e0.1, e0.2]; exact ⟨h0, (fun h => by cases h)⟩
  | @tail v v' o fuel hr hst ho ih =>
    obtain ⟨i1, i2⟩ := ih
    have hne : c.tb ≠ some v.st.t := by
      rw [hb]; intro e; rw [Option.some.inj e, sub_self, mul_zero] at i1; exact lt_irrefl _ i1
    have htime : 0 < c.dir * (b - v'.st.t) := by
      rcases eStep_time hc (hr.inv hc hnew.inv) hst with ⟨h1, -⟩ | ⟨rfl, -, -, -⟩
      · rw [h1]; exact i1
      · obtain ⟨l, a, -, hL, ha, hcv, -, e1, -⟩ := eStep_accepted hc (hr.inv hc hnew.inv) hne hst
        have hn6 : c.T.n = 6 := by rw [hT]; rfl
        obtain ⟨y, hy⟩ := stages_defined _ _ _ _ ha hcv 4 (by omega) (by omega)
        rw [factors_t, hL.t] at hy
        have hC : c.T.C 4 = 26 / 25 := by
          rw [hT]; simp [ESTable.tab, KC4I, Q2.val]
        have hle : ¬ 0 < c.dir * (v.st.t + c.T.C 4 * hOf c l - b) := fun h => hy (hf _ _ h)
        have sq := eDir_sq hc
        have e2 : c.dir * (v.st.t + c.T.C 4 * hOf c l - b) = 26 / 25 * l.hAbs - c.dir * (b - v.st.t) := by
          rw [hC]; show c.dir * (v.st.t + 26 / 25 * (l.hAbs * c.dir) - b) = _
          linear_combination (26 / 25 * l.hAbs) * sq
        rw [e2] at hle
        rw [e1]
        have e3 : c.dir * (b - (v.st.t + l.hAbs * c.dir)) = c.dir * (b - v.st.t) - l.hAbs := by
          linear_combination (-l.hAbs) * sq
        rw [e3]
        linarith [hL.pos, not_lt.mp hle]
    refine ⟨htime, ?_⟩
    rcases eStep_cases hst with ⟨-, -, rfl⟩ | ⟨-, h1, -⟩ | ⟨-, -, s', -, e, ⟨-, h1, -⟩ | ⟨-, h1⟩ | ⟨_, -, h1⟩⟩
    · exact i2
    · exact absurd h1 hne
    · rw [h1]
      have : eReached c s'.t = false := by
        unfold eReached; rw [hb, ← e]
        refine decide_eq_false fun h => ?_
        have : c.dir * (v'.st.t - b) = -(c.dir * (b - v'.st.t)) := by ring
        linarith
      rw [this]; exact (fun h => by cases h)
    · rw [h1]; exact (fun h => by cases h)
    · rw [h1]; exact (fun h => by cases h)

/-! ## SWAG -/

section
variable {K V : Type*} [Field K] [LinearOrder K] [IsStrictOrderedRing K] [AddCommGroup V] [Module K V] {c : SwCfg K V}

theorem swTry_agree {g : K → V → V} {t : K} {l : SwLoc K V} (hg : ∀ y, g (t + l.h) y = c.fn (t + l.h) y) (y : V) (hold : K)
    (kold : ℕ) : swTry { c with fn := g } t y hold kold l = swTry c t y hold kold l := by
  unfold swTry
  simp only [hg]

theorem swAccept_agree {g : K → V → V} {s : SwSt K V} {l : SwLoc K V} (hg : ∀ y, g (s.t + l.h) y = c.fn (s.t + l.h) y) (ms : K)
    (r : SwTry K V) : swAccept { c with fn := g } ms s l r = swAccept c ms s l r := by
  unfold swAccept
  simp only [hg]
  rfl

theorem swStep_agree (ok : SwOK c) {g : K → V → V} {t0 b : K} (hg : ∀ t ∈ Set.uIcc t0 b, ∀ y, g t y = c.fn t y) (hb : c.tb = some b)
    {v : SwSolver K V} (ht : v.status = .running → SwTime c v.st) (h1 : v.status = .running → 0 ≤ c.dir * (v.st.t - t0)) (fuel : ℕ) :
    swStep { c with fn := g } fuel v = swStep c fuel v := by
  have key : v.status = .running → c.tb ≠ some v.st.t →
      swStepImpl { c with fn := g } fuel v.st = swStepImpl c fuel v.st := by
    intro hr hne
    have ht := ht hr
    have h1 := h1 hr
    have hb' : ∀ b, c.tb = some b → b ≠ v.st.t := by rintro b hb rfl; exact hne hb
    have st := swStiff_same c v.st
    have hbp : ∀ b, c.tb = some b → 0 < c.dir * (b - v.st.t) := by
      intro b hb2
      refine lt_of_le_of_ne (ht.ahead b hb2) (fun e => hb' b hb2 ?_)
      rcases mul_eq_zero.mp e.symm with h1 | h1
      · rcases ok.dir with h2 | h2 <;> rw [h2] at h1 <;> norm_num at h1
      · exact sub_eq_zero.mp h1
    have hagree : ∀ l, SwAttempt c v.st l → ∀ y, g (v.st.t + l.h) y = c.fn (v.st.t + l.h) y := by
      intro l hl y
      have hL := attempt_time ok ht hb' hl
      have hs := swLimit_spec ok ht.sign.nonneg hbp
      refine hg _ (between_mem ok.dir ?_ ?_) y
      · have : 0 ≤ c.dir * l.h := by
          rcases hL.sign with h | ⟨h, -⟩
          · exact h.le
          · rw [h, mul_zero]
        have e : c.dir * (v.st.t + l.h - t0) = c.dir * (v.st.t - t0) + c.dir * l.h := by ring
        rw [e]; exact add_nonneg h1 this
      · have h2 := hL.le.trans (hs.2.2.2.1 b hb)
        have e : c.dir * (b - (v.st.t + l.h)) = c.dir * (b - v.st.t) - c.dir * l.h := by ring
        rw [e]; exact sub_nonneg.mpr h2
    have hloop : ∀ (n : ℕ) (l : SwLoc K V), SwAttempt c v.st l →
        swLoop { c with fn := g } (swMinStep c v.st.t) (swStiff c v.st) n l = swLoop c (swMinStep c v.st.t) (swStiff c v.st) n l := by
      intro n
      induction n with
      | zero => intro l _; rfl
      | succ n ih =>
        intro l hl
        have ha := hagree l hl
        obtain ⟨e1, e2, -, -, e3, -, e4, -⟩ := st
        have eT : swTry c (swStiff c v.st).t (swStiff c v.st).y (swStiff c v.st).hold (swStiff c v.st).kold l =
            swTry c v.st.t v.st.y v.st.hold v.st.kold l := by rw [e1, e2, e3, e4]
        unfold swLoop
        dsimp only
        rw [swTry_agree (by rw [e1]; exact ha), swAccept_agree (by rw [e1]; exact ha), eT]
        split
        · rfl
        · rename_i hre
          have := ih (swFail c l (swTry c v.st.t v.st.y v.st.hold v.st.kold l)) (.retry hl (by simpa using hre))
          have ef : swFail { c with fn := g } l (swTry c v.st.t v.st.y v.st.hold v.st.kold l) =
            swFail c l (swTry c v.st.t v.st.y v.st.hold v.st.kold l) := rfl
          rw [ef, this]
    have hf := hloop fuel _ SwAttempt.first
    unfold swStepImpl
    obtain ⟨e1, e2, -, e5, -⟩ := st
    dsimp only
    have es : swStiff { c with fn := g } v.st = swStiff c v.st := rfl
    rw [es, e1, e5]
    have ew : swMinStep { c with fn := g } v.st.t = swMinStep c v.st.t := rfl
    have el : swLimit { c with fn := g } v.st.t v.st.h = swLimit c v.st.t v.st.h := rfl
    have en : swNear { c with fn := g } v.st.t = swNear c v.st.t := rfl
    rw [ew, el, en, hf]
  unfold swStep
  cases hr : v.status with
  | running =>
    dsimp only
    by_cases hne : c.tb = some v.st.t
    · rw [if_pos hne, if_pos hne]
    · rw [if_neg hne, if_neg hne, key hr hne]
      rfl
  | finished => rfl
  | failed => rfl

/-- **C108** for SWAG: functions which agree between `t0` and `t_bound` give the same states and the same results of every call of
`step()`. -/
theorem C108_swag (ok : SwOK c) {g : K → V → V} {t0 b : K} (hg : ∀ t ∈ Set.uIcc t0 b, ∀ y, g t y = c.fn t y) (hb : c.tb = some b)
    (hdir : 0 ≤ c.dir * (b - t0)) {y0 yp0 : V} {h0 : K} {wt0 : V → ENorm K} {phi0 : ℕ → V} {co0 : Coef K} {nfev : ℕ}
    (hh : 0 < c.dir * h0) :
    (∀ v, SwReach { c with fn := g } (newSwag t0 y0 yp0 h0 wt0 phi0 co0 nfev) v ↔ SwReach c (newSwag t0 y0 yp0 h0 wt0 phi0 co0 nfev) v) ∧
    ∀ v, SwReach c (newSwag t0 y0 yp0 h0 wt0 phi0 co0 nfev) v → ∀ fuel, swStep { c with fn := g } fuel v = swStep c fuel v := by
  have hb0 : ∀ b', c.tb = some b' → 0 ≤ c.dir * (b' - t0) := by
    intro b' e; rw [hb] at e; rw [← Option.some.inj e]; exact hdir
  have hfwd : ∀ v, SwReach c (newSwag t0 y0 yp0 h0 wt0 phi0 co0 nfev) v → v.status = .running → 0 ≤ c.dir * (v.st.t - t0) := by
    intro v hr
    induction hr with
    | refl => intro _; show 0 ≤ c.dir * (t0 - t0); rw [sub_self, mul_zero]
    | @tail v1 v2 o fuel hr1 hst ih =>
      intro hs
      rcases swStep_cases hst with ⟨_, _, e⟩ | ⟨_, _, _, e⟩ | ⟨r, _, s', _, _, e⟩ | ⟨_, _, _, s', _, e⟩
      · subst e; exact ih hs
      · rw [e] at hs; cases hs
      · have hok : o = .ok := by assumption
        subst hok
        have := (C46_bounds ok hh hb0 hr1 r hst).1
        have e : c.dir * (v2.st.t - t0) = c.dir * (v2.st.t - v1.st.t) + c.dir * (v1.st.t - t0) := by ring
        rw [e]; exact add_nonneg this (ih r)
      · rw [e] at hs; cases hs
  have hs : ∀ v, SwReach c (newSwag t0 y0 yp0 h0 wt0 phi0 co0 nfev) v → ∀ fuel,
      swStep { c with fn := g } fuel v = swStep c fuel v := fun v hr fuel =>
    swStep_agree ok hg hb (fun h => hr.time ok (newSwag_time hh hb0) h) (hfwd v hr) fuel
  refine ⟨fun v => ⟨fun h => ?_, fun h => ?_⟩, hs⟩
  · induction h with
    | refl => exact .refl
    | tail _ hst ih => exact .tail ih (by rw [← hs _ ih]; exact hst)
  · induction h with
    | refl => exact .refl
    | tail hr hst ih => exact .tail ih (by rw [hs _ hr]; exact hst)

end

/-! ## The first step size -/

section
variable {𝕜 : Type*} [RCLike 𝕜] {n : ℕ}

theorem hsLoop_agree {df dg : ℝ → (Fin n → 𝕜) → Fin n → 𝕜} {a da : ℝ} (h1 : dg a = df a) (h2 : dg (a + da) = df (a + da))
    (dely relper big : ℝ) (y yprime sf : Fin n → 𝕜) (lk : ℕ) : ∀ (m k : ℕ) (st : HsState 𝕜 n),
    hsLoop dg a da dely relper big y yprime sf lk m k st = hsLoop df a da dely relper big y yprime sf lk m k st := by
  intro m
  induction m with
  | zero => intro k st; rfl
  | succ m ih =>
    intro k st
    unfold hsLoop
    simp only [h1, h2, ih]

/-- **C108** for the first step size: `h_start(fun, a, b, …)` calls `fun` between `a` and `b` only, provided that the interval is not
shorter than the smallest step, `100·small·|a|`. -/
theorem C108_h_start {small big relper : ℝ} (hr : 0 < relper) (hr1 : relper ≤ 1) (hs : 0 < small) {df dg : ℝ → (Fin n → 𝕜) → Fin n → 𝕜}
    {a b : ℝ} (hab : a ≠ b) (hlen : 100 * small * |a| ≤ |b - a|) (hg : ∀ t ∈ Set.uIcc a b, ∀ y, dg t y = df t y) (y yprime : Fin n → 𝕜)
    (morder : ℕ) (etol : Fin n → ℝ) (tolmin : ℝ) (Jn : Option ℝ) (Td : Option (Fin n → 𝕜)) :
    hStart small big relper dg a b y yprime morder etol tolmin Jn Td =
      hStart small big relper df a b y yprime morder etol tolmin Jn Td := by
  obtain ⟨p1, p2, p3⟩ := C15_sampling_point hr hs hab
  have hda : |hsDa relper small a (b - a)| ≤ |b - a| := by
    by_cases ha : a = 0
    · rw [p2 ha, ha, sub_zero, abs_mul, abs_of_pos hr]
      exact mul_le_of_le_one_left (abs_nonneg b) hr1
    · rw [p3 ha]
      exact max_le (min_le_right _ _) hlen
  have h1 : dg a = df a := funext fun y => hg a Set.left_mem_uIcc y
  have h2 : dg (a + hsDa relper small a (b - a)) = df (a + hsDa relper small a (b - a)) := by
    funext y
    refine hg _ ?_ y
    generalize hsDa relper small a (b - a) = d at p1 hda
    rcases lt_or_gt_of_ne hab with h | h
    · have hd : 0 < d := by
        by_contra hd
        exact absurd p1 (not_lt.mpr (mul_nonpos_of_nonneg_of_nonpos (by linarith) (not_lt.mp hd)))
      rw [abs_of_pos hd, abs_of_pos (by linarith)] at hda
      rw [Set.uIcc_of_le h.le]
      constructor <;> linarith
    · have hd : d < 0 := by
        by_contra hd
        exact absurd p1 (not_lt.mpr (mul_nonpos_of_nonpos_of_nonneg (by linarith) (not_lt.mp hd)))
      rw [abs_of_neg hd, abs_of_neg (by linarith)] at hda
      rw [Set.uIcc_of_ge h.le]
      constructor <;> linarith
  have h3 : hsSf dg a (hsDa relper small a (b - a)) y yprime Td = hsSf df a (hsDa relper small a (b - a)) y yprime Td := by
    cases Td with
    | none => exact congrFun h2 y
    | some T => rfl
  unfold hStart
  dsimp only
  rw [h3]
  simp only [hsLoop_agree h1 h2]

/-- **C108**, negative side: on an interval shorter than `100·small·|a|`, `h_start` samples `fun` beyond its end. -/
theorem C108_h_start_short {small relper : ℝ} (hr : 0 < relper) (hs : 0 < small) {a b : ℝ} (hab : a ≠ b)
    (hlen : |b - a| < 100 * small * |a|) : a + hsDa relper small a (b - a) ∉ Set.uIcc a b := by
  obtain ⟨p1, -, p3⟩ := C15_sampling_point hr hs hab
  have ha : a ≠ 0 := by
    rintro rfl
    rw [abs_zero, mul_zero] at hlen
    exact absurd hlen (not_lt.mpr (abs_nonneg _))
  have hda : |b - a| < |hsDa relper small a (b - a)| := by
    rw [p3 ha]; exact lt_of_lt_of_le hlen (le_max_right _ _)
  intro hm
  have h1 := Set.abs_sub_left_of_mem_uIcc hm
  rw [add_sub_cancel_left] at h1
  exact absurd hda (not_lt.mpr h1)

end

/-! ## The hypotheses are met -/

/-- The decay equation up to `t = 1`, something else afterwards. -/
noncomputable def exAfter (t y : ℝ) : ℝ := if t ≤ 1 then -y else 1 / y

/-- Every explicit method: the solver of `y' = -y` on `[0, 1]` does not notice that the function changes at `t = 1`. A first successful
step exists (`exCfgR_step`). -/
example {R : RKTable} (hR : R ∈ allRK) : ∃ v', step { exCfgR R with m := rkMethod (R.tab ℝ) exAfter (fun _ _ _ => .num (1 / 2)) } 1
    (newSolver (exCfgR R) 0 1 (1 / 2) 1 (fun _ => 0)) = some (.ok, v') := by
  obtain ⟨v', h⟩ := exCfgR_step R
  have hfg : ∀ t ∈ Set.uIcc (0 : ℝ) 1, ∀ y, exAfter t y = -y := by
    intro t ht y
    rw [Set.uIcc_of_le zero_le_one] at ht
    unfold exAfter
    rw [if_pos ht.2]
  have := (C108_runge_kutta hR (f := fun _ y => -y) (g := exAfter) hfg (exCfgR_ok R) rfl rfl (by simp [exCfgR]) 1 (1 / 2) 1
    (fun _ => 0) (fun w _ => by simp [MaxStepUsable, exCfgR])).2.2 _ .refl 1
  exact ⟨v', this.trans h⟩

/-- KC4I for `y' = -y` on `[0, 10]`, with a function that is not defined after `t = 10`: the solver never finishes. -/
example {v : ESolver ℝ ℂ} (hr : EReach { exStab KC4I (-1) with fn := fun t y => if t ≤ 10 then some (-1 * y) else none }
    (newESolver 0 1 (-1) (mulC (-1)) (1 / 2) (fun _ => 0) 1 0) v) : v.status ≠ .finished := by
  refine (C108_kc4i_never_finishes (c := { exStab KC4I (-1) with fn := fun t y => if t ≤ 10 then some (-1 * y) else none })
    { exStab_ok KC4I (-1) with } rfl (t0 := 0) (b := 10) rfl (by norm_num [exStab]) ?_
    (y0 := 1) (yp0 := -1) (J0 := mulC (-1)) ⟨1 / 2, fun _ => 0, 1, 0, by norm_num, rfl⟩ hr).2
  intro t y h
  have : 10 < t := by simpa [exStab] using h
  exact if_neg (not_le.mpr this)

/-- The other ESDIRK methods on the same problem work as if the function were defined everywhere. -/
example {R : ESTable} (hR : R ∈ [TRBDF2, TRX2, KC3I, KC4Ia, Kv3I]) (v : ESolver ℝ ℂ)
    (hr : EReach (exStab R (-1)) (newESolver 0 1 (-1) (mulC (-1)) (1 / 2) (fun _ => 0) 1 0) v) (fuel : ℕ) :
    eStep { exStab R (-1) with fn := fun t y => if t ≤ 10 then some (-1 * y) else none, jac := none } fuel v =
      eStep (exStab R (-1)) fuel v := by
  refine (C108_esdirk hR (exStab_ok R (-1)) rfl (t0 := 0) (b := 10) ?_ (j' := none) (by simp [JacAgree, exStab]) rfl
    (by norm_num [exStab]) (y0 := 1) (yp0 := -1) (J0 := mulC (-1)) ⟨1 / 2, fun _ => 0, 1, 0, by norm_num, rfl⟩).2 v hr fuel
  intro t ht y
  rw [Set.uIcc_of_le (by norm_num)] at ht
  exact if_pos ht.2

/-- SWAG on `y' = -y`. -/
example {η : ℝ} (h : 0 < η) (h1 : η ≤ 1) : ∃ v', swStep { exSwR η with fn := exAfter } 1 (exSwV η) = some (.ok, v') := by
  obtain ⟨v', h2, -⟩ := exSwR_step h h1
  refine ⟨v', ?_⟩
  rw [← h2]
  refine (C108_swag (exSwR_ok h) (t0 := 0) (b := 1) ?_ rfl (by simp [exSwR]) (by simpa [exSwR] using h)).2 _ .refl 1
  intro t ht y
  rw [Set.uIcc_of_le zero_le_one] at ht
  exact if_pos ht.2

end Extensisq
