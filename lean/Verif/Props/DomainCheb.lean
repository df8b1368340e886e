import Verif.Props.Domain
import Verif.Props.ChebStages
import Verif.Props.ChebDense

/-!
# C108 for SSV2stab

With a given `first_step` the function is called between `t0` and `t_bound` only. Without it, the estimate of the first step calls `fun`
at `t0 + absh` whatever the direction, so outside of the interval when the integration goes backwards.
-/

set_option linter.unusedSectionVars false

namespace Extensisq
open Finset

section
variable {K V : Type*} [Field K] [LinearOrder K] [IsStrictOrderedRing K] [FloorSemiring K] [AddCommGroup V] [Module K V]

/-- Two configurations of SSV2stab whose functions agree on a set of times: the right-hand side, the stages of steps inside the set,
and the spectral radius. -/
structure ChebAgree (c c' : ChebCfg K V) (I : Set K) : Prop where
  same : ∃ rhs stg rho rj, c' = { c with rhs := rhs, stg := stg, rho := rho, rhoJac := rj }
  rhs : ∀ t ∈ I, ∀ y, c'.rhs t y = c.rhs t y
  stg : ∀ t h, t ∈ I → t + h ∈ I → ∀ y f m, 2 ≤ m → c'.stg t y f h m = c.stg t y f h m
  rho : ∀ t ∈ I, ∀ y f v, c'.rho t y f v = c.rho t y f v
  jacSome : c'.rhoJac.isSome = c.rhoJac.isSome
  jac : ∀ r r', c.rhoJac = some r → c'.rhoJac = some r' → ∀ t ∈ I, ∀ y, r' t y = r t y

variable {c c' : ChebCfg K V} {I : Set K}

theorem chebAttempt_agree (ha : ChebAgree c c' I) {s : ChebSt K V} {absh : K} (h1 : s.t ∈ I) (h2 : s.t + c.dir * absh ∈ I) (sp : K)
    {m : ℕ} (hm : 2 ≤ m) : chebAttempt c' s absh sp m = chebAttempt c s absh sp m := by
  have e1 := ha.stg _ _ h1 h2 s.yn s.fn m hm
  have e2 := ha.rhs _ h2
  have e3 := ha.jacSome
  obtain ⟨rhs, stg, rho, rj, rfl⟩ := ha.same
  unfold chebAttempt
  dsimp only at e1 e2 e3 ⊢
  rw [e1, e2]
  unfold chebAccept
  simp only [e3]
  rfl

theorem chebTry_agree (hc : ChebOK c) (ha : ChebAgree c c' I) {t0 b : K} (hI : I = Set.uIcc t0 b) (hb : c.tb = some b) {s : ChebSt K V}
    (ht0 : 0 ≤ c.dir * (s.t - t0)) (htb : Before c s.t) {a sp : K} (ha0 : 0 < a) (hsp : 0 ≤ sp) :
    chebTry c' s a sp = chebTry c s a sp := by
  have hbpos := htb b hb
  obtain ⟨f1, f2, f3⟩ := chebFit_spec hc ha0 htb
  obtain ⟨g1, g2, g3, g4, -⟩ := chebChoose_spec (mm := c.mmax) hc.mmax f1 hsp
  have sq := cheb_dir_sq hc
  have m1 : s.t ∈ I := by rw [hI]; exact between_mem hc.dir ht0 hbpos.le
  have m2 : s.t + c.dir * (chebChoose c.mmax (chebFit c.tb s.t a) sp).1 ∈ I := by
    rw [hI]
    generalize (chebChoose c.mmax (chebFit c.tb s.t a) sp).1 = x at g3 g4
    have hx := g4.trans (f3 b hb)
    refine between_mem hc.dir ?_ ?_
    · have : c.dir * (s.t + c.dir * x - t0) = c.dir * (s.t - t0) + x := by linear_combination x * sq
      rw [this]; linarith
    · have : c.dir * (b - (s.t + c.dir * x)) = c.dir * (b - s.t) - x := by linear_combination (-x) * sq
      rw [this]; linarith
  have key : ∀ s' : ChebSt K V, s'.t = s.t →
      chebAttempt c' s' (chebChoose c.mmax (chebFit c.tb s.t a) sp).1 sp (chebChoose c.mmax (chebFit c.tb s.t a) sp).2 =
      chebAttempt c s' (chebChoose c.mmax (chebFit c.tb s.t a) sp).1 sp (chebChoose c.mmax (chebFit c.tb s.t a) sp).2 := by
    intro s' hs'
    exact chebAttempt_agree ha (by rw [hs']; exact m1) (by rw [hs']; exact m2) sp g1
  have e1 : c'.tb = c.tb ∧ c'.mmax = c.mmax := by
    obtain ⟨_, _, _, _, rfl⟩ := ha.same; exact ⟨rfl, rfl⟩
  unfold chebTry
  rw [e1.1, e1.2]
  dsimp only
  split
  · rfl
  · exact key _ rfl

theorem chebSpectral_agree (ha : ChebAgree c c' I) {s : ChebSt K V} (h1 : s.t ∈ I) : chebSpectral c' s = chebSpectral c s := by
  have e1 := ha.rho _ h1
  have e2 := ha.jacSome
  have e3 := ha.jac
  unfold chebSpectral
  cases hj : c.rhoJac with
  | none =>
    cases hj' : c'.rhoJac with
    | none => simp only [e1]
    | some r' => rw [hj, hj'] at e2; cases e2
  | some r =>
    cases hj' : c'.rhoJac with
    | none => rw [hj, hj'] at e2; cases e2
    | some r' => simp only [e3 r r' hj hj' _ h1]

theorem chebIter_agree (hc : ChebOK c) (ha : ChebAgree c c' I) {t0 b : K} (hI : I = Set.uIcc t0 b) (hb : c.tb = some b)
    {first : Option K} {s : ChebSt K V} (hi : ChebInv c first s) (hs : s.absh ≠ none) (ht0 : 0 ≤ c.dir * (s.t - t0))
    (htb : Before c s.t) : chebIter c' s s.absh = chebIter c s s.absh := by
  have m1 : s.t ∈ I := by rw [hI]; exact between_mem hc.dir ht0 (htb b hb).le
  unfold chebIter
  rw [chebSpectral_agree ha m1]
  cases h1 : chebSpectral c s with
  | none =>
    dsimp only
    unfold chebRhoFailed
    simp only [ha.rho _ m1]
  | some s1 =>
    obtain ⟨sp, hm, hf, -⟩ := chebSpectral_spec hc hi h1
    dsimp only
    rw [hm.sprad]
    dsimp only
    cases h2 : s.absh with
    | none => exact absurd h2 hs
    | some a =>
      dsimp only
      exact chebTry_agree hc ha hI hb (by rw [hf.t]; exact ht0) (by rw [hf.t]; exact htb) (hi.absh a h2) hm.nonneg

theorem chebLoop_agree (hc : ChebOK c) (ha : ChebAgree c c' I) {t0 b : K} (hI : I = Set.uIcc t0 b) (hb : c.tb = some b)
    {first : Option K} : ∀ (n : ℕ) (s : ChebSt K V), ChebInv c first s → s.absh ≠ none → 0 ≤ c.dir * (s.t - t0) → Before c s.t →
    chebLoop c' n s s.absh = chebLoop c n s s.absh
  | 0, _, _, _, _, _ => rfl
  | n + 1, s, hi, hs, ht0, htb => by
    unfold chebLoop
    rw [chebIter_agree hc ha hI hb hi hs ht0 htb]
    cases hr : chebIter c s s.absh with
    | done o s' => rfl
    | retry s' a' =>
      rcases chebIter_spec hc hi htb with h | ⟨s1, a, hf, -, -, -, -, -, hp⟩
      · rw [hr] at h; cases h
      · rw [hr] at hp
        obtain ⟨q, -, -, h3, h4, -, -, h7, -⟩ := hp
        have et : s'.t = s.t := h4.trans hf.t
        dsimp only
        rw [← h7]
        exact chebLoop_agree hc ha hI hb n s' h3 (by rw [h7]; exact Option.some_ne_none _) (by rw [et]; exact ht0) (by rw [et]; exact htb)

theorem chebStep_agree (hc : ChebOK c) (ha : ChebAgree c c' I) {t0 b : K} (hI : I = Set.uIcc t0 b) (hb : c.tb = some b)
    {first : Option K} {v : ChebSolver K V} (hi : ChebSInv c first v) (hs : v.status = .running → v.st.absh ≠ none)
    (ht0 : 0 ≤ c.dir * (v.st.t - t0)) (fuel : ℕ) : chebStep c' fuel v = chebStep c fuel v := by
  have e1 : c'.tb = c.tb ∧ c'.dir = c.dir := by
    obtain ⟨_, _, _, _, rfl⟩ := ha.same; exact ⟨rfl, rfl⟩
  unfold chebStep
  cases hr : v.status with
  | running =>
    dsimp only
    rw [e1.1, e1.2]
    by_cases hne : c.tb = some v.st.t
    · rw [if_pos hne, if_pos hne]
    · rw [if_neg hne, if_neg hne]
      unfold chebStepImpl
      rw [chebLoop_agree hc ha hI hb fuel v.st (hi.run hr) (hs hr) ht0 (Before.of hc hi hne)]
  | finished => rfl
  | failed => rfl

end

/-- Stages of functions which agree inside the step. -/
theorem rkcStages_agree {V : Type*} [AddCommGroup V] [Module ℝ V] {f g : ℝ → V → V} {t0 b : ℝ}
    (hg : ∀ t ∈ Set.uIcc t0 b, ∀ y, g t y = f t y) {t h : ℝ} (ht : t ∈ Set.uIcc t0 b) (hth : t + h ∈ Set.uIcc t0 b) (yn fn : V) {m : ℕ}
    (hm : 2 ≤ m) : rkcStages g t yn fn h m = rkcStages f t yn fn h m := by
  have hw := (rkcW0_gt m (by omega)).le
  have hrun : ∀ k, k ≤ m - 1 → rkcRun g (rkcW0 m) (rkcW1 m) t yn fn h k = rkcRun f (rkcW0 m) (rkcW1 m) t yn fn h k := by
    intro k
    induction k with
    | zero => intro _; rfl
    | succ k ih =>
      intro hk
      unfold rkcRun
      rw [ih (by omega)]
      have e := (rkcRun_coef f hw (rkcW1 m) t yn fn h k).2.2.2.2.2.2.2.2.1
      have hle : thT (rkcW0 m) (rkcW1 m) (k + 1) ≤ 1 := by
        rw [← thT_last hm]; exact thT_mono hm (by omega)
      have hmem : t + h * (rkcRun f (rkcW0 m) (rkcW1 m) t yn fn h k).thjm1 ∈ Set.uIcc t0 b := by
        rw [e, mul_comm]
        exact segment_mem ht hth (thT_pos hm (by omega)).le hle
      unfold rkcNext
      dsimp only
      rw [hg _ hmem]
  unfold rkcStages
  rw [if_neg (by omega), if_neg (by omega), hrun _ le_rfl]

section
variable {V : Type*} [AddCommGroup V] [Module ℝ V]

/-- **C108** for SSV2stab with a given `first_step`: functions `fun` which agree between `t0` and `t_bound`, and spectral radii (given by
`rho_jac` or estimated) which do, give the same states and the same results of every call of `step()`. -/
theorem C108_ssv2stab {c c' : ChebCfg ℝ V} {f g : ℝ → V → V} {t0 b : ℝ} (hc1 : c.rhs = f) (hc2 : c.stg = rkcStages f)
    (hfg : ∀ t ∈ Set.uIcc t0 b, ∀ y, g t y = f t y)
    (hc' : ∃ rho rj, c' = { c with rhs := g, stg := rkcStages g, rho := rho, rhoJac := rj })
    (hrho : ∀ t ∈ Set.uIcc t0 b, ∀ y f v, c'.rho t y f v = c.rho t y f v) (hjs : c'.rhoJac.isSome = c.rhoJac.isSome)
    (hj : ∀ r r', c.rhoJac = some r → c'.rhoJac = some r' → ∀ t ∈ Set.uIcc t0 b, ∀ y, r' t y = r t y) (hb : c.tb = some b) {first : ℝ}
    (hs : ChebStart c t0 (some first)) (y0 : V) :
    newCheb c' t0 y0 (some first) = newCheb c t0 y0 (some first) ∧
    (∀ v, ChebReach c' (newCheb c t0 y0 (some first)) v ↔ ChebReach c (newCheb c t0 y0 (some first)) v) ∧
    ∀ v, ChebReach c (newCheb c t0 y0 (some first)) v → ∀ fuel, chebStep c' fuel v = chebStep c fuel v := by
  have hr1 : ∀ t ∈ Set.uIcc t0 b, ∀ y, c'.rhs t y = c.rhs t y := by
    obtain ⟨rho, rj, rfl⟩ := hc'
    intro t ht y; rw [hc1]; exact hfg t ht y
  have ha : ChebAgree c c' (Set.uIcc t0 b) :=
    { same := by obtain ⟨rho, rj, rfl⟩ := hc'; exact ⟨_, _, _, _, rfl⟩
      rhs := hr1
      stg := by
        obtain ⟨rho, rj, rfl⟩ := hc'
        intro t h ht hth y f m hm
        rw [hc2]
        exact rkcStages_agree hfg ht hth y f hm
      rho := hrho
      jacSome := hjs
      jac := hj }
  have habsh : ∀ v, ChebReach c (newCheb c t0 y0 (some first)) v → v.status = .running → v.st.absh ≠ none := by
    intro v hr
    induction hr with
    | refl => intro _; exact Option.some_ne_none _
    | @tail v v' o fuel hr hst ih =>
      intro hrun
      obtain ⟨-, h, -⟩ := chebStep_spec hs.ok (hr.inv hs) hst
      rcases h with ⟨e, h⟩ | ⟨-, -, -, -, -, q, hq⟩ | ⟨-, h, -⟩
      · rw [e]
        rcases h with ⟨hn, -, e2⟩ | ⟨-, h⟩
        · rw [e2] at hrun; exact absurd hrun hn
        · by_cases hv : v.status = .running
          · exact ih hv
          · exfalso
            unfold chebStep at hst
            cases hvs : v.status with
            | running => exact hv hvs
            | finished => rw [hvs] at hst; cases hst; rw [hvs] at hrun; cases hrun
            | failed => rw [hvs] at hst; cases hst; rw [hvs] at hrun; cases hrun
      · obtain ⟨a, h, -⟩ := hq.next
        rw [h]; exact Option.some_ne_none _
      · rw [h] at hrun; cases hrun
  have hstep : ∀ v, ChebReach c (newCheb c t0 y0 (some first)) v → ∀ fuel, chebStep c' fuel v = chebStep c fuel v :=
    fun v hr fuel => chebStep_agree hs.ok ha rfl hb (hr.inv hs) (habsh v hr) (C43_never_past_t_bound hs hb hr).1 fuel
  refine ⟨?_, fun v => ⟨fun h => ?_, fun h => ?_⟩, hstep⟩
  · unfold newCheb
    rw [hr1 t0 Set.left_mem_uIcc]
  · induction h with
    | refl => exact .refl
    | tail _ hst ih => exact .tail ih (by rw [← hstep _ ih]; exact hst)
  · induction h with
    | refl => exact .refl
    | tail hr hst ih => exact .tail ih (by rw [hstep _ hr]; exact hst)

end

/-! ## The hypotheses are met -/

/-- The solver of `y' = y` on `[0, 1]` with a function that is something else after `t = 1`. -/
noncomputable def exBeyond (t y : ℝ) : ℝ := if t ≤ 1 then y else -7

example {H : ℝ} (hH : 0 < H) (hH1 : H ≤ 1 / 2) :
    ∃ v', chebStep { chebRe H with rhs := exBeyond, stg := rkcStages exBeyond } 1 (newCheb (chebRe H) 0 1 (some H)) = some (.ok, v') := by
  obtain ⟨v', h, -⟩ := chebRe_step hH hH1
  refine ⟨v', ?_⟩
  rw [← h]
  refine (C108_ssv2stab (c := chebRe H) (c' := { chebRe H with rhs := exBeyond, stg := rkcStages exBeyond })
    (f := fun _ y => y) (g := exBeyond) (t0 := 0) (b := 1) rfl rfl ?_ ⟨_, _, rfl⟩
    (fun _ _ _ _ _ => rfl) rfl ?_ rfl (chebRe_start hH) 1).2.2 _ .refl 1
  · intro t ht y
    rw [Set.uIcc_of_le zero_le_one] at ht
    exact if_pos ht.2
  · intro r r' h1 h2 t _ y
    rw [show r' = r from Option.some.inj (h2.symm.trans h1)]

end Extensisq
