import Verif.Props.EsdirkStage

/-!
# ESDIRK: error estimate and step size control (C78)
-/

set_option linter.unusedSectionVars false

namespace Extensisq
open Finset

section
variable {K V : Type*} [Field K] [LinearOrder K] [IsStrictOrderedRing K] [AddCommGroup V] [Module K V]
variable {c : ECfg K V}

/-- What the loop knows about earlier attempts of the same step. -/
structure RInv (c : ECfg K V) (s : ESt K V) (l : LSt K V) : Prop where
  nfs : s.nfs ≤ l.s.nfs
  noRej : l.rej = false → l.s.nfs = s.nfs ∧ l.s.maxFactor = s.maxFactor ∧
    l.s.stdSc = (eReassess c s.t s.hAbs s.stdSc).2.2
  isRej : l.rej = true → l.s.stdSc = true ∧ (s.nfs < l.s.nfs ∨ l.hAbs < hFirst c s)

theorem preemptRate_same {s s2 : ESt K V} {hA r hp hl : K} (h : preemptRate c s hA r hp hl = some s2) :
    s2.nfs = s.nfs ∧ s2.nfi = s.nfi ∧ s2.maxFactor = s.maxFactor ∧ s2.stdSc = s.stdSc ∧ s2.nfev = s.nfev ∧
      s2.nlu = s.nlu := by
  unfold preemptRate at h
  dsimp only at h
  split at h
  · split at h
    · cases h
    · cases h; exact ⟨rfl, rfl, rfl, rfl, rfl, rfl⟩
  · split at h <;> cases h <;> exact ⟨rfl, rfl, rfl, rfl, rfl, rfl⟩

theorem preemptive_same {s s2 : ESt K V} {hA : K} (h : preemptive c s hA = some s2) :
    s2.nfs = s.nfs ∧ s2.nfi = s.nfi ∧ s2.maxFactor = s.maxFactor ∧ s2.stdSc = s.stdSc ∧ s2.nfev = s.nfev ∧
      s2.nlu = s.nlu := by
  unfold preemptive at h
  split at h
  · split at h
    · cases h
    · cases h; exact ⟨rfl, rfl, rfl, rfl, rfl, rfl⟩
  · split at h
    · cases h; exact ⟨rfl, rfl, rfl, rfl, rfl, rfl⟩
    · split at h
      · split at h
        · exact preemptRate_same h
        · cases h
      · cases h; exact ⟨rfl, rfl, rfl, rfl, rfl, rfl⟩

theorem Visits.rinv (hc : ECfgOK c) {s : ESt K V} (hi : SInv c s) (ht : c.tb ≠ some s.t) {l : LSt K V}
    (hv : Visits c s l) : RInv c s l := by
  induction hv with
  | @first s2 hp =>
    obtain ⟨h1, -, h3, h4, -⟩ := preemptive_same hp
    exact ⟨h1.ge, fun _ => ⟨h1, h3, h4⟩, fun h => by cases h⟩
  | @next l l' hv hit ih =>
    have hL := hv.inv hc hi ht
    obtain ⟨-, a, ha, hA⟩ := eIter_again hit
    cases hA with
    | @newJ jac hcv hJ hj =>
      exact ⟨by simpa using ih.nfs, fun h => by simpa using ih.noRej h, fun h => by simpa using ih.isRej h⟩
    | reduce hcv hJ =>
      have hb := newtonFactor_bounds a.rate
      refine ⟨by simpa using ih.nfs, (fun h => by cases h), fun _ => ⟨rfl, Or.inr ?_⟩⟩
      have h1 := hL.le
      have h2 := hL.pos
      show l.hAbs * newtonFactor a.rate < _
      nlinarith [hb.2]
    | reject e hcv he hn h1 =>
      have h2 := ih.nfs
      refine ⟨?_, (fun h => by cases h), fun _ => ⟨rfl, Or.inl ?_⟩⟩
      · show s.nfs ≤ l.s.nfs + 1; omega
      · show s.nfs < l.s.nfs + 1; omega

/-- The error estimate of an accepted step: `e0 = h sum E_j K_j`, or, for the methods which filter it, `M w` with the
solution `w` of `(M - h_LU d J) w = e0`. -/
def IsEstimate (c : ECfg K V) (s' : ESt K V) (h : K) (e : V) : Prop :=
  (c.T.filter = false → e = h • ∑ j ∈ range c.T.n, c.T.E j • s'.Ks j) ∧
  (c.T.filter = true → ∃ w hLU, s'.hLU = some hLU ∧ e = c.M w ∧
    (Regular c hLU s'.J → c.M w - (hLU * c.T.d) • s'.J w = h • ∑ j ∈ range c.T.n, c.T.E j • s'.Ks j))

/-- A step was undisturbed if its first attempt was accepted, or all failures before were iterations that failed with
an outdated Jacobian: no rejection, and the step has the length which was tried first. -/
def Clean (c : ECfg K V) (v v' : ESolver K V) : Prop :=
  |v'.st.t - v.st.t| = (eReassess c v.st.t v.st.hAbs v.st.stdSc).1 ∧ v'.st.nfs = v.st.nfs

/-- The law of one successful step with length `h` (signed) and error norm `x`. -/
structure EStepLaw (c : ECfg K V) (v v' : ESolver K V) (h x : K) : Prop where
  time : v'.st.t = v.st.t + h
  h0 : h ≠ 0
  hPrev : v'.st.hPrev = some h
  errOld : v'.st.errOld = some x
  est : ∃ e, IsEstimate c v'.st h e ∧ c.errNorm v.st.y v'.st.y e = .num x
  accepted : x < 1
  /-- disturbed steps: the standard controller, and no growth -/
  dirty : ¬ Clean c v v' → v'.st.stdSc = true ∧
    v'.st.hAbs = |h| * min 1 (if x < c.tinyErr then 1 else c.safety * c.pw x c.errExp)
  tiny : Clean c v v' → x < c.tinyErr → v'.st.stdSc = true ∧ v'.st.hAbs = |h| * v.st.maxFactor
  standard : Clean c v v' → c.tinyErr ≤ x → (eReassess c v.st.t v.st.hAbs v.st.stdSc).2.2 = true →
    (v'.st.stdSc = false ↔ v.st.maxFactor = 4) ∧
    v'.st.hAbs = |h| * min (c.safety * c.pw x c.errExp) v.st.maxFactor
  second : Clean c v v' → c.tinyErr ≤ x → (eReassess c v.st.t v.st.hAbs v.st.stdSc).2.2 = false →
    v'.st.stdSc = false ∧ ∃ hp eo, v.st.hPrev = some hp ∧ v.st.errOld = some eo ∧
    v'.st.hAbs = |h| * max c.minFactor (min (c.safetySc * (c.pw x c.minbeta1 * c.pw eo c.minbeta2
      * c.pw (h / hp) c.minalpha)) v.st.maxFactor)
  maxF : v'.st.maxFactor = 4 ∨ (v'.st.maxFactor = v.st.maxFactor ∧ 4 * |h| ≤ v'.st.hAbs)

/-- **C78.** Every successful moving ESDIRK step accepts the solution by the norm of the (filtered) error estimate
and proposes the next step by the controller formula. -/
theorem C78_step_law (hc : ECfgOK c) (hlin : LinSolves c) {v0 v v' : ESolver K V} {t0 : K} {y0 yp0 : V}
    {J0 : V →ₗ[K] V} (hn : IsNew v0 t0 y0 yp0 J0) (hr : EReach c v0 v) {fuel : ℕ}
    (ht : c.tb ≠ some v.st.t) (h : eStep c fuel v = some (.ok, v')) : ∃ h x, EStepLaw c v v' h x := by
  have hi := hr.inv hc hn.inv
  rcases eStep_cases h with ⟨-, h2, -⟩ | ⟨-, h2, -⟩ | ⟨hrun, -, s', hs, rfl, -⟩
  · cases h2
  · exact absurd h2 ht
  rcases eStepImpl_visits hs with ⟨-, h2, -⟩ | ⟨l, hv, hit⟩
  · cases h2
  have hL := hv.inv hc (hi hrun) ht
  have hR := hv.rinv hc (hi hrun) ht
  obtain ⟨hge, a, x, f0, std, ha, hcv, he, hx, hf, hs'⟩ := eIter_ok hit
  obtain ⟨g1, g2, g3, g4, g5, g6⟩ := factors_coherent hc hL
  have habs : |hOf c l| = l.hAbs := by
    rcases hc.dir with hh | hh <;> simp [hOf, hh, abs_of_pos hL.pos]
  have e1 : v'.st.t = v.st.t + hOf c l := by
    rw [hs']; show (s1Of c l).t + hOf c l = _; rw [factors_t, hL.t]
  have hne : hOf c l ≠ 0 := by
    intro h0; rw [h0, abs_zero] at habs; exact hL.pos.ne habs
  have enfs : v'.st.nfs = l.s.nfs := by rw [hs']; exact factors_nfs _ _ _
  have hclean : Clean c v v' ↔ l.rej = false := by
    unfold Clean
    rw [e1, add_sub_cancel_left, habs, enfs]
    constructor
    · rintro ⟨h1, h2⟩
      by_contra hcon
      rcases (hR.isRej (by simpa using hcon)).2 with h3 | h3
      · omega
      · exact absurd h1 (ne_of_lt h3)
    · intro h1
      exact ⟨hL.rejF h1, (hR.noRej h1).1⟩
  have eh : v'.st.hAbs = l.hAbs * (if l.rej then min 1 f0 else f0) := by rw [hs']; rfl
  have es : v'.st.stdSc = if l.rej then true else std := by rw [hs']; rfl
  have em : v'.st.maxFactor = newMaxFactor l.s (if l.rej then min 1 f0 else f0) := by rw [hs']; rfl
  have k1 : (s2Of c l a).maxFactor = l.s.maxFactor := factors_maxFactor _ _ _
  have k2 : (s2Of c l a).stdSc = l.s.stdSc := factors_stdSc _ _ _
  have k3 : (s2Of c l a).hPrev = l.s.hPrev := factors_hPrev _ _ _
  have k4 : (s2Of c l a).errOld = l.s.errOld := factors_errOld _ _ _
  have hmf4 : (4 : K) ≤ l.s.maxFactor := by rcases hL.mf with h | h <;> rw [h]; norm_num
  unfold eAcceptFactor at hf
  rw [k1, k2, k3, k4, hL.hPrev, hL.errOld] at hf
  refine ⟨hOf c l, x, e1, hne, by rw [hs']; rfl, by rw [hs']; rfl, ?_, hx, ?_, ?_, ?_, ?_, ?_⟩
  · refine ⟨eError c (hOf c l) (factOf c l) (scOf c l) a.Ks, ⟨fun hfl => ?_, fun hfl => ?_⟩, ?_⟩
    · unfold eError; rw [hfl, hs']; rfl
    · refine ⟨c.lin (scOf c l) (factOf c l) ((hOf c l) • ∑ j ∈ range c.T.n, c.T.E j • a.Ks j), (factOf c l).h,
        by rw [hs']; exact g2, by unfold eError; rw [hfl]; rfl, ?_⟩
      have eJ : v'.st.J = (factOf c l).J := by rw [hs', g1]; exact factors_J _ _ _
      have eK : v'.st.Ks = a.Ks := by rw [hs']; rfl
      have esc : scOf c l = if c.dae then some (factOf c l).h else none := by
        cases hd : c.dae
        · simpa using g5 hd
        · simpa using g4 hd
      intro hreg
      rw [eJ] at hreg
      rw [eJ, eK, esc]
      exact hlin _ hreg _
    · rw [← he, hL.y]; congr 1; rw [hs']; rfl
  · intro hd
    have hrej : l.rej = true := by
      by_contra hcon; exact hd (hclean.mpr (by simpa using hcon))
    rw [es, eh, hrej, if_pos rfl, if_pos rfl, habs]
    refine ⟨rfl, ?_⟩
    congr 1
    by_cases hxt : x < c.tinyErr
    · rw [if_pos hxt] at hf ⊢
      cases hf
      rw [min_eq_left (by linarith : (1:K) ≤ l.s.maxFactor), min_self]
    · rw [if_neg hxt] at hf ⊢
      rw [if_pos (hR.isRej hrej).1] at hf
      cases hf
      rw [min_comm (c.safety * _) _, ← min_assoc, min_eq_left (by linarith : (1:K) ≤ l.s.maxFactor)]
  · intro hcl hxt
    have hrej := hclean.mp hcl
    rw [if_pos hxt] at hf
    cases hf
    rw [es, eh, hrej, habs, (hR.noRej hrej).2.1]
    exact ⟨rfl, rfl⟩
  · intro hcl hxt hst
    have hrej := hclean.mp hcl
    obtain ⟨n1, n2, n3⟩ := hR.noRej hrej
    rw [if_neg (not_lt.mpr hxt), if_pos (by rw [n3, hst]), n2] at hf
    cases hf
    rw [es, eh, hrej, habs]
    refine ⟨?_, rfl⟩
    simp only [Bool.false_eq_true, if_false]
    rw [n3, hst]
    show (if v.st.maxFactor = MAX_FACTOR then false else true) = false ↔ _
    have : (MAX_FACTOR : K) = 4 := rfl
    rw [this]
    by_cases h4 : v.st.maxFactor = 4 <;> simp [h4]
  · intro hcl hxt hst
    have hrej := hclean.mp hcl
    obtain ⟨n1, n2, n3⟩ := hR.noRej hrej
    rw [if_neg (not_lt.mpr hxt), if_neg (by rw [n3, hst]; simp), n2] at hf
    split at hf
    · rename_i hp eo hp1 hp2
      cases hf
      rw [es, eh, hrej, habs]
      refine ⟨?_, hp, eo, hp1, hp2, rfl⟩
      simp only [Bool.false_eq_true, if_false]
      exact n3.trans hst
    · cases hf
  · rw [em, eh, habs]
    unfold newMaxFactor
    generalize hfac : (if l.rej = true then min 1 f0 else f0) = f
    by_cases h4 : f < MAX_FACTOR
    · left; rw [if_pos h4]; rfl
    · rw [if_neg h4]
      have h4' : (4:K) ≤ f := not_lt.mp h4
      have hrej : l.rej = false := by
        by_contra hcon
        have : l.rej = true := by simpa using hcon
        rw [this, if_pos rfl] at hfac
        have := min_le_left 1 f0
        rw [hfac] at this
        linarith
      exact Or.inr ⟨(hR.noRej hrej).2.1, by nlinarith [hL.pos]⟩

/-- **C78.** The first step uses the standard controller, whatever `sc_params` says. -/
theorem C78_first_step (hc : ECfgOK c) (hlin : LinSolves c) {v0 v' : ESolver K V} {t0 : K} {y0 yp0 : V}
    {J0 : V →ₗ[K] V} (hn : IsNew v0 t0 y0 yp0 J0) {fuel : ℕ} (ht : c.tb ≠ some v0.st.t)
    (h : eStep c fuel v0 = some (.ok, v')) : ∃ x e, IsEstimate c v'.st (v'.st.t - v0.st.t) e ∧
      c.errNorm v0.st.y v'.st.y e = .num x ∧
      (Clean c v0 v' → c.tinyErr ≤ x → v'.st.stdSc = true ∧
        v'.st.hAbs = |v'.st.t - v0.st.t| * min (c.safety * c.pw x c.errExp) 10) := by
  obtain ⟨hh, x, l⟩ := C78_step_law hc hlin hn .refl ht h
  obtain ⟨e, i1, i2⟩ := l.est
  have hd : v'.st.t - v0.st.t = hh := by rw [l.time]; ring
  obtain ⟨h0, Ks0, nfev, njev, hp, rfl⟩ := hn.new
  rw [hd]
  refine ⟨x, e, i1, i2, fun hcl hxt => ?_⟩
  have hst : (eReassess c (newESolver t0 y0 yp0 J0 h0 Ks0 nfev njev).st.t
      (newESolver t0 y0 yp0 J0 h0 Ks0 nfev njev).st.hAbs
      (newESolver t0 y0 yp0 J0 h0 Ks0 nfev njev).st.stdSc).2.2 = true := by
    show (if _ then true else true) = true
    split <;> rfl
  obtain ⟨q1, q2⟩ := l.standard hcl hxt hst
  have hm : (newESolver t0 y0 yp0 J0 h0 Ks0 nfev njev).st.maxFactor = (10 : K) := rfl
  rw [hm] at q1 q2
  refine ⟨?_, q2⟩
  by_contra hcon
  have := q1.mp (by simpa using hcon)
  norm_num at this

/-- **C78.** Two successive undisturbed steps of lengths `h1`, `h2` with error norms `x1`, `x2` (not tiny), in the regular
regime (the growth limit is 4 and the step was not changed by `max_step` or the minimal step): the proposed step is
`|h2|` times `clip(safety * x2^b1 * x1^b2 * (h2/h1)^a)`. -/
theorem C78_second_order (hc : ECfgOK c) (hlin : LinSolves c) {v0 v v1 v2 : ESolver K V} {t0 : K} {y0 yp0 : V}
    {J0 : V →ₗ[K] V} (hn : IsNew v0 t0 y0 yp0 J0) (hr : EReach c v0 v) {fu1 fu2 : ℕ}
    (ht : c.tb ≠ some v.st.t) (h1 : eStep c fu1 v = some (.ok, v1)) (ht1 : c.tb ≠ some v1.st.t)
    (h2 : eStep c fu2 v1 = some (.ok, v2)) (hm : v.st.maxFactor = 4) (hcl1 : Clean c v v1) (hcl2 : Clean c v1 v2)
    (hu : eClips c v1.st.t v1.st.hAbs = false) :
    ∃ x1 x2 e1 e2, IsEstimate c v1.st (v1.st.t - v.st.t) e1 ∧ c.errNorm v.st.y v1.st.y e1 = .num x1 ∧
      IsEstimate c v2.st (v2.st.t - v1.st.t) e2 ∧ c.errNorm v1.st.y v2.st.y e2 = .num x2 ∧
      (c.tinyErr ≤ x1 → c.tinyErr ≤ x2 →
        v2.st.hAbs = |v2.st.t - v1.st.t| * max c.minFactor (min (c.safetySc * (c.pw x2 c.minbeta1
          * c.pw x1 c.minbeta2 * c.pw ((v2.st.t - v1.st.t) / (v1.st.t - v.st.t)) c.minalpha)) 4)) := by
  obtain ⟨l1, x1, L1⟩ := C78_step_law hc hlin hn hr ht h1
  obtain ⟨l2, x2, L2⟩ := C78_step_law hc hlin hn (hr.tail h1 (fun h => by cases h)) ht1 h2
  obtain ⟨e1, i1, i2⟩ := L1.est
  obtain ⟨e2, j1, j2⟩ := L2.est
  have d1 : v1.st.t - v.st.t = l1 := by rw [L1.time]; ring
  have d2 : v2.st.t - v1.st.t = l2 := by rw [L2.time]; ring
  rw [d1, d2]
  refine ⟨x1, x2, e1, e2, i1, i2, j1, j2, fun q1 q2 => ?_⟩
  have hs1 : v1.st.stdSc = false := by
    by_cases hst : (eReassess c v.st.t v.st.hAbs v.st.stdSc).2.2 = true
    · exact ((L1.standard hcl1 q1 hst).1).mpr hm
    · exact (L1.second hcl1 q1 (by simpa using hst)).1
  have hm1 : v1.st.maxFactor = 4 := by
    rcases L1.maxF with h | ⟨h, _⟩
    · exact h
    · rw [h, hm]
  have hst2 : (eReassess c v1.st.t v1.st.hAbs v1.st.stdSc).2.2 = false := by
    show (if eClips c v1.st.t v1.st.hAbs = true then true else v1.st.stdSc) = false
    rw [hu]; exact hs1
  obtain ⟨-, hp, eo, p1, p2, p3⟩ := L2.second hcl2 q2 hst2
  rw [L1.hPrev] at p1
  rw [L1.errOld] at p2
  cases p1; cases p2
  rw [p3, hm1]

/-! ## C79: work -/

/-- The number of updates of an iteration whose norms enter the rate: all of them, without a last one which is not
finite or negligible. -/
def assessed (c : ECfg K V) (i : StageIn K V) (z0 : V) (n : ℕ) (dz : ℕ → K) : ℕ :=
  if (newtonIter c i z0 n).isSome ∧ c.tinyErr < dz (n - 1) then n else n - 1

/-- The norm of the `k`-th update of the iteration (`k = 0` is the first). -/
def updNorm (c : ECfg K V) (i : StageIn K V) (z0 : V) (k : ℕ) : K :=
  match newtonIter c i z0 k with
  | none => 0
  | some z =>
    match c.fn i.t (i.psi + c.T.d • z) with
    | none => 0
    | some f => c.dzNorm i.y (i.psi + c.T.d • z) (c.lin i.sc i.F (i.h • f - c.M z))

/-- `r` is the convergence rate observed in the updates `dz 0, ..., dz (n-1)`: the largest ratio of two successive
norms, where ratios after the second update only count as long as the norms exceed `kappa`. -/
def IsRate (kappa : K) (dz : ℕ → K) (n : ℕ) (r : Option K) : Prop :=
  (n ≤ 1 → r = none) ∧
  (2 ≤ n → ∃ q, r = some q ∧
    IsGreatest {x | ∃ k, 1 ≤ k ∧ k < n ∧ (k = 1 ∨ kappa < dz (k - 1)) ∧ x = dz k / dz (k - 1)} q)

theorem IsRate.zero {kappa : K} {dz : ℕ → K} {n : ℕ} (h : n ≤ 1) : IsRate kappa dz n none :=
  ⟨fun _ => rfl, fun h2 => by omega⟩

theorem IsRate.step {kappa : K} {dz : ℕ → K} (hdz : ∀ k, 0 ≤ dz k) {n : ℕ} {r : Option K} (hk : 1 ≤ n)
    (hT : c.T.kappa = kappa) (h : IsRate kappa dz n r) :
    IsRate kappa dz (n + 1) (some (newRate c r (dz (n - 1)) (dz n))) := by
  refine ⟨fun h2 => by omega, fun _ => ⟨_, rfl, ?_⟩⟩
  rcases Nat.lt_or_ge n 2 with h2 | h2
  · have hn : n = 1 := by omega
    subst hn
    rw [h.1 le_rfl]
    refine ⟨⟨1, le_rfl, by omega, Or.inl rfl, rfl⟩, ?_⟩
    rintro x ⟨k, k1, k2, -, rfl⟩
    have : k = 1 := by omega
    subst this
    exact le_refl _
  · obtain ⟨q, rfl, ⟨⟨k, k1, k2, k3, k4⟩, hub⟩⟩ := h.2 h2
    have hq : 0 ≤ q := by rw [k4]; exact div_nonneg (hdz _) (hdz _)
    unfold newRate
    dsimp only
    by_cases hc2 : kappa < dz (n - 1)
    · rw [if_pos (Or.inr (by rw [hT]; exact hc2))]
      constructor
      · rcases max_choice q (dz n / dz (n - 1)) with e | e
        · exact ⟨k, k1, by omega, k3, by rw [e, k4]⟩
        · exact ⟨n, by omega, by omega, Or.inr hc2, by rw [e]⟩
      · rintro x ⟨m, m1, m2, m3, rfl⟩
        rcases Nat.lt_or_ge m n with hm | hm
        · exact le_max_of_le_left (hub ⟨m, m1, hm, m3, rfl⟩)
        · have : m = n := by omega
          subst this
          exact le_max_right _ _
    · rw [if_neg (by rw [hT]; push Not; exact ⟨hq, not_lt.mp hc2⟩)]
      refine ⟨⟨k, k1, by omega, k3, k4⟩, ?_⟩
      rintro x ⟨m, m1, m2, m3, rfl⟩
      rcases Nat.lt_or_ge m n with hm | hm
      · exact hub ⟨m, m1, hm, m3, rfl⟩
      · have : m = n := by omega
        subst this
        rcases m3 with h1 | h1
        · omega
        · exact absurd h1 hc2

theorem newton_rate (hlin : c.linear = false) (hnn : ∀ y p u, 0 ≤ c.dzNorm y p u) {i : StageIn K V} {z0 : V} :
    ∀ {n k : ℕ} {z : V} {dz : K} {r : Option K} {o : NewtonOut K V}, newton c i n k z dz r = some o →
    newtonIter c i z0 k = some z → (1 ≤ k → dz = updNorm c i z0 (k - 1) ∧ c.tinyErr < dz) →
    IsRate c.T.kappa (updNorm c i z0) k r →
    IsRate c.T.kappa (updNorm c i z0) (assessed c i z0 o.evals (updNorm c i z0)) o.rate ∧
      o.niter = o.evals
  | 0, k, z, dz, r, o, h, hz, hdz, hR => by
    cases h
    refine ⟨?_, rfl⟩
    rcases Nat.eq_zero_or_pos k with h0 | h0
    · subst h0
      have : r = none := hR.1 (by omega)
      rw [this]
      refine IsRate.zero ?_
      show assessed c i z0 0 _ ≤ 1
      unfold assessed
      split <;> omega
    · obtain ⟨d1, d2⟩ := hdz h0
      show IsRate _ _ (assessed c i z0 k _) r
      unfold assessed
      rw [if_pos ⟨by rw [hz]; rfl, by rw [← d1]; exact d2⟩]
      exact hR
  | n + 1, k, z, dz, r, o, h, hz, hdz, hR => by
    unfold newton at h
    dsimp only at h
    have hpos : ∀ k, 0 ≤ updNorm c i z0 k := by
      intro k; unfold updNorm
      split
      · exact le_refl _
      · split
        · exact le_refl _
        · exact hnn _ _ _
    cases hf : c.fn i.t (i.psi + c.T.d • z) with
    | none =>
      rw [hf] at h
      cases h
      refine ⟨?_, rfl⟩
      have hz' : newtonIter c i z0 (k + 1) = none := by
        unfold newtonIter; rw [hz]; dsimp only; rw [hf]
      show IsRate _ _ (assessed c i z0 (k + 1) _) r
      unfold assessed
      rw [if_neg (by rw [hz']; simp)]
      exact hR
    | some f =>
      rw [hf] at h
      dsimp only at h
      rw [if_neg (by rw [hlin]; simp)] at h
      have hz' : newtonIter c i z0 (k + 1) = some (z + c.lin i.sc i.F (i.h • f - c.M z)) := by
        unfold newtonIter; rw [hz]; dsimp only; rw [hf]
      have hu : updNorm c i z0 k = c.dzNorm i.y (i.psi + c.T.d • z) (c.lin i.sc i.F (i.h • f - c.M z)) := by
        unfold updNorm; rw [hz]; dsimp only; rw [hf]
      rw [← hu] at h
      by_cases h1 : updNorm c i z0 k ≤ c.tinyErr
      · rw [if_pos h1] at h
        cases h
        refine ⟨?_, rfl⟩
        show IsRate _ _ (assessed c i z0 (k + 1) _) r
        unfold assessed
        rw [if_neg (by rw [Nat.add_sub_cancel]; exact fun hc => absurd h1 (not_le.mpr hc.2))]
        exact hR
      · rw [if_neg h1] at h
        have h1' := not_le.mp h1
        have hnext : 1 ≤ k + 1 → updNorm c i z0 k = updNorm c i z0 (k + 1 - 1) ∧ c.tinyErr < updNorm c i z0 k :=
          fun _ => ⟨by rw [Nat.add_sub_cancel], h1'⟩
        by_cases h2 : k = 0
        · rw [if_pos h2] at h
          refine newton_rate hlin hnn h hz' hnext ?_
          subst h2
          rw [hR.1 (by omega)]
          exact IsRate.zero le_rfl
        · rw [if_neg h2] at h
          have hR' := hR.step (c := c) hpos (by omega) rfl
          rw [← (hdz (by omega)).1] at hR'
          have hass : assessed c i z0 (k + 1) (updNorm c i z0) = k + 1 := by
            unfold assessed
            rw [if_pos ⟨by rw [hz']; rfl, by rw [Nat.add_sub_cancel]; exact h1'⟩]
          split at h
          · cases h
            refine ⟨?_, rfl⟩
            show IsRate _ _ (assessed c i z0 (k + 1) _) _
            rw [hass]; exact hR'
          · split at h
            · cases h
              refine ⟨?_, rfl⟩
              show IsRate _ _ (assessed c i z0 (k + 1) _) _
              rw [hass]; exact hR'
            · exact newton_rate hlin hnn h hz' hnext hR'

/-- **C39.** The rate with which the convergence of a stage is judged is the largest observed ratio of the norms of
two successive updates (where later ratios only count as long as the norms exceed `kappa`, and a last update which is
not finite or negligible does not count). -/
theorem C39_rate (hlin : c.linear = false) (hnn : ∀ y p u, 0 ≤ c.dzNorm y p u) {i : StageIn K V} {z0 : V}
    {o : NewtonOut K V} (h : solveStage c i z0 = some o) :
    IsRate c.T.kappa (updNorm c i z0) (assessed c i z0 o.evals (updNorm c i z0)) o.rate ∧ o.niter = o.evals :=
  newton_rate hlin hnn h rfl (fun h => by omega) (IsRate.zero (by omega))

end
end Extensisq
