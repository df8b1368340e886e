import Verif.Props.Cheb

/-!
# Work counters and step size control of SSV2stab: C80, C81
-/

set_option linter.unusedSectionVars false

namespace Extensisq

section
variable {K V : Type*} [Field K] [LinearOrder K] [IsStrictOrderedRing K] [FloorSemiring K]
  [AddCommGroup V] [Module K V]
variable {c : ChebCfg K V}

/-! ### Specification -/

/-- The outcomes that are not exceptions of the model. -/
def ChebOut.regular : ChebOut → Prop
  | .ok | .rhoFailed | .overflow | .tooSmall => True
  | _ => False

/-- The eigenvector approximation after the calls `l` of the power method (latest first). -/
def vecAfter (c : ChebCfg K V) : List (K × V × V × Option V) → Option V
  | [] => none
  | r :: _ => (c.rho r.1 r.2.1 r.2.2.1 r.2.2.2).vec

/-- The calls of the power method (latest first): each is made in a point with its derivative, started from the
vector which the previous call has left. -/
def RhoCalls (c : ChebCfg K V) : List (K × V × V × Option V) → Prop
  | [] => True
  | r :: l => r.2.2.1 = c.rhs r.1 r.2.1 ∧ r.2.2.2 = vecAfter c l ∧ RhoCalls c l

/-- The counters agree with the calls that were made. -/
structure ChebWorkOK (c : ChebCfg K V) (first : Option K) (s : ChebSt K V) : Prop where
  nfev : s.nfev = 1 + (if first = none ∧ s.calls ≠ [] then 1 else 0) + (s.calls.map (·.m)).sum
  maxm : s.maxm = (s.calls.map (·.m)).foldr max 0
  nfesig : s.nfesig = (s.rhos.map fun r => (c.rho r.1 r.2.1 r.2.2.1 r.2.2.2).evals).sum
  rhos : RhoCalls c s.rhos
  user : c.rhoJac.isSome → s.rhos = []
  vec : s.vec = vecAfter c s.rhos

/-- The additional condition while the solver is running. -/
structure ChebWorkRun (c : ChebCfg K V) (first : Option K) (s : ChebSt K V) : Prop extends ChebWorkOK c first s where
  start : s.absh = none ↔ first = none ∧ s.calls = []
  deriv : s.fn = c.rhs s.t s.yn

/-- The call `q` of the stage routine is the attempt for a proposed step of size `a` at time `t`: the end of the
interval is reached if it is less than 10 percent further away, the number of stages is that of `sommeijer.py:192`,
and the step is shortened if more than `mmax` stages were needed. -/
def MadeFrom (c : ChebCfg K V) (t a : K) (q : StageCall K V) : Prop :=
  ∃ a1, ((a1 = a ∧ ∀ b, c.tb = some b → 11 / 10 * a < |b - t|) ∨
      ∃ b, c.tb = some b ∧ |b - t| ≤ 11 / 10 * a ∧ a1 = |b - t|) ∧
    ((chebM a1 q.sprad ≤ c.mmax ∧ q.m = chebM a1 q.sprad ∧ q.h = c.dir * a1) ∨
     (c.mmax < chebM a1 q.sprad ∧ q.m = c.mmax ∧ q.h = c.dir * (((c.mmax : K) ^ 2 - 1) / (77 / 50 * q.sprad))))

/-- The size proposed first in a step: that of the previous step or `first_step`, or else `_init_step_size`. -/
def proposal (c : ChebCfg K V) (s : ChebSt K V) (q : StageCall K V) : K :=
  match s.absh with
  | some a => a
  | none => chebInit c s.t s.yn s.fn q.sprad

/-- The calls of the stage routine in one step from `s` (in order): the first one, for a step of size `a q`, and each
following one for the size determined by the error norm of the one before, which was not below 1; this size is at
least the minimal step of that attempt. -/
def Attempts (c : ChebCfg K V) (s : ChebSt K V) : (StageCall K V → K) → List (StageCall K V) → Prop
  | _, [] => True
  | a, q :: l => MadeFrom c s.t (a q) q ∧ (l ≠ [] → ∃ x, attemptErr c s q.h q.m = .num x ∧ (1 ≤ x ∧ chebHmin c s.t |q.h| q.m ≤ 4 / 5 * |q.h| / c.pw x (1 / 3)) ∧
      Attempts c s (fun _ => 4 / 5 * |q.h| / c.pw x (1 / 3)) l)

/-- The factor of the step size controller after a step of size `h` with error norm `x`, following a step of size
`hp` with error norm `xp` (`sommeijer.py:257-262`). -/
def h220 (c : ChebCfg K V) (h x hp xp : K) : K :=
  if 4 / 5 * |h| * c.pw xp (1 / 3) < 10 * (|hp| * c.pw x (2 / 3)) then
    4 / 5 * |h| * c.pw xp (1 / 3) / (|hp| * c.pw x (2 / 3)) else 10

/-- The factor after the first step (`sommeijer.py:253-256`). -/
def h110 (c : ChebCfg K V) (x : K) : K :=
  if 4 / 5 < 10 * c.pw x (1 / 3) then 4 / 5 / c.pw x (1 / 3) else 10

/-! ### One attempt -/

/-- The effect of an attempt on the counters. -/
structure Attempted (s s' : ChebSt K V) (q : StageCall K V) : Prop where
  calls : s'.calls = q :: s.calls
  maxm : s'.maxm = max q.m s.maxm
  nfev : s'.nfev = s.nfev + q.m
  nfesig : s'.nfesig = s.nfesig
  rhos : s'.rhos = s.rhos
  vec : s'.vec = s.vec

/-- Outcome of an attempt. -/
def AttemptLaw (c : ChebCfg K V) (s : ChebSt K V) (q : StageCall K V) : ChebIter K V → Prop
  | .retry s' a => Attempted s s' q ∧ s'.absh = some a ∧ s'.t = s.t ∧ s'.yn = s.yn ∧ s'.fn = s.fn ∧
      s'.hold = s.hold ∧ s'.errold = s.errold ∧
      ∃ x, attemptErr c s q.h q.m = .num x ∧ (1 ≤ x ∧ chebHmin c s.t |q.h| q.m ≤ 4 / 5 * |q.h| / c.pw x (1 / 3)) ∧ a = 4 / 5 * |q.h| / c.pw x (1 / 3)
  | .done .ok s' => Attempted s s' q ∧ s'.fn = c.rhs s'.t s'.yn ∧ s'.t = s.t + q.h ∧
      ∃ x f, attemptErr c s q.h q.m = .num x ∧ chebFac c s |q.h| x = some f ∧ s'.hold = some q.h ∧ s'.errold = some x ∧
        s'.absh = some (max (chebHmin c s.t |q.h| q.m) (min c.maxStep (max (1 / 10) f * |q.h|)))
  | .done o s' => o.regular → Attempted s s' q

theorem chebAttempt_law (hc : ChebOK c) (s : ChebSt K V) {a sp : K} (ha : 0 < a) (m : ℕ) :
    ∃ q, q.h = c.dir * a ∧ q.m = m ∧ q.sprad = sp ∧ AttemptLaw c s q (chebAttempt c s a sp m) := by
  have habs := cheb_abs_dir hc ha
  refine ⟨⟨s.t, s.yn, c.dir * a, m, sp, chebHmin c s.t a m, (s.est.map (·.1)).getD s.t, (s.est.map (·.2)).getD s.yn,
              s.age⟩, rfl, rfl, rfl, ?_⟩
  unfold chebAttempt
  dsimp only
  cases he : c.errNorm ((4 / 5 : K) • (s.yn - c.stg s.t s.yn s.fn (c.dir * a) m) + (2 / 5 * (c.dir * a)) •
      (s.fn + c.rhs (s.t + c.dir * a) (c.stg s.t s.yn s.fn (c.dir * a) m)))
      (c.stg s.t s.yn s.fn (c.dir * a) m) s.yn with
  | num x =>
    dsimp only
    split_ifs with h1 h2
    · cases hf : chebFac c s a x with
      | none => exact fun h => absurd h id
      | some f =>
        refine ⟨⟨rfl, rfl, rfl, rfl, rfl, rfl⟩, rfl, rfl, x, f, he, ?_, rfl, rfl, ?_⟩
        · rw [habs]; exact hf
        · rw [habs]; rfl
    · exact fun _ => ⟨rfl, rfl, rfl, rfl, rfl, rfl⟩
    · refine ⟨⟨rfl, rfl, rfl, rfl, rfl, rfl⟩, rfl, rfl, rfl, rfl, rfl, rfl, x, he, ⟨not_lt.mp h1, ?_⟩, ?_⟩
      · rw [habs]; exact not_lt.mp h2
      · rw [habs]
  | inf => exact fun _ => ⟨rfl, rfl, rfl, rfl, rfl, rfl⟩
  | nan => exact fun _ => ⟨rfl, rfl, rfl, rfl, rfl, rfl⟩

theorem AttemptLaw.congr {s : ChebSt K V} {q : StageCall K V} {ml w : ℕ} {r : ChebIter K V}
    (h : AttemptLaw c { s with mlim := ml, warned := w } q r) : AttemptLaw c s q r := by
  have conv : ∀ {s' : ChebSt K V}, Attempted { s with mlim := ml, warned := w } s' q → Attempted s s' q :=
    fun h => ⟨h.calls, h.maxm, h.nfev, h.nfesig, h.rhos, h.vec⟩
  cases r with
  | retry s' a => exact ⟨conv h.1, h.2⟩
  | done o s' =>
    cases o
    case ok => exact ⟨conv h.1, h.2⟩
    all_goals exact fun ho => conv (h ho)

theorem chebTry_law (hc : ChebOK c) {s : ChebSt K V} {a sp : K} (ha : 0 < a) (hsp : 0 ≤ sp) (hb : Before c s.t) :
    ∃ q, MadeFrom c s.t a q ∧ q.sprad = sp ∧ AttemptLaw c s q (chebTry c s a sp) := by
  obtain ⟨f1, -, -⟩ := chebFit_spec hc ha hb
  obtain ⟨-, -, g3, -, -⟩ := chebChoose_spec hc.mmax f1 hsp
  unfold chebTry
  dsimp only
  rw [if_neg (by have : 0 ≤ 77 / 50 * chebFit c.tb s.t a * sp := by positivity
                 linarith)]
  obtain ⟨q, q1, q2, q3, hq⟩ := chebAttempt_law hc { s with
      mlim := if decide (c.mmax < chebM (chebFit c.tb s.t a) sp) then s.mlim + 1 else 0,
      warned := s.warned + if decide (c.mmax < chebM (chebFit c.tb s.t a) sp) &&
        decide ((if decide (c.mmax < chebM (chebFit c.tb s.t a) sp) then s.mlim + 1 else 0) = 15) then 1 else 0 }
      (sp := sp) g3 (chebChoose c.mmax (chebFit c.tb s.t a) sp).2
  refine ⟨q, ⟨chebFit c.tb s.t a, ?_, ?_⟩, q3, hq.congr⟩
  · unfold chebFit
    cases htb : c.tb with
    | none => left; exact ⟨rfl, fun b hb => by cases hb⟩
    | some b =>
      dsimp only
      split_ifs with h
      · right; exact ⟨b, rfl, h, rfl⟩
      · left; refine ⟨rfl, fun b' hb' => ?_⟩; cases hb'; exact not_le.mp h
  · rw [q1, q2, q3]
    unfold chebChoose
    split_ifs with h
    · right; exact ⟨h, rfl, rfl⟩
    · left; exact ⟨not_lt.mp h, rfl, rfl⟩

/-- Effect of the spectral radius estimation on the counters. -/
theorem chebSpectral_work {first : Option K} {s s1 : ChebSt K V}
    (hw : ChebWorkRun c first s) (h : chebSpectral c s = some s1) : ChebWorkRun c first s1 := by
  unfold chebSpectral at h
  split_ifs at h with hn
  · split at h
    · cases h
      exact ⟨⟨hw.nfev, hw.maxm, hw.nfesig, hw.rhos, hw.user, hw.vec⟩, hw.start, hw.deriv⟩
    · rename_i hr
      split at h
      · cases h
      · cases h
        refine ⟨⟨hw.nfev, hw.maxm, ?_, ⟨hw.deriv, hw.vec, hw.rhos⟩, (fun h => by rw [hr] at h; cases h), rfl⟩,
          hw.start, hw.deriv⟩
        show _ + _ = _
        rw [hw.nfesig, List.map_cons, List.sum_cons, add_comm]
  · cases h; exact hw

theorem chebRhoFailed_work {first : Option K} {s : ChebSt K V} (hw : ChebWorkRun c first s)
    (h : chebSpectral c s = none) : ChebWorkOK c first (chebRhoFailed c s) := by
  have hr : c.rhoJac = none := by
    unfold chebSpectral at h
    split_ifs at h
    split at h
    · cases h
    · assumption
  refine ⟨hw.nfev, hw.maxm, ?_, ⟨hw.deriv, hw.vec, hw.rhos⟩, (fun h => by rw [hr] at h; cases h), rfl⟩
  show _ + _ = _
  rw [hw.nfesig]
  show _ = (List.map _ (_ :: _)).sum
  rw [List.map_cons, List.sum_cons, add_comm]

theorem Attempted.work {first : Option K} {s s' : ChebSt K V} {q : StageCall K V} (h : Attempted s s' q)
    (hw : ChebWorkOK c first s)
    (hn : s.nfev = 1 + (if first = none then 1 else 0) + (s.calls.map (·.m)).sum) : ChebWorkOK c first s' := by
  refine ⟨?_, ?_, ?_, ?_, ?_, ?_⟩
  · rw [h.nfev, h.calls, hn]
    have : (q :: s.calls ≠ []) = True := eq_true (by simp)
    simp only [this, and_true, List.map_cons, List.sum_cons]
    omega
  · rw [h.maxm, h.calls, hw.maxm]; rfl
  · rw [h.nfesig, h.rhos]; exact hw.nfesig
  · rw [h.rhos]; exact hw.rhos
  · rw [h.rhos]; exact hw.user
  · rw [h.vec, h.rhos]; exact hw.vec

/-- What a pass does to the counters, and which attempt is made. -/
def IterLaw (c : ChebCfg K V) (first : Option K) (s : ChebSt K V) (q : StageCall K V) : ChebIter K V → Prop
  | .retry s' a => ChebWorkRun c first s' ∧ s'.calls = q :: s.calls ∧ s'.absh = some a ∧ s'.t = s.t ∧ s'.yn = s.yn ∧
      s'.fn = s.fn ∧ s'.hold = s.hold ∧ s'.errold = s.errold ∧
      ∃ x, attemptErr c s q.h q.m = .num x ∧ (1 ≤ x ∧ chebHmin c s.t |q.h| q.m ≤ 4 / 5 * |q.h| / c.pw x (1 / 3)) ∧ a = 4 / 5 * |q.h| / c.pw x (1 / 3)
  | .done .ok s' => ChebWorkRun c first s' ∧ s'.calls = q :: s.calls ∧ s'.t = s.t + q.h ∧
      ∃ x f, attemptErr c s q.h q.m = .num x ∧ chebFac c s |q.h| x = some f ∧ s'.hold = some q.h ∧ s'.errold = some x ∧
        s'.absh = some (max (chebHmin c s.t |q.h| q.m) (min c.maxStep (max (1 / 10) f * |q.h|)))
  | .done o s' => o.regular → ChebWorkOK c first s' ∧ s'.calls = q :: s.calls

theorem chebFac_congr {s s1 : ChebSt K V} (h1 : s1.hold = s.hold) (h2 : s1.errold = s.errold) (a x : K) :
    chebFac c s1 a x = chebFac c s a x := by unfold chebFac; rw [h1, h2]

theorem IterLaw.of {first : Option K} {s s1 : ChebSt K V} {q : StageCall K V} {r : ChebIter K V}
    (hf : ChebFrame s s1) (hw : ChebWorkOK c first s1) (hd : s1.fn = c.rhs s1.t s1.yn)
    (hn : s1.nfev = 1 + (if first = none then 1 else 0) + (s1.calls.map (·.m)).sum)
    (h : AttemptLaw c s1 q r) : IterLaw c first s q r := by
  have e : ∀ x m, attemptErr c s1 x m = attemptErr c s x m := fun x m => attemptErr_congr hf x m
  cases r with
  | retry s' a =>
    obtain ⟨h0, h1, h2, h3, h4, h5, h6, x, h7, h8, h9⟩ := h
    refine ⟨⟨h0.work hw hn, ?_, ?_⟩, by rw [h0.calls, hf.calls], h1, h2.trans hf.t, h3.trans hf.yn, h4.trans hf.fn,
      h5.trans hf.hold, h6.trans hf.errold, x, by rw [← e]; exact h7, hf.t ▸ h8, h9⟩
    · rw [h1, h0.calls]; simp
    · rw [h4, h2, h3]; exact hd
  | done o s' =>
    cases o
    case ok =>
      obtain ⟨h0, h1, h2, x, f, h3, h4, h5, h6, h7⟩ := h
      refine ⟨⟨h0.work hw hn, ?_, h1⟩, by rw [h0.calls, hf.calls], by rw [h2, hf.t], x, f, by rw [← e]; exact h3,
        by rw [← chebFac_congr hf.hold hf.errold]; exact h4, h5, h6, by rw [h7, hf.t]⟩
      rw [h7, h0.calls]; simp
    all_goals
      intro ho
      have h0 := h ho
      exact ⟨h0.work hw hn, by rw [h0.calls, hf.calls]⟩

theorem chebIter_law (hc : ChebOK c) {first : Option K} {s : ChebSt K V} (hi : ChebInv c first s)
    (hb : Before c s.t) (hw : ChebWorkRun c first s) :
    (chebIter c s s.absh = .done .rhoFailed (chebRhoFailed c s) ∧ ChebWorkOK c first (chebRhoFailed c s)) ∨
    ∃ q, MadeFrom c s.t (proposal c s q) q ∧ IterLaw c first s q (chebIter c s s.absh) := by
  unfold chebIter
  cases hsp : chebSpectral c s with
  | none => left; exact ⟨rfl, chebRhoFailed_work hw hsp⟩
  | some s1 =>
    right
    obtain ⟨sp, hm, hf, -, -, -⟩ := chebSpectral_spec hc hi hsp
    have hw1 := chebSpectral_work hw hsp
    have hb1 : Before c s1.t := by rw [hf.t]; exact hb
    dsimp only
    split
    · rename_i hx; rw [hm.sprad] at hx; cases hx
    rename_i x hx
    obtain rfl : sp = x := by rw [hm.sprad] at hx; exact Option.some.inj hx
    cases ha : s.absh with
    | some a =>
      dsimp only
      obtain ⟨q, q1, -, q3⟩ := chebTry_law hc (s := s1) (hi.absh a ha) hm.nonneg hb1
      refine ⟨q, ?_, IterLaw.of hf hw1.toChebWorkOK hw1.deriv ?_ q3⟩
      · unfold proposal; rw [ha]; rw [← hf.t]; exact q1
      · have h := hw1.start
        rw [hf.absh, ha] at h
        rw [hw1.nfev]
        by_cases h1 : first = none
        · have : s1.calls ≠ [] := fun h2 => by cases h.mpr ⟨h1, h2⟩
          simp [h1, this]
        · simp [h1]
    | none =>
      dsimp only
      have h := hw1.start
      rw [hf.absh, ha] at h
      obtain ⟨h1, h2⟩ := h.mp rfl
      have hi0 := (chebInit_spec hc s1.t s1.yn s1.fn sp).1
      obtain ⟨q, q1, q2, q3⟩ := chebTry_law hc (s := { s1 with nfev := s1.nfev + 1 }) hi0 hm.nonneg hb1
      refine ⟨q, ?_, ?_⟩
      · unfold proposal; rw [ha, q2]; dsimp only; rw [← hf.t, ← hf.yn, ← hf.fn]; exact q1
      · have e : s1.nfev = 1 := by rw [hw1.nfev]; simp [h2]
        have hq : AttemptLaw c { s1 with nfev := s1.nfev + 1 } q (chebTry c { s1 with nfev := s1.nfev + 1 }
          (chebInit c s1.t s1.yn s1.fn sp) sp) := q3
        -- compare with the state with the counter increased
        generalize chebTry c { s1 with nfev := s1.nfev + 1 } (chebInit c s1.t s1.yn s1.fn sp) sp = r at hq ⊢
        have hwork : ∀ {s' : ChebSt K V}, Attempted { s1 with nfev := s1.nfev + 1 } s' q → ChebWorkOK c first s' := by
          intro s' h0
          refine ⟨?_, ?_, ?_, ?_, ?_, ?_⟩
          · rw [h0.nfev, h0.calls]
            show s1.nfev + 1 + q.m = _
            rw [e, h2]
            simp [h1]
          · rw [h0.maxm, h0.calls]; show max q.m s1.maxm = _; rw [hw1.maxm]; rfl
          · rw [h0.nfesig, h0.rhos]; exact hw1.nfesig
          · rw [h0.rhos]; exact hw1.rhos
          · rw [h0.rhos]; exact hw1.user
          · rw [h0.vec, h0.rhos]; exact hw1.vec
        cases r with
        | retry s' a =>
          obtain ⟨g0, g1, g2, g3, g4, g5, g6, x, g7, g8, g9⟩ := hq
          have g2 : s'.t = s1.t := g2
          have g3 : s'.yn = s1.yn := g3
          have g4 : s'.fn = s1.fn := g4
          have g8 : 1 ≤ x ∧ chebHmin c s1.t |q.h| q.m ≤ 4 / 5 * |q.h| / c.pw x (1 / 3) := g8
          refine ⟨⟨hwork g0, ?_, ?_⟩, by rw [g0.calls]; show _ :: s1.calls = _; rw [hf.calls], g1, g2.trans hf.t,
            g3.trans hf.yn, g4.trans hf.fn, g5.trans hf.hold, g6.trans hf.errold, x, ?_, hf.t ▸ g8, g9⟩
          · rw [g1, g0.calls]; simp
          · rw [g2, g3, g4]; exact hw1.deriv
          · rw [← attemptErr_congr hf]; exact g7
        | done o s' =>
          cases o
          case ok =>
            obtain ⟨g0, g1, g2, x, f, g3, g4, g5, g6, g7⟩ := hq
            have g2 : s'.t = s1.t + q.h := g2
            have g7 : s'.absh = some (max (chebHmin c s1.t |q.h| q.m) (min c.maxStep (max (1 / 10) f * |q.h|))) := g7
            refine ⟨⟨hwork g0, ?_, g1⟩, by rw [g0.calls]; show _ :: s1.calls = _; rw [hf.calls], by rw [g2, hf.t], x, f,
              by rw [← attemptErr_congr hf]; exact g3,
              by rw [← chebFac_congr hf.hold hf.errold]; exact g4, g5, g6, by rw [g7, hf.t]⟩
            rw [g7, g0.calls]; simp
          all_goals
            intro ho
            have g0 := hq ho
            exact ⟨hwork g0, by rw [g0.calls]; show _ :: s1.calls = _; rw [hf.calls]⟩

/-! ### A step -/

theorem Attempts.congr {s s1 : ChebSt K V} (ht : s1.t = s.t) (hy : s1.yn = s.yn) (hfn : s1.fn = s.fn) :
    ∀ {l : List (StageCall K V)} {a : StageCall K V → K}, Attempts c s1 a l → Attempts c s a l
  | [], _, _ => trivial
  | q :: l, a, h => by
    refine ⟨ht ▸ h.1, fun hl => ?_⟩
    obtain ⟨x, h1, h2, h3⟩ := h.2 hl
    refine ⟨x, ?_, ht ▸ h2, Attempts.congr ht hy hfn h3⟩
    unfold attemptErr at h1 ⊢
    rw [ht, hy, hfn] at h1; exact h1

/-- What is known after the loop of `_step_impl`. -/
structure ChebStepLaw (c : ChebCfg K V) (first : Option K) (s s' : ChebSt K V) (o : ChebOut) : Prop where
  work : ChebWorkOK c first s'
  tries : ∃ l, s'.calls = l.reverse ++ s.calls ∧ Attempts c s (proposal c s) l ∧ (o = .ok → l ≠ [])
  ok : o = .ok → ChebWorkRun c first s' ∧ ∃ q l x f, s'.calls = q :: l ∧ s'.t = s.t + q.h ∧
    attemptErr c s q.h q.m = .num x ∧ chebFac c s |q.h| x = some f ∧ s'.hold = some q.h ∧ s'.errold = some x ∧
    s'.absh = some (max (chebHmin c s.t |q.h| q.m) (min c.maxStep (max (1 / 10) f * |q.h|)))

theorem chebLoop_law (hc : ChebOK c) {first : Option K} : ∀ (n : ℕ) (s : ChebSt K V) {o : ChebOut} {s' : ChebSt K V},
    ChebInv c first s → Before c s.t → ChebWorkRun c first s → chebLoop c n s s.absh = some (o, s') →
    ChebStepLaw c first s s' o
  | 0, _, _, _, _, _, _, h => by simp [chebLoop] at h
  | n + 1, s, o, s', hi, hb, hw, h => by
    have hreg := chebLoop_spec hc (n + 1) s hi hb h
    have hor : o.regular := by
      rcases hreg.2.2 with ⟨rfl, -⟩ | ⟨rfl | rfl | rfl, -⟩ <;> trivial
    have hspec := chebIter_spec hc hi hb
    unfold chebLoop at h
    rcases chebIter_law hc hi hb hw with ⟨e, w⟩ | ⟨q, hq, hit⟩
    · rw [e] at h
      dsimp only at h
      cases h
      exact ⟨w, ⟨[], rfl, trivial, (fun h => by cases h)⟩, (fun h => by cases h)⟩
    · cases hr : chebIter c s s.absh with
      | done o1 s1 =>
        rw [hr] at h hit
        dsimp only at h
        cases h
        cases o
        case ok =>
          obtain ⟨h1, h2, h3, x, f, h4⟩ := hit
          exact ⟨h1.toChebWorkOK, ⟨[q], h2, ⟨hq, fun h => absurd rfl h⟩, by simp⟩, fun _ => ⟨h1, q, _, x, f, h2, h3, h4⟩⟩
        all_goals
          obtain ⟨h1, h2⟩ := hit hor
          exact ⟨h1, ⟨[q], h2, ⟨hq, fun h => absurd rfl h⟩, by simp⟩, (fun h => by cases h)⟩
      | retry s1 a =>
        rw [hr] at h hit
        dsimp only at h
        obtain ⟨h1, h2, h3, h4, h5, h6, h7, h8, x, h9, h10, h11⟩ := hit
        have hi1 : ChebInv c first s1 := by
          rcases hspec with e | ⟨_, _, _, _, _, _, _, _, hp⟩
          · rw [hr] at e; cases e
          · rw [hr] at hp; obtain ⟨_, _, _, hh, _⟩ := hp; exact hh
        rw [← h3] at h
        have ih := chebLoop_law hc n s1 hi1 (by rw [h4]; exact hb) h1 h
        obtain ⟨l, l1, l2, -⟩ := ih.tries
        refine ⟨ih.work, ⟨q :: l, by rw [l1, h2]; simp, ⟨hq, fun _ => ⟨x, h9, h10, ?_⟩⟩, by simp⟩, fun ho => ?_⟩
        · have : proposal c s1 = fun _ => 4 / 5 * |q.h| / c.pw x (1 / 3) := by
            funext r; unfold proposal; rw [h3, h11]
          rw [this] at l2
          exact l2.congr h4 h5 h6
        · obtain ⟨k1, r, l', x', f, k2, k3, k4, k5, k6, k7, k8⟩ := ih.ok ho
          refine ⟨k1, r, l', x', f, k2, by rw [k3, h4], ?_, by rw [← chebFac_congr h7 h8]; exact k5, k6, k7, by
            rw [k8, h4]⟩
          unfold attemptErr at k4 ⊢
          rw [h4, h5, h6] at k4; exact k4

theorem chebStep_law (hc : ChebOK c) {first : Option K} {v v' : ChebSolver K V} (hi : ChebSInv c first v)
    (hw : ChebWorkOK c first v.st) (hwr : v.status = .running → ChebWorkRun c first v.st) {fuel : ℕ} {o : ChebOut}
    (h : chebStep c fuel v = some (o, v')) :
    ChebWorkOK c first v'.st ∧ (v'.status = .running → ChebWorkRun c first v'.st) ∧
    (v.status = .running → c.tb ≠ some v.st.t → ChebStepLaw c first v.st v'.st o) := by
  have hsp := (chebStep_spec hc hi h).2.1
  unfold chebStep at h
  cases hst : v.status with
  | running =>
    rw [hst] at h
    dsimp only at h
    split_ifs at h with htb
    · cases h
      exact ⟨hw, (fun h => by cases h), fun _ h => absurd htb h⟩
    · cases hi0 : chebStepImpl c fuel v.st with
      | none => rw [hi0] at h; cases h
      | some p =>
        obtain ⟨o1, s'⟩ := p
        rw [hi0] at h
        have law := chebLoop_law hc fuel v.st (hi.run hst) (Before.of hc hi htb) (hwr hst) hi0
        have hsp' := chebLoop_spec hc fuel v.st (hi.run hst) (Before.of hc hi htb) hi0
        cases o1
        case ok =>
          dsimp only at h
          cases h
          exact ⟨law.work, fun _ => (law.ok rfl).1, fun _ _ => law⟩
        case rhoFailed => dsimp only at h; cases h; exact ⟨law.work, (fun h => by cases h), fun _ _ => law⟩
        case overflow => dsimp only at h; cases h; exact ⟨law.work, (fun h => by cases h), fun _ _ => law⟩
        case tooSmall => dsimp only at h; cases h; exact ⟨law.work, (fun h => by cases h), fun _ _ => law⟩
        all_goals
          rcases hsp'.2.2 with ⟨e, -⟩ | ⟨e | e | e, -⟩ <;> cases e
  | finished => rw [hst] at h; dsimp only at h; cases h; exact ⟨hw, (fun h => by rw [hst] at h; cases h), (fun h => by cases h)⟩
  | failed => rw [hst] at h; dsimp only at h; cases h; exact ⟨hw, (fun h => by rw [hst] at h; cases h), (fun h => by cases h)⟩

theorem newCheb_work (t0 : K) (y0 : V) (first : Option K) : ChebWorkRun c first (newCheb c t0 y0 first).st where
  nfev := by simp [newCheb]
  maxm := rfl
  nfesig := rfl
  rhos := trivial
  user := fun _ => rfl
  vec := rfl
  start := by simp [newCheb]
  deriv := rfl

theorem ChebReach.work {t0 : K} {y0 : V} {first : Option K} (hs : ChebStart c t0 first) {v : ChebSolver K V}
    (hr : ChebReach c (newCheb c t0 y0 first) v) :
    ChebWorkOK c first v.st ∧ (v.status = .running → ChebWorkRun c first v.st) := by
  induction hr with
  | refl => exact ⟨(newCheb_work t0 y0 first).toChebWorkOK, fun _ => newCheb_work t0 y0 first⟩
  | tail hr h ih =>
    obtain ⟨h1, h2, -⟩ := chebStep_law hs.ok (hr.inv hs) ih.1 ih.2 h
    exact ⟨h1, h2⟩

/-! ## C80 -/

/-- **C80**. After any history of steps, successful or not, the counters of `SSV2stab` are exact: `nfev` is one for
the constructor, one for the initial step size if `first_step` was not given (and a step was attempted), and `m` for
each attempt with `m` stages; `maxm` is the largest number of stages used; `nfesig` the number of evaluations made
by the power method, which is not used if `rho_jac` is given. -/
theorem C80_counters {t0 : K} {y0 : V} {first : Option K} (hs : ChebStart c t0 first) {v : ChebSolver K V}
    (hr : ChebReach c (newCheb c t0 y0 first) v) :
    v.st.nfev = 1 + (if first = none ∧ v.st.calls ≠ [] then 1 else 0) + (v.st.calls.map (·.m)).sum ∧
    v.st.maxm = (v.st.calls.map (·.m)).foldr max 0 ∧
    v.st.nfesig = (v.st.rhos.map fun r => (c.rho r.1 r.2.1 r.2.2.1 r.2.2.2).evals).sum ∧
    (c.rhoJac.isSome → v.st.rhos = [] ∧ v.st.nfesig = 0) := by
  have h := (hr.work hs).1
  refine ⟨h.nfev, h.maxm, h.nfesig, fun hj => ⟨h.user hj, ?_⟩⟩
  rw [h.nfesig, h.user hj]; rfl

/-- **C80**. `maxm` is the number of stages of some attempt and not below that of any. -/
theorem C80_maxm {t0 : K} {y0 : V} {first : Option K} (hs : ChebStart c t0 first) {v : ChebSolver K V}
    (hr : ChebReach c (newCheb c t0 y0 first) v) :
    (∀ q ∈ v.st.calls, q.m ≤ v.st.maxm) ∧ (v.st.calls ≠ [] → ∃ q ∈ v.st.calls, q.m = v.st.maxm) := by
  rw [(hr.work hs).1.maxm]
  generalize v.st.calls = l
  induction l with
  | nil => exact ⟨fun q h => (by cases h), fun h => absurd rfl h⟩
  | cons a l ih =>
    constructor
    · intro q hq
      rcases List.mem_cons.mp hq with rfl | hq
      · exact le_max_left _ _
      · exact (ih.1 q hq).trans (le_max_right _ _)
    · intro _
      show ∃ q ∈ a :: l, q.m = max a.m ((l.map (·.m)).foldr max 0)
      rcases le_total a.m ((l.map (·.m)).foldr max 0) with h | h
      · rw [max_eq_right h]
        by_cases hl : l = []
        · subst hl
          exact ⟨a, List.mem_cons_self, le_antisymm h (Nat.zero_le _)⟩
        · obtain ⟨q, q1, q2⟩ := ih.2 hl
          exact ⟨q, List.mem_cons_of_mem _ q1, q2⟩
      · rw [max_eq_left h]; exact ⟨a, List.mem_cons_self, rfl⟩

/-- **C80**. The power method is called in points of the numerical solution with their derivatives, and each call
continues with the vector found by the previous one. -/
theorem C80_power_method_calls {t0 : K} {y0 : V} {first : Option K} (hs : ChebStart c t0 first) {v : ChebSolver K V}
    (hr : ChebReach c (newCheb c t0 y0 first) v) : RhoCalls c v.st.rhos :=
  (hr.work hs).1.rhos

/-! ## C81 -/

/-- **C81**. Every attempt of a step, successful (then there is at least one) or not: the first attempt is made for the size proposed by the
previous step (or `first_step`, or the initial step size), and each following one for `0.8 |h| / err^(1/3)` with the
size and the error norm of the rejected one. -/
theorem C81_attempts {t0 : K} {y0 : V} {first : Option K} (hs : ChebStart c t0 first) {v v' : ChebSolver K V}
    (hr : ChebReach c (newCheb c t0 y0 first) v) (hrun : v.status = .running) (hne : c.tb ≠ some v.st.t)
    {fuel : ℕ} {o : ChebOut} (h : chebStep c fuel v = some (o, v')) :
    ∃ l, v'.st.calls = l.reverse ++ v.st.calls ∧ Attempts c v.st (proposal c v.st) l ∧ (o = .ok → l ≠ []) :=
  ((chebStep_law hs.ok (hr.inv hs) (hr.work hs).1 (hr.work hs).2 h).2.2 hrun hne).tries

theorem chebStep_running {v v' : ChebSolver K V} {fuel : ℕ} (h : chebStep c fuel v = some (.ok, v')) :
    v.status = .running := by
  unfold chebStep at h
  cases hst : v.status with
  | running => rfl
  | finished => rw [hst] at h; cases h
  | failed => rw [hst] at h; cases h

theorem step_control {t0 : K} {y0 : V} {first : Option K} (hs : ChebStart c t0 first) {v v' : ChebSolver K V}
    (hr : ChebReach c (newCheb c t0 y0 first) v) {fuel : ℕ} (hne : c.tb ≠ some v.st.t)
    (h : chebStep c fuel v = some (.ok, v')) :
    ∃ m x f, attemptErr c v.st (v'.st.t - v.st.t) m = .num x ∧ (∃ q l, v'.st.calls = q :: l ∧ q.m = m) ∧
      chebFac c v.st |v'.st.t - v.st.t| x = some f ∧ v'.st.hold = some (v'.st.t - v.st.t) ∧ v'.st.errold = some x ∧
      v'.st.absh = some (max (chebHmin c v.st.t |v'.st.t - v.st.t| m)
        (min c.maxStep (max (1 / 10) f * |v'.st.t - v.st.t|))) := by
  have law := (chebStep_law hs.ok (hr.inv hs) (hr.work hs).1 (hr.work hs).2 h).2.2 (chebStep_running h) hne
  obtain ⟨-, q, l, x, f, k1, k2, k3, k4, k5, k6, k7⟩ := law.ok rfl
  have e : v'.st.t - v.st.t = q.h := by rw [k2]; ring
  rw [e]
  exact ⟨q.m, x, f, k3, ⟨q, l, k1, rfl⟩, k4, k5, k6, k7⟩

/-- **C81**. The size proposed after the first step: with `x` the error norm of that step, `h` its size and `m` its
number of stages, `0.8 |h| / x^(1/3)` but between a tenth and ten times `|h|`, at most `max_step`, and at least the
minimal step size. -/
theorem C81_first_step {t0 : K} {y0 : V} {first : Option K} (hs : ChebStart c t0 first) {v' : ChebSolver K V}
    {fuel : ℕ} (hne : c.tb ≠ some t0) (h : chebStep c fuel (newCheb c t0 y0 first) = some (.ok, v')) :
    ∃ m x, attemptErr c (newCheb c t0 y0 first).st (v'.st.t - t0) m = .num x ∧
      (∃ q l, v'.st.calls = q :: l ∧ q.m = m) ∧
      v'.st.absh = some (max (chebHmin c t0 |v'.st.t - t0| m)
        (min c.maxStep (max (1 / 10) (h110 c x) * |v'.st.t - t0|))) := by
  obtain ⟨m, x, f, k1, k2, k3, -, -, k6⟩ := step_control hs .refl (v := newCheb c t0 y0 first) hne h
  refine ⟨m, x, k1, k2, ?_⟩
  have : f = h110 c x := (Option.some.inj k3).symm
  rw [← this]; exact k6

/-- **C81**. The size proposed after any later step, following an accepted step: dead-beat control with the sizes and
error norms of the last two accepted steps, whatever was rejected in between. -/
theorem C81_next_step {t0 : K} {y0 : V} {first : Option K} (hs : ChebStart c t0 first) {v v1 v2 : ChebSolver K V}
    (hr : ChebReach c (newCheb c t0 y0 first) v) {fu1 fu2 : ℕ} (hne : c.tb ≠ some v.st.t)
    (h1 : chebStep c fu1 v = some (.ok, v1)) (hne1 : c.tb ≠ some v1.st.t) (h2 : chebStep c fu2 v1 = some (.ok, v2)) :
    ∃ m1 x1 m2 x2, attemptErr c v.st (v1.st.t - v.st.t) m1 = .num x1 ∧
      attemptErr c v1.st (v2.st.t - v1.st.t) m2 = .num x2 ∧
      (∃ q l, v1.st.calls = q :: l ∧ q.m = m1) ∧ (∃ q l, v2.st.calls = q :: l ∧ q.m = m2) ∧
      v2.st.absh = some (max (chebHmin c v1.st.t |v2.st.t - v1.st.t| m2)
        (min c.maxStep (max (1 / 10) (h220 c (v2.st.t - v1.st.t) x2 (v1.st.t - v.st.t) x1) * |v2.st.t - v1.st.t|))) := by
  obtain ⟨m1, x1, f1, k1, k2, -, k4, k5, -⟩ := step_control hs hr hne h1
  obtain ⟨m2, x2, f2, l1, l2, l3, -, -, l6⟩ := step_control hs (.tail hr h1) hne1 h2
  refine ⟨m1, x1, m2, x2, k1, l1, k2, l2, ?_⟩
  unfold chebFac at l3
  rw [k4, k5] at l3
  have : f2 = h220 c (v2.st.t - v1.st.t) x2 (v1.st.t - v.st.t) x1 := (Option.some.inj l3).symm
  rw [← this]; exact l6

/-- **C81**. The controller aims below the tolerance: with exact powers and an error norm `C h^3`, the step proposed
by the dead-beat controller after two steps of sizes `hp` and `h`, if it is not limited, is `0.8` times the step for
which the error norm would be one, whenever both steps had the same error constant. -/
theorem C81_aims_at_tolerance {h hp C : ℝ} (hh : 0 < h) (hhp : 0 < hp) (hC : 0 < C) :
    4 / 5 * h * (C * hp ^ 3) ^ (1 / 3 : ℝ) / (hp * (C * h ^ 3) ^ (2 / 3 : ℝ)) * h = 4 / 5 * C ^ (-(1 / 3) : ℝ) ∧
    C * (C ^ (-(1 / 3) : ℝ)) ^ 3 = 1 ∧
    4 / 5 / (C * h ^ 3) ^ (1 / 3 : ℝ) * h = 4 / 5 * C ^ (-(1 / 3) : ℝ) := by
  have e1 : ∀ x : ℝ, 0 < x → (C * x ^ 3) ^ (1 / 3 : ℝ) = C ^ (1 / 3 : ℝ) * x := fun x hx => by
    rw [Real.mul_rpow hC.le (by positivity), ← Real.rpow_natCast x 3, ← Real.rpow_mul hx.le]; norm_num
  have e2 : (C * h ^ 3) ^ (2 / 3 : ℝ) = C ^ (2 / 3 : ℝ) * h ^ 2 := by
    rw [Real.mul_rpow hC.le (by positivity), ← Real.rpow_natCast h 3, ← Real.rpow_mul hh.le, ← Real.rpow_natCast h 2]
    norm_num
  have p1 : C ^ (1 / 3 : ℝ) ≠ 0 := (Real.rpow_pos_of_pos hC _).ne'
  have e3 : C ^ (2 / 3 : ℝ) = C ^ (1 / 3 : ℝ) * C ^ (1 / 3 : ℝ) := by rw [← Real.rpow_add hC]; norm_num
  have e4 : C ^ (-(1 / 3) : ℝ) = (C ^ (1 / 3 : ℝ))⁻¹ := Real.rpow_neg hC.le _
  have e5 : C = (C ^ (1 / 3 : ℝ)) ^ 3 := by
    rw [← Real.rpow_natCast (C ^ (1 / 3 : ℝ)) 3, ← Real.rpow_mul hC.le]; norm_num
  refine ⟨?_, ?_, ?_⟩
  · rw [e1 hp hhp, e2, e3, e4]; field_simp
  · rw [e4]
    nth_rewrite 1 [e5]
    field_simp
  · rw [e1 h hh, e4]; field_simp

end
end Extensisq
