import Verif.Lemmas.Esdirk

/-! Invariants of ESDIRK solvers and of the loop inside a step (helper lemmas). -/

set_option linter.unusedSectionVars false

namespace Extensisq
open Finset

section
variable {K V : Type*} [Field K] [LinearOrder K] [IsStrictOrderedRing K] [AddCommGroup V] [Module K V]
variable {c : ECfg K V}

/-- Values of a solver at the start of a step that a step reads. -/
structure SInv (c : ECfg K V) (s : ESt K V) : Prop where
  pos : 0 < s.hAbs
  std : s.stdSc = false → ∃ e hp, s.errOld = some e ∧ c.tinyErr ≤ e ∧ s.hPrev = some hp ∧ 0 < hp * c.dir
  rate : s.rate ≠ none → (∃ hp, s.hPrev = some hp ∧ hp ≠ 0) ∧ (∃ hl, s.hLU = some hl ∧ hl ≠ 0)
  fact : ∀ F, s.LU = some F → F.J = s.J ∧ s.hLU = some F.h ∧ F.h ≠ 0 ∧ (c.dae = true → s.sc = some F.h)
  scn : c.dae = false → s.sc = none
  lin : c.jac = none → s.curJ = true ∧ s.rate = none
  mf : s.maxFactor = 4 ∨ s.maxFactor = 10

/-- The solver when the loop is entered, before `_preemptive_lu_and_jac`. -/
def eEntry (c : ECfg K V) (s : ESt K V) : ESt K V :=
  { s with stdSc := (eReassess c s.t s.hAbs s.stdSc).2.2, Ks := Function.update s.Ks 0 s.yp }

/-- The first step size tried. -/
def hFirst (c : ECfg K V) (s : ESt K V) : K := (eReassess c s.t s.hAbs s.stdSc).1

/-- The states of the retry loop visited in a step that starts in `s`. -/
inductive Visits (c : ECfg K V) (s : ESt K V) : LSt K V → Prop
  | first {s2 : ESt K V} : preemptive c (eEntry c s) (hFirst c s) = some s2 →
      Visits c s { s := s2, hAbs := hFirst c s, LU := s2.LU, sc := s2.sc, rej := false }
  | next {l l' : LSt K V} : Visits c s l → eIter c (eMinStep c s.t s.hAbs) l = .again l' → Visits c s l'

theorem eLoop_visits {s : ESt K V} : ∀ {n : ℕ} {l : LSt K V} {o : EOut} {s' : ESt K V}, Visits c s l →
    eLoop c (eMinStep c s.t s.hAbs) n l = some (o, s') →
    ∃ l', Visits c s l' ∧ eIter c (eMinStep c s.t s.hAbs) l' = .done o s'
  | 0, l, o, s', _, h => by cases h
  | n + 1, l, o, s', hP, h => by
    unfold eLoop at h
    split at h
    · rename_i o' s'' hi
      cases h
      exact ⟨l, hP, hi⟩
    · rename_i l1 hi
      exact eLoop_visits (.next hP hi) h

/-- A step that returns: the preemptive update raises, or the last pass of the loop ends it. -/
theorem eStepImpl_visits {fuel : ℕ} {s s' : ESt K V} {o : EOut} (h : eStepImpl c fuel s = some (o, s')) :
    (preemptive c (eEntry c s) (hFirst c s) = none ∧ o = .exc .typeErr ∧ s' = eEntry c s) ∨
    ∃ l, Visits c s l ∧ eIter c (eMinStep c s.t s.hAbs) l = .done o s' := by
  unfold eStepImpl at h
  dsimp only at h
  change (match preemptive c (eEntry c s) (hFirst c s) with
    | none => some (EOut.exc .typeErr, eEntry c s)
    | some s2 => eLoop c (eMinStep c s.t s.hAbs) fuel
        { s := s2, hAbs := hFirst c s, LU := s2.LU, sc := s2.sc, rej := false }) = _ at h
  split at h
  · rename_i hp
    cases h
    exact Or.inl ⟨hp, rfl, rfl⟩
  · rename_i s2 hp
    exact Or.inr (eLoop_visits (.first hp) h)

/-- Invariant of the loop; `s` is the solver at the start of the step. -/
structure LInv (c : ECfg K V) (s : ESt K V) (l : LSt K V) : Prop where
  t : l.s.t = s.t
  y : l.s.y = s.y
  K0 : l.s.Ks 0 = s.yp
  hAbs : l.s.hAbs = s.hAbs
  hPrev : l.s.hPrev = s.hPrev
  errOld : l.s.errOld = s.errOld
  yOld : l.s.yOld = s.yOld
  yp : l.s.yp = s.yp
  pos : 0 < l.hAbs
  le : l.hAbs ≤ hFirst c s
  rejF : l.rej = false → l.hAbs = hFirst c s
  std : l.s.stdSc = false → ∃ e hp, s.errOld = some e ∧ c.tinyErr ≤ e ∧ s.hPrev = some hp ∧ 0 < hp * c.dir
  fact : ∀ F, l.LU = some F → F.J = l.s.J ∧ l.s.hLU = some F.h ∧ F.h ≠ 0 ∧ (c.dae = true → l.sc = some F.h)
  scn : c.dae = false → l.sc = none
  lin : c.jac = none → l.s.curJ = true ∧ l.s.J = s.J ∧ l.s.njev = s.njev
  mf : l.s.maxFactor = 4 ∨ l.s.maxFactor = 10
  mf4 : s.maxFactor = 4 → l.s.maxFactor = 4

theorem hFirst_pos (hc : ECfgOK c) {s : ESt K V} (hi : SInv c s) (ht : c.tb ≠ some s.t) : 0 < hFirst c s :=
  eFit_pos _ (eClip_pos hc _ hi.pos) ht

theorem eEntry_std {s : ESt K V} (h : (eEntry c s).stdSc = false) : s.stdSc = false := by
  unfold eEntry eReassess at h
  dsimp only at h
  split_ifs at h
  exact h

/-- The preemptive update never raises, and what it changes. -/
theorem preemptive_spec (hc : ECfgOK c) {s : ESt K V} (hi : SInv c s) (h : K) :
    ∃ s2 : ESt K V, preemptive c (eEntry c s) h = some s2 ∧
      ∃ J njev curJ LU, s2 = { eEntry c s with J := J, njev := njev, curJ := curJ, LU := LU } ∧
        (LU = none ∨ (LU = s.LU ∧ J = s.J ∧ njev = s.njev ∧ curJ = s.curJ)) ∧
        (c.jac = none → J = s.J ∧ njev = s.njev ∧ curJ = true) ∧
        ((J = s.J ∧ njev = s.njev ∧ curJ = s.curJ) ∨
          (∃ jac, c.jac = some jac ∧ J = jac s.njev s.t s.y ∧ njev = s.njev + 1)) ∧
        (njev ≠ s.njev → c.jacEach = true → curJ = true) := by
  unfold preemptive
  have hJ : (eEntry c s).curJ = s.curJ := rfl
  have hR : (eEntry c s).rate = s.rate := rfl
  have hP : (eEntry c s).hPrev = s.hPrev := rfl
  have hL : (eEntry c s).hLU = s.hLU := rfl
  have same : ∃ J njev curJ LU, eEntry c s = { eEntry c s with J := J, njev := njev, curJ := curJ, LU := LU } ∧
        (LU = none ∨ (LU = s.LU ∧ J = s.J ∧ njev = s.njev ∧ curJ = s.curJ)) ∧
        (c.jac = none → J = s.J ∧ njev = s.njev ∧ curJ = true) ∧
        ((J = s.J ∧ njev = s.njev ∧ curJ = s.curJ) ∨
          (∃ jac, c.jac = some jac ∧ J = jac s.njev s.t s.y ∧ njev = s.njev + 1)) ∧
        (njev ≠ s.njev → c.jacEach = true → curJ = true) :=
    ⟨s.J, s.njev, s.curJ, s.LU, rfl, Or.inr ⟨rfl, rfl, rfl, rfl⟩, fun hj => ⟨rfl, rfl, (hi.lin hj).1⟩,
      Or.inl ⟨rfl, rfl, rfl⟩, fun h => absurd rfl h⟩
  by_cases h1 : c.jacEach = true ∧ (eEntry c s).curJ = false
  · rw [if_pos h1]
    cases hj : c.jac with
    | none => rw [hJ, (hi.lin hj).1] at h1; cases h1.2
    | some jac =>
      exact ⟨_, rfl, _, _, _, _, rfl, Or.inl rfl, (by intro h; cases h), Or.inr ⟨jac, rfl, rfl, rfl⟩,
        fun _ _ => rfl⟩
  · rw [if_neg h1]
    cases hr : s.rate with
    | none => rw [show (eEntry c s).rate = none from hr]; exact ⟨_, rfl, same⟩
    | some r =>
      rw [show (eEntry c s).rate = some r from hr]
      dsimp only
      by_cases h2 : 0 < r
      · obtain ⟨⟨hp, hp1, -⟩, ⟨hl, hl1, -⟩⟩ := hi.rate (by rw [hr]; simp)
        rw [if_pos h2]
        split
        · unfold preemptRate
          dsimp only
          split_ifs with h3 h4
          · cases hj : c.jac with
            | none => have := (hi.lin hj).2; rw [hr] at this; cases this
            | some jac =>
              refine ⟨_, rfl, _, _, s.curJ, _, rfl, Or.inl rfl, (by intro h; cases h),
                Or.inr ⟨jac, rfl, rfl, rfl⟩, fun _ he => ?_⟩
              simpa [he, hJ] using h1
          · exact ⟨_, rfl, s.J, s.njev, s.curJ, none, rfl, Or.inl rfl, fun hj => ⟨rfl, rfl, (hi.lin hj).1⟩,
              Or.inl ⟨rfl, rfl, rfl⟩, fun h => absurd rfl h⟩
          · exact ⟨_, rfl, same⟩
        · rename_i hno
          exact absurd hl1 (hno hp hl hp1)
      · rw [if_neg h2]; exact ⟨_, rfl, same⟩

theorem stages_K0 {c : ECfg K V} {t : K} {y : V} {h : K} {F : Fact K V} {sc : Option K} {cj : Bool}
    {hl : Option K} : ∀ {m s : ℕ} {a b : Stages K V}, 0 < s → stages c t y h F sc cj hl m s a = some b →
      b.Ks 0 = a.Ks 0
  | 0, s, a, b, _, h => by cases h; rfl
  | m + 1, s, a, b, hs, h => by
    unfold stages at h
    dsimp only at h
    split at h
    · cases h
    · split_ifs at h
      · have := stages_K0 (Nat.succ_pos s) h
        rw [this]
        exact Function.update_of_ne (by omega) _ _
      · cases h; rfl

theorem att_K0 {l : LSt K V} {a : Stages K V} (h : attOf c l = some a) : a.Ks 0 = l.s.Ks 0 := by
  have := stages_K0 Nat.one_pos h
  rw [this]
  exact congrFun (factors_Ks _ _ _) 0

/-- In linear mode no rate is ever recorded. -/
theorem newton_rate_lin {i : StageIn K V} (hl : c.jac = none) : ∀ {n k : ℕ} {z : V} {dz : K} {r : Option K}
    {o : NewtonOut K V}, newton c i n k z dz r = some o → o.rate = r
  | 0, k, z, dz, r, o, h => by cases h; rfl
  | n + 1, k, z, dz, r, o, h => by
    unfold newton at h
    dsimp only at h
    have hlin : c.linear = true := by simp [ECfg.linear, hl]
    split at h
    · cases h; rfl
    · rw [if_pos hlin] at h
      split_ifs at h
      cases h; rfl

theorem stages_rate_lin {t : K} {y : V} {h : K} {F : Fact K V} {sc : Option K} {cj : Bool}
    {hl : Option K} (hj : c.jac = none) : ∀ {m s : ℕ} {a b : Stages K V},
      stages c t y h F sc cj hl m s a = some b → b.rate = a.rate
  | 0, s, a, b, h => by cases h; rfl
  | m + 1, s, a, b, h => by
    unfold stages at h
    dsimp only at h
    split at h
    · cases h
    · rename_i o ho
      have hr : o.rate = none := newton_rate_lin hj ho
      have e : rmax a.rate o.rate = a.rate := by rw [hr]; cases a.rate <;> rfl
      split_ifs at h
      · have := stages_rate_lin hj h
        rw [this]; exact e
      · cases h; exact e

theorem att_rate_lin (hj : c.jac = none) {l : LSt K V} {a : Stages K V} (h : attOf c l = some a) :
    a.rate = none := stages_rate_lin hj h

/-- Facts about the factors used in a pass. -/
theorem factors_coherent (hc : ECfgOK c) {s : ESt K V} {l : LSt K V} (hL : LInv c s l) :
    (factOf c l).J = l.s.J ∧ (s1Of c l).hLU = some (factOf c l).h ∧ (factOf c l).h ≠ 0 ∧
      (c.dae = true → scOf c l = some (factOf c l).h) ∧ (c.dae = false → scOf c l = none) ∧
      (c.jac = none → (factOf c l).h = hOf c l) := by
  have hh : hOf c l ≠ 0 := by
    unfold hOf
    rcases hc.dir with hd | hd <;> rw [hd] <;> simp [hL.pos.ne']
  unfold factOf s1Of scOf factors
  by_cases hr : refactor c l (hOf c l) = true
  · rw [if_pos hr]
    refine ⟨rfl, rfl, hh, fun hd => by simp [hd], fun hd => by simp [hd, hL.scn hd], fun _ => rfl⟩
  · rw [if_neg hr]
    simp only [refactor, Bool.or_eq_true, not_or] at hr
    obtain ⟨⟨h1, h2⟩, h3⟩ := hr
    cases hLU : l.LU with
    | none => rw [hLU] at h1; simp at h1
    | some F =>
      obtain ⟨a1, a2, a3, a4⟩ := hL.fact F hLU
      refine ⟨a1, a2, a3, a4, hL.scn, fun hj => ?_⟩
      have hlin : c.linear = true := by simp [ECfg.linear, hj]
      simp [hlin, a2] at h3
      exact h3

theorem newMaxFactor_mf {s : ESt K V} {f : K} (h : s.maxFactor = 4 ∨ s.maxFactor = 10) :
    newMaxFactor s f = 4 ∨ newMaxFactor s f = 10 := by
  unfold newMaxFactor
  split_ifs
  · exact Or.inl rfl
  · exact h

theorem LInv_again (hc : ECfgOK c) {s : ESt K V} {l l' : LSt K V} {a : Stages K V} (hL : LInv c s l)
    (ha : attOf c l = some a) (hA : Again c l a l') : LInv c s l' := by
  obtain ⟨f1, f2, f3, f4, f5, f6⟩ := factors_coherent hc hL
  have hK : a.Ks 0 = s.yp := by rw [att_K0 ha, hL.K0]
  cases hA with
  | @newJ jac hcv hJ hj =>
    constructor
    · simp [hL.t]
    · simp [hL.y]
    · exact hK
    · simp [hL.hAbs]
    · simp [hL.hPrev]
    · simp [hL.errOld]
    · simp [hL.yOld]
    · simp [hL.yp]
    · exact hL.pos
    · exact hL.le
    · exact hL.rejF
    · intro h; exact hL.std (by simpa using h)
    · intro F hF; cases hF
    · exact f5
    · intro hn; rw [hn] at hj; cases hj
    · simpa using hL.mf
    · intro h; simpa using hL.mf4 h
  | reduce hcv hJ =>
    have hb := newtonFactor_bounds a.rate
    constructor
    · simp [hL.t]
    · simp [hL.y]
    · exact hK
    · simp [hL.hAbs]
    · simp [hL.hPrev]
    · simp [hL.errOld]
    · simp [hL.yOld]
    · simp [hL.yp]
    · exact mul_pos hL.pos (by linarith [hb.1])
    · have := hL.le; have := hL.pos; show l.hAbs * newtonFactor a.rate ≤ _; nlinarith [hb.2]
    · intro h; cases h
    · intro h; cases h
    · intro F hF; cases hF
    · exact f5
    · intro hn; have := hL.lin hn; simpa using this
    · simpa using hL.mf
    · intro h; simpa using hL.mf4 h
  | reject e hcv he hn h1 =>
    have hp := eRejectFactor_pos hc e
    have hle := eRejectFactor_le_one hc h1
    constructor
    · simp [hL.t]
    · simp [hL.y]
    · exact hK
    · simp [hL.hAbs]
    · simp [hL.hPrev]
    · simp [hL.errOld]
    · simp [hL.yOld]
    · simp [hL.yp]
    · exact mul_pos hL.pos hp
    · have := hL.le; have := hL.pos; show l.hAbs * eRejectFactor c e ≤ _; nlinarith
    · intro h; cases h
    · intro h; cases h
    · intro F hF
      cases hF
      refine ⟨?_, ?_, f3, f4⟩
      · simpa using f1
      · exact f2
    · exact f5
    · intro hn; have := hL.lin hn; simpa using this
    · exact newMaxFactor_mf hL.mf
    · intro h
      show newMaxFactor l.s _ = 4
      unfold newMaxFactor
      split_ifs
      · rfl
      · exact hL.mf4 h

theorem Visits.inv (hc : ECfgOK c) {s : ESt K V} (hi : SInv c s) (ht : c.tb ≠ some s.t) {l : LSt K V}
    (h : Visits c s l) : LInv c s l := by
  induction h with
  | @first s2 hp =>
    obtain ⟨s2', h1, J, njev, curJ, LU, hs2, hLU, hlin, -⟩ := preemptive_spec hc hi (hFirst c s)
    rw [hp] at h1
    cases h1
    subst hs2
    constructor
    · rfl
    · rfl
    · exact Function.update_self (β := fun _ => V) 0 s.yp s.Ks
    · rfl
    · rfl
    · rfl
    · rfl
    · rfl
    · exact hFirst_pos hc hi ht
    · exact le_refl _
    · intro _; rfl
    · intro h; exact hi.std (eEntry_std h)
    · intro F hF
      have hF' : LU = some F := hF
      rcases hLU with h | ⟨h, h2, -⟩
      · rw [h] at hF'; cases hF'
      · rw [h] at hF'
        obtain ⟨b1, b2, b3, b4⟩ := hi.fact F hF'
        refine ⟨?_, b2, b3, b4⟩
        show F.J = J
        rw [h2]; exact b1
    · exact hi.scn
    · intro hn
      obtain ⟨e1, e2, e3⟩ := hlin hn
      exact ⟨e3, e1, e2⟩
    · exact hi.mf
    · exact id
  | @next l l' hv hit ih =>
    obtain ⟨-, a, ha, hA⟩ := eIter_again hit
    exact LInv_again hc ih ha hA

/-- The controller always finds the data it needs. -/
theorem eAcceptFactor_some (hc : ECfgOK c) {s : ESt K V} {l : LSt K V} (hL : LInv c s l) (a : Stages K V)
    (x : K) : ∃ f std, eAcceptFactor c (s2Of c l a) l.hAbs x = some (f, std) ∧ 0 < f ∧
      f ≤ l.s.maxFactor ∧ (std = false → c.tinyErr ≤ x) ∧
      (x < 1 → min c.safety c.minFactor ≤ f) := by
  unfold eAcceptFactor
  have hmf : 0 < l.s.maxFactor := by rcases hL.mf with h | h <;> rw [h] <;> norm_num
  have hmf4 : (4 : K) ≤ l.s.maxFactor := by rcases hL.mf with h | h <;> rw [h] ; norm_num
  have e1 : (s2Of c l a).maxFactor = l.s.maxFactor := factors_maxFactor _ _ _
  have e2 : (s2Of c l a).stdSc = l.s.stdSc := factors_stdSc _ _ _
  have e3 : (s2Of c l a).hPrev = l.s.hPrev := factors_hPrev _ _ _
  have e4 : (s2Of c l a).errOld = l.s.errOld := factors_errOld _ _ _
  rw [e1, e2, e3, e4]
  by_cases hx : x < c.tinyErr
  · rw [if_pos hx]
    exact ⟨_, _, rfl, hmf, le_refl _, fun h => (by cases h), fun _ =>
      (min_le_right _ _).trans (by linarith [hc.minF1])⟩
  · rw [if_neg hx]
    have hx' := not_lt.mp hx
    have hx0 : 0 < x := lt_of_lt_of_le hc.tiny hx'
    by_cases hs : l.s.stdSc = true
    · rw [if_pos hs]
      refine ⟨_, _, rfl, lt_min (mul_pos hc.safety0 (hc.pw.pos _ _ hx0)) hmf, min_le_right _ _, fun _ => hx',
        fun h => ?_⟩
      have := hc.pw.one_le x c.errExp hx0 h.le hc.errExp.le
      refine le_min ((min_le_left _ _).trans ?_) ((min_le_right _ _).trans (by linarith [hc.minF1]))
      nlinarith [hc.safety0]
    · rw [if_neg hs]
      have hs' : l.s.stdSc = false := by simpa using hs
      obtain ⟨e, hp, h1, h2, h3, h4⟩ := hL.std hs'
      rw [hL.hPrev, hL.errOld, h1, h3]
      dsimp only
      refine ⟨_, _, rfl, lt_of_lt_of_le hc.minF0 (le_max_left _ _), max_le ?_ (min_le_right _ _),
        fun _ => hx', fun _ => (min_le_right _ _).trans (le_max_left _ _)⟩
      have : (1 : K) ≤ 4 := by norm_num
      linarith [hc.minF1]

/-- What a successful pass leaves behind. -/
theorem eIter_ok_inv (hc : ECfgOK c) {s s' : ESt K V} {l : LSt K V} {ms : K} (hL : LInv c s l)
    (h : eIter c ms l = .done .ok s') : SInv c s' := by
  obtain ⟨hge, a, x, f0, std, ha, hcv, he, hx, hf, hs'⟩ := eIter_ok h
  obtain ⟨f1, f2, f3, f4, f5, f6⟩ := factors_coherent hc hL
  obtain ⟨f, sd, g1, g2, g3, g4, g5⟩ := eAcceptFactor_some hc hL a x
  rw [hf] at g1
  cases g1
  have hh : hOf c l ≠ 0 := by
    unfold hOf
    rcases hc.dir with hd | hd <;> rw [hd] <;> simp [hL.pos.ne']
  have hhd : 0 < hOf c l * c.dir := by
    unfold hOf
    rcases hc.dir with hd | hd <;> rw [hd] <;> simp [hL.pos]
  have hfac : 0 < (if l.rej then min 1 f0 else f0) := by
    split_ifs
    · exact lt_min one_pos g2
    · exact g2
  subst hs'
  constructor
  · exact mul_pos hL.pos hfac
  · intro hstd
    refine ⟨x, hOf c l, rfl, ?_, rfl, hhd⟩
    have hstd' : (if l.rej then true else std) = false := hstd
    split_ifs at hstd'
    exact g4 hstd'
  · intro _
    exact ⟨⟨hOf c l, rfl, hh⟩, ⟨_, f2, f3⟩⟩
  · intro F hF
    cases hF
    refine ⟨?_, f2, f3, f4⟩
    show (factOf c l).J = (s1Of c l).J
    rw [f1]; exact (factors_J _ _ _).symm
  · exact f5
  · intro hn
    refine ⟨?_, ?_⟩
    · show c.linear = true
      simp [ECfg.linear, hn]
    · exact att_rate_lin hn ha
  · exact newMaxFactor_mf hL.mf

/-- Solvers: the invariant holds as long as the solver is running. -/
def VInv (c : ECfg K V) (v : ESolver K V) : Prop := v.status = .running → SInv c v.st

theorem newESolver_inv (c : ECfg K V) (t0 : K) (y0 yp0 : V) (J0 : V →ₗ[K] V) {h0 : K} (hh : 0 < h0)
    (Ks0 : ℕ → V) (nfev njev : ℕ) : VInv c (newESolver t0 y0 yp0 J0 h0 Ks0 nfev njev) := by
  intro _
  constructor
  · exact hh
  · intro h; cases h
  · intro h; exact absurd rfl h
  · intro F h; cases h
  · intro _; rfl
  · intro _; exact ⟨rfl, rfl⟩
  · exact Or.inr rfl

/-- Newton iteration and the stages never fail their assertion. -/
theorem newton_some {i : StageIn K V} (h : c.jac = none → i.curJ = true ∧ i.hLU = some i.h) :
    ∀ (n k : ℕ) (z : V) (dz : K) (r : Option K), newton c i n k z dz r ≠ none
  | 0, k, z, dz, r => by simp [newton]
  | n + 1, k, z, dz, r => by
    unfold newton
    dsimp only
    split
    · simp
    · by_cases hl : c.linear = true
      · rw [if_pos hl]
        have hj : c.jac = none := by simpa [ECfg.linear] using hl
        rw [if_pos (h hj)]; simp
      · rw [if_neg hl]
        split_ifs
        · simp
        · exact newton_some h n _ _ _ _
        · simp
        · simp
        · exact newton_some h n _ _ _ _

theorem stages_some {t : K} {y : V} {h : K} {F : Fact K V} {sc : Option K} {cj : Bool} {hl : Option K}
    (hh : c.jac = none → cj = true ∧ hl = some h) :
    ∀ (m s : ℕ) (a : Stages K V), stages c t y h F sc cj hl m s a ≠ none
  | 0, s, a => by simp [stages]
  | m + 1, s, a => by
    unfold stages
    dsimp only
    split
    · rename_i hn
      exact fun _ => newton_some (c := c) (i := ⟨_, h, _, y, F, sc, cj, hl⟩) hh _ _ _ _ _ hn
    · split_ifs
      · exact stages_some hh m _ _
      · simp

theorem att_some (hc : ECfgOK c) {s : ESt K V} {l : LSt K V} (hL : LInv c s l) : attOf c l ≠ none := by
  obtain ⟨f1, f2, f3, f4, f5, f6⟩ := factors_coherent hc hL
  refine stages_some (fun hj => ⟨?_, ?_⟩) _ _ _
  · rw [show (s1Of c l).curJ = l.s.curJ from factors_curJ _ _ _]
    exact (hL.lin hj).1
  · rw [f2, f6 hj]

/-- A step never raises, except through a step size of nan. -/
theorem eStepImpl_exc (hc : ECfgOK c) {s s' : ESt K V} (hi : SInv c s) (ht : c.tb ≠ some s.t) {fuel : ℕ}
    {e : EExc} (h : eStepImpl c fuel s = some (.exc e, s')) : e = .nanErr := by
  rcases eStepImpl_visits h with ⟨hp, -⟩ | ⟨l, hv, hit⟩
  · obtain ⟨s2, h2, -⟩ := preemptive_spec hc hi (hFirst c s)
    rw [hp] at h2; cases h2
  · have hL := hv.inv hc hi ht
    rcases eIter_exc hit with ⟨-, hn, -⟩ | h | ⟨-, a, ha, ⟨h1, h2, h3⟩ | ⟨x, hx⟩⟩
    · exact absurd hn (att_some hc hL)
    · exact h
    · rw [(hL.lin h3).1] at h2; cases h2
    · obtain ⟨f, sd, g1, -⟩ := eAcceptFactor_some hc hL a x
      rw [hx] at g1; cases g1

theorem eStep_inv (hc : ECfgOK c) {v v' : ESolver K V} (hi : VInv c v) {fuel : ℕ} {o : EOut}
    (h : eStep c fuel v = some (o, v')) (ho : o ≠ .exc .nanErr) : VInv c v' := by
  unfold eStep at h
  split at h
  · rename_i hrun
    split_ifs at h with ht
    · cases h
      intro h; cases h
    · split at h
      · cases h
      · rename_i s' hs
        cases h
        intro _
        rcases eStepImpl_visits hs with ⟨hp, h2, -⟩ | ⟨l, hv, hit⟩
        · cases h2
        · exact eIter_ok_inv hc (hv.inv hc (hi hrun) ht) hit
      · cases h
        intro h; cases h
      · rename_i e s' hs
        cases h
        exact absurd (by rw [eStepImpl_exc hc (hi hrun) ht hs]) ho
  · cases h; exact hi

theorem EReach.inv (hc : ECfgOK c) {v0 v : ESolver K V} (h0 : VInv c v0) (hr : EReach c v0 v) : VInv c v := by
  induction hr with
  | refl => exact h0
  | tail hr hs hn ih => exact eStep_inv hc ih hs hn

end
end Extensisq
