import Verif.Model.Esdirk
import Verif.Lemmas.Driver

/-! Helper lemmas about the ESDIRK loop (no property statements here). -/

set_option linter.unusedSectionVars false

namespace Extensisq
open Finset

/-- What the constructor guarantees about the fixed fields (`common.py:1674-1704, 1922-1945`). -/
structure ECfgOK {K V : Type*} [Field K] [LinearOrder K] [AddCommGroup V] [Module K V] (c : ECfg K V) :
    Prop where
  dir : c.dir = 1 ∨ c.dir = -1
  hMinA : 0 ≤ c.hMinA
  hMinB : 0 < c.hMinB
  tiny : 0 < c.tinyErr
  minF0 : 0 < c.minFactor
  minF1 : c.minFactor < 1
  errExp : c.errExp < 0
  safety0 : 0 < c.safety
  safety1 : c.safety ≤ 1
  safetySc : 0 < c.safetySc
  pw : PowOK c.pw
  maxStep : ∀ m, c.maxStep = some m → 0 < m

section
variable {K V : Type*} [Field K] [LinearOrder K] [IsStrictOrderedRing K] [AddCommGroup V] [Module K V]
variable {c : ECfg K V}

/-- The signed step of a pass. -/
abbrev hOf (c : ECfg K V) (l : LSt K V) : K := l.hAbs * c.dir

abbrev factOf (c : ECfg K V) (l : LSt K V) : Fact K V := (factors c l (hOf c l)).1
abbrev scOf (c : ECfg K V) (l : LSt K V) : Option K := (factors c l (hOf c l)).2.1
abbrev s1Of (c : ECfg K V) (l : LSt K V) : ESt K V := (factors c l (hOf c l)).2.2

/-- The stages of the pass. -/
abbrev attOf (c : ECfg K V) (l : LSt K V) : Option (Stages K V) :=
  attempt c (s1Of c l).t (s1Of c l).y (hOf c l) (factOf c l) (scOf c l) (s1Of c l).curJ (s1Of c l).hLU
    (s1Of c l).Ks

/-- The solver after the stages of the pass. -/
abbrev s2Of (c : ECfg K V) (l : LSt K V) (a : Stages K V) : ESt K V :=
  { s1Of c l with Ks := a.Ks, rate := a.rate, niter := a.niter, nfev := (s1Of c l).nfev + a.evals }

section
variable (c : ECfg K V) (l : LSt K V) (h : K)
@[simp] theorem factors_t : (factors c l h).2.2.t = l.s.t := by unfold factors; split <;> rfl
@[simp] theorem factors_y : (factors c l h).2.2.y = l.s.y := by unfold factors; split <;> rfl
@[simp] theorem factors_yp : (factors c l h).2.2.yp = l.s.yp := by unfold factors; split <;> rfl
@[simp] theorem factors_hAbs : (factors c l h).2.2.hAbs = l.s.hAbs := by unfold factors; split <;> rfl
@[simp] theorem factors_maxFactor : (factors c l h).2.2.maxFactor = l.s.maxFactor := by
  unfold factors; split <;> rfl
@[simp] theorem factors_stdSc : (factors c l h).2.2.stdSc = l.s.stdSc := by unfold factors; split <;> rfl
@[simp] theorem factors_hPrev : (factors c l h).2.2.hPrev = l.s.hPrev := by unfold factors; split <;> rfl
@[simp] theorem factors_errOld : (factors c l h).2.2.errOld = l.s.errOld := by unfold factors; split <;> rfl
@[simp] theorem factors_yOld : (factors c l h).2.2.yOld = l.s.yOld := by unfold factors; split <;> rfl
@[simp] theorem factors_Ks : (factors c l h).2.2.Ks = l.s.Ks := by unfold factors; split <;> rfl
@[simp] theorem factors_J : (factors c l h).2.2.J = l.s.J := by unfold factors; split <;> rfl
@[simp] theorem factors_curJ : (factors c l h).2.2.curJ = l.s.curJ := by unfold factors; split <;> rfl
@[simp] theorem factors_nfs : (factors c l h).2.2.nfs = l.s.nfs := by unfold factors; split <;> rfl
@[simp] theorem factors_nfi : (factors c l h).2.2.nfi = l.s.nfi := by unfold factors; split <;> rfl
@[simp] theorem factors_njev : (factors c l h).2.2.njev = l.s.njev := by unfold factors; split <;> rfl
@[simp] theorem factors_LU : (factors c l h).2.2.LU = l.s.LU := by unfold factors; split <;> rfl
end

/-- A pass that continues the loop. -/
inductive Again (c : ECfg K V) (l : LSt K V) (a : Stages K V) : LSt K V → Prop
  | newJ {jac : ℕ → K → V → (V →ₗ[K] V)} (hc : a.converged = false) (hJ : l.s.curJ = false)
      (hj : c.jac = some jac) : Again c l a
      { s := { s2Of c l a with nfi := l.s.nfi + 1, J := jac l.s.njev l.s.t l.s.y, curJ := true,
                               njev := l.s.njev + 1 },
        hAbs := l.hAbs, LU := none, sc := scOf c l, rej := l.rej }
  | reduce (hc : a.converged = false) (hJ : l.s.curJ = true) : Again c l a
      { s := { s2Of c l a with nfi := l.s.nfi + 1, stdSc := true },
        hAbs := l.hAbs * newtonFactor a.rate, LU := none, sc := scOf c l, rej := true }
  | reject (e : ENorm K) (hc : a.converged = true)
      (he : c.errNorm l.s.y (a.psi + c.T.d • a.z) (eError c (hOf c l) (factOf c l) (scOf c l) a.Ks) = e)
      (hn : e ≠ .nan) (h1 : ∀ x, e = .num x → 1 ≤ x) : Again c l a
      { s := { s2Of c l a with nfs := l.s.nfs + 1, stdSc := true,
                               maxFactor := newMaxFactor l.s (eRejectFactor c e) },
        hAbs := l.hAbs * eRejectFactor c e, LU := some (factOf c l), sc := scOf c l, rej := true }

/-- All outcomes of a pass. -/
theorem eIter_cases (ms : K) (l : LSt K V) :
    (l.hAbs < ms ∧ eIter c ms l = .done .tooSmall l.s) ∨
    (ms ≤ l.hAbs ∧
      ((attOf c l = none ∧ eIter c ms l = .done (.exc .assertErr) (s1Of c l)) ∨
       ∃ a, attOf c l = some a ∧
        ((∃ l', Again c l a l' ∧ eIter c ms l = .again l') ∨
         (a.converged = false ∧ l.s.curJ = false ∧ c.jac = none ∧
            eIter c ms l = .done (.exc .typeErr) { s2Of c l a with nfi := l.s.nfi + 1 }) ∨
         (a.converged = true ∧
            c.errNorm l.s.y (a.psi + c.T.d • a.z) (eError c (hOf c l) (factOf c l) (scOf c l) a.Ks) = .nan ∧
            eIter c ms l = .done (.exc .nanErr) { s2Of c l a with nfs := l.s.nfs + 1, stdSc := true }) ∨
         (∃ x, a.converged = true ∧
            c.errNorm l.s.y (a.psi + c.T.d • a.z) (eError c (hOf c l) (factOf c l) (scOf c l) a.Ks) = .num x ∧
            x < 1 ∧
            ((eAcceptFactor c (s2Of c l a) l.hAbs x = none ∧
                eIter c ms l = .done (.exc .typeErr) (s2Of c l a)) ∨
             ∃ f0 std, eAcceptFactor c (s2Of c l a) l.hAbs x = some (f0, std) ∧
              eIter c ms l = .done .ok (eAccept c
                { s2Of c l a with stdSc := if l.rej then true else std,
                                  maxFactor := newMaxFactor l.s (if l.rej then min 1 f0 else f0) }
                (hOf c l) (l.hAbs * (if l.rej then min 1 f0 else f0)) x (a.psi + c.T.d • a.z) (factOf c l)
                (scOf c l))))))) := by
  by_cases h1 : l.hAbs < ms
  · left
    exact ⟨h1, by unfold eIter; rw [if_pos h1]⟩
  right
  refine ⟨not_lt.mp h1, ?_⟩
  cases ha : attOf c l with
  | none =>
    left
    refine ⟨rfl, ?_⟩
    unfold eIter; rw [if_neg h1]; dsimp only; unfold attOf at ha; rw [ha]
  | some a =>
    right
    refine ⟨a, rfl, ?_⟩
    have hu : eIter c ms l =
        if a.converged then afterStages c l (hOf c l) (factOf c l) (scOf c l) (s2Of c l a) (a.psi + c.T.d • a.z)
        else afterFailure c l (scOf c l) { s2Of c l a with nfi := (s2Of c l a).nfi + 1 } := by
      unfold eIter; rw [if_neg h1]; dsimp only; unfold attOf at ha; rw [ha]
    rw [hu]
    by_cases hc : a.converged = true
    · rw [if_pos hc]
      unfold afterStages
      have hy : (s2Of c l a).y = l.s.y := factors_y _ _ _
      rw [hy]
      have hk : (s2Of c l a).Ks = a.Ks := rfl
      rw [hk]
      cases he : c.errNorm l.s.y (a.psi + c.T.d • a.z)
          (eError c (hOf c l) (factOf c l) (scOf c l) a.Ks) with
      | nan =>
        right; right; left
        exact ⟨hc, rfl, by simp⟩
      | inf =>
        left
        refine ⟨_, Again.reject .inf hc he (by simp) (by simp), ?_⟩
        simp [eRejected, newMaxFactor]
      | num x =>
        dsimp only
        by_cases hx : x < 1
        · right; right; right
          refine ⟨x, hc, rfl, hx, ?_⟩
          rw [if_pos hx]
          unfold eAccepted
          cases hf : eAcceptFactor c (s2Of c l a) l.hAbs x with
          | none => left; simp
          | some q =>
            right
            refine ⟨q.1, q.2, rfl, ?_⟩
            simp [newMaxFactor]
        · left
          rw [if_neg hx]
          refine ⟨_, Again.reject (.num x) hc he (by simp) (by
            intro y hy; cases hy; exact not_lt.mp hx), ?_⟩
          simp [eRejected, newMaxFactor]
    · rw [if_neg hc]
      have hc' : a.converged = false := by simpa using hc
      unfold afterFailure
      dsimp only
      rw [factors_curJ]
      by_cases hJ : l.s.curJ = false
      · rw [if_pos hJ]
        cases hj : c.jac with
        | none =>
          right; left
          exact ⟨hc', hJ, rfl, by simp⟩
        | some jac =>
          left
          refine ⟨_, Again.newJ hc' hJ hj, ?_⟩
          simp
      · rw [if_neg hJ]
        left
        refine ⟨_, Again.reduce hc' (by simpa using hJ), ?_⟩
        simp

theorem eIter_again {ms : K} {l l' : LSt K V} (h : eIter c ms l = .again l') :
    ms ≤ l.hAbs ∧ ∃ a, attOf c l = some a ∧ Again c l a l' := by
  rcases eIter_cases (c := c) ms l with ⟨_, h'⟩ | ⟨hm, ⟨_, h'⟩ | ⟨a, ha, ⟨l1, hA, h'⟩ | ⟨_, _, _, h'⟩ |
    ⟨_, _, h'⟩ | ⟨_, _, _, _, ⟨_, h'⟩ | ⟨_, _, _, h'⟩⟩⟩⟩ <;> rw [h] at h' <;> cases h'
  exact ⟨hm, a, ha, hA⟩

theorem eIter_ok {ms : K} {l : LSt K V} {s' : ESt K V} (h : eIter c ms l = .done .ok s') :
    ms ≤ l.hAbs ∧ ∃ a x f0 std, attOf c l = some a ∧ a.converged = true ∧
      c.errNorm l.s.y (a.psi + c.T.d • a.z) (eError c (hOf c l) (factOf c l) (scOf c l) a.Ks) = .num x ∧
      x < 1 ∧ eAcceptFactor c (s2Of c l a) l.hAbs x = some (f0, std) ∧
      s' = eAccept c { s2Of c l a with
                        stdSc := if l.rej then true else std,
                        maxFactor := newMaxFactor l.s (if l.rej then min 1 f0 else f0) }
        (hOf c l) (l.hAbs * (if l.rej then min 1 f0 else f0)) x (a.psi + c.T.d • a.z) (factOf c l)
        (scOf c l) := by
  rcases eIter_cases (c := c) ms l with ⟨_, h'⟩ | ⟨hm, ⟨_, h'⟩ | ⟨a, ha, ⟨l1, hA, h'⟩ | ⟨_, _, _, h'⟩ |
    ⟨_, _, h'⟩ | ⟨x, hcv, he, hx, ⟨_, h'⟩ | ⟨f0, std, hf, h'⟩⟩⟩⟩ <;> rw [h] at h' <;> cases h'
  exact ⟨hm, a, x, f0, std, ha, hcv, he, hx, hf, rfl⟩

/-- Ways in which the loop raises. -/
theorem eIter_exc {ms : K} {l : LSt K V} {e : EExc} {s' : ESt K V} (h : eIter c ms l = .done (.exc e) s') :
    (e = .assertErr ∧ attOf c l = none ∧ s' = s1Of c l) ∨
    (e = .nanErr) ∨
    (e = .typeErr ∧ ∃ a, attOf c l = some a ∧
      ((a.converged = false ∧ l.s.curJ = false ∧ c.jac = none) ∨
       (∃ x, eAcceptFactor c (s2Of c l a) l.hAbs x = none))) := by
  rcases eIter_cases (c := c) ms l with ⟨_, h'⟩ | ⟨hm, ⟨ha, h'⟩ | ⟨a, ha, ⟨l1, hA, h'⟩ | ⟨h2, h3, h4, h'⟩ |
    ⟨_, _, h'⟩ | ⟨x, hcv, he, hx, ⟨hf, h'⟩ | ⟨f0, std, hf, h'⟩⟩⟩⟩ <;> rw [h] at h' <;> cases h'
  · exact Or.inl ⟨rfl, ha, rfl⟩
  · exact Or.inr (Or.inr ⟨rfl, a, ha, Or.inl ⟨h2, h3, h4⟩⟩)
  · exact Or.inr (Or.inl rfl)
  · exact Or.inr (Or.inr ⟨rfl, a, ha, Or.inr ⟨x, hf⟩⟩)

theorem eIter_tooSmall {ms : K} {l : LSt K V} {s' : ESt K V} (h : eIter c ms l = .done .tooSmall s') :
    l.hAbs < ms ∧ s' = l.s := by
  rcases eIter_cases (c := c) ms l with ⟨h0, h'⟩ | ⟨hm, ⟨_, h'⟩ | ⟨a, ha, ⟨l1, hA, h'⟩ | ⟨_, _, _, h'⟩ |
    ⟨_, _, h'⟩ | ⟨_, _, _, _, ⟨_, h'⟩ | ⟨_, _, _, h'⟩⟩⟩⟩ <;> rw [h] at h' <;> cases h'
  exact ⟨h0, rfl⟩

/-- Invariant rule for the loop. -/
theorem eLoop_inv {ms : K} {P : LSt K V → Prop}
    (hstep : ∀ l a l', P l → ms ≤ l.hAbs → attOf c l = some a → Again c l a l' → P l') :
    ∀ {n : ℕ} {l : LSt K V} {o : EOut} {s' : ESt K V}, P l → eLoop c ms n l = some (o, s') →
      ∃ l', P l' ∧ eIter c ms l' = .done o s'
  | 0, l, o, s', _, h => by cases h
  | n + 1, l, o, s', hP, h => by
    unfold eLoop at h
    split at h
    · rename_i o' s'' hi
      cases h
      exact ⟨l, hP, hi⟩
    · rename_i l1 hi
      obtain ⟨h1, a, ha, hA⟩ := eIter_again hi
      exact eLoop_inv hstep (hstep l a l1 hP h1 ha hA) h

/-! ### Factors -/

theorem newtonFactor_bounds (r : Option K) : (1 / 5 : K) ≤ newtonFactor r ∧ newtonFactor r ≤ 1 / 2 := by
  unfold newtonFactor
  split
  · exact ⟨le_refl _, by norm_num⟩
  · split_ifs
    · exact ⟨by norm_num, le_refl _⟩
    · exact ⟨le_max_left _ _, max_le (by norm_num) (min_le_right _ _)⟩

/-- An upper bound of the factor of a rejected step. -/
theorem eRejectFactor_le (hc : ECfgOK c) {e : ENorm K} (h1 : ∀ x, e = .num x → 1 ≤ x) :
    eRejectFactor c e ≤ max c.safety c.minFactor := by
  unfold eRejectFactor
  split
  · rename_i x
    apply max_le_max_right
    have := hc.pw.le_one x c.errExp (h1 x rfl) hc.errExp.le
    nlinarith [hc.safety0]
  · exact max_le_max_right _ hc.safety0.le
  · exact le_max_right _ _

theorem eRejectFactor_pos (hc : ECfgOK c) (e : ENorm K) : 0 < eRejectFactor c e := by
  unfold eRejectFactor
  split
  · exact lt_of_lt_of_le hc.minF0 (le_max_right _ _)
  · exact lt_of_lt_of_le hc.minF0 (le_max_right _ _)
  · exact hc.minF0

theorem eRejectFactor_le_one (hc : ECfgOK c) {e : ENorm K} (h1 : ∀ x, e = .num x → 1 ≤ x) :
    eRejectFactor c e ≤ 1 :=
  (eRejectFactor_le hc h1).trans (max_le hc.safety1 hc.minF1.le)

/-! ### The step size at the start of a step -/

theorem eMinStep_pos (hc : ECfgOK c) (t h0 : K) : 0 < eMinStep c t h0 :=
  lt_of_lt_of_le hc.hMinB (le_max_right _ _)

/-- The step never exceeds the rest of the interval. -/
theorem eFit_le_rest (t h1 b : K) : eFit (some b) t h1 ≤ |b - t| := by
  unfold eFit
  dsimp only
  split_ifs with h
  · exact le_refl _
  · exact not_lt.mp (fun h' => h (Or.inr h'))

theorem eFit_pos (tb : Option K) {t h1 : K} (h : 0 < h1) (ht : tb ≠ some t) : 0 < eFit tb t h1 := by
  unfold eFit
  split
  · exact h
  · rename_i b
    split_ifs
    · exact abs_pos.mpr (fun h' => ht (by rw [sub_eq_zero.mp h']))
    · exact h

theorem eFit_le (tb : Option K) {t h1 : K} (h : 0 < h1) : eFit tb t h1 ≤ 101 / 100 * h1 := by
  unfold eFit
  split
  · linarith
  · rename_i b
    split_ifs with h'
    · rcases h' with h' | h'
      · have h2 : |b - t| / h1 < 101 / 100 := by linarith [(abs_lt.mp h').2]
        rw [div_lt_iff₀ h] at h2
        linarith
      · linarith
    · linarith

theorem capMax_le' {m : Option K} {b x : K} (h : m = some b) : capMax m x ≤ b := by
  subst h; exact min_le_left _ _

theorem eClip_pos (hc : ECfgOK c) (t : K) {h0 : K} (hh : 0 < h0) : 0 < eClip c t h0 := by
  have hp1 : 0 < max (eMinStep c t h0) h0 := lt_of_lt_of_le hh (le_max_right _ _)
  unfold eClip
  split_ifs
  · cases hm : c.maxStep with
    | none => exact hp1
    | some m => exact lt_min (hc.maxStep m hm) hp1
  · exact hh

theorem eClip_le (t h0 : K) {m : K} (hm : c.maxStep = some m) : eClip c t h0 ≤ m := by
  unfold eClip
  split_ifs with h
  · exact capMax_le' hm
  · simp only [eClips, hm, overMax, Bool.or_eq_true, decide_eq_true_eq, not_or, not_lt] at h
    exact h.2

end
end Extensisq
