import Verif.Lemmas.SwagCoef

/-!
# Invariants of SWAG: orders and coefficients

`SwInv` holds before every step of a running solver, `TryOK` for every attempt.
-/

set_option linter.unusedSectionVars false

namespace Extensisq
open Finset

section
variable {K V : Type*} [Field K] [LinearOrder K] [IsStrictOrderedRing K] [AddCommGroup V] [Module K V]

/-- The relation between the recomputation `e`, `ns`, the order `k` of the step and `kprev`. -/
def NsRel (e ns k kprev : ℕ) : Prop := (ns = e ∧ kprev = k) ∨ (ns = e + 1 ∧ k ≤ e ∧ kprev ≤ e + 1)

/-- Before a step: a new solver, or one which has accepted a step with order `kold`. -/
structure SwInv (c : SwCfg K V) (s : SwSt K V) : Prop where
  k1 : 1 ≤ s.k
  kM : s.k ≤ c.kMax
  base : CBase s.co
  rel : (s.kold = 0 ∧ s.ns = 0 ∧ s.k = 1) ∨
    (1 ≤ s.kold ∧ s.kold ≤ c.kMax ∧ s.k ≤ s.kold + 1 ∧ s.kold ≤ s.k + 1 ∧
      ∃ e, CInv c.kMax s.hold s.co e ∧ NsRel e s.ns s.kold s.co.kprev)

/-- The local variables at the start of an attempt: those of the first attempt, or those after a failure. -/
structure LocOK (c : SwCfg K V) (s : SwSt K V) (l : SwLoc K V) : Prop where
  k1 : 1 ≤ l.k
  kM : l.k ≤ c.kMax
  base : CBase l.co
  first : l.ns = 0 ∨ (l.ns = s.ns ∧ l.k = s.k ∧ l.co = s.co)

theorem newNs_zero (h hold : K) (kold : ℕ) : newNs h hold 0 kold = 1 := by
  simp [newNs]

theorem newNs_ne {h hold : K} (hh : h ≠ hold) (ns kold : ℕ) : newNs h hold ns kold = 1 := by
  simp [newNs, hh]

theorem newNs_eq (h : K) (ns kold : ℕ) : newNs h h ns kold = if ns ≤ kold then ns + 1 else ns := by
  simp [newNs]

/-- Every attempt has coefficients as described by `CInv`. -/
theorem try_coef {c : SwCfg K V} {s : SwSt K V} {l : SwLoc K V} (hs : SwInv c s) (hl : LocOK c s l) :
    ∃ e, CInv c.kMax l.h (swTry c s.t s.y s.hold s.kold l).co e ∧
      NsRel e (swTry c s.t s.y s.hold s.kold l).ns l.k (swTry c s.t s.y s.hold s.kold l).co.kprev := by
  have hco : (swTry c s.t s.y s.hold s.kold l).co
      = coefs l.h l.k (newNs l.h s.hold l.ns s.kold) s.kold l.co := rfl
  have hns : (swTry c s.t s.y s.hold s.kold l).ns = newNs l.h s.hold l.ns s.kold := rfl
  rw [hco, hns]
  have hone : newNs l.h s.hold l.ns s.kold = 1 →
      ∃ e, CInv c.kMax l.h (coefs l.h l.k (newNs l.h s.hold l.ns s.kold) s.kold l.co) e ∧
        NsRel e (newNs l.h s.hold l.ns s.kold) l.k
          (coefs l.h l.k (newNs l.h s.hold l.ns s.kold) s.kold l.co).kprev := by
    intro h1
    rw [h1]
    refine ⟨1, coefs_init hl.k1 hl.kM hl.base, Or.inl ⟨rfl, ?_⟩⟩
    rw [coefs, if_pos hl.k1]; rfl
  rcases hl.first with h0 | ⟨f1, f2, f3⟩
  · exact hone (by rw [h0, newNs_zero])
  · rcases hs.rel with ⟨_, r2, _⟩ | ⟨r1, r2, r3, r4, e, ci, rel⟩
    · exact hone (by rw [f1, r2, newNs_zero])
    · by_cases hh : l.h = s.hold
      · rw [hh, newNs_eq, f1, f2, f3]
        have he := ci.he
        have hek := ci.hk
        rcases rel with ⟨n1, n2⟩ | ⟨n1, n2, n3⟩
        · rw [if_pos (by omega), n1]
          by_cases hx : e + 1 ≤ s.k
          · refine ⟨e + 1, coefs_next ci hx hs.kM ?_, Or.inl ⟨rfl, ?_⟩⟩
            · omega
            · rw [coefs, if_pos hx]; rfl
          · refine ⟨e, ?_, Or.inr ⟨rfl, by omega, ?_⟩⟩
            · rw [coefs, if_neg hx]; exact ci
            · rw [coefs, if_neg hx]; omega
        · rw [if_neg (by omega), n1]
          by_cases hx : e + 1 ≤ s.k
          · refine ⟨e + 1, coefs_next ci hx hs.kM ?_, Or.inl ⟨rfl, ?_⟩⟩
            · omega
            · rw [coefs, if_pos hx]; rfl
          · refine ⟨e, ?_, Or.inr ⟨rfl, by omega, ?_⟩⟩
            · rw [coefs, if_neg hx]; exact ci
            · rw [coefs, if_neg hx]; exact n3
      · exact hone (by rw [newNs_ne hh])

theorem lowerOrder_bounds {k : ℕ} {e0 e1 e2 : ENorm K} (h : 1 ≤ k) :
    1 ≤ lowerOrder k e0 e1 e2 ∧ lowerOrder k e0 e1 e2 ≤ k ∧ k ≤ lowerOrder k e0 e1 e2 + 1 := by
  unfold lowerOrder
  split
  · omega
  · split <;> omega

theorem nextOrder_bounds {c : SwCfg K V} {k knew ns : ℕ} {ph : Bool} {e0 e1 e2 : ENorm K} (h1 : 1 ≤ k)
    (hM : k ≤ c.kMax) (hkn : 1 ≤ knew) (hp : ph = true → k ≠ c.kMax) :
    1 ≤ (nextOrder c k knew ns ph e0 e1 e2).1 ∧ (nextOrder c k knew ns ph e0 e1 e2).1 ≤ c.kMax ∧
      (nextOrder c k knew ns ph e0 e1 e2).1 ≤ k + 1 ∧ k ≤ (nextOrder c k knew ns ph e0 e1 e2).1 + 1 := by
  unfold nextOrder
  split
  · rename_i h; have := hp h; simp only; omega
  · split
    · simp only; omega
    · split
      · split
        · split <;> (simp only; omega)
        · split
          · simp only; omega
          · split <;> (simp only; omega)
      · simp only; omega

theorem start_ok {c : SwCfg K V} {s : SwSt K V} (hs : SwInv c s) (h : K) : LocOK c s (swStart s h) :=
  ⟨hs.k1, hs.kM, hs.base, Or.inr ⟨rfl, rfl, rfl⟩⟩

theorem fail_ok {c : SwCfg K V} {s : SwSt K V} {l : SwLoc K V} (hs : SwInv c s) (hl : LocOK c s l) :
    LocOK c s (swFail c l (swTry c s.t s.y s.hold s.kold l)) := by
  obtain ⟨e, ci, _⟩ := try_coef hs hl
  refine ⟨?_, ?_, ⟨ci.base.g0, ci.base.g1, ci.base.sig0⟩, Or.inl rfl⟩
  · show 1 ≤ if 3 ≤ l.ifail + 1 then 1 else (swTry c s.t s.y s.hold s.kold l).knew
    split
    · exact le_rfl
    · exact (lowerOrder_bounds hl.k1).1
  · show (if 3 ≤ l.ifail + 1 then 1 else (swTry c s.t s.y s.hold s.kold l).knew) ≤ c.kMax
    split
    · have := hl.k1; have := hl.kM; omega
    · exact (lowerOrder_bounds hl.k1).2.1.trans hl.kM

theorem accept_inv {c : SwCfg K V} {s : SwSt K V} {l : SwLoc K V} {m : K} (hs : SwInv c s) (hl : LocOK c s l) :
    SwInv c (swAccept c m s l (swTry c s.t s.y s.hold s.kold l)) := by
  obtain ⟨e, ci, rel⟩ := try_coef hs hl
  have hkn : 1 ≤ (swTry c s.t s.y s.hold s.kold l).knew := (lowerOrder_bounds hl.k1).1
  have hb := nextOrder_bounds (c := c) (k := l.k) (knew := (swTry c s.t s.y s.hold s.kold l).knew)
    (ns := (swTry c s.t s.y s.hold s.kold l).ns)
    (ph := (swAccept c m s l (swTry c s.t s.y s.hold s.kold l)).phase1)
    (e0 := (swTry c s.t s.y s.hold s.kold l).erk) (e1 := (swTry c s.t s.y s.hold s.kold l).erkm1)
    (e2 := ENorm.scale (c.gstr l.k * |l.h|) ((swTry c s.t s.y s.hold s.kold l).wt
      ((swAccept c m s l (swTry c s.t s.y s.hold s.kold l)).phi (l.k + 1)))) hl.k1 hl.kM hkn
    (by
      intro h1 h2
      have : (swAccept c m s l (swTry c s.t s.y s.hold s.kold l)).phase1
        = if (swTry c s.t s.y s.hold s.kold l).knew + 1 = l.k ∨ l.k = c.kMax then false else l.phase1 := rfl
      rw [this, if_pos (Or.inr h2)] at h1
      cases h1)
  refine ⟨hb.1, hb.2.1, ci.base, Or.inr ⟨hl.k1, hl.kM, hb.2.2.1, hb.2.2.2, e, ci, rel⟩⟩

/-- What an accepted step of the loop is: some attempt, reached through failures, whose error estimate is at
most one. -/
theorem swLoop_ind {c : SwCfg K V} {m : K} {s : SwSt K V} (P : SwLoc K V → Prop)
    (hf : ∀ l, P l → ENorm.leE (swTry c s.t s.y s.hold s.kold l).err (.num 1) = false →
      P (swFail c l (swTry c s.t s.y s.hold s.kold l))) :
    ∀ (n : ℕ) (l : SwLoc K V) (o : SwOut) (s' : SwSt K V), P l → swLoop c m s n l = some (o, s') →
      (∃ l', P l' ∧ o = .ok ∧ ENorm.leE (swTry c s.t s.y s.hold s.kold l').err (.num 1) = true ∧
        s' = swAccept c m s l' (swTry c s.t s.y s.hold s.kold l')) ∨
      (∃ l', P l' ∧ o = .tooSmall ∧ |l'.h| < m ∧ s' = swAbort s l') := by
  intro n
  induction n with
  | zero => intro l o s' _ h; cases h
  | succ n ih =>
    intro l o s' hp h
    simp only [swLoop] at h
    split at h
    · rename_i he
      have h' := Option.some.inj h
      have h1 := congrArg Prod.fst h'
      have h2 := congrArg Prod.snd h'
      exact Or.inl ⟨l, hp, h1.symm, he, h2.symm⟩
    · rename_i he
      have hp' := hf l hp (by simpa using he)
      split at h
      · rename_i hm
        have h' := Option.some.inj h
        have h1 := congrArg Prod.fst h'
        have h2 := congrArg Prod.snd h'
        exact Or.inr ⟨_, hp', h1.symm, hm, h2.symm⟩
      · exact ih _ _ _ hp' h

/-- The attempts of one step from the state `s`: the first one, and one after each failure. (Whether the loop
goes on after a failure also depends on the minimal step size.) -/
inductive SwAttempt (c : SwCfg K V) (s : SwSt K V) : SwLoc K V → Prop
  | first : SwAttempt c s (swStart (swStiff c s) (swLimit c s.t s.h))
  | retry {l : SwLoc K V} : SwAttempt c s l →
      ENorm.leE (swTry c s.t s.y s.hold s.kold l).err (.num 1) = false →
      SwAttempt c s (swFail c l (swTry c s.t s.y s.hold s.kold l))

theorem swStiff_same (c : SwCfg K V) (s : SwSt K V) :
    (swStiff c s).t = s.t ∧ (swStiff c s).y = s.y ∧ (swStiff c s).yp = s.yp ∧ (swStiff c s).h = s.h ∧
    (swStiff c s).hold = s.hold ∧ (swStiff c s).k = s.k ∧ (swStiff c s).kold = s.kold ∧
    (swStiff c s).ns = s.ns ∧ (swStiff c s).phase1 = s.phase1 ∧ (swStiff c s).phi = s.phi ∧
    (swStiff c s).co = s.co ∧ (swStiff c s).wt = s.wt ∧ (swStiff c s).nfev = s.nfev ∧
    (swStiff c s).nfs = s.nfs ∧ (swStiff c s).hist = s.hist ∧ (swStiff c s).yOld = s.y := by
  unfold swStiff
  split
  · simp
  · split <;> simp

theorem SwInv.stiff {c : SwCfg K V} {s : SwSt K V} (hs : SwInv c s) : SwInv c (swStiff c s) := by
  obtain ⟨_, _, _, _, e5, e6, e7, e8, _, _, e11, _⟩ := swStiff_same c s
  refine ⟨by rw [e6]; exact hs.k1, by rw [e6]; exact hs.kM, by rw [e11]; exact hs.base, ?_⟩
  rw [e5, e6, e7, e8, e11]
  exact hs.rel

/-- How `_step_impl` can end. -/
theorem swStepImpl_cases {c : SwCfg K V} {fuel : ℕ} {s s' : SwSt K V} {o : SwOut} (P : SwLoc K V → Prop)
    (hstart : P (swStart (swStiff c s) (swLimit c s.t s.h)))
    (hf : ∀ l, P l → ENorm.leE (swTry c s.t s.y s.hold s.kold l).err (.num 1) = false →
      P (swFail c l (swTry c s.t s.y s.hold s.kold l)))
    (h : swStepImpl c fuel s = some (o, s')) :
    (∃ b, c.tb = some b ∧ |b - s.t| ≤ swMinStep c s.t ∧ o = .ok ∧ s' = swExtrapolate b (swStiff c s)) ∨
    (o = .tooSmall ∧ |swLimit c s.t s.h| < swMinStep c s.t ∧ s' = swStiff c s) ∨
    (o = .tooTight ∧ s' = swStiff c s) ∨
    (swMinStep c s.t ≤ |swLimit c s.t s.h| ∧ ∃ l', P l' ∧ o = .ok ∧
      ENorm.leE (swTry c s.t s.y s.hold s.kold l').err (.num 1) = true ∧
      s' = swAccept c (swMinStep c s.t) (swStiff c s) l' (swTry c s.t s.y s.hold s.kold l')) ∨
    (swMinStep c s.t ≤ |swLimit c s.t s.h| ∧ ∃ l', P l' ∧ o = .tooSmall ∧ |l'.h| < swMinStep c s.t ∧
      s' = swAbort (swStiff c s) l') := by
  obtain ⟨e1, e2, _, e4, e5, _, e7, _⟩ := swStiff_same c s
  unfold swStepImpl at h
  simp only [e1, e4] at h
  split at h
  · rename_i hn
    left
    unfold swNear at hn
    cases hb : c.tb with
    | none => rw [hb] at hn; cases hn
    | some b =>
      rw [hb] at hn h
      have h' := Option.some.inj h
      exact ⟨b, rfl, of_decide_eq_true hn, (congrArg Prod.fst h').symm, (congrArg Prod.snd h').symm⟩
  · split at h
    · rename_i hm
      have h' := Option.some.inj h
      exact Or.inr (Or.inl ⟨(congrArg Prod.fst h').symm, hm, (congrArg Prod.snd h').symm⟩)
    · rename_i hm
      split at h
      · have h' := Option.some.inj h
        exact Or.inr (Or.inr (Or.inl ⟨(congrArg Prod.fst h').symm, (congrArg Prod.snd h').symm⟩))
      · have hi := swLoop_ind (c := c) (m := swMinStep c s.t) (s := swStiff c s) P
          (by rw [e1, e2, e5, e7]; exact hf) fuel _ o s' hstart h
        rw [e1, e2, e5, e7] at hi
        rcases hi with hi | hi
        · exact Or.inr (Or.inr (Or.inr (Or.inl ⟨not_lt.mp hm, hi⟩)))
        · exact Or.inr (Or.inr (Or.inr (Or.inr ⟨not_lt.mp hm, hi⟩)))

/-- How `step()` of a running solver can end. -/
theorem swStep_cases {c : SwCfg K V} {fuel : ℕ} {v v' : SwSolver K V} {o : SwOut}
    (h : swStep c fuel v = some (o, v')) :
    (v.status ≠ .running ∧ o = .notRunning ∧ v' = v) ∨
    (v.status = .running ∧ c.tb = some v.st.t ∧ o = .ok ∧
      v' = { v with tOld := some v.st.t, status := .finished }) ∨
    (v.status = .running ∧ c.tb ≠ some v.st.t ∧ ∃ s', swStepImpl c fuel v.st = some (.ok, s') ∧ o = .ok ∧
      v' = { status := if swReached c s'.t then .finished else .running, tOld := some v.st.t, st := s' }) ∨
    (v.status = .running ∧ c.tb ≠ some v.st.t ∧ o ≠ .ok ∧ ∃ s', swStepImpl c fuel v.st = some (o, s') ∧
      v' = { v with status := .failed, st := s' }) := by
  unfold swStep at h
  split at h
  · rename_i hr
    split at h
    · rename_i hb
      have h' := Option.some.inj h
      exact Or.inr (Or.inl ⟨hr, hb, (congrArg Prod.fst h').symm, (congrArg Prod.snd h').symm⟩)
    · rename_i hb
      split at h
      · cases h
      · rename_i s' hi
        have h' := Option.some.inj h
        exact Or.inr (Or.inr (Or.inl ⟨hr, hb, s', hi, (congrArg Prod.fst h').symm,
          (congrArg Prod.snd h').symm⟩))
      · rename_i o' s' hne hi
        have h' := Option.some.inj h
        have h1 := congrArg Prod.fst h'
        have h2 := congrArg Prod.snd h'
        simp only at h1 h2
        subst h1
        exact Or.inr (Or.inr (Or.inr ⟨hr, hb, fun hc => by subst hc; exact hne rfl, s', hi, h2.symm⟩))
  · rename_i hr
    have h' := Option.some.inj h
    refine Or.inl ⟨?_, (congrArg Prod.fst h').symm, (congrArg Prod.snd h').symm⟩
    intro hc
    exact hr hc

theorem SwInv.first {c : SwCfg K V} {s : SwSt K V} (hs : SwInv c s) (h : K) :
    LocOK c s (swStart (swStiff c s) h) := by
  have hs' := hs.stiff
  obtain ⟨_, _, _, _, _, e6, _, e8, _, _, e11, _⟩ := swStiff_same c s
  exact ⟨hs'.k1, hs'.kM, hs'.base, Or.inr ⟨e8, e6, e11⟩⟩

theorem SwAttempt.ok {c : SwCfg K V} {s : SwSt K V} {l : SwLoc K V} (hs : SwInv c s) (h : SwAttempt c s l) :
    LocOK c s l := by
  induction h with
  | first => exact hs.first _
  | retry _ _ ih => exact fail_ok hs ih

/-- A successful step that was not extrapolated accepts one of its attempts. -/
theorem swStepImpl_ok {c : SwCfg K V} {fuel : ℕ} {s s' : SwSt K V} (h : swStepImpl c fuel s = some (.ok, s')) :
    (∃ b, c.tb = some b ∧ |b - s.t| ≤ swMinStep c s.t ∧ s' = swExtrapolate b (swStiff c s)) ∨
    (∃ l, SwAttempt c s l ∧ swMinStep c s.t ≤ |swLimit c s.t s.h| ∧
      ENorm.leE (swTry c s.t s.y s.hold s.kold l).err (.num 1) = true ∧
      s' = swAccept c (swMinStep c s.t) (swStiff c s) l (swTry c s.t s.y s.hold s.kold l)) := by
  rcases swStepImpl_cases (SwAttempt c s) .first (fun l hl he => .retry hl he) h
    with ⟨b, hb, h1, _, e'⟩ | ⟨ho, _⟩ | ⟨ho, _⟩ | ⟨hm, l, hl, _, he, e'⟩ | ⟨_, l, _, ho, _⟩
  · exact Or.inl ⟨b, hb, h1, e'⟩
  · cases ho
  · cases ho
  · exact Or.inr ⟨l, hl, hm, he, e'⟩
  · cases ho

theorem accept_inv' {c : SwCfg K V} {s : SwSt K V} {l : SwLoc K V} {m : K} (hs : SwInv c s) (hl : LocOK c s l) :
    SwInv c (swAccept c m (swStiff c s) l (swTry c s.t s.y s.hold s.kold l)) := by
  obtain ⟨e1, e2, _, e4, e5, e6, e7, e8, _, _, e11, _⟩ := swStiff_same c s
  have := accept_inv (m := m) hs.stiff (l := l) ⟨hl.k1, hl.kM, hl.base, by rw [e6, e8, e11]; exact hl.first⟩
  rw [e1, e2, e5, e7] at this
  exact this

theorem new_inv (c : SwCfg K V) (hM : 1 ≤ c.kMax) (t0 : K) (y0 yp0 : V) (h0 : K) (wt0 : V → ENorm K)
    (phi0 : ℕ → V) (co0 : Coef K) (nfev : ℕ) :
    SwInv c (newSwag t0 y0 yp0 h0 wt0 phi0 co0 nfev).st := by
  refine ⟨le_rfl, hM, ⟨?_, ?_, ?_⟩, Or.inl ⟨rfl, rfl, rfl⟩⟩
  · show Function.update (Function.update co0.g 0 1) 1 (1 / 2) 0 = 1
    simp
  · show Function.update (Function.update co0.g 0 1) 1 (1 / 2) 1 = 1 / 2
    simp
  · show Function.update co0.sig 0 1 0 = 1
    simp

end
end Extensisq
