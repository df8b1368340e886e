import Verif.Lemmas.SwagInv
import Verif.Model.SwagIndex

/-!
# SWAG: orders, array accesses, step sizes, termination (C45, C46)
-/

set_option linter.unusedSectionVars false

namespace Extensisq
open Finset

section
variable {K V : Type*} [Field K] [LinearOrder K] [IsStrictOrderedRing K] [AddCommGroup V] [Module K V]

/-- A running solver reached from a new one satisfies the invariant. -/
theorem SwReach.inv {c : SwCfg K V} {v0 v : SwSolver K V} (h0 : SwInv c v0.st) (hr : SwReach c v0 v)
    (hs : v.status = .running) : SwInv c v.st := by
  induction hr with
  | refl => exact h0
  | @tail v1 v2 o fuel hr1 hstep ih =>
    rcases swStep_cases hstep with ⟨_, _, e⟩ | ⟨_, _, _, e⟩ | ⟨r, _, s', hi, _, e⟩ | ⟨_, _, _, s', _, e⟩
    · subst e; exact ih hs
    · rw [e] at hs; cases hs
    · have hinv := ih r
      rcases swStepImpl_ok hi with ⟨b, hb, _, e'⟩ | ⟨l, hl, _, _, e'⟩
      · exfalso
        rw [e] at hs
        have : s'.t = b := by rw [e']; rfl
        simp only [swReached, hb, this, sub_self, mul_zero, le_refl, decide_true, if_true] at hs
        cases hs
      · rw [e, e']
        exact accept_inv' hinv (hl.ok hinv)
    · rw [e] at hs; cases hs

/-! ## C45: orders and array accesses -/

/-- **C45.** Through every history of successes and failures the order stays between one and `k_max`. -/
theorem C45_order_bounds {c : SwCfg K V} (hM : 1 ≤ c.kMax) {t0 : K} {y0 yp0 : V} {h0 : K}
    {wt0 : V → ENorm K} {phi0 : ℕ → V} {co0 : Coef K} {nfev : ℕ} {v : SwSolver K V}
    (hr : SwReach c (newSwag t0 y0 yp0 h0 wt0 phi0 co0 nfev) v) (hs : v.status = .running) :
    1 ≤ v.st.k ∧ v.st.k ≤ c.kMax := by
  have := hr.inv (new_inv c hM t0 y0 yp0 h0 wt0 phi0 co0 nfev) hs
  exact ⟨this.k1, this.kM⟩

theorem order_changes {c : SwCfg K V} {fuel : ℕ} {s s' : SwSt K V} (hs : SwInv c s)
    (h : swStepImpl c fuel s = some (.ok, s')) (hk : s'.kold ≠ 0) :
    1 ≤ s'.kold ∧ s'.kold ≤ s.k ∧ s'.k ≤ s'.kold + 1 ∧ s'.kold ≤ s'.k + 1 ∧
      (s'.nfs = s.nfs → s'.kold = s.k) ∧
      (s'.nfs ≤ s.nfs + 2 → s.k ≤ s'.kold + (s'.nfs - s.nfs)) ∧
      (s.nfs + 3 ≤ s'.nfs → s'.kold = 1) := by
  obtain ⟨e1, e2, _, e4, e5, e6, e7, e8, _, _, e11, _, _, e14, _⟩ := swStiff_same c s
  let P : SwLoc K V → Prop := fun l => LocOK c s l ∧ l.k ≤ s.k ∧ l.nfs = s.nfs + l.ifail ∧
    (l.ifail ≤ 2 → s.k ≤ l.k + l.ifail) ∧ (3 ≤ l.ifail → l.k = 1)
  have hstart : P (swStart (swStiff c s) (swLimit c s.t s.h)) := by
    refine ⟨⟨?_, ?_, ?_, Or.inr ⟨e8, e6, e11⟩⟩, ?_, ?_, ?_, ?_⟩
    · show 1 ≤ (swStiff c s).k; rw [e6]; exact hs.k1
    · show (swStiff c s).k ≤ _; rw [e6]; exact hs.kM
    · show CBase (swStiff c s).co; rw [e11]; exact hs.base
    · show (swStiff c s).k ≤ _; rw [e6]
    · show (swStiff c s).nfs = _; rw [e14]; rfl
    · intro _; show s.k ≤ (swStiff c s).k + 0; rw [e6]; omega
    · intro h; simp [swStart] at h
  have hf : ∀ l, P l → ENorm.leE (swTry c s.t s.y s.hold s.kold l).err (.num 1) = false →
      P (swFail c l (swTry c s.t s.y s.hold s.kold l)) := by
    rintro l ⟨p1, p2, p3, p4, p5⟩ _
    have hkn : 1 ≤ (swTry c s.t s.y s.hold s.kold l).knew ∧ (swTry c s.t s.y s.hold s.kold l).knew ≤ l.k ∧
      l.k ≤ (swTry c s.t s.y s.hold s.kold l).knew + 1 := lowerOrder_bounds p1.k1
    have hkk : (swFail c l (swTry c s.t s.y s.hold s.kold l)).k
      = if 3 ≤ l.ifail + 1 then 1 else (swTry c s.t s.y s.hold s.kold l).knew := rfl
    have hi : (swFail c l (swTry c s.t s.y s.hold s.kold l)).ifail = l.ifail + 1 := rfl
    have hn : (swFail c l (swTry c s.t s.y s.hold s.kold l)).nfs = l.nfs + 1 := rfl
    have := p1.k1
    refine ⟨fail_ok hs p1, ?_, ?_, ?_, ?_⟩
    · rw [hkk]; split <;> omega
    · rw [hi, hn]; omega
    · rw [hi, hkk]; intro h; rw [if_neg (by omega)]; have := p4 (by omega); omega
    · rw [hi, hkk]; intro h; rw [if_pos h]
  rcases swStepImpl_cases P hstart hf h
    with ⟨b, hb, _, _, e'⟩ | ⟨ho, _⟩ | ⟨ho, _⟩ | ⟨_, l, ⟨p1, p2, p3, p4, p5⟩, _, _, e'⟩ | ⟨_, l, _, ho, _⟩
  · rw [e'] at hk; exact absurd rfl hk
  · cases ho
  · cases ho
  · have h1 : s'.kold = l.k := by rw [e']; rfl
    have h2 : s'.nfs = l.nfs := by rw [e']; rfl
    have h3 : SwInv c s' := by
      rw [e']
      have := accept_inv (m := swMinStep c s.t) hs.stiff
        (l := l) ⟨p1.k1, p1.kM, p1.base, by rw [e6, e8, e11]; exact p1.first⟩
      rw [e1, e2, e5, e7] at this
      exact this
    have := p1.k1
    rcases h3.rel with ⟨r, _⟩ | ⟨r1, r2, r3, r4, _⟩
    · exact absurd r hk
    · rw [h1, h2] at *
      refine ⟨r1, p2, r3, r4, ?_, ?_, ?_⟩
      · intro h5; have := p4 (by omega); omega
      · intro h5; have := p4 (by omega); omega
      · intro h5; exact p5 (by omega)
  · cases ho

/-- **C45.** A successful step that was not extrapolated (`kold` is the order it used, zero if extrapolated)
lowers the order at most once per failed attempt, uses order one from the third failure on, and plans an order
that differs by at most one from the one used. -/
theorem C45_order_changes {c : SwCfg K V} (hM : 1 ≤ c.kMax) {t0 : K} {y0 yp0 : V} {h0 : K}
    {wt0 : V → ENorm K} {phi0 : ℕ → V} {co0 : Coef K} {nfev : ℕ} {v v' : SwSolver K V} {fuel : ℕ}
    (hr : SwReach c (newSwag t0 y0 yp0 h0 wt0 phi0 co0 nfev) v) (hs : v.status = .running)
    (hb : c.tb ≠ some v.st.t) (h : swStep c fuel v = some (.ok, v')) (hk : v'.st.kold ≠ 0) :
    1 ≤ v'.st.kold ∧ v'.st.kold ≤ v.st.k ∧ v'.st.k ≤ v'.st.kold + 1 ∧ v'.st.kold ≤ v'.st.k + 1 ∧
      (v'.st.nfs = v.st.nfs → v'.st.kold = v.st.k) ∧
      (v'.st.nfs ≤ v.st.nfs + 2 → v.st.k ≤ v'.st.kold + (v'.st.nfs - v.st.nfs)) ∧
      (v.st.nfs + 3 ≤ v'.st.nfs → v'.st.kold = 1) := by
  have hinv := hr.inv (new_inv c hM t0 y0 yp0 h0 wt0 phi0 co0 nfev) hs
  rcases swStep_cases h with ⟨h1, _⟩ | ⟨_, h1, _⟩ | ⟨_, _, s', hi, _, e⟩ | ⟨_, _, h1, _⟩
  · exact absurd hs h1
  · exact absurd h1 hb
  · rw [e] at hk ⊢
    exact order_changes hinv hi hk
  · exact absurd rfl h1

theorem acc_append {l1 l2 : List Acc} (h1 : ∀ a ∈ l1, a.ok) (h2 : ∀ a ∈ l2, a.ok) : ∀ a ∈ l1 ++ l2, a.ok := by
  intro a ha
  rcases List.mem_append.mp ha with h | h
  · exact h1 a h
  · exact h2 a h

theorem indices_attempt {c : SwCfg K V} (h12 : c.kMax ≤ 12) {s : SwSt K V} {l : SwLoc K V} (hs : SwInv c s)
    (hl : LocOK c s l) :
    (∀ a ∈ accBlock1 c.kMax l.k (swTry c s.t s.y s.hold s.kold l).ns s.kold l.co, a.ok) ∧
    (∀ a ∈ accBlock23 c.kMax l.k (swTry c s.t s.y s.hold s.kold l).ns, a.ok) ∧
    (∀ m, ∀ a ∈ accBlock4 c.kMax l.k (swAccept c m (swStiff c s) l (swTry c s.t s.y s.hold s.kold l)).k, a.ok) := by
  have hns : (swTry c s.t s.y s.hold s.kold l).ns = newNs l.h s.hold l.ns s.kold := rfl
  obtain ⟨e', ci', rel'⟩ := try_coef hs hl
  have hk1 := hl.k1
  have hkM := hl.kM
  have hns1 : 1 ≤ (swTry c s.t s.y s.hold s.kold l).ns := by
    have := ci'.he
    rcases rel' with ⟨h, _⟩ | ⟨h, _⟩ <;> omega
  refine ⟨?_, ?_, ?_⟩
  · unfold accBlock1
    split
    · rename_i hx
      refine acc_append (acc_append ?_ ?_) ?_
      · intro a ha
        simp only [accSizes, List.mem_cons, List.not_mem_nil, or_false] at ha
        rcases ha with rfl | rfl | rfl | rfl | rfl | rfl <;>
          (simp only [Acc.ok, szK, szK1]; omega)
      · split
        · intro a ha
          simp only [accInit, List.mem_append, List.mem_cons, List.not_mem_nil, or_false] at ha
          rcases ha with (rfl | rfl) | ha
          · simp only [Acc.ok, szK]; omega
          · simp only [Acc.ok, szK1]; omega
          · split at ha
            · simp only [List.mem_cons, List.not_mem_nil, or_false] at ha
              rcases ha with rfl | rfl
              · simp only [Acc.ok, szGi]; omega
              · simp only [Acc.ok, szK]; omega
            · cases ha
        · rename_i hn1
          -- not the first step with this size: the arrays are those of the step before
          have hne : l.ns ≠ 0 := by intro h; apply hn1; rw [hns, h, newNs_zero]
          rcases hl.first with h0 | ⟨f1, f2, f3⟩
          · exact absurd h0 hne
          rcases hs.rel with ⟨_, r2, _⟩ | ⟨r1, r2, r3, r4, e, ci, rel⟩
          · exact absurd (f1.trans r2) hne
          have hh : l.h = s.hold := by
            by_contra hc
            exact hn1 (by rw [hns, newNs_ne hc])
          have he := ci.he
          have hek := ci.hk
          have htop := ci.top
          have hshape := ci.shape
          have hns' : (swTry c s.t s.y s.hold s.kold l).ns = e + 1 := by
            rw [hns, hh, newNs_eq, f1]
            rcases rel with ⟨n1, n2⟩ | ⟨n1, n2, n3⟩
            · rw [if_pos (by omega), n1]
            · rw [if_neg (by omega), n1]
          rw [hns'] at hx ⊢
          rw [f2] at hx hkM hk1
          rw [f2, f3]
          have hcase : (s.k = s.co.kprev ∧ ¬ s.k < s.kold) ∨ (s.k + 1 = s.co.kprev ∧ s.k < s.kold) ∨
              (s.k = s.co.kprev + 1 ∧ ¬ s.k < s.kold) := by
            rcases rel with ⟨n1, n2⟩ | ⟨n1, n2, n3⟩ <;> omega
          clear ci' rel' hns1 hns hns' rel hn1 hne
          have hiv : s.co.ivc ≠ 0 → s.co.kprev - e + 3 ≤ s.co.iv (s.co.ivc - 1) ∧
              s.co.iv (s.co.ivc - 1) ≤ s.co.kprev + 1 := by
            intro h
            obtain ⟨n, hn⟩ := Nat.exists_eq_succ_of_ne_zero h
            rw [hn] at hshape ⊢
            exact ⟨hshape.1, hshape.top_le⟩
          generalize s.co.iv (s.co.ivc - 1) = iw at hiv
          generalize s.co.ivc = ivc at *
          generalize s.co.kprev = kp at *
          refine acc_append ?_ ?_
          · split
            · rename_i hup
              simp only [accRaise]
              refine acc_append (acc_append (acc_append ?_ ?_) ?_) ?_
              · split
                · rename_i hi
                  have hi' : ivc ≠ 0 := by exact_mod_cast hi
                  have := hiv hi'
                  intro a ha
                  simp only [List.mem_cons, List.not_mem_nil, or_false] at ha
                  subst ha
                  simp only [Acc.ok, szIv]; omega
                · refine acc_append ?_ ?_
                  · intro a ha
                    simp only [List.mem_cons, List.not_mem_nil, or_false] at ha
                    rcases ha with rfl | rfl
                    · simp only [Acc.ok, szK]; omega
                    · simp only [Acc.ok, szK1]; omega
                  · split
                    · intro a ha
                      simp only [List.mem_cons, List.not_mem_nil, or_false] at ha
                      rcases ha with rfl | rfl
                      · simp only [Acc.ok, szGi]; omega
                      · simp only [Acc.ok, szK]; omega
                    · intro a ha; cases ha
              · intro a ha
                simp only [List.mem_cons, List.not_mem_nil, or_false] at ha
                subst ha
                simp only [Acc.ok, szK]
                split
                · rename_i hi
                  have hi' : ivc ≠ 0 := by exact_mod_cast hi
                  have := hiv hi'
                  omega
                · omega
              · have hjp : (1 : ℤ) ≤ if (ivc : ℤ) ≠ 0 then (s.k : ℤ) + 1 - iw else 1 := by
                  split
                  · rename_i hi
                    have hi' : ivc ≠ 0 := by exact_mod_cast hi
                    have := hiv hi'
                    omega
                  · omega
                generalize (if (ivc : ℤ) ≠ 0 then (s.k : ℤ) + 1 - iw else 1) = jv at hjp
                intro a ha
                by_cases hj : jv < ((e + 1 : ℕ) : ℤ) - 1
                · rw [if_pos hj] at ha
                  simp only [List.mem_cons, List.not_mem_nil, or_false] at ha
                  subst ha
                  simp only [Acc.ok, szK]
                  omega
                · rw [if_neg hj] at ha; cases ha
              · have hjp : (1 : ℤ) ≤ if (ivc : ℤ) ≠ 0 then (s.k : ℤ) + 1 - iw else 1 := by
                  split
                  · rename_i hi
                    have hi' : ivc ≠ 0 := by exact_mod_cast hi
                    have := hiv hi'
                    omega
                  · omega
                generalize (if (ivc : ℤ) ≠ 0 then (s.k : ℤ) + 1 - iw else 1) = jv at hjp
                intro a ha
                by_cases hj : (s.k : ℤ) = ((e + 1 : ℕ) : ℤ) ∧ jv < ((e + 1 : ℕ) : ℤ) - 1
                · rw [if_pos hj] at ha
                  simp only [List.mem_cons, List.not_mem_nil, or_false] at ha
                  rcases ha with rfl | rfl
                  · simp only [Acc.ok, szGi]; omega
                  · simp only [Acc.ok, szK]; omega
                · rw [if_neg hj] at ha; cases ha
            · intro a ha; cases ha
          · simp only [accUpdate]
            refine acc_append (acc_append ?_ ?_) ?_
            · intro a ha
              simp only [List.mem_cons, List.not_mem_nil, or_false] at ha
              rcases ha with rfl | rfl | rfl | rfl | rfl | rfl <;>
                (simp only [Acc.ok, szK, szK1]; omega)
            · split
              · intro a ha
                simp only [List.mem_cons, List.not_mem_nil, or_false] at ha
                rcases ha with rfl | rfl
                · simp only [Acc.ok, szGi]; omega
                · simp only [Acc.ok, szK]; omega
              · intro a ha; cases ha
            · split
              · rename_i hlt
                intro a ha
                simp only [List.mem_cons, List.not_mem_nil, or_false] at ha
                subst ha
                rw [if_neg (by omega)]
                simp only [Acc.ok, szIv]
                omega
              · intro a ha; cases ha
      · intro a ha
        simp only [accLoop, List.mem_cons, List.not_mem_nil, or_false] at ha
        rcases ha with rfl | rfl | rfl <;> (simp only [Acc.ok, szK, szK1]; omega)
    · intro a ha; cases ha
  · refine acc_append (acc_append (acc_append ?_ ?_) ?_) ?_
    · intro a ha
      simp only [List.mem_cons, List.not_mem_nil, or_false] at ha
      rcases ha with rfl | rfl | rfl | rfl | rfl | rfl | rfl | rfl | rfl <;>
        (simp only [Acc.ok, szK, szK1, szPhi, szTup]; omega)
    · split
      · intro a ha
        simp only [List.mem_cons, List.not_mem_nil, or_false] at ha
        rcases ha with rfl | rfl | rfl <;> (simp only [Acc.ok, szK1, szPhi, szTup]; omega)
      · intro a ha; cases ha
    · split
      · intro a ha
        simp only [List.mem_cons, List.not_mem_nil, or_false] at ha
        rcases ha with rfl | rfl | rfl <;> (simp only [Acc.ok, szK1, szPhi, szTup]; omega)
      · intro a ha; cases ha
    · intro a ha
      simp only [List.mem_cons, List.not_mem_nil, or_false] at ha
      rcases ha with rfl | rfl | rfl | rfl <;> (simp only [Acc.ok, szK, szPhi]; omega)
  · intro m a ha
    have hn := accept_inv' (m := m) hs hl
    have h1 := hn.k1
    have h2 := hn.kM
    simp only [accBlock4, List.mem_cons, List.not_mem_nil, or_false] at ha
    rcases ha with rfl | rfl | rfl | rfl | rfl | rfl <;>
      (simp only [Acc.ok, szK1, szPhi, szTup]; omega)

/-- **C45.** Every attempt of every step of a running solver uses only indices within the arrays allocated by the
constructor, for every `k_max` between one and twelve. -/
theorem C45_indices {c : SwCfg K V} (hM : 1 ≤ c.kMax) (h12 : c.kMax ≤ 12) {t0 : K} {y0 yp0 : V} {h0 : K}
    {wt0 : V → ENorm K} {phi0 : ℕ → V} {co0 : Coef K} {nfev : ℕ} {v : SwSolver K V}
    (hr : SwReach c (newSwag t0 y0 yp0 h0 wt0 phi0 co0 nfev) v) (hs : v.status = .running) {l : SwLoc K V}
    (hl : SwAttempt c v.st l) :
    let r := swTry c v.st.t v.st.y v.st.hold v.st.kold l
    (∀ a ∈ accBlock1 c.kMax l.k r.ns v.st.kold l.co, a.ok) ∧ (∀ a ∈ accBlock23 c.kMax l.k r.ns, a.ok) ∧
    (∀ m, ∀ a ∈ accBlock4 c.kMax l.k (swAccept c m (swStiff c v.st) l r).k, a.ok) := by
  have hinv := hr.inv (new_inv c hM t0 y0 yp0 h0 wt0 phi0 co0 nfev) hs
  exact indices_attempt h12 hinv (hl.ok hinv)

theorem indices_dense {c : SwCfg K V} {s : SwSt K V} (hs : SwInv c s) (hk : s.kold ≠ 0) :
    ∀ a ∈ accDense c.kMax s.kold s.co, a.ok := by
  rcases hs.rel with ⟨r, _⟩ | ⟨r1, r2, r3, r4, e, ci, rel⟩
  · exact absurd r hk
  have he := ci.he
  have hek := ci.hk
  have htop := ci.top
  have hshape := ci.shape
  have g1 := ci.kgi_le
  have g2 := ci.kgi_ge
  have g3 := ci.kgi_eq
  have g4 := ci.kgi_lt
  have hiv : s.co.ivc ≠ 0 → s.co.kprev - e + 3 ≤ s.co.iv (s.co.ivc - 1) ∧
      s.co.iv (s.co.ivc - 1) ≤ s.co.kprev + 1 := by
    intro h
    obtain ⟨n, hn⟩ := Nat.exists_eq_succ_of_ne_zero h
    rw [hn] at hshape ⊢
    exact ⟨hshape.1, hshape.top_le⟩
  simp only [accDense]
  generalize s.co.iv (s.co.ivc - 1) = iw at hiv
  generalize s.co.ivc = ivc at *
  generalize s.co.kprev = kp at *
  generalize s.co.kgi = kgi at *
  refine acc_append ?_ ?_
  · split
    · rename_i hle
      intro a ha
      simp only [List.mem_cons, List.not_mem_nil, or_false] at ha
      subst ha
      simp only [Acc.ok, szGi]
      omega
    · rename_i hgt
      have hkp : kp = s.kold := by
        rcases rel with ⟨n1, n2⟩ | ⟨n1, n2, n3⟩
        · exact n2
        · by_contra hc
          have : e < kp := by omega
          have := g3 this
          omega
      refine acc_append (acc_append ?_ ?_) ?_
      · split
        · intro a ha
          simp only [List.mem_cons, List.not_mem_nil, or_false] at ha
          subst ha
          simp only [Acc.ok, szK1]; omega
        · rename_i hi
          have := hiv hi
          intro a ha
          simp only [List.mem_cons, List.not_mem_nil, or_false] at ha
          rcases ha with rfl | rfl
          · simp only [Acc.ok, szIv]; omega
          · simp only [Acc.ok, szK]; omega
      · intro a ha
        simp only [List.mem_cons, List.not_mem_nil, or_false] at ha
        subst ha
        simp only [Acc.ok, szK]
        split
        · omega
        · rename_i hi
          have := hiv hi
          omega
      · have hm1 : (1 : ℤ) ≤ if ivc = 0 then 1 else (s.kold : ℤ) - iw + 2 := by
          split
          · omega
          · rename_i hi
            have := hiv hi
            omega
        generalize (if ivc = 0 then 1 else (s.kold : ℤ) - iw + 2) = m at hm1
        intro a ha
        by_cases hm : m < s.kold
        · rw [if_pos hm] at ha
          simp only [List.mem_cons, List.not_mem_nil, or_false] at ha
          subst ha
          simp only [Acc.ok, szK]
          omega
        · rw [if_neg hm] at ha; cases ha
  · intro a ha
    simp only [List.mem_cons, List.not_mem_nil, or_false] at ha
    rcases ha with rfl | rfl | rfl <;> (simp only [Acc.ok, szK, szK1, szPhi]; omega)

/-- **C45.** The dense output object built after any successful step of a running solver, if that step was not the
extrapolated last one (whose output is linear), only uses indices within the arrays. -/
theorem C45_indices_dense {c : SwCfg K V} (hM : 1 ≤ c.kMax) {t0 : K} {y0 yp0 : V} {h0 : K}
    {wt0 : V → ENorm K} {phi0 : ℕ → V} {co0 : Coef K} {nfev : ℕ} {v v' : SwSolver K V} {fuel : ℕ}
    (hr : SwReach c (newSwag t0 y0 yp0 h0 wt0 phi0 co0 nfev) v) (hs : v.status = .running)
    (h : swStep c fuel v = some (.ok, v')) (hk : v'.st.kold ≠ 0) :
    ∀ a ∈ accDense c.kMax v'.st.kold v'.st.co, a.ok := by
  have hinv := hr.inv (new_inv c hM t0 y0 yp0 h0 wt0 phi0 co0 nfev) hs
  rcases swStep_cases h with ⟨h1, _⟩ | ⟨_, h1, _, e⟩ | ⟨_, hb', s', hi, _, e⟩ | ⟨_, _, h1, _⟩
  · exact absurd hs h1
  · rw [e] at hk ⊢
    exact indices_dense hinv hk
  · rcases swStepImpl_ok hi with ⟨b, _, _, e'⟩ | ⟨l, hl, _, _, e'⟩
    · rw [e, e'] at hk; exact absurd rfl hk
    · have h2 := accept_inv' (m := swMinStep c v.st.t) hinv (hl.ok hinv)
      rw [← e'] at h2
      rw [e] at hk ⊢
      exact indices_dense h2 hk
  · exact absurd rfl h1

end
end Extensisq
