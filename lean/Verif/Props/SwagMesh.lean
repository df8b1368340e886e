import Verif.Lemmas.SwagPoly
import Mathlib.LinearAlgebra.Dual.Lemmas

/-!
# SWAG: difference table, formulas and interpolant (C47, C48, C77)
-/

set_option linter.unusedSectionVars false

namespace Extensisq
open Finset Polynomial

section
variable {K V : Type*} [Field K] [LinearOrder K] [IsStrictOrderedRing K] [AddCommGroup V] [Module K V]

/-- All accepted times so far are distinct. (They are if no norm was ever infinite, or if the integration does
not start at the time zero or pass through it, see `C46_distinct_times`.) -/
def Distinct (s : SwSt K V) : Prop := (s.hist.map Prod.fst).Nodup

/-! ## The history -/

/-- How a successful step of a running solver changes the history. -/
theorem step_hist {c : SwCfg K V} {fuel : ℕ} {v v' : SwSolver K V} (hs : v.status = .running)
    (hb : c.tb ≠ some v.st.t) (h : swStep c fuel v = some (.ok, v')) :
    (∃ b, c.tb = some b ∧ v'.st = swExtrapolate b (swStiff c v.st)) ∨
    (∃ l, SwAttempt c v.st l ∧ swMinStep c v.st.t ≤ |l.h| ∧
      ENorm.leE (swTry c v.st.t v.st.y v.st.hold v.st.kold l).err (.num 1) = true ∧
      v'.st = swAccept c (swMinStep c v.st.t) (swStiff c v.st) l
        (swTry c v.st.t v.st.y v.st.hold v.st.kold l)) := by
  rcases swStep_cases h with ⟨h1, _⟩ | ⟨_, h1, _, e⟩ | ⟨_, hb', s', hi, _, e⟩ | ⟨_, _, h1, _⟩
  · exact absurd hs h1
  · exact absurd h1 hb
  · rcases swStepImpl_min hi with ⟨b, hb2, h3, e'⟩ | ⟨l, hl, hm, _, he, e'⟩
    · left; refine ⟨b, hb2, ?_⟩; rw [e]; exact e'
    · right; refine ⟨l, hl, hm, he, ?_⟩; rw [e]; exact e'
  · exact absurd rfl h1

theorem accept_hist {c : SwCfg K V} {s : SwSt K V} {l : SwLoc K V} {m : K} {s' : SwSt K V}
    (e : s' = swAccept c m (swStiff c s) l (swTry c s.t s.y s.hold s.kold l)) :
    s'.hist = (s'.t, s'.yp) :: s.hist ∧ s'.t = s.t + l.h ∧ s'.yp = c.fn s'.t s'.y ∧ s'.yOld = s.y ∧
    s'.co = (swTry c s.t s.y s.hold s.kold l).co ∧ s'.kold = l.k := by
  obtain ⟨e1, e2, e3, e4, e5, e6, e7, e8, e9, e10, e11, e12, e13, e14, e15, e16⟩ := swStiff_same c s
  refine ⟨?_, ?_, ?_, ?_, ?_, ?_⟩
  · have : s'.hist = (s'.t, s'.yp) :: (swStiff c s).hist := by rw [e]; rfl
    rw [this, e15]
  · rw [e]; show (swStiff c s).t + l.h = _; rw [e1]
  · rw [e]; rfl
  · rw [e]; show (swStiff c s).yOld = _; exact e16
  · rw [e]; rfl
  · rw [e]; rfl

/-- **C77.** Every regular step stores the new time with the derivative of the right-hand side in the new point,
and leaves the stored history as it is. -/
theorem C77_history {c : SwCfg K V} {fuel : ℕ} {v v' : SwSolver K V} (hs : v.status = .running)
    (hb : c.tb ≠ some v.st.t) (h : swStep c fuel v = some (.ok, v')) (hk : v'.st.kold ≠ 0) :
    v'.st.hist = (v'.st.t, c.fn v'.st.t v'.st.y) :: v.st.hist := by
  rcases step_hist hs hb h with ⟨b, _, e⟩ | ⟨l, _, _, _, e⟩
  · rw [e] at hk; exact absurd rfl hk
  · obtain ⟨h1, _, h3, _⟩ := accept_hist e
    rw [h1, h3]

/-- The times of the history do not go back. -/
theorem SwReach.mono {c : SwCfg K V} (ok : SwOK c) {v0 v : SwSolver K V} (ht0 : SwTime c v0.st)
    (h0 : (∀ a ∈ v0.st.hist, 0 ≤ c.dir * (v0.st.t - a.1)) ∧
      v0.st.hist.Pairwise fun a b => 0 ≤ c.dir * (a.1 - b.1)) (hr : SwReach c v0 v) (hs : v.status = .running) :
    (∀ a ∈ v.st.hist, 0 ≤ c.dir * (v.st.t - a.1)) ∧ v.st.hist.Pairwise fun a b => 0 ≤ c.dir * (a.1 - b.1) := by
  induction hr with
  | refl => exact h0
  | @tail v1 v2 o fuel hr1 hstep ih =>
    rcases swStep_cases hstep with ⟨_, _, e⟩ | ⟨_, _, _, e⟩ | ⟨r, hb, s', hi, eo, e⟩ | ⟨_, _, _, s', _, e⟩
    · subst e; exact ih hs
    · rw [e] at hs; cases hs
    · have ht := hr1.time ok ht0 r
      rcases swStepImpl_min hi with ⟨b, hb, _, e'⟩ | ⟨l, hl, hmn, _, he, e'⟩
      · exfalso
        rw [e] at hs
        have : s'.t = b := by rw [e']; rfl
        simp only [swReached, hb, this, sub_self, mul_zero, le_refl, decide_true, if_true] at hs
        cases hs
      · obtain ⟨i1, i2⟩ := ih r
        obtain ⟨a1, a2, _⟩ := accept_hist e'
        have hlt := attempt_time ok ht (fun b h1 h2 => hb (by rw [h1, h2])) hl
        have hnn : 0 ≤ c.dir * l.h := by
          rcases hlt.sign with h | ⟨h, _⟩
          · exact h.le
          · rw [h, mul_zero]
        have hall : ∀ a ∈ v1.st.hist, 0 ≤ c.dir * (s'.t - a.1) := by
          intro a ha
          have h1 := i1 a ha
          rw [a2, show c.dir * (v1.st.t + l.h - a.1) = c.dir * (v1.st.t - a.1) + c.dir * l.h by ring]
          exact add_nonneg h1 hnn
        rw [e]
        simp only
        rw [a1]
        refine ⟨?_, List.pairwise_cons.mpr ⟨hall, i2⟩⟩
        intro a ha
        rcases List.mem_cons.mp ha with rfl | ha
        · simp
        · exact hall a ha
    · rw [e] at hs; cases hs

theorem strict_of_nodup {dir : K} (hd : dir = 1 ∨ dir = -1) : ∀ {l : List (K × V)},
    (l.Pairwise fun a b => 0 ≤ dir * (a.1 - b.1)) → (l.map Prod.fst).Nodup → Strict dir l
  | [], _, _ => List.Pairwise.nil
  | a :: l, h, hn => by
    have h1 := List.pairwise_cons.mp h
    rw [List.map_cons, List.nodup_cons] at hn
    refine List.pairwise_cons.mpr ⟨fun b hb => lt_of_le_of_ne (h1.1 b hb) fun hc => hn.1 ?_,
      strict_of_nodup hd h1.2 hn.2⟩
    rcases mul_eq_zero.mp hc.symm with h3 | h3
    · rcases hd with h2 | h2 <;> rw [h2] at h3 <;> norm_num at h3
    · rw [sub_eq_zero.mp h3]
      exact List.mem_map_of_mem hb

/-- Everything known of a running solver reached from a new one. -/
structure Known (c : SwCfg K V) (v : SwSolver K V) : Prop where
  inv : SwInv c v.st
  time : SwTime c v.st
  mesh : Distinct v.st → MInv v.st
  strict : Distinct v.st → Strict c.dir v.st.hist

theorem known {c : SwCfg K V} (ok : SwOK c) {t0 : K} {y0 yp0 : V} {h0 : K}
    {wt0 : V → ENorm K} {phi0 : ℕ → V} {co0 : Coef K} {nfev : ℕ} (hh : 0 < c.dir * h0)
    (hb : ∀ b, c.tb = some b → 0 ≤ c.dir * (b - t0)) {v : SwSolver K V}
    (hr : SwReach c (newSwag t0 y0 yp0 h0 wt0 phi0 co0 nfev) v) (hs : v.status = .running) : Known c v := by
  have hi0 := new_inv c ok.kMax t0 y0 yp0 h0 wt0 phi0 co0 nfev
  have ht0 : SwTime c (newSwag t0 y0 yp0 h0 wt0 phi0 co0 nfev).st := newSwag_time hh hb
  have hm := hr.mono ok ht0 ⟨by intro a ha; simp [newSwag] at ha; subst ha; simp [newSwag],
    List.pairwise_singleton _ _⟩ hs
  refine ⟨hr.inv hi0 hs, hr.time ok ht0 hs, fun hd => ?_, fun hd => strict_of_nodup ok.dir hm.2 hd⟩
  exact hr.mesh ok hi0 ht0 (MInv.new _ _ _ _ _ _ _ _) hs (strict_of_nodup ok.dir hm.2 hd)

/-- **C46.** If no norm is ever infinite, all accepted times are distinct. -/
theorem C46_distinct_times {c : SwCfg K V} (ok : SwOK c) (hfin : ∀ p y x, c.scale p y x ≠ .inf) {t0 : K} {y0 yp0 : V}
    {h0 : K} {wt0 : V → ENorm K} {phi0 : ℕ → V} {co0 : Coef K} {nfev : ℕ} (hh : 0 < c.dir * h0)
    (hb : ∀ b, c.tb = some b → 0 ≤ c.dir * (b - t0)) {v : SwSolver K V}
    (hr : SwReach c (newSwag t0 y0 yp0 h0 wt0 phi0 co0 nfev) v) (hs : v.status = .running) : Distinct v.st := by
  induction hr with
  | refl => simp [Distinct, newSwag]
  | @tail v1 v2 o fuel hr1 hstep ih =>
    rcases swStep_cases hstep with ⟨_, _, e⟩ | ⟨_, _, _, e⟩ | ⟨r, hb', s', hi, eo, e⟩ | ⟨_, _, _, s', _, e⟩
    · subst e; exact ih hs
    · rw [e] at hs; cases hs
    · have hk := known ok hh hb hr1 r
      have hd := ih r
      have hp : 0 < c.dir * (v2.st.t - v1.st.t) := by
        rw [eo] at hstep
        exact C46_progress_finite ok hfin hh hb hr1 r hb' hstep
      rcases swStepImpl_min hi with ⟨b, hb, _, e'⟩ | ⟨l, hl, hmn, _, he, e'⟩
      · exfalso
        rw [e] at hs
        have : s'.t = b := by rw [e']; rfl
        simp only [swReached, hb, this, sub_self, mul_zero, le_refl, decide_true, if_true] at hs
        cases hs
      · obtain ⟨a1, a2, _⟩ := accept_hist e'
        rw [e] at hp ⊢
        simp only at hp ⊢
        unfold Distinct at hd ⊢
        rw [a1, List.map_cons, List.nodup_cons]
        refine ⟨fun hc => ?_, hd⟩
        obtain ⟨a, ha, ea⟩ := List.mem_map.mp hc
        have hm1 := (hk.mesh hd)
        obtain ⟨i, hi', rfl⟩ := List.mem_iff_getElem.mp ha
        have h3 : 0 ≤ c.dir * (v1.st.t - v1.st.hist[i].1) := by
          rw [← hm1.now, ← hx_getElem v1.st.hist hi']
          rcases Nat.eq_zero_or_pos i with h0 | h0
          · rw [h0, sub_self, mul_zero]
          · exact ((hk.strict hd).lt h0 hi').le
        simp only at ea
        rw [ea] at h3
        have e4 : c.dir * (s'.t - v1.st.t) + c.dir * (v1.st.t - s'.t) = 0 := by ring
        linarith
    · rw [e] at hs; cases hs

/-! ## C47 -/

/-- **C47.** After a failed attempt with order `k` the differences `phi[:, j]`, `j < k`, and the `psi[i]`,
`i + 1 < k`, are exactly what they were before the step: all that a retry, with the same or a lower order,
reads. -/
theorem C47_restored {c : SwCfg K V} (ok : SwOK c) {t0 : K} {y0 yp0 : V} {h0 : K}
    {wt0 : V → ENorm K} {phi0 : ℕ → V} {co0 : Coef K} {nfev : ℕ} (hh : 0 < c.dir * h0)
    (hb : ∀ b, c.tb = some b → 0 ≤ c.dir * (b - t0)) {v : SwSolver K V}
    (hr : SwReach c (newSwag t0 y0 yp0 h0 wt0 phi0 co0 nfev) v) (hs : v.status = .running)
    (hd : Distinct v.st) (hb0 : c.tb ≠ some v.st.t) {l : SwLoc K V} (hl : SwAttempt c v.st l) (hne : l.h ≠ 0) :
    let l' := swFail c l (swTry c v.st.t v.st.y v.st.hold v.st.kold l)
    l'.k ≤ l.k ∧ (∀ j < l.k, l'.phi j = v.st.phi j) ∧ (∀ i, i + 1 < l.k → l'.co.psi i = v.st.co.psi i) := by
  have hk := known ok hh hb hr hs
  have hm := hk.mesh hd
  have ha := attempt_mesh ok hk.inv hk.time hm (hk.strict hd) (fun b h1 h2 => hb0 (by rw [h1, h2])) hl hne
  obtain ⟨f1, f2, f3⟩ := ha.loc.fail hm ha.nb ha.spec
  refine ⟨?_, f1, fun i hi => ?_⟩
  · show (if 3 ≤ l.ifail + 1 then 1 else (swTry c v.st.t v.st.y v.st.hold v.st.kold l).knew) ≤ l.k
    split
    · exact ha.loc.k1
    · exact (lowerOrder_bounds ha.loc.k1).2.1
  · rw [f2 i hi, hm.psi i (by have := ha.loc.kM; omega)]

/-- **C47.** The repeated attempt only reads those entries: its prediction, its derivative, its error estimate and
its new order are the same for every other content of the arrays. -/
theorem C47_reads {c : SwCfg K V} {s : SwSt K V} {l l1 : SwLoc K V} (hk : l1.k = l.k) (hh : l1.h = l.h)
    (hns : l.ns = 0) (hns1 : l1.ns = 0) (hk1 : 1 ≤ l.k)
    (hphi : ∀ j < l.k, l1.phi j = l.phi j) (hpsi : ∀ i, i + 1 < l.k → l1.co.psi i = l.co.psi i)
    (hb : CBase l.co) (hb1 : CBase l1.co) :
    let r := swTry c s.t s.y s.hold s.kold l
    let r1 := swTry c s.t s.y s.hold s.kold l1
    r1.p = r.p ∧ r1.fp = r.fp ∧ r1.err = r.err ∧ r1.erk = r.erk ∧ r1.knew = r.knew := by
  intro r r1
  have hn : newNs l.h s.hold l.ns s.kold = 1 := by rw [hns, newNs_zero]
  have hn1 : newNs l1.h s.hold l1.ns s.kold = 1 := by rw [hns1, newNs_zero]
  have hco : r.co = coefs l.h l.k 1 s.kold l.co := by
    show coefs l.h l.k (newNs l.h s.hold l.ns s.kold) s.kold l.co = _
    rw [hn]
  have hco1 : r1.co = coefs l.h l.k 1 s.kold l1.co := by
    show coefs l1.h l1.k (newNs l1.h s.hold l1.ns s.kold) s.kold l1.co = _
    rw [hn1, hh, hk]
  have ci := coefs_init (kMax := l.k) (k := l.k) (kold := s.kold) (h := l.h) hk1 le_rfl hb
  have ci1 := coefs_init (kMax := l.k) (k := l.k) (kold := s.kold) (h := l.h) hk1 le_rfl hb1
  have hkp : ∀ a : Coef K, (coefs l.h l.k 1 s.kold a).kprev = l.k := by
    intro a; rw [coefs, if_pos hk1]; rfl
  have e1 : ∀ i < l.k, (stepSizes l.h l.k 1 l1.co).psi i = (stepSizes l.h l.k 1 l.co).psi i := by
    intro i hi
    rw [stepSizes_psi, stepSizes_psi]
    by_cases h0 : i = 1 - 1
    · rw [if_pos h0, if_pos h0]
    · rw [if_neg h0, if_neg h0, if_pos ⟨by omega, hi⟩, if_pos ⟨by omega, hi⟩, hpsi (i - 1) (by omega)]
  have e2 : ∀ i < l.k, r1.co.alpha i = r.co.alpha i := by
    intro i hi
    rw [hco, hco1, coefs_alpha, coefs_alpha, if_pos hk1, if_pos hk1, stepSizes_alpha, stepSizes_alpha]
    by_cases h0 : i = 1 - 1
    · rw [if_pos h0, if_pos h0]
    · rw [if_neg h0, if_neg h0, if_pos ⟨by omega, hi⟩, if_pos ⟨by omega, hi⟩, e1 i hi]
  have e3 : ∀ j < l.k, r1.co.beta j = r.co.beta j := by
    intro i hi
    rw [hco, hco1, coefs_beta, coefs_beta, if_pos hk1, if_pos hk1, stepSizes_beta, stepSizes_beta]
    by_cases h0 : i = 1 - 1
    · rw [if_pos h0, if_pos h0]
    · rw [if_neg h0, if_neg h0, if_pos ⟨by omega, hi⟩, if_pos ⟨by omega, hi⟩]
      refine Finset.prod_congr rfl fun j hj => ?_
      have := Finset.mem_Ico.mp hj
      rw [e1 j (by omega), hpsi j (by omega)]
  have e4 : ∀ i ≤ l.k, r1.co.g i = r.co.g i := by
    intro i hi
    have h1 := ci1.gFull i (by rw [hkp]; exact hi)
    have h2 := ci.gFull i (by rw [hkp]; exact hi)
    rw [← hco] at h2
    rw [← hco1] at h1
    rw [h1, h2]
    exact genG_congr (fun j hj => e2 j (by omega)) 0
  have e5 : ∀ i ≤ l.k, r1.co.sig i = r.co.sig i := by
    intro i hi
    rcases Nat.eq_zero_or_pos i with h0 | h0
    · have h1 := ci1.sig i (by omega)
      have h2 := ci.sig i (by omega)
      rw [hco, hco1, h1, h2]
    · have h1 := ci1.sigFull i h0 (by rw [hkp]; exact hi)
      have h2 := ci.sigFull i h0 (by rw [hkp]; exact hi)
      rw [← hco] at h2
      rw [← hco1] at h1
      rw [h1, h2]
      refine Finset.prod_congr rfl fun j hj => ?_
      have := Finset.mem_Ico.mp hj
      rw [e2 j (by omega)]
  have hr1n : r1.ns = 1 := hn1
  have hrn : r.ns = 1 := hn
  have e6 : ∀ j < l.k, phiStar r1.co.beta l.k 1 l1.phi j = phiStar r.co.beta l.k 1 l.phi j := by
    intro j hj
    rw [phiStar, phiStar, hphi j hj, e3 j hj]
  have e7 : ∀ j ≤ l.k, r1.phi j = r.phi j := by
    intro j hj
    have q1 : r1.phi = phiPredict l.k (phiStar r1.co.beta l.k 1 l1.phi) := by
      rw [← hr1n, ← hk]; rfl
    have q2 : r.phi = phiPredict l.k (phiStar r.co.beta l.k 1 l.phi) := by
      rw [← hrn]; rfl
    rw [q1, q2]
    by_cases hj' : j < l.k
    · rw [phiPredict_lt hj', phiPredict_lt hj']
      exact Finset.sum_congr rfl fun i hi => e6 i (Finset.mem_Ico.mp hi).2
    · rw [phiPredict, phiPredict, if_neg hj', if_neg hj', if_pos (by omega), if_pos (by omega)]
  have hp : r1.p = r.p := by
    have q1 : r1.p = swPredict l.h r1.co.g l.k (phiStar r1.co.beta l.k 1 l1.phi) s.y := by
      rw [← hr1n, ← hk, ← hh]; rfl
    have q2 : r.p = swPredict l.h r.co.g l.k (phiStar r.co.beta l.k 1 l.phi) s.y := by
      rw [← hrn]; rfl
    rw [q1, q2, swPredict, swPredict]
    congr 2
    refine Finset.sum_congr rfl fun j hj => ?_
    have := Finset.mem_range.mp hj
    rw [e4 j (by omega), e6 j this]
  have hfp : r1.fp = r.fp := by
    show c.fn (s.t + l1.h) r1.p = c.fn (s.t + l.h) r.p
    rw [hp, hh]
  have hwt : r1.wt = r.wt := by
    show c.scale r1.p s.y = c.scale r.p s.y
    rw [hp]
  have f1 : ∀ (q : SwLoc K V), (swTry c s.t s.y s.hold s.kold q).err = ENorm.scale
      ((swTry c s.t s.y s.hold s.kold q).co.g (q.k - 1) - (swTry c s.t s.y s.hold s.kold q).co.g q.k)
      (ENorm.scale |q.h| ((swTry c s.t s.y s.hold s.kold q).wt ((swTry c s.t s.y s.hold s.kold q).fp
        - (swTry c s.t s.y s.hold s.kold q).phi 0))) := fun q => rfl
  have f2 : ∀ (q : SwLoc K V), (swTry c s.t s.y s.hold s.kold q).erk = ENorm.scale
      ((swTry c s.t s.y s.hold s.kold q).co.sig q.k * c.gstr (q.k - 1))
      (ENorm.scale |q.h| ((swTry c s.t s.y s.hold s.kold q).wt ((swTry c s.t s.y s.hold s.kold q).fp
        - (swTry c s.t s.y s.hold s.kold q).phi 0))) := fun q => rfl
  have f3 : ∀ (q : SwLoc K V), (swTry c s.t s.y s.hold s.kold q).erkm1 = ENorm.scale
      ((swTry c s.t s.y s.hold s.kold q).co.sig (q.k - 1) * c.gstr (q.k - 2))
      (ENorm.scale |q.h| ((swTry c s.t s.y s.hold s.kold q).wt ((swTry c s.t s.y s.hold s.kold q).phi (q.k - 1)
        + ((swTry c s.t s.y s.hold s.kold q).fp - (swTry c s.t s.y s.hold s.kold q).phi 0)))) := fun q => rfl
  have f4 : ∀ (q : SwLoc K V), (swTry c s.t s.y s.hold s.kold q).knew = lowerOrder q.k
      (swTry c s.t s.y s.hold s.kold q).erk (swTry c s.t s.y s.hold s.kold q).erkm1 (ENorm.scale
      ((swTry c s.t s.y s.hold s.kold q).co.sig (q.k - 2) * c.gstr (q.k - 2 - 1))
      (ENorm.scale |q.h| ((swTry c s.t s.y s.hold s.kold q).wt ((swTry c s.t s.y s.hold s.kold q).phi (q.k - 2)
        + ((swTry c s.t s.y s.hold s.kold q).fp - (swTry c s.t s.y s.hold s.kold q).phi 0))))) := fun q => rfl
  have g2 : r1.erk = r.erk := by
    rw [f2 l1, f2 l, hk, hh]
    show ENorm.scale (r1.co.sig l.k * _) (ENorm.scale _ (r1.wt (r1.fp - r1.phi 0))) = ENorm.scale (r.co.sig l.k * _)
      (ENorm.scale _ (r.wt (r.fp - r.phi 0)))
    rw [e5 l.k le_rfl, hwt, hfp, e7 0 (by omega)]
  have g3 : r1.erkm1 = r.erkm1 := by
    rw [f3 l1, f3 l, hk, hh]
    show ENorm.scale (r1.co.sig (l.k - 1) * _) (ENorm.scale _ (r1.wt (r1.phi (l.k - 1) + (r1.fp - r1.phi 0))))
      = ENorm.scale (r.co.sig (l.k - 1) * _) (ENorm.scale _ (r.wt (r.phi (l.k - 1) + (r.fp - r.phi 0))))
    rw [e5 (l.k - 1) (by omega), hwt, hfp, e7 0 (by omega), e7 (l.k - 1) (by omega)]
  refine ⟨hp, hfp, ?_, g2, ?_⟩
  · rw [f1 l1, f1 l, hk, hh]
    show ENorm.scale (r1.co.g (l.k - 1) - r1.co.g l.k) (ENorm.scale _ (r1.wt (r1.fp - r1.phi 0)))
      = ENorm.scale (r.co.g (l.k - 1) - r.co.g l.k) (ENorm.scale _ (r.wt (r.fp - r.phi 0)))
    rw [e4 l.k le_rfl, e4 (l.k - 1) (by omega), hwt, hfp, e7 0 (by omega)]
  · rw [f4 l1, f4 l, hk, hh]
    show lowerOrder l.k r1.erk r1.erkm1 (ENorm.scale (r1.co.sig (l.k - 2) * _) (ENorm.scale _
        (r1.wt (r1.phi (l.k - 2) + (r1.fp - r1.phi 0)))))
      = lowerOrder l.k r.erk r.erkm1 (ENorm.scale (r.co.sig (l.k - 2) * _) (ENorm.scale _
        (r.wt (r.phi (l.k - 2) + (r.fp - r.phi 0)))))
    rw [g2, g3, e5 (l.k - 2) (by omega), hwt, hfp, e7 0 (by omega), e7 (l.k - 2) (by omega)]

/-! ## C77: the formulas -/

/-- The prediction of an attempt, seen through a linear functional. -/
theorem predict_poly {c : SwCfg K V} {s : SwSt K V} (hm : MInv s) {l : SwLoc K V} (hne : l.h ≠ 0)
    (ha : AttM c s l) (f : V →ₗ[K] K) :
    f (swTry c s.t s.y s.hold s.kold l).p
      = f s.y + inc (newtonP (hx s.hist) (s.t + l.h) l.k fun j => f (s.phi j)) s.t (s.t + l.h) := by
  have hnow := hm.now
  have hn : ∀ i < l.k, s.t + l.h - hx s.hist i ≠ 0 := fun i hi => by
    have := ne_of_dir (ha.ne i hi); rwa [hnow] at this
  rw [inc_newtonP (alpha := (swTry c s.t s.y s.hold s.kold l).co.alpha) hne hn (fun i hi => by
    rw [ha.spec.alpha i hi, hnow])]
  have hp : (swTry c s.t s.y s.hold s.kold l).p = swPredict l.h (swTry c s.t s.y s.hold s.kold l).co.g l.k
    (phiStar (swTry c s.t s.y s.hold s.kold l).co.beta l.k (swTry c s.t s.y s.hold s.kold l).ns l.phi) s.y := rfl
  rw [hp, swPredict, map_add, map_smul, map_sum, smul_eq_mul, add_comm]
  congr 2
  refine Finset.sum_congr rfl fun j hj => ?_
  have hj' := Finset.mem_range.mp hj
  rw [map_smul, star_eq ha.loc ha.spec j hj', map_smul, ha.spec.g j hj'.le, hnow, smul_eq_mul, smul_eq_mul]

/-- The points of the mesh used by an attempt are distinct. -/
theorem mesh_inj {c : SwCfg K V} {s : SwSt K V} (hm : MInv s) (hstr : Strict c.dir s.hist) {k : ℕ}
    (hk : k ≤ s.kold + 1) : ∀ i < k, ∀ j < k, hx s.hist i = hx s.hist j → i = j := by
  intro i hi j hj h
  have hlen := hm.len
  rcases lt_trichotomy i j with h1 | h1 | h1
  · exact absurd (sub_eq_zero.mpr h) (hstr.ne h1 (by omega))
  · exact h1
  · exact absurd (sub_eq_zero.mpr h.symm) (hstr.ne h1 (by omega))

theorem corrector_step {c : SwCfg K V} {s s' : SwSt K V} {l : SwLoc K V} {m : K}
    (e : s' = swAccept c m (swStiff c s) l (swTry c s.t s.y s.hold s.kold l)) :
    s'.y = (l.h * (swTry c s.t s.y s.hold s.kold l).co.g l.k) •
      ((swTry c s.t s.y s.hold s.kold l).fp - (swTry c s.t s.y s.hold s.kold l).phi 0)
      + (swTry c s.t s.y s.hold s.kold l).p := by
  rw [e]; rfl

/-- **C77.** Every regular step with order `k` is an Adams-Bashforth-Moulton step in PECE mode for the actual
mesh of the accepted points. There is a predicted value `p` (at which the right-hand side is evaluated) such that,
through every linear functional `f`:
* `p` is `q(t')` for the polynomial `q` of degree `k` with `q(t) = y` and `q' = fun` in the last `k` points;
* the new solution is `q(t')` for the polynomial `q` of degree `k + 1` with `q(t) = y`, `q' = fun` in the last
  `k` points, and `q'(t') = fun(t', p)`. -/
theorem C77_adams {c : SwCfg K V} (ok : SwOK c) {t0 : K} {y0 yp0 : V} {h0 : K}
    {wt0 : V → ENorm K} {phi0 : ℕ → V} {co0 : Coef K} {nfev : ℕ} (hh : 0 < c.dir * h0)
    (hb : ∀ b, c.tb = some b → 0 ≤ c.dir * (b - t0)) {v v' : SwSolver K V} {fuel : ℕ}
    (hr : SwReach c (newSwag t0 y0 yp0 h0 wt0 phi0 co0 nfev) v) (hs : v.status = .running)
    (hb0 : c.tb ≠ some v.st.t) (h : swStep c fuel v = some (.ok, v')) (hk : v'.st.kold ≠ 0)
    (hd : Distinct v'.st) :
    ∃ p : V, ∀ f : V →ₗ[K] K,
      (∀ q : K[X], q.natDegree ≤ v'.st.kold → q.eval v.st.t = f v.st.y →
        (∀ m < v'.st.kold, (derivative q).eval (hx v.st.hist m) = f (hf v.st.hist m)) →
        f p = q.eval v'.st.t) ∧
      (∀ q : K[X], q.natDegree ≤ v'.st.kold + 1 → q.eval v.st.t = f v.st.y →
        (∀ m < v'.st.kold, (derivative q).eval (hx v.st.hist m) = f (hf v.st.hist m)) →
        (derivative q).eval v'.st.t = f (c.fn v'.st.t p) →
        f v'.st.y = q.eval v'.st.t) := by
  have hkn := known ok hh hb hr hs
  rcases step_hist hs hb0 h with ⟨b, _, e⟩ | ⟨l, hl, hmn, he, e⟩
  · rw [e] at hk; exact absurd rfl hk
  obtain ⟨a1, a2, a3, a4, a5, a6⟩ := accept_hist e
  have hd1 : Distinct v.st := by
    unfold Distinct at hd ⊢
    rw [a1, List.map_cons] at hd
    exact (List.nodup_cons.mp hd).2
  have hm := hkn.mesh hd1
  have hstr := hkn.strict hd1
  have hne : l.h ≠ 0 := by
    intro hc
    unfold Distinct at hd
    rw [a1, List.map_cons, List.nodup_cons] at hd
    apply hd.1
    rw [a2, hc, add_zero, ← hm.now, hx_getElem _ (by have := hm.len; omega)]
    exact List.mem_map.mpr ⟨_, List.getElem_mem _, rfl⟩
  have ha := attempt_mesh ok hkn.inv hkn.time hm hstr (fun b h1 h2 => hb0 (by rw [h1, h2])) hl hne
  have hnow := hm.now
  have hn : ∀ i < l.k, v.st.t + l.h - hx v.st.hist i ≠ 0 := fun i hi => by
    have := ne_of_dir (ha.ne i hi); rwa [hnow] at this
  have hinj := mesh_inj (c := c) hm hstr ha.loc.kM
  have hk1 := ha.loc.k1
  set r := swTry c v.st.t v.st.y v.st.hold v.st.kold l with hrdef
  have hP : ∀ (f : V →ₗ[K] K) m, m < l.k →
      (newtonP (hx v.st.hist) (v.st.t + l.h) l.k fun j => f (v.st.phi j)).eval (hx v.st.hist m)
        = f (hf v.st.hist m) := by
    intro f m hm'
    rw [eval_newtonP hn, hm.interp ha.loc.kM hm', map_sum]
    simp only [map_smul, smul_eq_mul]
  refine ⟨r.p, fun f => ⟨fun q hq1 hq2 hq3 => ?_, fun q hq1 hq2 hq3 hq4 => ?_⟩⟩
  · rw [a6] at hq1 hq3
    have hpe : derivative q = newtonP (hx v.st.hist) (v.st.t + l.h) l.k fun j => f (v.st.phi j) :=
      eq_of_points (k := l.k) (degree_lt_of_natDegree_deriv hk1 hq1) (degree_newtonP _ _ _ _) hinj
        (fun m hm' => by rw [hq3 m hm', hP f m hm'])
    rw [hrdef, predict_poly hm hne ha f, inc_of_deriv hpe, hq2, a2]
    ring
  · rw [a6] at hq1 hq3
    rw [a2] at hq4 ⊢
    have hfp : r.fp = c.fn (v.st.t + l.h) r.p := rfl
    rw [← hfp] at hq4
    have h0 : (newtonP (hx v.st.hist) (v.st.t + l.h) l.k fun j => f (v.st.phi j)).eval (v.st.t + l.h)
        = f (r.phi 0) := by
      rw [eval_newtonP hn, hrdef, predict_zero ha.loc ha.spec, map_sum, hnow]
      simp only [map_smul, smul_eq_mul]
    have hpe : derivative q = newtonP (hx v.st.hist) (v.st.t + l.h) l.k (fun j => f (v.st.phi j))
        + C (f (r.fp - r.phi 0)) * abP (hx v.st.hist) (v.st.t + l.h) l.k := by
      refine eq_of_points (k := l.k + 1) (X0 := consX (v.st.t + l.h) (hx v.st.hist))
        (degree_lt_of_natDegree_deriv (by omega) hq1) ?_ ?_ ?_
      · refine (degree_add_le _ _).trans_lt (max_lt ?_ ?_)
        · exact (degree_newtonP _ _ _ _).trans (by exact_mod_cast Nat.lt_succ_self _)
        · rw [degree_lt_iff_coeff_zero]
          intro m hm'
          rw [coeff_C_mul, coeff_eq_zero_of_natDegree_lt ((natDegree_abP _ _ _).trans_lt (by omega)), mul_zero]
      · intro i hi j hj hij
        cases i with
        | zero =>
          cases j with
          | zero => rfl
          | succ j => exact absurd (sub_eq_zero.mpr hij) (hn j (by omega))
        | succ i =>
          cases j with
          | zero => exact absurd (sub_eq_zero.mpr hij.symm) (hn i (by omega))
          | succ j => rw [hinj i (by omega) j (by omega) hij]
      · intro i hi
        cases i with
        | zero =>
          show (derivative q).eval (v.st.t + l.h) = eval (v.st.t + l.h) _
          rw [hq4, eval_add, h0, eval_mul, eval_C, eval_abP, ab_self hn, mul_one, map_sub]
          ring
        | succ i =>
          show (derivative q).eval (hx v.st.hist i) = eval (hx v.st.hist i) _
          rw [hq3 i (by omega), eval_add, hP f i (by omega), eval_mul, eval_abP, ab_eq_zero (by omega), mul_zero,
            add_zero]
    have hi : inc (abP (hx v.st.hist) (v.st.t + l.h) l.k) v.st.t (v.st.t + l.h) = l.h * r.co.g l.k := by
      have h1 := inc_ab_one (alpha := r.co.alpha) hne hn (fun i hi => by rw [hrdef, ha.spec.alpha i hi, hnow]) 0
      rw [pow_zero, one_mul] at h1
      rw [h1, hrdef, ha.spec.g l.k le_rfl]
      ring
    have hinc := inc_of_deriv hpe v.st.t (v.st.t + l.h)
    rw [inc_add, inc_C_mul, hi] at hinc
    have hpp := predict_poly hm hne ha f
    rw [← hrdef] at hpp
    rw [corrector_step e, map_add, map_smul, ← hrdef, hpp, smul_eq_mul]
    linear_combination hinc - hq2

/-- What is known of a regular step. -/
structure SwRegular (c : SwCfg K V) (s s' : SwSt K V) (l : SwLoc K V) : Prop where
  inv : SwInv c s
  mesh : MInv s
  strict : Strict c.dir s.hist
  att : AttM c s l
  ok : LocOK c s l
  ne : l.h ≠ 0
  eq : s' = swAccept c (swMinStep c s.t) (swStiff c s) l (swTry c s.t s.y s.hold s.kold l)
  mesh' : MInv s'

theorem regular {c : SwCfg K V} (ok : SwOK c) {t0 : K} {y0 yp0 : V} {h0 : K}
    {wt0 : V → ENorm K} {phi0 : ℕ → V} {co0 : Coef K} {nfev : ℕ} (hh : 0 < c.dir * h0)
    (hb : ∀ b, c.tb = some b → 0 ≤ c.dir * (b - t0)) {v v' : SwSolver K V} {fuel : ℕ}
    (hr : SwReach c (newSwag t0 y0 yp0 h0 wt0 phi0 co0 nfev) v) (hs : v.status = .running)
    (hb0 : c.tb ≠ some v.st.t) (h : swStep c fuel v = some (.ok, v')) (hk : v'.st.kold ≠ 0)
    (hd : Distinct v'.st) : ∃ l, SwRegular c v.st v'.st l := by
  have hkn := known ok hh hb hr hs
  rcases step_hist hs hb0 h with ⟨b, _, e⟩ | ⟨l, hl, hmn, he, e⟩
  · rw [e] at hk; exact absurd rfl hk
  obtain ⟨a1, a2, a3, a4, a5, a6⟩ := accept_hist e
  have hd1 : Distinct v.st := by
    unfold Distinct at hd ⊢
    rw [a1, List.map_cons] at hd
    exact (List.nodup_cons.mp hd).2
  have hm := hkn.mesh hd1
  have hstr := hkn.strict hd1
  have hne : l.h ≠ 0 := by
    intro hc
    unfold Distinct at hd
    rw [a1, List.map_cons, List.nodup_cons] at hd
    apply hd.1
    rw [a2, hc, add_zero, ← hm.now, hx_getElem _ (by have := hm.len; omega)]
    exact List.mem_map.mpr ⟨_, List.getElem_mem _, rfl⟩
  have ha := attempt_mesh ok hkn.inv hkn.time hm hstr (fun b h1 h2 => hb0 (by rw [h1, h2])) hl hne
  exact ⟨l, hkn.inv, hm, hstr, ha, hl.ok hkn.inv, hne, e, by rw [e]; exact accept_stiff hm ha⟩

theorem exists_adams {X0 : ℕ → K} {n : ℕ} (hinj : ∀ i < n, ∀ j < n, X0 i = X0 j → i = j) (F : ℕ → K) (t y : K) :
    ∃ q : K[X], q.natDegree ≤ n ∧ q.eval t = y ∧ ∀ m < n, (derivative q).eval (X0 m) = F m := by
  have hinj' : Set.InjOn X0 (range n : Finset ℕ) := by
    intro i hi j hj h
    exact hinj i (by simpa using hi) j (by simpa using hj) h
  set P := Lagrange.interpolate (range n) X0 F with hP
  have hdeg : P.degree < n := by
    have := Lagrange.degree_interpolate_lt F hinj'
    rwa [Finset.card_range] at this
  refine ⟨pint P + C (y - (pint P).eval t), ?_, by simp, fun m hm => ?_⟩
  · refine (natDegree_add_C).le.trans ?_
    rw [natDegree_le_iff_coeff_eq_zero]
    intro N hN
    rw [pint, finsetSum_coeff]
    refine Finset.sum_eq_zero fun i _ => ?_
    rw [coeff_C_mul, coeff_X_pow]
    by_cases hc : N = i + 1
    · rw [(degree_lt_iff_coeff_zero P n).mp hdeg i (by omega)]; simp
    · rw [if_neg hc, mul_zero]
  · rw [derivative_add, derivative_pint, derivative_C, add_zero]
    exact Lagrange.eval_interpolate_at_node F hinj' (by simpa using hm)

/-- **C77.** The two polynomials of `C77_adams` exist for all data. -/
theorem C77_polynomials_exist {c : SwCfg K V} (ok : SwOK c) {t0 : K} {y0 yp0 : V} {h0 : K}
    {wt0 : V → ENorm K} {phi0 : ℕ → V} {co0 : Coef K} {nfev : ℕ} (hh : 0 < c.dir * h0)
    (hb : ∀ b, c.tb = some b → 0 ≤ c.dir * (b - t0)) {v v' : SwSolver K V} {fuel : ℕ}
    (hr : SwReach c (newSwag t0 y0 yp0 h0 wt0 phi0 co0 nfev) v) (hs : v.status = .running)
    (hb0 : c.tb ≠ some v.st.t) (h : swStep c fuel v = some (.ok, v')) (hk : v'.st.kold ≠ 0)
    (hd : Distinct v'.st) (F : ℕ → K) (F' y : K) :
    (∃ q : K[X], q.natDegree ≤ v'.st.kold ∧ q.eval v.st.t = y ∧
      ∀ m < v'.st.kold, (derivative q).eval (hx v.st.hist m) = F m) ∧
    (∃ q : K[X], q.natDegree ≤ v'.st.kold + 1 ∧ q.eval v.st.t = y ∧
      (∀ m < v'.st.kold, (derivative q).eval (hx v.st.hist m) = F m) ∧ (derivative q).eval v'.st.t = F') := by
  obtain ⟨l, R⟩ := regular ok hh hb hr hs hb0 h hk hd
  obtain ⟨a1, a2, a3, a4, a5, a6⟩ := accept_hist R.eq
  have hinj := mesh_inj (c := c) R.mesh R.strict R.att.loc.kM
  have hnow := R.mesh.now
  have hn : ∀ i < l.k, v.st.t + l.h - hx v.st.hist i ≠ 0 := fun i hi => by
    have := ne_of_dir (R.att.ne i hi); rwa [hnow] at this
  rw [a6, a2]
  refine ⟨exists_adams hinj F _ _, ?_⟩
  obtain ⟨q, q1, q2, q3⟩ := exists_adams (X0 := consX (v.st.t + l.h) (hx v.st.hist)) (n := l.k + 1) (by
    intro i hi j hj hij
    cases i with
    | zero =>
      cases j with
      | zero => rfl
      | succ j => exact absurd (sub_eq_zero.mpr hij) (hn j (by omega))
    | succ i =>
      cases j with
      | zero => exact absurd (sub_eq_zero.mpr hij.symm) (hn i (by omega))
      | succ j => rw [hinj i (by omega) j (by omega) hij]) (consX F' F) v.st.t y
  exact ⟨q, q1, q2, fun m hm => q3 (m + 1) (by omega), q3 0 (by omega)⟩

end
end Extensisq
