import Verif.Props.SwagControl

/-!
# SWAG: work, failures, start phase and stiffness warnings (C84)
-/

set_option linter.unusedSectionVars false

namespace Extensisq
open Finset Polynomial

section
variable {K V : Type*} [Field K] [LinearOrder K] [IsStrictOrderedRing K] [AddCommGroup V] [Module K V]

/-- The size of the first attempt: the planned step, not past the end of the interval and not above `max_step`. -/
def firstSize (c : SwCfg K V) (t h : K) : K :=
  match c.tb, c.maxStep with
  | none, none => |h|
  | none, some m => min m |h|
  | some b, none => min |b - t| |h|
  | some b, some m => min m (min |b - t| |h|)

/-- **C84.** The first attempt of a step has the length `firstSize` and the direction of the integration. -/
theorem C84_first_size {c : SwCfg K V} (ok : SwOK c) {t h : K} (h0 : 0 < c.dir * h)
    (hb : ∀ b, c.tb = some b → 0 < c.dir * (b - t)) : swLimit c t h = c.dir * firstSize c t h := by
  have habs : ∀ x : K, 0 < c.dir * x → |x| = c.dir * x := fun x hx => dir_abs ok.dir hx.le
  have hsq : c.dir * c.dir = 1 := by rcases ok.dir with e | e <;> rw [e] <;> norm_num
  have hback : ∀ x : K, c.dir * (c.dir * x) = x := fun x => by rw [← mul_assoc, hsq, one_mul]
  have hcs : ∀ a : K, copySign a c.dir = c.dir * a := by
    intro a
    rcases ok.dir with e | e
    · rw [e, copySign, if_neg (by norm_num), one_mul]
    · rw [e, copySign, if_pos (by norm_num), neg_one_mul]
  have h1 : 0 < c.dir * swLimit1 c t h ∧
      c.dir * swLimit1 c t h = match c.tb with | none => |h| | some b => min |b - t| |h| := by
    cases hc : c.tb with
    | none =>
      have e : swLimit1 c t h = h := by rw [swLimit1, hc]
      rw [e]
      exact ⟨h0, (habs h h0).symm⟩
    | some b =>
      have hb' := hb b hc
      have e : swLimit1 c t h = if 0 < c.dir * (h - (b - t)) then b - t else h := by rw [swLimit1, hc]
      rw [e]
      show _ ∧ _ = min |b - t| |h|
      rw [habs h h0, habs _ hb']
      have hx : c.dir * (h - (b - t)) = c.dir * h - c.dir * (b - t) := by ring
      rw [hx]
      by_cases hlt : 0 < c.dir * h - c.dir * (b - t)
      · rw [if_pos hlt]; exact ⟨hb', (min_eq_left (by linarith)).symm⟩
      · rw [if_neg hlt]; exact ⟨h0, (min_eq_right (by linarith)).symm⟩
  unfold firstSize
  cases hm : c.maxStep with
  | none =>
    have e : swLimit c t h = swLimit1 c t h := by rw [swLimit, hm]
    rw [e, ← hback (swLimit1 c t h), h1.2]
    cases c.tb <;> rfl
  | some m =>
    have e : swLimit c t h = copySign (min m |swLimit1 c t h|) c.dir := by rw [swLimit, hm]
    rw [e, hcs, habs _ h1.1, h1.2]
    cases c.tb <;> rfl

/-- **C84.** What a successful step costs and where it goes. If it was not extrapolated there were `j` failed attempts:
each costs one evaluation and counts as one failed step; the accepted one costs two. The first three failures each
halve the step; with the third the order drops to one. An extrapolated step (`kold = 0`) follows the stored
derivative to `t_bound` and costs nothing. -/
theorem C84_success {c : SwCfg K V} {v v' : SwSolver K V} {fuel : ℕ} (hs : v.status = .running)
    (hb0 : c.tb ≠ some v.st.t) (h : swStep c fuel v = some (.ok, v')) :
    (∃ b, c.tb = some b ∧ |b - v.st.t| ≤ c.fouru * |v.st.t| ∧ v'.st.kold = 0 ∧ v'.st.t = b ∧
      v'.st.y = v.st.y + (b - v.st.t) • v.st.yp ∧ v'.st.nfev = v.st.nfev ∧ v'.st.nfs = v.st.nfs) ∨
    (∃ j, v'.st.nfs = v.st.nfs + j ∧ v'.st.nfev = v.st.nfev + j + 2 ∧
      (j ≤ 3 → v'.st.t = v.st.t + swLimit c v.st.t v.st.h * (1 / 2) ^ j) ∧
      (j = 0 → v'.st.kold = v.st.k) ∧ (3 ≤ j → v'.st.kold = 1) ∧
      (∀ b, c.tb = some b → c.fouru * |v.st.t| < |b - v.st.t|) ∧ c.fouru * |v.st.t| ≤ |v'.st.t - v.st.t|) := by
  obtain ⟨e1, e2, e3, e4, e5, e6, e7, e8, e9, e10, e11, e12, e13, e14, e15, e16⟩ := swStiff_same c v.st
  rcases swStep_cases h with ⟨h1, _⟩ | ⟨_, h1, _, e⟩ | ⟨_, hb', s', hi, _, e⟩ | ⟨_, _, h1, _⟩
  · exact absurd hs h1
  · exact absurd h1 hb0
  · rcases swStepImpl_min hi with ⟨b, hb2, h3, e'⟩ | ⟨l, hl, hm, hf, he, e'⟩
    · left
      refine ⟨b, hb2, h3, ?_, ?_, ?_, ?_, ?_⟩ <;> rw [e] <;> simp only <;> rw [e']
      · rfl
      · rfl
      · show (swStiff c v.st).y + (b - (swStiff c v.st).t) • (swStiff c v.st).yp = _
        rw [e1, e2, e3]
      · exact e13
      · exact e14
    · right
      obtain ⟨n1, n2, n3, n4, n5, n6⟩ := attempt_counts hl
      have ht : v'.st.t = v.st.t + l.h := by
        rw [e]; simp only; rw [e']
        show (swStiff c v.st).t + l.h = _
        rw [e1]
      have hk : v'.st.kold = l.k := by rw [e]; simp only; rw [e']; rfl
      refine ⟨l.ifail, ?_, ?_, fun h => ?_, fun h => ?_, fun h => ?_, hf, ?_⟩
      · rw [e]; simp only; rw [e']; exact n2
      · rw [e]; simp only; rw [e']
        show l.nfev + 2 = _
        rw [n1]
      · rw [ht, n4 h]
      · rw [hk, n5 h]
      · rw [hk, n6 h]
      · rw [ht, add_sub_cancel_left]; exact hm
  · exact absurd rfl h1

/-- **C84.** What a failing step leaves: the time and the solution are those before; the failed attempts are counted.
It ends with "step size too small" if the step, at the start or after a failed attempt, is below `4 u |t|`, and with
"tolerance too tight" if `2 u` times the norm of the solution exceeds one half. -/
theorem C84_failure {c : SwCfg K V} {v v' : SwSolver K V} {fuel : ℕ} {o : SwOut} (hs : v.status = .running)
    (ho : o ≠ .ok) (h : swStep c fuel v = some (o, v')) :
    v'.status = .failed ∧ v'.st.t = v.st.t ∧ v'.st.y = v.st.y ∧ v'.st.hist = v.st.hist ∧
    ((o = .tooSmall ∧ |swLimit c v.st.t v.st.h| < c.fouru * |v.st.t| ∧ v'.st.nfev = v.st.nfev ∧
        v'.st.nfs = v.st.nfs) ∨
      (o = .tooTight ∧ (ENorm.scale c.twou (v.st.wt v.st.y)).gt (1 / 2) = true ∧ v'.st.nfev = v.st.nfev ∧
        v'.st.nfs = v.st.nfs) ∨
      (o = .tooSmall ∧ ∃ l, SwAttempt c v.st l ∧ 1 ≤ l.ifail ∧ |l.h| < c.fouru * |v.st.t| ∧
        v'.st.nfev = v.st.nfev + l.ifail ∧ v'.st.nfs = v.st.nfs + l.ifail)) := by
  obtain ⟨e1, e2, e3, e4, e5, e6, e7, e8, e9, e10, e11, e12, e13, e14, e15, e16⟩ := swStiff_same c v.st
  rcases swStep_cases h with ⟨h1, _⟩ | ⟨_, _, h1, _⟩ | ⟨_, _, _, _, h1, _⟩ | ⟨_, _, _, s', hi, e⟩
  · exact absurd hs h1
  · exact absurd h1 ho
  · exact absurd h1 ho
  · rw [e]
    simp only
    unfold swStepImpl at hi
    simp only [e1, e4] at hi
    split at hi
    · exact absurd (congrArg Prod.fst (Option.some.inj hi)).symm ho
    · split at hi
      · rename_i hm
        have h1 := Option.some.inj hi
        have h2 : s' = swStiff c v.st := (congrArg Prod.snd h1).symm
        have h3 : o = .tooSmall := (congrArg Prod.fst h1).symm
        refine ⟨trivial, by rw [h2, e1], by rw [h2, e2], by rw [h2, e15], Or.inl ⟨h3, hm, by rw [h2, e13], by rw [h2, e14]⟩⟩
      · rename_i hm
        split at hi
        · rename_i ht
          have h1 := Option.some.inj hi
          have h2 : s' = swStiff c v.st := (congrArg Prod.snd h1).symm
          have h3 : o = .tooTight := (congrArg Prod.fst h1).symm
          rw [e12, e2] at ht
          refine ⟨trivial, by rw [h2, e1], by rw [h2, e2], by rw [h2, e15], Or.inr (Or.inl ⟨h3, ht, by rw [h2, e13], by rw [h2, e14]⟩)⟩
        · have hind := swLoop_ind (c := c) (m := swMinStep c v.st.t) (s := swStiff c v.st) (SwAttempt c v.st)
            (by rw [e1, e2, e5, e7]; exact fun l hl he => .retry hl he) fuel _ o s' .first hi
          rcases hind with ⟨l', hl, h1, _⟩ | ⟨l', hl, h1, h2, h3⟩
          · exact absurd h1 ho
          · obtain ⟨n1, n2, n3, n4, n5, n6⟩ := attempt_counts hl
            refine ⟨trivial, ?_, ?_, ?_, Or.inr (Or.inr ⟨h1, l', hl, ?_, h2, ?_, ?_⟩)⟩
            · rw [h3]; exact e1
            · rw [h3]; exact e2
            · rw [h3]; exact e15
            · by_contra hc
              have h0 : l'.ifail = 0 := by omega
              have := n4 (by omega)
              rw [h0, pow_zero, mul_one] at this
              rw [this] at h2
              exact hm h2
            · rw [h3]; exact n1
            · rw [h3]; exact n2

/-- **C84.** When a step is extrapolated, when it is refused, and when its first attempt is taken. -/
theorem C84_decides {c : SwCfg K V} {v : SwSolver K V} {fuel : ℕ} (hs : v.status = .running)
    (hb0 : c.tb ≠ some v.st.t) :
    (∀ b, c.tb = some b → |b - v.st.t| ≤ c.fouru * |v.st.t| →
      ∃ v', swStep c fuel v = some (.ok, v') ∧ v'.st.kold = 0) ∧
    ((∀ b, c.tb = some b → c.fouru * |v.st.t| < |b - v.st.t|) →
      (|swLimit c v.st.t v.st.h| < c.fouru * |v.st.t| → ∃ v', swStep c fuel v = some (.tooSmall, v')) ∧
      (c.fouru * |v.st.t| ≤ |swLimit c v.st.t v.st.h| →
        ((ENorm.scale c.twou (v.st.wt v.st.y)).gt (1 / 2) = true → ∃ v', swStep c fuel v = some (.tooTight, v')) ∧
        ((ENorm.scale c.twou (v.st.wt v.st.y)).gt (1 / 2) = false →
          ∀ l, l = swStart (swStiff c v.st) (swLimit c v.st.t v.st.h) →
          ENorm.leE (swTry c v.st.t v.st.y v.st.hold v.st.kold l).err (.num 1) = true →
          ∃ v', swStep c (fuel + 1) v = some (.ok, v') ∧ v'.st.nfs = v.st.nfs ∧
            v'.st.t = v.st.t + swLimit c v.st.t v.st.h ∧ v'.st.kold = v.st.k))) := by
  obtain ⟨e1, e2, e3, e4, e5, e6, e7, e8, e9, e10, e11, e12, e13, e14, e15, e16⟩ := swStiff_same c v.st
  have hstep : ∀ f, swStep c f v = match swStepImpl c f v.st with
      | none => none
      | some (.ok, s') => some (.ok, ⟨(if swReached c s'.t = true then .finished else .running), some v.st.t, s'⟩)
      | some (o, s') => some (o, ⟨.failed, v.tOld, s'⟩) := by
    intro f
    unfold swStep
    rw [hs]
    simp only
    rw [if_neg hb0]
    rcases swStepImpl c f v.st with _ | ⟨o, s'⟩
    · rfl
    · cases o <;> rfl
  have hmin : swMinStep c v.st.t = c.fouru * |v.st.t| := rfl
  refine ⟨fun b hb hnear => ?_, fun hfar => ?_⟩
  · have hn : swNear c v.st.t = true := by rw [swNear, hb]; exact decide_eq_true hnear
    have hi : swStepImpl c fuel v.st = some (.ok, swExtrapolate (c.tb.getD (swStiff c v.st).t) (swStiff c v.st)) := by
      unfold swStepImpl
      simp only [e1]
      rw [if_pos hn]
    rw [hstep, hi]
    exact ⟨_, rfl, rfl⟩
  · have hn : ¬(swNear c v.st.t = true) := by
      unfold swNear
      cases hb : c.tb with
      | none => simp
      | some b => simpa [hmin] using hfar b hb
    refine ⟨fun hsm => ?_, fun hbig => ⟨fun htt => ?_, fun htt l hl he => ?_⟩⟩
    · have hi : swStepImpl c fuel v.st = some (.tooSmall, swStiff c v.st) := by
        unfold swStepImpl
        simp only [e1, e4, hmin]
        rw [if_neg hn, if_pos hsm]
      rw [hstep, hi]
      exact ⟨_, rfl⟩
    · have hi : swStepImpl c fuel v.st = some (.tooTight, swStiff c v.st) := by
        unfold swStepImpl
        simp only [e1, e4, e2, e12, hmin]
        rw [if_neg hn, if_neg (not_lt.mpr hbig), if_pos htt]
      rw [hstep, hi]
      exact ⟨_, rfl⟩
    · have hi : swStepImpl c (fuel + 1) v.st = some (.ok, swAccept c (swMinStep c v.st.t) (swStiff c v.st) l
          (swTry c v.st.t v.st.y v.st.hold v.st.kold l)) := by
        unfold swStepImpl
        simp only [e1, e4, e2, e12, hmin]
        rw [if_neg hn, if_neg (not_lt.mpr hbig), if_neg (by rw [htt]; simp), swLoop]
        simp only [e1, e2, e5, e7, ← hl]
        rw [if_pos he]
      rw [hstep, hi]
      refine ⟨_, rfl, ?_, ?_, ?_⟩
      · show l.nfs = _; rw [hl]; exact e14
      · show (swStiff c v.st).t + l.h = _; rw [e1, hl]; rfl
      · show l.k = _; rw [hl]; exact e6

/-- **C84.** After a failed attempt the step size is halved, from the fourth failure on reduced by the factor
`sqrt(1/(2 e))` if the estimate `e` at the present order exceeds two. The next attempt uses the order decided before,
from the third failure on order one. -/
theorem C84_retry {c : SwCfg K V} {s : SwSt K V} {l : SwLoc K V} {x : K}
    (hx : (swTry c s.t s.y s.hold s.kold l).erk = .num x) :
    let l' := swFail c l (swTry c s.t s.y s.hold s.kold l)
    l'.h = (if 3 ≤ l.ifail ∧ 2 < x then l.h * c.sqrt (1 / (2 * x)) else l.h / 2) ∧
    l'.k = (if 2 ≤ l.ifail then 1 else (swTry c s.t s.y s.hold s.kold l).knew) := by
  intro l'
  refine ⟨?_, ?_⟩
  · show l.h * failFactor c (l.ifail + 1) (swTry c s.t s.y s.hold s.kold l).erk = _
    rw [hx, failFactor]
    by_cases h : 3 ≤ l.ifail ∧ 2 < x
    · rw [if_pos h, if_pos ⟨by omega, by linarith [h.2]⟩, div_div]
    · rw [if_neg h, if_neg (fun h' => h ⟨by omega, by linarith [h'.2]⟩)]
      ring
  · show (if 3 ≤ l.ifail + 1 then 1 else _) = _
    by_cases h : 2 ≤ l.ifail
    · rw [if_pos h, if_pos (by omega)]
    · rw [if_neg h, if_neg (by omega)]

/-- **C84.** In the start phase there was no failure, each step so far raised the order by one, and the planned step is
twice the last one. -/
theorem C84_start {c : SwCfg K V} {t0 : K} {y0 yp0 : V} {h0 : K} {wt0 : V → ENorm K} {phi0 : ℕ → V} {co0 : Coef K}
    {nfev : ℕ} {v : SwSolver K V} (hr : SwReach c (newSwag t0 y0 yp0 h0 wt0 phi0 co0 nfev) v)
    (hs : v.status = .running) (hp : v.st.phase1 = true) :
    v.st.k = v.st.hist.length ∧ v.st.nfs = 0 ∧ v.st.nfev + 2 = nfev + 2 * v.st.hist.length ∧ hx v.st.hist 0 = v.st.t ∧
    (v.st.k = 1 → v.st.h = h0) ∧ (2 ≤ v.st.k → v.st.h = 2 * (hx v.st.hist 0 - hx v.st.hist 1)) := by
  induction hr with
  | refl => exact ⟨rfl, rfl, rfl, rfl, fun _ => rfl, fun h => absurd h (by simp [newSwag])⟩
  | @tail v1 v2 o fuel hr1 hstep ih =>
    obtain ⟨e1, e2, e3, e4, e5, e6, e7, e8, e9, e10, e11, e12, e13, e14, e15, e16⟩ := swStiff_same c v1.st
    rcases swStep_cases hstep with ⟨_, _, e⟩ | ⟨_, _, _, e⟩ | ⟨r, hb1, s', hi, _, e⟩ | ⟨_, _, _, s', _, e⟩
    · subst e; exact ih hs hp
    · rw [e] at hs; cases hs
    · rcases swStepImpl_min hi with ⟨b, hb, _, e'⟩ | ⟨l, hl, hmn, _, he, e'⟩
      · exfalso
        rw [e] at hs
        have : s'.t = b := by rw [e']; rfl
        simp only [swReached, hb, this, sub_self, mul_zero, le_refl, decide_true, if_true] at hs
        cases hs
      · rw [e] at hp ⊢
        simp only at hp ⊢
        obtain ⟨n1, n2, n3, n4, n5, n6⟩ := attempt_counts hl
        have hp' : s'.phase1 = if (swTry c v1.st.t v1.st.y v1.st.hold v1.st.kold l).knew + 1 = l.k ∨ l.k = c.kMax then
          false else l.phase1 := by rw [e']; rfl
        have hpl : l.phase1 = true := by
          rw [hp] at hp'
          split at hp'
          · cases hp'
          · exact hp'.symm
        rw [n3] at hpl
        simp only [Bool.and_eq_true, decide_eq_true_eq] at hpl
        obtain ⟨i1, i2, i2', i3, i4, i5⟩ := ih r hpl.1
        have hk : l.k = v1.st.k := n5 hpl.2
        obtain ⟨a1, a2, a3, a4, a5, a6⟩ := accept_hist e'
        have hk' : s'.k = l.k + 1 := by
          have : s'.k = (nextOrder c l.k (swTry c v1.st.t v1.st.y v1.st.hold v1.st.kold l).knew
            (swTry c v1.st.t v1.st.y v1.st.hold v1.st.kold l).ns s'.phase1
            (swTry c v1.st.t v1.st.y v1.st.hold v1.st.kold l).erk (swTry c v1.st.t v1.st.y v1.st.hold v1.st.kold l).erkm1
            (ENorm.scale (c.gstr l.k * |l.h|)
              ((swTry c v1.st.t v1.st.y v1.st.hold v1.st.kold l).wt (s'.phi (l.k + 1))))).1 := by rw [e']; rfl
          rw [this, nextOrder, if_pos hp]
        have hh' : s'.h = l.h + l.h := by
          have : s'.h = nextH c (swMinStep c v1.st.t) l.h s'.k s'.phase1 (nextOrder c l.k
            (swTry c v1.st.t v1.st.y v1.st.hold v1.st.kold l).knew
            (swTry c v1.st.t v1.st.y v1.st.hold v1.st.kold l).ns s'.phase1
            (swTry c v1.st.t v1.st.y v1.st.hold v1.st.kold l).erk (swTry c v1.st.t v1.st.y v1.st.hold v1.st.kold l).erkm1
            (ENorm.scale (c.gstr l.k * |l.h|)
              ((swTry c v1.st.t v1.st.y v1.st.hold v1.st.kold l).wt (s'.phi (l.k + 1))))).2 := by rw [e']; rfl
          rw [this, nextH.eq_def, if_pos (Or.inl hp)]
        refine ⟨?_, ?_, ?_, ?_, fun h => ?_, fun _ => ?_⟩
        · rw [hk', hk, i1, a1, List.length_cons]
        · have : s'.nfs = l.nfs := by rw [e']; rfl
          rw [this, n2, i2, hpl.2]
        · have : s'.nfev = l.nfev + 2 := by rw [e']; rfl
          rw [this, n1, hpl.2, a1, List.length_cons]
          omega
        · rw [a1]; rfl
        · rw [hk', hk, i1] at h
          have : v1.st.hist.length ≠ 0 := by
            intro hc
            have h1 : v1.st.hist = [] := List.length_eq_zero_iff.mp hc
            have h2 := hr1
            clear ih
            have h3 : ∀ w, SwReach c (newSwag t0 y0 yp0 h0 wt0 phi0 co0 nfev) w → w.st.hist ≠ [] := by
              intro w hw
              induction hw with
              | refl => simp [newSwag]
              | @tail w1 w2 o fuel hr1 hstep ih =>
                rcases swStep_cases hstep with ⟨_, _, e⟩ | ⟨_, _, _, e⟩ | ⟨_, _, s', hi, _, e⟩ | ⟨_, _, ho, s', hi, e⟩
                · rw [e]; exact ih
                · rw [e]; exact ih
                · rcases swStepImpl_min hi with ⟨b, hb, _, e'⟩ | ⟨l, hl, hmn, _, he, e'⟩
                  · rw [e]; simp only; rw [e']
                    show (swStiff c w1.st).hist ≠ []
                    rw [(swStiff_same c w1.st).2.2.2.2.2.2.2.2.2.2.2.2.2.2.1]
                    exact ih
                  · rw [e]; simp only; rw [(accept_hist e').1]; simp
                · rcases swStepImpl_cases (SwAttempt c w1.st) .first (fun l hl he => .retry hl he) hi
                    with ⟨b, hb, _, h1, _⟩ | ⟨_, _, h1⟩ | ⟨_, h1⟩ | ⟨_, _, _, h1, _⟩ | ⟨_, l', _, _, _, h1⟩
                  · exact absurd h1 ho
                  · rw [e]; simp only; rw [h1, (swStiff_same c w1.st).2.2.2.2.2.2.2.2.2.2.2.2.2.2.1]; exact ih
                  · rw [e]; simp only; rw [h1, (swStiff_same c w1.st).2.2.2.2.2.2.2.2.2.2.2.2.2.2.1]; exact ih
                  · exact absurd h1 ho
                  · rw [e]; simp only; rw [h1]
                    show (swStiff c w1.st).hist ≠ []
                    rw [(swStiff_same c w1.st).2.2.2.2.2.2.2.2.2.2.2.2.2.2.1]; exact ih
            exact h3 v1 hr1 h1
          omega
        · rw [hh', a1, hx_succ, hx_zero, i3, a2]; ring
    · rw [e] at hs; cases hs

/-! ## Stiffness warnings -/

/-- `n` returning `step()` calls of a running solver before its end, each of which begins with a last order of at most
four. -/
inductive LowRun (c : SwCfg K V) : ℕ → SwSolver K V → SwSolver K V → Prop
  | refl (v) : LowRun c 0 v v
  | tail {n v v1 v2 o fuel} : LowRun c n v v1 → v1.status = .running → c.tb ≠ some v1.st.t → v1.st.kold ≤ 4 →
      swStep c fuel v1 = some (o, v2) → LowRun c (n + 1) v v2

theorem step_stiff {c : SwCfg K V} {v v' : SwSolver K V} {fuel : ℕ} {o : SwOut} (hs : v.status = .running)
    (hb0 : c.tb ≠ some v.st.t) (h : swStep c fuel v = some (o, v')) :
    v'.st.kle4 = (swStiff c v.st).kle4 ∧ v'.st.warned = (swStiff c v.st).warned := by
  rcases swStep_cases h with ⟨h1, _⟩ | ⟨_, h1, _⟩ | ⟨_, _, s', hi, _, e⟩ | ⟨_, _, _, s', hi, e⟩
  · exact absurd hs h1
  · exact absurd h1 hb0
  all_goals
    rw [e]
    simp only
    rcases swStepImpl_cases (SwAttempt c v.st) .first (fun l hl he => .retry hl he) hi
      with ⟨b, hb, _, _, h1⟩ | ⟨_, _, h1⟩ | ⟨_, h1⟩ | ⟨_, _, _, _, _, h1⟩ | ⟨_, l', _, _, _, h1⟩ <;>
    rw [h1] <;> exact ⟨rfl, rfl⟩

/-- **C84.** With `k_max > 4`, in an uninterrupted series of steps of orders up to four every 51st step issues a
stiffness warning (not only the first time). -/
theorem C84_warnings {c : SwCfg K V} (hM : 4 < c.kMax) {n : ℕ} {v v' : SwSolver K V} (h : LowRun c n v v')
    (h0 : v.st.kle4 ≤ 50) :
    v'.st.kle4 = (v.st.kle4 + n) % 51 ∧ v'.st.warned = v.st.warned + (v.st.kle4 + n) / 51 := by
  induction h with
  | refl v => exact ⟨by rw [Nat.mod_eq_of_lt (by omega)]; rfl, by rw [Nat.div_eq_of_lt (by omega)]; rfl⟩
  | @tail n v v1 v2 o fuel _ hs hb hk hstep ih =>
    obtain ⟨i1, i2⟩ := ih h0
    obtain ⟨s1, s2⟩ := step_stiff hs hb hstep
    rw [s1, s2, swStiff, if_neg (by omega)]
    by_cases hw : 50 < v1.st.kle4 + 1
    · rw [if_pos ⟨hw, hM⟩]
      show 0 = _ ∧ v1.st.warned + 1 = _
      rw [i2]
      omega
    · rw [if_neg (fun h => hw h.1)]
      show v1.st.kle4 + 1 = _ ∧ v1.st.warned = _
      rw [i1, i2]
      omega

/-- **C84.** A step after one of order above four restarts the count and issues no warning; with `k_max ≤ 4` there are
no warnings at all; the count of a reachable solver with `k_max > 4` is at most 50. -/
theorem C84_no_warning {c : SwCfg K V} :
    (∀ (v v' : SwSolver K V) (fuel : ℕ) (o : SwOut), v.status = .running → c.tb ≠ some v.st.t → 4 < v.st.kold →
      swStep c fuel v = some (o, v') → v'.st.kle4 = 0 ∧ v'.st.warned = v.st.warned) ∧
    (∀ (v0 v : SwSolver K V), SwReach c v0 v → v0.st.kle4 ≤ 50 →
      (c.kMax ≤ 4 → v.st.warned = v0.st.warned) ∧ (4 < c.kMax → v.st.kle4 ≤ 50)) := by
  refine ⟨fun v v' fuel o hs hb hk h => ?_, fun v0 v hr h0 => ?_⟩
  · obtain ⟨s1, s2⟩ := step_stiff hs hb h
    rw [s1, s2, swStiff, if_pos hk]
    exact ⟨rfl, rfl⟩
  · induction hr with
    | refl => exact ⟨fun _ => rfl, fun _ => h0⟩
    | @tail v1 v2 o fuel hr1 hstep ih =>
      have hcase : (v2.st = v1.st) ∨ (v2.st.kle4 = (swStiff c v1.st).kle4 ∧ v2.st.warned = (swStiff c v1.st).warned) := by
        rcases swStep_cases hstep with ⟨_, _, e⟩ | ⟨_, _, _, e⟩ | ⟨hs, hb, _⟩ | ⟨hs, hb, _⟩
        · left; rw [e]
        · left; rw [e]
        · right; exact step_stiff hs hb hstep
        · right; exact step_stiff hs hb hstep
      rcases hcase with e | ⟨s1, s2⟩
      · rw [e]; exact ih
      · rw [s1, s2, swStiff]
        refine ⟨fun hM => ?_, fun hM => ?_⟩
        · rw [← ih.1 hM]
          split
          · rfl
          · rw [if_neg (fun h => by omega)]
        · have := ih.2 hM
          split
          · show 0 ≤ 50; omega
          · split
            · show 0 ≤ 50; omega
            · rename_i h1
              show v1.st.kle4 + 1 ≤ 50
              by_contra hc
              exact h1 ⟨by omega, hM⟩

end
end Extensisq
