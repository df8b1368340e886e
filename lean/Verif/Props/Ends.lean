import Verif.Spec.Loop
import Verif.Props.Driver
import Verif.Props.DriverMore
import Verif.Props.DriverControl
import Verif.Props.CKdisc
import Verif.Props.Esdirk
import Verif.Props.SwagStep
import Verif.Props.Cheb
import Verif.Props.ChebWork
import Verif.Props.ChebRho

/-!
# C110: the integration loop ends

For a finite `t_bound` the loop `while solver.status == 'running': solver.step()` ends after a bounded number of calls.
-/

set_option linter.unusedSectionVars false

namespace Extensisq

variable {K V W : Type*} [Field K] [LinearOrder K] [IsStrictOrderedRing K]

/-! ## Explicit Runge-Kutta and Nyström methods -/

/-- What a call of `step()` of a running explicit solver does to its status. -/
theorem step_status {c : Cfg K V W} {fuel : ℕ} {v v' : Solver K V W} {o : Out} (hr : v.status = .running)
    (h : step c fuel v = some (o, v')) :
    (c.tb = some v.st.t ∧ o = .ok ∧ v'.status = .finished ∧ v'.st = v.st) ∨
    (c.tb ≠ some v.st.t ∧ stepImpl c fuel v.st = some (o, v'.st) ∧
      ((o = .ok ∧ v'.status = if reached c v'.st.t then .finished else .running) ∨
       ((∃ m, o = .fail m) ∧ v'.status = .failed) ∨ ((∃ e, o = .exc e) ∧ v'.status = .running))) := by
  unfold step at h
  rw [hr] at h
  dsimp only at h
  by_cases ht : c.tb = some v.st.t
  · rw [if_pos ht] at h
    obtain ⟨rfl, rfl⟩ := Prod.ext_iff.mp (Option.some.inj h)
    exact Or.inl ⟨ht, rfl, rfl, rfl⟩
  · rw [if_neg ht] at h
    refine Or.inr ⟨ht, ?_⟩
    cases hs : stepImpl c fuel v.st with
    | none => rw [hs] at h; cases h
    | some p =>
      obtain ⟨o1, s1⟩ := p
      rw [hs] at h
      cases o1 with
      | ok =>
        obtain ⟨rfl, rfl⟩ := Prod.ext_iff.mp (Option.some.inj h)
        exact ⟨rfl, Or.inl ⟨rfl, rfl⟩⟩
      | fail m =>
        obtain ⟨rfl, rfl⟩ := Prod.ext_iff.mp (Option.some.inj h)
        exact ⟨rfl, Or.inr (Or.inl ⟨⟨m, rfl⟩, rfl⟩)⟩
      | exc e =>
        obtain ⟨rfl, rfl⟩ := Prod.ext_iff.mp (Option.some.inj h)
        exact ⟨rfl, Or.inr (Or.inr ⟨⟨e, rfl⟩, rfl⟩)⟩

/-- An exception was raised. -/
def Out.raised : Out → Prop
  | .exc _ => True
  | _ => False

theorem not_reached {c : Cfg K V W} {b t : K} (hb : c.tb = some b) (h : (if reached c t then Status.finished else .running) = .running) :
    0 < c.dir * (b - t) := by
  unfold reached at h
  rw [hb] at h
  dsimp only at h
  by_cases h' : 0 ≤ c.dir * (t - b)
  · simp [h'] at h
  · rw [not_le] at h'
    linarith [show c.dir * (b - t) = -(c.dir * (t - b)) by ring]

/-- **C110** for the explicit Runge-Kutta and Nyström methods. The loop ends; with a legal interval of the stiffness detection it
ends without an exception, after at most `|t_bound - t0| / h_min + 1` calls, finished (then, unless `max_step` is below the minimal
step, exactly on `t_bound`) or failed. -/
theorem C110_explicit [Archimedean K] {c : Cfg K V W} (hc : CfgOK c) (hg : c.safety < 1) (hst : StiffOK c.nfevStiff c.m) {b t0 : K}
    (hb : c.tb = some b) (h0 : 0 ≤ c.dir * (b - t0)) (y0 : V) (hf : K) (e0 : ℕ) (Ks0 : ℕ → W) :
    (∃ n r w, WhileRunning (step c) (fun v => v.status = .running) Out.raised (newSolver c t0 y0 hf e0 Ks0) n r w) ∧
    ∀ n r w, WhileRunning (step c) (fun v => v.status = .running) Out.raised (newSolver c t0 y0 hf e0 Ks0) n r w →
      n * c.hMinB ≤ |b - t0| + c.hMinB ∧ r = none ∧
      ((w.status = .finished ∧ ((∀ u, Reach c (newSolver c t0 y0 hf e0 Ks0) u → MaxStepUsable c u.st) → w.st.t = b)) ∨
        w.status = .failed) := by
  set v0 := newSolver c t0 y0 hf e0 Ks0 with hv0
  have hdec : ∀ (v : Solver K V W) (fuel : ℕ) (o : Out) (v' : Solver K V W), Reach c v0 v → v.status = .running → step c fuel v = some (o, v') → ¬ o.raised →
      Reach c v0 v' ∧ (v'.status = .running → 0 ≤ c.dir * (b - v'.st.t) ∧
        c.dir * (b - v'.st.t) + c.hMinB ≤ c.dir * (b - v.st.t)) := by
    intro v fuel o v' hr hrun hs ho
    refine ⟨.tail hr hs, fun hrun' => ?_⟩
    rcases step_status hrun hs with ⟨-, -, h, -⟩ | ⟨hne, -, ⟨rfl, h⟩ | ⟨-, h⟩ | ⟨⟨e, rfl⟩, -⟩⟩
    · rw [h] at hrun'; cases hrun'
    · rw [h] at hrun'
      refine ⟨(not_reached hb hrun').le, ?_⟩
      have h1 := (C02_strict_advance hc hne hs).1
      have h2 : c.hMinB ≤ minStepOf c v.st.t v.st.hAbs := le_max_right _ _
      linarith [show c.dir * (b - v'.st.t) = c.dir * (b - v.st.t) - c.dir * (v'.st.t - v.st.t) by ring]
    · rw [h] at hrun'; cases hrun'
    · exact absurd trivial ho
  constructor
  · refine WhileRunning.exists (I := Reach c v0) (φ := fun v => c.dir * (b - v.st.t)) hc.hMinB ?_ hdec .refl
    intro v _ _
    obtain ⟨fuel, ⟨o, v'⟩, h⟩ := C06_step_returns hc hg v
    exact ⟨fuel, o, v', h⟩
  · intro n r w hw
    have habs : c.dir * (b - t0) = |b - t0| := by
      rcases hc.dir with hd | hd <;> rw [hd] at h0 ⊢
      · rw [abs_of_nonneg (by linarith)]; ring
      · rw [abs_of_nonpos (by linarith)]; ring
    have hE := WhileRunning.bound (I := Reach c v0) (φ := fun v => c.dir * (b - v.st.t)) (E := fun r w => r = none ∧
      ((w.status = .finished ∧ ((∀ u, Reach c v0 u → MaxStepUsable c u.st) → w.st.t = b)) ∨ w.status = .failed))
      hc.hMinB.le hdec ?_ ?_ hw .refl h0
    · have h1 : (n : K) * c.hMinB ≤ c.dir * (b - t0) + c.hMinB := hE.1
      rw [habs] at h1
      exact ⟨h1, hE.2⟩
    · intro v hr hnr
      refine ⟨rfl, ?_⟩
      cases hs : v.status with
      | running => exact absurd hs hnr
      | finished =>
        refine Or.inl ⟨rfl, fun hu => ?_⟩
        have h1 := (C04_finished_on_t_bound hc (v0 := v0) rfl (fun b' hb' => by
          rw [hb] at hb'; rw [← Option.some.inj hb']; exact h0) hu hr).1 hs
        rw [hb] at h1
        exact (Option.some.inj h1).symm
      | failed => exact Or.inr rfl
    · intro v fuel o v' hr hrun hs ho
      exfalso
      cases o with
      | ok => exact ho
      | fail m => exact ho
      | exc e =>
        cases e with
        | zeroDiv => exact C31_no_zero_division hst hs
        | typeErr => exact (C57_controller_data_defined hc hr).2 fuel v' _ hs rfl
        | runtimeErr =>
          rcases step_status hrun hs with ⟨-, h, -⟩ | ⟨-, hi, -⟩
          · cases h
          · have := stepImpl_effect hi
            rcases this with ⟨k, Ks, e, j, ho, hs⟩ | ⟨k, ch, x, f0, std, s1, hmin, hpre, herr, hx, haf, hs1, ho⟩
            · rcases ho with h | h | h <;> cases h
            · rcases ho with ⟨h1, _⟩ | ⟨h1, _⟩ <;> cases h1

/-! ## `CKdisc` -/

/-- **C110** for `CKdisc`: at most `5 |t_bound - t0| / h_min + 1` calls, no exception. -/
theorem C110_CKdisc [Archimedean K] [AddCommGroup V] [Module K V] {a : CkCfg K V} (hc : CfgOK a.c) {b t0 : K} (hb : a.c.tb = some b)
    (h0 : 0 ≤ a.c.dir * (b - t0)) (y0 : V) (hf : K) (e0 : ℕ) (Ks0 : ℕ → V) :
    (∃ n r w, WhileRunning (ckStep a) (fun v => v.status = .running) Out.raised (ckNew a t0 y0 hf e0 Ks0) n r w) ∧
    ∀ n r w, WhileRunning (ckStep a) (fun v => v.status = .running) Out.raised (ckNew a t0 y0 hf e0 Ks0) n r w →
      n * (a.c.hMinB / 5) ≤ |b - t0| + a.c.hMinB / 5 ∧ r = none ∧ (w.status = .finished ∨ w.status = .failed) := by
  set v0 := ckNew a t0 y0 hf e0 Ks0 with hv0
  have hpos : 0 < a.c.hMinB / 5 := div_pos hc.hMinB (by norm_num)
  have hdec : ∀ (v : CkSolver K V) (fuel : ℕ) (o : Out) (v' : CkSolver K V), CkReach a v0 v → v.status = .running →
      ckStep a fuel v = some (o, v') → ¬ o.raised → CkReach a v0 v' ∧ (v'.status = .running → 0 ≤ a.c.dir * (b - v'.σ.st.t) ∧
        a.c.dir * (b - v'.σ.st.t) + a.c.hMinB / 5 ≤ a.c.dir * (b - v.σ.st.t)) := by
    intro v fuel o v' hr hrun hs ho
    refine ⟨.tail hr hs, fun hrun' => ?_⟩
    have hi := (ckInv_reach hc (ckInv_new a t0 y0 hf e0 Ks0) hr).1
    rcases ckStep_cases hc hi hs with ⟨-, ⟨h, -⟩ | ⟨-, -, -, h⟩⟩ | ⟨hne, -, -, -, h1, h2⟩
    · exact absurd hrun h
    · rw [h] at hrun'; cases hrun'
    · by_cases hok : o = .ok
      · subst hok
        have h := (h1 rfl).2
        rw [h] at hrun'
        refine ⟨(not_reached hb hrun').le, ?_⟩
        have h3 := (C33_strict_advance hc t0 y0 hf e0 Ks0 hr hne hs).2
        have h4 : a.c.hMinB ≤ minStepOf a.c v.σ.st.t v.σ.st.hAbs := le_max_right _ _
        linarith [show a.c.dir * (b - v'.σ.st.t) = a.c.dir * (b - v.σ.st.t) - a.c.dir * (v'.σ.st.t - v.σ.st.t) by ring]
      · rw [(h2 hok).2] at hrun'; cases hrun'
  constructor
  · refine WhileRunning.exists (I := CkReach a v0) (φ := fun v => a.c.dir * (b - v.σ.st.t)) hpos ?_ hdec .refl
    intro v hr _
    obtain ⟨N, h⟩ := C32_step_returns hc t0 y0 hf e0 Ks0 hr
    obtain ⟨⟨o, v'⟩, h'⟩ := Option.ne_none_iff_exists'.mp (h (N + 1) (by omega))
    exact ⟨_, o, v', h'⟩
  · intro n r w hw
    have habs : a.c.dir * (b - t0) = |b - t0| := by
      rcases hc.dir with hd | hd <;> rw [hd] at h0 ⊢
      · rw [abs_of_nonneg (by linarith)]; ring
      · rw [abs_of_nonpos (by linarith)]; ring
    have hE := WhileRunning.bound (I := CkReach a v0) (φ := fun v => a.c.dir * (b - v.σ.st.t)) (E := fun r w => r = none ∧
      (w.status = .finished ∨ w.status = .failed)) hpos.le hdec ?_ ?_ hw .refl h0
    · have h1 : (n : K) * (a.c.hMinB / 5) ≤ a.c.dir * (b - t0) + a.c.hMinB / 5 := hE.1
      rw [habs] at h1
      exact ⟨h1, hE.2⟩
    · intro v hr hnr
      refine ⟨rfl, ?_⟩
      cases hs : v.status with
      | running => exact absurd hs hnr
      | finished => exact Or.inl rfl
      | failed => exact Or.inr rfl
    · intro v fuel o v' hr hrun hs ho
      exfalso
      have hi := (ckInv_reach hc (ckInv_new a t0 y0 hf e0 Ks0) hr).1
      rcases ckStep_cases hc hi hs with ⟨-, ⟨h, -⟩ | ⟨-, h, -⟩⟩ | ⟨-, -, r, d, -, -⟩
      · exact absurd hrun h
      · rw [h] at ho; exact ho
      · rcases d.result with ⟨⟨m, h⟩, -⟩ | ⟨h, -⟩ <;> rw [h] at ho <;> exact ho

/-! ## ESDIRK methods -/

/-- An exception was raised. -/
def EOut.raised : EOut → Prop
  | .exc _ => True
  | _ => False

/-- **C110** for the ESDIRK methods: at most `|t_bound - t0| / h_min + 1` calls; the only possible exception is the `ValueError` that
scipy's `lu_factor` raises for a Jacobian which is not finite. -/
theorem C110_esdirk [Archimedean K] [AddCommGroup V] [Module K V] {c : ECfg K V} (hc : ECfgOK c) (hg : c.safety < 1) {b t0 : K}
    (hb : c.tb = some b) (h0 : 0 ≤ c.dir * (b - t0)) {v0 : ESolver K V} {y0 yp0 : V} {J0 : V →ₗ[K] V}
    (hn : IsNew v0 t0 y0 yp0 J0) :
    (∃ n r w, WhileRunning (eStep c) (fun v => v.status = .running) EOut.raised v0 n r w) ∧
    ∀ n r w, WhileRunning (eStep c) (fun v => v.status = .running) EOut.raised v0 n r w →
      n * c.hMinB ≤ |b - t0| + c.hMinB ∧
      (r = some (.exc .nanErr) ∨ r = none ∧ ((w.status = .finished ∧ w.st.t = b) ∨ w.status = .failed)) := by
  have ht0 : v0.st.t = t0 := by
    obtain ⟨_, _, _, _, -, rfl⟩ := hn.new
    rfl
  have h0' : 0 ≤ c.dir * (b - v0.st.t) := by rw [ht0]; exact h0
  have hrun0 : v0.status = .running := by
    obtain ⟨_, _, _, _, -, rfl⟩ := hn.new
    rfl
  let I : ESolver K V → Prop := fun v => EReach c v0 v ∧ (v.status = .finished → v.st.t = b)
  have hdec : ∀ (v : ESolver K V) (fuel : ℕ) (o : EOut) (v' : ESolver K V), I v → v.status = .running →
      eStep c fuel v = some (o, v') → ¬ o.raised → I v' ∧ (v'.status = .running → 0 ≤ c.dir * (b - v'.st.t) ∧
        c.dir * (b - v'.st.t) + c.hMinB ≤ c.dir * (b - v.st.t)) := by
    rintro v fuel o v' ⟨hr, -⟩ hrun hs ho
    have hr' : EReach c v0 v' := .tail hr hs (fun h => by rw [h] at ho; exact ho trivial)
    refine ⟨⟨hr', fun hf => ?_⟩, fun hrun' => ?_⟩
    · rcases eStep_cases hs with ⟨h, -⟩ | ⟨-, -, rfl, -⟩ | ⟨-, -, s', -, -, ⟨rfl, -⟩ | ⟨-, h⟩ | ⟨e, rfl, -⟩⟩
      · exact absurd hrun h
      · exact (C34_finished_on_t_bound hc hb hn h0' hr hs).mp hf
      · exact (C34_finished_on_t_bound hc hb hn h0' hr hs).mp hf
      · rw [h] at hf; cases hf
      · exact absurd trivial ho
    · have h1 := (C34_never_past_t_bound hc hb hn h0' hr').2
      rcases eStep_cases hs with ⟨h, -⟩ | ⟨-, -, -, rfl⟩ | ⟨-, hne, s', -, -, ⟨rfl, -⟩ | ⟨-, h⟩ | ⟨e, rfl, -⟩⟩
      · exact absurd hrun h
      · cases hrun'
      · refine ⟨h1, ?_⟩
        have h3 := (C34_strict_advance hc hn hr hne hs).1
        linarith [show c.dir * (b - v'.st.t) = c.dir * (b - v.st.t) - c.dir * (v'.st.t - v.st.t) by ring]
      · rw [h] at hrun'; cases hrun'
      · exact absurd trivial ho
  have hI0 : I v0 := ⟨.refl, fun h => by rw [hrun0] at h; cases h⟩
  constructor
  · refine WhileRunning.exists (I := I) (φ := fun v => c.dir * (b - v.st.t)) hc.hMinB ?_ hdec hI0
    rintro v ⟨hr, -⟩ _
    obtain ⟨fuel, h⟩ := C35_step_returns hc hg hn hr
    obtain ⟨⟨o, v'⟩, h'⟩ := Option.ne_none_iff_exists'.mp h
    exact ⟨_, o, v', h'⟩
  · intro n r w hw
    have habs : c.dir * (b - t0) = |b - t0| := by
      rcases hc.dir with hd | hd <;> rw [hd] at h0 ⊢
      · rw [abs_of_nonneg (by linarith)]; ring
      · rw [abs_of_nonpos (by linarith)]; ring
    have hE := WhileRunning.bound (I := I) (φ := fun v => c.dir * (b - v.st.t)) (E := fun r w => r = some (.exc .nanErr) ∨
      r = none ∧ ((w.status = .finished ∧ w.st.t = b) ∨ w.status = .failed)) hc.hMinB.le hdec ?_ ?_ hw hI0 h0'
    · have h1 : (n : K) * c.hMinB ≤ c.dir * (b - v0.st.t) + c.hMinB := hE.1
      rw [ht0, habs] at h1
      exact ⟨h1, hE.2⟩
    · rintro v ⟨hr, hf⟩ hnr
      refine Or.inr ⟨rfl, ?_⟩
      cases hs : v.status with
      | running => exact absurd hs hnr
      | finished => exact Or.inl ⟨rfl, hf hs⟩
      | failed => exact Or.inr rfl
    · rintro v fuel o v' ⟨hr, -⟩ hrun hs ho
      cases o with
      | ok => exact absurd ho id
      | tooSmall => exact absurd ho id
      | exc e =>
        rcases C64_no_exception hc hn hr hs with rfl | ⟨-, h⟩
        · exact Or.inl rfl
        · exact absurd hrun h

/-! ## `SWAG` -/

/-- A number between two numbers of the same sign is not smaller than both. -/
theorem abs_between {d t0 b t : K} (hd : d = 1 ∨ d = -1) (h : 0 < t0 * b) (h1 : 0 ≤ d * (t - t0)) (h2 : 0 ≤ d * (b - t)) :
    min |t0| |b| ≤ |t| := by
  rcases lt_or_ge 0 t0 with hp | hp
  · have hb : 0 < b := by
      by_contra hcon
      nlinarith [not_lt.mp hcon]
    rw [abs_of_pos hp, abs_of_pos hb]
    rcases hd with rfl | rfl
    · exact (min_le_left _ _).trans (le_trans (by linarith) (le_abs_self t))
    · exact (min_le_right _ _).trans (le_trans (by linarith) (le_abs_self t))
  · have hn : t0 < 0 := lt_of_le_of_ne hp (fun e => by rw [e, zero_mul] at h; exact lt_irrefl _ h)
    have hb : b < 0 := by
      by_contra hcon
      nlinarith [not_lt.mp hcon]
    rw [abs_of_neg hn, abs_of_neg hb]
    rcases hd with rfl | rfl
    · exact (min_le_right _ _).trans (le_trans (by linarith) (neg_le_abs t))
    · exact (min_le_left _ _).trans (le_trans (by linarith) (neg_le_abs t))

/-- **C110** for `SWAG` on intervals which do not contain zero (in zero it may hang, C46): at most
`|t_bound - t0| / (4 u min(|t0|, |t_bound|)) + 1` calls, no exception, finished exactly on `t_bound` or failed. -/
theorem C110_swag [Archimedean K] [AddCommGroup V] [Module K V] {c : SwCfg K V} (ok : SwOK c) {b t0 : K} (hb : c.tb = some b)
    (h0 : 0 ≤ c.dir * (b - t0)) (hz : 0 < t0 * b) {y0 yp0 : V} {hf : K} {wt0 : V → ENorm K} {phi0 : ℕ → V} {co0 : Coef K} {nfev : ℕ}
    (hh : 0 < c.dir * hf) :
    (∃ n r w, WhileRunning (swStep c) (fun v => v.status = .running) (fun _ => False) (newSwag t0 y0 yp0 hf wt0 phi0 co0 nfev) n r w) ∧
    ∀ n r w, WhileRunning (swStep c) (fun v => v.status = .running) (fun _ => False) (newSwag t0 y0 yp0 hf wt0 phi0 co0 nfev) n r w →
      n * (c.fouru * min |t0| |b|) ≤ |b - t0| + c.fouru * min |t0| |b| ∧ r = none ∧
        ((w.status = .finished ∧ w.st.t = b) ∨ w.status = .failed) := by
  set v0 : SwSolver K V := newSwag t0 y0 yp0 hf wt0 phi0 co0 nfev with hv0
  have ht0 : t0 ≠ 0 := fun e => by rw [e, zero_mul] at hz; exact lt_irrefl _ hz
  have hb0 : b ≠ 0 := fun e => by rw [e, mul_zero] at hz; exact lt_irrefl _ hz
  have hpos : 0 < c.fouru * min |t0| |b| := mul_pos ok.fouru (lt_min (abs_pos.mpr ht0) (abs_pos.mpr hb0))
  have hbb : ∀ b', c.tb = some b' → 0 ≤ c.dir * (b' - t0) := fun b' h => by
    rw [hb] at h; rw [← Option.some.inj h]; exact h0
  let I : SwSolver K V → Prop := fun v => SwReach c v0 v ∧ (v.status = .running → 0 ≤ c.dir * (v.st.t - t0)) ∧
    (v.status = .finished → v.st.t = b)
  have hdd : c.dir * c.dir = 1 := by rcases ok.dir with e | e <;> rw [e] <;> ring
  have hdec : ∀ (v : SwSolver K V) (fuel : ℕ) (o : SwOut) (v' : SwSolver K V), I v → v.status = .running →
      swStep c fuel v = some (o, v') → ¬ False → I v' ∧ (v'.status = .running → 0 ≤ c.dir * (b - v'.st.t) ∧
        c.dir * (b - v'.st.t) + c.fouru * min |t0| |b| ≤ c.dir * (b - v.st.t)) := by
    rintro v fuel o v' ⟨hr, hge, -⟩ hrun hs -
    have hr' : SwReach c v0 v' := .tail hr hs
    have ht := hr.time ok (newSwag_time hh hbb) hrun
    have hm : min |t0| |b| ≤ |v.st.t| := abs_between ok.dir hz (hge hrun) (ht.ahead b hb)
    rcases swStep_cases hs with ⟨h1, _⟩ | ⟨_, h1, _, rfl⟩ | ⟨_, hb', s', hi, rfl, e⟩ | ⟨_, _, h1, s', _, rfl⟩
    · exact absurd hrun h1
    · refine ⟨⟨hr', (fun h => by cases h), (fun _ => ?_)⟩, (fun h => by cases h)⟩
      rw [hb] at h1
      exact (Option.some.inj h1).symm
    · have hbd := C46_bounds ok hh hbb hr hrun hs
      have hadv : 0 ≤ c.dir * (v'.st.t - t0) := by
        have := hge hrun
        linarith [hbd.1, show c.dir * (v'.st.t - t0) = c.dir * (v'.st.t - v.st.t) + c.dir * (v.st.t - t0) by ring]
      have hne : ∀ b, c.tb = some b → b ≠ v.st.t := fun b h1 h2 => hb' (by rw [h1, h2])
      have hst : v'.status = if swReached c v'.st.t then .finished else .running := by rw [e]
      have hfin : v'.status = .finished → v'.st.t = b := by
        intro hf
        have h1 : 0 ≤ c.dir * (v'.st.t - b) := by
          rw [hst] at hf
          unfold swReached at hf
          rw [hb] at hf
          dsimp only at hf
          by_contra hcon
          simp [hcon] at hf
        have h2 := hbd.2.1 b hb
        have h3 : c.dir * (v'.st.t - b) = 0 := le_antisymm (by linarith [show c.dir * (v'.st.t - b) = -(c.dir * (b - v'.st.t)) by ring]) h1
        rcases mul_eq_zero.mp h3 with h4 | h4
        · rw [h4, mul_zero] at hdd; exact absurd hdd zero_ne_one
        · exact sub_eq_zero.mp h4
      refine ⟨⟨hr', fun _ => hadv, hfin⟩, fun hrun' => ⟨hbd.2.1 b hb, ?_⟩⟩
      have hv't : v'.st = s' := by rw [e]
      rcases swStepImpl_min hi with ⟨b', hb2, h3, e'⟩ | ⟨l, hl, hmin, _, he, e'⟩
      · exfalso
        rw [hb] at hb2
        have h4 : v'.st.t = b := by rw [hv't, e', ← Option.some.inj hb2]; rfl
        rw [hst] at hrun'
        unfold swReached at hrun'
        rw [hb, h4] at hrun'
        simp at hrun'
      · have hlt := attempt_time ok ht hne hl
        have h5 : s'.t = v.st.t + l.h := by
          rw [e']
          show (swStiff c v.st).t + l.h = _
          rw [(swStiff_same c v.st).1]
        have h6 : swMinStep c v.st.t ≤ c.dir * l.h := by
          rcases hlt.sign with h | ⟨h, _⟩
          · have : |l.h| = c.dir * l.h := by
              rcases ok.dir with e | e <;> rw [e] at h ⊢
              · rw [abs_of_pos (by linarith)]; ring
              · rw [abs_of_neg (by linarith)]; ring
            rw [← this]; exact hmin
          · rw [h, abs_zero] at hmin; rw [h, mul_zero]; exact hmin
        have h7 : c.fouru * min |t0| |b| ≤ swMinStep c v.st.t := mul_le_mul_of_nonneg_left hm ok.fouru.le
        rw [hv't, h5]
        linarith [show c.dir * (b - (v.st.t + l.h)) = c.dir * (b - v.st.t) - c.dir * l.h by ring]
    · exact ⟨⟨hr', (fun h => by cases h), (fun h => by cases h)⟩, (fun h => by cases h)⟩
  have hI0 : I v0 := ⟨.refl, fun _ => by show 0 ≤ c.dir * (t0 - t0); simp, fun h => by cases h⟩
  constructor
  · refine WhileRunning.exists (I := I) (φ := fun v => c.dir * (b - v.st.t)) hpos ?_ hdec hI0
    rintro v ⟨hr, hge, -⟩ hrun
    have ht := hr.time ok (newSwag_time hh hbb) hrun
    have hm : min |t0| |b| ≤ |v.st.t| := abs_between ok.dir hz (hge hrun) (ht.ahead b hb)
    have hne : v.st.t ≠ 0 := by
      intro e
      rw [e, abs_zero] at hm
      exact absurd (lt_min (abs_pos.mpr ht0) (abs_pos.mpr hb0)) (not_lt.mpr hm)
    obtain ⟨N, h⟩ := C46_returns ok hne
    obtain ⟨⟨o, v'⟩, h'⟩ := Option.ne_none_iff_exists'.mp (h N le_rfl)
    exact ⟨_, o, v', h'⟩
  · intro n r w hw
    have habs : c.dir * (b - t0) = |b - t0| := by
      rcases ok.dir with hd | hd <;> rw [hd] at h0 ⊢
      · rw [abs_of_nonneg (by linarith)]; ring
      · rw [abs_of_nonpos (by linarith)]; ring
    have hE := WhileRunning.bound (I := I) (φ := fun v => c.dir * (b - v.st.t)) (E := fun r w => r = none ∧
      ((w.status = .finished ∧ w.st.t = b) ∨ w.status = .failed)) hpos.le hdec ?_ (fun _ _ _ _ _ _ _ h => absurd h id) hw hI0 h0
    · have h1 : (n : K) * (c.fouru * min |t0| |b|) ≤ c.dir * (b - t0) + c.fouru * min |t0| |b| := hE.1
      rw [habs] at h1
      exact ⟨h1, hE.2⟩
    · rintro v ⟨hr, -, hf⟩ hnr
      refine ⟨rfl, ?_⟩
      cases hs : v.status with
      | running => exact absurd hs hnr
      | finished => exact Or.inl ⟨rfl, hf hs⟩
      | failed => exact Or.inr rfl

/-! ## SSV2stab -/

section
variable [FloorSemiring K] [AddCommGroup V] [Module K V] {c : ChebCfg K V}

theorem chebInit_ge (t : K) (yn fn : V) (sp : K) : min c.hmin0 c.maxStep ≤ chebInit c t yn fn sp := by
  unfold chebInit
  dsimp only
  split
  · split_ifs <;> first | exact min_le_right _ _ | exact (min_le_left _ _).trans (le_max_right _ _)
  · exact min_le_left _ _
  · exact min_le_right _ _

/-- An attempted step is at least `lo`, or the whole distance to the end of the interval. -/
theorem MadeFrom.lower (hc : ChebOK c) {b : K} (hb : c.tb = some b) {t a lo r : K} {q : StageCall K V} (h : MadeFrom c t a q) (hq : CallOK c q)
    (ha : lo ≤ a) (ha0 : 0 < a) (hsp : q.sprad ≤ r) (hlo0 : 0 ≤ lo) (hlo : lo * (77 / 50 * r) ≤ (c.mmax : K) ^ 2 - 1) :
    lo ≤ c.dir * q.h ∨ c.dir * q.h = |b - t| := by
  have hdd := cheb_dir_sq hc
  obtain ⟨a1, h1, ⟨-, -, e⟩ | ⟨-, -, e⟩⟩ := h
  · have e' : c.dir * q.h = a1 := by rw [e, ← mul_assoc, hdd, one_mul]
    rw [e']
    rcases h1 with ⟨rfl, -⟩ | ⟨b', hb', -, rfl⟩
    · exact Or.inl ha
    · right
      rw [hb] at hb'
      rw [Option.some.inj hb']
  · left
    have e' : c.dir * q.h = ((c.mmax : K) ^ 2 - 1) / (77 / 50 * q.sprad) := by rw [e, ← mul_assoc, hdd, one_mul]
    have hpos := hq.pos
    rw [e'] at hpos ⊢
    have hs : 0 < 77 / 50 * q.sprad := by
      rcases (mul_nonneg (by norm_num : (0 : K) ≤ 77 / 50) hq.sp).lt_or_eq with h | h
      · exact h
      · rw [← h, div_zero] at hpos; exact absurd hpos (lt_irrefl _)
    rw [le_div_iff₀ hs]
    refine le_trans (mul_le_mul_of_nonneg_left ?_ hlo0) hlo
    exact mul_le_mul_of_nonneg_left hsp (by norm_num)

theorem Attempts.lower (hc : ChebOK c) {b : K} (hb : c.tb = some b) {s : ChebSt K V} {lo r : K} (hlo0 : 0 < lo)
    (hlo : lo * (77 / 50 * r) ≤ (c.mmax : K) ^ 2 - 1) (hmin : lo ≤ c.sqrtmin) :
    ∀ (l : List (StageCall K V)) (a : StageCall K V → K), Attempts c s a l → (∀ q ∈ l, CallOK c q ∧ q.sprad ≤ r) →
      (∀ q, lo ≤ a q) → ∀ q ∈ l, lo ≤ c.dir * q.h ∨ c.dir * q.h = |b - s.t|
  | [], _, _, _, _, q, hq => by simp at hq
  | p :: l, a, h, hok, ha, q, hq => by
    have hp := hok p (by simp)
    rcases List.mem_cons.mp hq with rfl | hq
    · exact h.1.lower hc hb hp.1 (ha q) (hlo0.trans_le (ha q)) hp.2 hlo0.le hlo
    · obtain ⟨x, -, ⟨-, h2⟩, h3⟩ := h.2 (by rintro rfl; simp at hq)
      exact Attempts.lower hc hb hlo0 hlo hmin l _ h3 (fun q hq => hok q (List.mem_cons_of_mem _ hq))
        (fun _ => (hmin.trans (le_max_left _ _)).trans h2) q hq

/-- An exception was raised. -/
def ChebOut.raised : ChebOut → Prop
  | .domain | .attribute | .notRunning => True
  | _ => False

/-- **C110** for SSV2stab, with a bounded spectral radius: the loop
`while solver.status == 'running': solver.step()` ends, without an exception, either on `t_bound` or with a failure. With `lo` any
positive number not larger than `sqrt(tiny)` (the smallest step the method accepts after a rejection), the first step (`first_step`, or
the initial minimal step and `max_step`) and the step `(mmax^2 - 1)/(1.54 rho)` which `mmax` stages can take with the largest
spectral radius `rho` ever obtained, the number of calls is at most `|t_bound - t0|/lo + 1`. -/
theorem C110_ssv2stab [Archimedean K] {t0 : K} {first : Option K} (hs : ChebStart c t0 first) (y0 : V) {b : K} (hb : c.tb = some b)
    {rho lo : K} (hrho : ∀ t y x, IsEst c t y x → x ≤ rho) (hlo0 : 0 < lo) (hlo : lo * (77 / 50 * rho) ≤ (c.mmax : K) ^ 2 - 1)
    (hmin : lo ≤ c.sqrtmin) (hmin0 : lo ≤ c.hmin0) (hmax : lo ≤ c.maxStep) (hfirst : ∀ f, first = some f → lo ≤ f) :
    (∃ n r w, WhileRunning (chebStep c) (fun v => v.status = .running) ChebOut.raised (newCheb c t0 y0 first) n r w) ∧
    ∀ n r w, WhileRunning (chebStep c) (fun v => v.status = .running) ChebOut.raised (newCheb c t0 y0 first) n r w →
      n * lo ≤ |b - t0| + lo ∧ r = none ∧ ((w.status = .finished ∧ w.st.t = b) ∨ w.status = .failed) := by
  have hc := hs.ok
  set v0 : ChebSolver K V := newCheb c t0 y0 first with hv0
  let I : ChebSolver K V → Prop := fun v => ChebReach c v0 v ∧ (v.status = .running → ∀ a, v.st.absh = some a → lo ≤ a)
  have hdec : ∀ (v : ChebSolver K V) (fuel : ℕ) (o : ChebOut) (v' : ChebSolver K V), I v → v.status = .running →
      chebStep c fuel v = some (o, v') → ¬ o.raised → I v' ∧ (v'.status = .running → 0 ≤ c.dir * (b - v'.st.t) ∧
        c.dir * (b - v'.st.t) + lo ≤ c.dir * (b - v.st.t)) := by
    rintro v fuel o v' ⟨hr, hge⟩ hrun h -
    have hr' : ChebReach c v0 v' := .tail hr h
    have hi := hr.inv hs
    have hi' := hr'.inv hs
    rcases (chebStep_spec hc hi h).2.1 with ⟨e, ⟨h1, -⟩ | ⟨rfl, h1⟩⟩ | ⟨-, hne, rfl, -, -, q, hq⟩ | ⟨-, hf, -⟩
    · exact absurd hrun h1
    · have hst : v'.status ≠ .running := by
        unfold chebStep at h
        rw [hrun] at h
        dsimp only at h
        rw [if_pos h1] at h
        cases h
        simp
      exact ⟨⟨hr', fun h => absurd h hst⟩, fun h => absurd h hst⟩
    · have hside := hi'.side b hb
      obtain ⟨a', ha', hsq, -⟩ := hq.next
      refine ⟨⟨hr', fun _ a ha => ?_⟩, fun hrun' => ⟨hside, ?_⟩⟩
      · rw [ha'] at ha
        rw [← Option.some.inj ha]
        exact hmin.trans hsq
      · obtain ⟨l, l1, l2, l3⟩ := C81_attempts hs hr hrun hne h
        have hql : q ∈ l := by
          obtain ⟨l', e⟩ := hq.mem
          rw [e] at l1
          have hl : l.reverse ≠ [] := by simpa using l3 rfl
          obtain ⟨p, k, hk⟩ := List.exists_cons_of_ne_nil hl
          rw [hk] at l1
          have : q = p := by
            rw [List.cons_append] at l1
            exact (List.cons.inj l1).1
          rw [← List.mem_reverse, hk, this]
          simp
        have hcall : ∀ p ∈ l, CallOK c p ∧ p.sprad ≤ rho := by
          intro p hp
          have hp' : p ∈ v'.st.calls := by rw [l1]; simp [hp]
          have := (hi'.log.calls p hp').1
          exact ⟨this, hrho _ _ _ this.est⟩
        have hprop : ∀ p, lo ≤ proposal c v.st p := by
          intro p
          unfold proposal
          cases ha : v.st.absh with
          | some a => exact hge hrun a ha
          | none => exact (le_min hmin0 hmax).trans (chebInit_ge _ _ _ _)
        have hstep : v'.st.t = v.st.t + q.h := hq.t
        rcases l2.lower hc hb hlo0 hlo hmin l _ hcall hprop q hql with h1 | h1
        · rw [hstep]
          linarith [show c.dir * (b - (v.st.t + q.h)) = c.dir * (b - v.st.t) - c.dir * q.h by ring]
        · exfalso
          rcases C43_finished_on_t_bound hs hb hr h with ⟨h2, -⟩ | ⟨-, h2⟩
          · rw [hrun'] at h2; cases h2
          · have h3 : |b - v.st.t| = c.dir * (b - v.st.t) := by
              have := hi.side b hb
              rcases hc.dir with hd | hd <;> rw [hd] at this ⊢
              · rw [abs_of_nonneg (by linarith)]; ring
              · rw [abs_of_nonpos (by linarith)]; ring
            rw [hstep] at h2
            linarith [show c.dir * (b - (v.st.t + q.h)) = c.dir * (b - v.st.t) - c.dir * q.h by ring]
    · have hst : v'.status ≠ .running := by rw [hf]; simp
      exact ⟨⟨hr', fun h => absurd h hst⟩, fun h => absurd h hst⟩
  have hI0 : I v0 := ⟨.refl, fun _ a ha => hfirst a ha⟩
  have h0 : 0 ≤ c.dir * (b - t0) := hs.side b hb
  constructor
  · refine WhileRunning.exists (I := I) (φ := fun v => c.dir * (b - v.st.t)) hlo0 ?_ hdec hI0
    rintro v ⟨hr, -⟩ -
    obtain ⟨fuel, h⟩ := C43_step_returns hs hr
    obtain ⟨⟨o, v'⟩, h'⟩ := Option.ne_none_iff_exists'.mp h
    exact ⟨_, o, v', h'⟩
  · intro n r w hw
    have habs : c.dir * (b - t0) = |b - t0| := by
      rcases hc.dir with hd | hd <;> rw [hd] at h0 ⊢
      · rw [abs_of_nonneg (by linarith)]; ring
      · rw [abs_of_nonpos (by linarith)]; ring
    have hE := WhileRunning.bound (I := I) (φ := fun v => c.dir * (b - v.st.t)) (E := fun r w => r = none ∧
      ((w.status = .finished ∧ w.st.t = b) ∨ w.status = .failed)) hlo0.le hdec ?_ ?_ hw hI0 h0
    · have h1 : (n : K) * lo ≤ c.dir * (b - t0) + lo := hE.1
      rw [habs] at h1
      exact ⟨h1, hE.2⟩
    · rintro v ⟨hr, -⟩ hnr
      refine ⟨rfl, ?_⟩
      cases hst : v.status with
      | running => exact absurd hst hnr
      | finished =>
        have := (hr.inv hs).fin hst
        rw [hb] at this
        exact Or.inl ⟨rfl, (Option.some.inj this).symm⟩
      | failed => exact Or.inr rfl
    · rintro v fuel o v' ⟨hr, -⟩ hrun h ho
      rcases C43_no_exception hs hr hrun h with rfl | rfl | rfl | rfl <;> exact absurd ho id

/-- If the error norm of every attempt is a number below 1, every attempt is accepted. -/
theorem chebLoop_accepts (hc : ChebOK c) {first : Option K} {s s' : ChebSt K V} {n : ℕ} {o : ChebOut} (hi : ChebInv c first s)
    (hb : Before c s.t) (hj : c.rhoJac.isSome) (herr : ∀ h m, ∃ x, attemptErr c s h m = .num x ∧ x < 1)
    (h : chebLoop c n s s.absh = some (o, s')) : o = .ok := by
  cases n with
  | zero => cases h
  | succ n =>
    unfold chebLoop at h
    rcases chebIter_spec hc hi hb with e | ⟨s1, a, hf, -, -, -, -, -, hp⟩
    · exfalso
      obtain ⟨r, hr⟩ := Option.isSome_iff_exists.mp hj
      obtain ⟨s1, hs1⟩ : ∃ s1, chebSpectral c s = some s1 := by
        unfold chebSpectral
        rw [hr]
        split_ifs
        · exact ⟨_, rfl⟩
        · exact ⟨_, rfl⟩
      obtain ⟨sp, hm, hf, -, -, -⟩ := chebSpectral_spec hc hi hs1
      have hb1 : Before c s1.t := by rw [hf.t]; exact hb
      unfold chebIter at e
      rw [hs1] at e
      dsimp only at e
      rw [hm.sprad] at e
      dsimp only at e
      have key : ∀ (s2 : ChebSt K V) (a : K), 0 < a → Before c s2.t → chebTry c s2 a sp ≠ .done .rhoFailed (chebRhoFailed c s) := by
        intro s2 a ha hb2 e2
        obtain ⟨f1, -, -⟩ := chebFit_spec hc ha hb2
        unfold chebTry at e2
        dsimp only at e2
        rw [if_neg (by have : 0 ≤ 77 / 50 * chebFit c.tb s2.t a * sp := mul_nonneg (by positivity) hm.nonneg
                       linarith)] at e2
        unfold chebAttempt at e2
        dsimp only at e2
        repeat' split at e2
        all_goals cases e2
      cases ha : s.absh with
      | some a => rw [ha] at e; exact key _ _ (hi.absh a ha) hb1 e
      | none =>
        rw [ha] at e
        dsimp only at e
        exact key _ _ (chebInit_spec hc s1.t s1.yn s1.fn sp).1 (by exact hb1) e
    · have he : ∀ h m, ∃ x, attemptErr c s1 h m = .num x ∧ x < 1 := fun h m => by
        rw [attemptErr_congr hf]; exact herr h m
      cases hr : chebIter c s s.absh with
      | retry s2 a2 =>
        rw [hr] at hp
        obtain ⟨q, -, -, -, -, -, -, -, -, -, -, x, h1, h2⟩ := hp
        obtain ⟨x', h3, h4⟩ := he q.h q.m
        rw [h3] at h1
        cases h1
        exact absurd h2 (not_le.mpr h4)
      | done o1 s2 =>
        rw [hr] at hp h
        cases h
        have key : ∀ o : ChebOut, (o = .overflow ∨ o = .tooSmall) → (∃ q : StageCall K V, (o = .overflow → ∀ x, attemptErr c s1 q.h q.m ≠ .num x) ∧
            (o = .tooSmall → ∃ x, attemptErr c s1 q.h q.m = .num x ∧ 1 ≤ x)) → False := by
          rintro o ho ⟨q, h1, h2⟩
          obtain ⟨x', h3, h4⟩ := he q.h q.m
          rcases ho with rfl | rfl
          · exact h1 rfl _ h3
          · obtain ⟨x, h5, h6⟩ := h2 rfl
            rw [h3] at h5
            cases h5
            exact absurd h6 (not_le.mpr h4)
        cases o
        case ok => rfl
        all_goals
          obtain ⟨ho, q, -, -, -, -, -, k1, k2⟩ := hp
          exact absurd (key _ ho ⟨q, k1, k2⟩) id

/-- **C110** (finding). The bound on the spectral radius is needed: the step which `mmax` stages can take is not compared with the minimal
step. If `rho_jac` grows like `1/(T - t)` before some time `T` inside the interval of integration, the solver never reaches `T`
and never finishes; and if the error estimates stay below the tolerance it does not fail either: the loop does not end. -/
theorem C110_ssv2stab_needs_bound {t0 T : K} {first : Option K} (hs : ChebStart c t0 first) (y0 : V) {r : K → V → K}
    (hj : c.rhoJac = some r) (hcj : c.constJac = false) (hd : c.dir = 1) (hT : t0 < T) (hTb : ∀ b, c.tb = some b → T ≤ b)
    (hr : ∀ t y, t < T → 2 * ((c.mmax : K) ^ 2 - 1) ≤ 77 / 50 * r t y * (T - t)) :
    (∀ v, ChebReach c (newCheb c t0 y0 first) v → v.st.t < T ∧ v.status ≠ .finished) ∧
    ((∀ v h m, ChebReach c (newCheb c t0 y0 first) v → ∃ x, attemptErr c v.st h m = .num x ∧ x < 1) →
      ¬ ∃ n o w, WhileRunning (chebStep c) (fun v => v.status = .running) ChebOut.raised (newCheb c t0 y0 first) n o w) := by
  have hc := hs.ok
  have hlt : ∀ v, ChebReach c (newCheb c t0 y0 first) v → v.st.t < T := by
    intro v hv
    induction hv with
    | refl => exact hT
    | @tail v v' o fuel hv h ih =>
      rcases (chebStep_spec hc (hv.inv hs) h).2.1 with ⟨e, -⟩ | ⟨-, -, -, -, -, q, hq⟩ | ⟨-, -, e, -⟩
      · rw [e]; exact ih
      · have hcall := hq.ok
        have hage := hcall.age hcj
        have hfresh := hcall.fresh (hage.2 (by rw [hj]; rfl))
        have hest := hcall.est
        unfold IsEst at hest
        rw [hj] at hest
        dsimp only at hest
        rw [hfresh.1, hfresh.2, hq.qt, hq.qy] at hest
        have h1 := hr _ v.st.yn ih
        rw [← hest] at h1
        have hpos := hcall.pos
        rw [hd, one_mul] at hpos
        have h2 := hcall.stab
        rw [abs_of_pos hpos] at h2
        have h3 : (q.m : K) ^ 2 ≤ (c.mmax : K) ^ 2 := by
          have : (q.m : K) ≤ c.mmax := by exact_mod_cast hcall.mle
          exact pow_le_pow_left₀ (by positivity) this 2
        have h4 : (4 : K) ≤ (q.m : K) ^ 2 := by
          have : (2 : K) ≤ q.m := by exact_mod_cast hcall.m2
          calc (4 : K) = 2 ^ 2 := by norm_num
            _ ≤ _ := pow_le_pow_left₀ (by norm_num) this 2
        rw [hq.t]
        by_contra hcon
        have h5 : T - v.st.t ≤ q.h := by linarith [not_lt.mp hcon]
        have h6 : 77 / 50 * q.sprad * (T - v.st.t) ≤ 77 / 50 * q.sprad * q.h :=
          mul_le_mul_of_nonneg_left h5 (mul_nonneg (by norm_num) hcall.sp)
        linarith [show 77 / 50 * q.sprad * q.h = 77 / 50 * q.h * q.sprad by ring]
      · rw [e]; exact ih
  have hfin : ∀ v, ChebReach c (newCheb c t0 y0 first) v → v.status ≠ .finished := by
    intro v hv hf
    have h1 := (hv.inv hs).fin hf
    exact absurd (hlt v hv) (not_lt.mpr (hTb _ h1))
  refine ⟨fun v hv => ⟨hlt v hv, hfin v hv⟩, fun herr => ?_⟩
  rintro ⟨n, o, w, hw⟩
  have key : ∀ v n o w, WhileRunning (chebStep c) (fun v => v.status = .running) ChebOut.raised v n o w →
      ChebReach c (newCheb c t0 y0 first) v → v.status = .running → False := by
    intro v n o w hw
    have hok : ∀ {v v' : ChebSolver K V} {o : ChebOut} {fuel : ℕ}, ChebReach c (newCheb c t0 y0 first) v → v.status = .running →
        chebStep c fuel v = some (o, v') → o = .ok ∧ v'.status = .running := by
      intro v v' o fuel hv hrun h
      have hi := hv.inv hs
      have hne : c.tb ≠ some v.st.t := fun e => absurd (hlt v hv) (not_lt.mpr (hTb _ e))
      have ho : o = .ok := by
        unfold chebStep at h
        rw [hrun] at h
        dsimp only at h
        rw [if_neg hne] at h
        unfold chebStepImpl at h
        cases hl : chebLoop c fuel v.st v.st.absh with
        | none => rw [hl] at h; cases h
        | some p =>
          obtain ⟨o1, s1⟩ := p
          have := chebLoop_accepts hc (hi.run hrun) (Before.of hc hi hne) (by rw [hj]; rfl) (fun h m => herr v h m hv) hl
          subst this
          rw [hl] at h
          cases h
          rfl
      refine ⟨ho, ?_⟩
      subst ho
      rcases (chebStep_spec hc hi h).2.1 with ⟨-, ⟨h1, -⟩ | ⟨-, h1⟩⟩ | ⟨-, -, -, -, -, q, hq⟩ | ⟨h1 | h1 | h1, -⟩
      · exact absurd hrun h1
      · exact absurd h1 hne
      · have hv' : ChebReach c (newCheb c t0 y0 first) v' := .tail hv h
        cases hst : v'.status with
        | running => rfl
        | finished => exact absurd hst (hfin v' hv')
        | failed =>
          exfalso
          unfold chebStep at h
          rw [hrun] at h
          dsimp only at h
          rw [if_neg hne] at h
          cases hl : chebStepImpl c fuel v.st with
          | none => rw [hl] at h; cases h
          | some p =>
            obtain ⟨o1, s1⟩ := p
            rw [hl] at h
            cases o1 <;> cases h
            dsimp only at hst
            split at hst
            · cases hst
            · split_ifs at hst
      · cases h1
      · cases h1
      · cases h1
    induction hw with
    | stop h => exact fun _ h1 => h h1
    | raise h1 h2 h3 =>
      intro hv _
      obtain ⟨rfl, -⟩ := hok hv h1 h2
      exact h3
    | next h1 h2 h3 h4 ih =>
      intro hv _
      exact ih (.tail hv h2) (hok hv h1 h2).2
  exact key _ _ _ _ hw .refl rfl

end

end Extensisq
