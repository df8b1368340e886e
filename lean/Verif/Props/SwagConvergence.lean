import Verif.Lemmas.SwagConv
import Verif.Lemmas.NearConv

/-!
# Convergence of SWAG (C105)
-/

set_option linter.unusedSectionVars false

namespace Extensisq
open scoped ContDiff
open Finset Polynomial

noncomputable section

/-! ## The steps at most double -/

section
variable {K V : Type*} [Field K] [LinearOrder K] [IsStrictOrderedRing K] [AddCommGroup V] [Module K V]

theorem nextH_le {c : SwCfg K V} {m h : K} {k : ℕ} {ph : Bool} {e : ENorm K} (hm : m ≤ |h|) :
    |nextH c m h k ph e| ≤ 2 * |h| := by
  have h0 := abs_nonneg h
  unfold nextH
  split_ifs with h1 h2
  · rw [← two_mul, abs_mul, abs_two]
  · linarith
  · have key : ∀ r : K, r ≤ 1 → |copySign (max (|h| * max (1 / 2) r) m) h| ≤ 2 * |h| := by
      intro r hr1
      have h3 : max (1 / 2) r ≤ 1 := max_le (by norm_num) hr1
      have h4 : 0 ≤ max (1 / 2) r := le_max_of_le_left (by norm_num)
      have h5 : |h| * max (1 / 2) r ≤ |h| := by nlinarith
      have h6 : max (|h| * max (1 / 2) r) m ≤ |h| := max_le h5 hm
      have h7 : 0 ≤ max (|h| * max (1 / 2) r) m := le_max_of_le_left (mul_nonneg h0 h4)
      have h8 : |copySign (max (|h| * max (1 / 2) r) m) h| = max (|h| * max (1 / 2) r) m := by
        unfold copySign
        split_ifs
        · rw [abs_neg, abs_of_nonneg h7]
        · rw [abs_of_nonneg h7]
      rw [h8]
      linarith
    refine key _ ?_
    cases e with
    | num x => exact (min_le_left _ _).trans (by norm_num)
    | inf => norm_num
    | nan => norm_num

/-- No attempt is longer than the planned step. -/
theorem attempt_le {c : SwCfg K V} (ok : SwOK c) {s : SwSt K V} (ht : SwTime c s)
    (hb : ∀ b, c.tb = some b → b ≠ s.t) {l : SwLoc K V} (h : SwAttempt c s l) : |l.h| ≤ |s.h| := by
  have hlt := attempt_time ok ht hb h
  have hbp : ∀ b, c.tb = some b → 0 < c.dir * (b - s.t) := by
    intro b hb'
    refine lt_of_le_of_ne (ht.ahead b hb') (fun e => hb b hb' ?_)
    rcases mul_eq_zero.mp e.symm with h1 | h1
    · rcases ok.dir with h2 | h2 <;> rw [h2] at h1 <;> norm_num at h1
    · exact sub_eq_zero.mp h1
  obtain ⟨_, _, s3, _, _, _⟩ := swLimit_spec ok ht.sign.nonneg hbp
  have hnn : 0 ≤ c.dir * l.h := by
    rcases hlt.sign with h | ⟨h, _⟩
    · exact h.le
    · rw [h, mul_zero]
  rw [dir_abs ok.dir hnn, dir_abs ok.dir ht.sign.nonneg]
  exact hlt.le.trans s3

/-- Each step of the history was at most twice as long as the one before, and the next one will be too. -/
structure Grow (s : SwSt K V) : Prop where
  past : ∀ i, i + 2 < s.hist.length → |hx s.hist i - hx s.hist (i + 1)| ≤ 2 * |hx s.hist (i + 1) - hx s.hist (i + 2)|
  next : 1 < s.hist.length → |s.h| ≤ 2 * |hx s.hist 0 - hx s.hist 1|

theorem Grow.accept {c : SwCfg K V} {s s' : SwSt K V} {l : SwLoc K V} (g : Grow s) (hnow : hx s.hist 0 = s.t)
    (hl : |l.h| ≤ |s.h|) (hm : swMinStep c s.t ≤ |l.h|)
    (e : s' = swAccept c (swMinStep c s.t) (swStiff c s) l (swTry c s.t s.y s.hold s.kold l)) : Grow s' := by
  obtain ⟨a1, a2, _⟩ := accept_hist e
  have hd : hx s'.hist 0 - hx s'.hist 1 = l.h := by
    rw [a1, hx_zero, hx_succ, hnow, a2]
    ring
  have hh : |s'.h| ≤ 2 * |l.h| := by
    rw [e]
    exact nextH_le hm
  refine ⟨fun i hi => ?_, fun _ => by rw [hd]; exact hh⟩
  cases i with
  | zero =>
    rw [hd]
    rw [a1] at hi ⊢
    rw [hx_succ, hx_succ]
    exact hl.trans (g.next (by simp at hi; omega))
  | succ i =>
    rw [a1] at hi ⊢
    rw [hx_succ, hx_succ, hx_succ]
    exact g.past i (by simp at hi; omega)

theorem SwReach.grow {c : SwCfg K V} (ok : SwOK c) (hfin : ∀ p y x, c.scale p y x ≠ .inf) {t0 : K} {y0 yp0 : V}
    {h0 : K} {wt0 : V → ENorm K} {phi0 : ℕ → V} {co0 : Coef K} {nfev : ℕ} (hh : 0 < c.dir * h0)
    (hb : ∀ b, c.tb = some b → 0 ≤ c.dir * (b - t0)) {v : SwSolver K V}
    (hr : SwReach c (newSwag t0 y0 yp0 h0 wt0 phi0 co0 nfev) v) (hs : v.status = .running) : Grow v.st := by
  induction hr with
  | refl => exact ⟨fun i hi => by simp [newSwag] at hi, fun hi => by simp [newSwag] at hi⟩
  | @tail v1 v2 o fuel hr1 hstep ih =>
    rcases swStep_cases hstep with ⟨_, _, e⟩ | ⟨_, _, _, e⟩ | ⟨r, hb', s', hi, eo, e⟩ | ⟨_, _, _, s', _, e⟩
    · subst e; exact ih hs
    · rw [e] at hs; cases hs
    · have hk := known ok hh hb hr1 r
      have hd := C46_distinct_times ok hfin hh hb hr1 r
      rcases swStepImpl_min hi with ⟨b, hb, _, e'⟩ | ⟨l, hl, hmn, _, he, e'⟩
      · exfalso
        rw [e] at hs
        have : s'.t = b := by rw [e']; rfl
        simp only [swReached, hb, this, sub_self, mul_zero, le_refl, decide_true, if_true] at hs
        cases hs
      · rw [e]
        exact (ih r).accept (hk.mesh hd).now (attempt_le ok hk.time (fun b h1 h2 => hb' (by rw [h1, h2])) hl) hmn e'
    · rw [e] at hs; cases hs

/-- A regular step of a solver whose norms are never infinite. -/
theorem regular_finite {c : SwCfg K V} (ok : SwOK c) (hfin : ∀ p y x, c.scale p y x ≠ .inf) {t0 : K} {y0 yp0 : V}
    {h0 : K} {wt0 : V → ENorm K} {phi0 : ℕ → V} {co0 : Coef K} {nfev : ℕ} (hh : 0 < c.dir * h0)
    (hb : ∀ b, c.tb = some b → 0 ≤ c.dir * (b - t0)) {v v' : SwSolver K V} {fuel : ℕ}
    (hr : SwReach c (newSwag t0 y0 yp0 h0 wt0 phi0 co0 nfev) v) (hs : v.status = .running)
    (hb0 : c.tb ≠ some v.st.t) (h : swStep c fuel v = some (.ok, v')) (hk : v'.st.kold ≠ 0) :
    ∃ l, SwRegular c v.st v'.st l ∧ 0 < c.dir * l.h ∧ |l.h| ≤ |v.st.h| := by
  have hkn := known ok hh hb hr hs
  have hd := C46_distinct_times ok hfin hh hb hr hs
  have hp := C46_progress_finite ok hfin hh hb hr hs hb0 h
  rcases step_hist hs hb0 h with ⟨b, _, e⟩ | ⟨l, hl, hmn, he, e⟩
  · rw [e] at hk; exact absurd rfl hk
  obtain ⟨a1, a2, a3, a4, a5, a6⟩ := accept_hist e
  rw [a2, add_sub_cancel_left] at hp
  have hm := hkn.mesh hd
  have hstr := hkn.strict hd
  have hne : l.h ≠ 0 := ne_of_dir hp
  have hbn : ∀ b, c.tb = some b → b ≠ v.st.t := fun b h1 h2 => hb0 (by rw [h1, h2])
  have ha := attempt_mesh ok hkn.inv hkn.time hm hstr hbn hl hne
  exact ⟨l, ⟨hkn.inv, hm, hstr, ha, hl.ok hkn.inv, hne, e, by rw [e]; exact accept_stiff hm ha⟩, hp,
    attempt_le ok hkn.time hbn hl⟩

end

/-! ## The formulas of a regular step, with bounded weights -/

section
variable {V : Type*} [AddCommGroup V] [Module ℝ V]

/-- The bound of the weights of order `k`. -/
def swB (k : ℕ) : ℝ := ((2 : ℝ) ^ (k + 1)) ^ (k + 1)

theorem one_le_two_pow' (k : ℕ) : (1 : ℝ) ≤ 2 ^ (k + 1) := one_le_pow₀ (by norm_num)

theorem swB_mono {k m : ℕ} (h : k ≤ m) : swB k ≤ swB m := by
  unfold swB
  calc ((2 : ℝ) ^ (k + 1)) ^ (k + 1) ≤ ((2 : ℝ) ^ (m + 1)) ^ (k + 1) :=
        pow_le_pow_left₀ (by positivity) (pow_le_pow_right₀ (by norm_num) (by omega)) _
    _ ≤ _ := pow_le_pow_right₀ (one_le_two_pow' m) (by omega)

/-- The quality of the mesh of a regular step. -/
theorem regular_quality {c : SwCfg ℝ V} (ok : SwOK c) {s s' : SwSt ℝ V} {l : SwLoc ℝ V} (R : SwRegular c s s' l) (g : Grow s)
    (hpos : 0 < c.dir * l.h) (hl : |l.h| ≤ |s.h|) : ∀ σ ∈ Set.uIcc s.t s'.t, ∀ i ≤ l.k, ∀ j ≤ l.k, j ≠ i →
      |σ - consX s'.t (hx s.hist) j| ≤ 2 ^ (l.k + 1) * |consX s'.t (hx s.hist) i - consX s'.t (hx s.hist) j| := by
  obtain ⟨a1, a2, a3, a4, a5, a6⟩ := accept_hist R.eq
  have hnow := R.mesh.now
  have hlen := R.mesh.len
  have hkM := R.att.loc.kM
  have hk1 := R.att.loc.k1
  set z := consX s'.t (hx s.hist) with hz
  have z0 : z 0 = s'.t := rfl
  have zs : ∀ i, z (i + 1) = hx s.hist i := fun i => rfl
  have hdir : c.dir * c.dir = 1 := by rcases ok.dir with h | h <;> rw [h] <;> norm_num
  have habs : ∀ x : ℝ, |c.dir * x| = |x| := by
    intro x; rcases ok.dir with h | h <;> rw [h] <;> simp
  intro σ hσ i hi j hj hij
  have hgap : ∀ m < l.k, 0 < c.dir * z m - c.dir * z (m + 1) := by
    intro m hm
    cases m with
    | zero =>
      rw [zs, z0, hnow, a2]
      have : c.dir * (s.t + l.h) - c.dir * s.t = c.dir * l.h := by ring
      rw [this]; exact hpos
    | succ m =>
      rw [zs, zs, ← mul_sub]
      exact R.strict.lt (Nat.lt_succ_self m) (by omega)
  have h1 := mesh_quality (u := fun m => c.dir * z m) (n := l.k) (s := c.dir * σ) (i := i) (j := j)
    (fun m hm => sub_pos.mp (hgap m hm)) (fun m hm => by
      have p1 := hgap m (by omega)
      have p2 := hgap (m + 1) hm
      have e1 : c.dir * z m - c.dir * z (m + 1) = |z m - z (m + 1)| := by
        rw [← habs, mul_sub, abs_of_pos p1]
      have e2 : c.dir * z (m + 1) - c.dir * z (m + 2) = |z (m + 1) - z (m + 2)| := by
        rw [← habs, mul_sub, abs_of_pos p2]
      show c.dir * z m - c.dir * z (m + 1) ≤ 2 * (c.dir * z (m + 1) - c.dir * z (m + 2))
      rw [e1, e2]
      cases m with
      | zero =>
        have : |z 0 - z (0 + 1)| = |l.h| := by rw [zs, z0, hnow, a2]; congr 1; ring
        rw [this, zs, zs]
        exact hl.trans (g.next (by omega))
      | succ m =>
        rw [zs, zs, zs]
        exact g.past m (by omega))
    (by
      show c.dir * z 1 ≤ c.dir * σ
      have e1 : z 1 = s.t := by rw [zs, hnow]
      rw [e1]
      have e2 : c.dir * s.t ≤ c.dir * s'.t := by
        rw [a2, mul_add]; linarith
      rcases ok.dir with h | h <;> rw [h] at e2 ⊢
      · rw [Set.uIcc_of_le (by linarith)] at hσ; linarith [hσ.1]
      · rw [Set.uIcc_of_ge (by linarith)] at hσ; linarith [hσ.2])
    (by
      show c.dir * σ ≤ c.dir * z 0
      rw [z0]
      have e2 : c.dir * s.t ≤ c.dir * s'.t := by
        rw [a2, mul_add]; linarith
      rcases ok.dir with h | h <;> rw [h] at e2 ⊢
      · rw [Set.uIcc_of_le (by linarith)] at hσ; linarith [hσ.2]
      · rw [Set.uIcc_of_ge (by linarith)] at hσ; linarith [hσ.1]) hi hj hij
  simp only [← mul_sub, habs] at h1
  exact h1

/-- The points of a regular step are distinct. -/
theorem regular_inj {c : SwCfg ℝ V} {s s' : SwSt ℝ V} {l : SwLoc ℝ V} (R : SwRegular c s s' l) :
    ∀ i < l.k + 1, ∀ j < l.k + 1, consX s'.t (hx s.hist) i = consX s'.t (hx s.hist) j → i = j := by
  obtain ⟨a1, a2, a3, a4, a5, a6⟩ := accept_hist R.eq
  have hnow := R.mesh.now
  have hinj := mesh_inj (c := c) R.mesh R.strict R.att.loc.kM
  have hn : ∀ i < l.k, s.t + l.h - hx s.hist i ≠ 0 := fun i hi => by
    have := ne_of_dir (R.att.ne i hi); rwa [hnow] at this
  rw [a2]
  intro i hi j hj hij
  cases i with
  | zero =>
    cases j with
    | zero => rfl
    | succ j => exact absurd (sub_eq_zero.mpr hij) (hn j (by omega))
  | succ i =>
    cases j with
    | zero => exact absurd (sub_eq_zero.mpr hij.symm) (hn i (by omega))
    | succ j => rw [hinj i (by omega) j (by omega) hij]

theorem regular_weights {c : SwCfg ℝ V} (ok : SwOK c) {s s' : SwSt ℝ V} {l : SwLoc ℝ V} (R : SwRegular c s s' l) (g : Grow s)
    (hpos : 0 < c.dir * l.h) (hl : |l.h| ≤ |s.h|) :
    ∃ p : V, p = s.y + ∑ i ∈ range l.k, adamsW l.k (hx s.hist) s.t s'.t i • hf s.hist i ∧
      s'.y = s.y + (adamsW (l.k + 1) (consX s'.t (hx s.hist)) s.t s'.t 0 • c.fn s'.t p +
        ∑ i ∈ range l.k, adamsW (l.k + 1) (consX s'.t (hx s.hist)) s.t s'.t (i + 1) • hf s.hist i) ∧
      (∀ i < l.k, |adamsW l.k (hx s.hist) s.t s'.t i| ≤ swB l.k * |s'.t - s.t|) ∧
      (∀ i < l.k + 1, |adamsW (l.k + 1) (consX s'.t (hx s.hist)) s.t s'.t i| ≤ swB l.k * |s'.t - s.t|) := by
  obtain ⟨a1, a2, a3, a4, a5, a6⟩ := accept_hist R.eq
  have hnow := R.mesh.now
  have hinj := mesh_inj (c := c) R.mesh R.strict R.att.loc.kM
  have hlen := R.mesh.len
  have hkM := R.att.loc.kM
  have hk1 := R.att.loc.k1
  have hinj' := regular_inj R
  have hq := regular_quality ok R g hpos hl
  set z := consX s'.t (hx s.hist) with hz
  have z0 : z 0 = s'.t := rfl
  have zs : ∀ i, z (i + 1) = hx s.hist i := fun i => rfl
  refine ⟨(swTry c s.t s.y s.hold s.kold l).p, ?_, ?_, fun i hi => ?_, fun i hi => ?_⟩
  · rw [a2]
    exact adams_formula hinj hk1 (attempt_predict R.mesh R.strict R.ne R.att)
  · have hcor := attempt_correct R.mesh R.strict R.ne R.att (m := l.k) le_rfl (by omega)
    rw [← corrector_step R.eq, ← a2] at hcor
    have := adams_formula (n := l.k + 1) (x := z) (F := consV (c.fn s'.t (swTry c s.t s.y s.hold s.kold l).p) (hf s.hist))
      (t := s.t) (t' := s'.t) (y := s.y) (p := s'.y) hinj' (by omega) (fun f q q1 q2 q3 => by
        refine hcor f q q1 q2 (fun i hi => q3 (i + 1) (by omega)) ?_
        have e : (swTry c s.t s.y s.hold s.kold l).fp = c.fn s'.t (swTry c s.t s.y s.hold s.kold l).p := by
          rw [a2]; rfl
        rw [e]
        exact q3 0 (by omega))
    rw [sum_range_succ'] at this
    rw [this, add_comm (adamsW _ _ _ _ 0 • _)]
    rfl
  · refine (adamsW_bound (one_le_two_pow' l.k) hi fun σ hσ j hj hij => ?_).trans ?_
    · exact hq σ hσ (i + 1) (by omega) (j + 1) (by omega) (by omega)
    · exact mul_le_mul_of_nonneg_right (pow_le_pow_right₀ (one_le_two_pow' l.k) (by omega)) (abs_nonneg _)
  · exact adamsW_bound (one_le_two_pow' l.k) hi fun σ hσ j hj hij => hq σ hσ i (by omega) j (by omega) hij

end
/-! ## Specification -/

section
variable {E : Type*} [NormedAddCommGroup E] [NormedSpace ℝ E]

/-- The size of the local error of the step from `v` to `v'` with order `k`: its length times the power `k + 1` of the
length of the piece of the mesh (the last `k` points and the new one) which the formula uses. For the extrapolated last
step `k` is zero and this is the square of its length. -/
def swDefect (v v' : SwSolver ℝ E) : ℝ :=
  |v'.st.t - v.st.t| * |v'.st.t - hx v.st.hist (v'.st.kold - 1)| ^ (v'.st.kold + 1)

/-- Reachable by returning `step()` calls none of which was longer than `H` or left the interval from `t0` to `b`; the
number `S` is the sum of the sizes of the local errors. -/
inductive SwRun (c : SwCfg ℝ E) (v0 : SwSolver ℝ E) (t0 b H : ℝ) : ℝ → SwSolver ℝ E → Prop
  | refl : SwRun c v0 t0 b H 0 v0
  | tail {S : ℝ} {v v' : SwSolver ℝ E} {o : SwOut} {fuel : ℕ} :
      SwRun c v0 t0 b H S v → swStep c fuel v = some (o, v') → |v'.st.t - v.st.t| ≤ H → v'.st.t ∈ Set.uIcc t0 b →
      SwRun c v0 t0 b H (S + swDefect v v') v'

theorem SwRun.reach {c : SwCfg ℝ E} {v0 v : SwSolver ℝ E} {t0 b H S : ℝ} (h : SwRun c v0 t0 b H S v) : SwReach c v0 v := by
  induction h with
  | refl => exact .refl
  | tail _ hs _ _ ih => exact .tail ih hs

/-! ## Accumulation -/

/-- What is carried along a run. -/
structure SwErr (c : SwCfg ℝ E) (f : ℝ → E → E) (y : ℝ → E) (t0 b H Q L C1 C2 S : ℝ) (v : SwSolver ℝ E) : Prop where
  S0 : 0 ≤ S
  Sle : S ≤ |v.st.t - t0| * Q
  mem : v.st.t ∈ Set.uIcc t0 b
  fwd : 0 ≤ c.dir * (v.st.t - t0)
  err : ‖v.st.y - y v.st.t‖ ≤ C1 * S * Real.exp (C2 * |v.st.t - t0|)
  hist : v.status = .running → ∀ a ∈ v.st.hist, a.1 ∈ Set.uIcc t0 b ∧
    ‖a.2 - f a.1 (y a.1)‖ ≤ L * (C1 * S * Real.exp (C2 * |v.st.t - t0|))
  steps : v.status = .running → ∀ i, i + 1 < v.st.hist.length → |hx v.st.hist i - hx v.st.hist (i + 1)| ≤ H

/-- A call which does not change the solution. -/
theorem SwErr.same {c : SwCfg ℝ E} {f : ℝ → E → E} {y : ℝ → E} {t0 b H Q L C1 C2 S : ℝ} {v v' : SwSolver ℝ E}
    (e : SwErr c f y t0 b H Q L C1 C2 S v) (ht : v'.st.t = v.st.t) (hy : v'.st.y = v.st.y)
    (hr : v'.status = .running → v' = v) : SwErr c f y t0 b H Q L C1 C2 (S + swDefect v v') v' := by
  have h0 : swDefect v v' = 0 := by rw [swDefect, ht, sub_self, abs_zero, zero_mul]
  rw [h0, add_zero]
  refine ⟨e.S0, by rw [ht]; exact e.Sle, by rw [ht]; exact e.mem, by rw [ht]; exact e.fwd, by rw [ht, hy]; exact e.err, ?_, ?_⟩
  · intro h; have := hr h; subst this; exact e.hist h
  · intro h; have := hr h; subst this; exact e.steps h

/-- The bound for the error after a step. -/
theorem swAccumulate {C1 C2 S d e' τ h : ℝ} (h1 : 0 ≤ C1) (h2 : 0 ≤ C2) (hS : 0 ≤ S) (hd : 0 ≤ d) (hτ : 0 ≤ τ) (hh : 0 ≤ h)
    (he : e' ≤ C1 * S * Real.exp (C2 * τ) * (1 + C2 * h) + C1 * d) : e' ≤ C1 * (S + d) * Real.exp (C2 * (τ + h)) := by
  have e1 : Real.exp (C2 * (τ + h)) = Real.exp (C2 * τ) * Real.exp (C2 * h) := by rw [← Real.exp_add]; ring_nf
  have e2 : 1 + C2 * h ≤ Real.exp (C2 * h) := by linarith [Real.add_one_le_exp (C2 * h)]
  have e3 : 1 ≤ Real.exp (C2 * (τ + h)) := Real.one_le_exp (by positivity)
  have e4 : C1 * S * Real.exp (C2 * τ) * (1 + C2 * h) ≤ C1 * S * Real.exp (C2 * (τ + h)) := by
    rw [e1, ← mul_assoc]
    exact mul_le_mul_of_nonneg_left e2 (by positivity)
  have e5 : C1 * d * 1 ≤ C1 * d * Real.exp (C2 * (τ + h)) := mul_le_mul_of_nonneg_left e3 (by positivity)
  have e6 : C1 * (S + d) * Real.exp (C2 * (τ + h)) = C1 * S * Real.exp (C2 * (τ + h)) + C1 * d * Real.exp (C2 * (τ + h)) := by
    ring
  linarith

/-- The mesh between two points of the history. -/
theorem span_le {l : List (ℝ × E)} {H : ℝ} (h : ∀ i, i + 1 < l.length → |hx l i - hx l (i + 1)| ≤ H) :
    ∀ m < l.length, |hx l 0 - hx l m| ≤ m * H
  | 0, _ => by simp
  | m + 1, hm => by
    have h1 := span_le h m (by omega)
    have h2 := h m hm
    have h3 := abs_sub_le (hx l 0) (hx l m) (hx l (m + 1))
    push_cast
    linarith

/-- The bounds of a problem which the proof uses. -/
structure SwProblem (f : ℝ → E → E) (y : ℝ → E) (t0 b : ℝ) (kM : ℕ) (ρ L M : ℝ) : Prop where
  rho : 0 < ρ
  lip : 0 ≤ L
  diff : 0 ≤ M
  tube : ∀ t ∈ Set.uIcc t0 b, ∀ z, ‖z - y t‖ < ρ → ‖f t z - f t (y t)‖ ≤ L * ‖z - y t‖
  solves : ∀ t ∈ Set.uIcc t0 b, HasDerivAt y (f t (y t)) t
  smooth : ∀ t ∈ Set.uIcc t0 b, ∀ n : ℕ, ContDiffAt ℝ n (fun s => f s (y s)) t
  bound : ∀ n ≤ kM + 1, ∀ t ∈ Set.uIcc t0 b, ‖iteratedDeriv n (fun s => f s (y s)) t‖ ≤ M

theorem exists_swProblem [CompleteSpace E] {f : ℝ → E → E} {y : ℝ → E} {t0 b : ℝ} (hy : SolvesOn f y t0 b) (kM : ℕ) :
    ∃ ρ L M, SwProblem f y t0 b kM ρ L M := by
  obtain ⟨ρ, L, B, h1, h2, h3, h4⟩ := exists_tube hy
  have hs : ∀ t ∈ Set.uIcc t0 b, ∀ n : ℕ, ContDiffAt ℝ n (fun s => f s (y s)) t := fun t ht n =>
    ContDiffAt.comp t (g := fun z : ℝ × E => f z.1 z.2) (f := fun s => (s, y s)) (smooth_nat (hy.smooth t ht) _)
      (contDiffAt_id.prodMk (solution_contDiffAt (fun n => (smooth_nat (hy.smooth t ht) _)) (hy.solves t ht) n))
  obtain ⟨M, m1, m2⟩ := deriv_bound (A := min t0 b) (B := max t0 b) hs (kM + 1)
  refine ⟨ρ, L, M, h1, h2, m1, fun t ht z hz => ?_, fun t ht => (hy.solves t ht).self_of_nhds, hs, m2⟩
  have hd : dist ((t, z) : ℝ × E) (t, y t) = ‖z - y t‖ := by
    rw [Prod.dist_eq, dist_self, dist_eq_norm]
    exact max_eq_right (norm_nonneg _)
  have := (h4 t ht (t, z) (t, y t) (by rw [hd]; exact hz) (by rw [dist_self]; exact h1)).1
  rwa [hd] at this

/-- The constants of the error bound. -/
def swC0 (kM : ℕ) (M : ℝ) : ℝ := M * (1 + (kM + 1) * swB kM)
def swC1 (kM : ℕ) (L M : ℝ) : ℝ := swC0 kM M * (1 + swB kM * L)
def swC2 (kM : ℕ) (L T : ℝ) : ℝ := kM * swB kM * L + swB kM * L * (1 + kM * swB kM * L * T)

theorem swB_pos (k : ℕ) : 0 < swB k := by unfold swB; positivity
theorem one_le_swB (k : ℕ) : 1 ≤ swB k := one_le_pow₀ (one_le_two_pow' k)

/-- The error after a regular step. -/
theorem regular_error {f : ℝ → E → E} {y : ℝ → E} {t0 b : ℝ} {kM : ℕ} {ρ L M : ℝ} (P : SwProblem f y t0 b kM ρ L M)
    {c : SwCfg ℝ E} (ok : SwOK c) (hf' : c.fn = f) (hk : c.kMax ≤ kM) {s s' : SwSt ℝ E} {l : SwLoc ℝ E}
    (R : SwRegular c s s' l) (g : Grow s) (hpos : 0 < c.dir * l.h) (hl : |l.h| ≤ |s.h|) {e D : ℝ} (he : 0 ≤ e)
    (hDe : D = |s'.t - hx s.hist (l.k - 1)|)
    (hy : ‖s.y - y s.t‖ ≤ e) (hmem' : s'.t ∈ Set.uIcc t0 b)
    (hh : ∀ a ∈ s.hist, a.1 ∈ Set.uIcc t0 b ∧ ‖a.2 - f a.1 (y a.1)‖ ≤ L * e)
    (hsmall : e * (1 + kM * swB kM * L * |b - t0|) + swC0 kM M * |s'.t - s.t| * D ^ l.k < ρ) :
    ‖s'.y - y s'.t‖ ≤ e * (1 + swC2 kM L |b - t0| * |s'.t - s.t|) +
      swC1 kM L M * (|s'.t - s.t| * D ^ (l.k + 1)) ∧ |s'.t - s.t| ≤ D := by
  obtain ⟨p, p1, p2, p3, p4⟩ := regular_weights ok R g hpos hl
  obtain ⟨a1, a2, a3, a4, a5, a6⟩ := accept_hist R.eq
  have hnow := R.mesh.now
  have hlen := R.mesh.len
  have hkM := R.att.loc.kM
  have hk1 := R.att.loc.k1
  have hkk : l.k ≤ kM := R.ok.kM.trans hk
  have hB0 := swB_pos kM
  have hBm := swB_mono hkk
  have hL := P.lip
  have hM := P.diff
  have hinj := mesh_inj (c := c) R.mesh R.strict R.att.loc.kM
  have hmemi : ∀ i < l.k, (hx s.hist i, hf s.hist i) ∈ s.hist := by
    intro i hi
    have hi' : i < s.hist.length := by omega
    have e1 : hx s.hist i = s.hist[i].1 := hx_getElem _ hi'
    have e2 : hf s.hist i = s.hist[i].2 := by simp [hf, hi']
    rw [e1, e2]
    exact List.getElem_mem hi'
  have hx0 : s.t ∈ Set.uIcc t0 b := by
    have := (hh _ (hmemi 0 (by omega))).1
    rwa [hnow] at this
  have hT : |s'.t - s.t| ≤ |b - t0| := Set.abs_sub_le_of_uIcc_subset_uIcc (Set.uIcc_subset_uIcc hx0 hmem')
  have hne : s.t ≠ s'.t := by
    rw [a2]; intro h; exact R.ne (by linarith)
  -- the span
  have hback : ∀ i < l.k, 0 ≤ c.dir * (hx s.hist i - hx s.hist (l.k - 1)) := by
    intro i hi
    rcases Nat.lt_or_ge i (l.k - 1) with h | h
    · exact (R.strict.lt h (by omega)).le
    · have : i = l.k - 1 := by omega
      rw [this, sub_self, mul_zero]
  have hahead : ∀ i < l.k, 0 ≤ c.dir * (s'.t - hx s.hist i) := by
    intro i hi
    have := (R.att.ne i hi).le
    rwa [hnow, ← a2] at this
  have hin : ∀ i < l.k, hx s.hist i ∈ Set.uIcc s'.t (hx s.hist (l.k - 1)) := by
    intro i hi
    have h1 := hback i hi
    have h2 := hahead i hi
    rcases ok.dir with h | h <;> rw [h] at h1 h2
    · exact Set.mem_uIcc.mpr (Or.inr ⟨by linarith, by linarith⟩)
    · exact Set.mem_uIcc.mpr (Or.inl ⟨by linarith, by linarith⟩)
  have hts : s.t ∈ Set.uIcc s'.t (hx s.hist (l.k - 1)) := by
    have := hin 0 (by omega)
    rwa [hnow] at this
  have hlast := (hh _ (hmemi (l.k - 1) (by omega))).1
  have hhD : |s'.t - s.t| ≤ D := by
    rw [hDe, abs_sub_comm s'.t s.t, abs_sub_comm s'.t (hx _ _)]
    exact Set.abs_sub_left_of_mem_uIcc hts
  have hD0 : 0 ≤ D := (abs_nonneg _).trans hhD
  have hhn := abs_nonneg (s'.t - s.t)
  have hC0 : 0 ≤ swC0 kM M := by unfold swC0; positivity
  -- the defects
  have hsum : ∀ (n : ℕ) (w : ℕ → ℝ), n ≤ kM + 1 → (∀ i < n, |w i| ≤ swB l.k * |s'.t - s.t|) →
      M * D ^ n * (|s'.t - s.t| + ∑ i ∈ range n, |w i|) ≤ swC0 kM M * |s'.t - s.t| * D ^ n := by
    intro n w hn hw
    have h1 : ∑ i ∈ range n, |w i| ≤ (kM + 1) * (swB kM * |s'.t - s.t|) := by
      calc ∑ i ∈ range n, |w i| ≤ ∑ i ∈ range n, swB kM * |s'.t - s.t| :=
            sum_le_sum fun i hi => (hw i (mem_range.mp hi)).trans (mul_le_mul_of_nonneg_right hBm hhn)
        _ = n * (swB kM * |s'.t - s.t|) := by rw [sum_const, card_range, nsmul_eq_mul]
        _ ≤ _ := mul_le_mul_of_nonneg_right (by exact_mod_cast hn) (by positivity)
    calc M * D ^ n * (|s'.t - s.t| + ∑ i ∈ range n, |w i|)
        ≤ M * D ^ n * (|s'.t - s.t| + (kM + 1) * (swB kM * |s'.t - s.t|)) :=
          mul_le_mul_of_nonneg_left (add_le_add_right h1 _) (by positivity)
      _ = _ := by unfold swC0; ring
  have d1 : ‖y s'.t - y s.t - ∑ i ∈ range l.k, adamsW l.k (hx s.hist) s.t s'.t i • f (hx s.hist i) (y (hx s.hist i))‖ ≤
      swC0 kM M * |s'.t - s.t| * D ^ l.k := by
    refine le_trans ?_ (hsum l.k _ (by omega) p3)
    rw [hDe]
    exact adams_defect_uIcc (G := fun s => f s (y s)) P.solves P.smooth hk1 (P.bound l.k (by omega)) hinj hmem' hlast hts
      Set.left_mem_uIcc hne hin
  have hinj' := regular_inj R
  have d2 : ‖y s'.t - y s.t - (adamsW (l.k + 1) (consX s'.t (hx s.hist)) s.t s'.t 0 • f s'.t (y s'.t) +
      ∑ i ∈ range l.k, adamsW (l.k + 1) (consX s'.t (hx s.hist)) s.t s'.t (i + 1) • f (hx s.hist i) (y (hx s.hist i)))‖ ≤
      swC0 kM M * |s'.t - s.t| * D ^ (l.k + 1) := by
    refine le_trans ?_ (hsum (l.k + 1) _ (by omega) p4)
    rw [hDe]
    have := adams_defect_uIcc (G := fun s => f s (y s)) P.solves P.smooth (n := l.k + 1) (by omega)
      (P.bound (l.k + 1) (by omega)) hinj' hmem' hlast hts Set.left_mem_uIcc hne (fun i hi => by
        cases i with
        | zero => exact Set.left_mem_uIcc
        | succ i => exact hin i (by omega))
    rw [sum_range_succ', add_comm (∑ i ∈ range l.k, _ • _)] at this
    exact this
  have p2' := p2
  rw [hf'] at p2'
  have hE := pece_step (ρ := ρ) (T := |b - t0|) (B := swB kM) (k := l.k) (e := e) (F := hf s.hist)
    (G := fun i => f (hx s.hist i) (y (hx s.hist i))) (fn := f s'.t) (y' := s'.y) hB0.le hL hC0 hhn hhD hT he
    (fun i hi => (p3 i hi).trans (mul_le_mul_of_nonneg_right hBm hhn))
    (fun i hi => (p4 i hi).trans (mul_le_mul_of_nonneg_right hBm hhn)) d1 d2 hy
    (fun i hi => (hh _ (hmemi i hi)).2) (P.tube s'.t hmem') ?_ p1 p2'
  · refine ⟨hE.trans (add_le_add (mul_le_mul_of_nonneg_left (add_le_add_right (mul_le_mul_of_nonneg_right ?_ hhn) _) he) le_rfl),
      hhD⟩
    unfold swC2
    have h1 : (l.k : ℝ) ≤ kM := by exact_mod_cast hkk
    have h2 : (l.k : ℝ) * swB kM * L ≤ kM * swB kM * L := by gcongr
    gcongr
  · refine lt_of_le_of_lt (add_le_add (mul_le_mul_of_nonneg_left (add_le_add_right ?_ _) he) le_rfl) hsmall
    have h1 : (l.k : ℝ) ≤ kM := by exact_mod_cast hkk
    gcongr

/-- The tube condition: the longest step for which the bounds apply. -/
def swA (kM : ℕ) (L M T : ℝ) : ℝ :=
  swC1 kM L M * T * kM * Real.exp (swC2 kM L T * T) * (1 + kM * swB kM * L * T) + swC0 kM M

set_option maxHeartbeats 1000000 in
/-- One returning call of `step()`. -/
theorem SwErr.step {f : ℝ → E → E} {y : ℝ → E} {t0 b : ℝ} {kM : ℕ} {ρ L M : ℝ} (P : SwProblem f y t0 b kM ρ L M)
    {c : SwCfg ℝ E} (ok : SwOK c) (hfin : ∀ p y x, c.scale p y x ≠ .inf) (hf' : c.fn = f) (hk : c.kMax ≤ kM)
    {h0 : ℝ} {wt0 : E → ENorm ℝ} {phi0 : ℕ → E} {co0 : Coef ℝ} {nfev : ℕ} (hh : 0 < c.dir * h0)
    (hb : ∀ b', c.tb = some b' → 0 ≤ c.dir * (b' - t0)) {H : ℝ} (hH : 0 ≤ H) (hH1 : kM * H ≤ 1)
    (hH2 : H * swA kM L M |b - t0| < ρ) {S : ℝ} {v v' : SwSolver ℝ E} {o : SwOut} {fuel : ℕ}
    (hr : SwReach c (newSwag t0 (y t0) (f t0 (y t0)) h0 wt0 phi0 co0 nfev) v)
    (I : SwErr c f y t0 b H (kM * H) L (swC1 kM L M) (swC2 kM L |b - t0|) S v)
    (hstep : swStep c fuel v = some (o, v')) (hd : |v'.st.t - v.st.t| ≤ H) (hm : v'.st.t ∈ Set.uIcc t0 b) :
    SwErr c f y t0 b H (kM * H) L (swC1 kM L M) (swC2 kM L |b - t0|) (S + swDefect v v') v' := by
  have hL := P.lip
  have hM := P.diff
  have hB := swB_pos kM
  have hB1 := one_le_swB kM
  have hkM1 : (1 : ℝ) ≤ kM := by exact_mod_cast ok.kMax.trans hk
  set T := |b - t0| with hT
  have hT0 : 0 ≤ T := abs_nonneg _
  have hC0 : 0 ≤ swC0 kM M := by unfold swC0; positivity
  have hC1 : 0 ≤ swC1 kM L M := by unfold swC1; positivity
  have hC2 : 0 ≤ swC2 kM L T := by unfold swC2; positivity
  have htT : |v.st.t - t0| ≤ T := by
    rw [abs_sub_comm v.st.t, hT, abs_sub_comm b]
    rw [← abs_sub_comm b t0, abs_sub_comm t0 v.st.t]
    exact Set.abs_sub_left_of_mem_uIcc I.mem
  have htT' : |v'.st.t - t0| ≤ T := Set.abs_sub_left_of_mem_uIcc hm
  -- an accepted step, of either kind
  have finish : v.status = .running → 0 ≤ c.dir * (v'.st.t - v.st.t) →
      |v'.st.t - hx v.st.hist (v'.st.kold - 1)| ≤ kM * H →
      ‖v'.st.y - y v'.st.t‖ ≤ swC1 kM L M * S * Real.exp (swC2 kM L T * |v.st.t - t0|) *
        (1 + swC2 kM L T * |v'.st.t - v.st.t|) + swC1 kM L M * swDefect v v' →
      (v'.status = .running → v'.st.hist = (v'.st.t, f v'.st.t v'.st.y) :: v.st.hist ∧ hx v.st.hist 0 = v.st.t) →
      SwErr c f y t0 b H (kM * H) L (swC1 kM L M) (swC2 kM L T) (S + swDefect v v') v' := by
    intro hs hfw hD herr hhist
    have hsum : |v'.st.t - t0| = |v.st.t - t0| + |v'.st.t - v.st.t| := by
      have h1 := I.fwd
      rcases ok.dir with h | h <;> rw [h] at h1 hfw
      · rw [abs_of_nonneg (by linarith : 0 ≤ v.st.t - t0), abs_of_nonneg (by linarith : 0 ≤ v'.st.t - v.st.t),
          abs_of_nonneg (by linarith)]; ring
      · rw [abs_of_nonpos (by linarith : v.st.t - t0 ≤ 0), abs_of_nonpos (by linarith : v'.st.t - v.st.t ≤ 0),
          abs_of_nonpos (by linarith)]; ring
    have hdef0 : 0 ≤ swDefect v v' := by unfold swDefect; positivity
    have hdef : swDefect v v' ≤ |v'.st.t - v.st.t| * (kM * H) := by
      unfold swDefect
      refine mul_le_mul_of_nonneg_left ?_ (abs_nonneg _)
      calc |v'.st.t - hx v.st.hist (v'.st.kold - 1)| ^ (v'.st.kold + 1)
          ≤ |v'.st.t - hx v.st.hist (v'.st.kold - 1)| ^ 1 :=
            pow_le_pow_of_le_one (abs_nonneg _) (hD.trans hH1) (by omega)
        _ ≤ _ := by rw [pow_one]; exact hD
    have herr' : ‖v'.st.y - y v'.st.t‖ ≤ swC1 kM L M * (S + swDefect v v') *
        Real.exp (swC2 kM L T * |v'.st.t - t0|) := by
      rw [hsum]
      exact swAccumulate hC1 hC2 I.S0 hdef0 (abs_nonneg _) (abs_nonneg _) herr
    have hSle : S + swDefect v v' ≤ |v'.st.t - t0| * (kM * H) := by
      rw [hsum, add_mul]; exact add_le_add I.Sle hdef
    refine ⟨add_nonneg I.S0 hdef0, hSle, hm, ?_, herr', fun hs' => ?_, fun hs' => ?_⟩
    · have : v'.st.t - t0 = (v.st.t - t0) + (v'.st.t - v.st.t) := by ring
      rw [this, mul_add]; exact add_nonneg I.fwd hfw
    · obtain ⟨e1, _⟩ := hhist hs'
      intro a ha
      rw [e1] at ha
      rcases List.mem_cons.mp ha with rfl | ha
      · refine ⟨hm, (P.tube _ hm _ (lt_of_le_of_lt herr' ?_)).trans (mul_le_mul_of_nonneg_left herr' hL)⟩
        refine lt_of_le_of_lt ?_ hH2
        calc swC1 kM L M * (S + swDefect v v') * Real.exp (swC2 kM L T * |v'.st.t - t0|)
            ≤ swC1 kM L M * (T * (kM * H)) * Real.exp (swC2 kM L T * T) := by
              have : S + swDefect v v' ≤ T * (kM * H) := hSle.trans (by gcongr)
              gcongr
          _ = H * (swC1 kM L M * T * kM * Real.exp (swC2 kM L T * T) * 1) := by ring
          _ ≤ H * swA kM L M T := by
              refine mul_le_mul_of_nonneg_left ?_ hH
              unfold swA
              have h1 : 1 ≤ 1 + kM * swB kM * L * T := by
                have : 0 ≤ kM * swB kM * L * T := by positivity
                linarith
              have h2 : swC1 kM L M * T * kM * Real.exp (swC2 kM L T * T) * 1 ≤
                swC1 kM L M * T * kM * Real.exp (swC2 kM L T * T) * (1 + kM * swB kM * L * T) := by gcongr
              linarith
      · obtain ⟨h1, h2⟩ := I.hist hs a ha
        refine ⟨h1, h2.trans (mul_le_mul_of_nonneg_left ?_ hL)⟩
        have h3 : |v.st.t - t0| ≤ |v'.st.t - t0| := by rw [hsum]; linarith [abs_nonneg (v'.st.t - v.st.t)]
        have h4 : S ≤ S + swDefect v v' := by linarith
        have h5 := I.S0
        gcongr
    · obtain ⟨e1, e2⟩ := hhist hs'
      intro i hi
      rw [e1] at hi ⊢
      cases i with
      | zero => rw [hx_zero, hx_succ, e2]; exact hd
      | succ i =>
        rw [hx_succ, hx_succ]
        exact I.steps hs i (by simpa using hi)
  rcases swStep_cases hstep with ⟨_, _, e⟩ | ⟨_, _, _, e⟩ | ⟨r, hb', s', hi, eo, e⟩ | ⟨_, _, ho, s', hi, e⟩
  · exact I.same (by rw [e]) (by rw [e]) fun _ => e
  · exact I.same (by rw [e]) (by rw [e]) fun h => by rw [e] at h; cases h
  · have hkn := known ok hh hb hr r
    have hdi := C46_distinct_times ok hfin hh hb hr r
    have hmesh := hkn.mesh hdi
    have hfn := SwReach.fn (v0 := newSwag t0 (y t0) (f t0 (y t0)) h0 wt0 phi0 co0 nfev)
      ⟨by rw [hf']; rfl, rfl⟩ hr r
    have hstep' : swStep c fuel v = some (.ok, v') := by rw [hstep, eo]
    have hprog := C46_progress_finite ok hfin hh hb hr r hb' hstep'
    have hspan := span_le (I.steps r)
    have hlen := hmesh.len
    have hnow := hmesh.now
    rcases swStepImpl_min hi with ⟨b', hb2, hb3, e'⟩ | ⟨l, hl, hmn, _, he, e'⟩
    · -- the extrapolated step
      have et : v'.st.t = b' := by rw [e, e']; rfl
      have ek : v'.st.kold = 0 := by rw [e, e']; rfl
      obtain ⟨s1, s2, s3, _⟩ := swStiff_same c v.st
      have ey : v'.st.y = v.st.y + (b' - v.st.t) • v.st.yp := by
        rw [e, e']
        show (swStiff c v.st).y + (b' - (swStiff c v.st).t) • (swStiff c v.st).yp = _
        rw [s1, s2, s3]
      have hdef : swDefect v v' = |v'.st.t - v.st.t| * |v'.st.t - v.st.t| := by
        rw [swDefect, ek, Nat.zero_sub, hnow, zero_add, pow_one]
      refine finish r hprog.le ?_ ?_ fun hs' => ?_
      · rw [ek, Nat.zero_sub, hnow]
        exact hd.trans (le_mul_of_one_le_left hH hkM1)
      · have hmem0 : (hx v.st.hist 0, hf v.st.hist 0) ∈ v.st.hist := by
          have h1 : 0 < v.st.hist.length := by omega
          have e1 : hx v.st.hist 0 = v.st.hist[0].1 := hx_getElem _ h1
          have e2 : hf v.st.hist 0 = v.st.hist[0].2 := by simp [hf, h1]
          rw [e1, e2]
          exact List.getElem_mem h1
        have hyp := (I.hist r _ hmem0).2
        simp only [hnow, hfn.2] at hyp
        have hne : v.st.t ≠ v'.st.t := fun h => by rw [h, sub_self, mul_zero] at hprog; exact lt_irrefl _ hprog
        have hdfc := adams_defect_uIcc (G := fun s => f s (y s)) P.solves P.smooth (n := 1) le_rfl (P.bound 1 (by omega))
          (x := fun _ => v.st.t) (fun i hi j hj _ => by omega) I.mem hm Set.left_mem_uIcc Set.right_mem_uIcc hne
          (fun _ _ => Set.left_mem_uIcc)
        have hw := adams_exact (n := 1) (x := fun _ => v.st.t) (fun i hi j hj _ => by omega) v.st.t v'.st.t 0 (m := 0)
          (by omega)
        simp only [Finset.range_one, Finset.sum_singleton, pow_zero, mul_one, zero_add, pow_one, Nat.cast_zero, div_one,
          sub_zero] at hw hdfc
        rw [hw, abs_sub_comm v.st.t] at hdfc
        have e0 := I.err
        set e1 := swC1 kM L M * S * Real.exp (swC2 kM L T * |v.st.t - t0|) with he1
        have he1n : 0 ≤ e1 := (norm_nonneg _).trans e0
        set hs := |v'.st.t - v.st.t| with hhs
        have hs0 : 0 ≤ hs := abs_nonneg _
        have hsm : ‖(v'.st.t - v.st.t) • (v.st.yp - f v.st.t (y v.st.t))‖ ≤ hs * (L * e1) := by
          rw [norm_smul, Real.norm_eq_abs]
          exact mul_le_mul_of_nonneg_left hyp hs0
        have hsplit : v'.st.y - y v'.st.t = (v.st.y - y v.st.t) + (v'.st.t - v.st.t) • (v.st.yp - f v.st.t (y v.st.t)) -
            (y v'.st.t - y v.st.t - (v'.st.t - v.st.t) • f v.st.t (y v.st.t)) := by
          rw [ey, ← et, smul_sub]; abel
        have hn1 : ‖v'.st.y - y v'.st.t‖ ≤ e1 + hs * (L * e1) + M * hs * (hs + hs) := by
          rw [hsplit]
          refine (norm_sub_le _ _).trans (add_le_add ((norm_add_le _ _).trans (add_le_add e0 hsm)) hdfc)
        refine hn1.trans ?_
        rw [hdef]
        have hLC : L ≤ swC2 kM L T := by
          unfold swC2
          have h1 : L ≤ kM * swB kM * L := by
            have : 1 ≤ kM * swB kM := one_le_mul_of_one_le_of_one_le hkM1 hB1
            exact le_mul_of_one_le_left hL this
          have h2 : 0 ≤ swB kM * L * (1 + kM * swB kM * L * T) := by positivity
          linarith
        have hMC : 2 * M ≤ swC1 kM L M := by
          unfold swC1 swC0
          have h1 : 2 ≤ 1 + ((kM : ℝ) + 1) * swB kM := by nlinarith
          have h2 : 1 ≤ 1 + swB kM * L := by
            have : 0 ≤ swB kM * L := by positivity
            linarith
          calc 2 * M = M * 2 * 1 := by ring
            _ ≤ _ := by gcongr
        have h3 : e1 * (L * hs) ≤ e1 * (swC2 kM L T * hs) := by gcongr
        have h4 : 2 * M * (hs * hs) ≤ swC1 kM L M * (hs * hs) := by gcongr
        linarith
      · exfalso
        rw [e] at hs'
        have : s'.t = b' := by rw [e']; rfl
        simp only [swReached, hb2, this, sub_self, mul_zero, le_refl, decide_true, if_true] at hs'
        cases hs'
    · have ek : v'.st.kold = l.k := by rw [e]; exact (accept_hist e').2.2.2.2.2
      have hlk := (hl.ok hkn.inv)
      obtain ⟨l', R, hpos, hle⟩ := regular_finite ok hfin hh hb hr r hb' hstep' (by rw [ek]; have := hlk.k1; omega)
      obtain ⟨a1, a2, a3, a4, a5, a6⟩ := accept_hist R.eq
      have hk1 := R.att.loc.k1
      have hkL := R.att.loc.kM
      have hkk : l'.k ≤ kM := R.ok.kM.trans hk
      have hD : |v'.st.t - hx v.st.hist (l'.k - 1)| ≤ kM * H := by
        have h1 := hspan (l'.k - 1) (by omega)
        rw [hnow] at h1
        have h2 := abs_sub_le v'.st.t v.st.t (hx v.st.hist (l'.k - 1))
        have h3 : (((l'.k - 1 : ℕ) : ℝ) + 1) ≤ kM := by
          have : l'.k - 1 + 1 ≤ kM := by omega
          exact_mod_cast this
        nlinarith
      have e0 := I.err
      have he1n : 0 ≤ swC1 kM L M * S * Real.exp (swC2 kM L T * |v.st.t - t0|) := (norm_nonneg _).trans e0
      have hreg := regular_error P ok hf' hk R ((hr.grow ok hfin hh hb) r) hpos hle he1n rfl e0 hm (I.hist r) ?_
      · refine finish r hprog.le (by rw [a6]; exact hD) ?_ fun _ => ⟨by rw [a1, a3, hf'], hnow⟩
        unfold swDefect
        rw [a6]
        exact hreg.1
      · refine lt_of_le_of_lt ?_ hH2
        have hS : S ≤ T * (kM * H) := I.Sle.trans (by gcongr)
        have h1 : swC1 kM L M * S * Real.exp (swC2 kM L T * |v.st.t - t0|) * (1 + kM * swB kM * L * T) ≤
            swC1 kM L M * (T * (kM * H)) * Real.exp (swC2 kM L T * T) * (1 + kM * swB kM * L * T) := by gcongr
        have h2 : swC0 kM M * |v'.st.t - v.st.t| * |v'.st.t - hx v.st.hist (l'.k - 1)| ^ l'.k ≤ swC0 kM M * H * 1 := by
          have := pow_le_one₀ (n := l'.k) (abs_nonneg _) (hD.trans hH1)
          gcongr
        unfold swA
        linarith
  · obtain ⟨s1, s2, _⟩ := swStiff_same c v.st
    have key : s'.t = v.st.t ∧ s'.y = v.st.y := by
      rcases swStepImpl_cases (fun _ => True) trivial (fun _ _ _ => trivial) hi with ⟨_, _, _, h, _⟩ | ⟨_, _, h⟩ | ⟨_, h⟩ |
          ⟨_, _, _, h, _⟩ | ⟨_, _, _, _, _, h⟩
      · exact absurd h ho
      · rw [h]; exact ⟨s1, s2⟩
      · rw [h]; exact ⟨s1, s2⟩
      · exact absurd h ho
      · rw [h]; exact ⟨s1, s2⟩
    exact I.same (by rw [e]; exact key.1) (by rw [e]; exact key.2) fun h => by rw [e] at h; cases h

/-- The bounds hold along every run. -/
theorem SwRun.err {f : ℝ → E → E} {y : ℝ → E} {t0 b : ℝ} {kM : ℕ} {ρ L M : ℝ} (P : SwProblem f y t0 b kM ρ L M)
    {c : SwCfg ℝ E} (ok : SwOK c) (hfin : ∀ p y x, c.scale p y x ≠ .inf) (hf' : c.fn = f) (hk : c.kMax ≤ kM)
    {h0 : ℝ} {wt0 : E → ENorm ℝ} {phi0 : ℕ → E} {co0 : Coef ℝ} {nfev : ℕ} (hh : 0 < c.dir * h0)
    (hb : ∀ b', c.tb = some b' → 0 ≤ c.dir * (b' - t0)) {H : ℝ} (hH : 0 ≤ H) (hH1 : kM * H ≤ 1)
    (hH2 : H * swA kM L M |b - t0| < ρ) {S : ℝ} {v : SwSolver ℝ E}
    (hrun : SwRun c (newSwag t0 (y t0) (f t0 (y t0)) h0 wt0 phi0 co0 nfev) t0 b H S v) :
    SwErr c f y t0 b H (kM * H) L (swC1 kM L M) (swC2 kM L |b - t0|) S v := by
  induction hrun with
  | refl =>
    have h1 : t0 ∈ Set.uIcc t0 b := Set.left_mem_uIcc
    refine ⟨le_rfl, by positivity, h1, by simp [newSwag], by simp [newSwag], fun _ a ha => ?_, fun _ i hi => ?_⟩
    · simp only [newSwag, List.mem_singleton] at ha
      subst ha
      exact ⟨h1, by simp⟩
    · simp [newSwag] at hi
  | tail hr hs hd hm ih => exact SwErr.step P ok hfin hf' hk hh hb hH hH1 hH2 hr.reach ih hs hd hm

/-- **C105.** The global error of SWAG: for a smooth right-hand side along the solution `y` on the interval there are
a constant and a longest step such that after any number of calls of `step()`, with whatever step sizes and orders (up to
`kM`) the solver chose, the error is at most the constant times the sum of the local errors of the formulas used. -/
theorem C105_global_error [CompleteSpace E] {f : ℝ → E → E} {y : ℝ → E} {t0 b : ℝ} (hy : SolvesOn f y t0 b) (kM : ℕ) :
    ∃ C hstar : ℝ, 0 ≤ C ∧ 0 < hstar ∧ ∀ (c : SwCfg ℝ E) (h0 : ℝ) (wt0 : E → ENorm ℝ) (phi0 : ℕ → E) (co0 : Coef ℝ)
      (nfev : ℕ) (H S : ℝ) (v : SwSolver ℝ E), SwOK c → (∀ p y x, c.scale p y x ≠ .inf) → c.fn = f → c.kMax ≤ kM →
      0 < c.dir * h0 → (∀ b', c.tb = some b' → 0 ≤ c.dir * (b' - t0)) → 0 ≤ H → H ≤ hstar →
      SwRun c (newSwag t0 (y t0) (f t0 (y t0)) h0 wt0 phi0 co0 nfev) t0 b H S v →
      ‖v.st.y - y v.st.t‖ ≤ C * S ∧ 0 ≤ S ∧ S ≤ |b - t0| * (kM * H) := by
  obtain ⟨ρ, L, M, P⟩ := exists_swProblem hy kM
  have hL := P.lip
  have hM := P.diff
  have hB := swB_pos kM
  have hT0 : 0 ≤ |b - t0| := abs_nonneg _
  have hC0 : 0 ≤ swC0 kM M := by unfold swC0; positivity
  have hC1 : 0 ≤ swC1 kM L M := by unfold swC1; positivity
  have hC2 : 0 ≤ swC2 kM L |b - t0| := by unfold swC2; positivity
  have hA : 0 ≤ swA kM L M |b - t0| := by unfold swA; positivity
  refine ⟨swC1 kM L M * Real.exp (swC2 kM L |b - t0| * |b - t0|), min (1 / (kM + 1)) (ρ / (swA kM L M |b - t0| + 1)),
    by positivity, lt_min (by positivity) (div_pos P.rho (by linarith)), ?_⟩
  intro c h0 wt0 phi0 co0 nfev H S v ok hfin hf' hk hh hb hH hHs hrun
  have hH1 : kM * H ≤ 1 := by
    have h1 := hHs.trans (min_le_left _ _)
    rw [le_div_iff₀ (by positivity)] at h1
    nlinarith
  have hH2 : H * swA kM L M |b - t0| < ρ := by
    have h1 := hHs.trans (min_le_right _ _)
    rw [le_div_iff₀ (by linarith)] at h1
    rcases hH.eq_or_lt with h | h
    · rw [← h, zero_mul]; exact P.rho
    · nlinarith
  have I := SwRun.err P ok hfin hf' hk hh hb hH hH1 hH2 hrun
  have htT : |v.st.t - t0| ≤ |b - t0| := Set.abs_sub_left_of_mem_uIcc I.mem
  refine ⟨I.err.trans ?_, I.S0, I.Sle.trans (by gcongr)⟩
  have h1 := I.S0
  calc swC1 kM L M * S * Real.exp (swC2 kM L |b - t0| * |v.st.t - t0|)
      ≤ swC1 kM L M * S * Real.exp (swC2 kM L |b - t0| * |b - t0|) := by gcongr
    _ = _ := by ring

/-- The runs of a solver with `max_step = H` and `t_bound = b`. -/
structure SwCover (c : SwCfg ℝ E) (v0 : SwSolver ℝ E) (t0 b H Q X : ℝ) (v : SwSolver ℝ E) (S : ℝ) : Prop where
  run : SwRun c v0 t0 b H S v
  sum : S ≤ |v.st.t - t0| * Q ^ 2 + X ^ 2
  mem : v.st.t ∈ Set.uIcc t0 b
  live : v.status = .running → S ≤ |v.st.t - t0| * Q ^ 2 ∧ 0 ≤ c.dir * (v.st.t - t0) ∧
    ∀ i, i + 1 < v.st.hist.length → |hx v.st.hist i - hx v.st.hist (i + 1)| ≤ H

theorem dir_abs_add {c : SwCfg ℝ E} (ok : SwOK c) {t0 t t' : ℝ} (h1 : 0 ≤ c.dir * (t - t0)) (h2 : 0 ≤ c.dir * (t' - t)) :
    |t' - t0| = |t - t0| + |t' - t| := by
  rcases ok.dir with h | h <;> rw [h] at h1 h2
  · rw [abs_of_nonneg (by linarith : 0 ≤ t - t0), abs_of_nonneg (by linarith : 0 ≤ t' - t), abs_of_nonneg (by linarith)]
    ring
  · rw [abs_of_nonpos (by linarith : t - t0 ≤ 0), abs_of_nonpos (by linarith : t' - t ≤ 0), abs_of_nonpos (by linarith)]
    ring

theorem SwCover.step {c : SwCfg ℝ E} (ok : SwOK c) (hfin : ∀ p y x, c.scale p y x ≠ .inf) {t0 b : ℝ} {y0 yp0 : E}
    {h0 : ℝ} {wt0 : E → ENorm ℝ} {phi0 : ℕ → E} {co0 : Coef ℝ} {nfev kM : ℕ} {H : ℝ} (hh : 0 < c.dir * h0)
    (hk : c.kMax ≤ kM) (htb : c.tb = some b) (hb : 0 ≤ c.dir * (b - t0)) (hm : c.maxStep = some H) (hH : 0 ≤ H)
    (hH1 : kM * H ≤ 1) (hX : c.fouru * max |t0| |b| ≤ H) {v v' : SwSolver ℝ E} {o : SwOut} {fuel : ℕ}
    {S : ℝ} (hr1 : SwReach c (newSwag t0 y0 yp0 h0 wt0 phi0 co0 nfev) v)
    (I : SwCover c (newSwag t0 y0 yp0 h0 wt0 phi0 co0 nfev) t0 b H (kM * H) (c.fouru * max |t0| |b|) v S)
    (hstep : swStep c fuel v = some (o, v')) :
    SwCover c (newSwag t0 y0 yp0 h0 wt0 phi0 co0 nfev) t0 b H (kM * H) (c.fouru * max |t0| |b|) v' (S + swDefect v v') ∧
    |v'.st.t - v.st.t| ≤ H := by
  have hb1 : ∀ b', c.tb = some b' → 0 ≤ c.dir * (b' - t0) := fun b' h => by
    rw [htb] at h; cases h; exact hb
  have hkM0 : (0 : ℝ) ≤ kM := Nat.cast_nonneg _
  have same : v'.st.t = v.st.t → v'.status ≠ .running ∨ v' = v → SwCover c (newSwag t0 y0 yp0 h0 wt0 phi0 co0 nfev) t0 b H (kM * H) (c.fouru * max |t0| |b|) v' (S + swDefect v v') ∧
    |v'.st.t - v.st.t| ≤ H := by
    intro ht hs
    have h0 : swDefect v v' = 0 := by rw [swDefect, ht, sub_self, abs_zero, zero_mul]
    have hrun := SwRun.tail I.run hstep (by rw [ht, sub_self, abs_zero]; exact hH) (by rw [ht]; exact I.mem)
    rw [h0, add_zero] at hrun ⊢
    refine ⟨⟨hrun, by rw [ht]; exact I.sum, by rw [ht]; exact I.mem, fun h => ?_⟩, by rw [ht, sub_self, abs_zero]; exact hH⟩
    rcases hs with h1 | h1
    · exact absurd h h1
    · subst h1; exact I.live h
  rcases swStep_cases hstep with ⟨_, _, e⟩ | ⟨_, _, _, e⟩ | ⟨r, hb', s', hi, eo, e⟩ | ⟨_, _, ho, s', hi, e⟩
  · exact same (by rw [e]) (Or.inr e)
  · exact same (by rw [e]) (Or.inl (by rw [e]; exact fun h => by cases h))
  · have hstep' : swStep c fuel v = some (.ok, v') := by rw [hstep, eo]
    have hkn := known ok hh hb1 hr1 r
    have hdi := C46_distinct_times ok hfin hh hb1 hr1 r
    have hmesh := hkn.mesh hdi
    obtain ⟨b1, b2, b3⟩ := C46_bounds ok hh hb1 hr1 r hstep'
    obtain ⟨i1, i2, i3⟩ := I.live r
    have hsum := dir_abs_add ok i2 b1
    have hfw : 0 ≤ c.dir * (v'.st.t - t0) := by
      have : v'.st.t - t0 = (v.st.t - t0) + (v'.st.t - v.st.t) := by ring
      rw [this, mul_add]; exact add_nonneg i2 b1
    have hmem : v'.st.t ∈ Set.uIcc t0 b := by
      have h2 := b2 b htb
      rcases ok.dir with h | h <;> rw [h] at hfw h2
      · exact Set.mem_uIcc.mpr (Or.inl ⟨by linarith, by linarith⟩)
      · exact Set.mem_uIcc.mpr (Or.inr ⟨by linarith, by linarith⟩)
    have hft : c.fouru * |v.st.t| ≤ c.fouru * max |t0| |b| := by
      refine mul_le_mul_of_nonneg_left ?_ ok.fouru.le
      have hmm := I.mem
      rcases Set.mem_uIcc.mp hmm with ⟨p, q⟩ | ⟨p, q⟩
      · exact abs_le_max_abs_abs p q
      · rw [max_comm]; exact abs_le_max_abs_abs p q
    have hd : |v'.st.t - v.st.t| ≤ H := by
      rcases b3 with h | ⟨_, h⟩
      · exact h H hm
      · exact (h.trans hft).trans hX
    have hrun := SwRun.tail I.run hstep hd hmem
    rcases swStepImpl_min hi with ⟨b', hb2, hb3, e'⟩ | ⟨l, hl, hmn, _, he, e'⟩
    · have et : v'.st.t = b' := by rw [e, e']; rfl
      have ek : v'.st.kold = 0 := by rw [e, e']; rfl
      have hdef : swDefect v v' ≤ (c.fouru * max |t0| |b|) ^ 2 := by
        rw [swDefect, ek, Nat.zero_sub, hmesh.now, zero_add, pow_one, et, ← sq]
        exact pow_le_pow_left₀ (abs_nonneg _) (hb3.trans hft) 2
      refine ⟨⟨hrun, ?_, hmem, fun hs => ?_⟩, hd⟩
      · rw [hsum, add_mul]
        have : 0 ≤ |v'.st.t - v.st.t| * (kM * H) ^ 2 := by positivity
        linarith
      · exfalso
        rw [e] at hs
        have : s'.t = b' := by rw [e']; rfl
        simp only [swReached, hb2, this, sub_self, mul_zero, le_refl, decide_true, if_true] at hs
        cases hs
    · obtain ⟨a1, a2, a3, a4, a5, a6⟩ := accept_hist e'
      have ek : v'.st.kold = l.k := by rw [e]; exact a6
      have hlk := hl.ok hkn.inv
      have hkk : l.k ≤ kM := hlk.kM.trans hk
      obtain ⟨l', R, _, _⟩ := regular_finite ok hfin hh hb1 hr1 r hb' hstep' (by rw [ek]; have := hlk.k1; omega)
      have hek : l'.k = l.k := by rw [← (accept_hist R.eq).2.2.2.2.2, ek]
      have hkL := R.att.loc.kM
      have hk1 := hlk.k1
      have hlen := hmesh.len
      have hD : |v'.st.t - hx v.st.hist (l.k - 1)| ≤ kM * H := by
        have h1 := span_le i3 (l.k - 1) (by omega)
        rw [hmesh.now] at h1
        have h2 := abs_sub_le v'.st.t v.st.t (hx v.st.hist (l.k - 1))
        have h3 : (((l.k - 1 : ℕ) : ℝ) + 1) ≤ kM := by
          have : l.k - 1 + 1 ≤ kM := by omega
          exact_mod_cast this
        nlinarith
      have hdef : swDefect v v' ≤ |v'.st.t - v.st.t| * (kM * H) ^ 2 := by
        rw [swDefect, ek]
        refine mul_le_mul_of_nonneg_left ?_ (abs_nonneg _)
        calc |v'.st.t - hx v.st.hist (l.k - 1)| ^ (l.k + 1) ≤ (kM * H) ^ (l.k + 1) :=
              pow_le_pow_left₀ (abs_nonneg _) hD _
          _ ≤ (kM * H) ^ 2 := pow_le_pow_of_le_one (by positivity) hH1 (by omega)
      have hS : S + swDefect v v' ≤ |v'.st.t - t0| * (kM * H) ^ 2 := by
        rw [hsum, add_mul]; exact add_le_add i1 hdef
      refine ⟨⟨hrun, hS.trans (le_add_of_nonneg_right (by positivity)), hmem, fun _ => ⟨hS, hfw, ?_⟩⟩, hd⟩
      have eh : v'.st.hist = (v'.st.t, v'.st.yp) :: v.st.hist := by rw [e]; exact a1
      intro i hi
      rw [eh] at hi ⊢
      cases i with
      | zero => rw [hx_zero, hx_succ, hmesh.now]; exact hd
      | succ i => rw [hx_succ, hx_succ]; exact i3 i (by simpa using hi)
  · obtain ⟨s1, s2, _⟩ := swStiff_same c v.st
    refine same ?_ (Or.inl (by rw [e]; exact fun h => by cases h))
    rw [e]
    rcases swStepImpl_cases (fun _ => True) trivial (fun _ _ _ => trivial) hi with ⟨_, _, _, h, _⟩ | ⟨_, _, h⟩ | ⟨_, h⟩ |
        ⟨_, _, _, h, _⟩ | ⟨_, _, _, _, _, h⟩
    · exact absurd h ho
    · rw [h]; exact s1
    · rw [h]; exact s1
    · exact absurd h ho
    · rw [h]; exact s1

theorem SwReach.cover {c : SwCfg ℝ E} (ok : SwOK c) (hfin : ∀ p y x, c.scale p y x ≠ .inf) {t0 b : ℝ} {y0 yp0 : E}
    {h0 : ℝ} {wt0 : E → ENorm ℝ} {phi0 : ℕ → E} {co0 : Coef ℝ} {nfev kM : ℕ} {H : ℝ} (hh : 0 < c.dir * h0)
    (hk : c.kMax ≤ kM) (htb : c.tb = some b) (hb : 0 ≤ c.dir * (b - t0)) (hm : c.maxStep = some H) (hH : 0 ≤ H)
    (hH1 : kM * H ≤ 1) (hX : c.fouru * max |t0| |b| ≤ H) {v : SwSolver ℝ E}
    (hr : SwReach c (newSwag t0 y0 yp0 h0 wt0 phi0 co0 nfev) v) :
    ∃ S, SwCover c (newSwag t0 y0 yp0 h0 wt0 phi0 co0 nfev) t0 b H (kM * H) (c.fouru * max |t0| |b|) v S := by
  induction hr with
  | refl =>
    refine ⟨0, .refl, by positivity, Set.left_mem_uIcc, fun _ => ⟨by simp [newSwag], by simp [newSwag], fun i hi => by
      simp [newSwag] at hi⟩⟩
  | tail hr1 hstep ih =>
    obtain ⟨S, I⟩ := ih
    exact ⟨_, (SwCover.step ok hfin hh hk htb hb hm hH hH1 hX hr1 I hstep).1⟩

/-- **C105.** SWAG converges: with `max_step = H` small enough, after any number of calls of `step()` the error is of
second order in `H` (the order of the first step), up to the square of the length `4 u |t|` of the interval over which
the last step may be extrapolated. -/
theorem C105_converges [CompleteSpace E] {f : ℝ → E → E} {y : ℝ → E} {t0 b : ℝ} (hy : SolvesOn f y t0 b) (kM : ℕ) :
    ∃ C hstar : ℝ, 0 ≤ C ∧ 0 < hstar ∧ ∀ (c : SwCfg ℝ E) (h0 : ℝ) (wt0 : E → ENorm ℝ) (phi0 : ℕ → E) (co0 : Coef ℝ)
      (nfev : ℕ) (H : ℝ) (v : SwSolver ℝ E), SwOK c → (∀ p y x, c.scale p y x ≠ .inf) → c.fn = f → c.kMax ≤ kM →
      0 < c.dir * h0 → c.tb = some b → 0 ≤ c.dir * (b - t0) → c.maxStep = some H → H ≤ hstar →
      c.fouru * max |t0| |b| ≤ H →
      SwReach c (newSwag t0 (y t0) (f t0 (y t0)) h0 wt0 phi0 co0 nfev) v →
      ‖v.st.y - y v.st.t‖ ≤ C * (H ^ 2 + (c.fouru * max |t0| |b|) ^ 2) := by
  obtain ⟨C, hs, h1, h2, h3⟩ := C105_global_error hy kM
  refine ⟨C * (|b - t0| * kM ^ 2 + 1), min hs (1 / (kM + 1)), by positivity, lt_min h2 (by positivity), ?_⟩
  intro c h0 wt0 phi0 co0 nfev H v ok hfin hf' hk hh htb hb hm hHs hX hr
  have hH0 : 0 < H := ok.maxStep H hm
  have hH1 : kM * H ≤ 1 := by
    have h1 := hHs.trans (min_le_right _ _)
    rw [le_div_iff₀ (by positivity)] at h1
    nlinarith
  have hb1 : ∀ b', c.tb = some b' → 0 ≤ c.dir * (b' - t0) := fun b' h => by
    rw [htb] at h; cases h; exact hb
  obtain ⟨S, I⟩ := hr.cover ok hfin hh hk htb hb hm hH0.le hH1 hX
  obtain ⟨e1, e2, _⟩ := h3 c h0 wt0 phi0 co0 nfev H S v ok hfin hf' hk hh hb1 hH0.le (hHs.trans (min_le_left _ _)) I.run
  refine e1.trans ?_
  rw [mul_assoc]
  refine mul_le_mul_of_nonneg_left (I.sum.trans ?_) h1
  have htT : |v.st.t - t0| ≤ |b - t0| := Set.abs_sub_left_of_mem_uIcc I.mem
  have h4 : |v.st.t - t0| * (kM * H) ^ 2 ≤ |b - t0| * (kM * H) ^ 2 := by gcongr
  have h5 : 0 ≤ |b - t0| * kM ^ 2 * (c.fouru * max |t0| |b|) ^ 2 := by positivity
  have h6 := sq_nonneg H
  nlinarith

end

/-! ## The hypotheses are met -/

/-- `y' = -y` on `[0, 1]` with `max_step = η`, and tolerances so wide that every step is accepted. -/
def exSwR (η : ℝ) : SwCfg ℝ ℝ where
  fn _ u := -u
  tb := some 1
  dir := 1
  maxStep := some η
  fouru := η / 4
  twou := η / 8
  kMax := 12
  gstr _ := 1
  scale _ _ _ := .num 0
  sqrt := Real.sqrt
  pw x e := x ^ e

theorem exSwR_ok {η : ℝ} (h : 0 < η) : SwOK (exSwR η) where
  dir := Or.inl rfl
  fouru := by simp only [exSwR]; linarith
  maxStep m hm := by simp only [exSwR, Option.some.injEq] at hm; linarith
  sqrt_pos x hx := Real.sqrt_pos.mpr hx
  sqrt_zero := Real.sqrt_zero
  sqrt_half x hx h4 := by
    simp only [exSwR]
    rw [Real.sqrt_le_left (by norm_num)]
    linarith
  kMax := by simp [exSwR]

/-- The solver for this problem. -/
def exSwV (η : ℝ) : SwSolver ℝ ℝ := newSwag 0 (Real.exp (-0)) (-Real.exp (-0)) η (fun _ => .num 0) 0
  ⟨0, 0, 0, 0, 0, 0, 0, 0, 0, 0, 0, 0⟩ 1

theorem exSwR_step {η : ℝ} (h : 0 < η) (h1 : η ≤ 1) :
    ∃ v', swStep (exSwR η) 1 (exSwV η) = some (.ok, v') ∧ v'.st.t = η ∧ v'.st.kold = 1 := by
  have hst : swStiff (exSwR η) (exSwV η).st = { (exSwV η).st with kle4 := 1 } := by
    simp [swStiff, exSwV, newSwag]
  have hmin : swMinStep (exSwR η) 0 = 0 := by simp [swMinStep]
  have hlim : swLimit (exSwR η) 0 η = η := by
    have h2 : swLimit1 (exSwR η) 0 η = η := by
      show (if 0 < (1 : ℝ) * (η - (1 - 0)) then (1 : ℝ) - 0 else η) = η
      rw [if_neg (by linarith)]
    show copySign (min η |swLimit1 (exSwR η) 0 η|) (1 : ℝ) = η
    rw [h2, copySign, if_neg (by norm_num), abs_of_pos h, min_self]
  have himpl : ∃ s', swStepImpl (exSwR η) 1 (exSwV η).st = some (.ok, s') ∧ s'.t = η ∧ s'.kold = 1 := by
    unfold swStepImpl
    rw [hst]
    have e1 : (exSwV η).st.t = 0 := rfl
    have e2 : (exSwV η).st.h = η := rfl
    have e3 : (exSwV η).st.wt = fun _ => .num 0 := rfl
    simp only [e1, e2, e3, hlim, hmin]
    rw [if_neg (by
      show ¬ decide (|(1 : ℝ) - 0| ≤ swMinStep (exSwR η) 0) = true
      rw [hmin]; norm_num), if_neg (by simp), if_neg (by simp [ENorm.scale, ENorm.gt])]
    unfold swLoop
    rw [if_pos]
    · exact ⟨_, rfl, by simp [swAccept, swStart, exSwV, newSwag], by simp [swAccept, swStart, exSwV, newSwag]⟩
    · simp [swTry, exSwR, ENorm.scale, ENorm.leE]
  obtain ⟨s', i1, i2, i3⟩ := himpl
  unfold swStep
  have e0 : (exSwV η).status = .running := rfl
  rw [e0]
  dsimp only
  rw [if_neg (by simp [exSwR, exSwV, newSwag]), i1]
  exact ⟨_, rfl, i2, i3⟩

/-- For every `max_step` up to 1 the hypotheses of `C105_converges` hold for a solver which has made a regular step. -/
example (η : ℝ) (h : 0 < η) (h1 : η ≤ 1) : SwOK (exSwR η) ∧ (∀ p y x, (exSwR η).scale p y x ≠ .inf) ∧
    (exSwR η).fn = (fun (_ : ℝ) (u : ℝ) => -u) ∧ (exSwR η).kMax ≤ 12 ∧ 0 < (exSwR η).dir * η ∧ (exSwR η).tb = some 1 ∧
    (exSwR η).maxStep = some η ∧ (exSwR η).fouru * max |0| |1| ≤ η ∧
    ∃ v, SwReach (exSwR η) (exSwV η) v ∧ v.st.t = η ∧ v.st.kold = 1 := by
  obtain ⟨v', h2, h3⟩ := exSwR_step h h1
  refine ⟨exSwR_ok h, fun _ _ _ => by simp [exSwR], rfl, le_rfl, by simpa [exSwR] using h, rfl, rfl, ?_, v', .tail .refl h2, h3⟩
  simp [exSwR]; linarith

/-- Hence the error after this step is of second order. -/
example : ∃ C hs : ℝ, 0 < hs ∧ ∀ η : ℝ, 0 < η → η ≤ 1 → η ≤ hs → ∀ v, SwReach (exSwR η) (exSwV η) v →
    |v.st.y - Real.exp (-v.st.t)| ≤ C * (η ^ 2 + (η / 4) ^ 2) := by
  obtain ⟨C, hs, _, h2, h3⟩ := C105_converges exDecay_solves 12
  refine ⟨C, hs, h2, fun η h h1 hle v hr => ?_⟩
  have := h3 (exSwR η) η _ _ _ _ η v (exSwR_ok h) (fun _ _ _ => by simp [exSwR]) rfl le_rfl
    (by simpa [exSwR] using h) rfl (by simp [exSwR]) rfl hle (by simp [exSwR]; linarith) hr
  simpa [exSwR] using this

end
end Extensisq
