import Verif.Lemmas.Cheb
import Mathlib.Algebra.Order.Archimedean.Basic

/-!
# The driver of SSV2stab: C42, C43, C67
-/

set_option linter.unusedSectionVars false

namespace Extensisq

section
variable {K V : Type*} [Field K] [LinearOrder K] [IsStrictOrderedRing K] [FloorSemiring K]
  [AddCommGroup V] [Module K V]
variable {c : ChebCfg K V}

/-- What a successful step does: the last attempt `q` is accepted. -/
structure ChebAccepted (c : ChebCfg K V) (first : Option K) (s s' : ChebSt K V) (q : StageCall K V) : Prop where
  mem : ∃ l, s'.calls = q :: l
  qt : q.t = s.t
  qy : q.y = s.yn
  ok : CallOK c q
  t : s'.t = s.t + q.h
  yn : s'.yn = c.stg s.t s.yn s.fn q.h q.m
  prev : s'.prev = some (s.yn, s.fn)
  err : ∃ x, attemptErr c s q.h q.m = .num x ∧ 0 ≤ x ∧ x < 1
  hmin : q.hmin = chebHmin c s.t |q.h| q.m
  next : ∃ a', s'.absh = some a' ∧ c.sqrtmin ≤ a' ∧ (a' ≤ 10 * |q.h| ∨ a' = q.hmin) ∧
        (|q.h| / 10 ≤ a' ∨ c.maxStep ≤ a')

theorem attemptErr_congr {s s1 : ChebSt K V} (h : ChebFrame s s1) (x : K) (m : ℕ) :
    attemptErr c s1 x m = attemptErr c s x m := by
  unfold attemptErr; rw [h.t, h.yn, h.fn]

theorem chebLoop_spec (hc : ChebOK c) {first : Option K} : ∀ (n : ℕ) (s : ChebSt K V) {o : ChebOut} {s' : ChebSt K V},
    ChebInv c first s → Before c s.t → chebLoop c n s s.absh = some (o, s') →
    ChebLog c first s'.calls ∧
    (∃ added, s'.calls = added ++ s.calls ∧ (∀ r ∈ added, r.t = s.t ∧ r.y = s.yn) ∧
      (o = .ok → s'.nrej + 1 = s.nrej + added.length)) ∧
    ((o = .ok ∧ ChebInv c first s' ∧ ∃ q, ChebAccepted c first s s' q) ∨
     ((o = .rhoFailed ∨ o = .overflow ∨ o = .tooSmall) ∧ s'.t = s.t ∧ s'.yn = s.yn ∧ s'.fn = s.fn))
  | 0, _, _, _, _, _, h => by simp [chebLoop] at h
  | n + 1, s, o, s', hi, hb, h => by
    unfold chebLoop at h
    rcases chebIter_spec hc hi hb with hr | ⟨s1, a, hf, -, -, -, -, -, hp⟩
    · rw [hr] at h
      cases h
      exact ⟨⟨hi.calls, hi.chain⟩, ⟨[], rfl, by simp, by simp⟩, Or.inr ⟨Or.inl rfl, rfl, rfl, rfl⟩⟩
    · cases hr : chebIter c s s.absh with
      | done o1 s1' =>
        rw [hr] at h hp
        cases h
        cases o
        case ok =>
          obtain ⟨q, h1, -, h3, h4, h5, h6, h7, h8, h9⟩ := hp
          refine ⟨h1.log, ⟨[q], by rw [h1.calls, hf.calls]; rfl, ?_, fun _ => ?_⟩,
            Or.inl ⟨rfl, h3, q, ⟨⟨_, h1.calls⟩, ?_, ?_, h1.ok, ?_, ?_, ?_, ?_, ?_, h9⟩⟩⟩
          · intro r hr'; rw [List.mem_singleton] at hr'; rw [hr', h1.qt, h1.qy, hf.t, hf.yn]; exact ⟨rfl, rfl⟩
          · rw [h7, hf.nrej]; rfl
          · rw [h1.qt, hf.t]
          · rw [h1.qy, hf.yn]
          · rw [h4, hf.t]
          · rw [h5, hf.t, hf.yn, hf.fn]
          · rw [h6, hf.yn, hf.fn]
          · rw [attemptErr_congr hf] at h8; exact h8
          · rw [h1.hmin, hf.t]
        all_goals
          obtain ⟨h0, q, h1, h2, h3, h4, h5, -⟩ := hp
          refine ⟨h1.log, ⟨[q], by rw [h1.calls, hf.calls]; rfl, ?_, fun h => by cases h⟩,
            Or.inr ⟨Or.inr h0, by rw [h3, hf.t], by rw [h4, hf.yn], by rw [h5, hf.fn]⟩⟩
          intro r hr'; rw [List.mem_singleton] at hr'; rw [hr', h1.qt, h1.qy, hf.t, hf.yn]; exact ⟨rfl, rfl⟩
      | retry s2 a' =>
        rw [hr] at h hp
        dsimp only at h
        obtain ⟨q, h1, -, h3, h4, h5, h6, h7, h8, h9, h10, -⟩ := hp
        rw [← h7] at h
        have hb2 : Before c s2.t := by rw [h4, hf.t]; exact hb
        have et : s2.t = s.t := by rw [h4, hf.t]
        have ey : s2.yn = s.yn := by rw [h5, hf.yn]
        have ef : s2.fn = s.fn := by rw [h6, hf.fn]
        obtain ⟨r1, ⟨add, r2, r3, r4⟩, r5⟩ := chebLoop_spec hc n s2 h3 hb2 h
        refine ⟨r1, ⟨add ++ [q], ?_, ?_, fun ho => ?_⟩, ?_⟩
        · rw [r2, h1.calls, hf.calls]; simp
        · intro r hr'
          rcases List.mem_append.mp hr' with hr' | hr'
          · have := r3 r hr'; rw [et, ey] at this; exact this
          · rw [List.mem_singleton] at hr'; rw [hr', h1.qt, h1.qy, hf.t, hf.yn]; exact ⟨rfl, rfl⟩
        · have := r4 ho
          rw [h10, hf.nrej] at this
          rw [List.length_append, List.length_singleton]; omega
        · rcases r5 with ⟨q1, q2, p, q3⟩ | ⟨q1, q2⟩
          · refine Or.inl ⟨q1, q2, p, ⟨q3.mem, q3.qt.trans et, q3.qy.trans ey, q3.ok, by rw [q3.t, et], ?_, ?_, ?_, ?_, q3.next⟩⟩
            · rw [q3.yn, et, ey, ef]
            · rw [q3.prev, ey, ef]
            · have := q3.err; unfold attemptErr at this ⊢; rw [et, ey, ef] at this; exact this
            · rw [q3.hmin, et]
          · exact Or.inr ⟨q1, by rw [q2.1, et], by rw [q2.2.1, ey], by rw [q2.2.2, ef]⟩

/-- The invariant of a solver object. -/
structure ChebSInv (c : ChebCfg K V) (first : Option K) (v : ChebSolver K V) : Prop where
  log : ChebLog c first v.st.calls
  fn : v.st.fn = c.rhs v.st.t v.st.yn
  side : ∀ b, c.tb = some b → 0 ≤ c.dir * (b - v.st.t)
  run : v.status = .running → ChebInv c first v.st
  fin : v.status = .finished → c.tb = some v.st.t

/-- Legal arguments of a constructor: a given first step is positive, and the start is not beyond
`t_bound`. -/
structure ChebStart (c : ChebCfg K V) (t0 : K) (first : Option K) : Prop where
  ok : ChebOK c
  first : ∀ a, first = some a → 0 < a
  side : ∀ b, c.tb = some b → 0 ≤ c.dir * (b - t0)

theorem newCheb_inv {t0 : K} {y0 : V} {first : Option K} (h : ChebStart c t0 first) :
    ChebSInv c first (newCheb c t0 y0 first) where
  log := ⟨fun q hq => by simp [newCheb] at hq, List.isChain_nil⟩
  fn := rfl
  side := h.side
  run _ := {
    absh := h.first
    cap := fun a ha => Or.inr (Or.inr (Or.inl ⟨a, ha, le_rfl⟩))
    hold := fun x hx => by cases hx
    est := fun hx => by cases hx
    age := fun hx => by cases hx
    att := fun hx => by cases hx
    sig := by norm_num [newCheb]
    cj := fun _ => Or.inl ⟨rfl, rfl⟩
    fresh := fun _ te ye he => by cases he
    fn := rfl
    calls := fun q hq => by simp [newCheb] at hq
    chain := List.isChain_nil
    retry := fun b l hb => by cases hb }
  fin h := by cases h

theorem Before.of (hc : ChebOK c) {v : ChebSolver K V} {first : Option K} (hi : ChebSInv c first v)
    (hne : c.tb ≠ some v.st.t) : Before c v.st.t := by
  intro b hb
  rcases (hi.side b hb).lt_or_eq with h | h
  · exact h
  · exfalso
    apply hne
    rw [hb]
    have : b - v.st.t = 0 := by
      rcases hc.dir with hd | hd <;> rw [hd] at h <;> linarith
    rw [show b = v.st.t by linarith]

/-- Everything about one call of `step()`. -/
theorem chebStep_spec (hc : ChebOK c) {first : Option K} {v v' : ChebSolver K V} {o : ChebOut} {fuel : ℕ}
    (hi : ChebSInv c first v) (h : chebStep c fuel v = some (o, v')) :
    ChebSInv c first v' ∧
    ((v'.st = v.st ∧ (v.status ≠ .running ∧ o = .notRunning ∧ v' = v ∨ o = .ok ∧ c.tb = some v.st.t)) ∨
     (v.status = .running ∧ c.tb ≠ some v.st.t ∧ o = .ok ∧ ChebInv c first v'.st ∧ v'.tOld = some v.st.t ∧
        ∃ q, ChebAccepted c first v.st v'.st q) ∨
     ((o = .rhoFailed ∨ o = .overflow ∨ o = .tooSmall) ∧ v'.status = .failed ∧ v'.st.t = v.st.t ∧
        v'.st.yn = v.st.yn ∧ v'.st.fn = v.st.fn)) ∧
    ∃ added, v'.st.calls = added ++ v.st.calls ∧ (∀ r ∈ added, r.t = v.st.t ∧ r.y = v.st.yn) ∧
      (o = .ok → c.tb ≠ some v.st.t → v'.st.nrej + 1 = v.st.nrej + added.length) := by
  unfold chebStep at h
  split at h
  · rename_i hrun
    split_ifs at h with htb
    · cases h
      refine ⟨⟨hi.log, hi.fn, hi.side, (fun h => by cases h), fun _ => htb⟩, Or.inl ⟨rfl, Or.inr ⟨rfl, htb⟩⟩,
        [], rfl, by simp, fun _ h => absurd htb h⟩
    · split at h
      · cases h
      · rename_i o' s' heq
        obtain ⟨h1, ⟨add, h2, h3, h4⟩, h5⟩ := chebLoop_spec hc fuel v.st (hi.run hrun) (Before.of hc hi htb) heq
        rcases h5 with ⟨rfl, h6, q, h7⟩ | ⟨h6, e1, e2, e3⟩
        · dsimp only at h
          cases h
          have hside : ∀ b, c.tb = some b → 0 ≤ c.dir * (b - s'.t) := by
            intro b hb
            have := h7.ok.bound b hb
            rw [h7.qt] at this
            rw [h7.t]
            linarith
          refine ⟨⟨h1, h6.fn, hside, fun _ => h6, ?_⟩, Or.inr (Or.inl ⟨hrun, htb, rfl, h6, rfl, q, h7⟩),
            add, h2, h3, fun _ _ => h4 rfl⟩
          intro hfin
          dsimp only at hfin
          split at hfin
          · cases hfin
          · rename_i b hb
            split_ifs at hfin with h0
            · have h1 := hside b hb
              have : b - s'.t = 0 := by
                rcases hc.dir with hd | hd <;> rw [hd] at h0 h1 <;> linarith
              rw [hb, show b = s'.t by linarith]
        · have hs' : ChebSInv c first { v with status := .failed, st := s' } :=
            ⟨h1, by dsimp only; rw [e1, e2, e3]; exact hi.fn, by dsimp only; rw [e1]; exact hi.side,
              (fun h => by cases h), (fun h => by cases h)⟩
          rcases h6 with rfl | rfl | rfl
          all_goals
            dsimp only at h
            cases h
          · exact ⟨hs', Or.inr (Or.inr ⟨Or.inl rfl, rfl, e1, e2, e3⟩), add, h2, h3, fun h => by cases h⟩
          · exact ⟨hs', Or.inr (Or.inr ⟨Or.inr (Or.inl rfl), rfl, e1, e2, e3⟩), add, h2, h3, fun h => by cases h⟩
          · exact ⟨hs', Or.inr (Or.inr ⟨Or.inr (Or.inr rfl), rfl, e1, e2, e3⟩), add, h2, h3, fun h => by cases h⟩
  · rename_i hrun
    cases h
    refine ⟨hi, Or.inl ⟨rfl, Or.inl ⟨?_, rfl, rfl⟩⟩, [], rfl, by simp, fun h => by cases h⟩
    intro h; exact hrun h

theorem ChebReach.inv {t0 : K} {y0 : V} {first : Option K} (h : ChebStart c t0 first) {v : ChebSolver K V}
    (hr : ChebReach c (newCheb c t0 y0 first) v) : ChebSInv c first v := by
  induction hr with
  | refl => exact newCheb_inv h
  | tail _ hs ih => exact (chebStep_spec h.ok ih hs).1

/-! ## C42 -/

/-- **C42**. In every call of the stage routine made by a solver, whatever the history of steps and
rejections, the number of stages is between 2 and `mmax`, and the step is inside the interval of
stability belonging to that number of stages and the spectral radius in use:
`1.54 |h| sprad ≤ m^2 - 1`. -/
theorem C42_stages_match_step {t0 : K} {y0 : V} {first : Option K} (hs : ChebStart c t0 first)
    {v : ChebSolver K V} (hr : ChebReach c (newCheb c t0 y0 first) v) {q : StageCall K V}
    (hq : q ∈ v.st.calls) :
    2 ≤ q.m ∧ q.m ≤ c.mmax ∧ 0 ≤ q.sprad ∧ 77 / 50 * |q.h| * q.sprad ≤ (q.m : K) ^ 2 - 1 :=
  let h := ((hr.inv hs).log.calls q hq).1
  ⟨h.m2, h.mle, h.sp, h.stab⟩

/-- **C42**. The choice itself: for every step and spectral radius, the chosen step is not longer than the
one asked for, it is positive, and it is only changed if more than `mmax` stages were needed; otherwise
the number of stages is the smallest one (at least 2) for which the step is inside the interval of stability
in the strict sense. -/
theorem C42_choice {mmax : ℕ} (hm : 2 ≤ mmax) {absh sprad : K} (ha : 0 < absh) (hs : 0 ≤ sprad) :
    0 < (chebChoose mmax absh sprad).1 ∧ (chebChoose mmax absh sprad).1 ≤ absh ∧
    2 ≤ (chebChoose mmax absh sprad).2 ∧ (chebChoose mmax absh sprad).2 ≤ mmax ∧
    77 / 50 * (chebChoose mmax absh sprad).1 * sprad ≤ ((chebChoose mmax absh sprad).2 : K) ^ 2 - 1 ∧
    ((chebChoose mmax absh sprad).1 ≠ absh → (chebChoose mmax absh sprad).2 = mmax) ∧
    ((chebChoose mmax absh sprad).1 = absh → (chebChoose mmax absh sprad).2 ≠ mmax → ∀ k : ℕ, 2 ≤ k →
      77 / 50 * absh * sprad < (k : K) ^ 2 - 1 → (chebChoose mmax absh sprad).2 ≤ k) := by
  obtain ⟨h1, h2, h3, h4, h5⟩ := chebChoose_spec hm ha hs
  refine ⟨h3, h4, h1, h2, h5, ?_, ?_⟩
  · unfold chebChoose
    split_ifs with h
    · exact fun _ => rfl
    · exact fun h => absurd rfl h
  · unfold chebChoose
    split_ifs with h
    · exact fun _ h => absurd rfl h
    · intro _ _ k hk hlt
      show chebM absh sprad ≤ k
      by_contra hcon
      push Not at hcon
      obtain ⟨-, q⟩ := chebM_cut absh sprad ha.le hs hk hcon
      have hsp : 0 < sprad := (chebM_cut absh sprad ha.le hs hk hcon).1
      rw [div_le_iff₀ (by positivity)] at q
      linarith

/-- Over the reals, the stage number is `1 + int(sqrt(1.54 absh sprad + 1))` as written in the code. -/
theorem chebM_real (absh sprad : ℝ) : chebM absh sprad = 1 + ⌊√(77 / 50 * absh * sprad + 1)⌋₊ := by
  unfold chebM
  set x := 77 / 50 * absh * sprad + 1
  congr 1
  symm
  rcases le_or_gt 0 x with hx | hx
  · rw [Nat.floor_eq_iff (Real.sqrt_nonneg _)]
    constructor
    · apply Real.le_sqrt_of_sq_le
      have h1 : Nat.sqrt ⌊x⌋₊ ^ 2 ≤ ⌊x⌋₊ := Nat.sqrt_le' _
      have h2 : ((Nat.sqrt ⌊x⌋₊ ^ 2 : ℕ) : ℝ) ≤ (⌊x⌋₊ : ℝ) := by exact_mod_cast h1
      push_cast at h2
      exact h2.trans (Nat.floor_le hx)
    · rw [Real.sqrt_lt' (by positivity)]
      have h1 := Nat.lt_succ_sqrt' ⌊x⌋₊
      have h2 : ((⌊x⌋₊ + 1 : ℕ) : ℝ) ≤ (((Nat.sqrt ⌊x⌋₊).succ ^ 2 : ℕ) : ℝ) := by exact_mod_cast h1
      push_cast at h2
      exact (Nat.lt_floor_add_one x).trans_le h2
  · rw [Real.sqrt_eq_zero_of_nonpos hx.le, Nat.floor_of_nonpos hx.le]
    simp

/-! ## C43 -/

/-- **C43**. Time never passes `t_bound` and never moves backwards. -/
theorem C43_never_past_t_bound {t0 : K} {y0 : V} {first : Option K} (hs : ChebStart c t0 first) {b : K}
    (hb : c.tb = some b) {v : ChebSolver K V} (hr : ChebReach c (newCheb c t0 y0 first) v) :
    0 ≤ c.dir * (v.st.t - t0) ∧ 0 ≤ c.dir * (b - v.st.t) := by
  refine ⟨?_, (hr.inv hs).side b hb⟩
  induction hr with
  | refl => simp [newCheb]
  | @tail v v' o fuel hr h ih =>
    rcases (chebStep_spec hs.ok (hr.inv hs) h).2.1 with ⟨e, -⟩ | ⟨-, -, -, -, -, q, hq⟩ | ⟨-, -, e, -⟩
    · rw [e]; exact ih
    · rw [hq.t]; have := hq.ok.pos; linarith
    · rw [e]; exact ih

/-- **C43**. A successful step from a point other than `t_bound` moves strictly in the direction of
integration, the solution accepted is the one computed by the stage routine for that step from the old
solution, and its scaled error estimate is a number below 1. -/
theorem C43_accepted {t0 : K} {y0 : V} {first : Option K} (hs : ChebStart c t0 first) {v v' : ChebSolver K V}
    (hr : ChebReach c (newCheb c t0 y0 first) v) {fuel : ℕ} (h : chebStep c fuel v = some (.ok, v'))
    (hne : c.tb ≠ some v.st.t) :
    0 < c.dir * (v'.st.t - v.st.t) ∧ v'.tOld = some v.st.t ∧ ∃ m : ℕ,
      let hh := v'.st.t - v.st.t
      let y := c.stg v.st.t v.st.yn (c.rhs v.st.t v.st.yn) hh m
      2 ≤ m ∧ m ≤ c.mmax ∧ v'.st.yn = y ∧ v'.st.fn = c.rhs v'.st.t y ∧
      ∃ x, c.errNorm ((4 / 5 : K) • (v.st.yn - y) + (2 / 5 * hh) • (c.rhs v.st.t v.st.yn + c.rhs v'.st.t y)) y v.st.yn
        = .num x ∧ x < 1 := by
  have hi := hr.inv hs
  obtain ⟨h0, h1, -⟩ := chebStep_spec hs.ok hi h
  rcases h1 with ⟨-, ⟨-, e, -⟩ | ⟨-, e⟩⟩ | ⟨-, -, -, -, hto, q, hq⟩ | ⟨e | e | e, -⟩
  · cases e
  · exact absurd e hne
  · have e1 : v'.st.t - v.st.t = q.h := by rw [hq.t]; ring
    refine ⟨by rw [e1]; exact hq.ok.pos, hto, q.m, ?_⟩
    dsimp only
    rw [e1]
    obtain ⟨x, hx, -, hx1⟩ := hq.err
    unfold attemptErr at hx
    rw [hi.fn] at hx
    have hy := hq.yn
    rw [hi.fn] at hy
    refine ⟨hq.ok.m2, hq.ok.mle, hy, by rw [h0.fn, hy], x, ?_, hx1⟩
    rw [hq.t]
    exact hx
  · cases e
  · cases e
  · cases e

/-- **C43**. A finished solver stands exactly on `t_bound`; while the solver runs (after at least one step)
it is strictly before it. -/
theorem C43_finished_on_t_bound {t0 : K} {y0 : V} {first : Option K} (hs : ChebStart c t0 first) {b : K}
    (hb : c.tb = some b) {v v' : ChebSolver K V} (hr : ChebReach c (newCheb c t0 y0 first) v) {fuel : ℕ}
    (h : chebStep c fuel v = some (.ok, v')) :
    (v'.status = .finished ∧ v'.st.t = b) ∨ (v'.status = .running ∧ 0 < c.dir * (b - v'.st.t)) := by
  have hi := hr.inv hs
  have hi' := (chebStep_spec hs.ok hi h).1
  cases hst : v'.status with
  | finished =>
    left
    have := hi'.fin hst
    rw [hb] at this
    exact ⟨rfl, (Option.some.inj this).symm⟩
  | failed =>
    exfalso
    rcases (chebStep_spec hs.ok hi h).2.1 with ⟨-, ⟨-, e, -⟩ | ⟨-, e⟩⟩ | ⟨hrun, hne, -, -, -, q, hq⟩ | ⟨e | e | e, -⟩
    · cases e
    · unfold chebStep at h
      split at h
      · rw [if_pos e] at h; cases h; cases hst
      · cases h
    · unfold chebStep at h
      rw [hrun] at h
      dsimp only at h
      rw [if_neg hne] at h
      split at h
      · cases h
      · rename_i o' s' _
        cases o' <;> dsimp only at h <;> cases h
        dsimp only at hst
        rw [hb] at hst
        dsimp only at hst
        split_ifs at hst
    · cases e
    · cases e
    · cases e
  | running =>
    right
    refine ⟨rfl, ?_⟩
    rcases (hi'.side b hb).lt_or_eq with hlt | heq
    · exact hlt
    · exfalso
      unfold chebStep at h
      split at h
      · split_ifs at h with htb
        · cases h; cases hst
        · split at h
          · cases h
          · rename_i o' s' _
            cases o' <;> dsimp only at h <;> cases h
            dsimp only at hst heq
            rw [hb] at hst
            dsimp only at hst
            rw [if_pos (by linarith)] at hst
            cases hst
      · cases h

/-- **C43**. A failed step leaves `t`, `y` and the derivative unchanged. -/
theorem C43_failed_step_keeps_solution {t0 : K} {y0 : V} {first : Option K} (hs : ChebStart c t0 first)
    {v v' : ChebSolver K V} (hr : ChebReach c (newCheb c t0 y0 first) v) {fuel : ℕ} {o : ChebOut}
    (h : chebStep c fuel v = some (o, v')) (ho : o ≠ .ok) :
    v'.st.t = v.st.t ∧ v'.st.yn = v.st.yn ∧ v'.st.fn = v.st.fn := by
  rcases (chebStep_spec hs.ok (hr.inv hs) h).2.1 with ⟨e, -⟩ | ⟨-, -, e, -⟩ | ⟨-, -, e⟩
  · rw [e]; exact ⟨rfl, rfl, rfl⟩
  · exact absurd e ho
  · exact e

/-- **C43**. No exception is raised by a running solver: no undefined attribute is read and the square root of a
negative number is never taken. -/
theorem C43_no_exception {t0 : K} {y0 : V} {first : Option K} (hs : ChebStart c t0 first)
    {v v' : ChebSolver K V} (hr : ChebReach c (newCheb c t0 y0 first) v) (hrun : v.status = .running) {fuel : ℕ}
    {o : ChebOut} (h : chebStep c fuel v = some (o, v')) :
    o = .ok ∨ o = .rhoFailed ∨ o = .overflow ∨ o = .tooSmall := by
  rcases (chebStep_spec hs.ok (hr.inv hs) h).2.1 with ⟨-, ⟨e, -⟩ | ⟨e, -⟩⟩ | ⟨-, -, e, -⟩ | ⟨e, -⟩
  · exact absurd hrun e
  · exact Or.inl e
  · exact Or.inl e
  · exact Or.inr e

/-- **C43**. A retry (a call of the stage routine at the same time as the call before it) starts from the same
solution and uses at most 0.88 times the step of the rejected attempt. -/
theorem C43_retry_shrinks {t0 : K} {y0 : V} {first : Option K} (hs : ChebStart c t0 first)
    {v : ChebSolver K V} (hr : ChebReach c (newCheb c t0 y0 first) v) {q p : StageCall K V}
    {l₁ l₂ : List (StageCall K V)} (hl : v.st.calls = l₁ ++ q :: p :: l₂) (ht : q.t = p.t) :
    q.y = p.y ∧ |q.h| ≤ 22 / 25 * |p.h| := by
  have h := (hr.inv hs).log.chain
  rw [hl] at h
  have h2 := (List.isChain_append.mp h).2.1
  have := (List.isChain_cons_cons.mp h2).1 ht
  exact ⟨this.1, this.2.1⟩

/-- **C43**. Steps are bounded: every attempted step is at most 1.1 times the largest of `max_step`, the
initial minimal step, `first_step` and the minimal steps of the attempts made so far. -/
theorem C43_step_limit {t0 : K} {y0 : V} {first : Option K} (hs : ChebStart c t0 first)
    {v : ChebSolver K V} (hr : ChebReach c (newCheb c t0 y0 first) v) {q : StageCall K V}
    (hq : q ∈ v.st.calls) :
    |q.h| ≤ 11 / 10 * c.maxStep ∨ |q.h| ≤ 11 / 10 * c.hmin0 ∨ (∃ f, first = some f ∧ |q.h| ≤ 11 / 10 * f) ∨
    ∃ p ∈ v.st.calls, |q.h| ≤ 11 / 10 * p.hmin := by
  rcases ((hr.inv hs).log.calls q hq).2 with h | h | ⟨f, h1, h⟩ | ⟨p, h1, h⟩
  · left; linarith
  · right; left; linarith
  · right; right; left; exact ⟨f, h1, by linarith⟩
  · right; right; right; exact ⟨p, h1, by linarith⟩

/-- **C43**. After a successful step the proposed step is positive, at most 10 times the step taken unless it
is the minimal step, and at least a tenth of it unless `max_step` limits it. -/
theorem C43_next_step {t0 : K} {y0 : V} {first : Option K} (hs : ChebStart c t0 first)
    {v v' : ChebSolver K V} (hr : ChebReach c (newCheb c t0 y0 first) v) {fuel : ℕ}
    (h : chebStep c fuel v = some (.ok, v')) (hne : c.tb ≠ some v.st.t) :
    ∃ a m, v'.st.absh = some a ∧ c.sqrtmin ≤ a ∧ 2 ≤ m ∧ m ≤ c.mmax ∧
      a ≤ max (10 * |v'.st.t - v.st.t|) (chebHmin c v.st.t |v'.st.t - v.st.t| m) ∧
      min (|v'.st.t - v.st.t| / 10) c.maxStep ≤ a := by
  rcases (chebStep_spec hs.ok (hr.inv hs) h).2.1 with ⟨-, ⟨-, e, -⟩ | ⟨-, e⟩⟩ | ⟨-, -, -, -, -, q, hq⟩ | ⟨e | e | e, -⟩
  · cases e
  · exact absurd e hne
  · have e1 : v'.st.t - v.st.t = q.h := by rw [hq.t]; ring
    obtain ⟨a, h1, h2, h3, h4⟩ := hq.next
    rw [e1]
    refine ⟨a, q.m, h1, h2, hq.ok.m2, hq.ok.mle, ?_, ?_⟩
    · rcases h3 with h3 | h3
      · exact h3.trans (le_max_left _ _)
      · rw [h3, hq.hmin]; exact le_max_right _ _
    · rcases h4 with h4 | h4
      · exact (min_le_left _ _).trans h4
      · exact (min_le_right _ _).trans h4
  · cases e
  · cases e
  · cases e

theorem chebLoop_returns (hc : ChebOK c) {first : Option K} : ∀ (n : ℕ) (s : ChebSt K V) (a : K),
    ChebInv c first s → Before c s.t → s.absh = some a → (22 / 25 : K) ^ n * a < c.sqrtmin →
    chebLoop c (n + 1) s s.absh ≠ none
  | n, s, a, hi, hb, ha, hn => by
    unfold chebLoop
    rcases chebIter_spec hc hi hb with hr | ⟨s1, a1, hf, hpos, -, hA, -, -, hp⟩
    · rw [hr]; simp
    · obtain rfl := hA a ha
      cases hr : chebIter c s s.absh with
      | done o1 s1' => simp
      | retry s2 a' =>
        dsimp only
        rw [hr] at hp
        obtain ⟨q, h1, h2, h3, h4, h5, h6, h7, h8, h9, -⟩ := hp
        have hb2 : Before c s2.t := by rw [h4, hf.t]; exact hb
        have hle : a' ≤ 22 / 25 * a1 := by linarith
        cases n with
        | zero => rw [pow_zero, one_mul] at hn; linarith
        | succ n =>
          rw [← h7]
          apply chebLoop_returns hc n s2 a' h3 hb2 h7
          refine lt_of_le_of_lt ?_ hn
          rw [pow_succ, mul_assoc]
          exact mul_le_mul_of_nonneg_left hle (by positivity)

/-- **C43**. `step()` returns, for every right-hand side and history. -/
theorem C43_step_returns [Archimedean K] {t0 : K} {y0 : V} {first : Option K} (hs : ChebStart c t0 first)
    {v : ChebSolver K V} (hr : ChebReach c (newCheb c t0 y0 first) v) : ∃ fuel, chebStep c fuel v ≠ none := by
  have hi := hr.inv hs
  have hc := hs.ok
  suffices h : v.status = .running → c.tb ≠ some v.st.t → ∃ fuel, chebLoop c fuel v.st v.st.absh ≠ none by
    by_cases hrun : v.status = .running
    · by_cases htb : c.tb = some v.st.t
      · exact ⟨0, by unfold chebStep; rw [hrun]; dsimp only; rw [if_pos htb]; simp⟩
      · obtain ⟨fuel, hf⟩ := h hrun htb
        refine ⟨fuel, ?_⟩
        unfold chebStep chebStepImpl
        rw [hrun]
        dsimp only
        rw [if_neg htb]
        cases hl : chebLoop c fuel v.st v.st.absh with
        | none => exact absurd hl hf
        | some r => obtain ⟨o, s'⟩ := r; cases o <;> simp
    · refine ⟨0, ?_⟩
      unfold chebStep
      cases hv : v.status with
      | running => exact absurd hv hrun
      | finished => simp
      | failed => simp
  intro hrun htb
  have hinv := hi.run hrun
  have hb := Before.of hc hi htb
  have key : ∀ (s : ChebSt K V) (a : K), ChebInv c first s → Before c s.t → s.absh = some a →
      ∃ fuel, chebLoop c fuel s s.absh ≠ none := by
    intro s a h1 h2 h3
    have ha := h1.absh a h3
    obtain ⟨n, hn⟩ := exists_pow_lt_of_lt_one (div_pos hc.sqrtmin ha) (show (22 / 25 : K) < 1 by norm_num)
    exact ⟨n + 1, chebLoop_returns hc n s a h1 h2 h3 (by rwa [lt_div_iff₀ ha] at hn)⟩
  cases ha : v.st.absh with
  | some a =>
    obtain ⟨fuel, h⟩ := key v.st a hinv hb ha
    exact ⟨fuel, by rw [ha] at h; exact h⟩
  | none =>
    rcases chebIter_spec hc hinv hb with hr' | ⟨s1, a1, hf, hpos, -, hA, -, -, hp⟩
    · rw [ha] at hr'
      exact ⟨1, by unfold chebLoop; rw [hr']; simp⟩
    · rw [ha] at hp
      cases hr' : chebIter c v.st none with
      | done o1 s1' => exact ⟨1, by unfold chebLoop; rw [hr']; simp⟩
      | retry s2 a' =>
        rw [hr'] at hp
        obtain ⟨q, h1, h2, h3, h4, h5, h6, h7, h8, h9, -⟩ := hp
        have hb2 : Before c s2.t := by rw [h4, hf.t]; exact hb
        obtain ⟨fuel, h⟩ := key s2 a' h3 hb2 h7
        refine ⟨fuel + 1, ?_⟩
        unfold chebLoop
        rw [hr']
        dsimp only
        rw [← h7]
        exact h

/-- **C43**. The rejection counter counts the rejected attempts: a successful step that called the stage
routine `k` times adds `k - 1` to it. -/
theorem C43_rejections_counted {t0 : K} {y0 : V} {first : Option K} (hs : ChebStart c t0 first)
    {v v' : ChebSolver K V} (hr : ChebReach c (newCheb c t0 y0 first) v) {fuel : ℕ}
    (h : chebStep c fuel v = some (.ok, v')) (hne : c.tb ≠ some v.st.t) :
    v'.st.nrej + 1 + v.st.calls.length = v.st.nrej + v'.st.calls.length := by
  obtain ⟨-, -, add, h1, -, h3⟩ := chebStep_spec hs.ok (hr.inv hs) h
  have := h3 rfl hne
  rw [h1, List.length_append]
  omega

/-! ## C67 -/

/-- **C67**. The spectral radius used in an attempt is always one that was obtained for this problem: by
`rho_jac` or the power method at some `(estT, estY)`, without `const_jac` at most 24 accepted steps ago, and
with `rho_jac` at the current point. -/
theorem C67_age {t0 : K} {y0 : V} {first : Option K} (hs : ChebStart c t0 first)
    {v : ChebSolver K V} (hr : ChebReach c (newCheb c t0 y0 first) v) {q : StageCall K V}
    (hq : q ∈ v.st.calls) :
    IsEst c q.estT q.estY q.sprad ∧
    (c.constJac = false → q.age ≤ 24 ∧ (c.rhoJac.isSome → q.estT = q.t ∧ q.estY = q.y)) :=
  let h := ((hr.inv hs).log.calls q hq).1
  ⟨h.est, fun hj => ⟨(h.age hj).1, fun hr => h.fresh ((h.age hj).2 hr)⟩⟩

/-- **C67**. A retry after a rejected attempt uses a spectral radius obtained at the current solution, unless
`const_jac` is set. -/
theorem C67_retry_fresh {t0 : K} {y0 : V} {first : Option K} (hs : ChebStart c t0 first)
    (hj : c.constJac = false) {v : ChebSolver K V} (hr : ChebReach c (newCheb c t0 y0 first) v)
    {q p : StageCall K V} {l₁ l₂ : List (StageCall K V)} (hl : v.st.calls = l₁ ++ q :: p :: l₂)
    (ht : q.t = p.t) : IsEst c q.t q.y q.sprad := by
  have h := (hr.inv hs).log.chain
  rw [hl] at h
  have h2 := (List.isChain_append.mp h).2.1
  have h3 := ((List.isChain_cons_cons.mp h2).1 ht).2.2 hj
  have hq := ((hr.inv hs).log.calls q (by rw [hl]; simp)).1
  have := hq.fresh h3
  have h4 := hq.est
  rw [this.1, this.2] at h4
  exact h4

/-- **C67**. With `const_jac=True` the spectral radius is estimated at most once, as long as the solver has not
failed. -/
theorem C67_const_jac_once {t0 : K} {y0 : V} {first : Option K} (hs : ChebStart c t0 first)
    (hj : c.constJac = true) {v : ChebSolver K V} (hr : ChebReach c (newCheb c t0 y0 first) v)
    (hrun : v.status = .running) : v.st.nest ≤ 1 := by
  rcases ((hr.inv hs).run hrun).cj hj with h | h
  · rw [h.2]; norm_num
  · rw [h.2.2]

end
end Extensisq
