import Verif.Model.Driver
import Mathlib.Tactic.Ring
import Mathlib.Tactic.FieldSimp
import Mathlib.Algebra.Order.Archimedean.Basic

/-! Helper lemmas about the driver loop (no property statements here). -/

set_option linter.unusedSectionVars false

namespace Extensisq

/-- What the constructor guarantees about the fixed fields (`common.py:123-148, 166-220`), with the
controller's safety factor at most one (true for all predefined controllers). -/
structure CfgOK {K V W : Type*} [Field K] [LinearOrder K] (c : Cfg K V W) : Prop where
  dir : c.dir = 1 ∨ c.dir = -1
  hMinA : 0 ≤ c.hMinA
  hMinB : 0 < c.hMinB
  tiny : 0 < c.tinyErr
  minF0 : 0 < c.minFactor
  minF1 : c.minFactor < 1
  errExp : c.errExp < 0
  safety0 : 0 < c.safety
  safety1 : c.safety ≤ 1
  safetySc : 0 < c.safetySc
  pw : PowOK c.pw
  maxStep : ∀ m, c.maxStep = some m → 0 < m

section
variable {K V W : Type*} [Field K] [LinearOrder K]

/-- An attempt with error norm `e` is rejected and retried: `e` is the preliminary norm and exceeds
one, or the preliminary test passed and `e` is a finite norm of at least one. -/
inductive Rejected (tr : Trial K V W) : Bool → ENorm K → Prop
  | early (h : tr.pre.gt 1 = true) : Rejected tr true tr.pre
  | late {x : K} (h : tr.pre.gt 1 = false) (he : tr.err = .num x) (hx : 1 ≤ x) :
      Rejected tr false (.num x)

theorem Rejected.early_gt {tr : Trial K V W} {b : Bool} {e : ENorm K} (h : Rejected tr b e)
    (hb : b = true := by rfl) : tr.pre.gt 1 = true := by
  cases h with
  | early h => exact h
  | late h he hx => cases hb

/-- The sequence of rejected attempts of one call. `hs i`, `Ks i`: step size and stage array before
attempt `i`; `early i`, `es i`: kind of rejection and the error norm used; `ns i`, `js i`: evaluations
and increments of `jflstp` so far. -/
structure Chain (c : Cfg K V W) (s : St K V W) (h0 minStep : K) (k : ℕ) where
  hs : ℕ → K
  Ks : ℕ → ℕ → W
  early : ℕ → Bool
  es : ℕ → ENorm K
  ns : ℕ → ℕ
  js : ℕ → ℕ
  h_zero : hs 0 = h0
  Ks_zero : Ks 0 = s.Ks
  ns_zero : ns 0 = 0
  js_zero : js 0 = 0
  rejected : ∀ i, i < k →
    minStep ≤ hs i ∧
    Rejected (c.m.trial s.t s.y s.f (hs i * c.dir) (Ks i)) (early i) (es i) ∧
    hs (i + 1) = hs i * retryFactor c (es i) ∧
    Ks (i + 1) = (if early i then (c.m.trial s.t s.y s.f (hs i * c.dir) (Ks i)).preStages
      else (c.m.trial s.t s.y s.f (hs i * c.dir) (Ks i)).stages) ∧
    ns (i + 1) = ns i + (if early i then c.m.costPre else c.m.cost) ∧
    js (i + 1) = js i + (if early i then (if c.nfevStiff = 0 then 0 else 1) else 1)

/-- State after the `k` rejected attempts of the chain. -/
def Chain.last {c : Cfg K V W} {s : St K V W} {h0 minStep : K} {k : ℕ}
    (ch : Chain c s h0 minStep k) : St K V W :=
  { s with Ks := ch.Ks k, nfev := s.nfev + ch.ns k, nfs := s.nfs + k, jflstp := s.jflstp + ch.js k }

/-- Outcome of the attempt made from step size `h` in state `sk` after `k` rejections. -/
def LastAttempt (c : Cfg K V W) (minStep : K) (rej : Bool) (k : ℕ) (h : K)
    (sk : St K V W) (o : Out) (s' : St K V W) : Prop :=
  let tr := c.m.trial sk.t sk.y sk.f (h * c.dir) sk.Ks
  (h < minStep ∧ o = .fail .tooSmall ∧ s' = sk) ∨
  (minStep ≤ h ∧ tr.pre.gt 1 = false ∧ (tr.err = .inf ∨ tr.err = .nan) ∧ o = .fail .overflow ∧
    s' = { sk with Ks := tr.stages, nfev := sk.nfev + c.m.cost, nfs := sk.nfs + c.m.nfsOverflow,
                   jflstp := sk.jflstp + c.m.nfsOverflow }) ∨
  (∃ x, minStep ≤ h ∧ tr.pre.gt 1 = false ∧ tr.err = .num x ∧ x < 1 ∧
    ((acceptFactor c sk (h * c.dir) x = none ∧ o = .exc .typeErr ∧
        s' = { sk with Ks := tr.stages, nfev := sk.nfev + c.m.cost }) ∨
     (∃ f0 std, acceptFactor c sk (h * c.dir) x = some (f0, std) ∧
       let factor := if (rej || decide (0 < k)) then min 1 f0 else f0
       let s1 := acceptState c sk tr (h * c.dir) (h * factor) x factor std
       ((diagnose c s1 = none ∧ o = .exc .zeroDiv ∧ s' = diagnoseRaise s1) ∨
        (∃ b, diagnose c s1 = some (s', b) ∧ o = .ok)))))

/-- The empty chain. -/
def Chain.nil (c : Cfg K V W) (s : St K V W) (h0 minStep : K) : Chain c s h0 minStep 0 :=
  { hs := fun _ => h0, Ks := fun _ => s.Ks, early := fun _ => false, es := fun _ => .inf,
    ns := fun _ => 0, js := fun _ => 0, h_zero := rfl, Ks_zero := rfl, ns_zero := rfl, js_zero := rfl,
    rejected := fun i hi => absurd hi (Nat.not_lt_zero i) }

theorem Chain.nil_last (c : Cfg K V W) (s : St K V W) (h0 minStep : K) :
    (Chain.nil c s h0 minStep).last = s := by
  simp [Chain.nil, Chain.last]

/-- Prepend a rejected attempt. -/
theorem Chain.cons (c : Cfg K V W) (s : St K V W) {h0 minStep : K} (hge : minStep ≤ h0) {b : Bool}
    {e : ENorm K} {k : ℕ}
    (hr : Rejected (c.m.trial s.t s.y s.f (h0 * c.dir) s.Ks) b e)
    (ch : Chain c { s with
        Ks := (if b then (c.m.trial s.t s.y s.f (h0 * c.dir) s.Ks).preStages
          else (c.m.trial s.t s.y s.f (h0 * c.dir) s.Ks).stages),
        nfev := s.nfev + (if b then c.m.costPre else c.m.cost), nfs := s.nfs + 1,
        jflstp := s.jflstp + (if b then (if c.nfevStiff = 0 then 0 else 1) else 1) }
      (h0 * retryFactor c e) minStep k) :
    ∃ ch' : Chain c s h0 minStep (k + 1), ch'.hs (k + 1) = ch.hs k ∧ ch'.last = ch.last := by
  refine ⟨{ hs := fun i => match i with | 0 => h0 | j + 1 => ch.hs j
            Ks := fun i => match i with | 0 => s.Ks | j + 1 => ch.Ks j
            early := fun i => match i with | 0 => b | j + 1 => ch.early j
            es := fun i => match i with | 0 => e | j + 1 => ch.es j
            ns := fun i => match i with
              | 0 => 0
              | j + 1 => (if b then c.m.costPre else c.m.cost) + ch.ns j
            js := fun i => match i with
              | 0 => 0
              | j + 1 => (if b then (if c.nfevStiff = 0 then 0 else 1) else 1) + ch.js j
            h_zero := rfl
            Ks_zero := rfl
            ns_zero := rfl
            js_zero := rfl
            rejected := ?_ }, rfl, ?_⟩
  · intro i hi
    cases i with
    | zero =>
      refine ⟨hge, hr, ?_, ?_, ?_, ?_⟩
      · simp only [ch.h_zero]
      · simp only [ch.Ks_zero]
      · simp only [ch.ns_zero]; omega
      · simp only [ch.js_zero]; omega
    | succ j =>
      obtain ⟨h1, h2, h3, h4, h5, h6⟩ := ch.rejected j (by omega)
      refine ⟨h1, h2, h3, h4, ?_, ?_⟩
      · simp only [h5]; omega
      · simp only [h6]; omega
  · simp only [Chain.last, St.mk.injEq, true_and]
    refine ⟨by omega, by omega, by omega, trivial⟩

/-- Full characterisation of a returning loop. -/
theorem loop_spec (c : Cfg K V W) (minStep : K) :
    ∀ (n : ℕ) (s : St K V W) (h0 : K) (rej : Bool) (o : Out) (s' : St K V W),
      loop c n s h0 minStep rej = some (o, s') →
      ∃ (k : ℕ) (ch : Chain c s h0 minStep k), k < n ∧
        LastAttempt c minStep rej k (ch.hs k) ch.last o s' := by
  intro n
  induction n with
  | zero => intro s h0 rej o s' h; simp [loop] at h
  | succ n ih =>
    intro s h0 rej o s' h
    unfold loop at h
    have hnh : (Chain.nil c s h0 minStep).hs 0 = h0 := rfl
    by_cases hlt : h0 < minStep
    · simp only [hlt, if_true, Option.some.injEq, Prod.mk.injEq] at h
      refine ⟨0, Chain.nil c s h0 minStep, Nat.succ_pos _, ?_⟩
      rw [hnh, Chain.nil_last]
      exact Or.inl ⟨hlt, h.1.symm, h.2.symm⟩
    · simp only [hlt, if_false] at h
      have hge : minStep ≤ h0 := not_lt.mp hlt
      cases hpre : (c.m.trial s.t s.y s.f (h0 * c.dir) s.Ks).pre.gt 1 with
      | true =>
        simp only [hpre, if_true] at h
        obtain ⟨k, ch, hk, hl⟩ := ih _ _ _ _ _ h
        obtain ⟨ch', e1, e2⟩ := Chain.cons c s hge (Rejected.early hpre) ch
        refine ⟨k + 1, ch', by omega, ?_⟩
        rw [e1, e2]
        unfold LastAttempt at hl ⊢
        simpa using hl
      | false =>
        simp only [hpre, Bool.false_eq_true, if_false] at h
        cases herr : (c.m.trial s.t s.y s.f (h0 * c.dir) s.Ks).err with
        | inf =>
          simp only [herr, Option.some.injEq, Prod.mk.injEq] at h
          refine ⟨0, Chain.nil c s h0 minStep, Nat.succ_pos _, ?_⟩
          rw [hnh, Chain.nil_last]
          exact Or.inr (Or.inl ⟨hge, hpre, Or.inl herr, h.1.symm, h.2.symm⟩)
        | nan =>
          simp only [herr, Option.some.injEq, Prod.mk.injEq] at h
          refine ⟨0, Chain.nil c s h0 minStep, Nat.succ_pos _, ?_⟩
          rw [hnh, Chain.nil_last]
          exact Or.inr (Or.inl ⟨hge, hpre, Or.inr herr, h.1.symm, h.2.symm⟩)
        | num x =>
          simp only [herr] at h
          by_cases hx : x < 1
          · simp only [hx, if_true] at h
            refine ⟨0, Chain.nil c s h0 minStep, Nat.succ_pos _, ?_⟩
            rw [hnh, Chain.nil_last]
            refine Or.inr (Or.inr ⟨x, hge, hpre, herr, hx, ?_⟩)
            cases haf : acceptFactor c s (h0 * c.dir) x with
            | none =>
              simp only [haf, Option.some.injEq, Prod.mk.injEq] at h
              exact Or.inl ⟨rfl, h.1.symm, h.2.symm⟩
            | some p =>
              obtain ⟨f0, std⟩ := p
              simp only [haf] at h
              refine Or.inr ⟨f0, std, rfl, ?_⟩
              simp only [Nat.lt_irrefl, decide_false, Bool.or_false]
              cases hd : diagnose c (acceptState c s (c.m.trial s.t s.y s.f (h0 * c.dir) s.Ks)
                (h0 * c.dir) (h0 * (if rej = true then min 1 f0 else f0)) x
                (if rej = true then min 1 f0 else f0) std) with
              | none =>
                simp only [hd, Option.some.injEq, Prod.mk.injEq] at h
                exact Or.inl ⟨rfl, h.1.symm, h.2.symm⟩
              | some q =>
                obtain ⟨s2, b⟩ := q
                simp only [hd, Option.some.injEq, Prod.mk.injEq] at h
                exact Or.inr ⟨b, by rw [h.2], h.1.symm⟩
          · simp only [hx, if_false] at h
            obtain ⟨k, ch, hk, hl⟩ := ih _ _ _ _ _ h
            obtain ⟨ch', e1, e2⟩ := Chain.cons c s hge
              (Rejected.late hpre herr (not_lt.mp hx)) ch
            refine ⟨k + 1, ch', by omega, ?_⟩
            rw [e1, e2]
            unfold LastAttempt at hl ⊢
            simpa using hl

end

section
variable {K V W : Type*} [Field K] [LinearOrder K] [IsStrictOrderedRing K]

/-- Every retry factor lies in `[min_factor, max min_factor safety]`. -/
theorem retry_factor_le {c : Cfg K V W} (hc : CfgOK c) {e : ENorm K} {tr : Trial K V W} {b : Bool}
    (he : Rejected tr b e) : retryFactor c e ≤ max c.minFactor c.safety := by
  have key : ∀ x : K, 1 ≤ x → retryFactor c (.num x) ≤ max c.minFactor c.safety := by
    intro x hx
    apply max_le_max le_rfl
    have := hc.pw.le_one x c.errExp hx hc.errExp.le
    calc c.safety * c.pw x c.errExp ≤ c.safety * 1 := by
          apply mul_le_mul_of_nonneg_left this hc.safety0.le
      _ = c.safety := mul_one _
  cases he with
  | early h =>
    generalize tr.pre = p at h ⊢
    cases p with
    | num x => exact key x (by simpa [ENorm.gt] using (of_decide_eq_true h).le)
    | inf => exact max_le_max le_rfl hc.safety0.le
    | nan => exact le_max_left _ _
  | late h he hx => exact key _ hx

omit [IsStrictOrderedRing K] in
theorem retry_factor_pos {c : Cfg K V W} (hc : CfgOK c) (e : ENorm K) : 0 < retryFactor c e := by
  cases e with
  | num x => exact lt_max_of_lt_left hc.minF0
  | inf => exact lt_max_of_lt_left hc.minF0
  | nan => exact hc.minF0

omit [IsStrictOrderedRing K] in
theorem shrink_le_one {c : Cfg K V W} (hc : CfgOK c) : max c.minFactor c.safety ≤ 1 :=
  max_le hc.minF1.le hc.safety1

/-- Step sizes along a chain of rejections. -/
theorem Chain.bound {c : Cfg K V W} (hc : CfgOK c) {s : St K V W} {h0 minStep : K} {k : ℕ}
    (hm : 0 < minStep) (ch : Chain c s h0 minStep k) (i : ℕ) (hi : i ≤ k) :
    ch.hs i ≤ h0 * (max c.minFactor c.safety) ^ i := by
  induction i with
  | zero => simp [ch.h_zero]
  | succ i ih =>
    obtain ⟨h1, h2, h4, -⟩ := ch.rejected i (by omega)
    rw [h4, pow_succ, ← mul_assoc]
    have hpos : 0 < ch.hs i := lt_of_lt_of_le hm h1
    calc ch.hs i * retryFactor c (ch.es i)
        ≤ ch.hs i * max c.minFactor c.safety :=
          mul_le_mul_of_nonneg_left (retry_factor_le hc h2) hpos.le
      _ ≤ _ := mul_le_mul_of_nonneg_right (ih (by omega))
          (le_trans hc.minF0.le (le_max_left _ _))

theorem Chain.le {c : Cfg K V W} (hc : CfgOK c) {s : St K V W} {h0 minStep : K} {k : ℕ}
    (hm : 0 < minStep) (ch : Chain c s h0 minStep k) (i : ℕ) (hi : i ≤ k) :
    ch.hs i ≤ h0 := by
  induction i with
  | zero => simp [ch.h_zero]
  | succ i ih =>
    obtain ⟨h1, h2, h4, -⟩ := ch.rejected i (by omega)
    rw [h4]
    have hpos : 0 < ch.hs i := lt_of_lt_of_le hm h1
    have : retryFactor c (ch.es i) ≤ 1 :=
      (retry_factor_le hc h2).trans (shrink_le_one hc)
    calc _ ≤ ch.hs i * 1 := mul_le_mul_of_nonneg_left this hpos.le
      _ ≤ h0 := by rw [mul_one]; exact ih (by omega)

omit [IsStrictOrderedRing K] in
/-- Evaluations spent in a chain: `q` early and `r` late rejections. -/
theorem Chain.counts {c : Cfg K V W} {s : St K V W} {h0 minStep : K} {k : ℕ}
    (ch : Chain c s h0 minStep k) (i : ℕ) (hi : i ≤ k) :
    ∃ q r, q + r = i ∧ ch.ns i = q * c.m.costPre + r * c.m.cost ∧
      ((∀ t y f h Ks, (c.m.trial t y f h Ks).pre.gt 1 = false) → q = 0) := by
  induction i with
  | zero => exact ⟨0, 0, rfl, by rw [ch.ns_zero]; simp, fun _ => rfl⟩
  | succ i ih =>
    obtain ⟨q, r, h1, h2, h3⟩ := ih (by omega)
    obtain ⟨-, hrej, -, -, hn, -⟩ := ch.rejected i (by omega)
    rw [hn]
    cases hb : ch.early i with
    | true =>
      refine ⟨q + 1, r, by omega, by rw [h2]; simp only [if_true]; ring, ?_⟩
      intro hno
      rw [hb] at hrej
      exact absurd hrej.early_gt (by rw [hno]; simp)
    | false =>
      exact ⟨q, r + 1, by omega, by rw [h2]; simp only [Bool.false_eq_true, if_false]; ring, h3⟩

omit [IsStrictOrderedRing K] in
theorem minStep_pos {c : Cfg K V W} (hc : CfgOK c) (t h : K) : 0 < minStepOf c t h :=
  lt_max_of_lt_right hc.hMinB

omit [IsStrictOrderedRing K] in
theorem reassess_minStep (c : Cfg K V W) (s : St K V W) :
    (reassess c s).2.1 = minStepOf c s.t s.hAbs := by
  unfold reassess
  cases c.tb with
  | none => rfl
  | some b => dsimp only; split_ifs <;> rfl

omit [IsStrictOrderedRing K] in
/-- `diagnose` touches the counters only. -/
theorem diagnose_same {c : Cfg K V W} {s s' : St K V W} {b : Bool}
    (h : diagnose c s = some (s', b)) :
    s' = { s with okstp := s'.okstp, havg := s'.havg, jflstp := s'.jflstp,
                  nfevTest := s'.nfevTest } := by
  unfold diagnose at h
  split_ifs at h with h0
  · simp only [Option.some.injEq, Prod.mk.injEq] at h; rw [← h.1]
  · dsimp only at h
    split_ifs at h with h1
    all_goals simp only [Option.some.injEq, Prod.mk.injEq] at h; rw [← h.1]

/-- What every return of `stepImpl` does to the state: either nothing but counters and the work
array, or an accepted step. -/
inductive StepEffect (c : Cfg K V W) (s : St K V W) (o : Out) (s' : St K V W) : Prop
  | none (k : ℕ) (Ks : ℕ → W) (e j : ℕ)
      (ho : o = .fail .tooSmall ∨ o = .fail .overflow ∨ o = .exc .typeErr)
      (hs : s' = { s with stdSc := (reassess c s).2.2, Ks := Ks, nfev := s.nfev + e,
                          nfs := s.nfs + k, jflstp := s.jflstp + j })
  | moved (k : ℕ) (ch : Chain c { s with stdSc := (reassess c s).2.2 } (reassess c s).1
        (reassess c s).2.1 k) (x f0 : K) (std : Bool) (s1 : St K V W)
      (hmin : minStepOf c s.t s.hAbs ≤ ch.hs k)
      (hpre : (c.m.trial s.t s.y s.f (ch.hs k * c.dir) (ch.Ks k)).pre.gt 1 = false)
      (herr : (c.m.trial s.t s.y s.f (ch.hs k * c.dir) (ch.Ks k)).err = .num x) (hx : x < 1)
      (haf : acceptFactor c ch.last (ch.hs k * c.dir) x = some (f0, std))
      (hs1 : s1 = acceptState c ch.last
        (c.m.trial s.t s.y s.f (ch.hs k * c.dir) (ch.Ks k)) (ch.hs k * c.dir)
        (ch.hs k * (if 0 < k then min 1 f0 else f0)) x
        (if 0 < k then min 1 f0 else f0) std)
      (ho : (o = .ok ∧ ∃ b, diagnose c s1 = some (s', b)) ∨
            (o = .exc .zeroDiv ∧ diagnose c s1 = .none ∧ s' = diagnoseRaise s1))

theorem stepImpl_effect {c : Cfg K V W} {fuel : ℕ} {s s' : St K V W} {o : Out}
    (h : stepImpl c fuel s = some (o, s')) : StepEffect c s o s' := by
  unfold stepImpl at h
  obtain ⟨k, ch, hk, hl⟩ := loop_spec c _ _ _ _ _ _ _ h
  have etr : c.m.trial ch.last.t ch.last.y ch.last.f (ch.hs k * c.dir) ch.last.Ks =
      c.m.trial s.t s.y s.f (ch.hs k * c.dir) (ch.Ks k) := rfl
  unfold LastAttempt at hl
  rw [etr] at hl
  rcases hl with ⟨_, h2, h3⟩ | ⟨_, _, _, h2, h3⟩ | ⟨x, h1, hp, h2, h3, h4⟩
  · exact .none k (ch.Ks k) (ch.ns k) (ch.js k) (Or.inl h2) h3
  · refine .none (k + c.m.nfsOverflow)
      (c.m.trial s.t s.y s.f (ch.hs k * c.dir) (ch.Ks k)).stages (ch.ns k + c.m.cost)
      (ch.js k + c.m.nfsOverflow) (Or.inr (Or.inl h2)) ?_
    rw [h3]; simp only [Chain.last, St.mk.injEq, true_and, and_true]
    exact ⟨by omega, by omega, by omega⟩
  · rcases h4 with ⟨_, h5, h6⟩ | ⟨f0, std, h5, h6⟩
    · refine .none k (c.m.trial s.t s.y s.f (ch.hs k * c.dir) (ch.Ks k)).stages
        (ch.ns k + c.m.cost) (ch.js k) (Or.inr (Or.inr h5)) ?_
      rw [h6]; simp only [Chain.last, St.mk.injEq, true_and, and_true]
      omega
    · refine .moved k ch x f0 std _ (by rw [← reassess_minStep]; exact h1) hp h2 h3 h5 rfl ?_
      rcases h6 with ⟨h7, h8, h9⟩ | ⟨b, h7, h8⟩
      · exact Or.inr ⟨h8, by simpa only [Bool.false_or, decide_eq_true_eq] using h7,
          by simpa only [Bool.false_or, decide_eq_true_eq] using h9⟩
      · exact Or.inl ⟨h8, b, by simpa only [Bool.false_or, decide_eq_true_eq] using h7⟩

theorem reassess_le_maxStep {c : Cfg K V W} {s : St K V W} {m : K} (hm : c.maxStep = some m)
    (hp : minStepOf c s.t s.hAbs ≤ m) : (reassess c s).1 ≤ m := by
  have key : (if (decide (s.hAbs < minStepOf c s.t s.hAbs) || overMax c.maxStep s.hAbs) = true then
      capMax c.maxStep (max (minStepOf c s.t s.hAbs) s.hAbs) else s.hAbs) ≤ m := by
    split_ifs with h1
    · rw [hm]; exact min_le_left _ _
    · simp only [hm, overMax, Bool.or_eq_true, decide_eq_true_eq, not_or, not_lt] at h1
      exact h1.2
  unfold reassess
  cases htb : c.tb with
  | none => exact key
  | some b =>
    dsimp only
    generalize (if (decide (s.hAbs < minStepOf c s.t s.hAbs) || overMax c.maxStep s.hAbs) = true
      then capMax c.maxStep (max (minStepOf c s.t s.hAbs) s.hAbs) else s.hAbs) = h1 at key ⊢
    generalize (if (decide (s.hAbs < minStepOf c s.t s.hAbs) || overMax c.maxStep s.hAbs) = true
      then true else s.stdSc) = std1
    split_ifs with ha hb
    · apply max_le _ hp
      linarith
    · dsimp only; linarith [not_lt.mp hb]
    · exact key

/-- The capped step size is at least the minimal step under the proviso. -/
theorem reassess_le_bound {c : Cfg K V W} {s : St K V W} {b : K} (hb : c.tb = some b)
    (hp : ∀ m, c.maxStep = some m → minStepOf c s.t s.hAbs ≤ m) :
    (reassess c s).1 ≤ |b - s.t| := by
  have key : minStepOf c s.t s.hAbs ≤
      (if (decide (s.hAbs < minStepOf c s.t s.hAbs) || overMax c.maxStep s.hAbs) = true then
      capMax c.maxStep (max (minStepOf c s.t s.hAbs) s.hAbs) else s.hAbs) := by
    split_ifs with h1
    · cases hm : c.maxStep with
      | none => exact le_max_left _ _
      | some m => exact le_min (hp m hm) (le_max_left _ _)
    · simp only [Bool.or_eq_true, decide_eq_true_eq, not_or, not_lt] at h1
      exact h1.1
  unfold reassess
  rw [hb]
  dsimp only
  generalize (if (decide (s.hAbs < minStepOf c s.t s.hAbs) || overMax c.maxStep s.hAbs) = true
      then capMax c.maxStep (max (minStepOf c s.t s.hAbs) s.hAbs) else s.hAbs) = h1 at key ⊢
  generalize (if (decide (s.hAbs < minStepOf c s.t s.hAbs) || overMax c.maxStep s.hAbs) = true
      then true else s.stdSc) = std1
  split_ifs with ha hb
  · apply max_le
    · have := abs_nonneg (b - s.t); linarith
    · linarith
  · exact le_rfl
  · have h2 := not_lt.mp ha
    by_cases h0 : 0 ≤ h1
    · dsimp only; linarith
    · have := abs_nonneg (b - s.t); dsimp only; linarith [not_le.mp h0]

/-- Effect on time, for every outcome. -/
theorem stepImpl_time {c : Cfg K V W} (hc : CfgOK c) {fuel : ℕ} {s s' : St K V W} {o : Out}
    (h : stepImpl c fuel s = some (o, s')) :
    (s'.t = s.t ∧ o ≠ .ok) ∨
    (∃ h', minStepOf c s.t s.hAbs ≤ h' ∧ h' ≤ (reassess c s).1 ∧ s'.t = s.t + h' * c.dir) := by
  rcases stepImpl_effect h with ⟨k, Ks, e, j, ho, hs⟩ | ⟨k, ch, x, f0, std, s1, hmin, hpre, herr, hx, haf, hs1, ho⟩
  · left
    refine ⟨by rw [hs], ?_⟩
    rcases ho with h | h | h <;> simp [h]
  · right
    refine ⟨ch.hs k, hmin, ch.le hc ?_ k le_rfl, ?_⟩
    · rw [reassess_minStep]; exact minStep_pos hc _ _
    · have ht : s1.t = s.t + ch.hs k * c.dir := by rw [hs1]; rfl
      rcases ho with ⟨_, b, hd⟩ | ⟨_, _, hd⟩
      · rw [diagnose_same hd]; exact ht
      · rw [hd]; exact ht

end
end Extensisq
