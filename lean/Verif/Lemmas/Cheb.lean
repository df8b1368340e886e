import Verif.Model.Cheb
import Mathlib.Algebra.Order.Floor.Ring
import Mathlib.Algebra.Order.Floor.Semiring
import Mathlib.Tactic.LinearCombination
import Mathlib.Tactic.FieldSimp

/-!
# Invariants of the SSV2stab driver
-/

set_option linter.unusedSectionVars false

namespace Extensisq

/-- What is used of powers with exponents 1/3 and 2/3. -/
structure PowUp {K : Type*} [Field K] [LinearOrder K] (pw : K → K → K) : Prop where
  nonneg : ∀ x e : K, 0 ≤ x → 0 ≤ pw x e
  one_le : ∀ x e : K, 1 ≤ x → 0 ≤ e → 1 ≤ pw x e

/-- The real power function is such a function. -/
theorem PowUp.rpow : PowUp (K := ℝ) (fun x e => x ^ e) where
  nonneg _ e hx := Real.rpow_nonneg hx e
  one_le _ _ hx he := Real.one_le_rpow hx he

theorem PowUp.inv : PowUp pwInv where
  nonneg x e hx := by unfold pwInv; split_ifs <;> positivity
  one_le x e hx he := by
    unfold pwInv
    split_ifs with h1 h2
    · exact le_refl _
    · linarith
    · exact hx

section
variable {K V : Type*} [Field K] [LinearOrder K] [IsStrictOrderedRing K] [FloorSemiring K]
  [AddCommGroup V] [Module K V]

/-- What a constructor guarantees (`sommeijer.py:93-145`), with `rho_jac`, if given, non-negative
everywhere (the constructor checks it at `(t0, y0)` only). -/
structure ChebOK (c : ChebCfg K V) : Prop where
  dir : c.dir = 1 ∨ c.dir = -1
  sqrtmin : 0 < c.sqrtmin
  uround : 0 ≤ c.uround
  mmax : 2 ≤ c.mmax
  maxStep : 0 < c.maxStep
  hmin0 : 0 < c.hmin0
  rhoJac : ∀ r, c.rhoJac = some r → ∀ t y, 0 ≤ r t y
  rho : ∀ t y f v x, (c.rho t y f v).spr = some x → 0 ≤ x
  errNorm : ∀ e y yn x, c.errNorm e y yn = .num x → 0 ≤ x
  sqrt : ∀ x, 0 ≤ c.sqrt x
  pw : PowUp c.pw

/-- `x` is a value of the spectral radius obtained at `(t, y)`: returned by `rho_jac`, or by the power method
started with some vector. -/
def IsEst (c : ChebCfg K V) (t : K) (y : V) (x : K) : Prop :=
  match c.rhoJac with
  | some r => x = r t y
  | none => ∃ vec, (c.rho t y (c.rhs t y) vec).spr = some x

/-- What is known of every call of `_stages`. -/
structure CallOK (c : ChebCfg K V) (q : StageCall K V) : Prop where
  m2 : 2 ≤ q.m
  mle : q.m ≤ c.mmax
  sp : 0 ≤ q.sprad
  stab : 77 / 50 * |q.h| * q.sprad ≤ (q.m : K) ^ 2 - 1
  pos : 0 < c.dir * q.h
  bound : ∀ b, c.tb = some b → c.dir * q.h ≤ c.dir * (b - q.t)
  est : IsEst c q.estT q.estY q.sprad
  age : c.constJac = false → q.age ≤ 24 ∧ (c.rhoJac.isSome → q.age = 0)
  fresh : q.age = 0 → q.estT = q.t ∧ q.estY = q.y

/-- The step size limits of `SSV2stab`: `max_step`, the initial minimal step, `first_step`, or the minimal
step of an earlier attempt. -/
def StepCap (c : ChebCfg K V) (first : Option K) (calls : List (StageCall K V)) (x : K) : Prop :=
  x ≤ c.maxStep ∨ x ≤ c.hmin0 ∨ (∃ f, first = some f ∧ x ≤ f) ∨ ∃ q ∈ calls, x ≤ q.hmin

theorem StepCap.mono {c : ChebCfg K V} {first : Option K} {l l' : List (StageCall K V)} {x x' : K}
    (h : StepCap c first l x) (hx : x' ≤ x) (hl : l ⊆ l') : StepCap c first l' x' := by
  rcases h with h | h | ⟨f, h1, h2⟩ | ⟨q, h1, h2⟩
  · exact Or.inl (hx.trans h)
  · exact Or.inr (Or.inl (hx.trans h))
  · exact Or.inr (Or.inr (Or.inl ⟨f, h1, hx.trans h2⟩))
  · exact Or.inr (Or.inr (Or.inr ⟨q, hl h1, hx.trans h2⟩))

/-- Two successive calls at the same time: the later one (`a`) is a retry; it starts from the same solution
with a step at most 0.88 times as long, and uses a fresh spectral radius. -/
def RetryFresh (c : ChebCfg K V) (a b : StageCall K V) : Prop :=
  a.t = b.t → a.y = b.y ∧ |a.h| ≤ 22 / 25 * |b.h| ∧ (c.constJac = false → a.age = 0)

/-- The invariant of a running solver. -/
structure ChebInv (c : ChebCfg K V) (first : Option K) (s : ChebSt K V) : Prop where
  absh : ∀ a, s.absh = some a → 0 < a
  cap : ∀ a, s.absh = some a → StepCap c first s.calls a
  hold : ∀ h, s.hold = some h → h ≠ 0 ∧ ∃ e, s.errold = some e ∧ 0 ≤ e
  est : s.newspc = false → ∃ sp te ye, s.sprad = some sp ∧ 0 ≤ sp ∧ s.est = some (te, ye) ∧ IsEst c te ye sp
  age : s.newspc = false → c.constJac = false → s.age ≤ s.nstsig ∧ (c.rhoJac.isSome → s.age = 0)
  att : s.jacatt = true → c.constJac = true ∨ s.age = 0
  sig : s.nstsig < 25
  cj : c.constJac = true → (s.newspc = true ∧ s.nest = 0) ∨ (s.newspc = false ∧ s.jacatt = true ∧ s.nest = 1)
  fresh : s.age = 0 → ∀ te ye, s.est = some (te, ye) → te = s.t ∧ ye = s.yn
  fn : s.fn = c.rhs s.t s.yn
  calls : ∀ q ∈ s.calls, CallOK c q ∧ StepCap c first s.calls (10 / 11 * |q.h|)
  chain : s.calls.IsChain (RetryFresh c)
  retry : ∀ b l, s.calls = b :: l → b.t = s.t → b.y = s.yn ∧ (∃ a, s.absh = some a ∧ a ≤ 4 / 5 * |b.h|) ∧
    (s.newspc = true ∨ s.age = 0 ∨ c.constJac = true)

/-! ### Number of stages -/

theorem chebM_ge (a sp : K) (ha : 0 ≤ a) (hs : 0 ≤ sp) : 2 ≤ chebM a sp := by
  unfold chebM
  have h1 : 1 ≤ ⌊77 / 50 * a * sp + 1⌋₊ := by
    rw [Nat.one_le_floor_iff]
    have : 0 ≤ 77 / 50 * a * sp := by positivity
    linarith
  have : 1 ≤ Nat.sqrt ⌊77 / 50 * a * sp + 1⌋₊ := by
    rw [Nat.le_sqrt]; omega
  omega

theorem chebM_stab (a sp : K) (ha : 0 ≤ a) (hs : 0 ≤ sp) :
    77 / 50 * a * sp ≤ ((chebM a sp : ℕ) : K) ^ 2 - 1 := by
  unfold chebM
  set x := 77 / 50 * a * sp + 1 with hx
  have h0 : 0 ≤ 77 / 50 * a * sp := by positivity
  have h1 : ⌊x⌋₊ < (1 + Nat.sqrt ⌊x⌋₊) ^ 2 := by
    have := Nat.lt_succ_sqrt ⌊x⌋₊
    nlinarith
  have h2 : x < (⌊x⌋₊ : K) + 1 := Nat.lt_floor_add_one x
  have h3 : (⌊x⌋₊ : K) + 1 ≤ ((1 + Nat.sqrt ⌊x⌋₊ : ℕ) : K) ^ 2 := by exact_mod_cast h1
  linarith

theorem chebM_cut (a sp : K) (ha : 0 ≤ a) (hs : 0 ≤ sp) {mm : ℕ} (hm : 2 ≤ mm) (h : mm < chebM a sp) :
    0 < sp ∧ ((mm : K) ^ 2 - 1) / (77 / 50 * sp) ≤ a := by
  unfold chebM at h
  set x := 77 / 50 * a * sp + 1 with hx
  have h1 : mm ≤ Nat.sqrt ⌊x⌋₊ := by omega
  rw [Nat.le_sqrt] at h1
  have hx0 : 0 ≤ x := by have : 0 ≤ 77 / 50 * a * sp := by positivity
                         linarith
  have h2 : ((mm * mm : ℕ) : K) ≤ x := (Nat.le_floor_iff hx0).mp h1
  have hmm : (2 : K) ≤ mm := by exact_mod_cast hm
  push_cast at h2
  have hsp : 0 < sp := by
    rcases hs.lt_or_eq with h | h
    · exact h
    · exfalso
      rw [← h] at hx
      nlinarith
  refine ⟨hsp, ?_⟩
  rw [div_le_iff₀ (by positivity)]
  nlinarith

/-- What the choice of step size and stage number guarantees (`sommeijer.py:192-197`). -/
theorem chebChoose_spec {mm : ℕ} (hm : 2 ≤ mm) {a sp : K} (ha : 0 < a) (hs : 0 ≤ sp) :
    2 ≤ (chebChoose mm a sp).2 ∧ (chebChoose mm a sp).2 ≤ mm ∧ 0 < (chebChoose mm a sp).1 ∧
    (chebChoose mm a sp).1 ≤ a ∧
    77 / 50 * (chebChoose mm a sp).1 * sp ≤ ((chebChoose mm a sp).2 : K) ^ 2 - 1 := by
  unfold chebChoose
  split_ifs with h
  · obtain ⟨h1, h2⟩ := chebM_cut a sp ha.le hs hm h
    have hmm : (2 : K) ≤ mm := by exact_mod_cast hm
    refine ⟨hm, le_refl _, by apply div_pos <;> nlinarith, h2, ?_⟩
    apply le_of_eq
    dsimp only
    have : sp ≠ 0 := h1.ne'
    field_simp
  · exact ⟨chebM_ge a sp ha.le hs, not_lt.mp h, ha, le_refl _, chebM_stab a sp ha.le hs⟩

theorem chebFit_spec {c : ChebCfg K V} (hc : ChebOK c) {t a : K} (ha : 0 < a)
    (hb : ∀ b, c.tb = some b → 0 < c.dir * (b - t)) :
    0 < chebFit c.tb t a ∧ chebFit c.tb t a ≤ 11 / 10 * a ∧
    ∀ b, c.tb = some b → chebFit c.tb t a ≤ c.dir * (b - t) := by
  unfold chebFit
  cases htb : c.tb with
  | none => exact ⟨ha, by dsimp only; linarith, fun b h => by simp at h⟩
  | some b =>
    have h0 := hb b htb
    have e : |b - t| = c.dir * (b - t) := by
      rcases hc.dir with hd | hd <;> rw [hd] at h0 ⊢
      · rw [abs_of_nonneg (by linarith)]; ring
      · rw [abs_of_nonpos (by linarith)]; ring
    dsimp only
    rw [e]
    split_ifs with h
    · exact ⟨h0, h, fun b' hb' => by cases hb'; exact le_refl _⟩
    · refine ⟨ha, by linarith, fun b' hb' => ?_⟩
      cases hb'
      push Not at h
      linarith

theorem chebInit_spec {c : ChebCfg K V} (hc : ChebOK c) (t : K) (yn fn : V) (sp : K) :
    0 < chebInit c t yn fn sp ∧ (chebInit c t yn fn sp ≤ c.maxStep ∨ chebInit c t yn fn sp ≤ c.hmin0) := by
  unfold chebInit
  dsimp only
  set a2 := max (if sp * c.maxStep > 1 then 1 / sp else c.maxStep) c.hmin0 with ha2
  have h2 : 0 < a2 := lt_of_lt_of_le hc.hmin0 (le_max_right _ _)
  split
  · rename_i e _
    split_ifs with h
    · refine ⟨lt_of_lt_of_le hc.hmin0 (le_max_right _ _), ?_⟩
      rcases le_total (1 / 10 * a2 / c.sqrt e) c.hmin0 with h' | h'
      · right; rw [max_eq_right h']
      · left
        rw [max_eq_left h']
        have hs : 0 < c.sqrt e := by
          rcases (hc.sqrt e).lt_or_eq with q | q
          · exact q
          · rw [← q] at h; linarith
        rw [div_le_iff₀ hs]; exact h.le
    · exact ⟨hc.maxStep, Or.inl le_rfl⟩
  · exact ⟨hc.hmin0, Or.inr le_rfl⟩
  · exact ⟨hc.maxStep, Or.inl le_rfl⟩

theorem chebHmin_pos {c : ChebCfg K V} (hc : ChebOK c) (t a : K) (m : ℕ) : 0 < chebHmin c t a m :=
  lt_of_lt_of_le hc.sqrtmin (le_max_left _ _)

theorem cheb_dir_sq {c : ChebCfg K V} (hc : ChebOK c) : c.dir * c.dir = 1 := by
  rcases hc.dir with h | h <;> rw [h] <;> norm_num

theorem cheb_abs_dir {c : ChebCfg K V} (hc : ChebOK c) {a : K} (ha : 0 < a) : |c.dir * a| = a := by
  rcases hc.dir with h | h <;> rw [h]
  · rw [one_mul, abs_of_pos ha]
  · rw [neg_one_mul, abs_neg, abs_of_pos ha]

/-- A rejected attempt leads to a step at most 0.8 times as long. -/
theorem cheb_retry_le {c : ChebCfg K V} (hc : ChebOK c) {a x : K} (ha : 0 < a) (hx : 1 ≤ x) :
    4 / 5 * a / c.pw x (1 / 3) ≤ 4 / 5 * a := by
  have := hc.pw.one_le x (1 / 3) hx (by norm_num)
  exact div_le_self (by positivity) this

theorem chebFac_some {c : ChebCfg K V} {first : Option K} {s : ChebSt K V} (hi : ChebInv c first s) (a x : K) :
    ∃ f, chebFac c s a x = some f := by
  unfold chebFac
  cases hh : s.hold with
  | none => exact ⟨_, rfl⟩
  | some hp =>
    obtain ⟨-, e, he, -⟩ := hi.hold hp hh
    simp only [he]
    exact ⟨_, rfl⟩

/-- The factor is never above 10. -/
theorem chebFac_le {c : ChebCfg K V} (hc : ChebOK c) {first : Option K} {s : ChebSt K V}
    (hi : ChebInv c first s) {a x f : K} (ha : 0 < a) (hx : 0 ≤ x) (h : chebFac c s a x = some f) :
    0 ≤ f ∧ f ≤ 10 := by
  unfold chebFac at h
  have h3 := hc.pw.nonneg x (1 / 3) hx
  have h23 := hc.pw.nonneg x (2 / 3) hx
  split at h
  · cases h
    split_ifs with hlt
    · have hp : 0 < c.pw x (1 / 3) := by
        rcases h3.lt_or_eq with q | q
        · exact q
        · rw [← q] at hlt; norm_num at hlt
      exact ⟨by positivity, by rw [div_le_iff₀ hp]; exact hlt.le⟩
    · norm_num
  · rename_i hp hh
    obtain ⟨hne, e, he, he0⟩ := hi.hold hp hh
    simp only [he] at h
    cases h
    have h4 := hc.pw.nonneg e (1 / 3) he0
    split_ifs with hlt
    · have hq : 0 < |hp| * c.pw x (2 / 3) := by
        have h0 : 0 ≤ 4 / 5 * a * c.pw e (1 / 3) := by positivity
        have : 0 ≤ |hp| * c.pw x (2 / 3) := by positivity
        rcases this.lt_or_eq with q | q
        · exact q
        · rw [← q] at hlt; linarith
      exact ⟨by positivity, by rw [div_le_iff₀ hq]; exact hlt.le⟩
    · norm_num

/-! ### One pass -/

/-- What holds between the estimation of the spectral radius and the error test. -/
structure ChebMid (c : ChebCfg K V) (first : Option K) (s : ChebSt K V) (sp : K) : Prop where
  absh : ∀ a, s.absh = some a → 0 < a
  cap : ∀ a, s.absh = some a → StepCap c first s.calls a
  hold : ∀ h, s.hold = some h → h ≠ 0 ∧ ∃ e, s.errold = some e ∧ 0 ≤ e
  sprad : s.sprad = some sp
  nonneg : 0 ≤ sp
  est : ∃ te ye, s.est = some (te, ye) ∧ IsEst c te ye sp
  age : c.constJac = false → s.age ≤ s.nstsig ∧ (c.rhoJac.isSome → s.age = 0)
  att : s.jacatt = true → c.constJac = true ∨ s.age = 0
  sig : s.nstsig < 25
  cj : c.constJac = true → s.jacatt = true ∧ s.nest = 1
  fresh : s.age = 0 → ∀ te ye, s.est = some (te, ye) → te = s.t ∧ ye = s.yn
  fn : s.fn = c.rhs s.t s.yn
  calls : ∀ q ∈ s.calls, CallOK c q ∧ StepCap c first s.calls (10 / 11 * |q.h|)
  chain : s.calls.IsChain (RetryFresh c)
  retry : ∀ b l, s.calls = b :: l → b.t = s.t → b.y = s.yn ∧ (∃ a, s.absh = some a ∧ a ≤ 4 / 5 * |b.h|) ∧
    (s.age = 0 ∨ c.constJac = true)

/-- Fields which the estimation does not touch. -/
structure ChebFrame (s s1 : ChebSt K V) : Prop where
  t : s1.t = s.t
  yn : s1.yn = s.yn
  fn : s1.fn = s.fn
  prev : s1.prev = s.prev
  calls : s1.calls = s.calls
  absh : s1.absh = s.absh
  nrej : s1.nrej = s.nrej
  hold : s1.hold = s.hold
  errold : s1.errold = s.errold

theorem chebSpectral_spec {c : ChebCfg K V} (hc : ChebOK c) {first : Option K} {s s1 : ChebSt K V}
    (hi : ChebInv c first s) (h : chebSpectral c s = some s1) :
    ∃ sp, ChebMid c first s1 sp ∧ ChebFrame s s1 ∧ s1.nfev = s.nfev ∧
      (s.newspc = true → s1.est = some (s.t, s.yn)) ∧ (s.newspc = false → s1 = s) := by
  unfold chebSpectral at h
  split_ifs at h with hn
  · have hcj : c.constJac = true → s.nest = 0 := fun hj => by
      rcases hi.cj hj with q | q
      · exact q.2
      · rw [hn] at q; exact absurd q.1 (by simp)
    split at h
    · rename_i r hr
      cases h
      refine ⟨r s.t s.yn, ⟨hi.absh, hi.cap, hi.hold, rfl, hc.rhoJac r hr _ _, ⟨s.t, s.yn, rfl, ?_⟩,
        fun _ => ⟨Nat.zero_le _, fun _ => rfl⟩, fun _ => Or.inr rfl, hi.sig,
        fun hj => ⟨rfl, by dsimp only; rw [hcj hj]⟩, fun _ te ye he => ?_, hi.fn, hi.calls, hi.chain,
        fun b l hb ht => ⟨(hi.retry b l hb ht).1, (hi.retry b l hb ht).2.1, Or.inl rfl⟩⟩, ⟨rfl, rfl, rfl, rfl, rfl, rfl, rfl, rfl, rfl⟩, rfl, fun _ => rfl,
        fun h => absurd hn (by simp [h])⟩
      · unfold IsEst; rw [hr]
      · cases he; exact ⟨rfl, rfl⟩
    · rename_i hr
      split at h
      · cases h
      · rename_i x hx
        cases h
        refine ⟨x, ⟨hi.absh, hi.cap, hi.hold, rfl, hc.rho _ _ _ _ _ hx, ⟨s.t, s.yn, rfl, ?_⟩,
          fun _ => ⟨Nat.zero_le _, fun _ => rfl⟩, fun _ => Or.inr rfl, hi.sig,
          fun hj => ⟨rfl, by dsimp only; rw [hcj hj]⟩, fun _ te ye he => ?_, hi.fn, hi.calls, hi.chain,
          fun b l hb ht => ⟨(hi.retry b l hb ht).1, (hi.retry b l hb ht).2.1, Or.inl rfl⟩⟩, ⟨rfl, rfl, rfl, rfl, rfl, rfl, rfl, rfl, rfl⟩, rfl, fun _ => rfl,
          fun h => absurd hn (by simp [h])⟩
        · unfold IsEst; rw [hr]; exact ⟨s.vec, by rw [← hi.fn]; exact hx⟩
        · cases he; exact ⟨rfl, rfl⟩
  · cases h
    have hn' : s.newspc = false := by simpa using hn
    obtain ⟨sp, te, ye, h1, h2, h3, h4⟩ := hi.est hn'
    refine ⟨sp, ⟨hi.absh, hi.cap, hi.hold, h1, h2, ⟨te, ye, h3, h4⟩, hi.age hn', hi.att, hi.sig,
      fun hj => ?_, hi.fresh, hi.fn, hi.calls, hi.chain, fun b l hb ht => ?_⟩,
      ⟨rfl, rfl, rfl, rfl, rfl, rfl, rfl, rfl, rfl⟩, rfl, fun h => absurd hn' (by simp [h]), fun _ => rfl⟩
    · rcases hi.cj hj with q | q
      · rw [hn'] at q; exact absurd q.1 (by simp)
      · exact q.2
    · obtain ⟨r1, r2, q | q⟩ := hi.retry b l hb ht
      · rw [hn'] at q; exact absurd q (by simp)
      · exact ⟨r1, r2, q⟩

/-- What holds of the list of all calls of `_stages`. -/
structure ChebLog (c : ChebCfg K V) (first : Option K) (l : List (StageCall K V)) : Prop where
  calls : ∀ q ∈ l, CallOK c q ∧ StepCap c first l (10 / 11 * |q.h|)
  chain : l.IsChain (RetryFresh c)

/-- Result of a pass from a good state with the call `q` of `_stages`. -/
structure PassOK (c : ChebCfg K V) (first : Option K) (s : ChebSt K V) (s' : ChebSt K V)
    (q : StageCall K V) : Prop where
  calls : s'.calls = q :: s.calls
  qt : q.t = s.t
  qy : q.y = s.yn
  ok : CallOK c q
  sprad : s.sprad = some q.sprad
  hmin : q.hmin = chebHmin c s.t |q.h| q.m
  log : ChebLog c first s'.calls

/-- The error norm of an attempt `q` from state `s`. -/
def attemptErr (c : ChebCfg K V) (s : ChebSt K V) (h : K) (m : ℕ) : ENorm K :=
  c.errNorm ((4 / 5 : K) • (s.yn - c.stg s.t s.yn s.fn h m)
    + (2 / 5 * h) • (s.fn + c.rhs (s.t + h) (c.stg s.t s.yn s.fn h m))) (c.stg s.t s.yn s.fn h m) s.yn

/-- What a pass does. -/
def PassSpec (c : ChebCfg K V) (first : Option K) (s : ChebSt K V) (a : K) : ChebIter K V → Prop
  | .retry s' a' => ∃ q, PassOK c first s s' q ∧ |q.h| ≤ a ∧ ChebInv c first s' ∧ s'.t = s.t ∧ s'.yn = s.yn ∧
      s'.fn = s.fn ∧ s'.absh = some a' ∧ c.sqrtmin ≤ a' ∧ a' ≤ 4 / 5 * |q.h| ∧ s'.nrej = s.nrej + 1 ∧
      ∃ x, attemptErr c s q.h q.m = .num x ∧ 1 ≤ x
  | .done .ok s' => ∃ q, PassOK c first s s' q ∧ |q.h| ≤ a ∧ ChebInv c first s' ∧ s'.t = s.t + q.h ∧
      s'.yn = c.stg s.t s.yn s.fn q.h q.m ∧ s'.prev = some (s.yn, s.fn) ∧ s'.nrej = s.nrej ∧
      (∃ x, attemptErr c s q.h q.m = .num x ∧ 0 ≤ x ∧ x < 1) ∧
      ∃ a', s'.absh = some a' ∧ c.sqrtmin ≤ a' ∧ (a' ≤ 10 * |q.h| ∨ a' = q.hmin) ∧
        (|q.h| / 10 ≤ a' ∨ c.maxStep ≤ a')
  | .done o s' => (o = .overflow ∨ o = .tooSmall) ∧ ∃ q, PassOK c first s s' q ∧ |q.h| ≤ a ∧ s'.t = s.t ∧
      s'.yn = s.yn ∧ s'.fn = s.fn ∧
      (o = .overflow → ∀ x, attemptErr c s q.h q.m ≠ .num x) ∧
      (o = .tooSmall → ∃ x, attemptErr c s q.h q.m = .num x ∧ 1 ≤ x)

theorem chebAttempt_spec {c : ChebCfg K V} (hc : ChebOK c) {first : Option K} {s : ChebSt K V} {sp a : K}
    {m : ℕ} (hi : ChebMid c first s sp) (ha : 0 < a) (hm2 : 2 ≤ m) (hm : m ≤ c.mmax)
    (hstab : 77 / 50 * a * sp ≤ (m : K) ^ 2 - 1)
    (hbd : ∀ b, c.tb = some b → a ≤ c.dir * (b - s.t))
    (hcap : StepCap c first s.calls (10 / 11 * a)) (hsh : ∀ A, s.absh = some A → a ≤ 11 / 10 * A) :
    PassSpec c first s a (chebAttempt c s a sp m) := by
  obtain ⟨te, ye, hest, hE⟩ := hi.est
  have hpos : 0 < c.dir * (c.dir * a) := by rw [← mul_assoc, cheb_dir_sq hc, one_mul]; exact ha
  have habs := cheb_abs_dir hc ha
  unfold chebAttempt
  dsimp only
  rw [hest]
  dsimp only [Option.map_some, Option.getD_some]
  set q : StageCall K V := ⟨s.t, s.yn, c.dir * a, m, sp, chebHmin c s.t a m, te, ye, s.age⟩ with hq
  have hage : c.constJac = false → s.age ≤ 24 ∧ (c.rhoJac.isSome → s.age = 0) := fun hj => by
    have := hi.age hj; have := hi.sig; exact ⟨by omega, (hi.age hj).2⟩
  have hqok : CallOK c q := by
    refine ⟨hm2, hm, hi.nonneg, by rw [hq]; dsimp only; rw [habs]; exact hstab, hpos, fun b hb => ?_, hE, hage,
      fun h0 => hi.fresh h0 te ye hest⟩
    have : c.dir * (c.dir * a) = a := by rw [← mul_assoc, cheb_dir_sq hc, one_mul]
    rw [hq]; dsimp only; rw [this]; exact hbd b hb
  have hqh : |q.h| = a := habs
  have hcalls : ∀ r ∈ q :: s.calls, CallOK c r ∧ StepCap c first (q :: s.calls) (10 / 11 * |r.h|) := by
    intro r hr
    rcases List.mem_cons.mp hr with rfl | hr
    · exact ⟨hqok, hcap.mono (by rw [hqh]) (List.subset_cons_self _ _)⟩
    · exact ⟨(hi.calls r hr).1, (hi.calls r hr).2.mono le_rfl (List.subset_cons_self _ _)⟩
  have hchain : (q :: s.calls).IsChain (RetryFresh c) := by
    cases hl : s.calls with
    | nil => exact List.isChain_singleton _
    | cons b l =>
      rw [List.isChain_cons_cons]
      refine ⟨fun ht => ?_, by rw [← hl]; exact hi.chain⟩
      obtain ⟨r1, ⟨A, r2, r3⟩, r4⟩ := hi.retry b l hl ht.symm
      refine ⟨r1.symm, ?_, fun hj => ?_⟩
      · rw [hqh]; have := hsh A r2; linarith
      · rcases r4 with h | h
        · exact h
        · rw [hj] at h; exact absurd h (by simp)
  have hpass : ∀ s' : ChebSt K V, s'.calls = q :: s.calls → PassOK c first s s' q := fun s' h =>
    ⟨h, rfl, rfl, hqok, hi.sprad, by rw [hqh], by rw [h]; exact ⟨hcalls, hchain⟩⟩
  have herr : attemptErr c s q.h q.m = c.errNorm ((4 / 5 : K) • (s.yn - c.stg s.t s.yn s.fn (c.dir * a) m)
      + (2 / 5 * (c.dir * a)) • (s.fn + c.rhs (s.t + c.dir * a) (c.stg s.t s.yn s.fn (c.dir * a) m)))
      (c.stg s.t s.yn s.fn (c.dir * a) m) s.yn := rfl
  rw [← herr]
  have hcj25 := hi.sig
  cases he : attemptErr c s q.h q.m with
  | num x =>
    dsimp only
    have hx0 : 0 ≤ x := hc.errNorm _ _ _ _ he
    split_ifs with h1 h2
    · have hex : ∃ f, chebFac c s a x = some f := by
        unfold chebFac
        cases hh : s.hold with
        | none => exact ⟨_, rfl⟩
        | some hp =>
          obtain ⟨-, e, he, -⟩ := hi.hold hp hh
          simp only [he]
          exact ⟨_, rfl⟩
      obtain ⟨f, hf⟩ := hex
      rw [hf]
      dsimp only
      have hfb : 0 ≤ f ∧ f ≤ 10 := by
        unfold chebFac at hf
        have h3 := hc.pw.nonneg x (1 / 3) hx0
        have h23 := hc.pw.nonneg x (2 / 3) hx0
        split at hf
        · cases hf
          split_ifs with hlt
          · have hp : 0 < c.pw x (1 / 3) := by
              rcases h3.lt_or_eq with q | q
              · exact q
              · rw [← q] at hlt; norm_num at hlt
            exact ⟨by positivity, by rw [div_le_iff₀ hp]; exact hlt.le⟩
          · norm_num
        · rename_i hp hh
          obtain ⟨hne, e, he, he0⟩ := hi.hold hp hh
          simp only [he] at hf
          cases hf
          have h4 := hc.pw.nonneg e (1 / 3) he0
          split_ifs with hlt
          · have hq : 0 < |hp| * c.pw x (2 / 3) := by
              have h0 : 0 ≤ 4 / 5 * a * c.pw e (1 / 3) := by positivity
              have : 0 ≤ |hp| * c.pw x (2 / 3) := by positivity
              rcases this.lt_or_eq with q | q
              · exact q
              · rw [← q] at hlt; linarith
            exact ⟨by positivity, by rw [div_le_iff₀ hq]; exact hlt.le⟩
          · norm_num
      have hmp := chebHmin_pos hc s.t a m
      set a' := max (chebHmin c s.t a m) (min c.maxStep (max (1 / 10) f * a)) with ha'
      refine ⟨q, hpass _ rfl, hqh.le, ⟨?_, ?_, ?_, ?_, ?_, ?_, ?_, ?_, ?_, rfl, hcalls, hchain, ?_⟩, rfl, rfl, rfl,
        rfl, ⟨x, he, hx0, h1⟩, a', rfl, (le_max_left _ _).trans (le_max_left _ _), ?_, ?_⟩
      · intro b hb; cases hb; exact lt_of_lt_of_le hmp (le_max_left _ _)
      · intro b hb; cases hb
        show StepCap c first (q :: s.calls) a'
        rcases le_total (chebHmin c s.t a m) (min c.maxStep (max (1 / 10) f * a)) with h | h
        · left; rw [ha', max_eq_right h]; exact min_le_left _ _
        · right; right; right
          exact ⟨q, List.mem_cons_self, by rw [ha', max_eq_left h]⟩
      · intro b hb; cases hb
        refine ⟨fun h => ?_, x, rfl, hx0⟩
        rw [h, mul_zero] at hpos; exact lt_irrefl _ hpos
      · intro _; exact ⟨sp, te, ye, hi.sprad, hi.nonneg, rfl, hE⟩
      · intro hn hj
        simp only [chebAccept, hj, Bool.not_false, Bool.and_true, Bool.or_eq_false_iff, decide_eq_false_iff_not] at hn ⊢
        have h1 := (hi.age hj).1
        have h2 := hn.2
        refine ⟨by omega, fun h => ?_⟩
        rw [hn.1] at h; exact absurd h (by simp)
      · intro h; exact Or.inl h
      · exact Nat.mod_lt _ (by norm_num)
      · intro hj
        right
        simp only [chebAccept, hj, Bool.not_true, Bool.and_false, true_and]
        exact (hi.cj hj).2
      · intro h; exact absurd h (Nat.succ_ne_zero _)
      · intro b l hb ht
        exfalso
        have : q = b := (List.cons.inj hb).1
        rw [← this] at ht
        have h0 : c.dir * a = 0 := by
          have : s.t = s.t + c.dir * a := ht
          linarith
        rw [h0, mul_zero] at hpos
        exact lt_irrefl _ hpos
      · rw [hqh]
        rcases le_total (chebHmin c s.t a m) (min c.maxStep (max (1 / 10) f * a)) with h | h
        · left; rw [ha', max_eq_right h]
          refine (min_le_right _ _).trans (mul_le_mul_of_nonneg_right (max_le (by norm_num) hfb.2) ha.le)
        · right; rw [ha', max_eq_left h]
      · rw [hqh]
        rcases le_total c.maxStep (max (1 / 10) f * a) with h | h
        · right; rw [ha', min_eq_left h]; exact le_max_right _ _
        · left
          rw [ha', min_eq_right h]
          refine le_trans ?_ (le_max_right _ _)
          rw [div_eq_mul_inv, mul_comm]
          exact mul_le_mul_of_nonneg_right (by rw [← one_div]; exact le_max_left _ _) ha.le
    · push Not at h1
      exact ⟨Or.inr rfl, q, hpass _ rfl, hqh.le, rfl, rfl, rfl, (fun h => by cases h), fun _ => ⟨x, he, h1⟩⟩
    · push Not at h1 h2
      have hle := cheb_retry_le hc ha h1
      have hsm : c.sqrtmin ≤ 4 / 5 * a / c.pw x (1 / 3) := (le_max_left _ _).trans h2
      refine ⟨q, hpass _ rfl, hqh.le, ⟨?_, ?_, hi.hold, ?_, ?_, ?_, hcj25, ?_, (fun h te ye he' => hi.fresh h te ye (hest.trans he')), hi.fn, hcalls, hchain, ?_⟩,
        rfl, rfl, rfl, rfl, hsm, by rw [hqh]; exact hle, rfl, x, he, h1⟩
      · intro b hb; cases hb; exact lt_of_lt_of_le hc.sqrtmin hsm
      · intro b hb; cases hb
        exact hcap.mono (hle.trans (by linarith)) (List.subset_cons_self _ _)
      · intro _; exact ⟨sp, te, ye, hi.sprad, hi.nonneg, rfl, hE⟩
      · intro _ hj; exact hi.age hj
      · exact hi.att
      · intro hj; right
        have := hi.cj hj
        exact ⟨by simp [this.1], this⟩
      · intro b l hb ht
        have hbq : q = b := (List.cons.inj hb).1
        refine ⟨by rw [← hbq], ⟨_, rfl, by rw [← hbq, hqh]; exact hle⟩, ?_⟩
        cases hj : s.jacatt with
        | false => left; simp
        | true => right; exact (hi.att hj).symm
  | inf =>
    exact ⟨Or.inl rfl, q, hpass _ rfl, hqh.le, rfl, rfl, rfl, (fun _ x h => by rw [he] at h; cases h),
      (fun h => by cases h)⟩
  | nan =>
    exact ⟨Or.inl rfl, q, hpass _ rfl, hqh.le, rfl, rfl, rfl, (fun _ x h => by rw [he] at h; cases h),
      (fun h => by cases h)⟩

/-- The state is strictly before `t_bound`. -/
def Before (c : ChebCfg K V) (t : K) : Prop := ∀ b, c.tb = some b → 0 < c.dir * (b - t)

theorem ChebMid.congr {c : ChebCfg K V} {first : Option K} {s : ChebSt K V} {sp : K}
    (h : ChebMid c first s sp) (n ml w : ℕ) :
    ChebMid c first { s with nfev := n, mlim := ml, warned := w } sp :=
  ⟨h.absh, h.cap, h.hold, h.sprad, h.nonneg, h.est, h.age, h.att, h.sig, h.cj, h.fresh, h.fn, h.calls, h.chain,
    h.retry⟩

theorem PassSpec.congr {c : ChebCfg K V} {first : Option K} {s : ChebSt K V} {a a' : K} (haa : a ≤ a') {n ml w : ℕ}
    {r : ChebIter K V} (h : PassSpec c first { s with nfev := n, mlim := ml, warned := w } a r) :
    PassSpec c first s a' r := by
  have conv : ∀ {s' : ChebSt K V} {q : StageCall K V},
      PassOK c first { s with nfev := n, mlim := ml, warned := w } s' q → PassOK c first s s' q :=
    fun h => ⟨h.calls, h.qt, h.qy, h.ok, h.sprad, h.hmin, h.log⟩
  cases r with
  | retry s' a1 =>
    obtain ⟨q, h1, h2, h3⟩ := h
    exact ⟨q, conv h1, h2.trans haa, h3⟩
  | done o s' =>
    cases o
    case ok => obtain ⟨q, h1, h2, h3⟩ := h; exact ⟨q, conv h1, h2.trans haa, h3⟩
    all_goals
      obtain ⟨h0, q, h1, h2, h3⟩ := h; exact ⟨h0, q, conv h1, h2.trans haa, h3⟩

theorem chebTry_spec {c : ChebCfg K V} (hc : ChebOK c) {first : Option K} {s : ChebSt K V} {sp a : K}
    (hi : ChebMid c first s sp) (ha : 0 < a) (hb : Before c s.t) (hcap : StepCap c first s.calls a)
    (hsh : ∀ A, s.absh = some A → a ≤ A) :
    PassSpec c first s (11 / 10 * a) (chebTry c s a sp) := by
  obtain ⟨f1, f2, f3⟩ := chebFit_spec hc ha hb
  obtain ⟨g1, g2, g3, g4, g5⟩ := chebChoose_spec hc.mmax f1 hi.nonneg
  unfold chebTry
  dsimp only
  rw [if_neg (by have : 0 ≤ 77 / 50 * chebFit c.tb s.t a * sp := by
                   have := hi.nonneg
                   positivity
                 linarith)]
  refine PassSpec.congr (g4.trans f2) (n := s.nfev)
    (ml := if decide (c.mmax < chebM (chebFit c.tb s.t a) sp) then s.mlim + 1 else 0)
    (w := s.warned + if decide (c.mmax < chebM (chebFit c.tb s.t a) sp) && decide
      ((if decide (c.mmax < chebM (chebFit c.tb s.t a) sp) then s.mlim + 1 else 0) = 15) then 1 else 0) ?_
  exact chebAttempt_spec hc (hi.congr _ _ _) g3 g1 g2 g5 (fun b hb' => g4.trans (f3 b hb'))
    (hcap.mono (by linarith) (List.Subset.refl _)) (fun A hA => by have := hsh A hA; linarith)

/-- One pass of the loop, from a good state. -/
theorem chebIter_spec {c : ChebCfg K V} (hc : ChebOK c) {first : Option K} {s : ChebSt K V}
    (hi : ChebInv c first s) (hb : Before c s.t) :
    chebIter c s s.absh = .done .rhoFailed (chebRhoFailed c s) ∨
    ∃ s1 a, ChebFrame s s1 ∧ 0 < a ∧ StepCap c first s.calls a ∧ (∀ A, s.absh = some A → a = A) ∧
      (s.newspc = true → s1.est = some (s.t, s.yn)) ∧ (s.newspc = false → s1.est = s.est ∧ s1.age = s.age) ∧
      PassSpec c first s1 (11 / 10 * a) (chebIter c s s.absh) := by
  unfold chebIter
  cases hsp : chebSpectral c s with
  | none => left; rfl
  | some s1 =>
    right
    obtain ⟨sp, hm, hf, -, he1, he2⟩ := chebSpectral_spec hc hi hsp
    have hb1 : Before c s1.t := by rw [hf.t]; exact hb
    dsimp only
    split
    · rename_i hx; rw [hm.sprad] at hx; cases hx
    rename_i x hx
    obtain rfl : sp = x := by rw [hm.sprad] at hx; exact Option.some.inj hx
    cases ha : s.absh with
    | some a =>
      dsimp only
      have h1 : s1.absh = some a := by rw [hf.absh, ha]
      refine ⟨s1, a, hf, hi.absh a ha, hi.cap a ha, fun A hA => (Option.some.inj hA), he1,
        (fun h => by rw [he2 h]; exact ⟨rfl, rfl⟩), ?_⟩
      exact chebTry_spec hc hm (hi.absh a ha) hb1 (hm.cap a h1) (fun A hA => by rw [h1] at hA; cases hA; exact le_rfl)
    | none =>
      dsimp only
      have h1 : s1.absh = none := by rw [hf.absh, ha]
      obtain ⟨i1, i2⟩ := chebInit_spec hc s1.t s1.yn s1.fn sp
      have hcap : ∀ l, StepCap c first l (chebInit c s1.t s1.yn s1.fn sp) := fun l => by
        rcases i2 with h | h
        · exact Or.inl h
        · exact Or.inr (Or.inl h)
      refine ⟨s1, chebInit c s1.t s1.yn s1.fn sp, hf, i1, hcap _, (fun A hA => by cases hA), he1,
        (fun h => by rw [he2 h]; exact ⟨rfl, rfl⟩), ?_⟩
      exact (chebTry_spec (s := { s1 with nfev := s1.nfev + 1 }) hc (hm.congr _ s1.mlim s1.warned) i1 hb1 (hcap _)
        (fun A hA => by
          have : s1.absh = some A := hA
          rw [h1] at this; cases this)).congr (n := s1.nfev + 1) (ml := s1.mlim) (w := s1.warned) le_rfl

end
end Extensisq
