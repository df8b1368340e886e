import Verif.Props.Swag
import Mathlib.Algebra.Order.Archimedean.Basic

/-!
# SWAG: time, step sizes and termination (C46)
-/

set_option linter.unusedSectionVars false

namespace Extensisq
open Finset

section
variable {K V : Type*} [Field K] [LinearOrder K] [IsStrictOrderedRing K] [AddCommGroup V] [Module K V]

/-- What is used of the numbers in a configuration: the direction is a sign, the unit roundoff and `max_step`
are positive, and of the square root that it is positive for positive numbers, zero for zero and at most one
half below one quarter. -/
structure SwOK (c : SwCfg K V) : Prop where
  dir : c.dir = 1 ∨ c.dir = -1
  fouru : 0 < c.fouru
  maxStep : ∀ m, c.maxStep = some m → 0 < m
  sqrt_pos : ∀ x, 0 < x → 0 < c.sqrt x
  sqrt_zero : c.sqrt 0 = 0
  sqrt_half : ∀ x, 0 < x → x < 1 / 4 → c.sqrt x ≤ 1 / 2
  kMax : 1 ≤ c.kMax

/-- The signed step size points in the direction of integration; the only exception is a step size of zero at
the time zero, where the order is one. -/
def StepSign (dir t h : K) (k : ℕ) (phase1 : Bool) : Prop :=
  0 < dir * h ∨ (h = 0 ∧ t = 0 ∧ k = 1 ∧ phase1 = false)

theorem dir_abs {dir h : K} (hd : dir = 1 ∨ dir = -1) (h0 : 0 ≤ dir * h) : |h| = dir * h := by
  rcases hd with rfl | rfl
  · rw [one_mul] at h0 ⊢; exact abs_of_nonneg h0
  · rw [neg_one_mul] at h0 ⊢; exact abs_of_nonpos (by linarith)

theorem StepSign.nonneg {dir t h : K} {k : ℕ} {p : Bool} (hs : StepSign dir t h k p) : 0 ≤ dir * h := by
  rcases hs with h | ⟨h, _⟩
  · exact h.le
  · rw [h, mul_zero]

theorem dir_copySign {dir a : K} (hd : dir = 1 ∨ dir = -1) : dir * copySign a dir = a := by
  rcases hd with rfl | rfl
  · rw [copySign, if_neg (by norm_num), one_mul]
  · rw [copySign, if_pos (by norm_num)]; ring

theorem dir_copySign' {dir a h : K} (hd : dir = 1 ∨ dir = -1) (h0 : 0 < dir * h) : dir * copySign a h = a := by
  rcases hd with rfl | rfl
  · rw [copySign, if_neg (by linarith), one_mul]
  · rw [copySign, if_pos (by linarith)]; ring

/-- The limits keep the sign, never lengthen the step, keep it within the interval and below `max_step`. -/
theorem swLimit_spec {c : SwCfg K V} (ok : SwOK c) {t h : K} (h0 : 0 ≤ c.dir * h)
    (hb : ∀ b, c.tb = some b → 0 < c.dir * (b - t)) :
    0 ≤ c.dir * swLimit c t h ∧ (0 < c.dir * h → 0 < c.dir * swLimit c t h) ∧
    c.dir * swLimit c t h ≤ c.dir * h ∧ (∀ b, c.tb = some b → c.dir * swLimit c t h ≤ c.dir * (b - t)) ∧
    (∀ m, c.maxStep = some m → |swLimit c t h| ≤ m) ∧ (h = 0 → swLimit c t h = 0) := by
  have h1 : 0 ≤ c.dir * swLimit1 c t h ∧ (0 < c.dir * h → 0 < c.dir * swLimit1 c t h) ∧
      c.dir * swLimit1 c t h ≤ c.dir * h ∧
      (∀ b, c.tb = some b → c.dir * swLimit1 c t h ≤ c.dir * (b - t)) ∧ (h = 0 → swLimit1 c t h = 0) := by
    cases hc : c.tb with
    | none =>
      have e : swLimit1 c t h = h := by rw [swLimit1, hc]
      rw [e]
      exact ⟨h0, id, le_rfl, (fun b hb' => by cases hb'), id⟩
    | some b =>
      have hb' := hb b hc
      have e : swLimit1 c t h = if 0 < c.dir * (h - (b - t)) then b - t else h := by rw [swLimit1, hc]
      rw [e]
      split
      · rename_i hx
        have hx' : c.dir * (b - t) < c.dir * h := by rw [mul_sub] at hx; linarith
        exact ⟨hb'.le, fun _ => hb', hx'.le, (fun b' e => by cases e; exact le_rfl), (fun e => by
          rw [e, mul_zero] at hx'; linarith)⟩
      · rename_i hx
        refine ⟨h0, id, le_rfl, fun b' e => ?_, id⟩
        cases e
        have : ¬ 0 < c.dir * h - c.dir * (b - t) := by rw [← mul_sub]; exact hx
        linarith
  obtain ⟨a1, a2, a3, a4, a5⟩ := h1
  have hl : c.maxStep = none → swLimit c t h = swLimit1 c t h := by intro h; rw [swLimit, h]
  have hl2 : ∀ m, c.maxStep = some m → swLimit c t h = copySign (min m |swLimit1 c t h|) c.dir := by
    intro m h; rw [swLimit, h]
  generalize swLimit1 c t h = h1 at *
  have habs := dir_abs ok.dir a1
  cases hm : c.maxStep with
  | none =>
    rw [hl hm]
    exact ⟨a1, a2, a3, a4, (fun m hm' => by cases hm'), a5⟩
  | some m =>
    replace hl := hl2 m hm
    have hmp := ok.maxStep m hm
    have hd : c.dir * swLimit c t h = min m |h1| := by rw [hl]; exact dir_copySign ok.dir
    have hle : min m |h1| ≤ c.dir * h1 := by rw [← habs]; exact min_le_right _ _
    have h00 : 0 ≤ min m |h1| := le_min hmp.le (abs_nonneg _)
    refine ⟨by rw [hd]; exact h00, ?_, by rw [hd]; exact hle.trans a3, ?_, ?_, ?_⟩
    · intro hp; rw [hd]; exact lt_min hmp (by rw [habs]; exact a2 hp)
    · intro b hb'; rw [hd]; exact hle.trans (a4 b hb')
    · intro m' hm'
      cases hm'
      rw [dir_abs ok.dir (by rw [hd]; exact h00), hd]
      exact min_le_left _ _
    · intro hz
      have : min m |h1| = 0 := by rw [a5 hz, abs_zero]; exact min_eq_right hmp.le
      rw [hl, this]
      simp [copySign]

/-- A failure multiplies the step size by a number between zero and one half; zero only from the fourth
failure on, with an infinite error estimate. -/
theorem failFactor_spec {c : SwCfg K V} (ok : SwOK c) (i : ℕ) (e : ENorm K) :
    0 ≤ failFactor c i e ∧ failFactor c i e ≤ 1 / 2 ∧ (failFactor c i e = 0 → 4 ≤ i ∧ e = .inf) := by
  unfold failFactor
  cases e with
  | num x =>
    dsimp only
    split
    · rename_i h
      have hx : 0 < x := by linarith [h.2]
      have h1 : (0 : K) < 1 / 2 / x := by positivity
      have h2 : 1 / 2 / x < 1 / 4 := by rw [div_lt_iff₀ hx]; linarith [h.2]
      exact ⟨(ok.sqrt_pos _ h1).le, ok.sqrt_half _ h1 h2, fun e => absurd e (ok.sqrt_pos _ h1).ne'⟩
    · norm_num
  | inf =>
    dsimp only
    split
    · rename_i h
      rw [ok.sqrt_zero]
      exact ⟨le_rfl, by norm_num, fun _ => ⟨h, rfl⟩⟩
    · norm_num
  | nan => norm_num

/-- **C46.** Every retry uses at most half of the step size of the attempt that failed. -/
theorem C46_retry_halves {c : SwCfg K V} (ok : SwOK c) (s : SwSt K V) (l : SwLoc K V) :
    |(swFail c l (swTry c s.t s.y s.hold s.kold l)).h| ≤ 1 / 2 * |l.h| := by
  obtain ⟨h1, h2, _⟩ := failFactor_spec ok (l.ifail + 1) (swTry c s.t s.y s.hold s.kold l).erk
  show |l.h * failFactor c (l.ifail + 1) _| ≤ _
  rw [abs_mul, abs_of_nonneg h1, mul_comm]
  exact mul_le_mul_of_nonneg_right h2 (abs_nonneg _)

/-! ## Invariant for the time and the sign of the step -/

/-- Before a step of a running solver: the end of the interval is ahead. -/
structure SwTime (c : SwCfg K V) (s : SwSt K V) : Prop where
  sign : StepSign c.dir s.t s.h s.k s.phase1
  ahead : ∀ b, c.tb = some b → 0 ≤ c.dir * (b - s.t)

/-- The local variables of an attempt. -/
structure LocTime (c : SwCfg K V) (s : SwSt K V) (l : SwLoc K V) : Prop where
  sign : 0 < c.dir * l.h ∨ (l.h = 0 ∧ l.k = 1 ∧ l.phase1 = false)
  le : c.dir * l.h ≤ c.dir * swLimit c s.t s.h
  zero : l.h = 0 → swLimit c s.t s.h = 0 ∨ 4 ≤ l.ifail

theorem attempt_time {c : SwCfg K V} (ok : SwOK c) {s : SwSt K V} (ht : SwTime c s)
    (hb : ∀ b, c.tb = some b → b ≠ s.t) {l : SwLoc K V} (h : SwAttempt c s l) : LocTime c s l := by
  have hbp : ∀ b, c.tb = some b → 0 < c.dir * (b - s.t) := by
    intro b hb'
    refine lt_of_le_of_ne (ht.ahead b hb') (fun e => hb b hb' ?_)
    rcases mul_eq_zero.mp e.symm with h1 | h1
    · rcases ok.dir with h2 | h2 <;> rw [h2] at h1 <;> norm_num at h1
    · exact sub_eq_zero.mp h1
  obtain ⟨s1, s2, s3, s4, s5, s6⟩ := swLimit_spec ok ht.sign.nonneg hbp
  obtain ⟨_, _, _, _, _, e6, _, _, e9, _⟩ := swStiff_same c s
  induction h with
  | first =>
    refine ⟨?_, le_rfl, fun e => Or.inl e⟩
    rcases ht.sign with hp | ⟨z1, _, z3, z4⟩
    · exact Or.inl (s2 hp)
    · exact Or.inr ⟨s6 z1, e6.trans z3, e9.trans z4⟩
  | @retry l _ he ih =>
    obtain ⟨f1, f2, f3⟩ := failFactor_spec ok (l.ifail + 1) (swTry c s.t s.y s.hold s.kold l).erk
    have hh : (swFail c l (swTry c s.t s.y s.hold s.kold l)).h
      = l.h * failFactor c (l.ifail + 1) (swTry c s.t s.y s.hold s.kold l).erk := rfl
    have hk : (swFail c l (swTry c s.t s.y s.hold s.kold l)).k
      = if 3 ≤ l.ifail + 1 then 1 else (swTry c s.t s.y s.hold s.kold l).knew := rfl
    have hnn : 0 ≤ c.dir * l.h := by
      rcases ih.sign with h | ⟨h, _⟩
      · exact h.le
      · rw [h, mul_zero]
    refine ⟨?_, ?_, ?_⟩
    · rw [hh]
      rcases ih.sign with h | ⟨h, h2, _⟩
      · rcases f1.lt_or_eq with hp | hz
        · left; rw [← mul_assoc]; exact mul_pos h hp
        · right
          refine ⟨by rw [← hz, mul_zero], ?_, rfl⟩
          rw [hk, if_pos (by have := (f3 hz.symm).1; omega)]
      · right
        refine ⟨by rw [h, zero_mul], ?_, rfl⟩
        rw [hk]
        split
        · rfl
        · have hkn : (swTry c s.t s.y s.hold s.kold l).knew = lowerOrder l.k _ _ _ := rfl
          rw [hkn, h2]
          simp [lowerOrder]
    · rw [hh, ← mul_assoc]
      have : c.dir * l.h * failFactor c (l.ifail + 1) (swTry c s.t s.y s.hold s.kold l).erk ≤ c.dir * l.h * 1 :=
        mul_le_mul_of_nonneg_left (by linarith) hnn
      linarith [ih.le]
    · rw [hh]
      intro e
      rcases mul_eq_zero.mp e with h | h
      · rcases ih.zero h with h3 | h3
        · exact Or.inl h3
        · right; show 4 ≤ l.ifail + 1; omega
      · right; exact (f3 h).1

theorem scale_zero_num {c : K} {x : ENorm K} {y : K} (hy : ENorm.scale 0 x = .num y) : y = 0 := by
  cases x with
  | num z => simp only [ENorm.scale, zero_mul] at hy; cases hy; rfl
  | inf => simp only [ENorm.scale, lt_irrefl, if_false] at hy; cases hy
  | nan => cases hy

theorem leE_num {e : ENorm K} {a : K} (h : ENorm.leE e (.num a) = true) : ∃ x, e = .num x ∧ x ≤ a := by
  cases e with
  | num x => exact ⟨x, rfl, of_decide_eq_true h⟩
  | inf => cases h
  | nan => cases h

theorem scale_num {c : K} {e : ENorm K} {x : K} (h : ENorm.scale c e = .num x) : ∃ y, e = .num y ∧ x = c * y := by
  cases e with
  | num z => simp only [ENorm.scale] at h; cases h; exact ⟨z, rfl, rfl⟩
  | inf => simp only [ENorm.scale] at h; split at h <;> cases h
  | nan => cases h

/-- In an accepted attempt the norm of the correction is a number. -/
theorem accepted_num {c : SwCfg K V} {s : SwSt K V} {l : SwLoc K V}
    (he : ENorm.leE (swTry c s.t s.y s.hold s.kold l).err (.num 1) = true) :
    ∃ x, (swTry c s.t s.y s.hold s.kold l).wt ((swTry c s.t s.y s.hold s.kold l).fp
        - (swTry c s.t s.y s.hold s.kold l).phi 0) = .num x ∧
      (swTry c s.t s.y s.hold s.kold l).err = .num (((swTry c s.t s.y s.hold s.kold l).co.g (l.k - 1)
        - (swTry c s.t s.y s.hold s.kold l).co.g l.k) * (|l.h| * x)) ∧
      (swTry c s.t s.y s.hold s.kold l).erk
        = .num ((swTry c s.t s.y s.hold s.kold l).co.sig l.k * c.gstr (l.k - 1) * (|l.h| * x)) := by
  obtain ⟨x1, h1, _⟩ := leE_num he
  have hd : (swTry c s.t s.y s.hold s.kold l).err = ENorm.scale ((swTry c s.t s.y s.hold s.kold l).co.g (l.k - 1)
        - (swTry c s.t s.y s.hold s.kold l).co.g l.k) (ENorm.scale |l.h| ((swTry c s.t s.y s.hold s.kold l).wt
        ((swTry c s.t s.y s.hold s.kold l).fp - (swTry c s.t s.y s.hold s.kold l).phi 0))) := rfl
  have hk : (swTry c s.t s.y s.hold s.kold l).erk = ENorm.scale ((swTry c s.t s.y s.hold s.kold l).co.sig l.k
        * c.gstr (l.k - 1)) (ENorm.scale |l.h| ((swTry c s.t s.y s.hold s.kold l).wt
        ((swTry c s.t s.y s.hold s.kold l).fp - (swTry c s.t s.y s.hold s.kold l).phi 0))) := rfl
  rw [hd] at h1
  obtain ⟨x2, h2, h2'⟩ := scale_num h1
  obtain ⟨x3, h3, h3'⟩ := scale_num h2
  refine ⟨x3, h3, ?_, ?_⟩
  · rw [hd, h3]; rfl
  · rw [hk, h3]; rfl

/-- A zero step of order one is followed by a zero step of order one. -/
theorem accept_zero {c : SwCfg K V} {s : SwSt K V} {l : SwLoc K V} {m : K} (hh : l.h = 0) (hk : l.k = 1)
    (hp : l.phase1 = false)
    (he : ENorm.leE (swTry c s.t s.y s.hold s.kold l).err (.num 1) = true) :
    let s' := swAccept c m (swStiff c s) l (swTry c s.t s.y s.hold s.kold l)
    s'.h = 0 ∧ s'.k = 1 ∧ s'.phase1 = false ∧ s'.t = s.t ∧ s'.y = s.y := by
  intro s'
  obtain ⟨e1, e2, _⟩ := swStiff_same c s
  obtain ⟨x, _, _, hx⟩ := accepted_num he
  have hkn : (swTry c s.t s.y s.hold s.kold l).knew = 1 := by
    show lowerOrder l.k _ _ _ = 1
    rw [hk]; simp [lowerOrder]
  have hph : s'.phase1 = false := by
    show (if _ then false else l.phase1) = false
    rw [hp]; split <;> rfl
  have herk : (swTry c s.t s.y s.hold s.kold l).erk = .num 0 := by rw [hx, hh]; simp
  set e2' := ENorm.scale (c.gstr l.k * |l.h|) ((swTry c s.t s.y s.hold s.kold l).wt (s'.phi (l.k + 1))) with he2
  have hlt : ENorm.ltE e2' (ENorm.scale (1 / 2) (.num 0)) = false := by
    rw [hh, abs_zero, mul_zero] at he2
    cases hw : (swTry c s.t s.y s.hold s.kold l).wt (s'.phi (l.k + 1)) with
    | num z => rw [hw] at he2; rw [he2]; simp [ENorm.scale, ENorm.ltE]
    | inf => rw [hw] at he2; rw [he2]; simp [ENorm.scale, ENorm.ltE]
    | nan => rw [hw] at he2; rw [he2]; simp [ENorm.scale, ENorm.ltE]
  have ho : nextOrder c l.k (swTry c s.t s.y s.hold s.kold l).knew (swTry c s.t s.y s.hold s.kold l).ns s'.phase1
      (swTry c s.t s.y s.hold s.kold l).erk (swTry c s.t s.y s.hold s.kold l).erkm1 e2' = (1, .num 0) := by
    rw [hph, herk, hkn, hk]
    unfold nextOrder
    rw [if_neg (by simp), if_neg (by norm_num)]
    split
    · rw [if_pos rfl, if_neg (by rw [hlt]; simp)]
    · rfl
  have hh' : s'.h = nextH c m l.h (nextOrder c l.k (swTry c s.t s.y s.hold s.kold l).knew
      (swTry c s.t s.y s.hold s.kold l).ns s'.phase1 (swTry c s.t s.y s.hold s.kold l).erk
      (swTry c s.t s.y s.hold s.kold l).erkm1 e2').1 s'.phase1 (nextOrder c l.k
      (swTry c s.t s.y s.hold s.kold l).knew (swTry c s.t s.y s.hold s.kold l).ns s'.phase1
      (swTry c s.t s.y s.hold s.kold l).erk (swTry c s.t s.y s.hold s.kold l).erkm1 e2').2 := rfl
  have hk' : s'.k = (nextOrder c l.k (swTry c s.t s.y s.hold s.kold l).knew
      (swTry c s.t s.y s.hold s.kold l).ns s'.phase1 (swTry c s.t s.y s.hold s.kold l).erk
      (swTry c s.t s.y s.hold s.kold l).erkm1 e2').1 := rfl
  refine ⟨?_, ?_, hph, ?_, ?_⟩
  · rw [hh', ho, hh, nextH, if_pos (Or.inr (by simp [ENorm.scale, ENorm.leE])), add_zero]
  · rw [hk', ho]
  · show (swStiff c s).t + l.h = s.t
    rw [e1, hh, add_zero]
  · show (l.h * _) • _ + (swTry c s.t s.y s.hold s.kold l).p = s.y
    rw [hh, zero_mul, zero_smul, zero_add]
    show swPredict l.h _ _ _ s.y = s.y
    rw [hh, swPredict, zero_smul, zero_add]

theorem nextH_sign {c : SwCfg K V} (ok : SwOK c) {m h : K} {k : ℕ} {p : Bool} {e : ENorm K}
    (h0 : 0 < c.dir * h) : 0 < c.dir * nextH c m h k p e := by
  have hd := ok.dir
  have hh : 0 < |h| := by rw [dir_abs ok.dir h0.le]; exact h0
  unfold nextH
  split
  · rw [mul_add]; linarith
  · split
    · exact h0
    · rw [dir_copySign' ok.dir h0]
      refine lt_max_of_lt_left (mul_pos hh (lt_max_of_lt_left (by norm_num)))

theorem minStep_zero {c : SwCfg K V} (ok : SwOK c) {t : K} (h : swMinStep c t ≤ 0) : t = 0 := by
  by_contra hc
  have : 0 < swMinStep c t := mul_pos ok.fouru (abs_pos.mpr hc)
  linarith

/-- The loop only attempts steps which are not below the minimal step. -/
theorem swLoop_min {c : SwCfg K V} {m : K} {s : SwSt K V} : ∀ (n : ℕ) (l : SwLoc K V) (s' : SwSt K V) (Q : SwLoc K V → Prop),
    Q l → (∀ l, Q l → ENorm.leE (swTry c s.t s.y s.hold s.kold l).err (.num 1) = false →
      Q (swFail c l (swTry c s.t s.y s.hold s.kold l))) →
    m ≤ |l.h| → swLoop c m s n l = some (.ok, s') →
    ∃ l', Q l' ∧ m ≤ |l'.h| ∧ ENorm.leE (swTry c s.t s.y s.hold s.kold l').err (.num 1) = true ∧
      s' = swAccept c m s l' (swTry c s.t s.y s.hold s.kold l') := by
  intro n
  induction n with
  | zero => intro l s' Q _ _ _ h; cases h
  | succ n ih =>
    intro l s' Q hq hf hm h
    simp only [swLoop] at h
    split at h
    · rename_i he
      have h' := Option.some.inj h
      exact ⟨l, hq, hm, he, (congrArg Prod.snd h').symm⟩
    · rename_i he
      split at h
      · have h' := congrArg Prod.fst (Option.some.inj h); cases h'
      · rename_i hm'
        exact ih _ _ Q (hf l hq (by simpa using he)) hf (not_lt.mp hm') h

/-- A successful step: extrapolated, or an accepted attempt whose size is at least the minimal step. -/
theorem swStepImpl_min {c : SwCfg K V} {fuel : ℕ} {s s' : SwSt K V} (h : swStepImpl c fuel s = some (.ok, s')) :
    (∃ b, c.tb = some b ∧ |b - s.t| ≤ swMinStep c s.t ∧ s' = swExtrapolate b (swStiff c s)) ∨
    (∃ l, SwAttempt c s l ∧ swMinStep c s.t ≤ |l.h| ∧
      (∀ b, c.tb = some b → swMinStep c s.t < |b - s.t|) ∧
      ENorm.leE (swTry c s.t s.y s.hold s.kold l).err (.num 1) = true ∧
      s' = swAccept c (swMinStep c s.t) (swStiff c s) l (swTry c s.t s.y s.hold s.kold l)) := by
  obtain ⟨e1, e2, _, e4, e5, _, e7, _⟩ := swStiff_same c s
  unfold swStepImpl at h
  simp only [e1, e4] at h
  split at h
  · rename_i hn
    left
    unfold swNear at hn
    cases hb : c.tb with
    | none => rw [hb] at hn; cases hn
    | some b =>
      rw [hb] at hn h
      have h' := Option.some.inj h
      exact ⟨b, rfl, of_decide_eq_true hn, (congrArg Prod.snd h').symm⟩
  · rename_i hn
    right
    have hnear : ∀ b, c.tb = some b → swMinStep c s.t < |b - s.t| := by
      intro b hb
      unfold swNear at hn
      rw [hb] at hn
      simpa using hn
    split at h
    · have h' := congrArg Prod.fst (Option.some.inj h); cases h'
    · rename_i hm
      split at h
      · have h' := congrArg Prod.fst (Option.some.inj h); cases h'
      · obtain ⟨l, q1, q2, q3, q4⟩ := swLoop_min (c := c) (m := swMinStep c s.t) (s := swStiff c s) fuel _ s'
          (SwAttempt c s) .first
          (by rw [e1, e2, e5, e7]; exact fun l hl he => .retry hl he) (not_lt.mp hm) h
        rw [e1, e2, e5, e7] at q3 q4
        exact ⟨l, q1, q2, hnear, q3, q4⟩

theorem SwTime.accept {c : SwCfg K V} (ok : SwOK c) {s : SwSt K V} (ht : SwTime c s)
    (hb : ∀ b, c.tb = some b → b ≠ s.t) {l : SwLoc K V} (hl : SwAttempt c s l)
    (hm : swMinStep c s.t ≤ |l.h|)
    (he : ENorm.leE (swTry c s.t s.y s.hold s.kold l).err (.num 1) = true) :
    SwTime c (swAccept c (swMinStep c s.t) (swStiff c s) l (swTry c s.t s.y s.hold s.kold l)) := by
  obtain ⟨e1, _⟩ := swStiff_same c s
  have hlt := attempt_time ok ht hb hl
  have hbp : ∀ b, c.tb = some b → 0 < c.dir * (b - s.t) := by
    intro b hb'
    refine lt_of_le_of_ne (ht.ahead b hb') (fun e => hb b hb' ?_)
    rcases mul_eq_zero.mp e.symm with h1 | h1
    · rcases ok.dir with h2 | h2 <;> rw [h2] at h1 <;> norm_num at h1
    · exact sub_eq_zero.mp h1
  obtain ⟨s1, s2, s3, s4, s5, s6⟩ := swLimit_spec ok ht.sign.nonneg hbp
  refine ⟨?_, ?_⟩
  · rcases hlt.sign with h | ⟨h1, h2, h3⟩
    · left; exact nextH_sign ok h
    · right
      obtain ⟨z1, z2, z3, z4, _⟩ := accept_zero (m := swMinStep c s.t) h1 h2 h3 he
      refine ⟨z1, ?_, z2, z3⟩
      rw [z4]
      rw [h1, abs_zero] at hm
      exact minStep_zero ok hm
  · intro b hb'
    show 0 ≤ c.dir * (b - ((swStiff c s).t + l.h))
    rw [e1]
    have := s4 b hb'
    have := hlt.le
    have e : c.dir * (b - (s.t + l.h)) = c.dir * (b - s.t) - c.dir * l.h := by ring
    rw [e]; linarith

/-- A running solver reached from a new one whose first step points forward. -/
theorem SwReach.time {c : SwCfg K V} (ok : SwOK c) {v0 v : SwSolver K V} (h0 : SwTime c v0.st) (hr : SwReach c v0 v)
    (hs : v.status = .running) : SwTime c v.st := by
  induction hr with
  | refl => exact h0
  | @tail v1 v2 o fuel hr1 hstep ih =>
    rcases swStep_cases hstep with ⟨_, _, e⟩ | ⟨_, _, _, e⟩ | ⟨r, hb, s', hi, _, e⟩ | ⟨_, _, _, s', _, e⟩
    · subst e; exact ih hs
    · rw [e] at hs; cases hs
    · have ht := ih r
      rcases swStepImpl_min hi with ⟨b, hb, _, e'⟩ | ⟨l, hl, hm, _, he, e'⟩
      · exfalso
        rw [e] at hs
        have : s'.t = b := by rw [e']; rfl
        simp only [swReached, hb, this, sub_self, mul_zero, le_refl, decide_true, if_true] at hs
        cases hs
      · rw [e, e']
        exact ht.accept ok (fun b h1 h2 => hb (by rw [h1, h2])) hl hm he
    · rw [e] at hs; cases hs

theorem newSwag_time {c : SwCfg K V} {t0 : K} {y0 yp0 : V} {h0 : K}
    {wt0 : V → ENorm K} {phi0 : ℕ → V} {co0 : Coef K} {nfev : ℕ} (hh : 0 < c.dir * h0)
    (hb : ∀ b, c.tb = some b → 0 ≤ c.dir * (b - t0)) : SwTime c (newSwag t0 y0 yp0 h0 wt0 phi0 co0 nfev).st :=
  ⟨Or.inl hh, hb⟩

/-- **C46.** A successful step of a running solver, from any history: time does not go back and never passes
`t_bound`; the step is at most `max_step`, unless it is the last one, extrapolated over a distance of at most
the minimal step (four units of roundoff of `t`). -/
theorem C46_bounds {c : SwCfg K V} (ok : SwOK c) {t0 : K} {y0 yp0 : V} {h0 : K}
    {wt0 : V → ENorm K} {phi0 : ℕ → V} {co0 : Coef K} {nfev : ℕ} (hh : 0 < c.dir * h0)
    (hb : ∀ b, c.tb = some b → 0 ≤ c.dir * (b - t0)) {v v' : SwSolver K V} {fuel : ℕ}
    (hr : SwReach c (newSwag t0 y0 yp0 h0 wt0 phi0 co0 nfev) v) (hs : v.status = .running)
    (h : swStep c fuel v = some (.ok, v')) :
    0 ≤ c.dir * (v'.st.t - v.st.t) ∧ (∀ b, c.tb = some b → 0 ≤ c.dir * (b - v'.st.t)) ∧
    ((∀ m, c.maxStep = some m → |v'.st.t - v.st.t| ≤ m) ∨
      (c.tb = some v'.st.t ∧ |v'.st.t - v.st.t| ≤ c.fouru * |v.st.t|)) := by
  have ht := hr.time ok (newSwag_time hh hb) hs
  rcases swStep_cases h with ⟨h1, _⟩ | ⟨_, h1, _, e⟩ | ⟨_, hb', s', hi, _, e⟩ | ⟨_, _, h1, _⟩
  · exact absurd hs h1
  · rw [e]
    refine ⟨by simp, fun b hb2 => ?_, Or.inl fun m hm => ?_⟩
    · exact ht.ahead b hb2
    · simp only [sub_self, abs_zero]; exact (ok.maxStep m hm).le
  · rw [e]
    have hne : ∀ b, c.tb = some b → b ≠ v.st.t := fun b h1 h2 => hb' (by rw [h1, h2])
    rcases swStepImpl_min hi with ⟨b, hb2, h3, e'⟩ | ⟨l, hl, hm, _, he, e'⟩
    · have : s'.t = b := by rw [e']; rfl
      simp only [this]
      refine ⟨ht.ahead b hb2, fun b' hb3 => ?_, Or.inr ⟨hb2, h3⟩⟩
      rw [hb2] at hb3; cases hb3; simp
    · have hta := ht.accept ok hne hl hm he
      have hlt := attempt_time ok ht hne hl
      have hbp : ∀ b, c.tb = some b → 0 < c.dir * (b - v.st.t) := by
        intro b hb'
        refine lt_of_le_of_ne (ht.ahead b hb') (fun e => hne b hb' ?_)
        rcases mul_eq_zero.mp e.symm with h1 | h1
        · rcases ok.dir with h2 | h2 <;> rw [h2] at h1 <;> norm_num at h1
        · exact sub_eq_zero.mp h1
      obtain ⟨s1, s2, s3, s4, s5, s6⟩ := swLimit_spec ok ht.sign.nonneg hbp
      have h5 : s'.t = v.st.t + l.h := by
        rw [e']
        show (swStiff c v.st).t + l.h = _
        rw [(swStiff_same c v.st).1]
      have hnn : 0 ≤ c.dir * l.h := by
        rcases hlt.sign with h | ⟨h, _⟩
        · exact h.le
        · rw [h, mul_zero]
      refine ⟨?_, ?_, Or.inl fun m hm => ?_⟩
      · simp only [h5, add_sub_cancel_left]; exact hnn
      · simp only [e']; exact hta.ahead
      · simp only [h5, add_sub_cancel_left]
        have h6 := s5 m hm
        rw [dir_abs ok.dir s1] at h6
        rw [dir_abs ok.dir hnn]
        exact hlt.le.trans h6
  · exact absurd rfl h1

/-- **C46.** Away from the time zero every successful step makes progress. -/
theorem C46_progress {c : SwCfg K V} (ok : SwOK c) {t0 : K} {y0 yp0 : V} {h0 : K}
    {wt0 : V → ENorm K} {phi0 : ℕ → V} {co0 : Coef K} {nfev : ℕ} (hh : 0 < c.dir * h0)
    (hb : ∀ b, c.tb = some b → 0 ≤ c.dir * (b - t0)) {v v' : SwSolver K V} {fuel : ℕ}
    (hr : SwReach c (newSwag t0 y0 yp0 h0 wt0 phi0 co0 nfev) v) (hs : v.status = .running)
    (ht0 : v.st.t ≠ 0) (hb0 : c.tb ≠ some v.st.t)
    (h : swStep c fuel v = some (.ok, v')) : 0 < c.dir * (v'.st.t - v.st.t) := by
  have ht := hr.time ok (newSwag_time hh hb) hs
  rcases swStep_cases h with ⟨h1, _⟩ | ⟨_, h1, _, e⟩ | ⟨_, hb', s', hi, _, e⟩ | ⟨_, _, h1, _⟩
  · exact absurd hs h1
  · exact absurd h1 hb0
  · rw [e]
    have hne : ∀ b, c.tb = some b → b ≠ v.st.t := fun b h1 h2 => hb' (by rw [h1, h2])
    rcases swStepImpl_min hi with ⟨b, hb2, h3, e'⟩ | ⟨l, hl, hm, _, he, e'⟩
    · have : s'.t = b := by rw [e']; rfl
      simp only [this]
      refine lt_of_le_of_ne (ht.ahead b hb2) (fun e => hne b hb2 ?_)
      rcases mul_eq_zero.mp e.symm with h1 | h1
      · rcases ok.dir with h2 | h2 <;> rw [h2] at h1 <;> norm_num at h1
      · exact sub_eq_zero.mp h1
    · have hlt := attempt_time ok ht hne hl
      have h5 : s'.t = v.st.t + l.h := by
        rw [e']
        show (swStiff c v.st).t + l.h = _
        rw [(swStiff_same c v.st).1]
      simp only [h5, add_sub_cancel_left]
      rcases hlt.sign with h | ⟨h, _⟩
      · exact h
      · rw [h, abs_zero] at hm
        exact absurd (minStep_zero ok hm) ht0
  · exact absurd rfl h1

theorem scale_ne_inf {c : K} {e : ENorm K} (h : e ≠ .inf) : ENorm.scale c e ≠ .inf := by
  cases e with
  | num x => intro h'; cases h'
  | inf => exact absurd rfl h
  | nan => intro h'; cases h'

/-- Attempts never have a zero step if no norm is infinite. -/
theorem attempt_pos {c : SwCfg K V} (ok : SwOK c) (hfin : ∀ p y x, c.scale p y x ≠ .inf) {s : SwSt K V}
    (hpos : 0 < c.dir * s.h) (hbp : ∀ b, c.tb = some b → 0 < c.dir * (b - s.t)) {l : SwLoc K V}
    (h : SwAttempt c s l) : 0 < c.dir * l.h := by
  obtain ⟨_, s2, _⟩ := swLimit_spec ok hpos.le hbp
  induction h with
  | first => exact s2 hpos
  | @retry l _ he ih =>
    obtain ⟨f1, f2, f3⟩ := failFactor_spec ok (l.ifail + 1) (swTry c s.t s.y s.hold s.kold l).erk
    show 0 < c.dir * (l.h * failFactor c (l.ifail + 1) (swTry c s.t s.y s.hold s.kold l).erk)
    rcases f1.lt_or_eq with hp | hz
    · rw [← mul_assoc]; exact mul_pos ih hp
    · exact absurd (f3 hz.symm).2 (scale_ne_inf (scale_ne_inf (hfin _ _ _)))

theorem SwTime.pos {c : SwCfg K V} (ok : SwOK c) {s : SwSt K V} (ht : SwTime c s)
    (hne : ∀ b, c.tb = some b → b ≠ s.t) : ∀ b, c.tb = some b → 0 < c.dir * (b - s.t) := by
  intro b hb'
  refine lt_of_le_of_ne (ht.ahead b hb') (fun e => hne b hb' ?_)
  rcases mul_eq_zero.mp e.symm with h1 | h1
  · rcases ok.dir with h2 | h2 <;> rw [h2] at h1 <;> norm_num at h1
  · exact sub_eq_zero.mp h1

/-- If no norm is infinite then the step size of a running solver never becomes zero. -/
theorem SwReach.h_pos {c : SwCfg K V} (ok : SwOK c) (hfin : ∀ p y x, c.scale p y x ≠ .inf) {v0 v : SwSolver K V}
    (h0 : SwTime c v0.st) (hp : 0 < c.dir * v0.st.h) (hr : SwReach c v0 v)
    (hs : v.status = .running) : 0 < c.dir * v.st.h := by
  induction hr with
  | refl => exact hp
  | @tail v1 v2 o fuel hr1 hstep ih =>
    rcases swStep_cases hstep with ⟨_, _, e⟩ | ⟨_, _, _, e⟩ | ⟨r, hb, s', hi, _, e⟩ | ⟨_, _, _, s', _, e⟩
    · subst e; exact ih hs
    · rw [e] at hs; cases hs
    · have ht := hr1.time ok h0 r
      rcases swStepImpl_min hi with ⟨b, hb, _, e'⟩ | ⟨l, hl, hm, _, he, e'⟩
      · exfalso
        rw [e] at hs
        have : s'.t = b := by rw [e']; rfl
        simp only [swReached, hb, this, sub_self, mul_zero, le_refl, decide_true, if_true] at hs
        cases hs
      · rw [e, e']
        exact nextH_sign ok (attempt_pos ok hfin (ih r) (ht.pos ok fun b h1 h2 => hb (by rw [h1, h2])) hl)
    · rw [e] at hs; cases hs

/-- **C46.** If no norm is ever infinite then every successful step makes progress, at the time zero too. -/
theorem C46_progress_finite {c : SwCfg K V} (ok : SwOK c) (hfin : ∀ p y x, c.scale p y x ≠ .inf) {t0 : K}
    {y0 yp0 : V} {h0 : K} {wt0 : V → ENorm K} {phi0 : ℕ → V} {co0 : Coef K} {nfev : ℕ} (hh : 0 < c.dir * h0)
    (hb : ∀ b, c.tb = some b → 0 ≤ c.dir * (b - t0)) {v v' : SwSolver K V} {fuel : ℕ}
    (hr : SwReach c (newSwag t0 y0 yp0 h0 wt0 phi0 co0 nfev) v) (hs : v.status = .running)
    (hb0 : c.tb ≠ some v.st.t)
    (h : swStep c fuel v = some (.ok, v')) : 0 < c.dir * (v'.st.t - v.st.t) := by
  have ht := hr.time ok (newSwag_time hh hb) hs
  have hpos := hr.h_pos ok hfin (newSwag_time hh hb) hh hs
  rcases swStep_cases h with ⟨h1, _⟩ | ⟨_, h1, _, e⟩ | ⟨_, hb', s', hi, _, e⟩ | ⟨_, _, h1, _⟩
  · exact absurd hs h1
  · exact absurd h1 hb0
  · rw [e]
    have hbp := ht.pos ok fun b h1 h2 => hb' (by rw [h1, h2])
    rcases swStepImpl_min hi with ⟨b, hb2, h3, e'⟩ | ⟨l, hl, hm, _, he, e'⟩
    · have : s'.t = b := by rw [e']; rfl
      simp only [this]
      exact hbp b hb2
    · have h5 : s'.t = v.st.t + l.h := by
        rw [e']
        show (swStiff c v.st).t + l.h = _
        rw [(swStiff_same c v.st).1]
      simp only [h5, add_sub_cancel_left]
      exact attempt_pos ok hfin hpos hbp hl
  · exact absurd rfl h1

/-! ## Termination -/

/-- **C46.** Away from the time zero a call of `step()` returns, whatever the right-hand side does: after
every failure the step size is at most half of what it was, and it may not fall below the minimal step. -/
theorem C46_returns [Archimedean K] {c : SwCfg K V} (ok : SwOK c) {v : SwSolver K V} (ht : v.st.t ≠ 0) :
    ∃ n, ∀ fuel, n ≤ fuel → swStep c fuel v ≠ none := by
  have hmp : 0 < swMinStep c v.st.t := mul_pos ok.fouru (abs_pos.mpr ht)
  have hloop : ∀ (n : ℕ) (s : SwSt K V) (l : SwLoc K V), |l.h| < 2 ^ n * swMinStep c v.st.t →
      ∀ fuel, n + 1 ≤ fuel → swLoop c (swMinStep c v.st.t) s fuel l ≠ none := by
    intro n
    induction n with
    | zero =>
      intro s l hl fuel hf
      obtain ⟨f, rfl⟩ := Nat.exists_eq_succ_of_ne_zero (show fuel ≠ 0 by omega)
      simp only [swLoop]
      split
      · simp
      · rw [if_pos]
        · simp
        · have := C46_retry_halves ok s l
          have h0 := abs_nonneg l.h
          rw [pow_zero, one_mul] at hl
          linarith
    | succ n ih =>
      intro s l hl fuel hf
      obtain ⟨f, rfl⟩ := Nat.exists_eq_succ_of_ne_zero (show fuel ≠ 0 by omega)
      simp only [swLoop]
      split
      · simp
      · split
        · simp
        · refine ih s _ ?_ f (by omega)
          have := C46_retry_halves ok s l
          rw [pow_succ] at hl
          linarith
  obtain ⟨n, hn⟩ := pow_unbounded_of_one_lt (|swLimit c v.st.t v.st.h| / swMinStep c v.st.t) (one_lt_two (α := K))
  rw [div_lt_iff₀ hmp] at hn
  refine ⟨n + 1, fun fuel hf hnone => ?_⟩
  have himpl : swStepImpl c fuel v.st ≠ none := by
    obtain ⟨e1, _, _, e4, _⟩ := swStiff_same c v.st
    unfold swStepImpl
    simp only [e1, e4]
    split
    · simp
    · split
      · simp
      · split
        · simp
        · exact hloop n _ _ hn fuel hf
  unfold swStep at hnone
  split at hnone
  · split at hnone
    · cases hnone
    · split at hnone
      · rename_i h; exact himpl h
      · cases hnone
      · cases hnone
  · cases hnone

/-- **C46.** At the time zero the minimal step is zero: if the error test fails for ever, `step()` never
returns. -/
theorem C46_hangs_at_zero {c : SwCfg K V} {v : SwSolver K V} (hs : v.status = .running) (ht : v.st.t = 0)
    (hb : ∀ b, c.tb = some b → b ≠ 0)
    (hy : ENorm.gt (ENorm.scale c.twou (v.st.wt v.st.y)) (1 / 2) = false)
    (hfail : ∀ p y x, c.scale p y x = .nan) (fuel : ℕ) : swStep c fuel v = none := by
  obtain ⟨e1, e2, _, e4, _, _, _, _, _, _, _, e12, _⟩ := swStiff_same c v.st
  have hm : swMinStep c v.st.t = 0 := by rw [swMinStep, ht, abs_zero, mul_zero]
  have hloop : ∀ n l, swLoop c (swMinStep c v.st.t) (swStiff c v.st) n l = none := by
    intro n
    induction n with
    | zero => intro l; rfl
    | succ n ih =>
      intro l
      have herr : (swTry c (swStiff c v.st).t (swStiff c v.st).y (swStiff c v.st).hold (swStiff c v.st).kold l).err
          = .nan := by
        show ENorm.scale _ (ENorm.scale _ (c.scale _ _ _)) = .nan
        rw [hfail]; rfl
      simp only [swLoop]
      rw [if_neg (by rw [herr]; simp [ENorm.leE]), if_neg (by rw [hm]; exact not_lt.mpr (abs_nonneg _))]
      exact ih _
  have himpl : swStepImpl c fuel v.st = none := by
    unfold swStepImpl
    simp only [e1, e2, e4, e12]
    rw [if_neg, if_neg (by rw [hm]; exact not_lt.mpr (abs_nonneg _)), if_neg (by rw [hy]; simp)]
    · exact hloop _ _
    · unfold swNear
      cases hc : c.tb with
      | none => simp
      | some b =>
        have := hb b hc
        simp only [hm, decide_eq_true_eq, not_le]
        rw [ht, sub_zero]
        exact abs_pos.mpr this
  unfold swStep
  rw [hs]
  simp only
  rw [if_neg, himpl]
  intro hc
  exact hb _ hc ht

/-- **C46.** A solver whose step size has become zero (which happens at the time zero after four failures with an
infinite error estimate) never leaves that point: every further successful `step()` call returns without any
progress. -/
theorem C46_stuck {c : SwCfg K V} (ok : SwOK c) {v v' : SwSolver K V} {fuel : ℕ} (hs : v.status = .running)
    (hh : v.st.h = 0) (ht : v.st.t = 0) (hk : v.st.k = 1) (hp : v.st.phase1 = false)
    (hb : ∀ b, c.tb = some b → 0 < c.dir * b) (h : swStep c fuel v = some (.ok, v')) :
    v'.status = .running ∧ v'.st.h = 0 ∧ v'.st.t = 0 ∧ v'.st.k = 1 ∧ v'.st.phase1 = false ∧ v'.st.y = v.st.y := by
  have htime : SwTime c v.st := ⟨Or.inr ⟨hh, ht, hk, hp⟩, fun b h1 => by rw [ht, sub_zero]; exact (hb b h1).le⟩
  have hne : ∀ b, c.tb = some b → b ≠ v.st.t := by
    intro b h1 h2
    have := hb b h1
    rw [h2, ht, mul_zero] at this
    exact lt_irrefl _ this
  rcases swStep_cases h with ⟨h1, _⟩ | ⟨_, h1, _, e⟩ | ⟨_, hb', s', hi, _, e⟩ | ⟨_, _, h1, _⟩
  · exact absurd hs h1
  · exact absurd rfl (hne _ h1)
  · rcases swStepImpl_min hi with ⟨b, hb2, h3, e'⟩ | ⟨l, hl, hm, _, he, e'⟩
    · exfalso
      rw [swMinStep, ht, abs_zero, mul_zero, sub_zero] at h3
      have := abs_eq_zero.mp (le_antisymm h3 (abs_nonneg b))
      exact hne b hb2 (by rw [this, ht])
    · have hlt := attempt_time ok htime hne hl
      have hbp : ∀ b, c.tb = some b → 0 < c.dir * (b - v.st.t) := by
        intro b h1; rw [ht, sub_zero]; exact hb b h1
      obtain ⟨_, _, _, _, _, s6⟩ := swLimit_spec ok htime.sign.nonneg hbp
      have hz : l.h = 0 ∧ l.k = 1 ∧ l.phase1 = false := by
        rcases hlt.sign with h1 | h1
        · exfalso
          have := hlt.le
          rw [s6 hh, mul_zero] at this
          linarith
        · exact h1
      obtain ⟨z1, z2, z3, z4, z5⟩ := accept_zero (m := swMinStep c v.st.t) hz.1 hz.2.1 hz.2.2 he
      rw [← e'] at z1 z2 z3 z4 z5
      rw [e]
      refine ⟨?_, z1, by rw [z4, ht], z2, z3, z5⟩
      simp only
      rw [if_neg]
      rw [z4, ht]
      unfold swReached
      cases hc : c.tb with
      | none => simp
      | some b =>
        have := hb b hc
        simp only [zero_sub, mul_neg, decide_eq_true_eq, not_le]
        linarith
  · exact absurd rfl h1

end
end Extensisq
