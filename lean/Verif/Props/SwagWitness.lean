import Verif.Props.SwagStep

/-!
# SWAG: concrete runs

Runs of the model over the rationals which meet the hypotheses of the theorems on SWAG.
-/

set_option maxRecDepth 100000

namespace Extensisq

/-- `self.gstr` (`shampine.py:128-129`). -/
def gstrQ (i : ℕ) : ℚ := [1/2, 833/10000, 417/10000, 264/10000, 188/10000, 143/10000, 114/10000, 936/100000,
  789/100000, 679/100000, 592/100000, 524/100000, 468/100000].getD i 0

/-- A configuration for a scalar problem on `[.., 10]` with `max_step = 3` and `k_max = 4`. -/
def swQ (fn : ℚ → ℚ → ℚ) (sc : ℚ → ENorm ℚ) : SwCfg ℚ ℚ where
  fn := fn
  tb := some 10
  dir := 1
  maxStep := some 3
  fouru := 1 / 1000000
  twou := 1 / 2000000
  kMax := 4
  gstr := gstrQ
  scale := fun _ _ x => sc x
  sqrt := id
  pw := fun x _ => x

theorem swQ_ok (fn : ℚ → ℚ → ℚ) (sc : ℚ → ENorm ℚ) : SwOK (swQ fn sc) where
  dir := Or.inl rfl
  fouru := by norm_num [swQ]
  maxStep := by intro m h; cases h; norm_num
  sqrt_pos := fun x h => h
  sqrt_zero := rfl
  sqrt_half := fun x _ h => by show x ≤ 1 / 2; linarith
  kMax := by norm_num [swQ]

def emptyCo : Coef ℚ := ⟨0, 0, 0, 0, 0, 0, 0, 0, 0, 0, 0, 0⟩

/-- `n` successful steps. -/
def swRunQ (c : SwCfg ℚ ℚ) : ℕ → SwSolver ℚ ℚ → Option (SwSolver ℚ ℚ)
  | 0, v => some v
  | n + 1, v => match swRunQ c n v with
    | some w => match swStep c 8 w with
      | some (.ok, w') => some w'
      | _ => none
    | none => none

theorem swRunQ_reach (c : SwCfg ℚ ℚ) (v : SwSolver ℚ ℚ) : ∀ n w, swRunQ c n v = some w → SwReach c v w := by
  intro n
  induction n with
  | zero => intro w h; cases h; exact .refl
  | succ n ih =>
    intro w h
    simp only [swRunQ] at h
    split at h
    · rename_i w1 h1
      split at h
      · rename_i w2 h2
        cases h
        exact .tail (ih _ h1) h2
      · cases h
    · cases h

def swSeen (x : Option (SwSolver ℚ ℚ)) : Option (ℚ × ℚ × ℕ × ℕ × ℕ × ℕ) :=
  x.map fun v => (v.st.t, v.st.h, v.st.k, v.st.kold, v.st.ns, v.st.nfs)

/-- `y' = t - y`, `y(1) = 1`. -/
def cA : SwCfg ℚ ℚ := swQ (fun t y => t - y) (fun x => .num (10 * |x|))
def vA : SwSolver ℚ ℚ := newSwag 1 1 0 (1 / 4) (fun _ => .num 0) 0 emptyCo 1

/-- The order is raised from one to four, the step doubled, then the step is reduced. -/
example : swSeen (swRunQ cA 1 vA) = some (5 / 4, 1 / 2, 2, 1, 1, 0) := by decide +kernel
example : swSeen (swRunQ cA 3 vA) = some (11 / 4, 2, 4, 3, 1, 0) := by decide +kernel
example : swSeen (swRunQ cA 5 vA)
    = some (7486606943 / 1280019488, 1406514375 / 1280019488, 4, 4, 1, 0) := by decide +kernel

example {n : ℕ} {w : SwSolver ℚ ℚ} (h : swRunQ cA n vA = some w) (hs : w.status = .running) :
    1 ≤ w.st.k ∧ w.st.k ≤ 4 :=
  C45_order_bounds (c := cA) (by norm_num [cA, swQ]) (swRunQ_reach _ _ _ _ h) hs


/-- A right-hand side with a jump at `t = 3`: attempts fail, the order falls to one, and the step is halved. -/
def cJ : SwCfg ℚ ℚ := swQ (fun t _ => if t < 3 then 1 else 100) (fun x => .num (5 * |x|))
def vJ : SwSolver ℚ ℚ := newSwag 1 1 1 (1 / 4) (fun _ => .num 0) 0 emptyCo 1

example : swSeen (swRunQ cJ 3 vJ) = some (11 / 4, 2, 4, 3, 1, 0) := by decide +kernel
example : swSeen (swRunQ cJ 4 vJ) = some (5449 / 1980, 2 / 495, 1, 1, 1, 4) := by decide +kernel

/-- The norm overflows for everything above one thousand. -/
def ovf (x : ℚ) : ENorm ℚ := if |x| < 1000 then .num |x| else .inf

/-- A right-hand side with a jump to large values right after `t = 0`. -/
def cZ : SwCfg ℚ ℚ := swQ (fun t _ => if t ≤ 0 then 0 else 1000000) ovf
def vZ : SwSolver ℚ ℚ := newSwag 0 1 0 (1 / 4) (fun _ => .num 0) 0 emptyCo 1

/-- The first `step()` call fails four times and then accepts a step of length zero: success is reported, the
solver is still running, and its step size is zero. -/
def zeroSeen : Option (Status × ℚ × ℚ × ℕ × Bool × ℕ) :=
  (swRunQ cZ 1 vZ).map fun v => (v.status, v.st.t, v.st.h, v.st.k, v.st.phase1, v.st.nfs)

theorem zero_step : zeroSeen = some (.running, 0, 0, 1, false, 4) := by decide +kernel

/-- All further successful `step()` calls of that solver stay at `t = 0`. -/
theorem C46_stuck_witness {w w' : SwSolver ℚ ℚ} (hw : swRunQ cZ 1 vZ = some w) (hr : SwReach cZ w w')
    (hs : w'.status = .running) : w'.st.t = 0 ∧ w'.st.h = 0 := by
  have h0 := zero_step
  rw [zeroSeen, hw] at h0
  have h0 := Option.some.inj h0
  have h1 : w'.status = .running → w'.st.h = 0 ∧ w'.st.t = 0 ∧ w'.st.k = 1 ∧ w'.st.phase1 = false := by
    clear hs
    induction hr with
    | refl =>
      intro _
      simp only [Prod.mk.injEq] at h0
      exact ⟨h0.2.2.1, h0.2.1, h0.2.2.2.1, h0.2.2.2.2.1⟩
    | @tail v1 v2 o fuel hr1 hstep ih =>
      intro hs
      rcases swStep_cases hstep with ⟨_, _, e⟩ | ⟨_, _, _, e⟩ | ⟨r, hb, s', hi, eo, e⟩ | ⟨_, _, _, s', _, e⟩
      · subst e; exact ih hs
      · rw [e] at hs; cases hs
      · obtain ⟨i1, i2, i3, i4⟩ := ih r
        rw [eo] at hstep
        obtain ⟨_, j1, j2, j3, j4, _⟩ := C46_stuck (swQ_ok _ _) r i1 i2 i3 i4
          (by intro b hb'; cases hb'; norm_num [cZ, swQ]) hstep
        exact ⟨j1, j2, j3, j4⟩
      · rw [e] at hs; cases hs
  exact ⟨(h1 hs).2.1, (h1 hs).1⟩

/-- A right-hand side which returns `nan` (all norms are `nan`), from `t = 0`: `step()` does not return. -/
example (fuel : ℕ) : swStep (swQ (fun _ _ => 0) (fun _ => .nan)) fuel vZ = none :=
  C46_hangs_at_zero rfl rfl (by intro b h; cases h; norm_num) (by decide +kernel) (fun _ _ _ => rfl) fuel

/-- The same problem from `t = 1` ends with a failure. -/
example : ((swStep (swQ (fun _ _ => 0) (fun _ => .nan)) 30 vA).map fun x => (x.1, x.2.status))
    = some (SwOut.tooSmall, Status.failed) := by decide +kernel

end Extensisq
