import Verif.Props.EsdirkWitness
import Verif.Props.EsdirkWork

/-!
# Concrete ESDIRK runs for C78 and C79
-/

set_option maxRecDepth 100000

namespace Extensisq
open Finset

/-- The solver after `n` calls of `step()` (each with enough fuel). -/
def eAfter (c : ECfg ℚ ℚ) (v0 : ESolver ℚ ℚ) : ℕ → ESolver ℚ ℚ
  | 0 => v0
  | n + 1 => match eStep c 10 (eAfter c v0 n) with
    | none => eAfter c v0 n
    | some r => r.2

/-- `y' = -y/10` with a norm that always returns one half. -/
def exCtl : ECfg ℚ ℚ := exE (fun _ y => some (-(1 / 10 * y))) none (fun _ _ _ => .num (1 / 2)) (some 100) 1 none

def exCtlStart : ESolver ℚ ℚ := newESolver 0 1 (-1 / 10) (scal (-1 / 10)) (1 / 2) (fun _ => 0) 1 0

theorem exCtl_ok : ECfgOK exCtl := exE_ok _ _ _ _ (Or.inl rfl) _ (by intro m h; cases h)
theorem exCtl_solves : LinSolves exCtl := exE_solves _ _ _ _ _ _
theorem exCtlStart_new : IsNew exCtlStart 0 1 (-1 / 10) (scal (-1 / 10)) := ⟨_, _, _, _, by norm_num, rfl⟩

theorem exCtl_step {n : ℕ} (h : ((eStep exCtl 10 (eAfter exCtl exCtlStart n)).map fun p => p.1) = some .ok) :
    eStep exCtl 10 (eAfter exCtl exCtlStart n) = some (.ok, eAfter exCtl exCtlStart (n + 1)) := by
  conv_rhs => unfold eAfter
  cases hs : eStep exCtl 10 (eAfter exCtl exCtlStart n) with
  | none => rw [hs] at h; cases h
  | some p =>
    rw [hs] at h
    obtain ⟨o, v'⟩ := p
    simp only [Option.map_some, Option.some.injEq] at h
    rw [h]

/-- **C78**, non-vacuity of `C78_first_step` and `C78_second_order`: three successive successful steps, without
rejections and limits; the first uses the standard controller (0.5 times 0.8 divided by 0.5), as does the second, the
third one the second order controller. -/
example : EReach exCtl exCtlStart (eAfter exCtl exCtlStart 1) ∧
    eStep exCtl 10 (eAfter exCtl exCtlStart 0) = some (.ok, eAfter exCtl exCtlStart 1) ∧
    eStep exCtl 10 (eAfter exCtl exCtlStart 1) = some (.ok, eAfter exCtl exCtlStart 2) ∧
    eStep exCtl 10 (eAfter exCtl exCtlStart 2) = some (.ok, eAfter exCtl exCtlStart 3) ∧
    (eAfter exCtl exCtlStart 1).st.maxFactor = 4 ∧
    Clean exCtl (eAfter exCtl exCtlStart 0) (eAfter exCtl exCtlStart 1) ∧
    Clean exCtl (eAfter exCtl exCtlStart 1) (eAfter exCtl exCtlStart 2) ∧
    Clean exCtl (eAfter exCtl exCtlStart 2) (eAfter exCtl exCtlStart 3) ∧
    eClips exCtl (eAfter exCtl exCtlStart 2).st.t (eAfter exCtl exCtlStart 2).st.hAbs = false ∧
    (eAfter exCtl exCtlStart 1).st.hAbs = 1 / 2 * (4 / 5 / (1 / 2)) ∧
    (eAfter exCtl exCtlStart 2).st.hAbs = 4 / 5 * (4 / 5 / (1 / 2)) := by
  have h0 := exCtl_step (n := 0) (by decide +kernel)
  have h1 := exCtl_step (n := 1) (by decide +kernel)
  have h2 := exCtl_step (n := 2) (by decide +kernel)
  refine ⟨.tail .refl h0 (fun h => by cases h), h0, h1, h2, by decide +kernel, ?_, ?_, ?_, by decide +kernel,
    by decide +kernel, by decide +kernel⟩ <;> exact ⟨by decide +kernel, by decide +kernel⟩

/-- **C79**, non-vacuity: a step with two attempts; the first one, of length 8, is not accepted. The second needs new factors.
The evaluations are those of the four implicit stages or fewer. -/
example : ((eStep { exNon with tb := some 100 } 9
      { exNonStart with st := { exNonStart.st with hAbs := 8 } }).map fun p =>
    (p.1, decide (0 < p.2.st.nfs + p.2.st.nfi), decide (1 < p.2.st.nlu), decide (3 ≤ p.2.st.nfev))) =
    some (.ok, true, true, true) := by decide +kernel

/-- **C79**, the renewal condition is met by states with three or more iterations and a bad rate. -/
example : Renews exNon { exNonStart.st with niter := 3, rate := some 1, hPrev := some (1 / 2), hLU := some (1 / 2) } (1 / 2) := by
  unfold Renews
  rw [if_neg (by decide)]
  exact ⟨by decide, 1, 1 / 2, 1 / 2, rfl, by norm_num, rfl, rfl, by norm_num⟩

end Extensisq
