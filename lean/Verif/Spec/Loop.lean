import Mathlib.Algebra.Order.Ring.Defs
import Mathlib.Algebra.Order.Archimedean.Basic
import Mathlib.Tactic.Linarith
import Mathlib.Tactic.Ring

/-!
# The loop in which a solver is used

`while solver.status == 'running': solver.step()`, the loop of scipy's `solve_ivp` and of every program which uses a solver object.
-/

namespace Extensisq

/-- `WhileRunning call running raises v n r w`: started with the solver `v`, the loop
`while running(solver): solver.step()` ends after `n` calls, by the exception `r` or (`r = none`) because the solver is no longer
running; `w` is the solver at the end. `call fuel v = some (o, v')`: a call of `step()` returns (or raises, if `raises o`). -/
inductive WhileRunning {S O : Type*} (call : ℕ → S → Option (O × S)) (running : S → Prop) (raises : O → Prop) :
    S → ℕ → Option O → S → Prop
  | stop {v : S} : ¬ running v → WhileRunning call running raises v 0 none v
  | raise {v v' : S} {o : O} {fuel : ℕ} : running v → call fuel v = some (o, v') → raises o →
      WhileRunning call running raises v 1 (some o) v'
  | next {v v' w : S} {o : O} {fuel n : ℕ} {r : Option O} : running v → call fuel v = some (o, v') → ¬ raises o →
      WhileRunning call running raises v' n r w → WhileRunning call running raises v (n + 1) r w

section
variable {S O K : Type*} [Field K] [LinearOrder K] [IsStrictOrderedRing K] {call : ℕ → S → Option (O × S)}
  {running : S → Prop} {raises : O → Prop}

/-- A loop ends if every call returns and each call which leaves the solver running decreases `φ ≥ 0` by `δ > 0`. -/
theorem WhileRunning.exists [Archimedean K] {I : S → Prop} {φ : S → K} {δ : K} (hδ : 0 < δ)
    (hret : ∀ v, I v → running v → ∃ fuel o v', call fuel v = some (o, v'))
    (hdec : ∀ v fuel o v', I v → running v → call fuel v = some (o, v') → ¬ raises o →
      I v' ∧ (running v' → 0 ≤ φ v' ∧ φ v' + δ ≤ φ v)) {v : S} (hI : I v) :
    ∃ n r w, WhileRunning call running raises v n r w := by
  obtain ⟨k, hk⟩ := Archimedean.arch (φ v) hδ
  rw [nsmul_eq_mul] at hk
  induction k generalizing v with
  | zero =>
    by_cases hr : running v
    · obtain ⟨fuel, o, v', hc⟩ := hret v hI hr
      by_cases ho : raises o
      · exact ⟨1, _, _, .raise hr hc ho⟩
      · obtain ⟨-, h⟩ := hdec v fuel o v' hI hr hc ho
        refine ⟨_, _, _, .next hr hc ho (.stop fun hr' => ?_)⟩
        have := h hr'
        simp at hk
        linarith [this.1, this.2]
    · exact ⟨0, _, _, .stop hr⟩
  | succ k ih =>
    by_cases hr : running v
    · obtain ⟨fuel, o, v', hc⟩ := hret v hI hr
      by_cases ho : raises o
      · exact ⟨1, _, _, .raise hr hc ho⟩
      · obtain ⟨hI', h⟩ := hdec v fuel o v' hI hr hc ho
        by_cases hr' : running v'
        · obtain ⟨n, r, w, hw⟩ := ih hI' (by
            have := (h hr').2
            push_cast at hk
            linarith)
          exact ⟨_, _, _, .next hr hc ho hw⟩
        · exact ⟨_, _, _, .next hr hc ho (.stop hr')⟩
    · exact ⟨0, _, _, .stop hr⟩

/-- The number of calls, and what is known at the end. -/
theorem WhileRunning.bound {I : S → Prop} {E : Option O → S → Prop} {φ : S → K} {δ : K} (hδ : 0 ≤ δ)
    (hdec : ∀ v fuel o v', I v → running v → call fuel v = some (o, v') → ¬ raises o →
      I v' ∧ (running v' → 0 ≤ φ v' ∧ φ v' + δ ≤ φ v))
    (hend : ∀ v, I v → ¬ running v → E none v)
    (hraise : ∀ v fuel o v', I v → running v → call fuel v = some (o, v') → raises o → E (some o) v')
    {v : S} {n : ℕ} {r : Option O} {w : S} (h : WhileRunning call running raises v n r w) (hI : I v) (h0 : 0 ≤ φ v) :
    n * δ ≤ φ v + δ ∧ E r w := by
  induction h with
  | stop hr => exact ⟨by simp; linarith, hend _ hI hr⟩
  | raise hr hc ho => exact ⟨by simp; linarith, hraise _ _ _ _ hI hr hc ho⟩
  | @next v v' w o fuel n r hr hc ho hw ih =>
    obtain ⟨hI', hd⟩ := hdec v fuel o v' hI hr hc ho
    by_cases hr' : running v'
    · obtain ⟨h1, h2⟩ := hd hr'
      obtain ⟨h3, h4⟩ := ih hI' h1
      refine ⟨?_, h4⟩
      push_cast
      linarith
    · cases hw with
      | stop _ => exact ⟨by simp; linarith, hend _ hI' hr'⟩
      | raise h _ _ => exact absurd h hr'
      | next h _ _ _ => exact absurd h hr'

end
end Extensisq
