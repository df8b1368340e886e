import Verif.Props.DriverMore
import Verif.Props.Order
import Verif.Model.NystromDense

/-!
# Facts about single methods: C09 (CFMR7osc, BS5), C22 (scale of the preliminary test of BS5), C72 (options of Fi5N)
-/

namespace Extensisq
open Finset

section
variable {K V : Type*} [Field K] [LinearOrder K] [IsStrictOrderedRing K] [AddCommGroup V] [Module K V]

/-- **C09**, for every explicit Runge-Kutta method without preliminary test, and for CFMR7osc: the counter grows by the
number of rejected attempts. -/
theorem C09_methods {c : Cfg K V V} {rhs : K → V → V} {en : V → V → V → ENorm K}
    (hm : (∃ T, c.m = rkMethod T rhs en) ∨ c.m = cfmr7oscMethod K rhs en) {fuel : ℕ}
    {v v' : Solver K V V} {o : Out} (hrun : v.status = .running) (hne : c.tb ≠ some v.st.t)
    (h : step c fuel v = some (o, v')) : ∃ k, RejectedAttempts c v k ∧ v'.st.nfs = v.st.nfs + k :=
  C09_counter_one_step (by rcases hm with ⟨T, e⟩ | e <;> rw [e] <;> rfl) hrun hne h

end

section
variable (K : Type*) [Field K] [CharZero K]

/-- **C22**. The solution used by BS5 to scale its preliminary error estimate is a third order solution. -/
theorem C22_BS5_preliminary_scale :
    OrderCond (BS5.s + 1) (BS5.tab K).full (weights K BS5_B_scale_pre) 3 := by
  have key : (fullL BS5).length = BS5.s + 1 ∧
      (∀ i, i < BS5.s + 1 → ∀ j, j < BS5.s + 1 → (BS5.tab ℚ).full i j = matOf (fullL BS5) i j) ∧
      (∀ i, i < BS5.s + 1 → weights ℚ BS5_B_scale_pre i = BS5_B_scale_pre.getD i 0) ∧
      orderCheck (fullL BS5) BS5_B_scale_pre 1 3 = true := by decide +kernel
  obtain ⟨h1, h2, h3, h4⟩ := key
  intro τ hτ
  have := cond_of_check K h1 h2 h3 h4 τ hτ
  have hd : (τ.dens : K) ≠ 0 := by exact_mod_cast τ.dens_pos.ne'
  have h5 : ∀ i, weights K BS5_B_scale_pre i = ((weights ℚ BS5_B_scale_pre i : ℚ) : K) := by
    intro i; simp [weights]
  simp only [h5]
  rw [Rat.cast_one] at this
  rw [eq_div_iff hd]; exact this

end

/-- **C72**. The integers accepted by Fi5N as `interpolant` are 0, 1, 2 and 3, and they select different interpolants. -/
theorem C72_options (n : ℤ) : ((Fi5Interp.ofInt n).isSome ↔ 0 ≤ n ∧ n ≤ 3) ∧
    ∀ m, (Fi5Interp.ofInt n).isSome → Fi5Interp.ofInt n = Fi5Interp.ofInt m → n = m := by
  constructor
  · unfold Fi5Interp.ofInt
    split_ifs with h0 h1 h2 h3 <;> simp <;> omega
  · intro m hs h
    unfold Fi5Interp.ofInt at hs h
    split_ifs at hs h <;> first | omega | (simp at h; done) | (simp at hs; done)

end Extensisq
