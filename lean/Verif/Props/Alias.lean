/-
C100: arrays that were handed out are never changed by later calls.
C101: the results are those of a computation with values.
-/
import Verif.Lemmas.Alias

namespace Extensisq

/-- **Specification of C100.** In every execution of the program, with any numbers in the arrays, any outcomes of tests, any number of
iterations and any exceptions, every array that belongs to the user or was handed to the user has, at every point of the
execution, the contents it had when it was handed over. `mode` says what user code does with arrays. -/
def HandedOutStays (mode : UserMode) (prog : AStmt) : Prop :=
  ∀ (V : Type) (h : ℕ → V) (s : AState V) (done : Bool),
    Exec mode prog (AState.start h) s done → ∀ b v, s.given b = some v → s.heap b = v

/-- **Specification of C101.** In every execution of the program, every array that is read (as an operand, as the argument of `fun` or
`jac`, or when it is handed out) has the contents that the name had got when it was last assigned, or changed through this name. So
the sharing of memory is not observable, and the program computes what it would compute if arrays were values. -/
def ReadsSeeValues (mode : UserMode) (prog : AStmt) : Prop :=
  ∀ (V : Type) (h : ℕ → V) (s : AState V) (done : Bool), Exec mode prog (AState.start h) s done → s.ok

/-- What the checker accepts is right. -/
theorem handed_out_of_accepts {mode : UserMode} {prog : AStmt} (h : aAccepts mode prog = true) : HandedOutStays mode prog := by
  intro V h0 s d he b v hb
  unfold aAccepts at h
  obtain ⟨r, hr⟩ := Option.isSome_iff_exists.1 h
  exact (aCheck_sound hr (AInv.start h0) he).1.intact b v hb

theorem reads_of_accepts {mode : UserMode} {prog : AStmt} (h : aAccepts mode prog = true) : ReadsSeeValues mode prog := by
  intro V h0 s d he
  unfold aAccepts at h
  obtain ⟨r, hr⟩ := Option.isSome_iff_exists.1 h
  exact (aCheck_sound hr (AInv.start h0) he).1.ok

set_option maxRecDepth 100000

theorem accepts_runge_kutta : aAccepts .keeps alRK = true := by decide +kernel
theorem accepts_bs5 : aAccepts .keeps alBS5 = true := by decide +kernel
theorem accepts_cfmr7osc : aAccepts .keeps alCFMR7osc = true := by decide +kernel
theorem accepts_nystrom : aAccepts .keeps alNy = true := by decide +kernel
theorem accepts_nystrom_extended : aAccepts .keeps alNyExt = true := by decide +kernel
theorem accepts_esdirk : aAccepts .keeps alEsdirk = true := by decide +kernel
theorem accepts_ssv2stab : aAccepts .keeps alCheb = true := by decide +kernel
theorem accepts_ssv2stab_reused : aAccepts .reuses alCheb = true := by decide +kernel
theorem accepts_swag : aAccepts .fresh alSwag = true := by decide +kernel
theorem accepts_ckdisc : aAccepts .keeps alCKdiscMain = true := by decide +kernel
theorem accepts_ckdisc_copies : aAccepts .keeps alCKdiscFixed = true := by decide +kernel
theorem accepts_swag_copy : aAccepts .keeps alSwagFixed = true := by decide +kernel

/-- The methods that use the base class as it is (`Me4`, `CK5`, `Ts5`, `Pr7`, `Pr8`, `Pr9`), with both kinds of dense output. -/
theorem C100_runge_kutta : HandedOutStays .keeps alRK := handed_out_of_accepts accepts_runge_kutta
/-- `BS5` with all three interpolants. -/
theorem C100_bs5 : HandedOutStays .keeps alBS5 := handed_out_of_accepts accepts_bs5
/-- `CFMR7osc`. -/
theorem C100_cfmr7osc : HandedOutStays .keeps alCFMR7osc := handed_out_of_accepts accepts_cfmr7osc
/-- `MR6NN`, `Fi4N`. -/
theorem C100_nystrom : HandedOutStays .keeps alNy := handed_out_of_accepts accepts_nystrom
/-- `Mu5Nmb`, and `Fi5N` with `interpolant` 0, 2 or 3. -/
theorem C100_nystrom_extended : HandedOutStays .keeps alNyExt := handed_out_of_accepts accepts_nystrom_extended
/-- All ESDIRK methods, ordinary and differential-algebraic problems, with a Jacobian and mass matrix of any kind. -/
theorem C100_esdirk : HandedOutStays .keeps alEsdirk := handed_out_of_accepts accepts_esdirk
/-- `SSV2stab`. -/
theorem C100_ssv2stab : HandedOutStays .keeps alCheb := handed_out_of_accepts accepts_ssv2stab
/-- `SSV2stab`, also with a `fun` that returns the same array again and again. -/
theorem C100_ssv2stab_reused : HandedOutStays .reuses alCheb := handed_out_of_accepts accepts_ssv2stab_reused
/-- `SWAG` as long as `fun` returns a new array each time and keeps no reference to it. -/
theorem C100_swag : HandedOutStays .fresh alSwag := handed_out_of_accepts accepts_swag
/-- `CKdisc` as long as no dense output is asked for after a fallback step. -/
theorem C100_ckdisc : HandedOutStays .keeps alCKdiscMain := handed_out_of_accepts accepts_ckdisc
/-- `CKdisc` with copies of the two rows of `K` in the dense output of a fallback step. -/
theorem C100_ckdisc_copies : HandedOutStays .keeps alCKdiscFixed := handed_out_of_accepts accepts_ckdisc_copies
/-- `SWAG` with a copy of the first derivative. -/
theorem C100_swag_copy : HandedOutStays .keeps alSwagFixed := handed_out_of_accepts accepts_swag_copy

/-- The methods that use the base class as it is (`Me4`, `CK5`, `Ts5`, `Pr7`, `Pr8`, `Pr9`), with both kinds of dense output. -/
theorem C101_runge_kutta : ReadsSeeValues .keeps alRK := reads_of_accepts accepts_runge_kutta
/-- `BS5` with all three interpolants. -/
theorem C101_bs5 : ReadsSeeValues .keeps alBS5 := reads_of_accepts accepts_bs5
/-- `CFMR7osc`. -/
theorem C101_cfmr7osc : ReadsSeeValues .keeps alCFMR7osc := reads_of_accepts accepts_cfmr7osc
/-- `MR6NN`, `Fi4N`. -/
theorem C101_nystrom : ReadsSeeValues .keeps alNy := reads_of_accepts accepts_nystrom
/-- `Mu5Nmb`, and `Fi5N` with `interpolant` 0, 2 or 3. -/
theorem C101_nystrom_extended : ReadsSeeValues .keeps alNyExt := reads_of_accepts accepts_nystrom_extended
/-- All ESDIRK methods, ordinary and differential-algebraic problems, with a Jacobian and mass matrix of any kind. -/
theorem C101_esdirk : ReadsSeeValues .keeps alEsdirk := reads_of_accepts accepts_esdirk
/-- `SSV2stab`. -/
theorem C101_ssv2stab : ReadsSeeValues .keeps alCheb := reads_of_accepts accepts_ssv2stab
/-- `SSV2stab`, also with a `fun` that returns the same array again and again. -/
theorem C101_ssv2stab_reused : ReadsSeeValues .reuses alCheb := reads_of_accepts accepts_ssv2stab_reused
/-- `SWAG` as long as `fun` returns a new array each time and keeps no reference to it. -/
theorem C101_swag : ReadsSeeValues .fresh alSwag := reads_of_accepts accepts_swag
/-- `CKdisc` as long as no dense output is asked for after a fallback step. -/
theorem C101_ckdisc : ReadsSeeValues .keeps alCKdiscMain := reads_of_accepts accepts_ckdisc
/-- `CKdisc` with copies of the two rows of `K` in the dense output of a fallback step. -/
theorem C101_ckdisc_copies : ReadsSeeValues .keeps alCKdiscFixed := reads_of_accepts accepts_ckdisc_copies
/-- `SWAG` with a copy of the first derivative. -/
theorem C101_swag_copy : ReadsSeeValues .keeps alSwagFixed := reads_of_accepts accepts_swag_copy

/-! ### Where it fails -/

section witnesses

variable {mode : UserMode} {V : Type}

theorem Exec.andThen {p q : AStmt} {s s' s'' : AState V} {d : Bool} (h : Exec mode p s s' true) (h' : Exec mode q s' s'' d) :
    Exec mode (.seq p q) s s'' d := .seq _ _ _ _ _ _ h h'
theorem Exec.l {p q : AStmt} {s s' : AState V} {d : Bool} (h : Exec mode p s s' d) : Exec mode (.choice p q) s s' d := .left _ _ _ _ _ h
theorem Exec.r {p q : AStmt} {s s' : AState V} {d : Bool} (h : Exec mode q s s' d) : Exec mode (.choice p q) s s' d := .right _ _ _ _ _ h
theorem Exec.more {p : AStmt} {s s' s'' : AState V} {d : Bool} (h : Exec mode p s s' true) (h' : Exec mode (.loop p) s' s'' d) :
    Exec mode (.loop p) s s'' d := .loopNext _ _ _ _ _ h h'
theorem Exec.whole {p : AStmt} {s s' : AState V} {d : Bool} (h : Exec mode p s s' d) : Exec mode (.attempt p) s s' true := .attempt _ _ _ _ h

end witnesses

/-- follow the program up to the next statement with a choice of the outcome -/
local macro "go" : tactic => `(tactic| repeat (first | exact Exec.skip _ | exact Exec.bind _ _ _ | apply Exec.andThen))
/-- a new array with contents `v` -/
local macro "al " v:term : tactic => `(tactic| (exact Exec.alloc _ _ _ $v; go))
/-- block `b` gets contents `v` -/
local macro "wr " b:term ", " v:term : tactic => `(tactic| (exact Exec.write _ _ _ $b $v rfl; go))
/-- an array of the user -/
local macro "user " v:term : tactic => `(tactic| (exact Exec.arg _ _ $v; go))
/-- `fun` returns a new array -/
local macro "fnew " v:term : tactic => `(tactic| (exact Exec.callFresh _ _ _ $v rfl; go))
/-- `fun` returns a new array and keeps it -/
local macro "fkeep " v:term : tactic => `(tactic| (exact Exec.callNew _ _ _ $v rfl; go))
/-- `fun` returns an array of its own, for the first time -/
local macro "fown " v:term : tactic => `(tactic| (exact Exec.callOwn _ _ _ $v (fun _ => $v) rfl; go))
/-- `fun` fills and returns its own array again -/
local macro "fagain " b:term ", " v:term : tactic => `(tactic| (exact Exec.callAgain _ _ _ $b (fun _ => $v) rfl rfl; go))
/-- `fun` returns its argument, block `b` -/
local macro "farg " b:term : tactic => `(tactic| (exact Exec.callKnown _ _ _ $b rfl (Or.inr rfl); go))
/-- block `b` is handed out -/
local macro "give " b:term : tactic => `(tactic| (exact Exec.hand _ _ $b rfl; go))
local macro "lft" : tactic => `(tactic| (apply Exec.l; go))
local macro "rgt" : tactic => `(tactic| (apply Exec.r; go))
local macro "again" : tactic => `(tactic| (apply Exec.more; go))
local macro "leave" : tactic => `(tactic| (exact Exec.loopEnd _ _; go))
/-- a step -/
local macro "step" : tactic => `(tactic| (again; lft; apply Exec.whole (d := true); go))
/-- a dense output -/
local macro "dense" : tactic => `(tactic| (again; rgt; lft; apply Exec.whole (d := true); go))

/-- The dense output of `CKdisc` for a fallback step is changed by the next step: the two slopes it keeps are rows of the array `K`,
which the next step overwrites. (With `solve_ivp(..., dense_output=True)` all interpolants are evaluated after the last step.)
Even when `fun` returns new arrays. -/
theorem C100_ckdisc_fallback : ¬ HandedOutStays .fresh alCKdisc := by
  intro H
  have run : ∃ s : AState ℕ, Exec .fresh alCKdisc (AState.start fun _ => 0) s true ∧ s.given 2 = some 1 ∧ s.heap 2 = 7 := by
    apply Exists.intro; apply And.intro
    · go; user 5; lft; give 0; fnew 3; lft; al 0
      step; again; wr 2, 1; leave; al 6; al 0; al 0; leave; fnew 4; wr 2, 1; give 3
      dense; rgt; give 0; give 3; give 2
      step; again; wr 2, 7; leave; al 8; al 0; al 0; leave; fnew 4; wr 2, 7; give 7
      leave
    · exact ⟨rfl, rfl⟩
  obtain ⟨s, hs, hg, hh⟩ := run
  have := H ℕ _ s _ hs 2 1 hg
  omega

/-- `SWAG` with a `fun` that returns its argument, such as `lambda t, y: y`: the first step changes the array `y0` of the user, which
is also the first point of the output of `solve_ivp`. -/
theorem C100_swag_argument_returned : ¬ HandedOutStays .keeps alSwag := by
  intro H
  have run : ∃ s : AState ℕ, Exec .keeps alSwag (AState.start fun _ => 0) s true ∧ s.given 0 = some 5 ∧ s.heap 0 = 7 := by
    apply Exists.intro; apply And.intro
    · go; user 5; lft; give 0; farg 0; lft; al 0; al 0; al 0; al 0; wr 1, 0; wr 3, 0
      step; al 5; rgt; again; lft; wr 1, 0; al 7; wr 1, 0; farg 6; wr 0, 7; wr 4, 0; al 0; lft; leave
      wr 5, 7; farg 5; wr 0, 7; wr 1, 0; give 5
      leave
    · exact ⟨rfl, rfl⟩
  obtain ⟨s, hs, hg, hh⟩ := run
  have := H ℕ _ s _ hs 0 5 hg
  omega

/-- `Fi5N` with `interpolant=1`: the call of `dense_output` changes `solver.y`, which was handed out by the step. -/
theorem C100_fi5n_interpolant1 : ¬ HandedOutStays .fresh alFi5N1 := by
  intro H
  have run : ∃ s : AState ℕ, Exec .fresh alFi5N1 (AState.start fun _ => 0) s true ∧ s.given 6 = some 6 ∧ s.heap 6 = 7 := by
    apply Exists.intro; apply And.intro
    · go; user 5; lft; give 0; fnew 3; lft; al 0; lft; lft; al 0; al 0; al 0
      step; again; wr 4, 1; leave; al 6; lft; al 0; leave; lft; al 0; give 6; lft
      dense; leave; al 0; wr 6, 7; al 0; al 0; give 0; give 11; al 0; al 0; give 0; give 13
      leave
    · exact ⟨rfl, rfl⟩
  obtain ⟨s, hs, hg, hh⟩ := run
  have := H ℕ _ s _ hs 6 6 hg
  omega

/-- The statement is not empty: there are runs of `alRK` in which the user's `y0`, the state after a step and the data of a dense output
have been handed out and a second step follows. -/
example : ∃ s : AState ℕ, Exec .keeps alRK (AState.start fun _ => 0) s true ∧ s.given 0 = some 5 ∧ s.given 3 = some 6 ∧
    s.given 7 = some 12 ∧ s.env .selfY = some 8 := by
  apply Exists.intro; apply And.intro
  · go; user 5; lft; give 0; fkeep 3; lft; al 0
    step; again; wr 2, 1; leave; al 6; lft; al 0; leave; lft; al 0; give 3; lft
    dense; lft; al 0; al 12; give 0; give 7
    step; again; wr 2, 1; leave; al 8; lft; al 0; leave; lft; al 0; give 8; lft
    leave
  · exact ⟨rfl, rfl, rfl, rfl⟩

/-- A `fun` that fills and returns the same array each time: `self.f` is that array (no copy), so that after the first attempt of a step
has been rejected, the second attempt does not start with the derivative at the start of the step, but with the last one
evaluated. The same holds for the reads of `yprime` in `h_start`. -/
theorem C101_reused_buffer : ¬ ReadsSeeValues .reuses alRK := by
  intro H
  have run : ∃ s : AState ℕ, Exec .reuses alRK (AState.start fun _ => 0) s true ∧ (s.ok → 9 = 3) := by
    apply Exists.intro; apply And.intro
    · go; user 5; lft; give 0; fown 3; lft; al 0
      step; again; wr 2, 3; again; al 6; fagain 1, 9; wr 2, 9; leave; al 7; lft; al 0
      again; wr 2, 9; leave; al 7; lft; al 0; leave; lft; al 0; give 6; lft
      leave
    · intro h
      exact h.1.1.1.1.1.1.1.2 1 rfl
  obtain ⟨s, hs, hf⟩ := run
  have := hf (H ℕ _ s _ hs)
  omega

end Extensisq
