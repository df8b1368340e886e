import Verif.Model.SensArgs

/-! # C91: argument checks of the sensitivity functions -/

namespace Extensisq

/-- `f` may be used as a function that returns an array of shape `s`. -/
def FnArg.returns (f : FnArg) (s : List ℕ) : Prop := f.callable = true ∧ f.call = some s

theorem bind_ok {a : Except PyErr Unit} {b : Unit → Except PyErr Unit} :
    (a >>= b) = .ok () ↔ a = .ok () ∧ b () = .ok () := by
  cases a <;> simp [bind, Except.bind]

theorem pyAssert_ok {b : Bool} : pyAssert b = .ok () ↔ b = true := by cases b <;> simp [pyAssert]
theorem pyRequire_ok {b : Bool} : pyRequire b = .ok () ↔ b = true := by cases b <;> simp [pyRequire]

private theorem zip_any (s e : List ℕ) (h : s.length = e.length) :
    (s.zip e).any (fun q => q.1 != q.2) = false ↔ s = e := by
  induction s generalizing e with
  | nil => cases e <;> simp_all
  | cons a s ih =>
    cases e with
    | nil => simp at h
    | cons b e =>
      simp only [List.length_cons, Nat.add_right_cancel_iff] at h
      simp [ih e h]

theorem expectedShape_length (n : ℕ) {ndim : ℕ} (h : 0 < ndim) (Np : Option ℕ) : (expectedShape n ndim Np).length = ndim := by
  cases Np <;> simp [expectedShape]
  omega

/-- **C91**. A function argument is accepted exactly if it is callable with `(t0, y0, *p)` and returns an array of the
expected shape: `ndim` axes of length `n`, the last one of length `Np` if that is given. -/
theorem C91_function_accepted_iff (f : FnArg) (n : ℕ) {ndim : ℕ} (h : 0 < ndim) (Np : Option ℕ) (iter : Bool) :
    testFunctions f iter n ndim Np = .ok () ↔ iter = true ∧ f.returns (expectedShape n ndim Np) := by
  unfold testFunctions FnArg.returns
  cases hc : f.callable
  · simp [raiseNamed]
  · cases iter
    · simp
    · simp only [Bool.true_eq_false, if_false, true_and]
      cases hf : f.call with
      | none => simp [raiseNamed]
      | some s =>
        simp only [Option.some.injEq]
        by_cases hl : s.length = ndim
        · have hz := zip_any s (expectedShape n ndim Np) (by rw [hl, expectedShape_length n h])
          rw [if_neg (by simpa using hl)]
          cases hb : (s.zip (expectedShape n ndim Np)).any fun q => q.1 != q.2
          · simp [hz.mp hb]
          · have : s ≠ expectedShape n ndim Np := fun he => by rw [hz.mpr he] at hb; cases hb
            simp [raiseNamed, this]
        · rw [if_pos hl]
          have : s ≠ expectedShape n ndim Np := fun he => hl (by rw [he, expectedShape_length n h])
          simp [raiseNamed, this]

private theorem shape_one {s : List ℕ} : s.length = 1 ↔ s = [s.prod] := by
  constructor
  · intro h
    obtain ⟨a, rfl⟩ := List.length_eq_one_iff.mp h
    simp
  · intro h; rw [h]; rfl

/-- **C91**. `sens_forward` starts to integrate exactly if: `y0` is a `float64` vector (of length `ny`, say), `dy0dp` has the
shape `(ny, np)` where `np` is the number of parameters, `t_eval` ends at the end of the interval if given, `fun`, `dfdp` and `jac`
are callable and return arrays of shape `(ny,)`, `(ny, np)`, `(ny, ny)`, `p` is not a scalar, `rtol` is a float and
`atol` is a float or an array of length `ny` — a list or tuple of this length is accepted only if no parameter is zero
(finding F27), an integer never. -/
theorem C91_forward_accepted_iff (x : FwdArgs) :
    fwdChecks x = .ok () ↔ ∃ ny np, x.y0.shape = [ny] ∧ x.y0.float64 = true ∧ x.p.size = np ∧ x.p.shape ≠ [] ∧
      x.dy0dp.shape = [ny, np] ∧ x.tEvalEnd = true ∧ x.fn.returns [ny] ∧ x.dfdp.returns [ny, np] ∧ x.jac.returns [ny, ny] ∧
      x.rtolFloat = true ∧ (x.atol = .float ∨ x.atol = .array ny ∨ x.atol = .list ny ∧ x.zeroP = false) := by
  have hat : ∀ ny z a, (atolCheck ny a = .ok () ∧ atolDivide z a = .ok ()) ↔
      (a = .float ∨ a = .array ny ∨ a = .list ny ∧ z = false) := by
    intro ny z a
    cases a <;> simp [atolCheck, atolDivide]
  unfold fwdChecks
  simp only [bind_ok, pyAssert_ok, pyRequire_ok, C91_function_accepted_iff _ _ (show 0 < 1 by norm_num),
    C91_function_accepted_iff _ _ (show 0 < 2 by norm_num), hat, expectedShape, beq_iff_eq, bne_iff_ne, ne_eq,
    List.length_eq_zero_iff]
  constructor
  · rintro ⟨h1, h2, h3, h4, h5, ⟨h6, h7⟩, ⟨_, h8⟩, ⟨_, h9⟩, h10, h11⟩
    exact ⟨x.y0.size, x.p.size, shape_one.mp h2, h1, rfl, h6, h4.symm, h5, h7, h8, h9, h10, h11⟩
  · rintro ⟨ny, np, h1, h2, h3, h4, h5, h6, h7, h8, h9, h10, h11⟩
    have hs : x.y0.size = ny := by unfold ArrArg.size; rw [h1]; simp
    rw [hs, h3]
    exact ⟨h2, by rw [h1]; rfl, by rw [h5]; rfl, h5.symm, h6, ⟨h4, h7⟩, ⟨h4, h8⟩, ⟨h4, h9⟩, h10, h11⟩

/-- **C91**. The adjoint functions start the forward integration (or use the given `sol_y`) exactly if: `y0` and `p` are
`float64` vectors (lengths `ny`, `np`), `dy0dp` has shape `(ny, np)`, the six functions are callable and return arrays of
shape `(ny,)`, `(ny, np)`, `(ny, ny)` (`fun`, `dfdp`, `jac`) and `(1,)`, `(ny,)`, `(np,)` (`g`, `dgdy`, `dgdp`), and a given `sol_y` has a
dense output. In particular `g` must return an array of length one, not a number. -/
theorem C91_adjoint_accepted_iff (x : AdjArgs) :
    adjChecks x = .ok () ↔ ∃ ny np, x.y0.shape = [ny] ∧ x.y0.float64 = true ∧ x.p.shape = [np] ∧ x.p.float64 = true ∧
      x.dy0dp.shape = [ny, np] ∧ x.fn.returns [ny] ∧ x.dfdp.returns [ny, np] ∧ x.jac.returns [ny, ny] ∧
      x.g.returns [1] ∧ x.dgdy.returns [ny] ∧ x.dgdp.returns [np] ∧ x.solY ≠ some false := by
  unfold adjChecks
  simp only [bind_ok, pyRequire_ok, C91_function_accepted_iff _ _ (show 0 < 1 by norm_num),
    C91_function_accepted_iff _ _ (show 0 < 2 by norm_num), expectedShape, beq_iff_eq, bne_iff_ne, ne_eq]
  constructor
  · rintro ⟨h1, h2, h3, h4, h5, h6, ⟨_, h7⟩, ⟨_, h8⟩, ⟨_, h9⟩, ⟨_, h10⟩, ⟨_, h11⟩, ⟨_, h12⟩, h13⟩
    exact ⟨x.y0.size, x.p.size, shape_one.mp h1, h2, shape_one.mp h3, h4, h6, h7, h8, h9, h12, h10, h11, h13⟩
  · rintro ⟨ny, np, h1, h2, h3, h4, h5, h6, h7, h8, h9, h10, h11, h12⟩
    have hs : x.y0.size = ny := by unfold ArrArg.size; rw [h1]; simp
    have hp : x.p.size = np := by unfold ArrArg.size; rw [h3]; simp
    have hi : ¬ x.p.shape.length = 0 := by rw [h3]; simp
    rw [hs, hp]
    exact ⟨by rw [h1]; rfl, h2, by rw [h3]; rfl, h4, by rw [h5]; rfl, h5, ⟨hi, h6⟩, ⟨hi, h7⟩, ⟨hi, h8⟩, ⟨hi, h10⟩, ⟨hi, h11⟩,
      ⟨hi, h9⟩, h12⟩

/-- **C91** (finding F37). A function argument that is not callable and has no name — a matrix given as `jac`, say — is reported as
`AttributeError` and not with the intended message; so is a callable without name (`functools.partial`) of which the result has a
wrong shape. -/
theorem C91_unnamed (f : FnArg) (hn : f.named = false) (iter : Bool) (n ndim : ℕ) (Np : Option ℕ) {e : PyErr}
    (h : testFunctions f iter n ndim Np = .error e) : e = .attribute ∨ e = .type ∧ iter = false := by
  unfold testFunctions raiseNamed at h
  simp only [hn, Bool.false_eq_true, if_false] at h
  split at h
  · cases h; exact Or.inl rfl
  · split at h
    · rename_i hi; cases h; exact Or.inr ⟨rfl, hi⟩
    · split at h
      · cases h; exact Or.inl rfl
      · split at h
        · cases h; exact Or.inl rfl
        · split at h
          · cases h; exact Or.inl rfl
          · cases h

/-- **C91**. Which exception: for named functions `_test_functions` raises `AssertionError` for an argument that is not
callable or raises, `ValueError` for a wrong shape. -/
theorem C91_named_errors (f : FnArg) (hn : f.named = true) (n ndim : ℕ) (Np : Option ℕ) :
    (f.callable = false ∨ f.call = none → testFunctions f true n ndim Np = .error .assertion) ∧
    (f.callable = true → ∀ s, f.call = some s → testFunctions f true n ndim Np ≠ .ok () →
      testFunctions f true n ndim Np = .error .value) := by
  unfold testFunctions raiseNamed
  simp only [hn, if_true]
  constructor
  · rintro (h | h)
    · rw [if_pos h]
    · rw [h]; split <;> rfl
  · intro hc s hs hne
    rw [hs] at hne ⊢
    simp only [hc, Bool.true_eq_false, if_false] at hne ⊢
    split
    · rfl
    · rename_i h1
      rw [if_neg h1] at hne
      split
      · rfl
      · rename_i h2
        rw [if_neg h2] at hne
        exact absurd rfl hne

/-- C91: a problem of two equations and three parameters is accepted; with `atol` as a list and a parameter zero it is not (finding F27). -/
def exFwd (a : SensAtol) (zeroP : Bool) : FwdArgs :=
  ⟨⟨[2], true⟩, ⟨[3], false⟩, ⟨[2, 3], true⟩, true, ⟨true, true, some [2]⟩, ⟨true, true, some [2, 3]⟩, ⟨true, true, some [2, 2]⟩,
    true, a, zeroP⟩

theorem C91_list_atol_example : fwdChecks (exFwd (.array 2) true) = .ok () ∧ fwdChecks (exFwd (.list 2) false) = .ok () ∧
    fwdChecks (exFwd (.list 2) true) = .error .type ∧ fwdChecks (exFwd .int false) = .error .type := ⟨rfl, rfl, rfl, rfl⟩

/-- C91: an adjoint problem that is accepted, and the same with a scalar-valued `g`. -/
def exAdj (g : List ℕ) : AdjArgs :=
  ⟨⟨[2], true⟩, ⟨[3], true⟩, ⟨[2, 3], true⟩, ⟨true, true, some [2]⟩, ⟨true, true, some [2, 3]⟩, ⟨true, true, some [2, 2]⟩,
    ⟨true, true, some g⟩, ⟨true, true, some [2]⟩, ⟨true, true, some [3]⟩, none⟩

theorem C91_scalar_g_example : adjChecks (exAdj [1]) = .ok () ∧ adjChecks (exAdj []) = .error .value := ⟨rfl, rfl⟩

/-- **C91**. The kind of the first errors of `sens_forward`: `ValueError` if `y0` is not a float64 array, then `AssertionError` if `y0` is not a vector, if
`dy0dp` is not a matrix of the shape `(ny, np)`, or if `t_eval` does not end at the end of the interval. -/
theorem C91_forward_errors (x : FwdArgs) :
    (x.y0.float64 = false → fwdChecks x = .error .value) ∧
    (x.y0.float64 = true → (x.y0.shape.length ≠ 1 ∨ x.dy0dp.shape ≠ [x.y0.size, x.p.size] ∨ x.tEvalEnd = false) → fwdChecks x = .error .assertion) := by
  refine ⟨fun h => ?_, fun h h' => ?_⟩
  · unfold fwdChecks
    rw [h]
    rfl
  · unfold fwdChecks
    rw [h]
    by_cases h1 : x.y0.shape.length = 1
    · have e1 : pyAssert (x.y0.shape.length == 1) = .ok () := pyAssert_ok.mpr (by simp [h1])
      by_cases h2 : x.dy0dp.shape.length = 2
      · have e2 : pyAssert (x.dy0dp.shape.length == 2) = .ok () := pyAssert_ok.mpr (by simp [h2])
        by_cases h3 : x.dy0dp.shape = [x.y0.size, x.p.size]
        · have h4 : x.tEvalEnd = false := by
            rcases h' with h' | h' | h'
            · exact absurd h1 h'
            · exact absurd h3 h'
            · exact h'
          have e3 : pyAssert ([x.y0.size, x.p.size] == x.dy0dp.shape) = .ok () := pyAssert_ok.mpr (by rw [h3]; simp)
          rw [e1, e2, e3, h4]
          rfl
        · have e3 : pyAssert ([x.y0.size, x.p.size] == x.dy0dp.shape) = .error .assertion := by
            have : ([x.y0.size, x.p.size] == x.dy0dp.shape) = false := by
              rw [beq_eq_false_iff_ne]
              exact fun e => h3 e.symm
            rw [this]
            rfl
          rw [e1, e2, e3]
          rfl
      · have e2 : pyAssert (x.dy0dp.shape.length == 2) = .error .assertion := by
          have : (x.dy0dp.shape.length == 2) = false := by simpa using h2
          rw [this]
          rfl
        rw [e1, e2]
        rfl
    · have e1 : pyAssert (x.y0.shape.length == 1) = .error .assertion := by
        have : (x.y0.shape.length == 1) = false := by simpa using h1
        rw [this]
        rfl
      rw [e1]
      rfl

end Extensisq
