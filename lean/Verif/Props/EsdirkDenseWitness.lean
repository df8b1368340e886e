import Verif.Props.KcDense

/-! # Non-vacuity of C56 and C76 -/

set_option maxRecDepth 100000
set_option linter.unusedSectionVars false

namespace Extensisq
open Finset

/-! ### C56: TRX2 for `y' = -y`, forward and backward -/

/-- The hypotheses of C56 hold for TRX2 with rational numbers. -/
example : MidOK exLin.T ∧ ETabOK exLin.T := ⟨TRX2_mid 0, TRX2_ok⟩

/-- ... and for TRBDF2 with real numbers. -/
example : MidOK (TRBDF2.tab ℝ √2) ∧ ETabOK (TRBDF2.tab ℝ √2) :=
  ⟨TRBDF2_mid _ sqrt2_mul (by positivity), TRBDF2_ok _ sqrt2_mul⟩

/-- End points and values of the dense output of the first step at its start, a quarter, the middle and its end. -/
def exDenseVals (c : ECfg ℚ ℚ) (h : ℚ) : Option (ℚ × ℚ × ℚ × ℚ × ℚ × ℚ) :=
  match eStep c 5 exLinStart with
  | some (.ok, v) => (hsDense c v).map fun o =>
      (o.tOld, o.t, o.eval 0, o.eval (h / 4), o.eval (h / 2), o.eval h)
  | _ => none

/-- Backward integration. -/
def exBack : ECfg ℚ ℚ := exE (fun _ y => some (-y)) none exErr (some (-1)) (-1) none

example : exDenseVals exLin (1 / 2) = some (0, 1 / 2, 1, 127 / 144, 7 / 9, 49 / 81) := by decide +kernel
example : exDenseVals exBack (-1 / 2) = some (-1 / 2, 0, 1, 127 / 112, 9 / 7, 81 / 49) := by decide +kernel

/-! ### C76: any of the methods for `y' = 1` over the real numbers -/

/-- Fixed fields of the example. -/
noncomputable def exR (R : ESTable) : ECfg ℝ ℝ where
  T := R.tab ℝ √2
  fn := fun _ _ => some 1
  jac := none
  jacEach := false
  M := LinearMap.id
  dae := false
  lin := fun _ _ b => b
  dzNorm := fun _ _ v => |v|
  errNorm := fun _ _ e => .num |e|
  tb := none
  dir := 1
  maxStep := none
  hMinA := 0
  hMinB := 1 / 10 ^ 100
  tinyErr := 1 / 10 ^ 100
  minFactor := 1 / 5
  errExp := -1 / 3
  minbeta1 := -2 / 3
  minbeta2 := 1 / 3
  minalpha := 1
  safety := 8 / 10
  safetySc := 8 / 10
  pw := fun x e => x ^ e

theorem exR_ok (R : ESTable) : ECfgOK (exR R) where
  dir := Or.inl rfl
  hMinA := by norm_num [exR]
  hMinB := by norm_num [exR]
  tiny := by norm_num [exR]
  minF0 := by norm_num [exR]
  minF1 := by norm_num [exR]
  errExp := by norm_num [exR]
  safety0 := by norm_num [exR]
  safety1 := by norm_num [exR]
  safetySc := by norm_num [exR]
  pw := PowOK.rpow
  maxStep := by intro m h; cases h

noncomputable def exRStart : ESolver ℝ ℝ := newESolver 0 0 1 0 1 (fun _ => 0) 1 0

theorem exRStart_new : IsNew exRStart 0 0 1 0 := ⟨_, _, _, _, by norm_num, rfl⟩

theorem exR_stage (R : ESTable) {i : StageIn ℝ ℝ} (h1 : i.curJ = true) (h2 : i.hLU = some i.h) (z : ℝ) :
    solveStage (exR R) i z = some ⟨true, i.h, none, 1, 1⟩ := by
  have h3 : (exR R).linear = true := rfl
  unfold solveStage newton
  dsimp only
  rw [show (exR R).fn i.t (i.psi + (exR R).T.d • z) = some 1 from rfl]
  dsimp only
  rw [if_pos h3, if_pos ⟨h1, h2⟩]
  simp [exR]

theorem exR_stages (R : ESTable) (t y : ℝ) {h : ℝ} (hh : h ≠ 0) (F : Fact ℝ ℝ) (sc : Option ℝ) :
    ∀ (m s : ℕ) (a : Stages ℝ ℝ), a.converged = true → (∀ j < s, a.Ks j = 1) →
      ∃ b, stages (exR R) t y h F sc true (some h) m s a = some b ∧ b.converged = true ∧ ∀ j < s + m, b.Ks j = 1
  | 0, s, a, h1, h2 => ⟨a, rfl, h1, h2⟩
  | m + 1, s, a, h1, h2 => by
    unfold stages
    dsimp only
    rw [exR_stage R rfl rfl]
    dsimp only
    rw [if_pos rfl]
    obtain ⟨b, b1, b2, b3⟩ := exR_stages R t y hh F sc m (s + 1) ⟨true, ePsi (exR R).T y h a.Ks s, h,
      Function.update a.Ks s (h⁻¹ • h), rmax a.rate none, max a.niter 1, a.evals + 1⟩ rfl (by
        intro j hj
        dsimp only
        by_cases hjs : j = s
        · subst hjs; rw [Function.update_self]; simp [hh]
        · rw [Function.update_of_ne hjs]; exact h2 j (by omega))
    exact ⟨b, b1, b2, fun j hj => b3 j (by omega)⟩

/-- The weights of the error estimate sum to zero. -/
theorem E_sum {R : ESTable} (h : ((List.range R.n).map fun i => R.E.getD i 0).sum.near (1 / 10 ^ 10) = true) :
    |∑ j ∈ range R.n, (R.tab ℝ √2).E j| ≤ 1 / 10 ^ 10 := by
  have := Q2.near_spec h
  rw [show (((List.range R.n).map fun i => R.E.getD i 0).sum).val √2 = ∑ j ∈ range R.n, (R.tab ℝ √2).E j from ?_] at this
  · push_cast at this; exact this
  · show Q2.hom √2 sqrt2_mul _ = _
    rw [map_list_sum, List.map_map]
    induction R.n with
    | zero => rfl
    | succ n ih => rw [List.range_succ, List.map_append, List.sum_append, ih, sum_range_succ]; simp; rfl

section
variable {K V : Type*} [Field K] [LinearOrder K] [IsStrictOrderedRing K] [AddCommGroup V] [Module K V] {c : ECfg K V}

/-- A pass that succeeds. -/
theorem eIter_accept {minStep : K} {l : LSt K V} {a : Stages K V} {x : K} (h1 : ¬ l.hAbs < minStep)
    (ha : attOf c l = some a) (hcv : a.converged = true)
    (he : c.errNorm (s1Of c l).y (a.psi + c.T.d • a.z) (eError c (hOf c l) (factOf c l) (scOf c l) a.Ks) = .num x)
    (hx : x < 1) (hs : l.s.stdSc = true) : ∃ s, eIter c minStep l = .done .ok s := by
  have hf : ∃ f, eAcceptFactor c (s2Of c l a) l.hAbs x = some f := by
    have : (s2Of c l a).stdSc = true := by
      show (s1Of c l).stdSc = true
      unfold s1Of factors
      split_ifs <;> exact hs
    unfold eAcceptFactor
    split_ifs <;> exact ⟨_, rfl⟩
  obtain ⟨f, hf⟩ := hf
  unfold eIter
  rw [if_neg h1]
  dsimp only
  have ha' : attempt c (factors c l (l.hAbs * c.dir)).2.2.t (factors c l (l.hAbs * c.dir)).2.2.y (l.hAbs * c.dir)
    (factors c l (l.hAbs * c.dir)).1 (factors c l (l.hAbs * c.dir)).2.1 (factors c l (l.hAbs * c.dir)).2.2.curJ
    (factors c l (l.hAbs * c.dir)).2.2.hLU (factors c l (l.hAbs * c.dir)).2.2.Ks = some a := ha
  rw [ha']
  dsimp only
  rw [if_pos hcv]
  unfold afterStages
  rw [show c.errNorm _ _ _ = _ from he]
  dsimp only
  rw [if_pos hx]
  unfold eAccepted
  rw [show eAcceptFactor c _ _ _ = _ from hf]
  exact ⟨_, rfl⟩

end

/-- A successful step of any of the methods. -/
theorem exR_step {R : ESTable} (hR : R ∈ kcMethods) : ∃ v, eStep (exR R) 1 exRStart = some (.ok, v) := by
  have hE : |∑ j ∈ range R.n, (R.tab ℝ √2).E j| ≤ 1 / 10 ^ 10 := by
    apply E_sum
    have : (kcMethods.all fun R => (((List.range R.n).map fun i => R.E.getD i 0).sum.near (1 / 10 ^ 10))) = true := by
      decide +kernel
    exact List.all_eq_true.mp this R hR
  have hn : 2 ≤ R.n := (kcMethods_ok hR).n
  have hnf : R.filter = false := by
    simp only [kcMethods, List.mem_cons, List.not_mem_nil, or_false] at hR
    rcases hR with h | h | h | h <;> rw [h] <;> rfl
  have hre : eReassess (exR R) (exRStart).st.t (exRStart).st.hAbs (exRStart).st.stdSc = (1, 1 / 10 ^ 100, true) := by
    have hmin : eMinStep (exR R) 0 1 = 1 / 10 ^ 100 := by
      unfold eMinStep
      show max ((0 : ℝ) * _) (1 / 10 ^ 100) = _
      rw [zero_mul]; exact max_eq_right (by positivity)
    show eReassess (exR R) 0 1 true = _
    have hcl : eClips (exR R) 0 1 = false := by
      unfold eClips
      rw [hmin]
      simp only [Bool.or_eq_false_iff, decide_eq_false_iff_not, not_lt]
      exact ⟨by norm_num, rfl⟩
    unfold eReassess eClip
    rw [hcl, hmin]
    rfl
  have hK0 : ∀ j < 1, (Function.update (fun _ => 0) 0 1 : ℕ → ℝ) j = 1 := by
    intro j hj
    have : j = 0 := by omega
    rw [this, Function.update_self]
  obtain ⟨b, b1, b2, b3⟩ := exR_stages R 0 0 (h := 1) one_ne_zero ⟨1, 0⟩ none (R.n - 1) 1
    { converged := true, psi := 0, z := 0, Ks := Function.update (fun _ => 0) 0 1, rate := none, niter := 0, evals := 0 }
    rfl hK0
  have hb : ∀ j < R.n, b.Ks j = 1 := fun j hj => b3 j (by omega)
  have hlt : |∑ j ∈ range R.n, (R.tab ℝ √2).E j| < 1 := hE.trans_lt (by norm_num)
  have herr : ∀ F sc, eError (exR R) 1 F sc b.Ks = ∑ j ∈ range R.n, (R.tab ℝ √2).E j := by
    intro F sc
    unfold eError
    rw [if_neg (by show ¬ R.filter = true; rw [hnf]; simp)]
    rw [one_smul]
    apply sum_congr rfl
    intro j hj
    rw [hb j (mem_range.mp hj), smul_eq_mul, mul_one]; rfl
  unfold eStep
  rw [show exRStart.status = .running from rfl]
  dsimp only
  rw [if_neg (by show (none : Option ℝ) ≠ some _; simp)]
  have him : ∃ s', eStepImpl (exR R) 1 exRStart.st = some (.ok, s') := by
    unfold eStepImpl
    rw [hre]
    dsimp only
    rw [show preemptive (exR R) _ 1 = some _ from rfl]
    dsimp only
    unfold eLoop
    obtain ⟨s', hs'⟩ := eIter_accept (c := exR R) (minStep := 1 / 10 ^ 100)
      (l := { s := { exRStart.st with stdSc := true, Ks := Function.update exRStart.st.Ks 0 exRStart.st.yp },
              hAbs := 1, LU := exRStart.st.LU, sc := exRStart.st.sc, rej := false })
      (a := b) (x := |∑ j ∈ range R.n, (R.tab ℝ √2).E j|) (by norm_num)
      (by
        show attempt (exR R) 0 0 (1 * 1) ⟨1 * 1, 0⟩ none true (some (1 * 1)) _ = some b
        rw [one_mul]
        exact b1) b2
      (by
        rw [show hOf (exR R) _ = 1 from one_mul _, herr]; rfl) hlt rfl
    rw [hs']
    exact ⟨_, rfl⟩
  obtain ⟨s', hs'⟩ := him
  rw [hs']
  exact ⟨_, rfl⟩

/-- The hypotheses of C76 are met. -/
example {R : ESTable} (hR : R ∈ kcMethods) : ∃ v o, eStep (exR R) 1 exRStart = some (.ok, v) ∧
    kcDense √2 R.n R.P1 v = some o ∧ o.eval 0 = 0 ∧ HasDerivAt o.eval 1 0 := by
  obtain ⟨v, hv⟩ := exR_step hR
  have ht : (exR R).tb ≠ some exRStart.st.t := by show (none : Option ℝ) ≠ some _; simp
  obtain ⟨-, o, a1, a2, -⟩ := C76_values hR (opt := "C1") rfl (exR_ok R) rfl exRStart_new .refl ht hv
  obtain ⟨o', d, b1, b2, -⟩ := C76_C1 hR rfl (exR_ok R) rfl exRStart_new .refl ht hv
  rw [a1] at b1; cases b1
  exact ⟨v, o, hv, a1, a2, b2⟩

end Extensisq
