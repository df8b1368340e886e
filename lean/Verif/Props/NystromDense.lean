import Verif.Model.NystromDense
import Verif.Lemmas.BSeriesNVar
import Verif.Props.NystromOrder
import Verif.Props.DenseC1

/-!
# C72, C53, C54: dense output and options of the Nystrom methods
-/

set_option linter.unusedSectionVars false
set_option maxRecDepth 100000

namespace Extensisq
open Finset

section
variable {K X : Type*} [Field K] [AddCommGroup X] [Module K X]

/-! ## Extra stages -/

theorem nyExtra_lt (acc : K → X × X → X) (tOld : K) (yOld : X × X) (h : K) :
    ∀ (l : List (List ℚ × List ℚ × ℚ)) (s : ℕ) (Ks : ℕ → X) (i : ℕ), i < s →
      nyExtra acc tOld yOld h s l Ks i = Ks i
  | [], _, _, _, _ => rfl
  | (a, ap, c) :: r, s, Ks, i, hi => by
    rw [nyExtra, nyExtra_lt acc tOld yOld h r (s + 1) _ i (by omega), Function.update_of_ne (by omega)]

/-- Every extra stage satisfies its stage equation. -/
theorem nyExtra_eq (acc : K → X × X → X) (tOld : K) (yOld : X × X) (h : K) :
    ∀ (l : List (List ℚ × List ℚ × ℚ)) (s : ℕ) (Ks : ℕ → X) (m : ℕ) (hm : m < l.length),
      let k := nyExtra acc tOld yOld h s l Ks
      k (s + m) = acc (tOld + ((l[m].2.2 : ℚ) : K) * h)
        (yOld.1 + (((l[m].2.2 : ℚ) : K) * h) • yOld.2 +
            h ^ 2 • ∑ j ∈ range (s + m), ((l[m].1.getD j 0 : ℚ) : K) • k j,
         yOld.2 + h • ∑ j ∈ range (s + m), ((l[m].2.1.getD j 0 : ℚ) : K) • k j)
  | [], _, _, _, hm => absurd hm (by simp)
  | (a, ap, c) :: r, s, Ks, 0, _ => by
    dsimp only
    have e : ∀ j, j < s → nyExtra acc tOld yOld h s ((a, ap, c) :: r) Ks j = Ks j :=
      fun j hj => nyExtra_lt acc tOld yOld h _ s _ j hj
    have e' : ∀ w : ℕ → K, ∑ j ∈ range (s + 0), w j • nyExtra acc tOld yOld h s ((a, ap, c) :: r) Ks j =
        ∑ j ∈ range s, w j • Ks j := fun w => sum_congr rfl fun j hj => by rw [e j (mem_range.mp hj)]
    rw [e', e']
    rw [nyExtra, add_zero, nyExtra_lt acc tOld yOld h r (s + 1) _ s (by omega), Function.update_self]
    simp only [List.getElem_cons_zero]
    congr 2
    abel
  | (a, ap, c) :: r, s, Ks, m + 1, hm => by
    have := nyExtra_eq acc tOld yOld h r (s + 1)
      (Function.update Ks s
        (acc (tOld + (c : K) * h)
          (yOld.1 + (h ^ 2 • (∑ j ∈ range s, ((a.getD j 0 : ℚ) : K) • Ks j) + ((c : K) * h) • yOld.2),
           yOld.2 + h • ∑ j ∈ range s, ((ap.getD j 0 : ℚ) : K) • Ks j))) m
      (by simpa using hm)
    dsimp only at this ⊢
    rw [nyExtra]
    rw [show s + 1 + m = s + (m + 1) by omega] at this
    simpa only [List.getElem_cons_succ] using this

/-! ## The interpolants -/

/-- An interpolant of a Nystrom method: table, extra stages, `P`, `Pp`. -/
structure NyInterp where
  R : NyTable
  l : List (List ℚ × List ℚ × ℚ)
  P : List (List ℚ)
  Pp : List (List ℚ)

namespace NyInterp

/-- Number of stages, including the one at the new point and the extra ones. -/
def n (I : NyInterp) : ℕ := I.R.s + 1 + I.l.length

def eA (I : NyInterp) : List (List ℚ) := I.R.lA ++ I.l.map (·.1)
def eAp (I : NyInterp) : List (List ℚ) := I.R.lAp ++ I.l.map (·.2.1)
def eC (I : NyInterp) : List ℚ := I.R.lC ++ I.l.map (·.2.2)

/-- The lists describe the stages of the table followed by the extra stages. -/
structure OK (I : NyInterp) : Prop where
  lenA : I.eA.length = I.n
  lenAp : I.eAp.length = I.n
  lenC : I.eC.length = I.n
  stage : ∀ i, i < I.R.s + 1 → ∀ j, j < I.n →
    matOf I.eA i j = (if j < I.R.s + 1 then (I.R.tab ℚ).fullA i j else 0) ∧
    matOf I.eAp i j = (if j < I.R.s + 1 then (I.R.tab ℚ).fullAp i j else 0)
  node : ∀ i, i < I.R.s + 1 → vecOf I.eC i = (I.R.tab ℚ).fullC i
  extra : ∀ m, m < I.l.length → ∀ j, j < I.n →
    matOf I.eA (I.R.s + 1 + m) j = (if j < I.R.s + 1 + m then (I.l.getD m ([], [], 0)).1.getD j 0 else 0) ∧
    matOf I.eAp (I.R.s + 1 + m) j =
      (if j < I.R.s + 1 + m then (I.l.getD m ([], [], 0)).2.1.getD j 0 else 0)
  enode : ∀ m, m < I.l.length → vecOf I.eC (I.R.s + 1 + m) = (I.l.getD m ([], [], 0)).2.2

instance (I : NyInterp) : Decidable I.OK :=
  decidable_of_iff (_ ∧ _ ∧ _ ∧ _ ∧ _ ∧ _ ∧ _)
    ⟨fun h => ⟨h.1, h.2.1, h.2.2.1, h.2.2.2.1, h.2.2.2.2.1, h.2.2.2.2.2.1, h.2.2.2.2.2.2⟩,
     fun h => ⟨h.1, h.2, h.3, h.4, h.5, h.6, h.7⟩⟩

end NyInterp

/-- Interpolant of `MR6NN`. -/
def mr6I : NyInterp := ⟨MR6NN, [], MR6NN_P, MR6NN_Pp⟩
/-- Interpolants 1 to 3 of `Fi5N`. -/
def fi5I1 : NyInterp := ⟨Fi5N, fi5Extra .i1, Fi5N_P1, Fi5N_Pp1⟩
def fi5I2 : NyInterp := ⟨Fi5N, fi5Extra .i2, Fi5N_P2, Fi5N_Pp2⟩
def fi5I3 : NyInterp := ⟨Fi5N, fi5Extra .i3, Fi5N_P3, Fi5N_Pp3⟩
/-- The `better` interpolant of `Mu5Nmb`. -/
def mu5I : NyInterp := ⟨Mu5Nmb, mu5Extra, Mu5Nmb_P_better, Mu5Nmb_Pp_better⟩

theorem nyInterp_shape : ∀ I ∈ [mr6I, fi5I1, fi5I2, fi5I3, mu5I],
    I.l.length = (if I.R.s = 9 ∨ cols I.P = 6 then 1 else if I.R.hasAp then 2 else 0) ∧
    cols I.P = cols I.Pp ∧ I.P.length = I.n ∧ I.Pp.length = I.n := by decide +kernel

/-! ## C72: end points -/

/-- **C72**. At the start of the step every Nystrom output object returns the old state. -/
theorem C72_start (acc : K → X × X → X) (s : ℕ) (l : List (List ℚ × List ℚ × ℚ)) (P Pp : List (List ℚ))
    (d : NyState K X) : nyHorner acc s l P Pp d d.tOld = d.yOld := C26_nystrom_start _ _ _ _ _

theorem nyHorner_end [CharZero K] {acc : K → X × X → X} (I : NyInterp) (d : NyState K X)
    (ht : d.t ≠ d.tOld) (B Bp : ℕ → ℚ)
    (hP : ∀ i, i < I.n → ∑ j ∈ range (cols I.P), entry ℚ I.P i j = B i)
    (hPp : ∀ i, i < I.n → ∑ j ∈ range (cols I.Pp), entry ℚ I.Pp i j = Bp i) :
    let ke := nyExtra acc d.tOld d.yOld (d.t - d.tOld) (I.R.s + 1) I.l d.Ks
    nyHorner acc I.R.s I.l I.P I.Pp d d.t =
      (d.yOld.1 + (d.t - d.tOld) • d.yOld.2 + (d.t - d.tOld) ^ 2 • ∑ i ∈ range I.n, ((B i : ℚ) : K) • ke i,
       d.yOld.2 + (d.t - d.tOld) • ∑ i ∈ range I.n, ((Bp i : ℚ) : K) • ke i) := by
  intro ke
  have hc : ∀ (P : List (List ℚ)) (B : ℕ → ℚ), (∀ i, i < I.n → ∑ j ∈ range (cols P), entry ℚ P i j = B i) →
      ∀ i, i < I.n → ∑ j ∈ range (cols P), entry K P i j = ((B i : ℚ) : K) := by
    intro P B h i hi
    have := congrArg (fun q : ℚ => (q : K)) (h i hi)
    push_cast at this
    simpa [entry] using this
  exact C26_nystrom_end ht d.yOld I.P I.Pp I.n ke (fun i => ((B i : ℚ) : K)) (fun i => ((Bp i : ℚ) : K))
    (hc _ _ hP) (hc _ _ hPp)

/-- The weights of the step, as sums over the stages including the extra ones. -/
theorem sum_weights [CharZero K] {acc : K → X × X → X} (I : NyInterp) (d : NyState K X) (c : List ℚ)
    (hc : ∀ i, i < I.n → I.R.s ≤ i → c.getD i 0 = 0) (w : ℕ → K) (hw : ∀ i, w i = ((c.getD i 0 : ℚ) : K)) :
    ∑ i ∈ range I.n, ((c.getD i 0 : ℚ) : K) •
        nyExtra acc d.tOld d.yOld (d.t - d.tOld) (I.R.s + 1) I.l d.Ks i =
      ∑ i ∈ range I.R.s, w i • d.Ks i := by
  have hsub : range I.R.s ⊆ range I.n := range_subset_range.mpr (by unfold NyInterp.n; omega)
  rw [← sum_subset hsub]
  · apply sum_congr rfl
    intro i hi
    have hi := mem_range.mp hi
    rw [nyExtra_lt _ _ _ _ _ _ _ _ (by omega), hw]
  · intro i hi hi'
    rw [mem_range] at hi hi'
    rw [hc i hi (by omega), Rat.cast_zero, zero_smul]

theorem nyInterp_rows : (∀ I ∈ [mr6I, fi5I2, mu5I],
    ∀ i, i < I.n → ∑ j ∈ range (cols I.P), entry ℚ I.P i j = I.R.B.getD i 0) ∧
    (∀ I ∈ [mr6I, fi5I1, fi5I2, mu5I],
      ∀ i, i < I.n → ∑ j ∈ range (cols I.Pp), entry ℚ I.Pp i j = I.R.Bp.getD i 0) ∧
    (∀ i, i < fi5I1.n → ∑ j ∈ range (cols fi5I1.P), entry ℚ fi5I1.P i j = Fi5N_Bi.getD i 0) ∧
    (∀ I ∈ [mr6I, fi5I1, fi5I2, mu5I], ∀ i, i < I.n → I.R.s ≤ i →
      I.R.B.getD i 0 = 0 ∧ I.R.Bp.getD i 0 = 0) := by
  decide +kernel

end

section
variable {K X : Type*} [Field K] [LinearOrder K] [CharZero K] [AddCommGroup X] [Module K X]

/-- The state of the solver after a step: `d` holds a Nystrom step of the method `R`. -/
def IsNyDone (R : NyTable) (acc : K → X × X → X) (d : NyState K X) : Prop :=
  IsNyStep (R.tab K) acc d.tOld d.yOld (d.t - d.tOld) d.Ks d.y

theorem nyHorner_end_match {acc : K → X × X → X} (I : NyInterp) (hI : I ∈ [mr6I, fi5I2, mu5I])
    {d : NyState K X} (ht : d.t ≠ d.tOld) (hd : IsNyDone I.R acc d) :
    nyHorner acc I.R.s I.l I.P I.Pp d d.t = d.y := by
  obtain ⟨h1, h2, -, h4⟩ := nyInterp_rows
  have hI' : I ∈ [mr6I, fi5I1, fi5I2, mu5I] := by
    simp only [List.mem_cons, List.not_mem_nil, or_false] at hI ⊢
    tauto
  have e := nyHorner_end (acc := acc) I d ht (fun i => I.R.B.getD i 0) (fun i => I.R.Bp.getD i 0)
    (h1 I hI) (h2 I hI')
  dsimp only at e
  rw [e, sum_weights I d I.R.B (fun i hi hs => (h4 I hI' i hi hs).1) (I.R.tab K).B (fun i => rfl),
    sum_weights I d I.R.Bp (fun i hi hs => (h4 I hI' i hi hs).2) (I.R.tab K).Bp (fun i => rfl)]
  apply Prod.ext
  · exact hd.pos.symm
  · exact hd.vel.symm

/-- **C72**. At the end of the step the dense output of `MR6NN`, of `Mu5Nmb` (`better`) and of interpolant 2 of
`Fi5N` returns the new state, position and velocity. -/
theorem C72_end {acc : K → X × X → X} {d : NyState K X} (ht : d.t ≠ d.tOld) :
    (IsNyDone MR6NN acc d → mr6Dense acc d d.t = d.y) ∧
    (IsNyDone Mu5Nmb acc d → mu5Dense true acc d d.t = d.y) ∧
    (IsNyDone Fi5N acc d → (fi5Dense .i2 acc d).1 d.t = d.y ∧ (fi5Dense .i2 acc d).2 = d.y) :=
  ⟨fun h => nyHorner_end_match mr6I (by simp) ht h, fun h => nyHorner_end_match mu5I (by simp) ht h,
   fun h => ⟨nyHorner_end_match fi5I2 (by simp) ht h, rfl⟩⟩

/-- **C72** (finding F13). With `interpolant=1` the call of `dense_output` replaces the position of the solver by
the end value of the interpolant; the velocity is kept, and the output is continuous with the *replaced*
state. -/
theorem C72_interpolant1_replaces_position {acc : K → X × X → X} {d : NyState K X} (ht : d.t ≠ d.tOld)
    (hd : IsNyDone Fi5N acc d) :
    (fi5Dense .i1 acc d).1 d.t = (fi5Dense .i1 acc d).2 ∧ (fi5Dense .i1 acc d).2.2 = d.y.2 := by
  obtain ⟨h1, h2, h3, h4⟩ := nyInterp_rows
  have e := nyHorner_end (acc := acc) fi5I1 d ht (fun i => Fi5N_Bi.getD i 0) (fun i => fi5I1.R.Bp.getD i 0)
    h3 (h2 fi5I1 (by simp))
  dsimp only at e
  refine ⟨?_, rfl⟩
  change nyHorner acc fi5I1.R.s fi5I1.l fi5I1.P fi5I1.Pp d d.t = _
  rw [e, sum_weights fi5I1 d fi5I1.R.Bp (fun i hi hs => (h4 fi5I1 (by simp) i hi hs).2)
    (Fi5N.tab K).Bp (fun i => rfl)]
  apply Prod.ext
  · simp only [fi5Dense]
    have hn : fi5I1.n = Fi5N.s + 3 := by decide +kernel
    rw [hn]
    rw [add_assoc, add_comm (_ • d.yOld.2)]
    rfl
  · exact hd.vel.symm

/-- Options 0, 2 and 3 do not change the solver. -/
theorem C72_other_interpolants_keep_state (acc : K → X × X → X) (d : NyState K X) (o : Fi5Interp)
    (ho : o ≠ .i1) : (fi5Dense o acc d).2 = d.y := by
  cases o
  · rfl
  · exact absurd rfl ho
  · rfl
  · rfl

end

/-! ## C72: smoothness -/

section
variable {E : Type*} [NormedAddCommGroup E] [NormedSpace ℝ E]

theorem nyHorner_vel (acc : ℝ → E × E → E) (s : ℕ) (l : List (List ℚ × List ℚ × ℚ)) (P Pp : List (List ℚ))
    (d : NyState ℝ E) (τ : ℝ) : (nyHorner acc s l P Pp d τ).2 =
      horner d.tOld d.t d.yOld.2 (denseQ ℝ Pp (s + 1 + l.length)
        (nyExtra acc d.tOld d.yOld (d.t - d.tOld) (s + 1) l d.Ks)) τ := rfl

theorem nyInterp_deriv : ∀ I ∈ [mr6I, fi5I1, fi5I3, mu5I], ∀ i, i < I.n → ∀ j, j < cols I.P →
    entry ℚ I.Pp i j = ((j : ℚ) + 2) * entry ℚ I.P i j := by decide +kernel

theorem nyHorner_velocity_is_derivative {acc : ℝ → E × E → E} (I : NyInterp)
    (hI : I ∈ [mr6I, fi5I1, fi5I3, mu5I]) {d : NyState ℝ E} (ht : d.t ≠ d.tOld) (τ : ℝ) :
    HasDerivAt (fun τ => (nyHorner acc I.R.s I.l I.P I.Pp d τ).1)
      (nyHorner acc I.R.s I.l I.P I.Pp d τ).2 τ := by
  have hcol : cols I.P = cols I.Pp := by
    have h := nyInterp_shape I (by
      simp only [List.mem_cons, List.not_mem_nil, or_false] at hI ⊢; tauto)
    exact h.2.1
  refine C26_nystrom_velocity_is_derivative ht d.yOld _ _ ?_ ?_ τ
  · rw [denseQ_length, denseQ_length, hcol]
  · intro j hj
    rw [denseQ_length] at hj
    rw [denseQ_getD _ _ _ (hcol ▸ hj), denseQ_getD _ _ _ hj, smul_sum]
    apply sum_congr rfl
    intro i hi
    rw [smul_smul]
    congr 1
    have := congrArg (fun q : ℚ => (q : ℝ)) (nyInterp_deriv I hI i (mem_range.mp hi) j hj)
    push_cast at this
    simpa [entry] using this

/-- **C72**. The velocity returned by the dense output is the derivative of the returned position, for `MR6NN`,
`Mu5Nmb` (`better`) and interpolants 1 and 3 of `Fi5N`, inside and outside the step. -/
theorem C72_velocity_is_derivative {acc : ℝ → E × E → E} {d : NyState ℝ E} (ht : d.t ≠ d.tOld) (τ : ℝ) :
    HasDerivAt (fun τ => (mr6Dense acc d τ).1) (mr6Dense acc d τ).2 τ ∧
    HasDerivAt (fun τ => (mu5Dense true acc d τ).1) (mu5Dense true acc d τ).2 τ ∧
    HasDerivAt (fun τ => ((fi5Dense .i1 acc d).1 τ).1) ((fi5Dense .i1 acc d).1 τ).2 τ ∧
    HasDerivAt (fun τ => ((fi5Dense .i3 acc d).1 τ).1) ((fi5Dense .i3 acc d).1 τ).2 τ :=
  ⟨nyHorner_velocity_is_derivative mr6I (by simp) ht τ, nyHorner_velocity_is_derivative mu5I (by simp) ht τ,
   nyHorner_velocity_is_derivative fi5I1 (by simp) ht τ, nyHorner_velocity_is_derivative fi5I3 (by simp) ht τ⟩

theorem nyInterp_slopes : ∀ I ∈ [mr6I, fi5I1, fi5I2, mu5I], ∀ i, i < I.n →
    dWeight ℚ I.Pp i 0 = (if i = 0 then 1 else 0) ∧ dWeight ℚ I.Pp i 1 = (if i = I.R.s then 1 else 0) := by
  decide +kernel

theorem nyHorner_acceleration {acc : ℝ → E × E → E} (I : NyInterp) (hI : I ∈ [mr6I, fi5I1, fi5I2, mu5I])
    {d : NyState ℝ E} (ht : d.t ≠ d.tOld) :
    HasDerivAt (fun τ => (nyHorner acc I.R.s I.l I.P I.Pp d τ).2) (d.Ks 0) d.tOld ∧
    HasDerivAt (fun τ => (nyHorner acc I.R.s I.l I.P I.Pp d τ).2) (d.Ks I.R.s) d.t := by
  set ke := nyExtra acc d.tOld d.yOld (d.t - d.tOld) (I.R.s + 1) I.l d.Ks with hke
  have hfun : (fun τ => (nyHorner acc I.R.s I.l I.P I.Pp d τ).2) =
      horner d.tOld d.t d.yOld.2 (denseQ ℝ I.Pp I.n ke) := by
    funext τ; exact nyHorner_vel _ _ _ _ _ _ _
  have hs := nyInterp_slopes I hI
  rw [hfun]
  constructor
  · refine (horner_denseQ_deriv ht d.yOld.2 I.Pp I.n ke d.tOld).congr_deriv ?_
    rw [sub_self, zero_div]
    have h0 : (0 : ℝ) = ((0 : ℚ) : ℝ) := by simp
    rw [sum_ite_unit (e := 0) (by unfold NyInterp.n; omega) _ (fun i hi => by
      rw [h0, dWeight_cast, (hs i hi).1]; split_ifs <;> simp)]
    exact nyExtra_lt _ _ _ _ _ _ _ _ (by omega)
  · refine (horner_denseQ_deriv ht d.yOld.2 I.Pp I.n ke d.t).congr_deriv ?_
    rw [div_self (sub_ne_zero.mpr ht)]
    have h0 : (1 : ℝ) = ((1 : ℚ) : ℝ) := by simp
    rw [sum_ite_unit (e := I.R.s) (by unfold NyInterp.n; omega) _ (fun i hi => by
      rw [h0, dWeight_cast, (hs i hi).2]; split_ifs <;> simp)]
    exact nyExtra_lt _ _ _ _ _ _ _ _ (by omega)

/-- **C72**. The slope of the velocity output at both ends of the step is the acceleration of the problem at the
old and at the new point, so successive pieces join with continuous acceleration (`MR6NN`, `Mu5Nmb`,
interpolant 2 of `Fi5N`; interpolant 1 uses the acceleration at the point before the replacement). -/
theorem C72_end_accelerations {acc : ℝ → E × E → E} {d : NyState ℝ E} (ht : d.t ≠ d.tOld) (I : NyInterp)
    (hI : I ∈ [mr6I, fi5I1, fi5I2, mu5I]) (hd : IsNyDone I.R acc d) :
    HasDerivAt (fun τ => (nyHorner acc I.R.s I.l I.P I.Pp d τ).2) (acc d.tOld d.yOld) d.tOld ∧
    HasDerivAt (fun τ => (nyHorner acc I.R.s I.l I.P I.Pp d τ).2) (acc d.t d.y) d.t := by
  obtain ⟨h1, h2⟩ := nyHorner_acceleration (acc := acc) I hI ht
  have hs : 0 < I.R.s ∧ I.R.C.getD 0 0 = 0 := by
    have : ∀ I ∈ [mr6I, fi5I1, fi5I2, mu5I], 0 < I.R.s ∧ I.R.C.getD 0 0 = 0 := by decide +kernel
    exact this I hI
  have e0 : d.Ks 0 = acc d.tOld d.yOld := by
    have := hd.stage 0 hs.1
    have hc : (I.R.tab ℝ).C 0 = 0 := by simp only [NyTable.tab]; rw [hs.2, Rat.cast_zero]
    rw [this, hc]
    simp
  have e1 : d.Ks I.R.s = acc d.t d.y := by
    have := hd.last
    rw [add_sub_cancel] at this
    exact this
  rw [← e0, ← e1]
  exact ⟨h1, h2⟩

end

end Extensisq
