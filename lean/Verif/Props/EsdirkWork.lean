import Verif.Props.EsdirkControl
import Mathlib.Order.Interval.Finset.Nat
import Mathlib.Algebra.BigOperators.Intervals

/-!
# ESDIRK: counters and renewal of the Jacobian (C79)
-/

set_option linter.unusedSectionVars false

namespace Extensisq
open Finset

section
variable {K V : Type*} [Field K] [LinearOrder K] [IsStrictOrderedRing K] [AddCommGroup V] [Module K V]
variable {c : ECfg K V}

/-- `r` is the largest of the rates of the stages `i < N` (with `i ≥ s`). -/
def IsMaxRate (o : ℕ → NewtonOut K V) (I : Finset ℕ) (r : Option K) : Prop :=
  (r = none → ∀ i ∈ I, (o i).rate = none) ∧
  (∀ q, r = some q → IsGreatest {x | ∃ i ∈ I, (o i).rate = some x} q)

theorem rmax_none (a : Option K) : rmax a none = a := by cases a <;> rfl

theorem IsMaxRate.insert {o : ℕ → NewtonOut K V} {I : Finset ℕ} {r : Option K} (h : IsMaxRate o I r) (i : ℕ) :
    IsMaxRate o (insert i I) (rmax r (o i).rate) := by
  cases hi : (o i).rate with
  | none =>
    rw [rmax_none]
    refine ⟨fun hr j hj => ?_, fun q hq => ?_⟩
    · rcases mem_insert.mp hj with rfl | hj
      · exact hi
      · exact h.1 hr j hj
    · obtain ⟨⟨j, j1, j2⟩, g2⟩ := h.2 q hq
      refine ⟨⟨j, mem_insert_of_mem j1, j2⟩, ?_⟩
      rintro x ⟨k, k1, k2⟩
      rcases mem_insert.mp k1 with rfl | k1
      · rw [hi] at k2; cases k2
      · exact g2 ⟨k, k1, k2⟩
  | some x =>
    cases r with
    | none =>
      refine ⟨(fun hr => by cases hr), fun q hq => ?_⟩
      cases hq
      refine ⟨⟨i, mem_insert_self _ _, hi⟩, ?_⟩
      rintro y ⟨k, k1, k2⟩
      rcases mem_insert.mp k1 with rfl | k1
      · rw [hi] at k2; cases k2; exact le_refl _
      · rw [h.1 rfl k k1] at k2; cases k2
    | some r =>
      refine ⟨(fun hr => by cases hr), fun q hq => ?_⟩
      cases hq
      obtain ⟨⟨j, j1, j2⟩, g2⟩ := h.2 r rfl
      constructor
      · rcases max_choice r x with e | e <;> rw [e]
        · exact ⟨j, mem_insert_of_mem j1, j2⟩
        · exact ⟨i, mem_insert_self _ _, hi⟩
      · rintro y ⟨k, k1, k2⟩
        rcases mem_insert.mp k1 with rfl | k1
        · rw [hi] at k2; cases k2; exact le_max_right _ _
        · exact le_max_of_le_left (g2 ⟨k, k1, k2⟩)

/-- The result `b` of the stages `s0, ..., s0 + N - 1`: outcomes `o`, work and rates. -/
structure StagesWork (c : ECfg K V) (t : K) (y : V) (h : K) (F : Fact K V) (sc : Option K) (cj : Bool)
    (hl : Option K) (I : Finset ℕ) (o : ℕ → NewtonOut K V) (b : Stages K V) : Prop where
  out : ∀ i ∈ I, solveStage c (stageIn c t y h F sc cj hl b.Ks i) (ePredict c.T h b.Ks i) = some (o i)
  evals : b.evals = ∑ i ∈ I, (o i).evals
  niter : b.niter = I.sup fun i => (o i).niter
  rate : IsMaxRate o I b.rate

theorem stages_work {t : K} {y : V} {h : K} {F : Fact K V} {sc : Option K} {cj : Bool} {hl : Option K} :
    ∀ {m s : ℕ} {a b : Stages K V} {o : ℕ → NewtonOut K V}, 1 ≤ s → stages c t y h F sc cj hl m s a = some b →
      StagesWork c t y h F sc cj hl (Ico 1 s) o a → a.converged = true →
      ∃ N o', N ≤ m ∧ (b.converged = true → N = m) ∧
        (b.converged = false → 1 ≤ N ∧ (o' (s + N - 1)).converged = false) ∧
        (∀ i, s ≤ i → i + 1 < s + N → (o' i).converged = true) ∧
        (∀ i < s, o' i = o i) ∧
        StagesWork c t y h F sc cj hl (Ico 1 (s + N)) o' b
  | 0, s, a, b, o, hs, hh, hw, hcv => by
    cases hh
    exact ⟨0, o, le_rfl, fun _ => rfl, fun h => absurd hcv (by rw [h]; simp), fun i _ _ => by omega,
      fun _ _ => rfl, hw⟩
  | m + 1, s, a, b, o, hs, hh, hw, hcv => by
    unfold stages at hh
    dsimp only at hh
    split at hh
    · cases hh
    · rename_i ou ho
      set o1 : ℕ → NewtonOut K V := Function.update o s ou with ho1
      have hI : Ico 1 (s + 1) = insert s (Ico 1 s) := by
        ext x; simp only [mem_insert, mem_Ico]; omega
      have hns : s ∉ Ico 1 s := by simp
      have e1 : o1 s = ou := Function.update_self (β := fun _ => NewtonOut K V) _ _ _
      have e2 : ∀ i, i < s → o1 i = o i := fun i hi => Function.update_of_ne (by omega) _ _
      have key : ∀ Ks : ℕ → V, (∀ j < s, Ks j = a.Ks j) → ∀ cvg psi z, StagesWork c t y h F sc cj hl (Ico 1 (s + 1)) o1
          { converged := cvg, psi := psi, z := z, Ks := Ks, rate := rmax a.rate ou.rate,
            niter := max a.niter ou.niter, evals := a.evals + ou.evals } := by
        intro Ks hK cvg psi z
        constructor
        · intro i hi
          have hi' : ∀ j < i, Ks j = a.Ks j := fun j hj => hK j (by have := (mem_Ico.mp hi).2; omega)
          show solveStage c (stageIn c t y h F sc cj hl Ks i) (ePredict c.T h Ks i) = some (o1 i)
          unfold stageIn
          rw [ePsi_congr hi', ePredict_congr hi']
          rw [hI] at hi
          rcases mem_insert.mp hi with rfl | hi
          · rw [e1]; exact ho
          · rw [e2 i (mem_Ico.mp hi).2]; exact hw.out i hi
        · show a.evals + ou.evals = _
          rw [hI, sum_insert hns, e1, hw.evals, add_comm]
          congr 1
          exact sum_congr rfl fun i hi => by rw [e2 i (mem_Ico.mp hi).2]
        · show max a.niter ou.niter = _
          rw [hI, sup_insert, e1, hw.niter, sup_comm]
          congr 1
          exact Finset.sup_congr rfl fun i hi => by rw [e2 i (mem_Ico.mp hi).2]
        · rw [hI]
          have : IsMaxRate o1 (Ico 1 s) a.rate := by
            have hset : {x | ∃ i ∈ Ico 1 s, (o1 i).rate = some x} = {x | ∃ i ∈ Ico 1 s, (o i).rate = some x} := by
              ext x
              constructor <;> rintro ⟨i, i1, i2⟩ <;> refine ⟨i, i1, ?_⟩
              · rwa [e2 i (mem_Ico.mp i1).2] at i2
              · rwa [e2 i (mem_Ico.mp i1).2]
            refine ⟨fun hr i hi => by rw [e2 i (mem_Ico.mp hi).2]; exact hw.rate.1 hr i hi, fun q hq => ?_⟩
            rw [hset]; exact hw.rate.2 q hq
          have h3 := this.insert s
          rw [e1] at h3
          exact h3
      split_ifs at hh with hoc
      · have hlow : ∀ j < s, (Function.update a.Ks s (h⁻¹ • ou.z)) j = a.Ks j := fun j hj =>
          Function.update_of_ne (by omega) _ _
        obtain ⟨N, o', n1, n2, n3, n4, n5, n6⟩ := stages_work (by omega) hh (key _ hlow _ _ _) hoc
        refine ⟨N + 1, o', by omega, fun hb => by rw [n2 hb], fun hb => ⟨by omega, ?_⟩, fun i i1 i2 => ?_,
          fun i hi => ?_, ?_⟩
        · have := (n3 hb).2
          rwa [show s + (N + 1) - 1 = s + 1 + N - 1 by omega]
        · rcases Nat.eq_or_lt_of_le i1 with rfl | i1
          · rw [n5 s (by omega), e1]; exact hoc
          · exact n4 i (by omega) (by omega)
        · rw [n5 i (by omega), e2 i hi]
        · rw [show s + (N + 1) = s + 1 + N by omega]; exact n6
      · cases hh
        refine ⟨1, o1, by omega, fun hb => absurd hb hoc, fun _ => ⟨le_rfl, ?_⟩, fun i i1 i2 => by omega, e2,
          key a.Ks (fun _ _ => rfl) _ _ _⟩
        rw [Nat.add_sub_cancel, e1]; simpa using hoc

/-- The stages `1, ..., N` of an attempt: all converged but possibly the last one, and all done if all converged. -/
theorem att_work {l : LSt K V} {b : Stages K V} (h : attOf c l = some b) :
    ∃ N o, N ≤ c.T.n - 1 ∧ (b.converged = true → N = c.T.n - 1) ∧
      (b.converged = false → 1 ≤ N ∧ (o N).converged = false) ∧
      (∀ i, 1 ≤ i → i < N → (o i).converged = true) ∧
      StagesWork c l.s.t l.s.y (hOf c l) (factOf c l) (scOf c l) l.s.curJ (s1Of c l).hLU (Ico 1 (N + 1)) o b := by
  have hw : StagesWork c (s1Of c l).t (s1Of c l).y (hOf c l) (factOf c l) (scOf c l) (s1Of c l).curJ (s1Of c l).hLU
      (Ico 1 1) (fun _ => ⟨true, 0, none, 0, 0⟩)
      { converged := true, psi := (s1Of c l).y, z := 0, Ks := (s1Of c l).Ks, rate := none, niter := 0, evals := 0 } :=
    ⟨fun i hi => by simp at hi, by simp, by simp, ⟨fun _ i hi => by simp at hi, fun q hq => by cases hq⟩⟩
  obtain ⟨N, o, n1, n2, n3, n4, -, n6⟩ := stages_work (Nat.le_refl 1) h hw rfl
  refine ⟨N, o, n1, n2, fun hb => ?_, fun i i1 i2 => n4 i i1 (by omega), ?_⟩
  · have := n3 hb
    rwa [show 1 + N - 1 = N by omega] at this
  · rw [factors_t, factors_y, factors_curJ, show 1 + N = N + 1 by omega] at n6
    exact n6

/-! ## The passes of the loop -/

/-- The passes of the retry loop: the states in which an attempt is started. -/
def ePasses (c : ECfg K V) (ms : K) : ℕ → LSt K V → List (LSt K V)
  | 0, _ => []
  | n + 1, l =>
    if l.hAbs < ms then [] else l :: match eIter c ms l with
      | .again l' => ePasses c ms n l'
      | .done _ _ => []

/-- Evaluations of `fun` in an attempt. -/
def passEvals (c : ECfg K V) (l : LSt K V) : ℕ := match attOf c l with
  | some a => a.evals
  | none => 0

/-- An iteration of the attempt does not converge. -/
def passFails (c : ECfg K V) (l : LSt K V) : Bool := match attOf c l with
  | some a => !a.converged
  | none => false

/-- All iterations of the attempt converge, and the norm of its error estimate is not below one. -/
def passRejects (c : ECfg K V) (l : LSt K V) : Bool := match attOf c l with
  | some a => a.converged && !(c.errNorm l.s.y (a.psi + c.T.d • a.z)
      (eError c (hOf c l) (factOf c l) (scOf c l) a.Ks)).lt 1
  | none => false

/-- What the counters of `s'` say about the passes `P` of a loop which starts with `l`. -/
structure Counted (c : ECfg K V) (P : List (LSt K V)) (s s' : ESt K V) : Prop where
  nfev : s'.nfev = s.nfev + (P.map (passEvals c)).sum
  nlu : s'.nlu = s.nlu + P.countP fun l => refactor c l (hOf c l)
  nfi : s'.nfi = s.nfi + P.countP (passFails c)
  nfs : s'.nfs = s.nfs + P.countP (passRejects c)
  njev : s'.njev = s.njev + P.countP fun l => passFails c l && !l.s.curJ

theorem factors_nlu (l : LSt K V) (h : K) :
    (factors c l h).2.2.nlu = l.s.nlu + if refactor c l h then 1 else 0 := by
  unfold factors; split <;> simp_all

theorem factors_nfev (l : LSt K V) (h : K) : (factors c l h).2.2.nfev = l.s.nfev := by
  unfold factors; split <;> rfl

theorem Counted.nil (s : ESt K V) : Counted c [] s s := by constructor <;> simp

theorem Counted.cons {l : LSt K V} {P : List (LSt K V)} {s1 s' : ESt K V}
    (h1 : Counted c [l] l.s s1) (h2 : Counted c P s1 s') : Counted c (l :: P) l.s s' := by
  constructor
  · rw [h2.nfev, h1.nfev]; simp; ring
  · rw [h2.nlu, h1.nlu]; simp only [List.countP_cons, List.countP_nil]; ring
  · rw [h2.nfi, h1.nfi]; simp only [List.countP_cons, List.countP_nil]; ring
  · rw [h2.nfs, h1.nfs]; simp only [List.countP_cons, List.countP_nil]; ring
  · rw [h2.njev, h1.njev]; simp only [List.countP_cons, List.countP_nil]; ring

/-- One pass. -/
theorem pass_counted {l : LSt K V} {a : Stages K V} (ha : attOf c l = some a) {s1 : ESt K V}
    (h1 : s1.nfev = l.s.nfev + a.evals) (h2 : s1.nlu = (s1Of c l).nlu)
    (h3 : s1.nfi = l.s.nfi + if a.converged then 0 else 1)
    (h4 : s1.nfs = l.s.nfs + if passRejects c l then 1 else 0)
    (h5 : s1.njev = l.s.njev + if !a.converged && !l.s.curJ then 1 else 0) : Counted c [l] l.s s1 := by
  have hf : passFails c l = !a.converged := by unfold passFails; rw [ha]
  constructor
  · rw [h1, List.map_cons, List.map_nil, List.sum_cons, List.sum_nil, add_zero, passEvals, ha]
  · rw [h2, factors_nlu, List.countP_cons, List.countP_nil, zero_add]
  · rw [h3, List.countP_cons, List.countP_nil, zero_add, hf]
    cases a.converged <;> rfl
  · rw [h4, List.countP_cons, List.countP_nil, zero_add]
  · rw [h5, List.countP_cons, List.countP_nil, zero_add, hf]

theorem passRejects_eq {l : LSt K V} {a : Stages K V} (ha : attOf c l = some a) {e : ENorm K}
    (he : c.errNorm l.s.y (a.psi + c.T.d • a.z) (eError c (hOf c l) (factOf c l) (scOf c l) a.Ks) = e) :
    passRejects c l = (a.converged && !e.lt 1) := by
  unfold passRejects; rw [ha]; dsimp only; rw [he]

theorem passRejects_fail {l : LSt K V} {a : Stages K V} (ha : attOf c l = some a) (hcv : a.converged = false) :
    passRejects c l = false := by
  unfold passRejects; rw [ha]; dsimp only; rw [hcv]; rfl

theorem eLoop_counted {ms : K} : ∀ {n : ℕ} {l : LSt K V} {o : EOut} {s' : ESt K V},
    eLoop c ms n l = some (o, s') → o = .ok ∨ o = .tooSmall → Counted c (ePasses c ms n l) l.s s'
  | 0, l, o, s', h, ho => by cases h
  | n + 1, l, o, s', h, ho => by
    unfold eLoop at h
    unfold ePasses
    rcases eIter_cases (c := c) ms l with ⟨hlt, h'⟩ | ⟨hm, ⟨_, h'⟩ | ⟨a, ha, ⟨l1, hA, h'⟩ | ⟨_, _, _, h'⟩ |
      ⟨_, _, h'⟩ | ⟨x, hcv, he, hx, ⟨_, h'⟩ | ⟨f0, std, _, h'⟩⟩⟩⟩ <;> rw [h'] at h <;> dsimp only at h
    · cases h
      rw [if_pos hlt]
      exact Counted.nil _
    · cases h
      rcases ho with ho | ho <;> cases ho
    · rw [if_neg (not_lt.mpr hm), h']
      dsimp only
      refine Counted.cons ?_ (eLoop_counted h ho)
      have hnf : (s1Of c l).nfev = l.s.nfev := factors_nfev _ _
      cases hA with
      | @newJ jac hcv hJ hj =>
        refine pass_counted ha ?_ rfl ?_ ?_ ?_
        · show (s1Of c l).nfev + a.evals = _; rw [hnf]
        · rw [hcv]; rfl
        · rw [passRejects_fail ha hcv]; simp
        · rw [hcv, hJ]; rfl
      | reduce hcv hJ =>
        refine pass_counted ha ?_ rfl ?_ ?_ ?_
        · show (s1Of c l).nfev + a.evals = _; rw [hnf]
        · rw [hcv]; rfl
        · rw [passRejects_fail ha hcv]; simp
        · rw [hcv, hJ]; simp
      | reject e hcv he hn h1 =>
        refine pass_counted ha ?_ rfl ?_ ?_ ?_
        · show (s1Of c l).nfev + a.evals = _; rw [hnf]
        · rw [hcv]; simp
        · rw [passRejects_eq ha he, hcv]
          have : ENorm.lt e (1 : K) = false := by
            cases e with
            | nan => exact absurd rfl hn
            | inf => rfl
            | num x => simpa [ENorm.lt] using h1 x rfl
          rw [this]; rfl
        · rw [hcv]; simp
    · cases h
      rcases ho with ho | ho <;> cases ho
    · cases h
      rcases ho with ho | ho <;> cases ho
    · cases h
      rcases ho with ho | ho <;> cases ho
    · rw [if_neg (not_lt.mpr hm), h']
      cases h
      dsimp only
      have hnf : (s1Of c l).nfev = l.s.nfev := factors_nfev _ _
      refine pass_counted ha ?_ rfl ?_ ?_ ?_
      · show (s1Of c l).nfev + a.evals = _; rw [hnf]
      · rw [hcv]
        show (s1Of c l).nfi = _
        rw [factors_nfi]; simp
      · rw [passRejects_eq ha he, hcv]
        show (s1Of c l).nfs = _
        have : ENorm.lt (.num x) (1 : K) = true := by simpa [ENorm.lt] using hx
        rw [this, factors_nfs]; simp
      · rw [hcv]
        show (s1Of c l).njev = _
        rw [factors_njev]; simp

/-- The condition under which the Jacobian is renewed before a step of (signed) first length `h`: with `jac` evaluated in
each step, if the stored one is not current; otherwise if the last step needed more than two iterations, and its
convergence rate, scaled with the step, exceeds the part explained by the change of the step size by more than 0.2. -/
def Renews (c : ECfg K V) (s : ESt K V) (h : K) : Prop :=
  if c.jacEach = true ∧ s.curJ = false then True
  else 2 < s.niter ∧ ∃ r hp hl, s.rate = some r ∧ 0 < r ∧ s.hPrev = some hp ∧ s.hLU = some hl ∧
    1 / 5 < r * (h / hp) - |h / hl - 1|

theorem preemptive_renews {s s2 : ESt K V} {hA : K} (h : preemptive c s hA = some s2) :
    (Renews c s (hA * c.dir) → s2.njev = s.njev + 1 ∧ s2.LU = none ∧
      ∃ jac, c.jac = some jac ∧ s2.J = jac s.njev s.t s.y) ∧
    (¬ Renews c s (hA * c.dir) → s2.njev = s.njev ∧ s2.J = s.J) := by
  unfold preemptive at h
  unfold Renews
  by_cases h1 : c.jacEach = true ∧ s.curJ = false
  · rw [if_pos h1] at h
    rw [if_pos h1]
    cases hj : c.jac with
    | none => rw [hj] at h; cases h
    | some jac =>
      rw [hj] at h; cases h
      exact ⟨fun _ => ⟨rfl, rfl, jac, rfl, rfl⟩, fun h => absurd trivial h⟩
  · rw [if_neg h1] at h
    rw [if_neg h1]
    cases hr : s.rate with
    | none =>
      rw [hr] at h; cases h
      refine ⟨fun h => ?_, fun _ => ⟨rfl, rfl⟩⟩
      obtain ⟨-, r, _, _, hh, -⟩ := h
      cases hh
    | some r =>
      rw [hr] at h
      dsimp only at h
      by_cases hr0 : 0 < r
      · rw [if_pos hr0] at h
        cases hhp : s.hPrev with
        | none => rw [hhp] at h; cases h
        | some hp =>
          cases hhl : s.hLU with
          | none => rw [hhp, hhl] at h; cases h
          | some hl =>
            rw [hhp, hhl] at h
            dsimp only at h
            unfold preemptRate at h
            dsimp only at h
            by_cases hcond : 2 < s.niter ∧ 1 / 5 < r * (hA * c.dir / hp) - |hA * c.dir / hl - 1|
            · rw [if_pos hcond] at h
              cases hj : c.jac with
              | none => rw [hj] at h; cases h
              | some jac =>
                rw [hj] at h; cases h
                refine ⟨fun _ => ⟨rfl, rfl, jac, rfl, rfl⟩, fun hn => absurd ⟨hcond.1, r, hp, hl, rfl, hr0, rfl, rfl, hcond.2⟩ hn⟩
            · rw [if_neg hcond] at h
              refine ⟨fun hy => ?_, fun _ => ?_⟩
              · obtain ⟨q1, r', hp', hl', q2, q3, q4, q5, q6⟩ := hy
                cases q2; cases q4; cases q5
                exact absurd ⟨q1, q6⟩ hcond
              · split at h <;> cases h <;> exact ⟨rfl, rfl⟩
      · rw [if_neg hr0] at h
        cases h
        refine ⟨fun hy => ?_, fun _ => ⟨rfl, rfl⟩⟩
        obtain ⟨q1, r', hp', hl', q2, q3, -⟩ := hy
        cases q2
        exact absurd q3 hr0

/-- **C79.** The counters of a `step()` call which succeeds or ends with too small a step. There is a list `P` of attempts
(those of the retry loop, in order, after a possible renewal of the Jacobian) such that the increase of `nfev` is the
number of evaluations of `fun` in the attempts, that of `nlu` the number of attempts with new factors, that of `NFI`
the number of attempts with an iteration which did not converge, that of `NFS` the number of attempts rejected
by the error estimate, and that of `njev` the number of failed attempts with an outdated Jacobian plus the
renewal. -/
theorem C79_counters {v v' : ESolver K V} {fuel : ℕ} (ht : c.tb ≠ some v.st.t)
    {o : EOut} (h : eStep c fuel v = some (o, v')) (ho : o = .ok ∨ o = .tooSmall) :
    ∃ s2, preemptive c (eEntry c v.st) (hFirst c v.st) = some s2 ∧
      Counted c (ePasses c (eMinStep c v.st.t v.st.hAbs) fuel
        { s := s2, hAbs := hFirst c v.st, LU := s2.LU, sc := s2.sc, rej := false }) s2 v'.st ∧
      s2.nfev = v.st.nfev ∧ s2.nlu = v.st.nlu ∧ s2.nfi = v.st.nfi ∧ s2.nfs = v.st.nfs ∧
      (Renews c v.st (hFirst c v.st * c.dir) → s2.njev = v.st.njev + 1) ∧
      (¬ Renews c v.st (hFirst c v.st * c.dir) → s2.njev = v.st.njev) := by
  rcases eStep_cases h with ⟨-, h2, -⟩ | ⟨-, h2, -⟩ | ⟨hrun, -, s', hs, rfl, -⟩
  · rw [h2] at ho; rcases ho with ho | ho <;> cases ho
  · exact absurd h2 ht
  unfold eStepImpl at hs
  dsimp only at hs
  change (match preemptive c (eEntry c v.st) (hFirst c v.st) with
    | none => some (EOut.exc .typeErr, eEntry c v.st)
    | some s2 => eLoop c (eMinStep c v.st.t v.st.hAbs) fuel
        { s := s2, hAbs := hFirst c v.st, LU := s2.LU, sc := s2.sc, rej := false }) = _ at hs
  cases hp : preemptive c (eEntry c v.st) (hFirst c v.st) with
  | none =>
    rw [hp] at hs; dsimp only at hs
    rw [← (Prod.mk.inj (Option.some.inj hs)).1] at ho
    rcases ho with ho | ho <;> cases ho
  | some s2 =>
    rw [hp] at hs
    dsimp only at hs
    have hcnt := eLoop_counted hs ho
    obtain ⟨p1, p2, p3, p4, p5, p6⟩ := preemptive_same hp
    obtain ⟨r1, r2⟩ := preemptive_renews hp
    exact ⟨s2, rfl, hcnt, p5, p6, p2, p1, fun hr => (r1 hr).1, fun hr => (r2 hr).1⟩

/-- **C79.** A successful step with `N` attempts: all but the last one are counted in `NFI` or `NFS`. -/
theorem C79_attempts {ms : K} : ∀ {n : ℕ} {l : LSt K V} {s' : ESt K V}, eLoop c ms n l = some (.ok, s') →
    (ePasses c ms n l).length = 1 + (s'.nfi - l.s.nfi) + (s'.nfs - l.s.nfs)
  | 0, l, s', h => by cases h
  | n + 1, l, s', h => by
    have hall := eLoop_counted h (Or.inl rfl)
    unfold eLoop at h
    rcases eIter_cases (c := c) ms l with ⟨hlt, h'⟩ | ⟨hm, ⟨_, h'⟩ | ⟨a, ha, ⟨l1, hA, h'⟩ | ⟨_, _, _, h'⟩ |
      ⟨_, _, h'⟩ | ⟨x, hcv, he, hx, ⟨_, h'⟩ | ⟨f0, std, _, h'⟩⟩⟩⟩ <;> rw [h'] at h <;> dsimp only at h <;>
      try (exfalso; cases h; done)
    · have hrec := C79_attempts h
      have hcnt := eLoop_counted h (Or.inl rfl)
      have hi := hcnt.nfi
      have hs := hcnt.nfs
      have e : ePasses c ms (n + 1) l = l :: ePasses c ms n l1 := by
        conv_lhs => unfold ePasses
        rw [if_neg (not_lt.mpr hm), h']
      rw [e, List.length_cons, hrec]
      cases hA with
      | @newJ jac hcv hJ hj =>
        simp only [factors_nfs] at hi hs ⊢
        omega
      | reduce hcv hJ =>
        simp only [factors_nfs] at hi hs ⊢
        omega
      | reject e hcv he hn h1 =>
        simp only [factors_nfi] at hi hs ⊢
        omega
    · cases h
      have e : ePasses c ms (n + 1) l = [l] := by
        unfold ePasses
        rw [if_neg (not_lt.mpr hm), h']
      have e1 := hall.nfi
      have e2 := hall.nfs
      have e3 : passFails c l = false := by unfold passFails; rw [ha]; dsimp only; rw [hcv]; rfl
      have e4 : passRejects c l = false := by
        rw [passRejects_eq ha he, hcv]
        have : ENorm.lt (.num x) (1 : K) = true := by simpa [ENorm.lt] using hx
        rw [this]; rfl
      rw [e] at e1 e2 ⊢
      simp only [List.countP_cons, List.countP_nil, e3, e4] at e1 e2
      rw [e1, e2]
      simp

/-- **C79.** Work of one attempt: the evaluations are those of the iterations of the stages done, in order, until one
does not converge; the iteration number kept for the next step is the maximum over these stages, the
convergence rate kept is the largest of theirs. -/
theorem C79_attempt_work {l : LSt K V} {b : Stages K V} (h : attOf c l = some b) :
    ∃ N o, N ≤ c.T.n - 1 ∧ (b.converged = true → N = c.T.n - 1) ∧
      (b.converged = false → 1 ≤ N ∧ (o N).converged = false) ∧
      (∀ i, 1 ≤ i → i < N → (o i).converged = true) ∧
      StagesWork c l.s.t l.s.y (hOf c l) (factOf c l) (scOf c l) l.s.curJ (s1Of c l).hLU (Ico 1 (N + 1)) o b :=
  att_work h

/-- **C79.** What a successful step leaves for the next one: the largest number of iterations and the largest rate
of the stages of the accepted attempt. -/
theorem C79_kept (hc : ECfgOK c) {v0 v v' : ESolver K V} {t0 : K} {y0 yp0 : V}
    {J0 : V →ₗ[K] V} (hn : IsNew v0 t0 y0 yp0 J0) (hr : EReach c v0 v) {fuel : ℕ}
    (ht : c.tb ≠ some v.st.t) (h : eStep c fuel v = some (.ok, v')) :
    ∃ (F : Fact K V) (sc : Option K) (cj : Bool) (o : ℕ → NewtonOut K V),
      (∀ i ∈ Ico 1 (c.T.n - 1 + 1), (o i).converged = true ∧
        solveStage c (stageIn c v.st.t v.st.y (v'.st.t - v.st.t) F sc cj v'.st.hLU v'.st.Ks i)
          (ePredict c.T (v'.st.t - v.st.t) v'.st.Ks i) = some (o i)) ∧
      v'.st.niter = (Ico 1 (c.T.n - 1 + 1)).sup (fun i => (o i).niter) ∧
      IsMaxRate o (Ico 1 (c.T.n - 1 + 1)) v'.st.rate := by
  have hi := hr.inv hc hn.inv
  rcases eStep_cases h with ⟨-, h2, -⟩ | ⟨-, h2, -⟩ | ⟨hrun, -, s', hs, rfl, -⟩
  · cases h2
  · exact absurd h2 ht
  rcases eStepImpl_visits hs with ⟨-, h2, -⟩ | ⟨l, hv, hit⟩
  · cases h2
  have hL := hv.inv hc (hi hrun) ht
  obtain ⟨hge, a, x, f0, std, ha, hcv, he, hx, hf, hs'⟩ := eIter_ok hit
  obtain ⟨N, o, n1, n2, -, n4, n5⟩ := att_work ha
  have hN := n2 hcv
  subst hN
  have e1 : v'.st.t - v.st.t = hOf c l := by
    rw [hs']; show (s1Of c l).t + hOf c l - _ = _; rw [factors_t, hL.t]; ring
  have e2 : v'.st.Ks = a.Ks := by rw [hs']; rfl
  have e3 : v'.st.hLU = (s1Of c l).hLU := by rw [hs']; rfl
  rw [e1, e2, e3, ← hL.t, ← hL.y]
  obtain ⟨-, sp⟩ := stages_spec ha hcv
  refine ⟨factOf c l, scOf c l, l.s.curJ, o, fun i hi => ⟨?_, n5.out i hi⟩, ?_, ?_⟩
  · obtain ⟨o', p1, p2, -⟩ := sp i (mem_Ico.mp hi).1 (by have := (mem_Ico.mp hi).2; omega)
    rw [factors_t, factors_y, factors_curJ] at p1
    have := n5.out i hi
    rw [p1] at this
    cases this
    exact p2
  · rw [hs']; exact n5.niter
  · rw [hs']; exact n5.rate

end
end Extensisq
