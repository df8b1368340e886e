import Verif.Props.SwagError

/-!
# SWAG: order and step size for the next step (C82, C83)
-/

set_option linter.unusedSectionVars false

namespace Extensisq
open Finset Polynomial

section
variable {K V : Type*} [Field K] [LinearOrder K] [IsStrictOrderedRing K] [AddCommGroup V] [Module K V]

/-! ## The difference of order `k + 1` -/

/-- If the step size was constant long enough, one more difference is known. -/
def NInv (s : SwSt K V) : Prop := s.kold < s.ns →
  hf s.hist (s.kold + 1) = ∑ j ∈ range (s.kold + 2), nb (hx s.hist) j (hx s.hist (s.kold + 1)) • s.phi j

theorem NInv.interp {s : SwSt K V} (hm : MInv s) (hN : NInv s) (hk : s.kold < s.ns) {m : ℕ} (h : m < s.kold + 2) :
    hf s.hist m = ∑ j ∈ range (s.kold + 2), nb (hx s.hist) j (hx s.hist m) • s.phi j := by
  by_cases h1 : m = s.kold + 1
  · subst h1; exact hN hk
  · rw [hm.phi m (by omega), Finset.sum_range_succ (n := s.kold + 1), nb_eq_zero (j := s.kold + 1) (by omega),
      zero_smul, add_zero]

theorem hf_cons (a : K × V) (l : List (K × V)) : hf (a :: l) = consV a.2 (hf l) := by
  funext i; cases i <;> rfl

/-- An attempt with `k < ns` is the first of its step, and follows `k` steps of the same size. -/
theorem const_attempt {c : SwCfg K V} {s : SwSt K V} (hm : MInv s) {l : SwLoc K V} (hl : SwAttempt c s l)
    (hk1 : 1 ≤ l.k) (hns : l.k < (swTry c s.t s.y s.hold s.kold l).ns) :
    l.phi = s.phi ∧ l.h = s.hold ∧ (∀ i < l.k, hx s.hist i - hx s.hist (i + 1) = l.h) ∧ l.k < s.ns + 1 ∧
      (l.k ≤ s.kold ∨ s.kold < s.ns) := by
  obtain ⟨e1, e2, e3, e4, e5, e6, e7, e8, e9, e10, e11, e12, e13, e14, e15, e16⟩ := swStiff_same c s
  have hns' : l.k < newNs l.h s.hold l.ns s.kold := hns
  have hh : l.h = s.hold := newNs_ge_two (n := l.ns) (kold := s.kold) (by omega)
  cases hl with
  | retry _ _ =>
    exfalso
    rw [show (swFail c _ _ : SwLoc K V).ns = 0 from rfl, newNs_zero] at hns'
    omega
  | first =>
    have hn : (swStart (swStiff c s) (swLimit c s.t s.h)).ns = s.ns := e8
    rw [hn] at hns'
    have hle := newNs_le (swStart (swStiff c s) (swLimit c s.t s.h)).h s.hold s.ns s.kold
    refine ⟨e10, hh, fun i hi => ?_, by omega, ?_⟩
    · rw [hh]; exact hm.const i (by omega)
    · rw [hh, newNs_eq] at hns'
      split at hns' <;> omega

theorem const_nb {X : ℕ → K} {h : K} {n : ℕ} (hh : h ≠ 0) (hc : ∀ i < n, X i - X (i + 1) = h) {j : ℕ} (hj : j ≤ n) :
    nb X j (X 0 + h) = 1 := by
  have hcd := const_dist hc
  rw [nb]
  refine Finset.prod_eq_one fun l hl => ?_
  have hl' := Finset.mem_range.mp hl
  have h1 := hcd l (by omega)
  have h2 := hcd (l + 1) (by omega)
  have h3 : X 0 - X (l + 1) = h * ((l : K) + 1) := by push_cast at h2; linear_combination h2
  rw [h1, h3]
  have : ((l : K) + 1) ≠ 0 := by positivity
  exact div_self (mul_ne_zero hh this)

/-- The difference of order `k + 1` after an accepted attempt, if `k < ns`. -/
theorem next_diff {c : SwCfg K V} {s : SwSt K V} (hm : MInv s) (hN : NInv s)
    (hstr : Strict c.dir s.hist) (hd : c.dir = 1 ∨ c.dir = -1) {l : SwLoc K V} (hl : SwAttempt c s l)
    (ha : AttM c s l) (hpos : 0 < c.dir * l.h) {m : K}
    (hns : l.k < (swTry c s.t s.y s.hold s.kold l).ns) :
    let s' := swAccept c m (swStiff c s) l (swTry c s.t s.y s.hold s.kold l)
    (∀ i ≤ l.k, hx s'.hist i - hx s'.hist (i + 1) = l.h) ∧
    s'.phi (l.k + 1) = (l.h ^ (l.k + 1) * ((l.k + 1).factorial : K)) •
      divDiff (l.k + 1) (hx s'.hist) (hf s'.hist) ∧
    hf s'.hist (l.k + 1) = ∑ j ∈ range (l.k + 2), nb (hx s'.hist) j (hx s'.hist (l.k + 1)) • s'.phi j := by
  intro s'
  obtain ⟨e1, e2, e3, e4, e5, e6, e7, e8, e9, e10, e11, e12, e13, e14, e15, e16⟩ := swStiff_same c s
  obtain ⟨c1, c2, c3, c4, c5⟩ := const_attempt hm hl ha.loc.k1 hns
  have hne : l.h ≠ 0 := ne_of_dir hpos
  have hnow := hm.now
  have hlen := hm.len
  have hlenN := hm.lenN
  have hkM := ha.loc.kM
  have hklen : l.k + 1 ≤ s.hist.length := by rcases c5 with h | h <;> omega
  have hhist : s'.hist = (s.t + l.h, s'.yp) :: s.hist := by
    show ((swStiff c s).t + l.h, s'.yp) :: (swStiff c s).hist = _
    rw [e1, e15]
  have hX : hx s'.hist = consX (s.t + l.h) (hx s.hist) := by rw [hhist, hx_cons]
  have hF : hf s'.hist = consV s'.yp (hf s.hist) := by rw [hhist, hf_cons]
  have hne' : ∀ i < l.k + 1, hx s.hist 0 + l.h - hx s.hist i ≠ 0 := fun i hi =>
    ne_of_dir (ahead_ne hd hstr hpos (by omega))
  have hn : ∀ i < l.k + 1, s.t + l.h - hx s.hist i ≠ 0 := by rw [← hnow]; exact hne'
  have hinj : ∀ i < l.k + 1, ∀ j < l.k + 1, hx s.hist i = hx s.hist j → i = j := by
    intro i hi j hj h
    rcases lt_trichotomy i j with h1 | h1 | h1
    · exact absurd (sub_eq_zero.mpr h) (hstr.ne h1 (by omega))
    · exact h1
    · exact absurd (sub_eq_zero.mpr h.symm) (hstr.ne h1 (by omega))
  have hint : ∀ m < l.k + 1, hf s.hist m = ∑ j ∈ range (l.k + 1), nb (hx s.hist) j (hx s.hist m) • s.phi j := by
    intro m hm'
    rcases Nat.lt_or_ge s.kold l.k with h | h
    · have h1 : l.k = s.kold + 1 := by omega
      rw [h1] at hm' ⊢
      exact hN.interp hm (by rcases c5 with h | h <;> omega) hm'
    · exact hm.interp (by omega) hm'
  set r := swTry c s.t s.y s.hold s.kold l with hrdef
  have hone : nb (hx s.hist) l.k (s.t + l.h) = 1 := by
    rw [← hnow]; exact const_nb hne c3 le_rfl
  have hpk : r.phi (l.k + 1) = s.phi l.k := by
    show phiPredict l.k _ (l.k + 1) = _
    rw [phiPredict, if_neg (by omega), if_neg (by omega), if_pos rfl, phiStar, if_neg (by omega), c1]
  have hphi : s'.phi (l.k + 1) = s'.yp - r.phi 0 - r.phi (l.k + 1) := by
    show phiCorrect l.k r.phi s'.yp (l.k + 1) = _
    rw [phiCorrect]
    simp only
    rw [if_neg (by omega), if_neg (by omega)]
    simp
  have hd' : s'.phi (l.k + 1) = s'.yp - ∑ j ∈ range (l.k + 1), nb (hx s.hist) j (s.t + l.h) • s.phi j := by
    rw [hphi, hpk, hrdef, predict_zero ha.loc ha.spec, Finset.sum_range_succ, hone, one_smul, hnow]
    abel
  refine ⟨?_, ?_, ?_⟩
  · intro i hi
    rw [hX]
    cases i with
    | zero => simp [consX, hnow]
    | succ i => exact c3 i (by omega)
  · rw [hd', hX, hF, ← divDiff_newton hn hinj s'.yp s.phi (hf s.hist) hint]
    congr 1
    have hcd := const_dist c3
    have : ∀ j ∈ range (l.k + 1), s.t + l.h - hx s.hist j = l.h * ((j : K) + 1) := by
      intro j hj
      rw [← hcd j (by have := Finset.mem_range.mp hj; omega), hnow]
    rw [Finset.prod_congr rfl this, Finset.prod_mul_distrib, Finset.prod_const, card_range,
      ← Finset.prod_range_add_one_eq_factorial]
    push_cast
    rfl
  · have hcn := correct_newton (c := c) (m := m) ha.loc (fun i hi => hne' i (by omega)) ha.spec (hx s.hist l.k)
    have hphi' : ∀ j, (swAccept c m s l r).phi j = s'.phi j := by
      intro j
      show phiCorrect l.k r.phi (c.fn (s.t + l.h) _) j = phiCorrect l.k r.phi (c.fn ((swStiff c s).t + l.h) _) j
      rw [e1]
    have hyp : (swAccept c m s l r).yp = s'.yp := by
      show c.fn (s.t + l.h) _ = c.fn ((swStiff c s).t + l.h) _
      rw [e1]
    simp only [← hrdef, hphi', hyp] at hcn
    rw [hnow] at hcn
    rw [hF, hX]
    show hf s.hist l.k = ∑ j ∈ range (l.k + 2), nb (consX (s.t + l.h) (hx s.hist)) j (hx s.hist l.k) • s'.phi j
    rw [Finset.sum_range_succ, hcn, hint l.k (by omega), Finset.sum_range_succ, add_assoc]
    congr 1
    have hA := ab_succ (j := l.k) (hn l.k (by omega)) (hx s.hist l.k)
    rw [ab_eq_zero (by omega)] at hA
    have hB := nb_ab (t' := s.t + l.h) (j := l.k) (fun i hi => hn i (by omega)) (hx s.hist l.k)
    rw [hone, one_mul] at hB
    have hnb : nb (consX (s.t + l.h) (hx s.hist)) (l.k + 1) (hx s.hist l.k)
      = - ab (hx s.hist) (s.t + l.h) l.k (hx s.hist l.k) := by linear_combination -hA
    rw [hnb, hB, hphi, hpk]
    module

/-- Everything known of a reachable solver with distinct times, including the extra difference. -/
theorem SwReach.next {c : SwCfg K V} (ok : SwOK c) {t0 : K} {y0 yp0 : V} {h0 : K}
    {wt0 : V → ENorm K} {phi0 : ℕ → V} {co0 : Coef K} {nfev : ℕ} (hh : 0 < c.dir * h0)
    (hb : ∀ b, c.tb = some b → 0 ≤ c.dir * (b - t0)) {v : SwSolver K V}
    (hr : SwReach c (newSwag t0 y0 yp0 h0 wt0 phi0 co0 nfev) v) (hs : v.status = .running)
    (hd : Distinct v.st) : NInv v.st := by
  induction hr with
  | refl => intro h; exact absurd h (by simp [newSwag])
  | @tail v1 v2 o fuel hr1 hstep ih =>
    rcases swStep_cases hstep with ⟨_, _, e⟩ | ⟨_, _, _, e⟩ | ⟨r, hb1, s', hi, _, e⟩ | ⟨_, _, _, s', _, e⟩
    · subst e; exact ih hs hd
    · rw [e] at hs; cases hs
    · rcases swStepImpl_min hi with ⟨b, hb, _, e'⟩ | ⟨l, hl, hmn, _, he, e'⟩
      · exfalso
        rw [e] at hs
        have : s'.t = b := by rw [e']; rfl
        simp only [swReached, hb, this, sub_self, mul_zero, le_refl, decide_true, if_true] at hs
        cases hs
      · obtain ⟨a1, a2, a3, a4, a5, a6⟩ := accept_hist e'
        rw [e] at hd ⊢
        simp only at hd ⊢
        have hd1 : Distinct v1.st := by
          unfold Distinct at hd ⊢
          rw [a1, List.map_cons] at hd
          exact (List.nodup_cons.mp hd).2
        have hkn := known ok hh hb hr1 r
        have hm := hkn.mesh hd1
        have hne : l.h ≠ 0 := by
          intro hc
          unfold Distinct at hd
          rw [a1, List.map_cons, List.nodup_cons] at hd
          apply hd.1
          rw [a2, hc, add_zero, ← hm.now, hx_getElem _ (by have := hm.len; omega)]
          exact List.mem_map.mpr ⟨_, List.getElem_mem _, rfl⟩
        obtain ⟨_, _, hstr, _, ha, hpos⟩ := attempt_known ok hh hb hr1 r hb1 hd1 hl hne
        intro hk
        have hns : s'.ns = (swTry c v1.st.t v1.st.y v1.st.hold v1.st.kold l).ns := by rw [e']; rfl
        rw [a6, hns] at hk
        have := (next_diff (m := swMinStep c v1.st.t) hm (ih r hd1) hstr ok.dir hl ha hpos hk).2.2
        simp only [← e'] at this
        rw [a6]
        exact this
    · rw [e] at hs; cases hs

/-! ## The rules -/

/-- The attempts of a step, counted: after `j` failures. -/
theorem attempt_counts {c : SwCfg K V} {s : SwSt K V} {l : SwLoc K V} (h : SwAttempt c s l) :
    l.nfev = s.nfev + l.ifail ∧ l.nfs = s.nfs + l.ifail ∧
    l.phase1 = (s.phase1 && decide (l.ifail = 0)) ∧
    (l.ifail ≤ 3 → l.h = swLimit c s.t s.h * (1 / 2) ^ l.ifail) ∧ (l.ifail = 0 → l.k = s.k) ∧
    (3 ≤ l.ifail → l.k = 1) := by
  obtain ⟨e1, e2, e3, e4, e5, e6, e7, e8, e9, e10, e11, e12, e13, e14, e15, e16⟩ := swStiff_same c s
  induction h with
  | first =>
    refine ⟨?_, ?_, ?_, fun _ => ?_, fun _ => e6, fun h => absurd h (by simp [swStart])⟩
    · show (swStiff c s).nfev = s.nfev + 0; rw [e13]; rfl
    · show (swStiff c s).nfs = s.nfs + 0; rw [e14]; rfl
    · show (swStiff c s).phase1 = _; rw [e9]; simp [swStart]
    · simp [swStart]
  | @retry l _ _ ih =>
    obtain ⟨i1, i2, i3, i4, i5, i6⟩ := ih
    set r := swTry c s.t s.y s.hold s.kold l
    have hi : (swFail c l r).ifail = l.ifail + 1 := rfl
    refine ⟨?_, ?_, ?_, fun h => ?_, fun h => ?_, fun h => ?_⟩
    · show l.nfev + 1 = s.nfev + (l.ifail + 1); omega
    · show l.nfs + 1 = s.nfs + (l.ifail + 1); omega
    · rw [hi]; show false = _; simp
    · rw [hi] at h ⊢
      show l.h * failFactor c (l.ifail + 1) r.erk = _
      have hf : failFactor c (l.ifail + 1) r.erk = 1 / 2 := by
        unfold failFactor
        split
        · rw [if_neg (fun h' => by omega)]
        · rw [if_neg (by omega)]
        · rfl
      rw [hf, i4 (by omega), pow_succ]
      ring
    · rw [hi] at h; omega
    · rw [hi] at h
      show (if 3 ≤ l.ifail + 1 then 1 else r.knew) = 1
      rw [if_pos h]

/-- The rules for the next order and step size, for finite estimates `e q` at the order `q`. `k` and `h` are the
order and the size of the accepted step, `k'` and `h'` those planned; `starting` and `starting'` tell whether the
start phase was not over before and is not over after the step, `clean` that no attempt failed, `const` that the step
size was constant long enough for the estimate at order `k + 1`. -/
structure NextRule (kMax k k' : ℕ) (starting starting' clean const : Prop) (h h' dir minStep : K) (pw : K → K → K)
    (e : ℕ → K) : Prop where
  /-- The start phase ends with the first failure, with the first sign of a better lower order, and at the maximal
  order. -/
  start : starting' ↔ starting ∧ clean ∧ k ≠ kMax ∧
    ¬((2 < k ∧ e (k - 1) < e k ∧ e (k - 2) < e k) ∨ (k = 2 ∧ e 1 < 1 / 2 * e 2))
  /-- In the start phase the order is raised and the step size doubled. -/
  raise : starting' → k' = k + 1 ∧ h' = 2 * h
  /-- Later the order is lowered if the estimates at lower orders are smaller ... -/
  lower : ¬starting' → ((2 < k ∧ e (k - 1) < e k ∧ e (k - 2) < e k) ∨ (k = 2 ∧ e 1 < 1 / 2 * e 2)) → k' = k - 1
  /-- ... and otherwise kept unless the step size is constant. -/
  keep : ¬starting' → ¬((2 < k ∧ e (k - 1) < e k ∧ e (k - 2) < e k) ∨ (k = 2 ∧ e 1 < 1 / 2 * e 2)) →
    ¬const → k' = k
  /-- Then order one is raised if that at least halves the estimate. -/
  one : ¬starting' → const → k = 1 → if e 2 < 1 / 2 * e 1 ∧ 1 < kMax then k' = 2 else k' = 1
  /-- Otherwise the order with the smallest estimate is taken, the lower one in case of a tie; orders above the
  maximal one are not used. -/
  best : ¬starting' → ¬((2 < k ∧ e (k - 1) < e k ∧ e (k - 2) < e k) ∨ (k = 2 ∧ e 1 < 1 / 2 * e 2)) →
    const → 2 ≤ k →
    (k' = k - 1 ∧ e (k - 1) ≤ e k ∧ e (k - 1) ≤ e (k + 1)) ∨
    (k' = k ∧ (e k < e (k - 1) ∨ e (k + 1) < e (k - 1)) ∧ (e k < e (k + 1) ∨ k = kMax)) ∨
    (k' = k + 1 ∧ e (k + 1) ≤ e k ∧ e (k + 1) < e (k - 1) ∧ k < kMax)
  /-- The step size is doubled if that keeps the estimate at the new order below one half, ... -/
  double : ¬starting' → 2 ^ (k' + 1) * e k' ≤ 1 / 2 → h' = 2 * h
  /-- ... kept if the estimate itself is below one half, ... -/
  same : ¬starting' → 1 / 2 < 2 ^ (k' + 1) * e k' → e k' ≤ 1 / 2 → h' = h
  /-- ... and otherwise reduced, to between a half and nine tenths, but not below the minimal step. -/
  reduce : ¬starting' → 1 / 2 < 2 ^ (k' + 1) * e k' → 1 / 2 < e k' →
    h' = dir * max (|h| * max (1 / 2) (min (9 / 10) (pw (1 / 2 / e k') (1 / ((k' : K) + 1))))) minStep

theorem lowerOrder_num {k : ℕ} (hk : 1 ≤ k) {E : ℕ → ENorm K} {e : ℕ → K}
    (he : ∀ q, k ≤ q + 2 → 1 ≤ q → q ≤ k → E q = .num (e q)) :
    lowerOrder k (E k) (E (k - 1)) (E (k - 2)) + 1 = k ↔
      ((2 < k ∧ e (k - 1) < e k ∧ e (k - 2) < e k) ∨ (k = 2 ∧ e 1 < 1 / 2 * e 2)) := by
  unfold lowerOrder
  rcases Nat.lt_or_ge 2 k with h | h
  · rw [he k (by omega) hk le_rfl, he (k - 1) (by omega) (by omega) (by omega),
      he (k - 2) (by omega) (by omega) (by omega)]
    have hmax : ENorm.ltE (ENorm.pyMax (.num (e (k - 1))) (.num (e (k - 2)))) (.num (e k)) = true ↔
        e (k - 1) < e k ∧ e (k - 2) < e k := by
      unfold ENorm.pyMax
      by_cases h1 : e (k - 1) < e (k - 2)
      · rw [if_pos (by simpa [ENorm.ltE] using h1)]
        simp only [ENorm.ltE, decide_eq_true_eq]
        exact ⟨fun h => ⟨h1.trans h, h⟩, fun h => h.2⟩
      · rw [if_neg (by simpa [ENorm.ltE] using h1)]
        simp only [ENorm.ltE, decide_eq_true_eq]
        exact ⟨fun h => ⟨h, (not_lt.mp h1).trans_lt h⟩, fun h => h.1⟩
    rw [if_neg (show ¬(k = 2 ∧ _) from fun h' => by omega)]
    constructor
    · intro h'
      split at h'
      · rename_i hx; exact Or.inl ⟨hx.1, hmax.mp hx.2⟩
      · omega
    · rintro (h' | h')
      · rw [if_pos ⟨h, hmax.mpr h'.2⟩]; omega
      · omega
  · rw [if_neg (fun h' => by omega)]
    rcases Nat.lt_or_ge 1 k with h2 | h2
    · have : k = 2 := by omega
      subst this
      rw [he 2 (by omega) hk le_rfl, he (2 - 1) (by omega) (by omega) (by omega)]
      have : ENorm.ltE (.num (e (2 - 1))) (ENorm.scale (1 / 2) (.num (e 2))) = true ↔ e 1 < 1 / 2 * e 2 := by
        simp [ENorm.ltE, ENorm.scale]
      constructor
      · intro h'
        split at h'
        · rename_i hx; exact Or.inr ⟨rfl, this.mp hx.2⟩
        · omega
      · rintro (h' | h')
        · omega
        · rw [if_pos ⟨rfl, this.mpr h'.2⟩]
    · have : k = 1 := by omega
      subst this
      simp

theorem nextOrder_keep {c : SwCfg K V} {k knew ns : ℕ} {e0 e1 e2 : ENorm K} (hl : knew + 1 ≠ k) (hn : ¬k < ns) :
    nextOrder c k knew ns false e0 e1 e2 = (k, e0) := by
  simp [nextOrder, hl, hn]

theorem ltE_half {a b : K} : ENorm.ltE (.num a) (ENorm.scale (1 / 2) (.num b)) = true ↔ a < 1 / 2 * b := by
  simp [ENorm.ltE, ENorm.scale]

theorem leE_min {a b d : K} : ENorm.leE (.num a) (ENorm.pyMin (.num b) (.num d)) = true ↔ a ≤ b ∧ a ≤ d := by
  unfold ENorm.pyMin
  by_cases h : d < b
  · rw [if_pos (by simpa [ENorm.ltE] using h)]
    simp only [ENorm.leE, decide_eq_true_eq]
    exact ⟨fun h' => ⟨h'.trans h.le, h'⟩, fun h' => h'.2⟩
  · rw [if_neg (by simpa [ENorm.ltE] using h)]
    simp only [ENorm.leE, decide_eq_true_eq]
    exact ⟨fun h' => ⟨h', h'.trans (not_lt.mp h)⟩, fun h' => h'.1⟩

/-- The rules hold for what block 4 of the code does. -/
theorem next_rule {c : SwCfg K V} (hd : c.dir = 1 ∨ c.dir = -1) {k ns knew : ℕ} {phase1 clean : Bool} {h minStep : K}
    (hk : 1 ≤ k) (hkM : k ≤ c.kMax)
    (hh : 0 < c.dir * h) {E : ℕ → ENorm K} {e : ℕ → K} {ep : ENorm K}
    (he : ∀ q, k ≤ q + 2 → 1 ≤ q → q ≤ k → E q = .num (e q)) (hep : k < ns → ep = .num (e (k + 1)))
    (hkn : knew = lowerOrder k (E k) (E (k - 1)) (E (k - 2))) :
    let ph := if knew + 1 = k ∨ k = c.kMax then false else (phase1 && clean)
    let o := nextOrder c k knew ns ph (E k) (E (k - 1)) ep
    NextRule c.kMax k o.1 (phase1 = true) (ph = true) (clean = true) (k < ns) h (nextH c minStep h o.1 ph o.2) c.dir
      minStep c.pw e := by
  intro ph o
  have hlow := lowerOrder_num hk he
  rw [← hkn] at hlow
  set L := (2 < k ∧ e (k - 1) < e k ∧ e (k - 2) < e k) ∨ (k = 2 ∧ e 1 < 1 / 2 * e 2) with hL
  have hph : ph = true ↔ phase1 = true ∧ clean = true ∧ k ≠ c.kMax ∧ ¬L := by
    show (if knew + 1 = k ∨ k = c.kMax then false else (phase1 && clean)) = true ↔ _
    rw [← hlow]
    split
    · rename_i h'
      constructor
      · intro hc; cases hc
      · rintro ⟨_, _, h1, h2⟩
        rcases h' with h' | h'
        · exact absurd h' h2
        · exact absurd h' h1
    · rename_i h'
      push Not at h'
      simp only [Bool.and_eq_true]
      exact ⟨fun h => ⟨h.1, h.2, h'.2, h'.1⟩, fun h => ⟨h.1, h.2.1⟩⟩
  have hE0 : E k = .num (e k) := he k (by omega) hk le_rfl
  have hE1 : 2 ≤ k → E (k - 1) = .num (e (k - 1)) := fun h => he (k - 1) (by omega) (by omega) (by omega)
  -- the order and its estimate
  have hlo : ¬(ph = true) → L → o = (k - 1, E (k - 1)) := by
    intro h1 h2
    show nextOrder c k knew ns ph _ _ _ = _
    rw [nextOrder, if_neg h1, if_pos (hlow.mpr h2)]
  have hke : ¬(ph = true) → ¬L → ¬(k < ns) → o = (k, E k) := by
    intro h1 h2 h3
    show nextOrder c k knew ns ph _ _ _ = _
    rw [nextOrder, if_neg h1, if_neg (fun h => h2 (hlow.mp h)), if_neg h3]
  have hL1 : k = 1 → ¬L := by rintro h (h' | h') <;> omega
  have hon : ¬(ph = true) → k < ns → k = 1 →
      o = if e 2 < 1 / 2 * e 1 ∧ 1 < c.kMax then (2, .num (e 2)) else (1, .num (e 1)) := by
    intro h1 h3 h4
    show nextOrder c k knew ns ph _ _ _ = _
    rw [nextOrder, if_neg h1, if_neg (fun h => hL1 h4 (hlow.mp h)), if_pos h3, if_pos h4, hep h3, hE0]
    subst h4
    by_cases h5 : e 2 < 1 / 2 * e 1 ∧ 1 < c.kMax
    · rw [if_pos ⟨ltE_half.mpr h5.1, h5.2⟩, if_pos h5]
    · rw [if_neg (fun h => h5 ⟨ltE_half.mp h.1, h.2⟩), if_neg h5]
  have hbe : ¬(ph = true) → ¬L → k < ns → 2 ≤ k →
      (o = (k - 1, .num (e (k - 1))) ∧ e (k - 1) ≤ e k ∧ e (k - 1) ≤ e (k + 1)) ∨
      (o = (k, .num (e k)) ∧ (e k < e (k - 1) ∨ e (k + 1) < e (k - 1)) ∧ (e k < e (k + 1) ∨ k = c.kMax)) ∨
      (o = (k + 1, .num (e (k + 1))) ∧ e (k + 1) ≤ e k ∧ e (k + 1) < e (k - 1) ∧ k < c.kMax) := by
    intro h1 h2 h3 h4
    have ho : o = if ENorm.leE (.num (e (k - 1))) (ENorm.pyMin (.num (e k)) (.num (e (k + 1)))) = true
        then (k - 1, .num (e (k - 1)))
        else if ENorm.ltE (.num (e k)) (.num (e (k + 1))) = true ∨ k = c.kMax then (k, .num (e k))
        else (k + 1, .num (e (k + 1))) := by
      show nextOrder c k knew ns ph _ _ _ = _
      rw [nextOrder, if_neg h1, if_neg (fun h => h2 (hlow.mp h)), if_pos h3, if_neg (by omega), hep h3, hE0, hE1 h4]
    by_cases h5 : e (k - 1) ≤ e k ∧ e (k - 1) ≤ e (k + 1)
    · rw [if_pos (leE_min.mpr h5)] at ho
      exact Or.inl ⟨ho, h5⟩
    · rw [if_neg (fun h => h5 (leE_min.mp h))] at ho
      have h6 : e k < e (k - 1) ∨ e (k + 1) < e (k - 1) := by
        by_contra hc
        push Not at hc
        exact h5 hc
      by_cases h7 : e k < e (k + 1) ∨ k = c.kMax
      · rw [if_pos (by simpa [ENorm.ltE] using h7)] at ho
        exact Or.inr (Or.inl ⟨ho, h6, h7⟩)
      · rw [if_neg (by simpa [ENorm.ltE] using h7)] at ho
        push Not at h7
        refine Or.inr (Or.inr ⟨ho, h7.1, ?_, by omega⟩)
        rcases h6 with h6 | h6
        · exact h7.1.trans_lt h6
        · exact h6
  have hest : ¬(ph = true) → o.2 = .num (e o.1) := by
    intro h1
    by_cases h2 : L
    · have hk2 : 2 ≤ k := by rcases h2 with h | h <;> omega
      rw [hlo h1 h2]; exact hE1 hk2
    · by_cases h3 : k < ns
      · rcases Nat.lt_or_ge 1 k with h4 | h4
        · rcases hbe h1 h2 h3 h4 with ⟨h, _⟩ | ⟨h, _⟩ | ⟨h, _⟩ <;> rw [h]
        · rw [hon h1 h3 (by omega)]
          split <;> rfl
      · rw [hke h1 h2 h3]; exact hE0
  have hneg : ¬(h < 0) ∧ c.dir = 1 ∨ h < 0 ∧ c.dir = -1 := by
    rcases hd with h1 | h1
    · left; rw [h1, one_mul] at hh; exact ⟨not_lt.mpr hh.le, h1⟩
    · right; rw [h1] at hh; exact ⟨by linarith, h1⟩
  refine ⟨hph, fun h1 => ?_, fun h1 h2 => by rw [hlo h1 h2], fun h1 h2 h3 => by rw [hke h1 h2 h3], fun h1 h2 h3 => ?_,
    fun h1 h2 h3 h4 => ?_, fun h1 h2 => ?_, fun h1 h2 h3 => ?_, fun h1 h2 h3 => ?_⟩
  · refine ⟨?_, ?_⟩
    · show (nextOrder c k knew ns ph _ _ _).1 = _
      rw [nextOrder, if_pos h1]
    · rw [nextH.eq_def, if_pos (Or.inl h1)]; ring
  · rw [hon h1 h2 h3]
    by_cases h5 : e 2 < 1 / 2 * e 1 ∧ 1 < c.kMax
    · rw [if_pos h5, if_pos h5]
    · rw [if_neg h5, if_neg h5]
  · rcases hbe h1 h2 h3 h4 with ⟨h, h'⟩ | ⟨h, h'⟩ | ⟨h, h'⟩
    · exact Or.inl ⟨by rw [h], h'⟩
    · exact Or.inr (Or.inl ⟨by rw [h], h'⟩)
    · exact Or.inr (Or.inr ⟨by rw [h], h'⟩)
  · rw [nextH.eq_def, hest h1, if_pos (Or.inr (by simpa [ENorm.leE, ENorm.scale] using h2))]; ring
  · rw [nextH.eq_def, hest h1, if_neg (not_or.mpr ⟨h1, by simpa [ENorm.leE, ENorm.scale] using h2⟩),
      if_pos (by simpa [ENorm.leE] using h3)]
  · rw [nextH.eq_def, hest h1, if_neg (not_or.mpr ⟨h1, by simpa [ENorm.leE, ENorm.scale] using h2⟩),
      if_neg (by simpa [ENorm.leE] using h3)]
    simp only
    rw [copySign]
    rcases hneg with ⟨h4, h5⟩ | ⟨h4, h5⟩
    · rw [if_neg h4, h5, one_mul]
    · rw [if_pos h4, h5, neg_one_mul]

/-- The accepted attempt of a regular step. -/
theorem regular_attempt {c : SwCfg K V} (ok : SwOK c) {t0 : K} {y0 yp0 : V} {h0 : K}
    {wt0 : V → ENorm K} {phi0 : ℕ → V} {co0 : Coef K} {nfev : ℕ} (hh : 0 < c.dir * h0)
    (hb : ∀ b, c.tb = some b → 0 ≤ c.dir * (b - t0)) {v v' : SwSolver K V} {fuel : ℕ}
    (hr : SwReach c (newSwag t0 y0 yp0 h0 wt0 phi0 co0 nfev) v) (hs : v.status = .running)
    (hb0 : c.tb ≠ some v.st.t) (h : swStep c fuel v = some (.ok, v')) (hk : v'.st.kold ≠ 0)
    (hd : Distinct v'.st) :
    Distinct v.st ∧ ∃ l, SwAttempt c v.st l ∧ l.h ≠ 0 ∧
      ENorm.leE (swTry c v.st.t v.st.y v.st.hold v.st.kold l).err (.num 1) = true ∧
      v'.st = swAccept c (swMinStep c v.st.t) (swStiff c v.st) l (swTry c v.st.t v.st.y v.st.hold v.st.kold l) := by
  have hkn := known ok hh hb hr hs
  rcases step_hist hs hb0 h with ⟨b, _, e⟩ | ⟨l, hl, hmn, he, e⟩
  · rw [e] at hk; exact absurd rfl hk
  obtain ⟨a1, a2, a3, a4, a5, a6⟩ := accept_hist e
  have hd1 : Distinct v.st := by
    unfold Distinct at hd ⊢
    rw [a1, List.map_cons] at hd
    exact (List.nodup_cons.mp hd).2
  have hm := hkn.mesh hd1
  refine ⟨hd1, l, hl, fun hc => ?_, he, e⟩
  unfold Distinct at hd
  rw [a1, List.map_cons, List.nodup_cons] at hd
  apply hd.1
  rw [a2, hc, add_zero, ← hm.now, hx_getElem _ (by have := hm.len; omega)]
  exact List.mem_map.mpr ⟨_, List.getElem_mem _, rfl⟩

/-- **C82.** A regular step of order `k` to `t'` returns the Adams-Moulton solution of order `k + 1` (with the
derivative in the predicted solution `p`), and it is accepted because its distance from the solution `yl` of order `k`
has norm at most one. -/
theorem C82_step {c : SwCfg K V} (ok : SwOK c) (hom : Homog c) {t0 : K} {y0 yp0 : V} {h0 : K}
    {wt0 : V → ENorm K} {phi0 : ℕ → V} {co0 : Coef K} {nfev : ℕ} (hh : 0 < c.dir * h0)
    (hb : ∀ b, c.tb = some b → 0 ≤ c.dir * (b - t0)) {v v' : SwSolver K V} {fuel : ℕ}
    (hr : SwReach c (newSwag t0 y0 yp0 h0 wt0 phi0 co0 nfev) v) (hs : v.status = .running)
    (hb0 : c.tb ≠ some v.st.t) (h : swStep c fuel v = some (.ok, v')) (hk : v'.st.kold ≠ 0)
    (hd : Distinct v'.st) :
    ∃ p yl : V, IsPrediction v.st v'.st.t v'.st.kold p ∧
      IsCorrection v.st v'.st.t (v'.st.kold - 1) (c.fn v'.st.t p) yl ∧
      IsCorrection v.st v'.st.t v'.st.kold (c.fn v'.st.t p) v'.st.y ∧
      ENorm.leE (c.scale p v.st.y (v'.st.y - yl)) (.num 1) = true := by
  obtain ⟨hd1, l, hl, hne, he, e⟩ := regular_attempt ok hh hb hr hs hb0 h hk hd
  obtain ⟨a1, a2, a3, a4, a5, a6⟩ := accept_hist e
  obtain ⟨hi, hm, hstr, hlo, ha, hpos⟩ := attempt_known ok hh hb hr hs hb0 hd1 hl hne
  have hk1 := ha.loc.k1
  have herr := err_eq ok hom hm hstr ha hpos
  simp only at herr
  rw [herr] at he
  rw [a2, a6, corrector_step e]
  exact ⟨_, _, attempt_predict hm hstr hne ha, attempt_correct hm hstr hne ha (m := l.k - 1) (by omega) (by omega),
    attempt_correct hm hstr hne ha (m := l.k) le_rfl (by omega), he⟩

/-- **C83.** After a regular step of order `k` and size `h`, with the prediction `p`, the order and the size of the
next step follow the rules `NextRule`, for the error estimates (assumed to be finite numbers `e q`)
* at the orders `q ≤ k` by the divided differences in the new point, with the derivative in the prediction, and the
  last `q` points before;
* at the order `k + 1`, if the step size was constant, by the backward difference of the stored derivatives, with the
  one in the new solution. -/
theorem C83_selection {c : SwCfg K V} (ok : SwOK c) (hom : Homog c) {t0 : K} {y0 yp0 : V} {h0 : K}
    {wt0 : V → ENorm K} {phi0 : ℕ → V} {co0 : Coef K} {nfev : ℕ} (hh : 0 < c.dir * h0)
    (hb : ∀ b, c.tb = some b → 0 ≤ c.dir * (b - t0)) {v v' : SwSolver K V} {fuel : ℕ}
    (hr : SwReach c (newSwag t0 y0 yp0 h0 wt0 phi0 co0 nfev) v) (hs : v.status = .running)
    (hb0 : c.tb ≠ some v.st.t) (h : swStep c fuel v = some (.ok, v')) (hk : v'.st.kold ≠ 0)
    (hd : Distinct v'.st) :
    ∃ p : V, IsPrediction v.st v'.st.t v'.st.kold p ∧
      (v'.st.kold < v'.st.ns →
        ∀ i ≤ v'.st.kold, hx v'.st.hist i - hx v'.st.hist (i + 1) = v'.st.t - v.st.t) ∧
      ∀ e : ℕ → K,
        (∀ q, v'.st.kold ≤ q + 2 → 1 ≤ q → q ≤ v'.st.kold →
          swEst c p v.st.y (v'.st.t - v.st.t) q (consX v'.st.t (hx v.st.hist))
            (consV (c.fn v'.st.t p) (hf v.st.hist)) = .num (e q)) →
        (v'.st.kold < v'.st.ns →
          swEst c p v.st.y (v'.st.t - v.st.t) (v'.st.kold + 1) (hx v'.st.hist) (hf v'.st.hist)
            = .num (e (v'.st.kold + 1))) →
        NextRule c.kMax v'.st.kold v'.st.k (v.st.phase1 = true) (v'.st.phase1 = true) (v'.st.nfs = v.st.nfs)
          (v'.st.kold < v'.st.ns) (v'.st.t - v.st.t) v'.st.h c.dir (c.fouru * |v.st.t|) c.pw e := by
  obtain ⟨hd1, l, hl, hne, he, e'⟩ := regular_attempt ok hh hb hr hs hb0 h hk hd
  obtain ⟨a1, a2, a3, a4, a5, a6⟩ := accept_hist e'
  obtain ⟨hi, hm, hstr, hlo, ha, hpos⟩ := attempt_known ok hh hb hr hs hb0 hd1 hl hne
  have hN := hr.next ok hh hb hs hd1
  have hk1 := ha.loc.k1
  obtain ⟨n1, n2, n3, n4, n5, n6⟩ := attempt_counts hl
  have hE : ∀ q ≤ l.k, _ := fun q hq => est_eq ok hom hi hm hstr hlo ha hpos (q := q) hq
  set r := swTry c v.st.t v.st.y v.st.hold v.st.kold l with hrdef
  simp only [← hrdef] at hE
  have hns : v'.st.ns = r.ns := by rw [e']; rfl
  have hstep : v'.st.t - v.st.t = l.h := by rw [a2]; ring
  rw [a6, hns, hstep]
  refine ⟨r.p, by rw [a2]; exact attempt_predict hm hstr hne ha, fun hc => ?_, fun e h1 h2 => ?_⟩
  · have := (next_diff (m := swMinStep c v.st.t) hm hN hstr ok.dir hl ha hpos hc).1
    simp only [← hrdef, ← e'] at this
    exact this
  · have ek : r.erk = swEst c r.p v.st.y l.h l.k (consX (v.st.t + l.h) (hx v.st.hist))
        (consV (c.fn (v.st.t + l.h) r.p) (hf v.st.hist)) := by
      have h1 := hE l.k le_rfl
      have h2 : r.phi l.k = 0 := by
        show phiPredict l.k _ l.k = 0
        rw [phiPredict, if_neg (by omega), if_pos rfl]
      rw [h2, zero_add] at h1
      exact h1
    set E := fun q => swEst c r.p v.st.y l.h q (consX (v.st.t + l.h) (hx v.st.hist))
        (consV (c.fn (v.st.t + l.h) r.p) (hf v.st.hist)) with hEdef
    have ekm : r.erkm1 = E (l.k - 1) := hE (l.k - 1) (by omega)
    have hkn : r.knew = lowerOrder l.k (E l.k) (E (l.k - 1)) (E (l.k - 2)) := by
      have h3 : r.knew = lowerOrder l.k r.erk r.erkm1 (ENorm.scale (r.co.sig (l.k - 2) * c.gstr (l.k - 2 - 1))
        (ENorm.scale |l.h| (r.wt (r.phi (l.k - 2) + (r.fp - r.phi 0))))) := rfl
      rw [h3, ek, ekm, hE (l.k - 2) (by omega)]
      rfl
    have hep : l.k < r.ns → ENorm.scale (c.gstr l.k * |l.h|) (r.wt (v'.st.phi (l.k + 1))) = .num (e (l.k + 1)) := by
      intro hc
      have h3 := (next_diff (m := swMinStep c v.st.t) hm hN hstr ok.dir hl ha hpos hc).2.1
      simp only [← hrdef, ← e'] at h3
      rw [← h2 hc, h3]
      have hz : (l.h ^ (l.k + 1) * ((l.k + 1).factorial : K)) ≠ 0 :=
        mul_ne_zero (pow_ne_zero _ hne) (by exact_mod_cast Nat.factorial_ne_zero _)
      show ENorm.scale _ (c.scale r.p v.st.y _) = ENorm.scale (c.gstr l.k) (c.scale r.p v.st.y _)
      rw [show (l.h ^ (l.k + 1 + 1) * ((l.k + 1).factorial : K)) • divDiff (l.k + 1) (hx v'.st.hist) (hf v'.st.hist)
        = l.h • ((l.h ^ (l.k + 1) * ((l.k + 1).factorial : K)) • divDiff (l.k + 1) (hx v'.st.hist) (hf v'.st.hist)) by
          rw [smul_smul]; congr 1; ring, hom _ _ _ l.h hne, scale_scale (abs_pos.mpr hne)]
    have hR := next_rule (c := c) (ns := r.ns) (phase1 := v.st.phase1) (clean := decide (l.ifail = 0))
      (minStep := swMinStep c v.st.t) ok.dir hk1 hlo.kM hpos (E := E) (e := e)
      (fun q h3 h4 h5 => by rw [← h1 q h3 h4 h5, a2]) hep hkn
    simp only at hR
    rw [← n3] at hR
    have p1 : v'.st.phase1 = if r.knew + 1 = l.k ∨ l.k = c.kMax then false else l.phase1 := by rw [e']; rfl
    have p2 : v'.st.k = (nextOrder c l.k r.knew r.ns v'.st.phase1 r.erk r.erkm1
      (ENorm.scale (c.gstr l.k * |l.h|) (r.wt (v'.st.phi (l.k + 1))))).1 := by rw [e']; rfl
    have p3 : v'.st.h = nextH c (swMinStep c v.st.t) l.h v'.st.k v'.st.phase1 (nextOrder c l.k r.knew r.ns v'.st.phase1
      r.erk r.erkm1 (ENorm.scale (c.gstr l.k * |l.h|) (r.wt (v'.st.phi (l.k + 1))))).2 := by rw [e']; rfl
    have p4 : v'.st.nfs = l.nfs := by rw [e']; rfl
    have p5 : (v'.st.nfs = v.st.nfs) = (decide (l.ifail = 0) = true) := by
      rw [p4, n2, decide_eq_true_eq]
      exact propext ⟨fun h => by omega, fun h => by omega⟩
    rw [p5, p3, p2, ek, ekm, p1]
    exact hR

/-- **C83.** When the step size counts as constant (`k < ns` in `C83_selection`): `ns` is one after a step with a failed
attempt and after a step of another size than the step before; otherwise it grows by one until it exceeds the order of
the step before. -/
theorem C83_constant {c : SwCfg K V} (ok : SwOK c) {t0 : K} {y0 yp0 : V} {h0 : K}
    {wt0 : V → ENorm K} {phi0 : ℕ → V} {co0 : Coef K} {nfev : ℕ} (hh : 0 < c.dir * h0)
    (hb : ∀ b, c.tb = some b → 0 ≤ c.dir * (b - t0)) {v v' : SwSolver K V} {fuel : ℕ}
    (hr : SwReach c (newSwag t0 y0 yp0 h0 wt0 phi0 co0 nfev) v) (hs : v.status = .running)
    (hb0 : c.tb ≠ some v.st.t) (h : swStep c fuel v = some (.ok, v')) (hk : v'.st.kold ≠ 0)
    (hd : Distinct v'.st) :
    v'.st.hold = v'.st.t - v.st.t ∧
    v'.st.ns = if v'.st.nfs = v.st.nfs ∧ v'.st.t - v.st.t = v.st.hold then
        (if v.st.ns ≤ v.st.kold then v.st.ns + 1 else v.st.ns) else 1 := by
  obtain ⟨hd1, l, hl, hne, he, e'⟩ := regular_attempt ok hh hb hr hs hb0 h hk hd
  obtain ⟨a1, a2, a3, a4, a5, a6⟩ := accept_hist e'
  obtain ⟨n1, n2, n3, n4, n5, n6⟩ := attempt_counts hl
  have hstep : v'.st.t - v.st.t = l.h := by rw [a2]; ring
  have hns : v'.st.ns = newNs l.h v.st.hold l.ns v.st.kold := by rw [e']; rfl
  have hnfs : v'.st.nfs = l.nfs := by rw [e']; rfl
  have hhold : v'.st.hold = l.h := by rw [e']; rfl
  rw [hhold, hstep, hns, hnfs, n2]
  refine ⟨rfl, ?_⟩
  cases hl with
  | first =>
    have e8 : (swStart (swStiff c v.st) (swLimit c v.st.t v.st.h)).ns = v.st.ns :=
      (swStiff_same c v.st).2.2.2.2.2.2.2.1
    have e0 : (swStart (swStiff c v.st) (swLimit c v.st.t v.st.h)).ifail = 0 := rfl
    rw [e8, e0, add_zero]
    by_cases hc : (swStart (swStiff c v.st) (swLimit c v.st.t v.st.h)).h = v.st.hold
    · rw [if_pos ⟨rfl, hc⟩, hc, newNs_eq]
    · rw [if_neg (fun h => hc h.2), newNs_ne hc]
  | @retry l1 _ _ =>
    rw [if_neg (fun h => by
      have h1 := h.1
      have h2 : (swFail c l1 (swTry c v.st.t v.st.y v.st.hold v.st.kold l1)).ifail = l1.ifail + 1 := rfl
      omega)]
    have h2 : (swFail c l1 (swTry c v.st.t v.st.y v.st.hold v.st.kold l1)).ns = 0 := rfl
    rw [h2, newNs_zero]

end
end Extensisq
