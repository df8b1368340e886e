import Verif.Model.CKdisc
import Verif.Props.DriverControl

/-!
# C32, C33: `CKdisc`

C32: the adaptive factors stay in range, every retry shortens the step, every `step()` returns.
C33: an accepted step passed the error test of the order it was accepted with; the time advances and stays
in the interval; failures change nothing.
-/

set_option linter.unusedSectionVars false

namespace Extensisq
open Finset

section
variable {K V : Type*} [Field K] [LinearOrder K] [IsStrictOrderedRing K] [AddCommGroup V] [Module K V]

/-! ## Specification -/

/-- The first `n` rows of `k` are the stages of the Runge-Kutta tableau with step `h` from `(t, y)`. -/
def IsStages (T : Tableau K) (rhs : K → V → V) (t : K) (y : V) (h : K) (n : ℕ) (k : ℕ → V) : Prop :=
  ∀ i, i < n → k i = rhs (t + T.C i * h) (y + h • ∑ j ∈ range i, T.A i j • k j)

/-- `Σ_{j<n} b_j k_j` for a row `b` of class-level coefficients. -/
def comb (b : List ℚ) (n : ℕ) (k : ℕ → V) : V := ∑ j ∈ range n, ((b.getD j 0 : ℚ) : K) • k j

/-- The ranges of the adaptive factors. -/
structure FactorsOK (σ : CkSt K V) : Prop where
  tw0 : 11 / 10 ≤ σ.tw0
  tw1 : 11 / 10 ≤ σ.tw1
  q0 : 1 ≤ σ.q0 ∧ σ.q0 ≤ 10000
  q1 : 1 ≤ σ.q1 ∧ σ.q1 ≤ 10000

/-- What an accepted `CKdisc` step is: with the stages of an attempt of signed length `h`, either the fifth
order solution of the whole attempt with `norm^(1/5) < 1`, or the third (second) order solution at `3/5`
(`1/5`) of it whose scaled error estimate has norm `< 1` (and for which also the assessed low order error
measure is `< 1`). -/
inductive CkAccepted (a : CkCfg K V) (t : K) (y : V) (h : K) (k : ℕ → V) : ℕ → K → V → Prop
  | fifth (hs : IsStages (CKdiscTab.tab K) a.rhs t y h 6 k) {yN : V}
      (hy : yN = y + h • comb (K := K) CKdiscTab.B 6 k)
      (he : (ckNonzero a.tiny4 ((a.errNorm y yN (h • comb (K := K) CKdiscTab.E 6 k)).root a.c.pw
        (1 / 5))).lt 1 = true) : CkAccepted a t y h k 4 h yN
  | third (hs : IsStages (CKdiscTab.tab K) a.rhs t y h 4 k) {yN : V}
      (hy : yN = y + h • comb (K := K) [1/10, 0, 2/5, 1/10] 4 k)
      (he : (a.errNorm y yN (h • comb (K := K) [1/10, 0, -1/5, 1/10] 4 k)).lt 1 = true)
      (ha : ((a.errNorm y (y + h • comb (K := K) [19/54, 0, -10/27, 55/54] 4 k)
        (h • comb (K := K) [50/27, -5/2, -10/27, 55/54] 4 k)).root a.c.pw (1 / 3)).lt 1 = true) :
      CkAccepted a t y h k 2 (3 / 5 * h) yN
  | second (hs : IsStages (CKdiscTab.tab K) a.rhs t y h 2 k) {yN : V}
      (hy : yN = y + h • comb (K := K) [1/10, 1/10] 2 k)
      (he : (a.errNorm y yN (h • comb (K := K) [-1/10, 1/10] 2 k)).lt 1 = true)
      (ha : ((a.errNorm y (y + h • comb (K := K) [-3/2, 5/2] 2 k)
        (h • comb (K := K) [-5/2, 5/2] 2 k)).root a.c.pw (1 / 2)).lt 1 = true) :
      CkAccepted a t y h k 1 (1 / 5 * h) yN

/-! ## Stages -/

theorem isStages_succ {a : CkCfg K V} {s : St K V V} {h : K} {n : ℕ} {k : ℕ → V}
    (hk : IsStages (CKdiscTab.tab K) a.rhs s.t s.y h n k) :
    IsStages (CKdiscTab.tab K) a.rhs s.t s.y h (n + 1) (ckStage a s h k n) := by
  intro i hi
  have hsum : ∀ m, m ≤ n → ∑ j ∈ range m, (CKdiscTab.tab K).A m j • ckStage a s h k n j =
      ∑ j ∈ range m, (CKdiscTab.tab K).A m j • k j := by
    intro m hm
    apply sum_congr rfl
    intro j hj
    rw [mem_range] at hj
    unfold ckStage
    rw [Function.update_of_ne (by omega)]
  rcases Nat.lt_succ_iff_lt_or_eq.mp hi with hlt | rfl
  · rw [hsum i hlt.le]
    unfold ckStage
    rw [Function.update_of_ne (by omega)]
    exact hk i hlt
  · rw [hsum i le_rfl]
    unfold ckStage
    rw [Function.update_self]
    rfl

theorem isStages_zero {a : CkCfg K V} {s : St K V V} (hf : s.f = a.rhs s.t s.y) (h : K) :
    IsStages (CKdiscTab.tab K) a.rhs s.t s.y h 1 (Function.update s.Ks 0 s.f) := by
  intro i hi
  obtain rfl : i = 0 := by omega
  rw [Function.update_self, hf]
  simp [RKTable.tab, CKdiscTab]

theorem ckK1_stages {a : CkCfg K V} {s : St K V V} (hf : s.f = a.rhs s.t s.y) (hAbs : K) :
    IsStages (CKdiscTab.tab K) a.rhs s.t s.y (hAbs * a.c.dir) 2 (ckK1 a s hAbs) :=
  isStages_succ (isStages_zero hf _)

theorem ckK3_stages {a : CkCfg K V} {s : St K V V} (hf : s.f = a.rhs s.t s.y) (hAbs : K) :
    IsStages (CKdiscTab.tab K) a.rhs s.t s.y (hAbs * a.c.dir) 4 (ckK3 a s hAbs) :=
  isStages_succ (isStages_succ (ckK1_stages hf _))

theorem ckK5_stages {a : CkCfg K V} {s : St K V V} (hf : s.f = a.rhs s.t s.y) (hAbs : K) :
    IsStages (CKdiscTab.tab K) a.rhs s.t s.y (hAbs * a.c.dir) 6 (ckK5 a s hAbs) :=
  isStages_succ (isStages_succ (ckK3_stages hf _))

theorem IsStages.mono {T : Tableau K} {rhs : K → V → V} {t : K} {y : V} {h : K} {n m : ℕ} {k : ℕ → V}
    (hk : IsStages T rhs t y h n k) (hm : m ≤ n) : IsStages T rhs t y h m k :=
  fun i hi => hk i (by omega)

theorem ckK3_lo (a : CkCfg K V) (s : St K V V) (hAbs : K) (i : ℕ) (hi : i < 2) :
    ckK3 a s hAbs i = ckK1 a s hAbs i := by
  unfold ckK3 ckStage
  rw [Function.update_of_ne (by omega), Function.update_of_ne (by omega)]

theorem ckK5_lo (a : CkCfg K V) (s : St K V V) (hAbs : K) (i : ℕ) (hi : i < 4) :
    ckK5 a s hAbs i = ckK3 a s hAbs i := by
  unfold ckK5 ckStage
  rw [Function.update_of_ne (by omega), Function.update_of_ne (by omega)]

theorem ckNorm_congr (a : CkCfg K V) (y : V) (h : K) (b e : List ℚ) (i : ℕ) {k k' : ℕ → V}
    (hk : ∀ j, j < i → k j = k' j) : ckNorm a y h b e i k = ckNorm a y h b e i k' := by
  have h1 : ∀ l : List ℚ, ∑ j ∈ range i, ((l.getD j 0 : ℚ) : K) • k j =
      ∑ j ∈ range i, ((l.getD j 0 : ℚ) : K) • k' j := by
    intro l
    exact sum_congr rfl fun j hj => by rw [hk j (mem_range.mp hj)]
  unfold ckNorm ckSol
  rw [h1, h1]

/-! ## One pass of the loop -/

/-- Only the work array and the counters differ. -/
def CkOnlyWork (s s' : St K V V) : Prop := s' = { s with Ks := s'.Ks, nfev := s'.nfev, nfs := s'.nfs }

theorem ckQuit_range (q r : K) : 1 ≤ ckQuit q r ∧ ckQuit q r ≤ 10000 := by
  unfold ckQuit
  exact ⟨le_max_left _ _, max_le (by norm_num) (min_le_left _ _)⟩

theorem ckTwiddle_range {tw q e : K} (h : 11 / 10 ≤ tw) :
    11 / 10 ≤ ckTwiddle tw q e ∧ ckTwiddle tw q e ≤ tw := by
  unfold ckTwiddle
  dsimp only
  split_ifs with h1
  · exact ⟨le_max_left _ _, max_le h h1.le⟩
  · exact ⟨h, le_rfl⟩

/-- `esttol` of a retry is at least one, or not finite. -/
def EstBig : ENorm K → Prop
  | .num x => 1 ≤ x
  | _ => True

theorem ckRetryFactor_range {e : ENorm K} (h : EstBig e) :
    1 / 5 ≤ ckRetryFactor e ∧ ckRetryFactor e ≤ 9 / 10 := by
  cases e with
  | num x =>
    have hx : (1 : K) ≤ x := h
    refine ⟨le_max_left _ _, max_le ?_ ?_⟩
    · norm_num [ckMinFactor]
    · unfold ckSafety
      rw [div_le_iff₀ (by linarith)]
      linarith
  | inf => exact ⟨le_max_left _ _, max_le (by norm_num [ckMinFactor]) (by norm_num)⟩
  | nan => exact ⟨le_refl (1 / 5 : K), by norm_num [ckRetryFactor, ckMinFactor]⟩

theorem estBig_div {e : ENorm K} {tw q : K} (h : ¬ e.lt (tw * q) = true) (htw : 11 / 10 ≤ tw)
    (hq : 1 ≤ q) : EstBig (e.divBy q) := by
  cases e with
  | num x =>
    simp only [ENorm.lt, decide_eq_true_eq, not_lt] at h
    show 1 ≤ x / q
    rw [le_div_iff₀ (by linarith)]
    nlinarith
  | inf => trivial
  | nan => trivial

/-- Result of a pass, as needed below. -/
def CkResOK (a : CkCfg K V) (σ : CkSt K V) (hAbs : K) : CkRes K V → Prop
  | .accept o yN hs hn σ' =>
    CkOnlyWork σ.st σ'.st ∧ FactorsOK σ' ∧ σ'.tw0 ≤ σ.tw0 ∧ σ'.tw1 ≤ σ.tw1 ∧ σ'.st.nfs = σ.st.nfs ∧
    CkAccepted a σ.st.t σ.st.y (hAbs * a.c.dir) σ'.st.Ks o (hs * a.c.dir) yN ∧
    hAbs / 5 ≤ hs ∧ hs ≤ hAbs ∧ (o ≠ 4 → hn = hs) ∧ hn ≤ 5 * hs ∧ σ'.st.nfev ≤ σ.st.nfev + 5 ∧
    σ'.st.Ks 0 = σ.st.f
  | .overflow σ' =>
    CkOnlyWork σ.st σ'.st ∧ FactorsOK σ' ∧ σ'.tw0 ≤ σ.tw0 ∧ σ'.tw1 ≤ σ.tw1 ∧ σ'.st.nfs = σ.st.nfs ∧
    σ'.orderAcc = σ.orderAcc ∧ σ'.st.nfev ≤ σ.st.nfev + 5
  | .retry h' σ' =>
    CkOnlyWork σ.st σ'.st ∧ FactorsOK σ' ∧ σ'.tw0 ≤ σ.tw0 ∧ σ'.tw1 ≤ σ.tw1 ∧
    σ'.st.nfs = σ.st.nfs + 1 ∧ hAbs / 5 ≤ h' ∧ h' ≤ 9 / 10 * hAbs ∧ σ'.orderAcc = σ.orderAcc ∧
    σ'.st.nfev ≤ σ.st.nfev + 5

theorem norm_ckE1 (a : CkCfg K V) (y : V) (h : K) (k : ℕ → V) :
    ckNorm a y h ckBassess0 ckEassess0 2 k = a.errNorm y (y + h • comb (K := K) [-3/2, 5/2] 2 k)
      (h • comb (K := K) [-5/2, 5/2] 2 k) := by
  unfold ckNorm ckSol comb
  rw [add_comm]
  norm_num [sum_range_succ, ckBassess0, ckEassess0]

theorem norm_ckE2 (a : CkCfg K V) (y : V) (h : K) (k : ℕ → V) :
    ckNorm a y h ckBassess1 ckEassess1 4 k =
      a.errNorm y (y + h • comb (K := K) [19/54, 0, -10/27, 55/54] 4 k)
      (h • comb (K := K) [50/27, -5/2, -10/27, 55/54] 4 k) := by
  unfold ckNorm ckSol comb
  rw [add_comm]
  norm_num [sum_range_succ, ckBassess1, ckEassess1]

theorem norm_fall0 (a : CkCfg K V) (y : V) (h : K) (k : ℕ → V) :
    ckNorm a y h ckBfall0 ckEfall0 2 k = a.errNorm y (y + h • comb (K := K) [1/10, 1/10] 2 k)
      (h • comb (K := K) [-1/10, 1/10] 2 k) := by
  unfold ckNorm ckSol comb
  rw [add_comm]
  norm_num [sum_range_succ, ckBfall0, ckEfall0]

theorem norm_fall1 (a : CkCfg K V) (y : V) (h : K) (k : ℕ → V) :
    ckNorm a y h ckBfall1 ckEfall1 4 k = a.errNorm y (y + h • comb (K := K) [1/10, 0, 2/5, 1/10] 4 k)
      (h • comb (K := K) [1/10, 0, -1/5, 1/10] 4 k) := by
  unfold ckNorm ckSol comb
  rw [add_comm]
  norm_num [sum_range_succ, ckBfall1, ckEfall1]

theorem sol_fall0 (y : V) (h : K) (k : ℕ → V) :
    ckSol y h ckBfall0 2 k = y + h • comb (K := K) [1/10, 1/10] 2 k := by
  unfold ckSol comb
  rw [add_comm]
  norm_num [sum_range_succ, ckBfall0]

theorem sol_fall1 (y : V) (h : K) (k : ℕ → V) :
    ckSol y h ckBfall1 4 k = y + h • comb (K := K) [1/10, 0, 2/5, 1/10] 4 k := by
  unfold ckSol comb
  rw [add_comm]
  norm_num [sum_range_succ, ckBfall1]

theorem ckK1_zero (a : CkCfg K V) (s : St K V V) (hAbs : K) : ckK1 a s hAbs 0 = s.f := by
  unfold ckK1 ckStage
  rw [Function.update_of_ne (by omega), Function.update_self]

/-- The fallback part. `σ` is the state before the pass, `σ'` the state entering the fallback. -/
theorem ckFallback2_ok {a : CkCfg K V} {σ σ' : CkSt K V} (hf : σ.st.f = a.rhs σ.st.t σ.st.y)
    (hw : CkOnlyWork σ.st σ'.st) (hn : σ'.st.nfs = σ.st.nfs) (hF : FactorsOK σ')
    (h0 : σ'.tw0 ≤ σ.tw0) (h1 : σ'.tw1 ≤ σ.tw1) (ho : σ'.orderAcc = σ.orderAcc)
    (hev : σ'.st.nfev ≤ σ.st.nfev + 5) {hAbs : K}
    (hpos : 0 < hAbs) (hlo : ∀ i, i < 2 → σ'.st.Ks i = ckK1 a σ.st hAbs i) {est : ENorm K}
    (hest : EstBig est) :
    CkResOK a σ hAbs (ckFallback2 a σ' hAbs (ckE1 a σ.st hAbs) est) := by
  have hy : σ'.st.y = σ.st.y := by rw [hw]
  unfold ckFallback2
  dsimp only
  split_ifs with he hf2
  · refine ⟨hw, hF, h0, h1, hn, ?_, ?_, ?_, fun _ => rfl, ?_, hev, ?_⟩
    · have hst : IsStages (CKdiscTab.tab K) a.rhs σ.st.t σ.st.y (hAbs * a.c.dir) 2 σ'.st.Ks := by
        intro i hi
        have := ckK1_stages hf hAbs i hi
        rw [hlo i hi, this]
        congr 3
        apply sum_congr rfl
        intro j hj
        rw [hlo j (by have := mem_range.mp hj; omega)]
      have e : hAbs * (ckCfall0 : K) * a.c.dir = 1 / 5 * (hAbs * a.c.dir) := by
        unfold ckCfall0; push_cast; ring
      rw [e]
      refine CkAccepted.second hst ?_ ?_ ?_
      · rw [hy, sol_fall0]
      · rw [hy, norm_fall0] at hf2
        rw [hy, sol_fall0]; exact hf2
      · unfold ckE1 at he
        rw [ckNorm_congr a _ _ _ _ _ (fun j hj => (hlo j hj).symm), norm_ckE1] at he
        exact he
    · unfold ckCfall0; push_cast; linarith
    · unfold ckCfall0; push_cast; linarith
    · unfold ckCfall0; push_cast; linarith
    · rw [hlo 0 (by omega), ckK1_zero]
  · refine ⟨?_, ⟨hF.1, hF.2, hF.3, hF.4⟩, h0, h1, ?_, ?_, ?_, ho, hev⟩
    · unfold CkOnlyWork at hw ⊢
      rw [hw]
    · show σ'.st.nfs + 1 = _
      rw [hn]
    · unfold ckCfall0; push_cast; linarith
    · unfold ckCfall0; push_cast; linarith
  · obtain ⟨r1, r2⟩ := ckRetryFactor_range hest
    refine ⟨?_, ⟨hF.1, hF.2, hF.3, hF.4⟩, h0, h1, ?_, ?_, ?_, ho, hev⟩
    · unfold CkOnlyWork at hw ⊢
      rw [hw]
    · show σ'.st.nfs + 1 = _
      rw [hn]
    · nlinarith
    · nlinarith

theorem ckTry_ok {a : CkCfg K V} {σ : CkSt K V} (hf : σ.st.f = a.rhs σ.st.t σ.st.y)
    (hF : FactorsOK σ) {hAbs : K} (hpos : 0 < hAbs) (rej : Bool) :
    CkResOK a σ hAbs (ckTry a σ hAbs rej) := by
  unfold ckTry
  dsimp only
  by_cases h1 : (ckE1 a σ.st hAbs).lt (σ.tw0 * σ.q0) = true
  on_goal 1 => rw [if_pos h1]
  on_goal 2 => rw [if_neg h1]
  on_goal 1 => by_cases h2 : (ckE2 a σ.st hAbs).lt (σ.tw1 * σ.q1) = true
  on_goal 1 => rw [if_pos h2]
  on_goal 2 => rw [if_neg h2]
  on_goal 1 => by_cases h3 : (ckE4 a σ.st hAbs).lt 1 = true
  on_goal 1 => rw [if_pos h3]
  on_goal 2 => rw [if_neg h3]
  · -- fifth order accepted
    refine ⟨rfl, ⟨hF.tw0, hF.tw1, ckQuit_range _ _, ckQuit_range _ _⟩, le_rfl, le_rfl, rfl, ?_, ?_, le_rfl,
      fun h => absurd rfl h, ?_, le_rfl, ?_⟩
    · have e5 : ckSol σ.st.y (hAbs * a.c.dir) CKdiscTab.B 6 (ckK5 a σ.st hAbs) =
          σ.st.y + (hAbs * a.c.dir) • comb (K := K) CKdiscTab.B 6 (ckK5 a σ.st hAbs) := by
        unfold ckSol comb; rw [add_comm]
      refine CkAccepted.fifth (ckK5_stages hf _) e5 ?_
      exact h3
    · linarith
    · have : (if rej = true then min 1 (min ckMaxFactor (ckSafety / (ckE4 a σ.st hAbs).val))
          else min ckMaxFactor (ckSafety / (ckE4 a σ.st hAbs).val)) ≤ (5 : K) := by
        split_ifs
        · exact (min_le_left _ _).trans (by norm_num)
        · exact min_le_left _ _
      nlinarith
    · show ckK5 a σ.st hAbs 0 = _
      rw [ckK5_lo _ _ _ _ (by omega), ckK3_lo _ _ _ _ (by omega), ckK1_zero]
  · -- fifth order rejected
    have hlo : ∀ i, i < 2 → ckK5 a σ.st hAbs i = ckK1 a σ.st hAbs i := by
      intro i hi
      rw [ckK5_lo _ _ _ _ (by omega), ckK3_lo _ _ _ _ (by omega)]
    cases h4 : ckE4 a σ.st hAbs with
    | num x =>
      have hx : 1 ≤ x := by
        rw [h4] at h3
        simpa [ENorm.lt] using h3
      dsimp only
      have t0 := ckTwiddle_range (q := σ.q0) (e := (ckE1 a σ.st hAbs).val) hF.tw0
      have t1 := ckTwiddle_range (q := σ.q1) (e := (ckE2 a σ.st hAbs).val) hF.tw1
      split_ifs with h5
      · rw [Bool.and_eq_true] at h5
        refine ⟨rfl, ⟨t0.1, t1.1, hF.q0, hF.q1⟩, t0.2, t1.2, rfl, ?_, ?_, ?_, fun _ => rfl, ?_, le_rfl, ?_⟩
        · have e : hAbs * (ckCfall1 : K) * a.c.dir = 3 / 5 * (hAbs * a.c.dir) := by
            unfold ckCfall1; push_cast; ring
          rw [e]
          refine CkAccepted.third ((ckK5_stages hf _).mono (by omega)) ?_ ?_ ?_
          · exact sol_fall1 _ _ _
          · have := h5.2
            rw [norm_fall1] at this
            rw [sol_fall1]; exact this
          · have := h5.1
            unfold ckE2 at this
            rw [ckNorm_congr a _ _ _ _ _ (fun j hj => (ckK5_lo a σ.st hAbs j hj).symm), norm_ckE2] at this
            exact this
        · unfold ckCfall1; push_cast; linarith
        · unfold ckCfall1; push_cast; linarith
        · unfold ckCfall1; push_cast; linarith
        · show ckK5 a σ.st hAbs 0 = _
          rw [hlo 0 (by omega), ckK1_zero]
      · apply ckFallback2_ok (σ := σ) hf
        · rfl
        · rfl
        · exact ⟨t0.1, t1.1, hF.q0, hF.q1⟩
        · exact t0.2
        · exact t1.2
        · rfl
        · exact le_rfl
        · exact hpos
        · exact hlo
        · exact hx
    | inf => exact ⟨rfl, ⟨hF.tw0, hF.tw1, hF.q0, hF.q1⟩, le_rfl, le_rfl, rfl, rfl, le_rfl⟩
    | nan => exact ⟨rfl, ⟨hF.tw0, hF.tw1, hF.q0, hF.q1⟩, le_rfl, le_rfl, rfl, rfl, le_rfl⟩
  · -- second assessment failed
    apply ckFallback2_ok (σ := σ) hf
    · rfl
    · rfl
    · exact ⟨hF.tw0, hF.tw1, hF.q0, hF.q1⟩
    · exact le_rfl
    · exact le_rfl
    · rfl
    · show σ.st.nfev + 3 ≤ _
      omega
    · exact hpos
    · intro i hi
      exact ckK3_lo _ _ _ _ hi
    · exact estBig_div h2 hF.tw1 hF.q1.1
  · -- first assessment failed
    obtain ⟨r1, r2⟩ := ckRetryFactor_range (estBig_div h1 hF.tw0 hF.q0.1)
    refine ⟨rfl, ⟨hF.tw0, hF.tw1, hF.q0, hF.q1⟩, le_rfl, le_rfl, rfl, ?_, ?_, rfl, ?_⟩
    · nlinarith
    · nlinarith
    · show σ.st.nfev + 1 ≤ _
      omega

/-! ## The loop -/

/-- What a returning call of `_step_impl` did: `r` retries, first step size `h`. -/
structure CkDone (a : CkCfg K V) (σ : CkSt K V) (h ms : K) (o : Out) (σ' : CkSt K V) (r : ℕ) : Prop where
  factors : FactorsOK σ'
  tw0 : σ'.tw0 ≤ σ.tw0
  tw1 : σ'.tw1 ≤ σ.tw1
  nfs : σ'.st.nfs = σ.st.nfs + r
  nfev : σ'.st.nfev ≤ σ.st.nfev + 5 * (r + 1) + 1
  result : ((∃ m, o = .fail m) ∧ CkOnlyWork σ.st σ'.st ∧ σ'.orderAcc = σ.orderAcc) ∨
    (o = .ok ∧ ∃ (hA hs : K) (k : ℕ → V) (ord : ℕ), ms ≤ hA ∧ hA ≤ (9 / 10) ^ r * h ∧
      CkAccepted a σ.st.t σ.st.y (hA * a.c.dir) k ord (hs * a.c.dir) σ'.st.y ∧
      hA / 5 ≤ hs ∧ hs ≤ hA ∧ σ'.st.t = σ.st.t + hs * a.c.dir ∧
      σ'.st.f = a.rhs σ'.st.t σ'.st.y ∧ σ'.st.yOld = some σ.st.y ∧ σ'.st.hPrev = some (hs * a.c.dir) ∧
      σ'.orderAcc = some ord ∧ σ'.st.Ks = Function.update k 6 σ'.st.f ∧ k 0 = σ.st.f ∧
      σ'.st.hAbs ≤ 5 * hs ∧ (ord ≠ 4 → σ'.st.hAbs = hs))

theorem ckLoop_ok {a : CkCfg K V} {ms : K} (hms : 0 < ms) :
    ∀ (n : ℕ) (σ : CkSt K V) (h : K) (rej : Bool), σ.st.f = a.rhs σ.st.t σ.st.y → FactorsOK σ →
      ∀ {o : Out} {σ' : CkSt K V}, ckLoop a n σ h ms rej = some (o, σ') →
      ∃ r, CkDone a σ h ms o σ' r := by
  intro n
  induction n with
  | zero => intro σ h rej _ _ o σ' hl; simp [ckLoop] at hl
  | succ n ih =>
    intro σ h rej hf hF o σ' hl
    unfold ckLoop at hl
    by_cases hlt : h < ms
    · rw [if_pos hlt] at hl
      simp only [Option.some.injEq, Prod.mk.injEq] at hl
      obtain ⟨rfl, rfl⟩ := hl
      exact ⟨0, hF, le_rfl, le_rfl, rfl, by omega, .inl ⟨⟨_, rfl⟩, rfl, rfl⟩⟩
    · rw [if_neg hlt] at hl
      rw [not_lt] at hlt
      have hpos : 0 < h := lt_of_lt_of_le hms hlt
      have key := ckTry_ok hf hF hpos rej
      cases ht : ckTry a σ h rej with
      | accept ord yN hs hn σ1 =>
        rw [ht] at hl key
        simp only [Option.some.injEq, Prod.mk.injEq] at hl
        obtain ⟨rfl, rfl⟩ := hl
        obtain ⟨hw, hF', t0, t1, hnf, hacc, l1, l2, l3, l4, hev, hk0⟩ := key
        have et : σ1.st.t = σ.st.t := by rw [hw]
        have ey : σ1.st.y = σ.st.y := by rw [hw]
        refine ⟨0, ⟨hF'.1, hF'.2, hF'.3, hF'.4⟩, t0, t1, hnf, ?_, .inr ⟨rfl, h, hs, σ1.st.Ks, ord, hlt, ?_, hacc, l1,
          l2, ?_, rfl, ?_, rfl, rfl, rfl, hk0, l4, l3⟩⟩
        · show σ1.st.nfev + 1 ≤ _
          omega
        · simp
        · show σ1.st.t + _ = _
          rw [et]
        · show some σ1.st.y = _
          rw [ey]
      | overflow σ1 =>
        rw [ht] at hl key
        simp only [Option.some.injEq, Prod.mk.injEq] at hl
        obtain ⟨rfl, rfl⟩ := hl
        obtain ⟨hw, hF', t0, t1, hnf, ho, hev⟩ := key
        exact ⟨0, hF', t0, t1, hnf, by omega, .inl ⟨⟨_, rfl⟩, hw, ho⟩⟩
      | retry h1 σ1 =>
        rw [ht] at hl key
        obtain ⟨hw, hF', t0, t1, hnf, l1, l2, ho, hev⟩ := key
        have et : σ1.st.t = σ.st.t := by rw [hw]
        have ey : σ1.st.y = σ.st.y := by rw [hw]
        have ef : σ1.st.f = σ.st.f := by rw [hw]
        obtain ⟨r, d⟩ := ih σ1 h1 true (by rw [ef, et, ey, hf]) hF' hl
        refine ⟨r + 1, d.factors, d.tw0.trans t0, d.tw1.trans t1, by rw [d.nfs, hnf]; omega,
          by have := d.nfev; omega, ?_⟩
        rcases d.result with ⟨hm, hw', ho'⟩ | ⟨hok, hA, hs, k, ord, r1, r2, r3, r4, r5, r6, r7, r8, r9, r10, r11, r12,
          r13, r14⟩
        · refine .inl ⟨hm, ?_, ho'.trans ho⟩
          unfold CkOnlyWork at hw hw' ⊢
          rw [hw', hw]
        · rw [et, ey] at r3
          rw [et] at r6
          rw [ey] at r8
          rw [ef] at r12
          refine .inr ⟨hok, hA, hs, k, ord, r1, r2.trans ?_, r3, r4, r5, r6, r7, r8, r9, r10, r11, r12, r13, r14⟩
          rw [pow_succ]
          have : (0 : K) ≤ (9 / 10) ^ r := by positivity
          nlinarith

theorem ckLoop_returns {a : CkCfg K V} {ms : K} (hms : 0 < ms) :
    ∀ (n : ℕ) (σ : CkSt K V) (h : K) (rej : Bool), σ.st.f = a.rhs σ.st.t σ.st.y → FactorsOK σ →
      (9 / 10) ^ n * h < ms → ckLoop a (n + 1) σ h ms rej ≠ none := by
  intro n
  induction n with
  | zero =>
    intro σ h rej _ _ hh
    unfold ckLoop
    rw [pow_zero, one_mul] at hh
    rw [if_pos hh]
    exact (fun h => by cases h)
  | succ n ih =>
    intro σ h rej hf hF hh
    unfold ckLoop
    by_cases hlt : h < ms
    · rw [if_pos hlt]; exact (fun h => by cases h)
    · rw [if_neg hlt]
      rw [not_lt] at hlt
      have hpos : 0 < h := lt_of_lt_of_le hms hlt
      have key := ckTry_ok hf hF hpos rej
      cases ht : ckTry a σ h rej with
      | accept ord yN hs hn σ1 => exact (fun h => by cases h)
      | overflow σ1 => exact (fun h => by cases h)
      | retry h1 σ1 =>
        rw [ht] at key
        obtain ⟨hw, hF', t0, t1, hnf, l1, l2, ho, hev⟩ := key
        have et : σ1.st.t = σ.st.t := by rw [hw]
        have ey : σ1.st.y = σ.st.y := by rw [hw]
        have ef : σ1.st.f = σ.st.f := by rw [hw]
        refine ih σ1 h1 true (by rw [ef, et, ey, hf]) hF' (lt_of_le_of_lt ?_ hh)
        rw [pow_succ]
        have : (0 : K) ≤ (9 / 10) ^ n := by positivity
        nlinarith

theorem ckLoop_more {a : CkCfg K V} {ms : K} {r : Out × CkSt K V} :
    ∀ (n m : ℕ) (σ : CkSt K V) (h : K) (rej : Bool), n ≤ m → ckLoop a n σ h ms rej = some r →
      ckLoop a m σ h ms rej = some r := by
  intro n
  induction n with
  | zero => intro m σ h rej _ hl; simp [ckLoop] at hl
  | succ n ih =>
    intro m σ h rej hm hl
    obtain ⟨m, rfl⟩ : ∃ k, m = k + 1 := ⟨m - 1, by omega⟩
    unfold ckLoop at hl ⊢
    by_cases hlt : h < ms
    · rw [if_pos hlt] at hl ⊢; exact hl
    · rw [if_neg hlt] at hl ⊢
      cases ht : ckTry a σ h rej with
      | accept ord yN hs hn σ1 => rw [ht] at hl; exact hl
      | overflow σ1 => rw [ht] at hl; exact hl
      | retry h1 σ1 => rw [ht] at hl; exact ih m σ1 h1 true (by omega) hl

/-! ## Reachable states -/

/-- The state invariant of a `CKdisc` object. -/
structure CkInv (a : CkCfg K V) (σ : CkSt K V) : Prop where
  deriv : σ.st.f = a.rhs σ.st.t σ.st.y
  factors : FactorsOK σ

theorem ckStep_cases {a : CkCfg K V} (hc : CfgOK a.c) {fuel : ℕ} {v v' : CkSolver K V} {o : Out}
    (hi : CkInv a v.σ) (h : ckStep a fuel v = some (o, v')) :
    (v'.σ = v.σ ∧ (v.status ≠ .running ∧ o = .exc .runtimeErr ∧ v' = v ∨
      a.c.tb = some v.σ.st.t ∧ o = .ok ∧ v'.tOld = some v.σ.st.t ∧ v'.status = .finished)) ∨
    (a.c.tb ≠ some v.σ.st.t ∧ v.status = .running ∧ ∃ r,
      CkDone a { v.σ with st := { v.σ.st with stdSc := (reassess a.c v.σ.st).2.2 } }
        (reassess a.c v.σ.st).1 (minStepOf a.c v.σ.st.t v.σ.st.hAbs) o v'.σ r ∧
      (o = .ok → v'.tOld = some v.σ.st.t ∧
        v'.status = if reached a.c v'.σ.st.t then .finished else .running) ∧
      (o ≠ .ok → v'.tOld = v.tOld ∧ v'.status = .failed)) := by
  unfold ckStep at h
  cases hst : v.status with
  | running =>
    rw [hst] at h
    dsimp only at h
    by_cases ht : a.c.tb = some v.σ.st.t
    · rw [if_pos ht] at h
      simp only [Option.some.injEq, Prod.mk.injEq] at h
      obtain ⟨rfl, rfl⟩ := h
      exact .inl ⟨rfl, .inr ⟨ht, rfl, rfl, rfl⟩⟩
    · rw [if_neg ht] at h
      refine .inr ⟨ht, rfl, ?_⟩
      cases hs : ckStepImpl a fuel v.σ with
      | none => rw [hs] at h; cases h
      | some p =>
        obtain ⟨o1, σ1⟩ := p
        rw [hs] at h
        unfold ckStepImpl at hs
        rw [reassess_minStep] at hs
        obtain ⟨r, d⟩ := ckLoop_ok (minStep_pos hc _ _) _ _ _ _ (by exact hi.deriv)
          (by exact ⟨hi.factors.1, hi.factors.2, hi.factors.3, hi.factors.4⟩) hs
        cases o1 with
        | ok =>
          simp only [Option.some.injEq, Prod.mk.injEq] at h
          obtain ⟨rfl, rfl⟩ := h
          exact ⟨r, d, fun _ => ⟨rfl, rfl⟩, fun h => absurd rfl h⟩
        | fail m =>
          simp only [Option.some.injEq, Prod.mk.injEq] at h
          obtain ⟨rfl, rfl⟩ := h
          exact ⟨r, d, (fun h => by cases h), fun _ => ⟨rfl, rfl⟩⟩
        | exc e =>
          rcases d.result with ⟨⟨m, hm⟩, _⟩ | ⟨hm, _⟩ <;> cases hm
  | finished =>
    rw [hst] at h
    simp only [Option.some.injEq, Prod.mk.injEq] at h
    obtain ⟨rfl, rfl⟩ := h
    exact .inl ⟨rfl, .inl ⟨(fun h => by cases h), rfl, rfl⟩⟩
  | failed =>
    rw [hst] at h
    simp only [Option.some.injEq, Prod.mk.injEq] at h
    obtain ⟨rfl, rfl⟩ := h
    exact .inl ⟨rfl, .inl ⟨(fun h => by cases h), rfl, rfl⟩⟩

theorem ckInv_step {a : CkCfg K V} (hc : CfgOK a.c) {fuel : ℕ} {v v' : CkSolver K V} {o : Out}
    (hi : CkInv a v.σ) (h : ckStep a fuel v = some (o, v')) :
    CkInv a v'.σ ∧ v'.σ.tw0 ≤ v.σ.tw0 ∧ v'.σ.tw1 ≤ v.σ.tw1 := by
  rcases ckStep_cases hc hi h with ⟨h1, _⟩ | ⟨_, _, r, d, _⟩
  · rw [h1]; exact ⟨hi, le_rfl, le_rfl⟩
  · refine ⟨⟨?_, d.factors⟩, d.tw0, d.tw1⟩
    rcases d.result with ⟨_, hw, _⟩ | ⟨_, hA, hs, k, ord, r1, r2, r3, r4, r5, r6, r7, _⟩
    · rw [hw]; exact hi.deriv
    · exact r7

theorem ckInv_new (a : CkCfg K V) (t0 : K) (y0 : V) (h0 : K) (e0 : ℕ) (Ks0 : ℕ → V) :
    CkInv a (ckNew a t0 y0 h0 e0 Ks0).σ := by
  refine ⟨rfl, ?_, ?_, ?_, ?_⟩
  · show (11 / 10 : K) ≤ 3 / 2
    norm_num
  · exact le_refl (11 / 10 : K)
  · show (1 : K) ≤ 100 ∧ (100 : K) ≤ 10000
    norm_num
  · show (1 : K) ≤ 100 ∧ (100 : K) ≤ 10000
    norm_num

theorem ckInv_reach {a : CkCfg K V} (hc : CfgOK a.c) {v0 v : CkSolver K V} (h0 : CkInv a v0.σ)
    (hr : CkReach a v0 v) : CkInv a v.σ ∧ v.σ.tw0 ≤ v0.σ.tw0 ∧ v.σ.tw1 ≤ v0.σ.tw1 := by
  induction hr with
  | refl => exact ⟨h0, le_rfl, le_rfl⟩
  | tail hr hs ih =>
    obtain ⟨h1, h2, h3⟩ := ckInv_step hc ih.1 hs
    exact ⟨h1, h2.trans ih.2.1, h3.trans ih.2.2⟩

/-! ## C32 -/

/-- **C32**. In every history of a `CKdisc` object the first twiddle factor stays in `[1.1, 1.5]`, the second
one is always `1.1` (it starts at its lower limit and never grows) and the quit factors stay in
`[1, 10000]`. -/
theorem C32_factors_in_range {a : CkCfg K V} (hc : CfgOK a.c) (t0 : K) (y0 : V) (h0 : K) (e0 : ℕ)
    (Ks0 : ℕ → V) {v : CkSolver K V} (hr : CkReach a (ckNew a t0 y0 h0 e0 Ks0) v) :
    (11 / 10 ≤ v.σ.tw0 ∧ v.σ.tw0 ≤ 3 / 2) ∧ v.σ.tw1 = 11 / 10 ∧
    (1 ≤ v.σ.q0 ∧ v.σ.q0 ≤ 10000) ∧ (1 ≤ v.σ.q1 ∧ v.σ.q1 ≤ 10000) := by
  obtain ⟨h1, h2, h3⟩ := ckInv_reach hc (ckInv_new a t0 y0 h0 e0 Ks0) hr
  exact ⟨⟨h1.factors.tw0, h2⟩, le_antisymm h3 h1.factors.tw1, h1.factors.q0, h1.factors.q1⟩

/-- **C32**. A `step()` never increases the twiddle factors. -/
theorem C32_twiddle_never_grows {a : CkCfg K V} (hc : CfgOK a.c) (t0 : K) (y0 : V) (h0 : K) (e0 : ℕ)
    (Ks0 : ℕ → V) {v v' : CkSolver K V} (hr : CkReach a (ckNew a t0 y0 h0 e0 Ks0) v) {fuel : ℕ} {o : Out}
    (h : ckStep a fuel v = some (o, v')) : v'.σ.tw0 ≤ v.σ.tw0 ∧ v'.σ.tw1 ≤ v.σ.tw1 :=
  (ckInv_step hc (ckInv_reach hc (ckInv_new a t0 y0 h0 e0 Ks0) hr).1 h).2

/-- **C32**. A quit factor changes by at most a factor `10` up and `2/3` down in one step. -/
theorem C32_quit_changes_slowly (q r : K) (hq : 1 ≤ q ∧ q ≤ 10000) :
    2 / 3 * q ≤ ckQuit q r ∧ ckQuit q r ≤ 10 * q := by
  unfold ckQuit
  dsimp only
  split_ifs with h
  · refine ⟨?_, max_le (by linarith) ((min_le_right _ _).trans (min_le_right _ _))⟩
    apply le_max_of_le_right
    exact le_min (by linarith) (le_min (by linarith) (by linarith))
  · rw [not_lt] at h
    refine ⟨?_, max_le (by linarith) ((min_le_right _ _).trans (max_le (by linarith) (by linarith)))⟩
    apply le_max_of_le_right
    exact le_min (by linarith) (le_max_right _ _)

/-- **C32**. A retried attempt is repeated with a step of at least `1/5` and at most `9/10` of its size; the
position, solution and derivative are not touched. -/
theorem C32_retry_shrinks {a : CkCfg K V} {σ : CkSt K V} (hi : CkInv a σ) {hAbs : K} (hpos : 0 < hAbs)
    {rej : Bool} {h' : K} {σ' : CkSt K V} (h : ckTry a σ hAbs rej = .retry h' σ') :
    hAbs / 5 ≤ h' ∧ h' ≤ 9 / 10 * hAbs ∧ σ'.st.t = σ.st.t ∧ σ'.st.y = σ.st.y ∧ σ'.st.f = σ.st.f ∧
    CkInv a σ' := by
  have key := ckTry_ok hi.deriv hi.factors hpos rej
  rw [h] at key
  obtain ⟨hw, hF', _, _, _, l1, l2, _⟩ := key
  have et : σ'.st.t = σ.st.t := by rw [hw]
  have ey : σ'.st.y = σ.st.y := by rw [hw]
  have ef : σ'.st.f = σ.st.f := by rw [hw]
  exact ⟨l1, l2, et, ey, ef, by rw [ef, et, ey, hi.deriv], hF'⟩

/-- **C32**. Every `step()` of a `CKdisc` object returns, for every right-hand side (also if it produces
`nan` or `inf` everywhere), with an explicit bound: at most `N` retries if `(9/10)^N` times the first step size
is below the minimal step. -/
theorem C32_step_returns_within {a : CkCfg K V} (hc : CfgOK a.c) (t0 : K) (y0 : V) (h0 : K) (e0 : ℕ)
    (Ks0 : ℕ → V) {v : CkSolver K V} (hr : CkReach a (ckNew a t0 y0 h0 e0 Ks0) v) (N : ℕ)
    (hN : (9 / 10) ^ N * (reassess a.c v.σ.st).1 < minStepOf a.c v.σ.st.t v.σ.st.hAbs) {fuel : ℕ}
    (hfuel : N < fuel) : ckStep a fuel v ≠ none := by
  have hi := (ckInv_reach hc (ckInv_new a t0 y0 h0 e0 Ks0) hr).1
  unfold ckStep
  cases hst : v.status with
  | running =>
    dsimp only
    by_cases ht : a.c.tb = some v.σ.st.t
    · rw [if_pos ht]; exact (fun h => by cases h)
    · rw [if_neg ht]
      have h1 : ckStepImpl a fuel v.σ ≠ none := by
        unfold ckStepImpl
        rw [reassess_minStep]
        have := ckLoop_returns (a := a) (minStep_pos hc v.σ.st.t v.σ.st.hAbs) N
          { v.σ with st := { v.σ.st with stdSc := (reassess a.c v.σ.st).2.2 } }
          (reassess a.c v.σ.st).1 false (by exact hi.deriv)
          (by exact ⟨hi.factors.1, hi.factors.2, hi.factors.3, hi.factors.4⟩) hN
        obtain ⟨r, hr⟩ := Option.ne_none_iff_exists'.mp this
        rw [ckLoop_more _ fuel _ _ _ (by omega) hr]
        exact (fun h => by cases h)
      obtain ⟨⟨o, s'⟩, hr⟩ := Option.ne_none_iff_exists'.mp h1
      rw [hr]
      cases o <;> exact (fun h => by cases h)
  | finished => exact (fun h => by cases h)
  | failed => exact (fun h => by cases h)

/-- **C32**. Every `step()` of a `CKdisc` object returns. -/
theorem C32_step_returns [Archimedean K] {a : CkCfg K V} (hc : CfgOK a.c) (t0 : K) (y0 : V) (h0 : K)
    (e0 : ℕ) (Ks0 : ℕ → V) {v : CkSolver K V} (hr : CkReach a (ckNew a t0 y0 h0 e0 Ks0) v) :
    ∃ N, ∀ fuel, N < fuel → ckStep a fuel v ≠ none := by
  have hms := minStep_pos hc v.σ.st.t v.σ.st.hAbs
  by_cases hpos : 0 < (reassess a.c v.σ.st).1
  · obtain ⟨N, hN⟩ := exists_pow_lt_of_lt_one (div_pos hms hpos) (show (9 / 10 : K) < 1 by norm_num)
    rw [lt_div_iff₀ hpos] at hN
    exact ⟨N, fun fuel hf => C32_step_returns_within hc t0 y0 h0 e0 Ks0 hr N hN hf⟩
  · refine ⟨0, fun fuel hf => C32_step_returns_within hc t0 y0 h0 e0 Ks0 hr 0 ?_ hf⟩
    rw [pow_zero, one_mul]
    rw [not_lt] at hpos
    linarith

/-! ## C33 -/

/-- **C33**. A successful `step()` of `CKdisc` (not already on `t_bound`) is an accepted step in the sense of
`CkAccepted`: there is an attempt of length `hA`, not shorter than the minimal step and not longer than the
step size the step started with, whose fifth order solution passed its test, or whose third or second order
solution at `3/5` or `1/5` of the attempt passed its test; time, solution and derivative of the solver are those of
that solution. -/
theorem C33_accepted_solution {a : CkCfg K V} (hc : CfgOK a.c) (t0 : K) (y0 : V) (h0 : K) (e0 : ℕ)
    (Ks0 : ℕ → V) {v v' : CkSolver K V} (hr : CkReach a (ckNew a t0 y0 h0 e0 Ks0) v) {fuel : ℕ}
    (hne : a.c.tb ≠ some v.σ.st.t) (h : ckStep a fuel v = some (.ok, v')) :
    ∃ (hA hs : K) (k : ℕ → V) (ord : ℕ), minStepOf a.c v.σ.st.t v.σ.st.hAbs ≤ hA ∧
      hA ≤ (reassess a.c v.σ.st).1 ∧
      CkAccepted a v.σ.st.t v.σ.st.y (hA * a.c.dir) k ord (hs * a.c.dir) v'.σ.st.y ∧
      v'.σ.st.t = v.σ.st.t + hs * a.c.dir ∧ v'.σ.orderAcc = some ord ∧
      v'.σ.st.f = a.rhs v'.σ.st.t v'.σ.st.y := by
  have hi := (ckInv_reach hc (ckInv_new a t0 y0 h0 e0 Ks0) hr).1
  rcases ckStep_cases hc hi h with ⟨_, ⟨_, h2, _⟩ | ⟨h2, _⟩⟩ | ⟨_, _, r, d, _⟩
  · cases h2
  · exact absurd h2 hne
  · rcases d.result with ⟨⟨m, hm⟩, _⟩ | ⟨_, hA, hs, k, ord, r1, r2, r3, r4, r5, r6, r7, r8, r9, r10, _⟩
    · cases hm
    · have hpow : ((9 : K) / 10) ^ r ≤ 1 := pow_le_one₀ (by norm_num) (by norm_num)
      have hApos := lt_of_lt_of_le (minStep_pos hc _ _) r1
      have hr0 : (0 : K) < (9 / 10) ^ r := by positivity
      refine ⟨hA, hs, k, ord, r1, ?_, r3, r6, r10, r7⟩
      have : 0 < (reassess a.c v.σ.st).1 := by
        by_contra hcon
        rw [not_lt] at hcon
        have : (9 / 10) ^ r * (reassess a.c v.σ.st).1 ≤ 0 := mul_nonpos_of_nonneg_of_nonpos hr0.le hcon
        linarith
      nlinarith

/-- The length of an accepted step. -/
theorem ckStep_length {a : CkCfg K V} (hc : CfgOK a.c) {v v' : CkSolver K V} (hi : CkInv a v.σ) {fuel : ℕ}
    {o : Out} (h : ckStep a fuel v = some (o, v')) :
    v'.σ.st.t = v.σ.st.t ∧ (o ≠ .ok ∨ a.c.tb = some v.σ.st.t) ∨
    (∃ hs, minStepOf a.c v.σ.st.t v.σ.st.hAbs / 5 ≤ hs ∧ hs ≤ (reassess a.c v.σ.st).1 ∧
      v'.σ.st.t = v.σ.st.t + hs * a.c.dir) := by
  rcases ckStep_cases hc hi h with ⟨h1, ⟨_, h2, _⟩ | ⟨h2, _⟩⟩ | ⟨_, _, r, d, _⟩
  · exact .inl ⟨by rw [h1], .inl (by rw [h2]; exact (fun h => by cases h))⟩
  · exact .inl ⟨by rw [h1], .inr h2⟩
  · rcases d.result with ⟨⟨m, hm⟩, hw, _⟩ | ⟨_, hA, hs, k, ord, r1, r2, r3, r4, r5, r6, _⟩
    · exact .inl ⟨by rw [hw], .inl (by rw [hm]; exact (fun h => by cases h))⟩
    · have hpow : ((9 : K) / 10) ^ r ≤ 1 := pow_le_one₀ (by norm_num) (by norm_num)
      have hApos := lt_of_lt_of_le (minStep_pos hc _ _) r1
      have hr0 : (0 : K) < (9 / 10) ^ r := by positivity
      have : 0 < (reassess a.c v.σ.st).1 := by
        by_contra hcon
        rw [not_lt] at hcon
        have : (9 / 10) ^ r * (reassess a.c v.σ.st).1 ≤ 0 := mul_nonpos_of_nonneg_of_nonpos hr0.le hcon
        linarith
      refine .inr ⟨hs, by linarith, r5.trans ?_, r6⟩
      nlinarith

/-- **C33**. A successful `step()` advances the time, in the direction of integration, by at least a fifth of
the minimal step. -/
theorem C33_strict_advance {a : CkCfg K V} (hc : CfgOK a.c) (t0 : K) (y0 : V) (h0 : K) (e0 : ℕ)
    (Ks0 : ℕ → V) {v v' : CkSolver K V} (hr : CkReach a (ckNew a t0 y0 h0 e0 Ks0) v) {fuel : ℕ}
    (hne : a.c.tb ≠ some v.σ.st.t) (h : ckStep a fuel v = some (.ok, v')) :
    0 < a.c.dir * (v'.σ.st.t - v.σ.st.t) ∧
    minStepOf a.c v.σ.st.t v.σ.st.hAbs / 5 ≤ a.c.dir * (v'.σ.st.t - v.σ.st.t) := by
  have hi := (ckInv_reach hc (ckInv_new a t0 y0 h0 e0 Ks0) hr).1
  have hms := minStep_pos hc v.σ.st.t v.σ.st.hAbs
  rcases ckStep_length hc hi h with ⟨_, h2 | h2⟩ | ⟨hs, h1, h2, h3⟩
  · exact absurd rfl h2
  · exact absurd h2 hne
  · have : a.c.dir * (v'.σ.st.t - v.σ.st.t) = hs := by rw [h3]; linear_combination hs * dir_sq hc
    rw [this]
    exact ⟨by linarith, h1⟩

/-- **C33**. As long as `max_step` is usable in the visited states (`min_step ≤ max_step`, always true for the default), every reachable time
lies between the start and `t_bound`. -/
theorem C33_never_past_t_bound {a : CkCfg K V} (hc : CfgOK a.c) {b : K} (hb : a.c.tb = some b)
    (t0 : K) (y0 : V) (h0 : K) (e0 : ℕ) (Ks0 : ℕ → V) (hd : 0 ≤ a.c.dir * (b - t0))
    (husable : ∀ w, CkReach a (ckNew a t0 y0 h0 e0 Ks0) w → MaxStepUsable a.c w.σ.st)
    {v : CkSolver K V} (hr : CkReach a (ckNew a t0 y0 h0 e0 Ks0) v) :
    0 ≤ a.c.dir * (v.σ.st.t - t0) ∧ 0 ≤ a.c.dir * (b - v.σ.st.t) := by
  induction hr with
  | refl =>
    refine ⟨?_, hd⟩
    show 0 ≤ a.c.dir * (t0 - t0)
    simp
  | @tail v v' o fuel hr hs ih =>
    have hi := (ckInv_reach hc (ckInv_new a t0 y0 h0 e0 Ks0) hr).1
    have hms := minStep_pos hc v.σ.st.t v.σ.st.hAbs
    rcases ckStep_length hc hi hs with ⟨h1, -⟩ | ⟨h', h1, h2, h3⟩
    · rw [h1]; exact ih
    · have hle := h2.trans (reassess_le_bound hb (husable v hr))
      rw [abs_sub_dir hc ih.2] at hle
      have e1 : a.c.dir * (v'.σ.st.t - t0) = a.c.dir * (v.σ.st.t - t0) + h' := by
        rw [h3]; linear_combination h' * dir_sq hc
      have e2 : a.c.dir * (b - v'.σ.st.t) = a.c.dir * (b - v.σ.st.t) - h' := by
        rw [h3]; linear_combination (-h') * dir_sq hc
      rw [e1, e2]
      exact ⟨by linarith [ih.1], by linarith⟩

/-- **C33**. No step is longer than a usable `max_step`. -/
theorem C33_max_step {a : CkCfg K V} (hc : CfgOK a.c) (t0 : K) (y0 : V) (h0 : K) (e0 : ℕ) (Ks0 : ℕ → V)
    {v v' : CkSolver K V} (hr : CkReach a (ckNew a t0 y0 h0 e0 Ks0) v) {fuel : ℕ} {o : Out} {m : K}
    (hm : a.c.maxStep = some m) (hu : MaxStepUsable a.c v.σ.st) (h : ckStep a fuel v = some (o, v')) :
    |v'.σ.st.t - v.σ.st.t| ≤ m := by
  have hi := (ckInv_reach hc (ckInv_new a t0 y0 h0 e0 Ks0) hr).1
  have hms := minStep_pos hc v.σ.st.t v.σ.st.hAbs
  rcases ckStep_length hc hi h with ⟨h1, -⟩ | ⟨h', h1, h2, h3⟩
  · rw [h1, sub_self, abs_zero]; exact (hc.maxStep m hm).le
  · have : |v'.σ.st.t - v.σ.st.t| = h' := by
      rw [h3]
      rcases hc.dir with hd | hd <;> rw [hd]
      · rw [show v.σ.st.t + h' * 1 - v.σ.st.t = h' by ring, abs_of_pos (by linarith)]
      · rw [show v.σ.st.t + h' * -1 - v.σ.st.t = -h' by ring, abs_neg, abs_of_pos (by linarith)]
    rw [this]
    exact h2.trans (reassess_le_maxStep hm (hu m hm))

/-- **C33**. A failing `step()` leaves time, solution, derivative, proposed step size and the accepted order. -/
theorem C33_failed_step_keeps_solution {a : CkCfg K V} (hc : CfgOK a.c) (t0 : K) (y0 : V) (h0 : K) (e0 : ℕ)
    (Ks0 : ℕ → V) {v v' : CkSolver K V} (hr : CkReach a (ckNew a t0 y0 h0 e0 Ks0) v) {fuel : ℕ} {m : Msg}
    (h : ckStep a fuel v = some (.fail m, v')) :
    v'.status = .failed ∧ v'.σ.st.t = v.σ.st.t ∧ v'.σ.st.y = v.σ.st.y ∧ v'.σ.st.f = v.σ.st.f ∧
    v'.σ.st.hAbs = v.σ.st.hAbs ∧ v'.σ.orderAcc = v.σ.orderAcc ∧ v'.tOld = v.tOld := by
  have hi := (ckInv_reach hc (ckInv_new a t0 y0 h0 e0 Ks0) hr).1
  rcases ckStep_cases hc hi h with ⟨_, ⟨_, h2, _⟩ | ⟨_, h2, _⟩⟩ | ⟨_, _, r, d, _, h3⟩
  · cases h2
  · cases h2
  · obtain ⟨h4, h5⟩ := h3 (fun h => by cases h)
    rcases d.result with ⟨_, hw, ho⟩ | ⟨hm, _⟩
    · refine ⟨h5, ?_, ?_, ?_, ?_, ho, h4⟩ <;> rw [hw]
    · cases hm

/-- **C33**. Cost: a `step()` with `r` rejected attempts makes at most `5 (r + 1) + 1` evaluations of `fun`, and
the global counter of failed steps grows by `r`. -/
theorem C33_cost {a : CkCfg K V} (hc : CfgOK a.c) (t0 : K) (y0 : V) (h0 : K) (e0 : ℕ) (Ks0 : ℕ → V)
    {v v' : CkSolver K V} (hr : CkReach a (ckNew a t0 y0 h0 e0 Ks0) v) {fuel : ℕ} {o : Out}
    (h : ckStep a fuel v = some (o, v')) :
    v.σ.st.nfs ≤ v'.σ.st.nfs ∧
    v'.σ.st.nfev ≤ v.σ.st.nfev + 5 * (v'.σ.st.nfs - v.σ.st.nfs + 1) + 1 := by
  have hi := (ckInv_reach hc (ckInv_new a t0 y0 h0 e0 Ks0) hr).1
  rcases ckStep_cases hc hi h with ⟨h1, _⟩ | ⟨_, _, r, d, _⟩
  · rw [h1]; omega
  · have h1 := d.nfs
    have h2 := d.nfev
    dsimp only at h1 h2
    omega

end
end Extensisq
