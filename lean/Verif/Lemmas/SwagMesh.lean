import Verif.Props.SwagStep
import Mathlib.Algebra.BigOperators.Intervals
import Mathlib.Algebra.BigOperators.NatAntidiagonal

/-!
# The mesh of SWAG: Newton interpolation of the accepted derivatives
-/

set_option linter.unusedSectionVars false

namespace Extensisq
open Finset

section
variable {K V : Type*} [Field K] [LinearOrder K] [IsStrictOrderedRing K] [AddCommGroup V] [Module K V]

/-- The time of the `i`-th last accepted point. -/
def hx (l : List (K × V)) (i : ℕ) : K := (l.map Prod.fst).getD i 0

/-- The derivative stored for the `i`-th last accepted point. -/
def hf (l : List (K × V)) (i : ℕ) : V := (l.map Prod.snd).getD i 0

@[simp] theorem hx_zero (a : K × V) (l : List (K × V)) : hx (a :: l) 0 = a.1 := rfl
@[simp] theorem hx_succ (a : K × V) (l : List (K × V)) (i : ℕ) : hx (a :: l) (i + 1) = hx l i := rfl
@[simp] theorem hf_zero (a : K × V) (l : List (K × V)) : hf (a :: l) 0 = a.2 := rfl
@[simp] theorem hf_succ (a : K × V) (l : List (K × V)) (i : ℕ) : hf (a :: l) (i + 1) = hf l i := rfl

/-- The accepted times move strictly in the direction of integration. -/
def Strict (dir : K) (l : List (K × V)) : Prop := l.Pairwise fun a b => 0 < dir * (a.1 - b.1)

theorem hx_getElem (l : List (K × V)) {i : ℕ} (h : i < l.length) : hx l i = l[i].1 := by
  simp [hx, List.getD_eq_getElem?_getD, h]

theorem Strict.lt {dir : K} {l : List (K × V)} (h : Strict dir l) {i j : ℕ} (hij : i < j) (hj : j < l.length) :
    0 < dir * (hx l i - hx l j) := by
  rw [hx_getElem l (hij.trans hj), hx_getElem l hj]
  exact List.pairwise_iff_getElem.mp h i j _ _ hij

theorem Strict.ne {dir : K} {l : List (K × V)} (h : Strict dir l) {i j : ℕ} (hij : i < j) (hj : j < l.length) :
    hx l i - hx l j ≠ 0 := by
  intro hc
  have := h.lt hij hj
  rw [hc, mul_zero] at this
  exact lt_irrefl _ this

/-- Basis functions of the Newton form, scaled as the modified divided differences are. -/
def nb (X : ℕ → K) (j : ℕ) (x : K) : K := ∏ l ∈ range j, (x - X l) / (X 0 - X (l + 1))

/-- Basis functions scaled to one in `t'`. -/
def ab (X : ℕ → K) (t' : K) (j : ℕ) (x : K) : K := ∏ l ∈ range j, (x - X l) / (t' - X l)

theorem nb_zero (X : ℕ → K) (x : K) : nb X 0 x = 1 := rfl

theorem nb_eq_zero {X : ℕ → K} {j m : ℕ} (h : m < j) : nb X j (X m) = 0 := by
  rw [nb]
  exact Finset.prod_eq_zero (Finset.mem_range.mpr h) (by simp)

theorem ab_eq_zero {X : ℕ → K} {t' : K} {j m : ℕ} (h : m < j) : ab X t' j (X m) = 0 := by
  rw [ab]
  exact Finset.prod_eq_zero (Finset.mem_range.mpr h) (by simp)

theorem ab_self {X : ℕ → K} {t' : K} {j : ℕ} (h : ∀ i < j, t' - X i ≠ 0) : ab X t' j t' = 1 := by
  rw [ab]
  exact Finset.prod_eq_one fun l hl => div_self (h l (Finset.mem_range.mp hl))

theorem nb_ab {X : ℕ → K} {t' : K} {j : ℕ} (h : ∀ i < j, t' - X i ≠ 0) (x : K) :
    nb X j x = nb X j t' * ab X t' j x := by
  rw [nb, nb, ab, ← Finset.prod_mul_distrib]
  refine Finset.prod_congr rfl fun l hl => ?_
  have := h l (Finset.mem_range.mp hl)
  field_simp

theorem nb_ne_zero {X : ℕ → K} {t' : K} {j : ℕ} (h : ∀ i < j, t' - X i ≠ 0) (h2 : ∀ i < j, X 0 - X (i + 1) ≠ 0) :
    nb X j t' ≠ 0 := by
  rw [nb]
  exact Finset.prod_ne_zero_iff.mpr fun l hl =>
    div_ne_zero (h l (Finset.mem_range.mp hl)) (h2 l (Finset.mem_range.mp hl))

/-- Prepending a point. -/
def consX (t' : K) (X : ℕ → K) : ℕ → K
  | 0 => t'
  | i + 1 => X i

theorem nb_cons {X : ℕ → K} {t' : K} (j : ℕ) (x : K) :
    nb (consX t' X) (j + 1) x = ab X t' j x * ((x - t') / (t' - X j)) := by
  induction j with
  | zero => simp [nb, ab, consX]
  | succ j ih =>
    have hj : nb (consX t' X) (j + 1 + 1) x = nb (consX t' X) (j + 1) x * ((x - X j) / (t' - X (j + 1))) := by
      rw [nb, Finset.prod_range_succ, ← nb]; rfl
    rw [hj, ih, ab, ab, Finset.prod_range_succ]
    ring

theorem ab_succ {X : ℕ → K} {t' : K} {j : ℕ} (h : t' - X j ≠ 0) (x : K) :
    ab X t' (j + 1) x = ab X t' j x + nb (consX t' X) (j + 1) x := by
  rw [nb_cons, ab, Finset.prod_range_succ, ← ab]
  field_simp
  ring

theorem ab_sum {X : ℕ → K} {t' : K} : ∀ {j : ℕ}, (∀ i < j, t' - X i ≠ 0) → ∀ x,
    ab X t' j x = ∑ i ∈ range (j + 1), nb (consX t' X) i x
  | 0, _, x => by simp [ab, nb]
  | j + 1, h, x => by
    rw [ab_succ (h j (by omega)), ab_sum (fun i hi => h i (by omega)) x, Finset.sum_range_succ (n := j + 1)]

/-- The change of the basis when a point is added. -/
theorem newton_shift {X : ℕ → K} {t' : K} {k : ℕ} (h : ∀ i < k, t' - X i ≠ 0) (phi ps : ℕ → V)
    (hps : ∀ j < k, ps j = nb X j t' • phi j) (x : K) :
    ∑ j ∈ range k, nb X j x • phi j = ∑ j ∈ range k, nb (consX t' X) j x • ∑ i ∈ Ico j k, ps i := by
  have h1 : ∀ j ∈ range k, nb X j x • phi j = ∑ i ∈ range (j + 1), nb (consX t' X) i x • ps j := by
    intro j hj
    have hj' := Finset.mem_range.mp hj
    rw [nb_ab (fun i hi => h i (by omega)) x, ab_sum (fun i hi => h i (by omega)) x, hps j hj', mul_comm, mul_smul,
      Finset.sum_smul]
  rw [Finset.sum_congr rfl h1]
  simp only [Finset.smul_sum, Finset.range_eq_Ico]
  rw [Finset.sum_sigma', Finset.sum_sigma']
  refine Finset.sum_bij' (fun a _ => ⟨a.2, a.1⟩) (fun a _ => ⟨a.2, a.1⟩) ?_ ?_ ?_ ?_ ?_
  · rintro ⟨a, b⟩ hab
    simp only [Finset.mem_sigma, Finset.mem_Ico] at hab ⊢
    omega
  · rintro ⟨a, b⟩ hab
    simp only [Finset.mem_sigma, Finset.mem_Ico] at hab ⊢
    omega
  · intros; rfl
  · intros; rfl
  · intros; rfl

/-! ## The coefficients of an attempt -/

theorem coefs_psi (h : K) (k ns kold : ℕ) (a : Coef K) :
    (coefs h k ns kold a).psi = if ns ≤ k then (stepSizes h k ns a).psi else a.psi := by
  unfold coefs
  split
  · simp only [gFinish, vPart]
    split
    · rfl
    · simp only [vUpdate]
      split
      · simp only [vRaise, vRaise1]; split <;> rfl
      · rfl
  · rfl

theorem coefs_alpha (h : K) (k ns kold : ℕ) (a : Coef K) :
    (coefs h k ns kold a).alpha = if ns ≤ k then (stepSizes h k ns a).alpha else a.alpha := by
  unfold coefs
  split
  · simp only [gFinish, vPart]
    split
    · rfl
    · simp only [vUpdate]
      split
      · simp only [vRaise, vRaise1]; split <;> rfl
      · rfl
  · rfl

theorem coefs_beta (h : K) (k ns kold : ℕ) (a : Coef K) :
    (coefs h k ns kold a).beta = if ns ≤ k then (stepSizes h k ns a).beta else a.beta := by
  unfold coefs
  split
  · simp only [gFinish, vPart]
    split
    · rfl
    · simp only [vUpdate]
      split
      · simp only [vRaise, vRaise1]; split <;> rfl
      · rfl
  · rfl

/-- The coefficients of an attempt belong to the mesh. -/
structure TrySpec (X : ℕ → K) (h : K) (k ns : ℕ) (co : Coef K) : Prop where
  psi : ∀ i < k, co.psi i = X 0 + h - X i
  alpha : ∀ i < k, co.alpha i = h / (X 0 + h - X i)
  beta : ∀ j < k, co.beta j = nb X j (X 0 + h)
  one : ∀ j < k, j < ns → co.beta j = 1
  g : ∀ i ≤ k, co.g i = genG co.alpha i 0

theorem const_dist {X : ℕ → K} {h : K} {n : ℕ} (hc : ∀ i < n, X i - X (i + 1) = h) :
    ∀ i ≤ n, X 0 + h - X i = h * ((i : K) + 1) := by
  intro i
  induction i with
  | zero => intro _; push_cast; ring
  | succ i ih =>
    intro hi
    have h1 := ih (by omega)
    have h2 := hc i (by omega)
    push_cast
    linear_combination h1 + h2

theorem try_spec {kMax k ns kold e : ℕ} {h : K} {a : Coef K} {X : ℕ → K} (hh : h ≠ 0)
    (ci : CInv kMax h (coefs h k ns kold a) e) (rel : NsRel e ns k (coefs h k ns kold a).kprev)
    (hpsi : ∀ i, i + 1 < k → a.psi i = X 0 - X (i + 1))
    (hc : ∀ i, i + 1 < ns → X i - X (i + 1) = h) : TrySpec X h k ns (coefs h k ns kold a) := by
  have he := ci.he
  have hek := ci.hk
  have hcd : ∀ i < ns, X 0 + h - X i = h * ((i : K) + 1) := fun i hi =>
    const_dist (n := ns - 1) (fun i hi => hc i (by omega)) i (by omega)
  have hns : 1 ≤ ns := by rcases rel with ⟨h1, _⟩ | ⟨h1, _⟩ <;> omega
  have hlow : ∀ i < k, i < ns → i < e := by
    intro i h1 h2
    rcases rel with ⟨h3, _⟩ | ⟨h3, h4, _⟩ <;> omega
  have hhigh : ∀ i < k, ns ≤ i → ns ≤ k := fun i h1 h2 => by omega
  have hpsi' : ∀ i < k, (coefs h k ns kold a).psi i = X 0 + h - X i := by
    intro i hi
    by_cases hn : i < ns
    · rw [ci.psi i (hlow i hi hn), hcd i hn]
    · rw [coefs_psi, if_pos (hhigh i hi (by omega)), stepSizes_psi, if_neg (by omega), if_pos ⟨by omega, hi⟩,
        hpsi (i - 1) (by omega), show i - 1 + 1 = i by omega]
      ring
  have halpha : ∀ i < k, (coefs h k ns kold a).alpha i = h / (X 0 + h - X i) := by
    intro i hi
    by_cases hn : i < ns
    · rw [ci.alpha i (hlow i hi hn), hcd i hn, cAlpha]
      have : ((i : K) + 1) ≠ 0 := by positivity
      field_simp
    · have h1 := hpsi' i hi
      rw [coefs_psi, if_pos (hhigh i hi (by omega))] at h1
      rw [coefs_alpha, if_pos (hhigh i hi (by omega)), stepSizes_alpha, if_neg (by omega), if_pos ⟨by omega, hi⟩,
        h1]
  have hone : ∀ j < k, j < ns → (coefs h k ns kold a).beta j = 1 := fun j h1 h2 => ci.beta j (hlow j h1 h2)
  have hnb1 : ∀ j < ns, nb X j (X 0 + h) = 1 := by
    intro j hj
    rw [nb]
    refine Finset.prod_eq_one fun l hl => ?_
    have hl' := Finset.mem_range.mp hl
    have h1 := hcd l (by omega)
    have h2 := hcd (l + 1) (by omega)
    have h3 : X 0 - X (l + 1) = h * ((l : K) + 1) := by push_cast at h2; linear_combination h2
    rw [h1, h3]
    have : ((l : K) + 1) ≠ 0 := by positivity
    exact div_self (mul_ne_zero hh this)
  refine ⟨hpsi', halpha, ?_, hone, ?_⟩
  · intro j hj
    by_cases hn : j < ns
    · rw [hone j hj hn, hnb1 j hn]
    · have hk := hhigh j hj (by omega)
      rw [coefs_beta, if_pos hk, stepSizes_beta, if_neg (by omega), if_pos ⟨by omega, hj⟩]
      have hsplit : nb X j (X 0 + h) = nb X (ns - 1) (X 0 + h)
          * ∏ l ∈ Ico (ns - 1) j, (X 0 + h - X l) / (X 0 - X (l + 1)) := by
        rw [nb, nb, Finset.prod_range_mul_prod_Ico _ (by omega)]
      rw [hsplit, hnb1 (ns - 1) (by omega), one_mul]
      refine Finset.prod_congr rfl fun l hl => ?_
      have hl' := Finset.mem_Ico.mp hl
      have h1 := hpsi' l (by omega)
      rw [coefs_psi, if_pos hk] at h1
      rw [h1, hpsi l (by omega)]
  · intro i hi
    rcases rel with ⟨_, h2⟩ | ⟨_, h2, _⟩
    · exact ci.gFull i (by omega)
    · rw [ci.gc i (by omega)]
      exact (genG_congr (fun j hj => ci.alpha j (by omega)) 0).symm

/-! ## The invariant -/

/-- After an accepted step, or in a new solver. -/
structure MInv (s : SwSt K V) : Prop where
  len : s.kold + 1 ≤ s.hist.length
  lenN : s.ns + 1 ≤ s.hist.length
  now : hx s.hist 0 = s.t
  const : ∀ i < s.ns, hx s.hist i - hx s.hist (i + 1) = s.hold
  psi : ∀ i < s.kold, s.co.psi i = s.t - hx s.hist (i + 1)
  phi : ∀ m ≤ s.kold, hf s.hist m = ∑ j ∈ range (s.kold + 1), nb (hx s.hist) j (hx s.hist m) • s.phi j

/-- At the start of an attempt. -/
structure LocM (s : SwSt K V) (l : SwLoc K V) : Prop where
  k1 : 1 ≤ l.k
  kM : l.k ≤ s.kold + 1
  first : l.ns = 0 ∨ l.ns = s.ns
  psi : ∀ i, i + 1 < l.k → l.co.psi i = s.t - hx s.hist (i + 1)
  phi : ∀ j < l.k, l.phi j = s.phi j

theorem newNs_le (h hold : K) (n kold : ℕ) : newNs h hold n kold ≤ n + 1 := by
  unfold newNs
  simp only
  split <;> split <;> omega

theorem newNs_ge_two {h hold : K} {n kold : ℕ} (h2 : 2 ≤ newNs h hold n kold) : h = hold := by
  by_contra hc
  rw [newNs_ne hc] at h2
  omega

theorem LocM.spec {c : SwCfg K V} {s : SwSt K V} {l : SwLoc K V} (hi : SwInv c s) (hm : MInv s) (ho : LocOK c s l)
    (hl : LocM s l) (hh : l.h ≠ 0) :
    TrySpec (hx s.hist) l.h l.k (swTry c s.t s.y s.hold s.kold l).ns (swTry c s.t s.y s.hold s.kold l).co := by
  obtain ⟨e, ci, rel⟩ := try_coef hi ho
  refine try_spec hh ci rel ?_ ?_
  · intro i hi'; rw [hm.now]; exact hl.psi i hi'
  · intro i hi'
    replace hi' : i + 1 < newNs l.h s.hold l.ns s.kold := hi'
    have h2 : l.h = s.hold := newNs_ge_two (n := l.ns) (kold := s.kold) (by omega)
    rw [h2]
    refine hm.const i ?_
    have := newNs_le l.h s.hold l.ns s.kold
    rcases hl.first with h3 | h3
    · rw [h3, newNs_zero] at hi'; omega
    · omega

/-- The predicted differences, starred. -/
theorem star_eq {c : SwCfg K V} {s : SwSt K V} {l : SwLoc K V} (hl : LocM s l)
    (ts : TrySpec (hx s.hist) l.h l.k (swTry c s.t s.y s.hold s.kold l).ns (swTry c s.t s.y s.hold s.kold l).co) :
    ∀ j < l.k, phiStar (swTry c s.t s.y s.hold s.kold l).co.beta l.k (swTry c s.t s.y s.hold s.kold l).ns l.phi j
      = nb (hx s.hist) j (hx s.hist 0 + l.h) • s.phi j := by
  intro j hj
  rw [phiStar, hl.phi j hj]
  by_cases hn : (swTry c s.t s.y s.hold s.kold l).ns ≤ j
  · rw [if_pos ⟨hn, hj⟩, ts.beta j hj]
  · rw [if_neg (fun h => hn h.1), ← ts.beta j hj, ts.one j hj (by omega), one_smul]

theorem phiPredict_lt {k : ℕ} {ps : ℕ → V} {j : ℕ} (h : j < k) : phiPredict k ps j = ∑ i ∈ Ico j k, ps i := by
  rw [phiPredict, if_pos h]

theorem phiPredict_diff {k : ℕ} {ps : ℕ → V} {j : ℕ} (h : j < k) :
    phiPredict k ps j - phiPredict k ps (j + 1) = ps j := by
  rw [phiPredict_lt h, Finset.sum_eq_sum_Ico_succ_bot h]
  by_cases h1 : j + 1 < k
  · rw [phiPredict_lt h1, add_sub_cancel_right]
  · have : k = j + 1 := by omega
    subst this
    rw [phiPredict, if_neg (by omega), if_pos rfl]
    simp

theorem LocM.fail {c : SwCfg K V} {s : SwSt K V} {l : SwLoc K V} (hm : MInv s)
    (hl : LocM s l) (hb : ∀ j < l.k, nb (hx s.hist) j (hx s.hist 0 + l.h) ≠ 0)
    (ts : TrySpec (hx s.hist) l.h l.k (swTry c s.t s.y s.hold s.kold l).ns (swTry c s.t s.y s.hold s.kold l).co) :
    (∀ j < l.k, (swFail c l (swTry c s.t s.y s.hold s.kold l)).phi j = s.phi j) ∧
    (∀ i, i + 1 < l.k → (swFail c l (swTry c s.t s.y s.hold s.kold l)).co.psi i = s.t - hx s.hist (i + 1)) ∧
    LocM s (swFail c l (swTry c s.t s.y s.hold s.kold l)) := by
  have hphi : ∀ j < l.k, (swFail c l (swTry c s.t s.y s.hold s.kold l)).phi j = s.phi j := by
    intro j hj
    show phiRestore (swTry c s.t s.y s.hold s.kold l).co.beta l.k (phiPredict l.k _) j = s.phi j
    rw [phiRestore, if_pos hj, phiPredict_diff hj, ← hl.phi j hj]
    have h1 := star_eq (c := c) hl ts j hj
    have h2 : phiStar (coefs l.h l.k (newNs l.h s.hold l.ns s.kold) s.kold l.co).beta l.k
        (newNs l.h s.hold l.ns s.kold) l.phi j = nb (hx s.hist) j (hx s.hist 0 + l.h) • s.phi j := h1
    rw [h2, ts.beta j hj, hl.phi j hj, smul_smul, inv_mul_cancel₀ (hb j hj), one_smul]
  have hpsi : ∀ i, i + 1 < l.k →
      (swFail c l (swTry c s.t s.y s.hold s.kold l)).co.psi i = s.t - hx s.hist (i + 1) := by
    intro i hi
    show psiRestore l.h l.k (swTry c s.t s.y s.hold s.kold l).co.psi i = _
    rw [psiRestore, if_pos (by omega), ts.psi (i + 1) hi, hm.now]
    ring
  have hk : (swFail c l (swTry c s.t s.y s.hold s.kold l)).k ≤ l.k ∧
      1 ≤ (swFail c l (swTry c s.t s.y s.hold s.kold l)).k := by
    show (if 3 ≤ l.ifail + 1 then 1 else (swTry c s.t s.y s.hold s.kold l).knew) ≤ l.k ∧
      1 ≤ (if 3 ≤ l.ifail + 1 then 1 else (swTry c s.t s.y s.hold s.kold l).knew)
    split
    · exact ⟨hl.k1, le_rfl⟩
    · exact ⟨(lowerOrder_bounds hl.k1).2.1, (lowerOrder_bounds hl.k1).1⟩
  exact ⟨hphi, hpsi, hk.2, hk.1.trans hl.kM, Or.inl rfl, fun i hi => hpsi i (by omega), fun j hj => hphi j (by omega)⟩


theorem nb_cons_congr {X Y : ℕ → K} (h : ∀ i, X i = Y i) (j : ℕ) (x : K) : nb X j x = nb Y j x := by
  have : X = Y := funext h
  rw [this]

theorem hx_cons (a : K × V) (l : List (K × V)) : hx (a :: l) = consX a.1 (hx l) := by
  funext i; cases i <;> rfl

/-- The polynomial of an attempt: the Newton form of the stored differences, at the new point. -/
theorem predict_zero {c : SwCfg K V} {s : SwSt K V} {l : SwLoc K V} (hl : LocM s l)
    (ts : TrySpec (hx s.hist) l.h l.k (swTry c s.t s.y s.hold s.kold l).ns (swTry c s.t s.y s.hold s.kold l).co) :
    (swTry c s.t s.y s.hold s.kold l).phi 0 = ∑ j ∈ range l.k, nb (hx s.hist) j (hx s.hist 0 + l.h) • s.phi j := by
  have h0 : (swTry c s.t s.y s.hold s.kold l).phi 0 = ∑ i ∈ Ico 0 l.k,
      phiStar (swTry c s.t s.y s.hold s.kold l).co.beta l.k (swTry c s.t s.y s.hold s.kold l).ns l.phi i :=
    phiPredict_lt (by have := hl.k1; omega)
  rw [h0, ← Finset.range_eq_Ico]
  exact Finset.sum_congr rfl fun j hj => star_eq hl ts j (Finset.mem_range.mp hj)

/-- The stored differences of order below `k` interpolate the last `k` derivatives. -/
theorem MInv.interp {s : SwSt K V} (hm : MInv s) {k : ℕ} (hk : k ≤ s.kold + 1) {m : ℕ} (h : m < k) :
    hf s.hist m = ∑ j ∈ range k, nb (hx s.hist) j (hx s.hist m) • s.phi j := by
  rw [hm.phi m (by omega)]
  symm
  refine Finset.sum_subset (Finset.range_subset_range.mpr hk) fun j _ hj => ?_
  rw [nb_eq_zero (by simp at hj; omega), zero_smul]

/-- The Newton form after the correction. -/
theorem correct_newton {c : SwCfg K V} {s : SwSt K V} {l : SwLoc K V} {m : K} (hl : LocM s l)
    (hx' : ∀ i < l.k, hx s.hist 0 + l.h - hx s.hist i ≠ 0)
    (ts : TrySpec (hx s.hist) l.h l.k (swTry c s.t s.y s.hold s.kold l).ns (swTry c s.t s.y s.hold s.kold l).co)
    (x : K) :
    let s' := swAccept c m s l (swTry c s.t s.y s.hold s.kold l)
    ∑ j ∈ range (l.k + 1), nb (consX (hx s.hist 0 + l.h) (hx s.hist)) j x • s'.phi j
      = ∑ j ∈ range l.k, nb (hx s.hist) j x • s.phi j
        + ab (hx s.hist) (hx s.hist 0 + l.h) l.k x • (s'.yp - (swTry c s.t s.y s.hold s.kold l).phi 0) := by
  intro s'
  set d := s'.yp - (swTry c s.t s.y s.hold s.kold l).phi 0 with hd
  have hphi : s'.phi = phiCorrect l.k (swTry c s.t s.y s.hold s.kold l).phi s'.yp := rfl
  have h1 : ∀ j < l.k, s'.phi j = (∑ i ∈ Ico j l.k,
      phiStar (swTry c s.t s.y s.hold s.kold l).co.beta l.k (swTry c s.t s.y s.hold s.kold l).ns l.phi i) + d := by
    intro j hj
    rw [hphi, phiCorrect]
    simp only
    rw [if_pos hj, ← hd]
    congr 1
    exact phiPredict_lt hj
  have h2 : s'.phi l.k = d := by
    rw [hphi, phiCorrect]
    dsimp only
    rw [if_neg (by omega), if_pos rfl]
  rw [ab_sum hx' x, Finset.sum_range_succ, h2, Finset.sum_range_succ (n := l.k) (f := fun i => nb _ i x), add_smul,
    ← add_assoc]
  congr 1
  rw [newton_shift hx' s.phi _ (star_eq hl ts) x, Finset.sum_smul, ← Finset.sum_add_distrib]
  refine Finset.sum_congr rfl fun j hj => ?_
  rw [h1 j (Finset.mem_range.mp hj), smul_add]

theorem MInv.accept {c : SwCfg K V} {s : SwSt K V} {l : SwLoc K V} {m : K} (hm : MInv s) (hl : LocM s l)
    (hx' : ∀ i < l.k, hx s.hist 0 + l.h - hx s.hist i ≠ 0)
    (ts : TrySpec (hx s.hist) l.h l.k (swTry c s.t s.y s.hold s.kold l).ns (swTry c s.t s.y s.hold s.kold l).co) :
    MInv (swAccept c m s l (swTry c s.t s.y s.hold s.kold l)) := by
  set s' := swAccept c m s l (swTry c s.t s.y s.hold s.kold l) with hs'
  have hns : s'.ns = newNs l.h s.hold l.ns s.kold := rfl
  have hhist : s'.hist = (s.t + l.h, s'.yp) :: s.hist := rfl
  have hkold : s'.kold = l.k := rfl
  have hlen : s'.hist.length = s.hist.length + 1 := by rw [hhist]; rfl
  have h1 := hm.len
  have h2 := hm.lenN
  have h3 := hl.kM
  have h4 := newNs_le l.h s.hold l.ns s.kold
  have hX : hx s'.hist = consX (hx s.hist 0 + l.h) (hx s.hist) := by rw [hhist, hx_cons, hm.now]
  refine ⟨by rw [hkold, hlen]; omega, ?_, by rw [hhist]; rfl, ?_, ?_, ?_⟩
  · rw [hns, hlen]
    rcases hl.first with h5 | h5
    · rw [h5, newNs_zero]; omega
    · omega
  · intro i hi
    rw [hns] at hi
    rw [hX]
    show _ = l.h
    cases i with
    | zero => simp [consX]
    | succ i =>
      simp only [consX]
      have h6 : l.h = s.hold := newNs_ge_two (n := l.ns) (kold := s.kold) (by omega)
      rw [h6]
      refine hm.const i ?_
      rcases hl.first with h5 | h5
      · rw [h5, newNs_zero] at hi; omega
      · omega
  · intro i hi
    show (swTry c s.t s.y s.hold s.kold l).co.psi i = s.t + l.h - hx s'.hist (i + 1)
    rw [hkold] at hi
    rw [ts.psi i hi, hhist, hx_succ, hm.now]
  · intro m' hm'
    rw [hkold] at hm' ⊢
    rw [hX, correct_newton hl hx' ts]
    cases m' with
    | zero =>
      show s'.yp = _
      simp only [consX]
      rw [ab_self hx', one_smul, ← predict_zero hl ts]
      exact (add_sub_cancel _ _).symm
    | succ m' =>
      simp only [consX]
      rw [ab_eq_zero (by omega), zero_smul, add_zero]
      show hf s.hist m' = _
      exact hm.interp h3 (by omega)

theorem MInv.new (t0 : K) (y0 yp0 : V) (h0 : K) (wt0 : V → ENorm K) (phi0 : ℕ → V) (co0 : Coef K) (nfev : ℕ) :
    MInv (newSwag t0 y0 yp0 h0 wt0 phi0 co0 nfev).st := by
  refine ⟨le_rfl, le_rfl, rfl, ?_, ?_, ?_⟩
  · intro i hi; exact absurd hi (by simp [newSwag])
  · intro i hi; exact absurd hi (by simp [newSwag])
  · intro m hm
    have : m = 0 := Nat.le_zero.mp hm
    subst this
    simp [newSwag, hf, nb]

theorem MInv.stiff {c : SwCfg K V} {s : SwSt K V} (hm : MInv s) : MInv (swStiff c s) := by
  obtain ⟨e1, e2, e3, e4, e5, e6, e7, e8, e9, e10, e11, e12, e13, e14, e15, e16⟩ := swStiff_same c s
  exact ⟨by rw [e7, e15]; exact hm.len, by rw [e8, e15]; exact hm.lenN, by rw [e15, e1]; exact hm.now,
    by rw [e8, e15, e5]; exact hm.const, by rw [e7, e11, e15, e1]; exact hm.psi,
    by rw [e7, e15, e10]; exact hm.phi⟩

/-! ## All attempts of a step -/

/-- The distances of the end of an attempt from the earlier points. -/
theorem ahead_ne {dir h : K} {l : List (K × V)} (hd : dir = 1 ∨ dir = -1) (hs : Strict dir l) (hh : 0 < dir * h)
    {i : ℕ} (hi : i < l.length) : 0 < dir * (hx l 0 + h - hx l i) := by
  have e : dir * (hx l 0 + h - hx l i) = dir * h + dir * (hx l 0 - hx l i) := by ring
  rw [e]
  rcases Nat.eq_zero_or_pos i with h0 | h0
  · rw [h0, sub_self, mul_zero, add_zero]; exact hh
  · exact add_pos hh (hs.lt h0 hi)

theorem ne_of_dir {dir x : K} (h : 0 < dir * x) : x ≠ 0 := by
  intro hc; rw [hc, mul_zero] at h; exact lt_irrefl _ h

/-- What is known of an attempt with a non-zero step. -/
structure AttM (c : SwCfg K V) (s : SwSt K V) (l : SwLoc K V) : Prop where
  loc : LocM s l
  spec : TrySpec (hx s.hist) l.h l.k (swTry c s.t s.y s.hold s.kold l).ns (swTry c s.t s.y s.hold s.kold l).co
  ne : ∀ i < l.k, 0 < c.dir * (hx s.hist 0 + l.h - hx s.hist i)
  nb : ∀ j < l.k, nb (hx s.hist) j (hx s.hist 0 + l.h) ≠ 0

theorem attempt_mesh {c : SwCfg K V} (ok : SwOK c) {s : SwSt K V} (hi : SwInv c s) (ht : SwTime c s) (hm : MInv s)
    (hstr : Strict c.dir s.hist) (hb : ∀ b, c.tb = some b → b ≠ s.t) {l : SwLoc K V} (h : SwAttempt c s l)
    (hh : l.h ≠ 0) : AttM c s l := by
  have hlen := hm.len
  have mk : ∀ l, SwAttempt c s l → LocM s l → l.h ≠ 0 → AttM c s l := by
    intro l ha hl hh
    have hlt := attempt_time ok ht hb ha
    have hpos : 0 < c.dir * l.h := by
      rcases hlt.sign with h | ⟨h, _⟩
      · exact h
      · exact absurd h hh
    have h3 := hl.kM
    refine ⟨hl, hl.spec hi hm (ha.ok hi) hh, fun i hi' => ahead_ne ok.dir hstr hpos (by omega), fun j hj => ?_⟩
    refine nb_ne_zero (fun i hi' => ne_of_dir (ahead_ne ok.dir hstr hpos (by omega))) fun i hi' => ?_
    exact hstr.ne (by omega) (by omega)
  refine mk l h ?_ hh
  obtain ⟨e1, e2, e3, e4, e5, e6, e7, e8, e9, e10, e11, e12, e13, e14, e15, e16⟩ := swStiff_same c s
  induction h with
  | first =>
    have hk : s.k ≤ s.kold + 1 := by
      rcases hi.rel with ⟨_, _, r⟩ | ⟨_, _, r, _⟩ <;> omega
    refine ⟨?_, ?_, Or.inr e8, ?_, ?_⟩
    · show 1 ≤ (swStiff c s).k; rw [e6]; exact hi.k1
    · show (swStiff c s).k ≤ _; rw [e6]; exact hk
    · intro i hi'
      have hi2 : i + 1 < (swStiff c s).k := hi'
      show (swStiff c s).co.psi i = _
      rw [e6] at hi2
      rw [e11]
      exact hm.psi i (by omega)
    · intro j hj; show (swStiff c s).phi j = _; rw [e10]
  | @retry l ha he ih =>
    have hh' : l.h ≠ 0 := by
      intro hc
      apply hh
      show l.h * _ = 0
      rw [hc, zero_mul]
    have := mk l ha (ih hh') hh'
    exact (this.loc.fail hm this.nb this.spec).2.2

theorem Strict.tail {dir : K} {a : K × V} {l : List (K × V)} (h : Strict dir (a :: l)) : Strict dir l :=
  (List.pairwise_cons.mp h).2

/-- Accepting an attempt from the state after `swStiff`. -/
theorem accept_stiff {c : SwCfg K V} {s : SwSt K V} {l : SwLoc K V} {m : K} (hm : MInv s) (ha : AttM c s l) :
    MInv (swAccept c m (swStiff c s) l (swTry c s.t s.y s.hold s.kold l)) := by
  obtain ⟨e1, e2, e3, e4, e5, e6, e7, e8, e9, e10, e11, e12, e13, e14, e15, e16⟩ := swStiff_same c s
  have hl : LocM (swStiff c s) l := ⟨ha.loc.k1, by rw [e7]; exact ha.loc.kM, by rw [e8]; exact ha.loc.first,
    by rw [e1, e15]; exact ha.loc.psi, by rw [e10]; exact ha.loc.phi⟩
  have := MInv.accept (c := c) (m := m) hm.stiff hl (by rw [e15]; exact fun i hi => ne_of_dir (ha.ne i hi))
    (by rw [e1, e2, e5, e7, e15]; exact ha.spec)
  rw [e1, e2, e5, e7] at this
  exact this

/-- A reachable running solver whose accepted times are distinct. -/
theorem SwReach.mesh {c : SwCfg K V} (ok : SwOK c) {v0 v : SwSolver K V} (hi0 : SwInv c v0.st)
    (ht0 : SwTime c v0.st) (hm0 : MInv v0.st) (hr : SwReach c v0 v) (hs : v.status = .running)
    (hstr : Strict c.dir v.st.hist) : MInv v.st := by
  induction hr with
  | refl => exact hm0
  | @tail v1 v2 o fuel hr1 hstep ih =>
    rcases swStep_cases hstep with ⟨_, _, e⟩ | ⟨_, _, _, e⟩ | ⟨r, hb, s', hi, _, e⟩ | ⟨_, _, _, s', _, e⟩
    · subst e; exact ih hs hstr
    · rw [e] at hs; cases hs
    · have ht := hr1.time ok ht0 r
      have hinv := hr1.inv hi0 r
      rcases swStepImpl_min hi with ⟨b, hb, _, e'⟩ | ⟨l, hl, hmn, _, he, e'⟩
      · exfalso
        rw [e] at hs
        have : s'.t = b := by rw [e']; rfl
        simp only [swReached, hb, this, sub_self, mul_zero, le_refl, decide_true, if_true] at hs
        cases hs
      · have hh : s'.hist = (s'.t, s'.yp) :: (swStiff c v1.st).hist := by rw [e']; rfl
        rw [(swStiff_same c v1.st).2.2.2.2.2.2.2.2.2.2.2.2.2.2.1] at hh
        rw [e] at hstr ⊢
        simp only at hstr ⊢
        rw [hh] at hstr
        have hm1 := ih r hstr.tail
        have hne : l.h ≠ 0 := by
          intro hc
          have h1 : s'.t = v1.st.t := by
            rw [e']
            show (swStiff c v1.st).t + l.h = _
            rw [(swStiff_same c v1.st).1, hc, add_zero]
          have h2 := hstr.ne (i := 0) (j := 1) (by omega) (by have := hm1.len; simp; omega)
          rw [hx_zero, hx_succ, hm1.now, h1, sub_self] at h2
          exact h2 rfl
        have ha := attempt_mesh ok hinv ht hm1 hstr.tail (fun b h1 h2 => hb (by rw [h1, h2])) hl hne
        rw [e']
        exact accept_stiff hm1 ha
    · rw [e] at hs; cases hs

end
end Extensisq
