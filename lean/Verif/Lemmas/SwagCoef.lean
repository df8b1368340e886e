import Verif.Model.Swag
import Mathlib.Tactic.Ring
import Mathlib.Tactic.FieldSimp
import Mathlib.Tactic.Linarith
import Mathlib.Tactic.Positivity
import Mathlib.Tactic.IntervalCases

/-!
# The coefficients of SWAG

`genG alpha i q` is the coefficient `g_{i+1,q+1}` of Shampine and Gordon; the arrays `v`, `w`, `g`, `gi` of the
code hold such numbers, `v` through many steps. `CInv` says which.
-/

set_option linter.unusedSectionVars false

namespace Extensisq
open Finset

section
variable {K : Type*} [Field K] [LinearOrder K] [IsStrictOrderedRing K]

/-- `g_{i+1,q+1}` by its recursion. -/
def genG (alpha : ℕ → K) : ℕ → ℕ → K
  | 0, q => 1 / ((q : K) + 1)
  | i + 1, q => genG alpha i q - alpha i * genG alpha i (q + 1)

/-- `alpha` for a constant step size. -/
def cAlpha (i : ℕ) : K := 1 / ((i : K) + 1)

theorem genG_congr {a b : ℕ → K} : ∀ {i : ℕ}, (∀ j < i, a j = b j) → ∀ q, genG a i q = genG b i q
  | 0, _, _ => rfl
  | i + 1, h, q => by
    rw [genG, genG, genG_congr (fun j hj => h j (by omega)), genG_congr (fun j hj => h j (by omega)),
      h i (by omega)]

theorem genG_one {a : ℕ → K} (h : a 0 = 1) (q : ℕ) : genG a 1 q = iqq q := by
  have h1 : ((q : K) + 1) ≠ 0 := by positivity
  have h2 : ((q : K) + 2) ≠ 0 := by positivity
  have h3 : ((q : K) + 1 + 1) ≠ 0 := by positivity
  rw [genG, genG, genG, h, iqq]
  push_cast
  field_simp
  ring

theorem cAlpha_zero : cAlpha (K := K) 0 = 1 := by simp [cAlpha]

theorem genG_c_one (q : ℕ) : genG (cAlpha (K := K)) 1 q = iqq q := genG_one cAlpha_zero q

/-! ## Positivity -/

/-- `(1 - E)^r a`, `E` the shift. -/
def bdiff : ℕ → (ℕ → K) → ℕ → K
  | 0, a, q => a q
  | r + 1, a, q => bdiff r a q - bdiff r a (q + 1)

theorem bdiff_lin (r : ℕ) (a : ℕ → K) (x : K) (q : ℕ) :
    bdiff r (fun q => a q - x * a (q + 1)) q = (1 - x) * bdiff r a q + x * bdiff (r + 1) a q := by
  induction r generalizing q with
  | zero => simp only [bdiff]; ring
  | succ r ih => rw [bdiff, ih, ih]; simp only [bdiff]; ring

theorem bdiff_inv (r q : ℕ) :
    bdiff r (fun q : ℕ => 1 / ((q : K) + 1)) q * ((q + r + 1).factorial : K) = (r.factorial : K) * (q.factorial : K) := by
  induction r generalizing q with
  | zero =>
    have h1 : ((q : K) + 1) ≠ 0 := by positivity
    simp only [bdiff, Nat.add_zero, Nat.factorial_succ]
    push_cast
    field_simp
    simp
  | succ r ih =>
    have h0 := ih q
    have h1 := ih (q + 1)
    have e1 : (q + (r + 1) + 1).factorial = (q + r + 2) * (q + r + 1).factorial := by
      rw [show q + (r + 1) + 1 = (q + r + 1) + 1 by ring, Nat.factorial_succ]
    have e2 : (q + 1 + r + 1).factorial = (q + r + 2) * (q + r + 1).factorial := by
      rw [show q + 1 + r + 1 = (q + r + 1) + 1 by ring, Nat.factorial_succ]
    rw [e2, Nat.factorial_succ q] at h1
    rw [bdiff, e1, Nat.factorial_succ r]
    push_cast at h0 h1 ⊢
    linear_combination ((q : K) + r + 2) * h0 - h1

theorem bdiff_genG_pos {alpha : ℕ → K} {i : ℕ} (h : ∀ j < i, 0 ≤ alpha j ∧ alpha j ≤ 1) (r q : ℕ) :
    0 < bdiff r (genG alpha i) q := by
  induction i generalizing r q with
  | zero =>
    have hb := bdiff_inv (K := K) r q
    have hp : (0 : K) < ((q + r + 1).factorial : K) := by exact_mod_cast Nat.factorial_pos _
    have hp2 : (0 : K) < (r.factorial : K) * (q.factorial : K) := by
      have h1 := Nat.factorial_pos r
      have h2 := Nat.factorial_pos q
      exact_mod_cast Nat.mul_pos h1 h2
    have : genG alpha 0 = fun q : ℕ => 1 / ((q : K) + 1) := by funext q; rfl
    rw [this]
    by_contra hc
    have := mul_nonpos_of_nonpos_of_nonneg (not_lt.mp hc) hp.le
    linarith
  | succ i ih =>
    have hg : genG alpha (i + 1) = fun q => genG alpha i q - alpha i * genG alpha i (q + 1) := by
      funext q; rfl
    have hi := h i (by omega)
    have p0 := ih (fun j hj => h j (by omega)) r q
    have p1 := ih (fun j hj => h j (by omega)) (r + 1) q
    rw [hg, bdiff_lin]
    rcases hi.1.lt_or_eq with h0 | h0
    · have := mul_pos h0 p1
      have := mul_nonneg (sub_nonneg.mpr hi.2) p0.le
      linarith
    · rw [← h0]; simpa using p0

theorem genG_pos {alpha : ℕ → K} {i : ℕ} (h : ∀ j < i, 0 ≤ alpha j ∧ alpha j ≤ 1) (q : ℕ) :
    0 < genG alpha i q := bdiff_genG_pos h 0 q

/-! ## Loops -/

theorem gLoop_spec {α alpha : ℕ → K} {k : ℕ} : ∀ (n i : ℕ) (w g : ℕ → K), i + n ≤ k →
    (∀ j, i ≤ j → j < i + n → alpha j = α j) →
    (∀ q ≤ k - i, w q = genG α i q) →
    (∀ q ≤ k - (i + n), (gLoop alpha k n i (w, g)).1 q = genG α (i + n) q) ∧
    (∀ q, k - (i + n) ≤ q → q ≤ k - i → (gLoop alpha k n i (w, g)).1 q = genG α (k - q) q) ∧
    (∀ q, k - i ≤ q → (gLoop alpha k n i (w, g)).1 q = w q) ∧
    (∀ j, i < j → j ≤ i + n → (gLoop alpha k n i (w, g)).2 j = genG α j 0) ∧
    (∀ j, j ≤ i ∨ i + n < j → (gLoop alpha k n i (w, g)).2 j = g j) := by
  intro n
  induction n with
  | zero =>
    intro i w g _ _ hw
    refine ⟨fun q hq => hw q (by simpa using hq), fun q h1 h2 => ?_, fun q _ => rfl, fun j h1 h2 => ?_,
      fun j _ => rfl⟩
    · rw [show k - q = i by omega]; exact hw q h2
    · omega
  | succ n ih =>
    intro i w g hk ha hw
    have hw' : ∀ q ≤ k - (i + 1), subShift (alpha i) (k - i) w q = genG α (i + 1) q := by
      intro q hq
      rw [subShift, if_pos (by omega), hw q (by omega), hw (q + 1) (by omega), ha i (by omega) (by omega), genG]
    obtain ⟨h1, h2, h3, h4, h5⟩ := ih (i + 1) (subShift (alpha i) (k - i) w)
      (Function.update g (i + 1) (subShift (alpha i) (k - i) w 0)) (by omega)
      (fun j hj hj' => ha j (by omega) (by omega)) hw'
    have hl : gLoop alpha k (n + 1) i (w, g) = gLoop alpha k n (i + 1) (subShift (alpha i) (k - i) w,
      Function.update g (i + 1) (subShift (alpha i) (k - i) w 0)) := rfl
    rw [hl]
    refine ⟨fun q hq => ?_, fun q hq hq' => ?_, fun q hq => ?_, fun j hj hj' => ?_, fun j hj => ?_⟩
    · rw [h1 q (by omega), show i + 1 + n = i + (n + 1) by ring]
    · by_cases hc : q ≤ k - (i + 1)
      · exact h2 q (by omega) hc
      · rw [h3 q (by omega), subShift, if_neg (by omega), hw q (by omega), show k - q = i by omega]
    · rw [h3 q (by omega), subShift, if_neg (by omega)]
    · by_cases hc : j = i + 1
      · subst hc
        rw [h5 _ (Or.inl le_rfl), Function.update_self]
        exact hw' 0 (by omega)
      · exact h4 j (by omega) (by omega)
    · rw [h5 j (by omega), Function.update_of_ne (by omega)]

/-- The diagonal loop: what it does to `v`, when it starts at `j`, runs `n` passes, and every entry it needs
holds the value of its level. -/
theorem diagLoop_spec {α alpha : ℕ → K} {k : ℕ} : ∀ (n j : ℕ) (v w : ℕ → K), j + n < k →
    (∀ i, j ≤ i → i < j + n → alpha i = α i) →
    v (k - j) = genG α j (k - j) →
    (∀ i, j ≤ i → i < j + n → v (k - 1 - i) = genG α i (k - 1 - i)) →
    (∀ q, k - j - n ≤ q → q < k - j → (diagLoop alpha k n j (v, w)).1 q = genG α (k - q) q) ∧
    (∀ q, q < k - j - n ∨ k - j ≤ q → (diagLoop alpha k n j (v, w)).1 q = v q) ∧
    (∀ q, k - j - n ≤ q → q < k - j → (diagLoop alpha k n j (v, w)).2 q = (diagLoop alpha k n j (v, w)).1 q) ∧
    (∀ q, q < k - j - n ∨ k - j ≤ q → (diagLoop alpha k n j (v, w)).2 q = w q) := by
  intro n
  induction n with
  | zero =>
    intro j v w _ _ _ _
    exact ⟨fun q h1 h2 => by omega, fun q _ => rfl, fun q h1 h2 => by omega, fun q _ => rfl⟩
  | succ n ih =>
    intro j v w hk ha h0 hv
    set x := v (k - 1 - j) - alpha j * v (k - 1 - j + 1) with hx
    have hxv : x = genG α (j + 1) (k - 1 - j) := by
      rw [hx, hv j le_rfl (by omega), show k - 1 - j + 1 = k - j by omega, h0, ha j le_rfl (by omega), genG,
        show k - 1 - j + 1 = k - j by omega]
    obtain ⟨h1, h2, h3, h4⟩ := ih (j + 1) (Function.update v (k - 1 - j) x) (Function.update w (k - 1 - j) x)
      (by omega) (fun i hi hi' => ha i (by omega) (by omega))
      (by rw [show k - (j + 1) = k - 1 - j by omega, Function.update_self, hxv])
      (fun i hi hi' => by rw [Function.update_of_ne (by omega)]; exact hv i (by omega) (by omega))
    have hl : diagLoop alpha k (n + 1) j (v, w)
      = diagLoop alpha k n (j + 1) (Function.update v (k - 1 - j) x, Function.update w (k - 1 - j) x) := rfl
    rw [hl]
    refine ⟨fun q hq hq' => ?_, fun q hq => ?_, fun q hq hq' => ?_, fun q hq => ?_⟩
    · by_cases hc : q = k - 1 - j
      · rw [h2 q (by omega), hc, Function.update_self, hxv, show k - (k - 1 - j) = j + 1 by omega]
      · exact h1 q (by omega) (by omega)
    · rw [h2 q (by omega), Function.update_of_ne (by omega)]
    · by_cases hc : q = k - 1 - j
      · rw [h4 q (by omega), h2 q (by omega), hc, Function.update_self, Function.update_self]
      · exact h3 q (by omega) (by omega)
    · rw [h4 q (by omega), Function.update_of_ne (by omega)]

/-! ## The stack -/

/-- Positions stored in the stack `iv[0..n-1]`. -/
def Shape (iv : ℕ → ℕ) : ℕ → ℕ → ℕ → Prop
  | kk, lo, 0 => lo + 1 ≤ kk
  | kk, lo, n + 1 => lo + 3 ≤ iv n ∧ Shape iv (kk + 1) (iv n - 1) n

/-- What the entries of `v` from `lo` upwards hold. -/
def Tail (v : ℕ → K) (iv : ℕ → ℕ) : ℕ → ℕ → ℕ → Prop
  | kk, lo, 0 => ∀ q, lo ≤ q → q + 1 ≤ kk → v q = genG cAlpha (kk - q) q
  | kk, lo, n + 1 => (∀ q, lo ≤ q → q + 2 ≤ iv n → v q = genG cAlpha (kk - q) q) ∧
      Tail v iv (kk + 1) (iv n - 1) n

theorem Shape.congr {iv iv' : ℕ → ℕ} : ∀ {n kk lo : ℕ}, (∀ i < n, iv i = iv' i) → Shape iv kk lo n →
    Shape iv' kk lo n
  | 0, _, _, _, h => h
  | n + 1, kk, lo, he, h => by
    have e := he n (by omega)
    simp only [Shape] at h ⊢
    rw [← e]
    exact ⟨h.1, Shape.congr (fun i hi => he i (by omega)) h.2⟩

theorem Shape.mono {iv : ℕ → ℕ} {n kk lo lo' : ℕ} (hl : lo' ≤ lo) (h : Shape iv kk lo n) :
    Shape iv kk lo' n := by
  cases n with
  | zero => simp only [Shape] at h ⊢; omega
  | succ n => simp only [Shape] at h ⊢; exact ⟨by omega, h.2⟩

/-- All stored positions are at most the order reached by popping everything. -/
theorem Shape.le_top {iv : ℕ → ℕ} : ∀ {n kk lo : ℕ}, Shape iv kk lo n → ∀ i < n, iv i ≤ kk + n
  | 0, _, _, _, i, hi => by omega
  | n + 1, kk, lo, h, i, hi => by
    simp only [Shape] at h
    by_cases hc : i = n
    · subst hc
      cases i with
      | zero => have := h.2; simp only [Shape] at this; omega
      | succ m =>
        have h2 := h.2
        have := Shape.le_top h.2 m (by omega)
        simp only [Shape] at h2
        omega
    · have := Shape.le_top h.2 i (by omega)
      omega

theorem Shape.lo_lt {iv : ℕ → ℕ} {n kk lo : ℕ} (h : Shape iv kk lo n) : lo + 1 ≤ kk + n := by
  cases n with
  | zero => simpa [Shape] using h
  | succ n =>
    have h1 := h.le_top n (by omega)
    simp only [Shape] at h
    omega

theorem Tail.congr {v v' : ℕ → K} {iv iv' : ℕ → ℕ} : ∀ {n kk lo lo' : ℕ}, Shape iv kk lo' n → lo ≤ lo' + 1 →
    (∀ q, lo ≤ q → v q = v' q) → (∀ i < n, iv i = iv' i) → Tail v iv kk lo n → Tail v' iv' kk lo n
  | 0, _, _, _, _, _, hv, _, h => fun q h1 h2 => by rw [← hv q h1]; exact h q h1 h2
  | n + 1, kk, lo, lo', hs, hl, hv, he, h => by
    have e := he n (by omega)
    simp only [Shape] at hs
    simp only [Tail] at h ⊢
    rw [← e]
    exact ⟨fun q h1 h2 => by rw [← hv q h1]; exact h.1 q h1 h2,
      Tail.congr hs.2 (by omega) (fun q hq => hv q (by omega)) (fun i hi => he i (by omega)) h.2⟩

theorem Tail.cons {v : ℕ → K} {iv : ℕ → ℕ} {n kk lo : ℕ}
    (h : Tail v iv kk (lo + 1) n) (h0 : v lo = genG cAlpha (kk - lo) lo) : Tail v iv kk lo n := by
  cases n with
  | zero =>
    intro q h1 h2
    by_cases hc : q = lo
    · subst hc; exact h0
    · exact h q (by omega) h2
  | succ n =>
    simp only [Tail] at h ⊢
    refine ⟨fun q h1 h2 => ?_, h.2⟩
    by_cases hc : q = lo
    · subst hc; exact h0
    · exact h.1 q (by omega) h2

/-- The lowest entry of the tail. -/
theorem Tail.head {v : ℕ → K} {iv : ℕ → ℕ} {n kk lo : ℕ} (hs : Shape iv kk lo n)
    (h : Tail v iv kk lo n) : v lo = genG cAlpha (kk - lo) lo := by
  cases n with
  | zero => simp only [Shape] at hs; exact h lo le_rfl hs
  | succ n => simp only [Shape] at hs; simp only [Tail] at h; exact h.1 lo le_rfl (by omega)

theorem Tail.extend {v : ℕ → K} {iv : ℕ → ℕ} {n kk lo : ℕ} : ∀ (m : ℕ), Tail v iv kk (lo + m) n →
    (∀ q, lo ≤ q → q < lo + m → v q = genG cAlpha (kk - q) q) → Tail v iv kk lo n := by
  intro m
  induction m with
  | zero => intro h _; exact h
  | succ m ih =>
    intro h hv
    exact ih (Tail.cons h (hv (lo + m) (by omega) (by omega))) (fun q h1 h2 => hv q h1 (by omega))

/-- The latest stored position. -/
theorem Shape.top_le {iv : ℕ → ℕ} : ∀ {n kk lo : ℕ}, Shape iv kk lo (n + 1) → iv n ≤ kk + 1
  | 0, kk, lo, h => by simp only [Shape] at h; omega
  | n + 1, kk, lo, h => by
    have h2 := Shape.top_le h.2
    simp only [Shape] at h
    omega

/-! ## The invariant of the coefficient arrays -/

/-- What the coefficient arrays hold after block 1: `e` is the value of `ns` when they were last
recomputed. -/
structure CInv (kMax : ℕ) (h : K) (a : Coef K) (e : ℕ) : Prop where
  he : 1 ≤ e
  hk : e ≤ a.kprev
  top : a.kprev + a.ivc ≤ kMax
  psi : ∀ i < e, a.psi i = h * ((i : K) + 1)
  alpha : ∀ i < e, a.alpha i = cAlpha i
  beta : ∀ i < e, a.beta i = 1
  sig : ∀ i ≤ e, a.sig i = 1
  sigFull : ∀ i, e ≤ i → i ≤ a.kprev → a.sig i = ∏ l ∈ Ico e i, ((l : K) + 1) * a.alpha l
  gc : ∀ i ≤ e, a.g i = genG cAlpha i 0
  vlow : ∀ q ≤ a.kprev - e, a.v q = genG cAlpha e q
  shape : Shape a.iv a.kprev (a.kprev - e) a.ivc
  tail : Tail a.v a.iv a.kprev (a.kprev - e) a.ivc
  kgi_le : a.kgi ≤ e
  kgi_ge : e ≤ a.kgi + 1
  kgi_eq : e < a.kprev → a.kgi = e
  kgi_lt : a.kgi < kMax
  gi : ∀ j, 1 ≤ j → j ≤ a.kgi → a.gi (j - 1) = genG cAlpha j 1
  gFull : ∀ i ≤ a.kprev, a.g i = genG a.alpha i 0
  wFull : ∀ q ≤ a.kprev - e, a.w q = genG a.alpha (a.kprev - q) q
  weq : ∀ q, a.kprev - e ≤ q → q < a.kprev + a.ivc → a.w q = a.v q

/-- What does not change at all. -/
structure CBase (a : Coef K) : Prop where
  g0 : a.g 0 = 1
  g1 : a.g 1 = 1 / 2
  sig0 : a.sig 0 = 1

theorem genG_c_one_zero : genG (cAlpha (K := K)) 1 0 = 1 / 2 := by
  rw [genG_c_one, iqq]; norm_num

theorem CInv.base {kMax : ℕ} {h : K} {a : Coef K} {e : ℕ} (i : CInv kMax h a e) : CBase a where
  g0 := by rw [i.gc 0 (by omega)]; simp [genG]
  g1 := by rw [i.gc 1 i.he, genG_c_one_zero]
  sig0 := i.sig 0 (by omega)

/-- The last part of block 1, from `v` and `w` for the present `ns` to all coefficients. -/
theorem gFinish_inv {kMax : ℕ} {h : K} {b : Coef K} {k ns : ℕ} (h1 : 1 ≤ ns) (hk : ns ≤ k)
    (top : k + b.ivc ≤ kMax) (psi : ∀ i < ns, b.psi i = h * ((i : K) + 1))
    (alpha : ∀ i < ns, b.alpha i = cAlpha i) (beta : ∀ i < ns, b.beta i = 1) (sig : ∀ i ≤ ns, b.sig i = 1)
    (sigFull : ∀ i, ns ≤ i → i ≤ k → b.sig i = ∏ l ∈ Ico ns i, ((l : K) + 1) * b.alpha l)
    (gc : ∀ i ≤ ns, b.g i = genG cAlpha i 0) (vlow : ∀ q ≤ k - ns, b.v q = genG cAlpha ns q)
    (shape : Shape b.iv k (k - ns) b.ivc) (tail : Tail b.v b.iv k (k - ns) b.ivc)
    (kgi_le : b.kgi ≤ ns) (kgi_ge : ns ≤ b.kgi + 1) (kgi_eq : ns < k → b.kgi = ns)
    (kgi_lt : b.kgi < kMax)
    (gi : ∀ j, 1 ≤ j → j ≤ b.kgi → b.gi (j - 1) = genG cAlpha j 1)
    (weq : ∀ q, q < k + b.ivc → b.w q = b.v q) :
    CInv kMax h (gFinish k ns b) ns := by
  have hc : ∀ i ≤ ns, ∀ q, genG b.alpha i q = genG cAlpha i q :=
    fun i hi q => genG_congr (fun j hj => alpha j (by omega)) q
  have hlo := shape.lo_lt
  obtain ⟨g1, g2, g3, g4, g5⟩ := gLoop_spec (α := b.alpha) (alpha := b.alpha) (k := k) (k - ns) ns b.w b.g
    (by omega) (fun _ _ _ => rfl)
    (fun q hq => by rw [weq q (by omega), vlow q hq, hc ns le_rfl])
  refine ⟨h1, hk, top, psi, alpha, beta, sig, sigFull, ?_, vlow, shape, tail, kgi_le, kgi_ge, kgi_eq, kgi_lt, gi, ?_,
    ?_, ?_⟩
  · intro i hi
    exact (g5 i (Or.inl hi)).trans (gc i hi)
  · intro i hi
    by_cases hin : i ≤ ns
    · exact ((g5 i (Or.inl hin)).trans (gc i hin)).trans (hc i hin 0).symm
    · have hi' : i ≤ k := hi
      exact g4 i (by omega) (by omega)
  · intro q hq
    exact g2 q (by omega) hq
  · intro q hq hq'
    exact (g3 q hq).trans (weq q hq')

theorem stepSizes_psi {h : K} {k ns : ℕ} {a : Coef K} (i : ℕ) : (stepSizes h k ns a).psi i =
    if i = ns - 1 then h * ns else if ns ≤ i ∧ i < k then h + a.psi (i - 1) else a.psi i := rfl

theorem stepSizes_alpha {h : K} {k ns : ℕ} {a : Coef K} (i : ℕ) : (stepSizes h k ns a).alpha i =
    if i = ns - 1 then 1 / (ns : K) else
      if ns ≤ i ∧ i < k then h / (stepSizes h k ns a).psi i else a.alpha i := rfl

theorem stepSizes_beta {h : K} {k ns : ℕ} {a : Coef K} (i : ℕ) : (stepSizes h k ns a).beta i =
    if i = ns - 1 then 1 else
    if ns ≤ i ∧ i < k then ∏ l ∈ Ico (ns - 1) i, (stepSizes h k ns a).psi l / a.psi l else a.beta i := rfl

theorem stepSizes_sig {h : K} {k ns : ℕ} {a : Coef K} (i : ℕ) : (stepSizes h k ns a).sig i =
    if ns ≤ i ∧ i ≤ k then ∏ l ∈ Ico (ns - 1) i, ((l : K) + 1) * (stepSizes h k ns a).alpha l
    else a.sig i := rfl

/-- `stepSizes` keeps the constant part of the arrays. -/
theorem stepSizes_const {h : K} {k e : ℕ} {a : Coef K} (hk : e + 1 ≤ k)
    (psi : ∀ i < e, a.psi i = h * ((i : K) + 1)) (alpha : ∀ i < e, a.alpha i = cAlpha i)
    (beta : ∀ i < e, a.beta i = 1) (sig : ∀ i ≤ e, a.sig i = 1) :
    (∀ i < e + 1, (stepSizes h k (e + 1) a).psi i = h * ((i : K) + 1)) ∧
    (∀ i < e + 1, (stepSizes h k (e + 1) a).alpha i = cAlpha i) ∧
    (∀ i < e + 1, (stepSizes h k (e + 1) a).beta i = 1) ∧
    (∀ i ≤ e + 1, (stepSizes h k (e + 1) a).sig i = 1) ∧
    (∀ i, e + 1 ≤ i → i ≤ k → (stepSizes h k (e + 1) a).sig i
      = ∏ l ∈ Ico (e + 1) i, ((l : K) + 1) * (stepSizes h k (e + 1) a).alpha l) := by
  have ha : (stepSizes h k (e + 1) a).alpha e = cAlpha e := by
    rw [stepSizes_alpha, if_pos (by omega), cAlpha]; push_cast; rfl
  have hone : ((e : K) + 1) * (stepSizes h k (e + 1) a).alpha e = 1 := by
    have : ((e : K) + 1) ≠ 0 := by positivity
    rw [ha, cAlpha]; field_simp
  have hs : ∀ i, e + 1 ≤ i → i ≤ k → (stepSizes h k (e + 1) a).sig i
      = ∏ l ∈ Ico (e + 1) i, ((l : K) + 1) * (stepSizes h k (e + 1) a).alpha l := by
    intro i h1 h2
    rw [stepSizes_sig, if_pos ⟨h1, h2⟩, show e + 1 - 1 = e by omega,
      Finset.prod_eq_prod_Ico_succ_bot (by omega), hone, one_mul]
  refine ⟨fun i hi => ?_, fun i hi => ?_, fun i hi => ?_, fun i hi => ?_, hs⟩
  · rw [stepSizes_psi]
    by_cases hc : i = e
    · subst hc; rw [if_pos (by omega)]; push_cast; rfl
    · rw [if_neg (by omega), if_neg (by omega), psi i (by omega)]
  · by_cases hc : i = e
    · subst hc; exact ha
    · rw [stepSizes_alpha, if_neg (by omega), if_neg (by omega), alpha i (by omega)]
  · rw [stepSizes_beta]
    by_cases hc : i = e
    · rw [if_pos (by omega)]
    · rw [if_neg (by omega), if_neg (by omega), beta i (by omega)]
  · by_cases hc : i = e + 1
    · subst hc; rw [hs _ le_rfl hk]; simp
    · rw [stepSizes_sig, if_neg (by omega), sig i (by omega)]

/-- A first step with a new size: everything is computed from scratch. -/
theorem coefs_init {kMax k kold : ℕ} {h : K} {a : Coef K} (h1 : 1 ≤ k) (hk : k ≤ kMax) (hb : CBase a) :
    CInv kMax h (coefs h k 1 kold a) 1 := by
  obtain ⟨c1, c2, c3, c4, c5⟩ := stepSizes_const (h := h) (k := k) (e := 0) (a := a) (by omega)
    (fun i hi => by omega) (fun i hi => by omega) (fun i hi => by omega)
    (fun i hi => by rw [Nat.le_zero.mp hi, hb.sig0])
  simp only [Nat.zero_add] at c1 c2 c3 c4 c5
  rw [coefs, if_pos h1, vPart, if_pos rfl]
  have hv : ∀ q < k, (vInit k (stepSizes h k 1 a)).v q = iqq q := by
    intro q hq; simp only [vInit]; rw [if_pos hq]
  have hw : ∀ q < k, (vInit k (stepSizes h k 1 a)).w q = iqq q := by
    intro q hq; simp only [vInit]; rw [if_pos hq]
  have hkgi : (vInit k (stepSizes h k 1 a)).kgi = if k ≠ 1 then 1 else 0 := rfl
  apply gFinish_inv (kMax := kMax) (h := h) le_rfl h1
  · show k + 0 ≤ kMax; omega
  · exact c1
  · exact c2
  · exact c3
  · exact c4
  · exact c5
  · intro i hi
    show a.g i = _
    interval_cases i
    · rw [hb.g0]; simp [genG]
    · rw [hb.g1, genG_c_one_zero]
  · intro q hq
    rw [hv q (by omega), genG_c_one]
  · show k - 1 + 1 ≤ k; omega
  · show ∀ q, k - 1 ≤ q → q + 1 ≤ k → _
    intro q h2 h3
    rw [hv q (by omega), show k - q = 1 by omega, genG_c_one]
  · rw [hkgi]; split <;> omega
  · omega
  · intro h2; rw [hkgi, if_pos (by omega)]
  · rw [hkgi]; split <;> omega
  · intro j hj hj'
    rw [hkgi] at hj'
    split at hj'
    · rename_i hk1
      have : j = 1 := by omega
      subst this
      show (if k ≠ 1 then Function.update a.gi 0 _ else a.gi) (1 - 1) = _
      rw [if_pos hk1]
      simp only [Nat.sub_self, Function.update_self]
      rw [if_pos (by omega), genG_c_one]
    · omega
  · intro q hq
    have hq' : q < k := hq
    rw [hv q hq', hw q hq']

/-- `vUpdate` and `gFinish` from what is needed of `v`, `w` at the level of the step before. -/
theorem vUpdate_inv {kMax k kold e : ℕ} {h : K} {b : Coef K} (h1 : 1 ≤ e) (hk : e + 1 ≤ k)
    (psi : ∀ i < e + 1, b.psi i = h * ((i : K) + 1))
    (alpha : ∀ i < e + 1, b.alpha i = cAlpha i) (beta : ∀ i < e + 1, b.beta i = 1)
    (sig : ∀ i ≤ e + 1, b.sig i = 1)
    (sigFull : ∀ i, e + 1 ≤ i → i ≤ k → b.sig i = ∏ l ∈ Ico (e + 1) i, ((l : K) + 1) * b.alpha l)
    (gc : ∀ i ≤ e, b.g i = genG cAlpha i 0)
    (vlow : ∀ q ≤ k - e, b.v q = genG cAlpha e q)
    (hpush : (¬ k < kold ∧ k + b.ivc ≤ kMax ∧ Shape b.iv k (k - e - 1) b.ivc ∧ Tail b.v b.iv k (k - e) b.ivc ∧
        (∀ q, k - e ≤ q → q < k + b.ivc → b.w q = b.v q)) ∨
      (k < kold ∧ k + 1 + b.ivc ≤ kMax ∧ Shape b.iv (k + 1) (k + 1 - e) b.ivc ∧
        Tail b.v b.iv (k + 1) (k + 1 - e) b.ivc ∧
        (∀ q, k + 1 - e ≤ q → q < k + 1 + b.ivc → b.w q = b.v q)))
    (hkgi : b.kgi = e)
    (gi : ∀ j, 1 ≤ j → j ≤ e → b.gi (j - 1) = genG cAlpha j 1) :
    CInv kMax h (gFinish k (e + 1) (vUpdate k (e + 1) kold b)) (e + 1) := by
  have hv : ∀ q, (vUpdate k (e + 1) kold b).v q = subShift (b.alpha e) (k - e) b.v q := by
    intro q
    simp only [vUpdate, Nat.add_sub_cancel, Nat.add_sub_add_right]
  have hlow : ∀ q < k - e, (vUpdate k (e + 1) kold b).v q = genG cAlpha (e + 1) q := by
    intro q hq
    rw [hv, subShift, if_pos hq, vlow q (by omega), vlow (q + 1) (by omega), alpha e (by omega), genG]
  have hhigh : ∀ q, k - e ≤ q → (vUpdate k (e + 1) kold b).v q = b.v q := by
    intro q hq
    rw [hv, subShift, if_neg (by omega)]
  have hw : ∀ q, (vUpdate k (e + 1) kold b).w q
      = if q < k - e + 1 then (vUpdate k (e + 1) kold b).v q else b.w q := by
    intro q
    simp only [vUpdate, Nat.add_sub_cancel, Nat.add_sub_add_right]
  have hg : ∀ q, (vUpdate k (e + 1) kold b).g q
      = if q = e + 1 then (vUpdate k (e + 1) kold b).v 0 else b.g q := by
    intro q
    by_cases hc : q = e + 1
    · subst hc
      have hw0 : (vUpdate k (e + 1) kold b).w 0 = (vUpdate k (e + 1) kold b).v 0 := by
        rw [hw, if_pos (by omega)]
      rw [if_pos rfl, ← hw0]
      simp only [vUpdate, Function.update_self]
    · rw [if_neg hc]
      simp only [vUpdate]
      rw [Function.update_of_ne hc]
  have hkg : (vUpdate k (e + 1) kold b).kgi = if k - e ≠ 1 then e + 1 else b.kgi := by
    simp only [vUpdate, Nat.add_sub_add_right]
  have hgi : ∀ j, (vUpdate k (e + 1) kold b).gi j
      = if k - e ≠ 1 ∧ j = e then (vUpdate k (e + 1) kold b).v 1 else b.gi j := by
    intro j
    by_cases hc : k - e ≠ 1
    · have hw1 : (vUpdate k (e + 1) kold b).w 1 = (vUpdate k (e + 1) kold b).v 1 := by
        rw [hw, if_pos (by omega)]
      rw [← hw1]
      by_cases hj : j = e
      · subst hj
        rw [if_pos ⟨hc, rfl⟩]
        simp only [vUpdate, Nat.add_sub_add_right, Nat.add_sub_cancel]
        rw [if_pos hc, Function.update_self]
      · rw [if_neg (by tauto)]
        simp only [vUpdate, Nat.add_sub_add_right, Nat.add_sub_cancel]
        rw [if_pos hc, Function.update_of_ne hj]
    · rw [if_neg (by tauto)]
      simp only [vUpdate, Nat.add_sub_add_right, Nat.add_sub_cancel]
      rw [if_neg hc]
  have hlev : ∀ q, k - (e + 1) ≤ q → q < k - e → (vUpdate k (e + 1) kold b).v q = genG cAlpha (k - q) q := by
    intro q h2 h3
    rw [hlow q h3, show k - q = e + 1 by omega]
  apply gFinish_inv (kMax := kMax) (h := h) (by omega) hk
  · rcases hpush with hp | hp
    · simp only [vUpdate]; rw [if_neg hp.1]; exact hp.2.1
    · simp only [vUpdate]; rw [if_pos hp.1]; have := hp.2.1; omega
  · exact psi
  · exact alpha
  · exact beta
  · exact sig
  · exact sigFull
  · intro i hi
    rw [hg]
    by_cases hc : i = e + 1
    · subst hc; rw [if_pos rfl, hlow 0 (by omega)]
    · rw [if_neg hc, gc i (by omega)]
  · intro q hq
    exact hlow q (by omega)
  · rcases hpush with hp | hp
    · simp only [vUpdate]; rw [if_neg hp.1, if_neg hp.1]; exact hp.2.2.1
    · simp only [vUpdate]; rw [if_pos hp.1, if_pos hp.1]
      refine ⟨?_, ?_⟩
      · rw [Function.update_self]; omega
      · rw [Function.update_self]
        refine Shape.congr (fun i hi => (Function.update_of_ne (by omega) _ _).symm) ?_
        rw [show k + 1 - (e + 1) + 2 - 1 = k + 1 - e by omega]
        exact hp.2.2.1
  · rcases hpush with ⟨hp, _, hs, ht, _⟩ | ⟨hp, _, hs, ht, _⟩
    · have hiv : (vUpdate k (e + 1) kold b).iv = b.iv := by simp only [vUpdate]; rw [if_neg hp]
      have hic : (vUpdate k (e + 1) kold b).ivc = b.ivc := by simp only [vUpdate]; rw [if_neg hp]
      rw [hiv, hic]
      refine Tail.cons ?_ (hlev _ le_rfl (by omega))
      rw [show k - (e + 1) + 1 = k - e by omega]
      exact Tail.congr hs (by omega) (fun q hq => (hhigh q hq).symm) (fun _ _ => rfl) ht
    · have hiv : (vUpdate k (e + 1) kold b).iv = Function.update b.iv b.ivc (k + 1 - (e + 1) + 2) := by
        simp only [vUpdate]; rw [if_pos hp]
      have hic : (vUpdate k (e + 1) kold b).ivc = b.ivc + 1 := by simp only [vUpdate]; rw [if_pos hp]
      rw [hiv, hic]
      refine ⟨fun q h2 h3 => ?_, ?_⟩
      · rw [Function.update_self] at h3
        by_cases hc : q < k - e
        · exact hlev q h2 hc
        · have : q = k - e := by omega
          subst this
          rw [hhigh _ le_rfl, vlow _ le_rfl, show k - (k - e) = e by omega]
      · rw [Function.update_self, show k + 1 - (e + 1) + 2 - 1 = k + 1 - e by omega]
        exact Tail.congr hs (by omega) (fun q hq => (hhigh q (by omega)).symm)
          (fun i hi => (Function.update_of_ne (by omega) _ _).symm) ht
  · rw [hkg]; split <;> omega
  · rw [hkg]; split <;> omega
  · intro h2; rw [hkg, if_pos (by omega)]
  · have : k ≤ kMax := by rcases hpush with hp | hp <;> omega
    rw [hkg]; split <;> omega
  · intro j hj hj'
    rw [hkg] at hj'
    rw [hgi]
    by_cases hc : k - e ≠ 1 ∧ j - 1 = e
    · rw [if_pos hc, hlow 1 (by omega), show j = e + 1 by omega]
    · rw [if_neg hc]
      refine gi j hj ?_
      split at hj'
      · rename_i h3
        by_contra h4
        exact hc ⟨h3, by omega⟩
      · omega
  · intro q hq
    rw [hw]
    split
    · rfl
    · rename_i hc
      rw [hhigh q (by omega)]
      rcases hpush with ⟨hp, _, _, _, hwe⟩ | ⟨hp, _, _, _, hwe⟩
      · have hic : (vUpdate k (e + 1) kold b).ivc = b.ivc := by simp only [vUpdate]; rw [if_neg hp]
        rw [hic] at hq
        exact hwe q (by omega) hq
      · have hic : (vUpdate k (e + 1) kold b).ivc = b.ivc + 1 := by simp only [vUpdate]; rw [if_pos hp]
        rw [hic] at hq
        exact hwe q (by omega) (by omega)

/-- What the branch for a raised order does. -/
theorem vRaise_spec {k e : ℕ} {a : Coef K} (h1 : 1 ≤ e) (hek : e ≤ a.kprev) (hk : k = a.kprev + 1)
    (alpha : ∀ i < e, a.alpha i = cAlpha i)
    (vlow : ∀ q ≤ a.kprev - e, a.v q = genG cAlpha e q)
    (shape : Shape a.iv a.kprev (a.kprev - e) a.ivc) (tail : Tail a.v a.iv a.kprev (a.kprev - e) a.ivc)
    (kgi_ge : e ≤ a.kgi + 1) (kgi_le : a.kgi ≤ e) (kgi_eq : e < a.kprev → a.kgi = e)
    (gi : ∀ j, 1 ≤ j → j ≤ a.kgi → a.gi (j - 1) = genG cAlpha j 1)
    (weq : ∀ q, a.kprev - e ≤ q → q < a.kprev + a.ivc → a.w q = a.v q) :
    let b := vRaise k (e + 1) a
    (∀ q ≤ k - e, b.v q = genG cAlpha e q) ∧ k + b.ivc ≤ max k (a.kprev + a.ivc) ∧
    Shape b.iv k (k - e - 1) b.ivc ∧ Tail b.v b.iv k (k - e) b.ivc ∧
    (∀ q, k - e ≤ q → q < k + b.ivc → b.w q = b.v q) ∧ b.kgi = e ∧
    (∀ j, 1 ≤ j → j ≤ e → b.gi (j - 1) = genG cAlpha j 1) := by
  intro b
  have hjv : jvOf k a = if a.ivc ≠ 0 then k + 1 - a.iv (a.ivc - 1) else 1 := rfl
  have hb1 : b.v = (diagLoop (vRaise1 k a).alpha k (e - jvOf k a) (jvOf k a) ((vRaise1 k a).v, (vRaise1 k a).w)).1 := rfl
  have hb2 : b.w = (diagLoop (vRaise1 k a).alpha k (e - jvOf k a) (jvOf k a) ((vRaise1 k a).v, (vRaise1 k a).w)).2 := rfl
  have hb3 : b.kgi = if k = e + 1 ∧ jvOf k a < e then e else (vRaise1 k a).kgi := rfl
  have hb4 : b.gi = if k = e + 1 ∧ jvOf k a < e then Function.update (vRaise1 k a).gi (e - 1) (b.w 1)
      else (vRaise1 k a).gi := rfl
  have hb5 : b.iv = (vRaise1 k a).iv := rfl
  have hb6 : b.ivc = (vRaise1 k a).ivc := rfl
  cases hn : a.ivc with
  | zero =>
    have j1 : jvOf k a = 1 := by rw [hjv, hn]; simp
    have ev : (vRaise1 k a).v = Function.update a.v (k - 1) (iqq (k - 1)) := by simp [vRaise1, hn]
    have ew : (vRaise1 k a).w = Function.update a.w (k - 1) (iqq (k - 1)) := by simp [vRaise1, hn]
    have ek : (vRaise1 k a).kgi = if k = 2 then 1 else a.kgi := by simp [vRaise1, hn]
    have eg : (vRaise1 k a).gi = if k = 2 then Function.update a.gi 0 ((vRaise1 k a).w 1) else a.gi := by
      rw [ew]; simp [vRaise1, hn]
    have eiv : (vRaise1 k a).iv = a.iv := by simp [vRaise1, hn]
    have eic : (vRaise1 k a).ivc = 0 := by simp [vRaise1, hn]
    have ea : (vRaise1 k a).alpha = a.alpha := by simp [vRaise1, hn]
    rw [hn] at shape tail weq
    simp only [Tail] at tail
    rw [j1] at hb1 hb2 hb3 hb4
    rw [ea] at hb1 hb2
    obtain ⟨d1, d2, d3, d4⟩ := diagLoop_spec (α := cAlpha) (alpha := a.alpha) (k := k) (e - 1) 1 (vRaise1 k a).v
      (vRaise1 k a).w (by omega) (fun i _ hi => alpha i (by omega))
      (by rw [ev, Function.update_self, genG_c_one])
      (fun i hi hi' => by
        rw [ev, Function.update_of_ne (by omega), tail _ (by omega) (by omega),
          show a.kprev - (k - 1 - i) = i by omega])
    rw [← hb1] at d1 d2 d3
    rw [← hb2] at d3 d4
    have hvt : ∀ q, k - e ≤ q → q < k → b.v q = genG cAlpha (k - q) q := by
      intro q h2 h3
      by_cases hc : q < k - 1
      · exact d1 q (by omega) hc
      · rw [d2 q (by omega), ev, show q = k - 1 by omega, Function.update_self,
          show k - (k - 1) = 1 by omega, genG_c_one]
    have hw1 : ∀ q, k - e ≤ q → q < k → b.w q = b.v q := by
      intro q h2 h3
      by_cases hc : q < k - 1
      · exact d3 q (by omega) hc
      · rw [d4 q (by omega), d2 q (by omega), ev, ew, show q = k - 1 by omega, Function.update_self,
          Function.update_self]
    have hvl : ∀ q ≤ k - e, b.v q = genG cAlpha e q := by
      intro q hq
      by_cases hc : q = k - e
      · rw [hvt q (by omega) (by omega), show k - q = e by omega]
      · rw [d2 q (by omega), ev, Function.update_of_ne (by omega), vlow q (by omega)]
    refine ⟨hvl, ?_, ?_, ?_, ?_, ?_, ?_⟩
    · rw [hb6, eic]; exact le_max_left _ _
    · rw [hb6, eic]; show k - e - 1 + 1 ≤ k; omega
    · rw [hb6, eic]; intro q h2 h3; exact hvt q h2 (by omega)
    · rw [hb6, eic]; intro q h2 h3; exact hw1 q h2 (by omega)
    · rw [hb3, ek]
      by_cases hc : k = e + 1
      · split
        · rfl
        · split <;> omega
      · rw [if_neg (by tauto), if_neg (by omega)]; exact kgi_eq (by omega)
    · intro j hj hj'
      have hold : ∀ j, 1 ≤ j → j ≤ e → j < e ∨ k ≠ e + 1 ∨ e = 1 → (vRaise1 k a).gi (j - 1) = genG cAlpha j 1 := by
        intro j hj hj' h4
        rw [eg]
        by_cases h2 : k = 2
        · rw [if_pos h2]
          have : j = 1 := by omega
          subst this
          rw [Nat.sub_self, Function.update_self, ew, show k - 1 = 1 by omega, Function.update_self,
            genG_c_one]
        · rw [if_neg h2]
          refine gi j hj ?_
          rcases h4 with h4 | h4 | h4
          · omega
          · have := kgi_eq (by omega); omega
          · have := kgi_eq (by omega); omega
      rw [hb4]
      by_cases hc : k = e + 1 ∧ 1 < e
      · rw [if_pos hc]
        by_cases h5 : j = e
        · subst h5
          rw [Function.update_self, hw1 1 (by omega) (by omega), hvl 1 (by omega)]
        · rw [Function.update_of_ne (by omega)]
          exact hold j hj hj' (Or.inl (by omega))
      · rw [if_neg hc]
        refine hold j hj hj' ?_
        by_cases h6 : k = e + 1
        · have : ¬ 1 < e := fun h => hc ⟨h6, h⟩
          right; right; omega
        · right; left; exact h6
  | succ n =>
    have j1 : jvOf k a = k + 1 - a.iv n := by rw [hjv, hn]; simp
    have hne : a.ivc ≠ 0 := by omega
    have e1 : vRaise1 k a = { a with ivc := a.ivc - 1 } := by rw [vRaise1, if_pos hne]
    rw [hn] at shape tail weq
    have htop := shape.top_le
    simp only [Shape] at shape
    simp only [Tail] at tail
    obtain ⟨s1, s2⟩ := shape
    obtain ⟨t1, t2⟩ := tail
    have hd := t2.head s2
    rw [e1] at hb1 hb2 hb3 hb4 hb5 hb6
    simp only [] at hb1 hb2 hb3 hb4 hb5 hb6
    have hic : b.ivc = n := by rw [hb6, hn]; rfl
    have hjl : jvOf k a < e := by rw [j1]; omega
    have hkj : k - jvOf k a = a.iv n - 1 := by rw [j1]; omega
    have hjk : jvOf k a = k - (a.iv n - 1) := by rw [j1]; omega
    obtain ⟨d1, d2, d3, d4⟩ := diagLoop_spec (α := cAlpha) (alpha := a.alpha) (k := k) (e - jvOf k a) (jvOf k a)
      a.v a.w (by omega) (fun i _ hi => alpha i (by omega))
      (by rw [hkj, hd, hjk, hk])
      (fun i hi hi' => by
        rw [t1 _ (by omega) (by omega), show a.kprev - (k - 1 - i) = i by omega])
    rw [← hb1] at d1 d2 d3
    rw [← hb2] at d3 d4
    have hlo : k - jvOf k a - (e - jvOf k a) = k - e := by omega
    rw [hlo, hkj] at d1 d2 d3 d4
    have hvt : ∀ q, k - e ≤ q → q < a.iv n - 1 → b.v q = genG cAlpha (k - q) q := d1
    have hw1 : ∀ q, k - e ≤ q → q < k + n → b.w q = b.v q := by
      intro q h2 h3
      by_cases hc : q < a.iv n - 1
      · exact d3 q h2 hc
      · rw [d4 q (by omega), d2 q (by omega), weq q (by omega) (by omega)]
    have hvl : ∀ q ≤ k - e, b.v q = genG cAlpha e q := by
      intro q hq
      by_cases hc : q = k - e
      · rw [hvt q (by omega) (by omega), show k - q = e by omega]
      · rw [d2 q (by omega), vlow q (by omega)]
    refine ⟨hvl, ?_, ?_, ?_, ?_, ?_, ?_⟩
    · rw [hic]; exact le_max_of_le_right (by omega)
    · rw [hic, hb5, hk]; exact s2.mono (by omega)
    · rw [hic, hb5]
      refine Tail.extend (a.iv n - 1 - (k - e)) ?_ (fun q h2 h3 => hvt q h2 (by omega))
      rw [show k - e + (a.iv n - 1 - (k - e)) = a.iv n - 1 by omega, hk]
      exact Tail.congr s2 (by omega) (fun q hq => (d2 q (Or.inr hq)).symm) (fun _ _ => rfl) t2
    · rw [hic]; exact hw1
    · rw [hb3]
      by_cases hc : k = e + 1
      · rw [if_pos ⟨hc, hjl⟩]
      · rw [if_neg (by tauto)]; exact kgi_eq (by omega)
    · intro j hj hj'
      rw [hb4]
      by_cases hc : k = e + 1
      · rw [if_pos ⟨hc, hjl⟩]
        by_cases h5 : j = e
        · subst h5
          rw [Function.update_self, hw1 1 (by omega) (by omega), hvl 1 (by omega)]
        · rw [Function.update_of_ne (by omega)]
          exact gi j hj (by omega)
      · rw [if_neg (by tauto)]
        have := kgi_eq (by omega)
        exact gi j hj (by omega)

/-- A further step with the same size. -/
theorem coefs_next {kMax k kold e : ℕ} {h : K} {a : Coef K} (ci : CInv kMax h a e) (hk : e + 1 ≤ k)
    (hkm : k ≤ kMax)
    (hc : (k = a.kprev ∧ ¬ k < kold) ∨ (k + 1 = a.kprev ∧ k < kold) ∨ (k = a.kprev + 1 ∧ ¬ k < kold)) :
    CInv kMax h (coefs h k (e + 1) kold a) (e + 1) := by
  obtain ⟨c1, c2, c3, c4, c5⟩ := stepSizes_const (h := h) (k := k) (e := e) (a := a) hk ci.psi ci.alpha ci.beta
    ci.sig
  have he := ci.he
  have hek := ci.hk
  rw [coefs, if_pos hk, vPart, if_neg (by omega)]
  have hkp : (stepSizes h k (e + 1) a).kprev = a.kprev := rfl
  have hst : ∀ i < e, (stepSizes h k (e + 1) a).alpha i = cAlpha i := fun i hi => c2 i (by omega)
  rw [hkp]
  rcases hc with ⟨hk1, hk2⟩ | ⟨hk1, hk2⟩ | ⟨hk1, hk2⟩
  · rw [if_neg (by omega)]
    have hkg : a.kgi = e := ci.kgi_eq (by omega)
    refine vUpdate_inv he hk c1 c2 c3 c4 c5 ci.gc ?_ (Or.inl ⟨hk2, ?_, ?_, ?_, ?_⟩) hkg ?_
    · intro q hq; exact ci.vlow q (by omega)
    · rw [hk1]; exact ci.top
    · have := ci.shape; rw [← hk1] at this; exact this.mono (by omega)
    · have := ci.tail; rw [← hk1] at this; exact this
    · intro q h2 h3; exact ci.weq q (by omega) (by rw [← hk1]; exact h3)
    · intro j h2 h3; exact ci.gi j h2 (by omega)
  · rw [if_neg (by omega)]
    have hkg : a.kgi = e := ci.kgi_eq (by omega)
    refine vUpdate_inv he hk c1 c2 c3 c4 c5 ci.gc ?_ (Or.inr ⟨hk2, ?_, ?_, ?_, ?_⟩) hkg ?_
    · intro q hq; exact ci.vlow q (by omega)
    · rw [hk1]; exact ci.top
    · have := ci.shape; rw [← hk1] at this; exact this
    · have := ci.tail; rw [← hk1] at this; exact this
    · intro q h2 h3; exact ci.weq q (by omega) (by rw [← hk1]; exact h3)
    · intro j h2 h3; exact ci.gi j h2 (by omega)
  · rw [if_pos (by omega)]
    obtain ⟨r1, r2, r3, r4, r5, r6, r7⟩ := vRaise_spec (k := k) (e := e) (a := stepSizes h k (e + 1) a) he hek hk1
      hst ci.vlow ci.shape ci.tail ci.kgi_ge ci.kgi_le ci.kgi_eq ci.gi ci.weq
    have f1 : (vRaise k (e + 1) (stepSizes h k (e + 1) a)).psi = (stepSizes h k (e + 1) a).psi := by
      simp only [vRaise, vRaise1]; split <;> rfl
    have f2 : (vRaise k (e + 1) (stepSizes h k (e + 1) a)).alpha = (stepSizes h k (e + 1) a).alpha := by
      simp only [vRaise, vRaise1]; split <;> rfl
    have f3 : (vRaise k (e + 1) (stepSizes h k (e + 1) a)).beta = (stepSizes h k (e + 1) a).beta := by
      simp only [vRaise, vRaise1]; split <;> rfl
    have f4 : (vRaise k (e + 1) (stepSizes h k (e + 1) a)).sig = (stepSizes h k (e + 1) a).sig := by
      simp only [vRaise, vRaise1]; split <;> rfl
    have f5 : (vRaise k (e + 1) (stepSizes h k (e + 1) a)).g = a.g := by
      simp only [vRaise, vRaise1]; split <;> rfl
    refine vUpdate_inv he hk ?_ ?_ ?_ ?_ ?_ ?_ r1 (Or.inl ⟨hk2, ?_, r3, r4, r5⟩) r6 r7
    · rw [f1]; exact c1
    · rw [f2]; exact c2
    · rw [f3]; exact c3
    · rw [f4]; exact c4
    · rw [f4, f2]; exact c5
    · rw [f5]; exact ci.gc
    · refine r2.trans (max_le hkm ?_)
      exact ci.top

end
end Extensisq
