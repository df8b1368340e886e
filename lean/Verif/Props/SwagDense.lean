import Verif.Props.SwagMesh

/-!
# SWAG: the interpolant (C48)
-/

set_option linter.unusedSectionVars false

namespace Extensisq
open Finset Polynomial

section
variable {K V : Type*} [Field K] [LinearOrder K] [IsStrictOrderedRing K] [AddCommGroup V] [Module K V]

theorem gdiLoop_spec {α alpha w : ℕ → K} {k : ℕ} : ∀ (n i : ℕ) (x : K), i + n ≤ k →
    x = genG α i (k + 1 - i) → (∀ j, i ≤ j → j < i + n → alpha j = α j) →
    (∀ j, i ≤ j → j < i + n → w (k - j) = genG α j (k - j)) →
    gdiLoop alpha w k n i x = genG α (i + n) (k + 1 - (i + n)) := by
  intro n
  induction n with
  | zero => intro i x _ hx _ _; exact hx
  | succ n ih =>
    intro i x hi hx ha hw
    rw [gdiLoop, ih (i + 1) _ (by omega) ?_ (fun j h1 h2 => ha j (by omega) (by omega))
      (fun j h1 h2 => hw j (by omega) (by omega)), show i + (n + 1) = i + 1 + n by omega]
    rw [hx, ha i le_rfl (by omega), hw i le_rfl (by omega), genG, show k + 1 - (i + 1) = k - i by omega,
      show k - i + 1 = k + 1 - i by omega]
    ring

/-- `gdi` is the integral it stands for. -/
theorem gdi_spec {kMax e ns k : ℕ} {h : K} {co : Coef K} (ci : CInv kMax h co e) (rel : NsRel e ns k co.kprev)
    (hk : 1 ≤ k) : swGdi co k = genG co.alpha k 1 := by
  have he := ci.he
  have hek := ci.hk
  have hc : ∀ i ≤ e, ∀ q, genG (cAlpha (K := K)) i q = genG co.alpha i q := fun i hi q =>
    (genG_congr (fun j hj => ci.alpha j (by omega)) q).symm
  unfold swGdi
  by_cases hle : k ≤ co.kgi
  · rw [if_pos hle, ci.gi k hk hle]
    exact hc k (hle.trans ci.kgi_le) 1
  rw [if_neg hle]
  have hkp : co.kprev = k := by
    rcases rel with ⟨n1, n2⟩ | ⟨n1, n2, n3⟩
    · exact n2
    · by_contra hne
      have h1 := ci.kgi_ge
      have : e < co.kprev := by omega
      have := ci.kgi_eq this
      omega
  have htail := ci.tail
  have hshape := ci.shape
  rw [hkp] at htail hshape
  have hlow : ∀ q ≤ k - e, co.w q = genG co.alpha (k - q) q := by
    intro q hq
    have := ci.wFull q (by rw [hkp]; exact hq)
    rwa [hkp] at this
  have hweq : ∀ q, k - e ≤ q → q < k + co.ivc → co.w q = co.v q := by
    intro q h1 h2
    exact ci.weq q (by rw [hkp]; exact h1) (by rw [hkp]; exact h2)
  have ha0 : co.alpha 0 = 1 := by rw [ci.alpha 0 (by omega), cAlpha_zero]
  by_cases hi : co.ivc = 0
  · rw [if_pos hi]
    rw [hi] at htail
    simp only [Tail] at htail
    rw [gdiLoop_spec (α := co.alpha) (k := k) (k - 1) 1 _ (by omega) ?_ (fun _ _ _ => rfl) ?_]
    · rw [show 1 + (k - 1) = k by omega, show k + 1 - k = 1 by omega]
    · rw [show k + 1 - 1 = k by omega, genG_one ha0]
    · intro j h1 h2
      by_cases hj : k - j ≤ k - e
      · rw [hlow _ hj, show k - (k - j) = j by omega]
      · rw [hweq _ (by omega) (by omega), htail (k - j) (by omega) (by omega), show k - (k - j) = j by omega]
        exact hc j (by omega) _
  · rw [if_neg hi]
    obtain ⟨n, hn⟩ := Nat.exists_eq_succ_of_ne_zero hi
    rw [hn] at htail hshape
    have htop := hshape.top_le
    simp only [Tail] at htail
    have hhead := htail.2.head hshape.2
    have hlo := hshape.1
    rw [hn, Nat.succ_sub_one]
    generalize co.iv n = iw at *
    simp only
    have hm : k + 2 - iw + (k - (k + 2 - iw)) = k := by omega
    rw [gdiLoop_spec (α := co.alpha) (k := k) (k - (k + 2 - iw)) (k + 2 - iw) _ (by omega) ?_ (fun _ _ _ => rfl) ?_]
    · rw [hm, show k + 1 - k = 1 by omega]
    · rw [hweq _ (by omega) (by omega), hhead, show k + 1 - (iw - 1) = k + 2 - iw by omega,
        show k + 1 - (k + 2 - iw) = iw - 1 by omega]
      exact hc _ (by omega) _
    · intro j h1 h2
      by_cases hj : k - j ≤ k - e
      · rw [hlow _ hj, show k - (k - j) = j by omega]
      · rw [hweq _ (by omega) (by omega), htail.1 (k - j) (by omega) (by omega), show k - (k - j) = j by omega]
        exact hc j (by omega) _

/-- The basis polynomials after the new point was added. -/
noncomputable def bP (X0 : ℕ → K) (t' : K) (j : ℕ) : K[X] :=
  if j = 0 then abP X0 t' 0 else abP X0 t' j - abP X0 t' (j - 1)

theorem eval_bP {X0 : ℕ → K} {t' : K} {j : ℕ} (h : ∀ i < j, t' - X0 i ≠ 0) (x : K) :
    (bP X0 t' j).eval x = nb (consX t' X0) j x := by
  cases j with
  | zero => simp [bP, abP, nb]
  | succ j =>
    rw [bP, if_neg (by omega), eval_sub, eval_abP, eval_abP, ab_succ (h j (by omega)),
      show j + 1 - 1 = j by omega]
    ring

theorem inc_bP {X0 : ℕ → K} {t h xi : K} {alpha : ℕ → K} (hh : h ≠ 0) {j : ℕ}
    (hne : ∀ i < j, t + h - X0 i ≠ 0) (ha : ∀ i < j, alpha i = h / (t + h - X0 i)) :
    inc (bP X0 (t + h) j) t (t + xi * h) = h * diffP (fun i => genW alpha xi i 0) j := by
  cases j with
  | zero =>
    have h1 := inc_ab hh (xi := xi) (j := 0) (fun i hi => by omega) (fun i (hi : i < 0) => by omega)
      (X0 := X0) (t := t) (alpha := alpha) 0
    rw [pow_zero, one_mul] at h1
    rw [bP, if_pos rfl, h1, diffP, if_pos rfl]
    ring
  | succ j =>
    have h1 := inc_ab hh (xi := xi) hne ha 0
    have h2 := inc_ab hh (xi := xi) (j := j) (fun i hi => hne i (by omega)) (fun i hi => ha i (by omega)) 0
    rw [pow_zero, one_mul] at h1 h2
    rw [bP, if_neg (by omega), inc_sub, show j + 1 - 1 = j by omega, h1, h2, diffP, if_neg (by omega),
      show j + 1 - 1 = j by omega]
    ring

theorem natDegree_bP (X0 : ℕ → K) (t' : K) (j : ℕ) : (bP X0 t' j).natDegree ≤ j := by
  rw [bP]
  split
  · rename_i h; subst h; exact natDegree_abP _ _ _
  · exact (natDegree_sub_le _ _).trans (max_le (natDegree_abP _ _ _) ((natDegree_abP _ _ _).trans (by omega)))

theorem natDegree_pint {p : K[X]} {n : ℕ} (h : p.natDegree ≤ n) : (pint p).natDegree ≤ n + 1 := by
  rw [natDegree_le_iff_coeff_eq_zero]
  intro N hN
  rw [pint, finsetSum_coeff]
  refine Finset.sum_eq_zero fun i _ => ?_
  rw [coeff_C_mul, coeff_X_pow]
  by_cases hc : N = i + 1
  · rw [coeff_eq_zero_of_natDegree_lt (by omega)]; simp
  · rw [if_neg hc, mul_zero]

/-- The interpolant of a regular step seen through a linear functional. -/
theorem dense_poly {c : SwCfg K V} (ok : SwOK c) {s s' : SwSt K V} {l : SwLoc K V} (R : SwRegular c s s' l) (f : V →ₗ[K] K) :
    ∃ D : K[X], D.natDegree ≤ s'.kold + 2 ∧ (∀ x, f (swOutput s.t s' x) = D.eval x) ∧
      D.eval s.t = f s.y ∧ D.eval s'.t = f s'.y ∧
      ∀ m ≤ s'.kold, (derivative D).eval (hx s'.hist m) = f (hf s'.hist m) := by
  obtain ⟨a1, a2, a3, a4, a5, a6⟩ := accept_hist R.eq
  have hnow := R.mesh.now
  have hk1 := R.att.loc.k1
  have hne := R.ne
  have hn : ∀ i < l.k, s.t + l.h - hx s.hist i ≠ 0 := fun i hi => by
    have := ne_of_dir (R.att.ne i hi); rwa [hnow] at this
  set r := swTry c s.t s.y s.hold s.kold l with hrdef
  have halpha : ∀ i < l.k, r.co.alpha i = l.h / (s.t + l.h - hx s.hist i) := fun i hi => by
    rw [hrdef, R.att.spec.alpha i hi, hnow]
  have hpos : 0 < c.dir * l.h := by
    have := R.att.ne 0 (by omega)
    rwa [add_sub_cancel_left] at this
  have hunit : ∀ i < l.k, 0 ≤ r.co.alpha i ∧ r.co.alpha i ≤ 1 := by
    intro i hi
    have h1 := R.att.ne i hi
    rw [hnow] at h1
    have hdd : c.dir * c.dir = 1 := by rcases ok.dir with h | h <;> rw [h] <;> norm_num
    have hd0 : c.dir ≠ 0 := by rcases ok.dir with h | h <;> rw [h] <;> norm_num
    have e1 : r.co.alpha i = (c.dir * l.h) / (c.dir * (s.t + l.h - hx s.hist i)) := by
      rw [halpha i hi, mul_div_mul_left _ _ hd0]
    have h2 : c.dir * l.h ≤ c.dir * (s.t + l.h - hx s.hist i) := by
      have e2 : c.dir * (s.t + l.h - hx s.hist i) = c.dir * l.h + c.dir * (s.t - hx s.hist i) := by ring
      rw [e2]
      rcases Nat.eq_zero_or_pos i with h0 | h0
      · rw [h0, hnow, sub_self, mul_zero, add_zero]
      · have hlt := R.strict.lt h0 (by have := R.mesh.len; have := R.att.loc.kM; omega)
        rw [hnow] at hlt
        linarith
    rw [e1]
    exact ⟨div_nonneg hpos.le h1.le, (div_le_one h1).mpr h2⟩
  obtain ⟨e, ci, rel⟩ := try_coef R.inv R.ok
  have hgdi : swGdi r.co l.k = genG r.co.alpha l.k 1 := gdi_spec ci rel hk1
  have hgpos : 0 < genG r.co.alpha l.k 1 := genG_pos hunit 1
  have ha0 : r.co.alpha 0 = 1 := by
    rw [halpha 0 (by omega), hnow, add_sub_cancel_left, div_self hne]
  have hX : hx s'.hist = consX (s.t + l.h) (hx s.hist) := by rw [a1, hx_cons, a2]
  -- the polynomials
  set Q : K[X] := ∑ j ∈ range (l.k + 1), C (f (s'.phi j)) * bP (hx s.hist) (s.t + l.h) j with hQ
  set S : K[X] := (C (s.t + l.h) - X) * abP (hx s.hist) (s.t + l.h) l.k with hS
  have hQev : ∀ x, Q.eval x = ∑ j ∈ range (l.k + 1), nb (consX (s.t + l.h) (hx s.hist)) j x * f (s'.phi j) := by
    intro x
    rw [hQ, eval_finsetSum]
    refine Finset.sum_congr rfl fun j hj => ?_
    have := Finset.mem_range.mp hj
    rw [eval_mul, eval_C, eval_bP (fun i hi => hn i (by omega))]
    ring
  have hSev : ∀ x, S.eval x = (s.t + l.h - x) * ab (hx s.hist) (s.t + l.h) l.k x := by
    intro x
    rw [hS, eval_mul, eval_sub, eval_C, eval_X, eval_abP]
  have hQinc : ∀ xi, inc Q s.t (s.t + xi * l.h) = l.h * ∑ j ∈ range (l.k + 1),
      diffP (fun i => genW r.co.alpha xi i 0) j * f (s'.phi j) := by
    intro xi
    rw [hQ, inc_sum, Finset.mul_sum]
    refine Finset.sum_congr rfl fun j hj => ?_
    have := Finset.mem_range.mp hj
    rw [inc_C_mul, inc_bP hne (fun i hi => hn i (by omega)) (fun i hi => halpha i (by omega))]
    ring
  have hSinc : ∀ xi, inc S s.t (s.t + xi * l.h)
      = l.h ^ 2 * (genW r.co.alpha xi l.k 1 - (xi - 1) * genW r.co.alpha xi l.k 0) := by
    intro xi
    have h0 := inc_ab hne (xi := xi) hn halpha 0
    have h1 := inc_ab hne (xi := xi) hn halpha 1
    rw [pow_zero, one_mul] at h0
    rw [pow_one] at h1
    have e1 : S = (C (s.t + xi * l.h) - X) * abP (hx s.hist) (s.t + l.h) l.k
        + C ((1 - xi) * l.h) * abP (hx s.hist) (s.t + l.h) l.k := by
      rw [hS]
      have : (C (s.t + l.h) : K[X]) = C (s.t + xi * l.h) + C ((1 - xi) * l.h) := by rw [← C_add]; congr 1; ring
      rw [this]; ring
    rw [e1, inc_add, inc_C_mul, h0, h1]
    ring
  set E := (f s'.y - f s.y - inc Q s.t (s.t + l.h)) / (l.h ^ 2 * genG r.co.alpha l.k 1) with hE
  have hgne : l.h ^ 2 * genG r.co.alpha l.k 1 ≠ 0 := mul_ne_zero (pow_ne_zero 2 hne) hgpos.ne'
  refine ⟨C (f s.y - (pint Q).eval s.t - E * (pint S).eval s.t) + (pint Q + C E * pint S), ?_, ?_, ?_, ?_, ?_⟩
  · rw [a6]
    refine (natDegree_add_le _ _).trans (max_le (by rw [natDegree_C]; omega) ((natDegree_add_le _ _).trans (max_le ?_ ?_)))
    · have : Q.natDegree ≤ l.k := by
        rw [hQ]
        refine natDegree_sum_le_of_forall_le _ _ fun j hj => ?_
        have := Finset.mem_range.mp hj
        exact (natDegree_C_mul_le _ _).trans ((natDegree_bP _ _ _).trans (by omega))
      exact (natDegree_pint this).trans (by omega)
    · have : S.natDegree ≤ l.k + 1 := by
        rw [hS]
        refine natDegree_mul_le.trans ?_
        have h1 : (C (s.t + l.h) - X : K[X]).natDegree ≤ 1 :=
          (natDegree_sub_le _ _).trans (max_le (by simp) natDegree_X_le)
        have h2 := natDegree_abP (hx s.hist) (s.t + l.h) l.k
        omega
      exact (natDegree_C_mul_le _ _).trans (natDegree_pint this)
  · intro x
    have hk0 : s'.kold ≠ 0 := by rw [a6]; omega
    have hxi : x = s.t + (x - s.t) / l.h * l.h := by field_simp; ring
    obtain ⟨w1, w2⟩ := denseWG_spec ha0 hk1 ((x - s.t) / l.h)
    have hstep : s'.t - s.t = l.h := by rw [a2]; ring
    rw [swOutput, if_pos hk0, swDense]
    rw [hstep, a4, a5, a6, hgdi]
    set xi := (x - s.t) / l.h with hxidef
    have hsig : swSigma r.co.alpha l.k (genG r.co.alpha l.k 1) xi
        = inc S s.t x / (l.h ^ 2 * genG r.co.alpha l.k 1) := by
      rw [swSigma, w1 1 le_rfl, w1 0 (by omega), hxi, hSinc xi]
      have := hgpos.ne'
      field_simp
    set sg := swSigma r.co.alpha l.k (genG r.co.alpha l.k 1) xi with hsg
    have hd1 : ∀ j ∈ range (l.k + 1), diffP (denseWG r.co.alpha l.k xi).2 j
        = diffP (fun i => genW r.co.alpha xi i 0) j := by
      intro j hj
      have := Finset.mem_range.mp hj
      simp only [diffP]
      rw [w2 j (by omega), w2 (j - 1) (by omega)]
      by_cases h0 : j = 0
      · subst h0; rw [if_pos rfl, if_pos rfl, w2 0 (by omega)]
      · rw [if_neg h0, if_neg h0]
    have hd2 : ∀ j ∈ range (l.k + 1), diffP r.co.g j = diffP (fun i => genW r.co.alpha 1 i 0) j := by
      intro j hj
      have := Finset.mem_range.mp hj
      have hg : ∀ i ≤ l.k, r.co.g i = genW r.co.alpha 1 i 0 := fun i hi => by
        rw [hrdef, R.att.spec.g i hi, genW_one]
      simp only [diffP]
      by_cases h0 : j = 0
      · subst h0; rw [if_pos rfl, if_pos rfl, hg 0 (by omega)]
      · rw [if_neg h0, if_neg h0, hg j (by omega), hg (j - 1) (by omega)]
    have hs1 : f (∑ j ∈ range (l.k + 1), (diffP (denseWG r.co.alpha l.k xi).2 j - sg * diffP r.co.g j) • s'.phi j)
        = (∑ j ∈ range (l.k + 1), diffP (fun i => genW r.co.alpha xi i 0) j * f (s'.phi j))
          - sg * ∑ j ∈ range (l.k + 1), diffP (fun i => genW r.co.alpha 1 i 0) j * f (s'.phi j) := by
      rw [map_sum, Finset.mul_sum, ← Finset.sum_sub_distrib]
      refine Finset.sum_congr rfl fun j hj => ?_
      rw [map_smul, hd1 j hj, hd2 j hj, smul_eq_mul]
      ring
    have hq1 := hQinc xi
    have hq2 := hQinc 1
    rw [← hxi] at hq1
    rw [one_mul] at hq2
    have hsg2 : sg * (l.h ^ 2 * genG r.co.alpha l.k 1) = inc S s.t x := by
      rw [hsig]; field_simp
    have hE2 : E * (l.h ^ 2 * genG r.co.alpha l.k 1) = f s'.y - f s.y - inc Q s.t (s.t + l.h) := by
      rw [hE]; field_simp
    have hEs : E * inc S s.t x = sg * (f s'.y - f s.y - inc Q s.t (s.t + l.h)) := by
      rw [← hsg2, ← hE2]; ring
    rw [map_add, map_smul, map_add, map_smul, map_smul, hs1]
    simp only [eval_add, eval_C, eval_mul, smul_eq_mul]
    have i1 : inc Q s.t x = (pint Q).eval x - (pint Q).eval s.t := rfl
    have i2 : inc S s.t x = (pint S).eval x - (pint S).eval s.t := rfl
    rw [hq2] at hEs
    linear_combination -hq1 - hEs + i1 + E * i2
  · simp only [eval_add, eval_C, eval_mul]
    ring
  · rw [a2]
    have i1 : inc Q s.t (s.t + l.h) = (pint Q).eval (s.t + l.h) - (pint Q).eval s.t := rfl
    have i2 : inc S s.t (s.t + l.h) = (pint S).eval (s.t + l.h) - (pint S).eval s.t := rfl
    have hS1 := hSinc 1
    rw [one_mul, genW_one, genW_one] at hS1
    have hE2 : E * (l.h ^ 2 * genG r.co.alpha l.k 1) = f s'.y - f s.y - inc Q s.t (s.t + l.h) := by
      rw [hE]; field_simp
    simp only [eval_add, eval_C, eval_mul]
    linear_combination -i1 - E * i2 + E * hS1 + hE2
  · intro m hm
    rw [a6] at hm
    rw [derivative_add, derivative_C, zero_add, derivative_add, derivative_C_mul, derivative_pint, derivative_pint,
      eval_add, eval_mul, eval_C]
    have h1 : S.eval (hx s'.hist m) = 0 := by
      rw [hX, hSev]
      cases m with
      | zero => simp [consX]
      | succ m => simp only [consX]; rw [ab_eq_zero (by omega), mul_zero]
    have h2 := R.mesh'.phi m (by rw [a6]; exact hm)
    rw [a6] at h2
    rw [h1, mul_zero, add_zero, hQev, h2, map_sum, ← hX]
    refine Finset.sum_congr rfl fun j _ => ?_
    rw [map_smul, smul_eq_mul]

/-- **C48.** The dense output of a regular step of order `k` is, through every linear functional, a polynomial of
degree at most `k + 2`, with the old solution at the start and the new solution at the end of the step, whose
derivative takes the stored values of the right-hand side in the last `k + 1` points, among them both ends. -/
theorem C48_polynomial {c : SwCfg K V} (ok : SwOK c) {t0 : K} {y0 yp0 : V} {h0 : K}
    {wt0 : V → ENorm K} {phi0 : ℕ → V} {co0 : Coef K} {nfev : ℕ} (hh : 0 < c.dir * h0)
    (hb : ∀ b, c.tb = some b → 0 ≤ c.dir * (b - t0)) {v v' : SwSolver K V} {fuel : ℕ}
    (hr : SwReach c (newSwag t0 y0 yp0 h0 wt0 phi0 co0 nfev) v) (hs : v.status = .running)
    (hb0 : c.tb ≠ some v.st.t) (h : swStep c fuel v = some (.ok, v')) (hk : v'.st.kold ≠ 0)
    (hd : Distinct v'.st) (f : V →ₗ[K] K) :
    ∃ D : K[X], D.natDegree ≤ v'.st.kold + 2 ∧ (∀ x, f (swOutput v.st.t v'.st x) = D.eval x) ∧
      D.eval v.st.t = f v.st.y ∧ D.eval v'.st.t = f v'.st.y ∧
      ∀ m ≤ v'.st.kold, (derivative D).eval (hx v'.st.hist m) = f (hf v'.st.hist m) := by
  obtain ⟨l, R⟩ := regular ok hh hb hr hs hb0 h hk hd
  exact dense_poly ok R f

theorem eq_of_functionals {x y : V} (h : ∀ f : V →ₗ[K] K, f x = f y) : x = y := by
  rw [← sub_eq_zero, ← Module.forall_dual_apply_eq_zero_iff K]
  intro f
  rw [map_sub, h f, sub_self]

/-- **C48.** The dense output returns the old solution at the start of the step and the new one at its end. -/
theorem C48_ends {c : SwCfg K V} (ok : SwOK c) {t0 : K} {y0 yp0 : V} {h0 : K}
    {wt0 : V → ENorm K} {phi0 : ℕ → V} {co0 : Coef K} {nfev : ℕ} (hh : 0 < c.dir * h0)
    (hb : ∀ b, c.tb = some b → 0 ≤ c.dir * (b - t0)) {v v' : SwSolver K V} {fuel : ℕ}
    (hr : SwReach c (newSwag t0 y0 yp0 h0 wt0 phi0 co0 nfev) v) (hs : v.status = .running)
    (hb0 : c.tb ≠ some v.st.t) (h : swStep c fuel v = some (.ok, v')) (hk : v'.st.kold ≠ 0)
    (hd : Distinct v'.st) :
    swOutput v.st.t v'.st v.st.t = v.st.y ∧ swOutput v.st.t v'.st v'.st.t = v'.st.y := by
  refine ⟨eq_of_functionals (K := K) fun f => ?_, eq_of_functionals (K := K) fun f => ?_⟩
  · obtain ⟨D, _, d2, d3, _⟩ := C48_polynomial ok hh hb hr hs hb0 h hk hd f
    rw [d2, d3]
  · obtain ⟨D, _, d2, _, d4, _⟩ := C48_polynomial ok hh hb hr hs hb0 h hk hd f
    rw [d2, d4]

/-- The stored derivative of a running solver is that of the right-hand side. -/
theorem SwReach.fn {c : SwCfg K V} {v0 v : SwSolver K V}
    (h0 : v0.st.yp = c.fn v0.st.t v0.st.y ∧ hf v0.st.hist 0 = v0.st.yp) (hr : SwReach c v0 v)
    (hs : v.status = .running) : v.st.yp = c.fn v.st.t v.st.y ∧ hf v.st.hist 0 = v.st.yp := by
  induction hr with
  | refl => exact h0
  | @tail v1 v2 o fuel hr1 hstep ih =>
    rcases swStep_cases hstep with ⟨_, _, e⟩ | ⟨_, _, _, e⟩ | ⟨r, hb', s', hi, eo, e⟩ | ⟨_, _, _, s', _, e⟩
    · subst e; exact ih hs
    · rw [e] at hs; cases hs
    · rcases swStepImpl_min hi with ⟨b, hb, _, e'⟩ | ⟨l, hl, hmn, _, he, e'⟩
      · exfalso
        rw [e] at hs
        have : s'.t = b := by rw [e']; rfl
        simp only [swReached, hb, this, sub_self, mul_zero, le_refl, decide_true, if_true] at hs
        cases hs
      · obtain ⟨a1, a2, a3, _⟩ := accept_hist e'
        rw [e]
        refine ⟨a3, ?_⟩
        simp only
        rw [a1]; rfl
    · rw [e] at hs; cases hs

/-- **C48.** The derivatives of the dense output at the two ends of a regular step are those of the right-hand side
there: the pieces of the solution join with a continuous derivative. -/
theorem C48_slopes {c : SwCfg K V} (ok : SwOK c) {t0 : K} {y0 : V} {h0 : K}
    {wt0 : V → ENorm K} {phi0 : ℕ → V} {co0 : Coef K} {nfev : ℕ} (hh : 0 < c.dir * h0)
    (hb : ∀ b, c.tb = some b → 0 ≤ c.dir * (b - t0)) {v v' : SwSolver K V} {fuel : ℕ}
    (hr : SwReach c (newSwag t0 y0 (c.fn t0 y0) h0 wt0 phi0 co0 nfev) v) (hs : v.status = .running)
    (hb0 : c.tb ≠ some v.st.t) (h : swStep c fuel v = some (.ok, v')) (hk : v'.st.kold ≠ 0)
    (hd : Distinct v'.st) (f : V →ₗ[K] K) :
    ∃ D : K[X], (∀ x, f (swOutput v.st.t v'.st x) = D.eval x) ∧
      (derivative D).eval v.st.t = f (c.fn v.st.t v.st.y) ∧
      (derivative D).eval v'.st.t = f (c.fn v'.st.t v'.st.y) := by
  obtain ⟨D, _, d2, _, _, d5⟩ := C48_polynomial ok hh hb hr hs hb0 h hk hd f
  obtain ⟨l, R⟩ := regular ok hh hb hr hs hb0 h hk hd
  obtain ⟨g1, g2⟩ := hr.fn ⟨rfl, rfl⟩ hs
  obtain ⟨a1, a2, a3, _⟩ := accept_hist R.eq
  refine ⟨D, d2, ?_, ?_⟩
  · have := d5 1 (by omega)
    rw [a1, hx_succ, hf_succ, R.mesh.now, g2, g1] at this
    exact this
  · have := d5 0 (by omega)
    rw [a1, hx_zero, hf_zero, a3] at this
    exact this

/-- **C48.** The dense output of the extrapolated last step is the straight line from the old solution along the
derivative there, and returns both end points. -/
theorem C48_extrapolated {c : SwCfg K V} {t0 : K} {y0 : V} {h0 : K}
    {wt0 : V → ENorm K} {phi0 : ℕ → V} {co0 : Coef K} {nfev : ℕ} {v v' : SwSolver K V} {fuel : ℕ}
    (hr : SwReach c (newSwag t0 y0 (c.fn t0 y0) h0 wt0 phi0 co0 nfev) v) (hs : v.status = .running)
    (hM : 1 ≤ c.kMax) (hb0 : c.tb ≠ some v.st.t) (h : swStep c fuel v = some (.ok, v')) (hk : v'.st.kold = 0) :
    c.tb = some v'.st.t ∧ (∀ x, swOutput v.st.t v'.st x = v.st.y + (x - v.st.t) • c.fn v.st.t v.st.y) ∧
    swOutput v.st.t v'.st v.st.t = v.st.y ∧ swOutput v.st.t v'.st v'.st.t = v'.st.y := by
  have hinv := hr.inv (new_inv c hM _ _ _ _ _ _ _ _) hs
  obtain ⟨g1, _⟩ := hr.fn ⟨rfl, rfl⟩ hs
  rcases step_hist hs hb0 h with ⟨b, hb, e⟩ | ⟨l, hl, _, _, e⟩
  · obtain ⟨e1, e2, e3, e4, e5, e6, e7, e8, e9, e10, e11, e12, e13, e14, e15, e16⟩ := swStiff_same c v.st
    have ht : v'.st.t = b := by rw [e]; rfl
    have hy : v'.st.y = v.st.y + (b - v.st.t) • v.st.yp := by
      rw [e]
      show (swStiff c v.st).y + (b - (swStiff c v.st).t) • (swStiff c v.st).yp = _
      rw [e1, e2, e3]
    have ho : v'.st.yOld = v.st.y := by rw [e]; exact e16
    have hne : b - v.st.t ≠ 0 := fun hc => hb0 (by rw [hb, sub_eq_zero.mp hc])
    have hall : ∀ x, swOutput v.st.t v'.st x = v.st.y + (x - v.st.t) • c.fn v.st.t v.st.y := by
      intro x
      rw [swOutput, if_neg (by rw [hk]; simp), linDense, ho, ht, hy, add_sub_cancel_left, smul_smul,
        div_mul_cancel₀ _ hne, ← g1, add_comm]
    refine ⟨by rw [hb, ht], hall, ?_, ?_⟩
    · rw [hall, sub_self, zero_smul, add_zero]
    · rw [hall, ht, hy, g1]
  · obtain ⟨_, _, _, _, _, a6⟩ := accept_hist e
    have := (hl.ok hinv).k1
    omega

end
end Extensisq
