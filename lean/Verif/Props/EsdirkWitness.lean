import Verif.Props.EsdirkStage
import Verif.Model.EsdirkTables

/-!
# Concrete ESDIRK solvers: non-vacuity and witnesses for C34-C40, C64

`TRX2` (rational coefficients) for scalar problems over the rationals.
-/

set_option maxRecDepth 100000

namespace Extensisq
open Finset

/-- Multiplication by a number as a linear map. -/
def scal (a : ℚ) : ℚ →ₗ[ℚ] ℚ where
  toFun x := a * x
  map_add' x y := by ring
  map_smul' m x := by simp only [smul_eq_mul, RingHom.id_apply]; ring

/-- Fixed fields of an example solver for `y' = fn(t, y)` with unit mass. -/
def exE (fn : ℚ → ℚ → Option ℚ) (jac : Option (ℕ → ℚ → ℚ → (ℚ →ₗ[ℚ] ℚ))) (errNorm : ℚ → ℚ → ℚ → ENorm ℚ)
    (tb : Option ℚ) (dir : ℚ) (maxStep : Option ℚ) : ECfg ℚ ℚ where
  T := TRX2.tab ℚ 0
  fn := fn
  jac := jac
  jacEach := false
  M := scal 1
  dae := false
  lin := fun _ F b => b / (1 - F.h * (1 / 4) * F.J 1)
  dzNorm := fun y yp v => |v| / (1 / 1000 + 1 / 1000 * max |y| |yp|)
  errNorm := errNorm
  tb := tb
  dir := dir
  maxStep := maxStep
  hMinA := 1 / 10 ^ 14
  hMinB := 1 / 10 ^ 100
  tinyErr := 1 / 10 ^ 100
  minFactor := 1 / 5
  errExp := -1 / 3
  minbeta1 := -2 / 3
  minbeta2 := 1 / 3
  minalpha := 1
  safety := 8 / 10
  safetySc := 8 / 10
  pw := pwInv

theorem exE_ok (fn : ℚ → ℚ → Option ℚ) (jac : Option (ℕ → ℚ → ℚ → (ℚ →ₗ[ℚ] ℚ)))
    (errNorm : ℚ → ℚ → ℚ → ENorm ℚ) (tb : Option ℚ) {dir : ℚ} (hd : dir = 1 ∨ dir = -1) (maxStep : Option ℚ)
    (hm : ∀ m, maxStep = some m → 0 < m) : ECfgOK (exE fn jac errNorm tb dir maxStep) where
  dir := hd
  hMinA := by norm_num [exE]
  hMinB := by norm_num [exE]
  tiny := by norm_num [exE]
  minF0 := by norm_num [exE]
  minF1 := by norm_num [exE]
  errExp := by norm_num [exE]
  safety0 := by norm_num [exE]
  safety1 := by norm_num [exE]
  safetySc := by norm_num [exE]
  pw := PowOK.inv
  maxStep := hm

/-- The constructor's assertions hold for TRX2. -/
theorem TRX2_ok : ETabOK (TRX2.tab ℚ 0) := by
  refine ⟨by decide, ?_, ?_, by decide +kernel⟩
  · have : ∀ s < 3, 1 ≤ s → (TRX2.tab ℚ 0).A s s = (TRX2.tab ℚ 0).d := by decide +kernel
    exact fun s h1 h2 => this s h2 h1
  · have : ∀ j < 3, (TRX2.tab ℚ 0).A 2 j = (TRX2.tab ℚ 0).B j := by decide +kernel
    exact this

/-- Error norm of the example. -/
def exErr (y yNew e : ℚ) : ENorm ℚ := .num (|e| / (1 / 100 + 1 / 100 * max |y| |yNew|))

/-- `y' = -y`, constant Jacobian (linear mode). -/
def exLin : ECfg ℚ ℚ := exE (fun _ y => some (-y)) none exErr (some 1) 1 none

/-- `y' = -y^2` with Jacobian function. -/
def exNon : ECfg ℚ ℚ := exE (fun _ y => some (-(y * y))) (some fun _ _ y => scal (-2 * y)) exErr (some 1) 1 none

def exLinStart : ESolver ℚ ℚ := newESolver 0 1 (-1) (scal (-1)) (1 / 2) (fun _ => 0) 1 0
def exNonStart : ESolver ℚ ℚ := newESolver 0 1 (-1) (scal (-2)) (1 / 2) (fun _ => 0) 1 1

theorem exLinStart_new : IsNew exLinStart 0 1 (-1) (scal (-1)) := ⟨_, _, _, _, by norm_num, rfl⟩
theorem exNonStart_new : IsNew exNonStart 0 1 (-1) (scal (-2)) := ⟨_, _, _, _, by norm_num, rfl⟩

theorem exLin_ok : ECfgOK exLin := exE_ok _ _ _ _ (Or.inl rfl) _ (by intro m h; cases h)
theorem exNon_ok : ECfgOK exNon := exE_ok _ _ _ _ (Or.inl rfl) _ (by intro m h; cases h)

theorem ratLin (f : ℚ →ₗ[ℚ] ℚ) (x : ℚ) : f x = f 1 * x := by
  have := f.map_smul x 1
  simp only [smul_eq_mul, mul_one] at this
  rw [this]; ring

/-- The linear solver of the example solves the regular systems. -/
theorem exE_solves (fn : ℚ → ℚ → Option ℚ) (jac : Option (ℕ → ℚ → ℚ → (ℚ →ₗ[ℚ] ℚ)))
    (errNorm : ℚ → ℚ → ℚ → ENorm ℚ) (tb : Option ℚ) (dir : ℚ) (maxStep : Option ℚ) :
    LinSolves (exE fn jac errNorm tb dir maxStep) := by
  intro F hreg b
  have hd : (exE fn jac errNorm tb dir maxStep).T.d = 1 / 4 := by
    show (TRX2.tab ℚ 0).d = _; decide +kernel
  unfold Regular at hreg
  rw [hd] at hreg ⊢
  obtain ⟨x, hx⟩ := hreg 1
  simp only [exE, scal, LinearMap.coe_mk, AddHom.coe_mk, smul_eq_mul, one_mul] at hx ⊢
  rw [ratLin F.J x] at hx
  rw [ratLin F.J (b / _)]
  have hne : 1 - F.h * (1 / 4) * F.J 1 ≠ 0 := by
    intro h0
    have : (1 - F.h * (1 / 4) * F.J 1) * x = 1 := by linear_combination hx
    rw [h0] at this; simp at this
  generalize F.J 1 = q at *
  rw [show b / (1 - F.h * (1 / 4) * q) - F.h * (1 / 4) * (q * (b / (1 - F.h * (1 / 4) * q))) =
    (1 - F.h * (1 / 4) * q) * (b / (1 - F.h * (1 / 4) * q)) by ring, mul_div_cancel₀ _ hne]

theorem exLin_solves : LinSolves exLin := exE_solves _ _ _ _ _ _
theorem exNon_solves : LinSolves exNon := exE_solves _ _ _ _ _ _

/-- Matrices with a non-positive Jacobian and a positive step are regular. -/
theorem exE_regular (fn : ℚ → ℚ → Option ℚ) (jac : Option (ℕ → ℚ → ℚ → (ℚ →ₗ[ℚ] ℚ)))
    (errNorm : ℚ → ℚ → ℚ → ENorm ℚ) (tb : Option ℚ) (dir : ℚ) (maxStep : Option ℚ) {h : ℚ} {J : ℚ →ₗ[ℚ] ℚ}
    (hh : 0 < h) (hJ : J 1 ≤ 0) : Regular (exE fn jac errNorm tb dir maxStep) h J := by
  intro b
  have hd : (exE fn jac errNorm tb dir maxStep).T.d = 1 / 4 := by
    show (TRX2.tab ℚ 0).d = _; decide +kernel
  have hne : 1 - h * (1 / 4) * J 1 ≠ 0 := by nlinarith
  refine ⟨b / (1 - h * (1 / 4) * J 1), ?_⟩
  dsimp only
  rw [hd]
  simp only [exE, scal, LinearMap.coe_mk, AddHom.coe_mk, smul_eq_mul, one_mul]
  rw [ratLin J (b / _)]
  generalize J 1 = q at *
  rw [show b / (1 - h * (1 / 4) * q) - h * (1 / 4) * (q * (b / (1 - h * (1 / 4) * q))) =
    (1 - h * (1 / 4) * q) * (b / (1 - h * (1 / 4) * q)) by ring, mul_div_cancel₀ _ hne]

/-- A step in linear mode: accepted, no Jacobian evaluation, one evaluation of `fun` per implicit stage. -/
example : ((eStep exLin 5 exLinStart).map fun p => (p.1, p.2.st.t, p.2.st.nfev, p.2.st.njev, p.2.st.nlu, p.2.status)) =
    some (.ok, 1 / 2, 3, 0, 1, .running) := by decide +kernel

/-- The matrix recorded after that step is regular (hypothesis of C36, C38, C40). -/
example : ∀ p, eStep exLin 5 exLinStart = some p → RegularAt exLin p.2.st := by
  have h1 : ((eStep exLin 5 exLinStart).map fun p => (p.2.st.hLU, p.2.st.J 1)) = some (some (1 / 2), -1) := by
    decide +kernel
  intro p hp h hh
  rw [hp] at h1
  simp only [Option.map_some, Option.some.injEq, Prod.mk.injEq] at h1
  rw [h1.1] at hh
  cases hh
  exact exE_regular _ _ _ _ _ _ (by norm_num) (by rw [h1.2]; norm_num)

/-- A nonlinear problem: accepted after Newton iterations in both implicit stages; the Jacobian is reused. -/
example : ((eStep exNon 5 exNonStart).map fun p =>
    (p.1, p.2.st.t, decide (3 < p.2.st.nfev), p.2.st.njev, p.2.st.nlu, p.2.status)) =
    some (.ok, 1 / 2, true, 1, 1, .running) := by decide +kernel

/-- Two attempts: with the long step `8` the error is too large, the step is shortened. -/
example : ((eStep { exNon with tb := some 100 } 9
      { exNonStart with st := { exNonStart.st with hAbs := 8 } }).map fun p =>
    (p.1, decide (p.2.st.t < 8), decide (0 < p.2.st.t), decide (0 < p.2.st.nfs + p.2.st.nfi))) =
    some (.ok, true, true, true) := by decide +kernel

/-- **C34** (sharp): `max_step = 1`, end of the interval at `1.005`: a single step of `1.005` is taken. -/
example : ((eStep { exLin with tb := some (1005 / 1000), maxStep := some 1 } 5
      { exLinStart with st := { exLinStart.st with hAbs := 1 } }).map fun p => (p.1, p.2.st.t, p.2.status)) =
    some (.ok, 1005 / 1000, .finished) := by decide +kernel

/-- **C64** (the exception that remains): an error norm of `nan` raises from the linear algebra. -/
example : ((eStep { exLin with errNorm := fun _ _ _ => .nan } 5 exLinStart).map fun p => (p.1, p.2.st.t)) =
    some (.exc .nanErr, 0) := by decide +kernel

/-- **C34**: `fun` that is never finite away from the start makes the step fail with the message, after the
step size has been reduced to its minimum; the solution is kept. -/
example : ((eStep { exNon with fn := fun t y => if t = 0 then some (-(y * y)) else none, hMinB := 1 / 100 } 20
      exNonStart).map fun p => (p.1, p.2.st.t, p.2.st.y, p.2.status)) =
    some (.tooSmall, 0, 1, .failed) := by decide +kernel

/-! ### A differential-algebraic example: `u' = -v`, `0 = u - v` -/

/-- Mass matrix `diag(1, 0)`. -/
def exM : (ℚ × ℚ) →ₗ[ℚ] (ℚ × ℚ) where
  toFun x := (x.1, 0)
  map_add' x y := by simp
  map_smul' m x := by simp

def exDJ : (ℚ × ℚ) →ₗ[ℚ] (ℚ × ℚ) where
  toFun x := (-x.2, x.1 - x.2)
  map_add' x y := by ext <;> simp <;> ring
  map_smul' m x := by ext <;> simp; ring

/-- Cramer's rule for `(M - a J) x = b`, with entries of `J`. -/
def cramer (a p q r s : ℚ) (b : ℚ × ℚ) : ℚ × ℚ :=
  let det := (1 - a * p) * (-(a * s)) - (-(a * q)) * (-(a * r))
  ((b.1 * (-(a * s)) - (-(a * q)) * b.2) / det, ((1 - a * p) * b.2 - b.1 * (-(a * r))) / det)

def exDae : ECfg ℚ (ℚ × ℚ) where
  T := TRX2.tab ℚ 0
  fn := fun _ x => some (-x.2, x.1 - x.2)
  jac := none
  jacEach := false
  M := exM
  dae := true
  lin := fun sc F b => if sc = some F.h then
    cramer (F.h * (1 / 4)) (F.J (1, 0)).1 (F.J (0, 1)).1 (F.J (1, 0)).2 (F.J (0, 1)).2 b else b
  dzNorm := fun _ _ v => |v.1| + |v.2|
  errNorm := fun _ _ e => .num (100 * (|e.1| + |e.2|))
  tb := some 1
  dir := 1
  maxStep := none
  hMinA := 1 / 10 ^ 14
  hMinB := 1 / 10 ^ 100
  tinyErr := 1 / 10 ^ 100
  minFactor := 1 / 5
  errExp := -1 / 3
  minbeta1 := -2 / 3
  minbeta2 := 1 / 3
  minalpha := 1
  safety := 8 / 10
  safetySc := 8 / 10
  pw := pwInv

theorem exDae_ok : ECfgOK exDae where
  dir := Or.inl rfl
  hMinA := by norm_num [exDae]
  hMinB := by norm_num [exDae]
  tiny := by norm_num [exDae]
  minF0 := by norm_num [exDae]
  minF1 := by norm_num [exDae]
  errExp := by norm_num [exDae]
  safety0 := by norm_num [exDae]
  safety1 := by norm_num [exDae]
  safetySc := by norm_num [exDae]
  pw := PowOK.inv
  maxStep := by intro m h; cases h

theorem pairLin (f : (ℚ × ℚ) →ₗ[ℚ] (ℚ × ℚ)) (x : ℚ × ℚ) :
    f x = ((f (1, 0)).1 * x.1 + (f (0, 1)).1 * x.2, (f (1, 0)).2 * x.1 + (f (0, 1)).2 * x.2) := by
  have h : x = x.1 • ((1, 0) : ℚ × ℚ) + x.2 • ((0, 1) : ℚ × ℚ) := by ext <;> simp
  conv_lhs => rw [h, map_add, map_smul, map_smul]
  ext <;> simp <;> ring

theorem exDae_solves : LinSolves exDae := by
  intro F hreg b
  have hd : exDae.T.d = 1 / 4 := by show (TRX2.tab ℚ 0).d = _; decide +kernel
  unfold Regular at hreg
  rw [hd] at hreg ⊢
  obtain ⟨x, hx⟩ := hreg (1, 0)
  obtain ⟨y, hy⟩ := hreg (0, 1)
  dsimp only at hx hy
  rw [pairLin F.J] at hx hy
  have hl : exDae.lin (if exDae.dae then some F.h else none) F b =
    cramer (F.h * (1 / 4)) (F.J (1, 0)).1 (F.J (0, 1)).1 (F.J (1, 0)).2 (F.J (0, 1)).2 b := by simp [exDae]
  rw [hl, pairLin F.J (cramer _ _ _ _ _ _)]
  generalize (F.J (1, 0)).1 = p at *
  generalize (F.J (0, 1)).1 = q at *
  generalize (F.J (1, 0)).2 = r at *
  generalize (F.J (0, 1)).2 = s at *
  generalize F.h * (1 / 4) = a at *
  simp only [exDae, exM, LinearMap.coe_mk, AddHom.coe_mk, Prod.smul_mk, smul_eq_mul, Prod.mk_sub_mk, Prod.mk.injEq]
    at hx hy
  have hdet : (1 - a * p) * (-(a * s)) - (-(a * q)) * (-(a * r)) ≠ 0 := by
    intro h0
    have : ((1 - a * p) * (-(a * s)) - (-(a * q)) * (-(a * r))) * (x.1 * y.2 - x.2 * y.1) = 1 := by
      linear_combination (x.1 * -(a * r) + x.2 * -(a * s)) * (-hy.1) + (y.1 * -(a * r) + y.2 * -(a * s)) * hx.1 + hy.2
    rw [h0, zero_mul] at this
    exact zero_ne_one this
  simp only [exDae, exM, cramer, LinearMap.coe_mk, AddHom.coe_mk, Prod.smul_mk, smul_eq_mul, Prod.mk_sub_mk]
  ext
  · show _ / _ - a * (p * (_ / _) + q * (_ / _)) = _
    generalize hD : (1 - a * p) * -(a * s) - -(a * q) * -(a * r) = D at hdet ⊢
    field_simp
    rw [← hD]; ring
  · show 0 - a * (r * (_ / _) + s * (_ / _)) = _
    generalize hD : (1 - a * p) * -(a * s) - -(a * q) * -(a * r) = D at hdet ⊢
    field_simp
    rw [← hD]; ring

def exDaeStart : ESolver ℚ (ℚ × ℚ) := newESolver 0 (1, 1) (-1, -1) exDJ (1 / 2) (fun _ => 0) 1 0

theorem exDaeStart_new : IsNew exDaeStart 0 (1, 1) (-1, -1) exDJ := ⟨_, _, _, _, by norm_num, rfl⟩

/-- The first step on the DAE: accepted, and the constraint `u = v` holds exactly at the new solution. -/
example : ((eStep exDae 5 exDaeStart).map fun p => (p.1, p.2.st.t, decide (p.2.st.y.1 = p.2.st.y.2),
    decide (p.2.st.y.1 < 1), p.2.status)) = some (.ok, 1 / 2, true, true, .running) := by decide +kernel

/-- The functional of the algebraic row annihilates the mass matrix (hypothesis of `C36_linear_constraints`). -/
example : ∀ x, LinearMap.snd ℚ ℚ ℚ (exDae.M x) = 0 := fun _ => rfl

/-- `C36_linear_constraints` applied to all histories of the example. -/
example {v v' : ESolver ℚ (ℚ × ℚ)} (hr : EReach exDae exDaeStart v) {fuel : ℕ} (ht : exDae.tb ≠ some v.st.t)
    (h : eStep exDae fuel v = some (.ok, v')) (hreg : RegularAt exDae v'.st) : v'.st.y.1 = v'.st.y.2 := by
  have := C36_linear_constraints exDae_ok TRX2_ok rfl exDae_solves exDaeStart_new (r := fun _ => 0)
    (fun t y => by simp [exDae, exDJ]) hr ht h hreg (LinearMap.snd ℚ ℚ ℚ) (fun _ => rfl)
  simp [exDJ] at this
  linarith

end Extensisq
