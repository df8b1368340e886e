import Verif.Model.NystromTables
import Verif.Model.Dense
import Verif.Model.Validate

/-!
# Dense output of the Nystrom methods and their constructors' options

Models `RungeKuttaNystrom._dense_output_impl` (`common.py:1312-1321`), `Fi5N.__init__` and
`Fi5N._dense_output_impl` (`fine.py:364-414`), `Mu5Nmb.__init__` and `Mu5Nmb._dense_output_impl`
(`murua.py:212-246`).
-/

namespace Extensisq
open Finset

section
variable {K X : Type*} [Field K] [AddCommGroup X] [Module K X]

/-- The loop over the extra stages (`fine.py:399-405`, `murua.py:236-242`): rows of `A_extra`, `Ap_extra` and
nodes `C_extra`, starting at stage `s`. -/
def nyExtra (acc : K → X × X → X) (tOld : K) (yOld : X × X) (h : K) :
    ℕ → List (List ℚ × List ℚ × ℚ) → (ℕ → X) → (ℕ → X)
  | _, [], Ks => Ks
  | s, (a, ap, c) :: r, Ks =>
    nyExtra acc tOld yOld h (s + 1) r
      (Function.update Ks s
        (acc (tOld + (c : K) * h)
          (yOld.1 + (h ^ 2 • (∑ j ∈ range s, ((a.getD j 0 : ℚ) : K) • Ks j) + ((c : K) * h) • yOld.2),
           yOld.2 + h • ∑ j ∈ range s, ((ap.getD j 0 : ℚ) : K) • Ks j)))

/-- The data a dense output reads: `t_old, t, y_old, y, f_old, f, K, h_previous` (`h_previous = t - t_old`). -/
structure NyState (K X : Type*) where
  tOld : K
  t : K
  yOld : X × X
  y : X × X
  aOld : X
  a : X
  Ks : ℕ → X

/-- `HornerDenseOutputNystrom` with `Q = K.T @ P`, `Qp = K.T @ Pp` after the extra stages `l`; `s` is
`n_stages`. -/
def nyHorner (acc : K → X × X → X) (s : ℕ) (l : List (List ℚ × List ℚ × ℚ)) (P Pp : List (List ℚ))
    (d : NyState K X) : K → X × X :=
  let Ke := nyExtra acc d.tOld d.yOld (d.t - d.tOld) (s + 1) l d.Ks
  hornerNystrom d.tOld d.t d.yOld (denseQ K P (s + 1 + l.length) Ke) (denseQ K Pp (s + 1 + l.length) Ke)

/-- `QuinticHermiteDenseOutput` of the step. -/
def nyQuintic (d : NyState K X) : K → X × X := quintic d.tOld d.t d.yOld d.y d.aOld d.a

/-- `MR6NN` inherits `_dense_output_impl` with tables `P`, `Pp` (`common.py:1314-1318`). -/
def mr6Dense (acc : K → X × X → X) (d : NyState K X) : K → X × X :=
  nyHorner acc MR6NN.s [] MR6NN_P MR6NN_Pp d

/-- `Fi4N` has no table `P`: quintic Hermite interpolation (`common.py:1320-1321`). -/
def fi4Dense (d : NyState K X) : K → X × X := nyQuintic d

/-- The `interpolant` option of `Fi5N` (`fine.py:367-370`); other values raise `ValueError`. -/
inductive Fi5Interp where
  | i0 | i1 | i2 | i3
  deriving DecidableEq, Repr

/-- `interpolant in range(4)` (`fine.py:368-370`) for an integer argument. -/
def Fi5Interp.ofInt (n : ℤ) : Option Fi5Interp :=
  if n = 0 then some .i0 else if n = 1 then some .i1 else if n = 2 then some .i2
  else if n = 3 then some .i3 else none

/-- Extra stages of the interpolants (`fine.py:387-398`). -/
def fi5Extra : Fi5Interp → List (List ℚ × List ℚ × ℚ)
  | .i0 => []
  | .i1 => Fi5N_A_extra1.zip (Fi5N_Ap_extra1.zip Fi5N_C_extra1)
  | .i2 => Fi5N_A_extra2.zip (Fi5N_Ap_extra2.zip Fi5N_C_extra2)
  | .i3 => Fi5N_A_extra3.zip (Fi5N_Ap_extra3.zip Fi5N_C_extra3)

/-- `Fi5N._dense_output_impl` (`fine.py:381-414`): the output object, and `self.y` after the call
(interpolant 1 replaces the position at the end of the step). The output object holds `self.y_old`, which is
not changed; the quintic object of interpolant 0 is not combined with the replacement. -/
def fi5Dense (o : Fi5Interp) (acc : K → X × X → X) (d : NyState K X) : (K → X × X) × (X × X) :=
  match o with
  | .i0 => (nyQuintic d, d.y)
  | .i1 =>
    let h := d.t - d.tOld
    let Ke := nyExtra acc d.tOld d.yOld h (Fi5N.s + 1) (fi5Extra .i1) d.Ks
    (nyHorner acc Fi5N.s (fi5Extra .i1) Fi5N_P1 Fi5N_Pp1 d,
     (d.yOld.1 + (h ^ 2 • (∑ j ∈ range (Fi5N.s + 3), ((Fi5N_Bi.getD j 0 : ℚ) : K) • Ke j) + h • d.yOld.2),
      d.y.2))
  | .i2 => (nyHorner acc Fi5N.s (fi5Extra .i2) Fi5N_P2 Fi5N_Pp2 d, d.y)
  | .i3 => (nyHorner acc Fi5N.s (fi5Extra .i3) Fi5N_P3 Fi5N_Pp3 d, d.y)

/-- Extra stage of the `better` interpolant of `Mu5Nmb` (`murua.py:236-242`). -/
def mu5Extra : List (List ℚ × List ℚ × ℚ) := [(Mu5Nmb_A_extra, Mu5Nmb_Ap_extra, Mu5Nmb_C_extra)]

/-- `Mu5Nmb._dense_output_impl` (`murua.py:228-246`); `better = false` is `interpolant='free'`. -/
def mu5Dense (better : Bool) (acc : K → X × X → X) (d : NyState K X) : K → X × X :=
  if better then nyHorner acc Mu5Nmb.s mu5Extra Mu5Nmb_P_better Mu5Nmb_Pp_better d else nyQuintic d

end

/-! ### Constructors -/

/-- Class level error coefficients `E`, `Ep`, shared by all solver objects. -/
structure ErrCoef where
  E : List ℚ
  Ep : List ℚ
  deriving DecidableEq

/-- The part of `Mu5Nmb.__init__` that touches them (`murua.py:223-226`): `self.E *= 0.75` acts in place on the
class attribute. Returned: the coefficients this solver uses, and the class attribute afterwards. -/
def mu5Init (scale : Bool) (cls : ErrCoef) : ErrCoef × ErrCoef :=
  let c := if scale then ⟨cls.E.map (· * (3 / 4)), cls.Ep.map (· * (3 / 4))⟩ else cls
  (c, c)

/-- The class attribute after constructing solvers with the given options, in order. -/
def mu5Class : List Bool → ErrCoef
  | [] => ⟨Mu5Nmb.E, Mu5Nmb.Ep⟩
  | b :: l => (mu5Init b (mu5Class l)).2

/-- `Fi5N.__init__` (`fine.py:364-366`): the named parameter `sc_params` is not forwarded to
`super().__init__`, so `_init_sc_control` gets its default `None`. -/
def fi5ScControl {K : Type*} [Field K] (pw : K → K → K) (errExp : K) (_sc_params : ScArg K) :
    Option (ScParams K) :=
  initScControl coefsRK pw errExp (.str "G") .falsy

/-- The other Nystrom classes (default "G": `fine.py:92`, `mikkawy.py:90`, `murua.py:108`) forward it through
`**extraneous` (`common.py:1242-1244`). -/
def nyScControl {K : Type*} [Field K] (pw : K → K → K) (errExp : K) (sc_params : ScArg K) :
    Option (ScParams K) :=
  initScControl coefsRK pw errExp (.str "G") sc_params

end Extensisq
