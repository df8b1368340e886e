import Verif.Model.Tables

/-! # The explicit solver classes built on the driver -/

namespace Extensisq

section
variable (K : Type*) [Field K] [LinearOrder K] {V : Type*} [AddCommGroup V] [Module K V]

/-- Row of class-level weights as a function. -/
def weights (l : List ℚ) (i : ℕ) : K := ((l.getD i 0 : ℚ) : K)

/-- `BS5.E_pre` (`bogacki.py:132`). -/
def BS5_E_pre : List ℚ := [-3/1280, 0, 6561/632320, -343/20800, 243/12800, -1/95]

/-- `BS5.B_scale_pre` (`bogacki.py:133`). -/
def BS5_B_scale_pre : List ℚ := [19/48, 0, -189/416, 343/780, 99/160, 0]

/-- `BS5` (`bogacki.py:238-345`). -/
def bs5Method (rhs : K → V → V) (errNorm : V → V → V → ENorm K) : Method K V V :=
  rkMethod (BS5.tab K) rhs errNorm
    (PreTest.linear 6 (weights K BS5_B_scale_pre) (weights K BS5_E_pre) errNorm 0)

/-- `CFMR7osc` (`calvo.py:152-260`). -/
def cfmr7oscMethod (rhs : K → V → V) (errNorm : V → V → V → ENorm K) : Method K V V :=
  rkMethod (CFMR7osc.tab K) rhs errNorm
    (PreTest.linear 8 ((CFMR7osc.tab K).A 8) (CFMR7osc.tab K).E errNorm 1)

end
end Extensisq
