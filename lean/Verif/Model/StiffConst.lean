import Verif.Model.Tables

/-!
# Constants of the stiffness test

The class attributes `stbrad` and `tanang` of the explicit Runge-Kutta methods, read by `RungeKutta._diagnose_stiffness` (`/repo/extensisq/common.py:427-457`).
-/

namespace Extensisq

/-- A method with its `tanang` and `stbrad`. -/
structure StiffConst where
  R : RKTable
  tanang : ℚ
  stbrad : ℚ

/-- `merson.py:118-119`. -/
def Me4_stiff : StiffConst := ⟨Me4, 20, 34 / 10⟩
/-- `cash.py:85-86`. -/
def CK5_stiff : StiffConst := ⟨CK5, 24 / 10, 37 / 10⟩
/-- `bogacki.py:107-108`. -/
def BS5_stiff : StiffConst := ⟨BS5, 52 / 10, 39 / 10⟩
/-- `calvo.py:92-93`. -/
def CFMR7osc_stiff : StiffConst := ⟨CFMR7osc, 40, 47 / 10⟩
/-- `tsitouras.py:86-87`. -/
def Ts5_stiff : StiffConst := ⟨Ts5, 3, 35 / 10⟩
/-- `prince.py:82-83`. -/
def Pr7_stiff : StiffConst := ⟨Pr7, 75 / 10, 41 / 10⟩
/-- `prince.py:208-209`. -/
def Pr8_stiff : StiffConst := ⟨Pr8, 6, 45 / 10⟩
/-- `prince.py:452-453`. -/
def Pr9_stiff : StiffConst := ⟨Pr9, 75 / 10, 46 / 10⟩

/-- All methods (`CKdisc` and the methods which are not Runge-Kutta methods have no or other constants). -/
def stiffConsts : List StiffConst := [Me4_stiff, CK5_stiff, BS5_stiff, CFMR7osc_stiff, Ts5_stiff, Pr7_stiff, Pr8_stiff, Pr9_stiff]

end Extensisq
