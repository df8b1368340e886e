import Verif.Model.NystromTables

/-!
# Constants of the stiffness test of the Nystrom methods

The class attributes `tanang`, `stbre` and `stbim`, read by `RungeKuttaNystrom._diagnose_stiffness` (`/repo/extensisq/common.py:1383-1416`).
-/

namespace Extensisq

/-- A method with its `tanang`, `stbre` and `stbim`. -/
structure NyStiffConst where
  R : NyTable
  tanang : ℚ
  stbre : ℚ
  stbim : ℚ

/-- `fine.py:94-96`. -/
def Fi4N_stiff : NyStiffConst := ⟨Fi4N, 40, 15 / 10, 4⟩
/-- `fine.py:227-229`. -/
def Fi5N_stiff : NyStiffConst := ⟨Fi5N, 15, 2, 4⟩
/-- `murua.py:110-112`. -/
def Mu5Nmb_stiff : NyStiffConst := ⟨Mu5Nmb, 100, 29 / 10, 475 / 100⟩

end Extensisq
