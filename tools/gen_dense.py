"""Generate lean/Verif/Model/TablesDense.lean: extra tables for dense output."""
import gen_tables as g
from gen_tables import *
m=C['BS5']
out=['''import Mathlib.Data.Rat.Cast.Order

/-!
# Tables for dense output with extra stages

Generated by `/verif/tools/gen_dense.py` from `/repo/extensisq/bogacki.py` by exact evaluation of the literals.
-/

namespace Extensisq

/-- `BS5.C_extra` (%s). -/
def BS5_C_extra : List ℚ := %s

/-- Rows of `BS5.A_extra` (the array in the source is transposed; %s). -/
def BS5_A_extra : List (List ℚ) :=
  %s

/-- `BS5.Plow` (%s). -/
def BS5_Plow : List (List ℚ) :=
  %s

/-- `BS5.Pbest` (%s). -/
def BS5_Pbest : List (List ℚ) :=
  %s

end Extensisq
'''%(lines('BS5',['C_extra']),vec(m.C_extra.d,2),lines('BS5',['A_extra']),mat(m.A_extra.d,2),lines('BS5',['Plow']),mat(m.Plow.d,2),lines('BS5',['Pbest']),mat(m.Pbest.d,2))]
open('/verif/lean/Verif/Model/TablesDense.lean','w').write('\n'.join(out))
