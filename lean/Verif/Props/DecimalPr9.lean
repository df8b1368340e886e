import Verif.Lemmas.DecimalCheck

/-! # Order conditions of Pr9 (kernel evaluation) -/

set_option maxRecDepth 100000

namespace Extensisq

set_option maxHeartbeats 0 in
/-- All trees with at most nine vertices. -/
theorem pr9_check : decCheck Pr9 (10 ^ 34) 8 1 (10 ^ 29) 6 (10 ^ 26) = true := by decide +kernel

set_option maxHeartbeats 0 in
theorem pr9_shape : decShape Pr9 (10 ^ 34) 8 := by decide +kernel

end Extensisq
