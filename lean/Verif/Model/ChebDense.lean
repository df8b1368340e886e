import Verif.Model.Cheb
import Verif.Model.Dense

/-!
# Dense output of SSV2stab

Models `SSV2stab._dense_output_impl` (`/repo/extensisq/sommeijer.py:400-406`) behind scipy's
`OdeSolver.dense_output`.
-/

namespace Extensisq

variable {K V : Type*} [Field K] [DecidableEq K] [AddCommGroup V] [Module K V]

/-- `dense_output()` of an SSV2stab solver. scipy raises `RuntimeError` before the first step (`none`) and
returns a constant if `t = t_old`; otherwise `_dense_output_impl` (`sommeijer.py:400-406`) returns the cubic Hermite
spline through rows 0 to 3 of `self.W`. While rows 2 and 3 hold scratch data (`prev = none`) the code returns
an object built from scratch data; simplification: the model then returns `none`. Nothing is evaluated and
nothing is changed. -/
def chebDense (v : ChebSolver K V) : Option (K → V) :=
  match v.tOld with
  | none => none
  | some tOld =>
    if v.st.t = tOld then some fun _ => v.st.yn
    else
      match v.st.prev with
      | none => none
      | some (yOld, fOld) => some (cubic tOld v.st.t yOld v.st.yn fOld v.st.fn)

end Extensisq
