import Verif.Model.Stiff

/-!
# What the stiffness detection tells the user

Models the last part of `_diagnose_stiffness` (`/repo/extensisq/common.py:427-516` for the Runge-Kutta methods,
`:1383-1489` for the Nystrom methods): assessment of the roots found by `stiff_a` and choice of the messages.
-/

namespace Extensisq
noncomputable section

/-- The messages. The first five are given with `warn`, the others are logged only. -/
inductive StiffMsg where
  | warnReal          -- real dominant root, stiff
  | warnComplex       -- complex pair of dominant roots, stiff
  | warnLargeRe       -- complex pair, stiff (large real part); Nystrom only
  | warnLargeIm       -- complex pair, stiff (large imaginary part); Nystrom only
  | warnOsc           -- complex pair near the imaginary axis, many failed steps
  | infoNotConverged
  | infoOsc           -- complex pair near the imaginary axis, not many failed steps
  | infoFree          -- non-stiff without power iterations
  | infoReal          -- real root, not stiff
  | infoComplex       -- complex pair, not stiff
  | unexpected        -- 'this should not happen'
  deriving DecidableEq, Repr

/-- Messages given with `warn`. -/
def StiffMsg.isWarning : StiffMsg → Bool
  | .warnReal | .warnComplex | .warnLargeRe | .warnLargeIm | .warnOsc => true
  | _ => false

open Classical in
/-- `rootre` after the roots were assessed (`common.py:443`, `:1400`). -/
def finalRootre (o : StiffOut) : Option Bool :=
  match o.roots with
  | none => o.rootre
  | some (root1, _, _) => some (decide (root1.2 = 0))

/-- The messages if the method is unsure (`common.py:464-488`, `:1422-1446`). -/
def unsureMessages (rootre : Option Bool) (lotsfl : Bool) : List StiffMsg :=
  (if rootre = none then [.infoNotConverged] else []) ++
  (if rootre ≠ some true then (if lotsfl then [.warnOsc] else [.infoOsc]) else [.unexpected])

/-- The messages if the problem is not stiff (`common.py:501-516`, `:1476-1489`). -/
def notStiffMessages : Option Bool → List StiffMsg
  | none => [.infoFree]
  | some true => [.infoReal]
  | some false => [.infoComplex]

/-- `RungeKutta._diagnose_stiffness`: the messages for a result of `stiff_a` (`common.py:427-516`). -/
def rkMessages (tanang stbrad : ℝ) (lotsfl : Bool) (o : StiffOut) : List StiffMsg :=
  match assessRoots tanang stbrad o with
  | none => unsureMessages (finalRootre o) lotsfl
  | some true =>
    match finalRootre o with
    | none => [.unexpected]
    | some true => [.warnReal]
    | some false => [.warnComplex]
  | some false => notStiffMessages (finalRootre o)

open Classical in
/-- Analysis of the roots in `RungeKuttaNystrom._diagnose_stiffness` (`common.py:1383-1416`): `stif`. -/
def nyAssessRoots (tanang stbre stbim : ℝ) (o : StiffOut) : Option Bool :=
  match o.roots with
  | none => o.stif
  | some (root1, root2, rho) =>
    if root1.1 > 0 then some false
    else
      let rho2 := Real.sqrt (root2.1 ^ 2 + root2.2 ^ 2)
      if rho2 ≥ 9 / 10 * rho ∧ root2.1 > 0 then some false
      else if |root1.2| > |root1.1| * tanang then none
      else some (decide (|root1.1| ≥ 17 / 20 * stbre ∨ |root1.2| ≥ 9 / 10 * stbim))

open Classical in
/-- The warning for a complex pair (`common.py:1459-1475`). -/
def nyComplexMessage (stbre stbim : ℝ) (root1 : Root) : StiffMsg :=
  if |root1.1| ≥ 9 / 10 * stbre then .warnLargeRe
  else if |root1.2| ≥ 9 / 10 * stbim then .warnLargeIm
  else .unexpected

/-- `RungeKuttaNystrom._diagnose_stiffness`: the messages (`common.py:1383-1489`). With `rootre = False` and no
roots the code would read `root1` before assignment; `stiff_a` never returns that. -/
def nyMessages (tanang stbre stbim : ℝ) (lotsfl : Bool) (o : StiffOut) : List StiffMsg :=
  match nyAssessRoots tanang stbre stbim o with
  | none => unsureMessages (finalRootre o) lotsfl
  | some true =>
    match finalRootre o with
    | none => [.unexpected]
    | some true => [.warnReal]
    | some false =>
      match o.roots with
      | none => [.unexpected]
      | some (root1, _, _) => [nyComplexMessage stbre stbim root1]
  | some false => notStiffMessages (finalRootre o)

end
end Extensisq
