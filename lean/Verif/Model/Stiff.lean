import Mathlib.Analysis.InnerProductSpace.Basic
import Mathlib.Analysis.SpecialFunctions.Pow.Real

/-!
# The stiffness test

Models `stiff_a`, `stiff_b`, `stiff_c`, `stiff_d` (`common.py:824-1204`) and the analysis of the roots in
`_diagnose_stiffness` (`common.py:427-457`), over the reals.

The weighted dot product `(v/wt) @ (w/wt)` with positive weights is an inner product; it is the inner
product of the space `V` here, which therefore represents the vectors together with the weights. Complex
problems are expanded by the code to real vectors of twice the length (`common.py:917-927`); the model
starts from there; the weights and the expansion are in `Model/StiffWeights.lean`. `epsneg` is a parameter. `one` is the vector of ones.

Every division is recorded (`divs`): the Boolean tells whether it is the unguarded division by `det1` in
the first try.
-/

namespace Extensisq
open scoped RealInnerProductSpace

/-- A complex number as the code's list `[re, im]`. -/
abbrev Root := ℝ × ℝ

noncomputable section

/-- `stiff_c` (`common.py:1140-1175`). -/
def stiffC (alpha beta : ℝ) : Root × Root :=
  let temp := alpha / 2
  let disc := temp ^ 2 - beta
  if disc = 0 then ((-temp, 0), (-temp, 0))
  else
    let sqdisc := Real.sqrt |disc|
    if disc < 0 then ((-temp, sqdisc), (-temp, -sqdisc))
    else
      let r1 := if temp > 0 then -temp - sqdisc else -temp + sqdisc
      ((r1, 0), (beta / r1, 0))

/-- What `stiff_b` returns. -/
structure BOut where
  rold : ℝ
  rho : ℝ
  root1 : Root
  root2 : Root
  rootre : Bool

open Classical in
/-- `stiff_b` (`common.py:1106-1137`). -/
def stiffB (v1v1 v0v1 v0v0 rold : ℝ) : BOut :=
  let r := v0v1 / v0v0
  let rho := |r|
  let det := v0v0 * v1v1 - v0v1 ^ 2
  let res := |det / v0v0|
  let rootre := decide (det = 0 ∨ (res ≤ 1 / 10 ^ 6 * v1v1 ∧ |r - rold| ≤ 1 / 1000 * rho))
  { rold := r, rho := rho, root1 := if rootre then (r, 0) else (0, 0), root2 := (0, 0), rootre := rootre }

variable {V : Type*} [NormedAddCommGroup V] [InnerProductSpace ℝ V]

/-- `stiff_d` (`common.py:1178-1204`): the vector and its squared norm. -/
def stiffD (v : V) (havg x : ℝ) (y : V) (f : ℝ → V → V) (fxy : V) (scale vdotv : ℝ) : V × ℝ :=
  let temp1 := scale / Real.sqrt vdotv
  let z := (havg / temp1) • (f x (y + temp1 • v) - fxy)
  (z, ⟪z, z⟫)

/-- The divisions in a call of `stiff_d`. -/
def divsD (scale vdotv : ℝ) : List (Bool × ℝ) :=
  [(false, Real.sqrt vdotv), (false, scale / Real.sqrt vdotv)]

/-- The divisions in a call of `stiff_b`. -/
def divsB (v0v0 : ℝ) : List (Bool × ℝ) := [(false, v0v0)]

/-- Result of `stiff_a`. -/
structure StiffOut where
  stif : Option Bool
  rootre : Option Bool
  roots : Option (Root × Root × ℝ)

/-- Result of one pass of the `for` loop. -/
inductive Try (V : Type*) where
  | ret (o : StiffOut)                 -- `return`
  | brk (root1 root2 : Root) (rho : ℝ) (rootre : Bool)   -- `break`
  | next (v0 : V) (rold : ℝ)

/-- The problem data the loop reads. -/
structure StiffIn (V : Type*) where
  f : ℝ → V → V
  x : ℝ
  y : V
  fxy : V
  havg : ℝ
  scale : ℝ
  epsneg : ℝ

/-- Third part of a pass: after `v3` (`common.py:1062-1094`). -/
def tryC (v1 v2 v3 : V) (v1v1 v2v2 v3v3 v1v2 alpha1 beta1 rold : ℝ) : Try V × List (Bool × ℝ) :=
  let v1v3 := ⟪v1, v3⟫
  let v2v3 := ⟪v2, v3⟫
  let b := stiffB v3v3 v2v3 v2v2 rold
  if b.rootre then (.brk b.root1 b.root2 b.rho true, divsB v2v2)
  else
    let det2 := v1v1 * v2v2 - v1v2 ^ 2
    let alpha2 := (-v1v1 * v2v3 + v1v2 * v1v3) / det2
    let beta2 := (v1v2 * v2v3 - v2v2 * v1v3) / det2
    let res2 := |v3v3 + v2v2 * alpha2 ^ 2 + v1v1 * beta2 ^ 2 + 2 * v2v3 * alpha2 + 2 * v1v3 * beta2
      + 2 * v1v2 * alpha2 * beta2|
    let dv := divsB v2v2 ++ [(false, det2)]
    let cont : Try V × List (Bool × ℝ) :=
      (.next ((Real.sqrt v3v3)⁻¹ • v3) b.rold, dv ++ [(false, Real.sqrt v3v3)])
    if res2 ≤ 1 / 10 ^ 6 * v3v3 then
      let r := stiffC alpha1 beta1
      let root := stiffC alpha2 beta2
      let rho := Real.sqrt (root.1.1 ^ 2 + root.1.2 ^ 2)
      let D1 := (root.1.1 - r.1.1) ^ 2 + (root.1.2 - r.1.2) ^ 2
      let D2 := (root.1.1 - r.2.1) ^ 2 + (root.1.2 - r.2.2) ^ 2
      if Real.sqrt (min D1 D2) ≤ 1 / 1000 * rho then (.brk root.1 root.2 rho false, dv)
      else cont
    else cont

/-- Second part of a pass: from `v2` (`common.py:1039-1060`). `first` tells `ntry == 0`. Also returned:
the number of evaluations of `fun`. -/
def tryB (p : StiffIn V) (first : Bool) (v0 v1 : V) (v0v0 v1v1 v0v1 rold : ℝ) :
    Try V × ℕ × List (Bool × ℝ) :=
  let d2 := stiffD v1 p.havg p.x p.y p.f p.fxy p.scale v1v1
  let v0v2 := ⟪v0, d2.1⟫
  let v1v2 := ⟪v1, d2.1⟫
  let b := stiffB d2.2 v1v2 v1v1 rold
  let dv := divsD p.scale v1v1 ++ divsB v1v1
  if b.rootre then (.brk b.root1 b.root2 b.rho true, 1, dv)
  else
    let det1 := v0v0 * v1v1 - v0v1 ^ 2
    let alpha1 := (-v0v0 * v1v2 + v0v1 * v0v2) / det1
    let beta1 := (v0v1 * v1v2 - v1v1 * v0v2) / det1
    let d3 := stiffD d2.1 p.havg p.x p.y p.f p.fxy p.scale d2.2
    let c := tryC v1 d2.1 d3.1 v1v1 d2.2 d3.2 v1v2 alpha1 beta1 b.rold
    (c.1, 2, dv ++ [(first, det1)] ++ divsD p.scale d2.2 ++ c.2)

/-- One pass of the loop (`common.py:1003-1094`); `v0v0` is 1.0. -/
def stiffTry (p : StiffIn V) (first : Bool) (v0 : V) (rold : ℝ) : Try V × ℕ × List (Bool × ℝ) :=
  let d1 := stiffD v0 p.havg p.x p.y p.f p.fxy p.scale 1
  let dv := divsD p.scale 1
  if Real.sqrt d1.2 > 10 ^ 10 * Real.sqrt 1 then (.ret ⟨none, none, none⟩, 1, dv)
  else
    let v0v1 := ⟪v0, d1.1⟫
    if first then
      let rold := v0v1 / 1
      if |rold| < p.epsneg ^ (1 / 3 : ℝ) then (.ret ⟨some false, none, none⟩, 1, dv)
      else
        let r := tryB p first v0 d1.1 1 d1.2 v0v1 rold
        (r.1, 1 + r.2.1, dv ++ r.2.2)
    else
      let b := stiffB d1.2 v0v1 1 rold
      if b.rootre then (.brk b.root1 b.root2 b.rho true, 1, dv ++ divsB 1)
      else
        let r := tryB p first v0 d1.1 1 d1.2 v0v1 b.rold
        (r.1, 1 + r.2.1, dv ++ divsB 1 ++ r.2.2)

/-- `for ntry in range(maxtry): ... else: ...` (`common.py:1002-1105`). -/
def stiffLoop (p : StiffIn V) : ℕ → Bool → V → ℝ → StiffOut × ℕ × List (Bool × ℝ)
  | 0, _, _, _ => (⟨none, none, none⟩, 0, [])
  | n + 1, first, v0, rold =>
    let r := stiffTry p first v0 rold
    match r.1 with
    | .ret o => (o, r.2)
    | .brk root1 root2 rho rootre => (⟨none, some rootre, some (root1, root2, rho)⟩, r.2)
    | .next v0' rold' =>
      let q := stiffLoop p n false v0' rold'
      (q.1, r.2.1 + q.2.1, r.2.2 ++ q.2.2)

open Classical in
/-- The normalised starting vector (`common.py:975-985`). -/
def startVector (v0 one : V) : V :=
  let v := if ⟪v0, v0⟫ = 0 then one else v0
  (Real.sqrt ⟪v, v⟫)⁻¹ • v

/-- `stiff_a` from the scale on (`common.py:956-1105`), with `maxtry = 8`. -/
def stiffMain (f : ℝ → V → V) (x : ℝ) (y fxy : V) (havg : ℝ) (v0 one : V) (epsneg : ℝ) :
    StiffOut × ℕ × List (Bool × ℝ) :=
  let scale1 := Real.sqrt ⟪y, y⟫ * Real.sqrt epsneg
  let scale2 := Real.sqrt ⟪v0, v0⟫ * Real.sqrt epsneg
  let scale := if scale1 = 0 then scale2 else scale1
  if scale = 0 then (⟨none, none, none⟩, 0, [])
  else
    let w := if ⟪v0, v0⟫ = 0 then one else v0
    let r := stiffLoop { f, x, y, fxy, havg, scale, epsneg } 8 true (startVector v0 one) 0
    (r.1, r.2.1, (false, Real.sqrt ⟪w, w⟫) :: r.2.2)

/-- `stiff_a` (`common.py:824-1105`). -/
def stiffA (f : ℝ → V → V) (x : ℝ) (y : V) (hnow havg xend maxfcn : ℝ) (fxy v0 one : V) (cost epsneg : ℝ) :
    StiffOut × ℕ × List (Bool × ℝ) :=
  if |hnow / havg| > 5 ∨ |hnow / havg| < 1 / 5 then (⟨some false, none, none⟩, 0, [(false, havg)])
  else if cost * |(xend - x) / havg| ≤ maxfcn then (⟨some false, none, none⟩, 0, [(false, havg)])
  else
    let r := stiffMain f x y fxy havg v0 one epsneg
    (r.1, r.2.1, (false, havg) :: r.2.2)

open Classical in
/-- Analysis of the roots in `_diagnose_stiffness` (`common.py:427-457`): `stif`. -/
def assessRoots (tanang stbrad : ℝ) (o : StiffOut) : Option Bool :=
  match o.roots with
  | none => o.stif
  | some (root1, root2, rho) =>
    if root1.1 > 0 then some false
    else
      let rho2 := Real.sqrt (root2.1 ^ 2 + root2.2 ^ 2)
      if rho2 ≥ 9 / 10 * rho ∧ root2.1 > 0 then some false
      else if |root1.2| > |root1.1| * tanang then none
      else some (decide (rho ≥ 9 / 10 * stbrad))

end
end Extensisq
