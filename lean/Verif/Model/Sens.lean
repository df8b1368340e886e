import Mathlib.Data.Matrix.Mul
import Mathlib.Data.Fin.Tuple.Basic
import Mathlib.Logic.Equiv.Fin.Basic
import Mathlib.Algebra.Order.Field.Basic
import Mathlib.LinearAlgebra.Matrix.Notation

/-!
# Sensitivity analysis

Models the right-hand sides, initial values, sparsity patterns, Jacobians and results of `sens_forward`,
`sens_adjoint_end` and `sens_adjoint_int` (`sensitivity.py`). `solve_ivp` is external: the theorems take exact
solutions of the problems that are passed to it. Input checks (`_test_functions`, the assertions) are not
modelled: the types say that the shapes are right.
-/

namespace Extensisq
open Matrix

variable {K : Type*} {Ny Np : ℕ}

/-- The user's functions, with the parameters as an argument (`sensitivity.py:59-62`): `fun`, `jac`, `dfdp`. -/
structure SensProb (K : Type*) (Ny Np : ℕ) where
  fn : K → (Fin Ny → K) → (Fin Np → K) → (Fin Ny → K)
  jac : K → (Fin Ny → K) → (Fin Np → K) → Matrix (Fin Ny) (Fin Ny) K
  dfdp : K → (Fin Ny → K) → (Fin Np → K) → Matrix (Fin Ny) (Fin Np) K

/-- `g`, `dgdy`, `dgdp` of the adjoint functions (`sensitivity.py:219-222`). -/
structure SensOut (K : Type*) (Ny Np : ℕ) where
  g : K → (Fin Ny → K) → (Fin Np → K) → K
  dgdy : K → (Fin Ny → K) → (Fin Np → K) → (Fin Ny → K)
  dgdp : K → (Fin Ny → K) → (Fin Np → K) → (Fin Np → K)

/-- `a[:m]` for an array of length `m + n`. -/
def headOf {m n : ℕ} (a : Fin (m + n) → K) : Fin m → K := fun i => a (Fin.castAdd n i)

/-- `a[m:]` for an array of length `m + n`. -/
def tailOf {m n : ℕ} (a : Fin (m + n) → K) : Fin n → K := fun i => a (Fin.natAdd m i)

/-- `w.reshape(Ny, Np, order='F')` (`sensitivity.py:175`): entry `(i, j)` is `w[i + Ny*j]`. -/
def unflat (w : Fin (Np * Ny) → K) : Matrix (Fin Ny) (Fin Np) K := fun i j => w (finProdFinEquiv (j, i))

/-- `s.reshape(-1, order='F')` (`sensitivity.py:178, 182`). -/
def flat (s : Matrix (Fin Ny) (Fin Np) K) : Fin (Np * Ny) → K :=
  fun k => s (finProdFinEquiv.symm k).2 (finProdFinEquiv.symm k).1

section fwd
variable [CommRing K]

/-- `total_fun` (`sensitivity.py:173-178`). -/
def totalFun (P : SensProb K Ny Np) (p : Fin Np → K) (t : K) (Y : Fin (Ny + Np * Ny) → K) :
    Fin (Ny + Np * Ny) → K :=
  let y := headOf Y
  let s := unflat (tailOf Y)
  Fin.append (P.fn t y p) (flat (P.jac t y p * s + P.dfdp t y p))

/-- `total_y0` (`sensitivity.py:181-182`). -/
def totalY0 (y0 : Fin Ny → K) (dy0dp : Matrix (Fin Ny) (Fin Np) K) : Fin (Ny + Np * Ny) → K :=
  Fin.append y0 (flat dy0dp)

/-- `jac_sparsity` (`sensitivity.py:189-192`). -/
def sparsity (Ny Np : ℕ) (k l : Fin (Ny + Np * Ny)) : Bool :=
  decide ((l : ℕ) < Ny) ||
  (List.range Np).any fun i => decide ((i + 1) * Ny ≤ (k : ℕ)) && decide ((k : ℕ) < (i + 2) * Ny) &&
    decide ((i + 1) * Ny ≤ (l : ℕ)) && decide ((l : ℕ) < (i + 2) * Ny)

/-- `total_jac` (`sensitivity.py:200-205`): `block_diag` of `Np + 1` copies of the Jacobian. -/
def totalJac (P : SensProb K Ny Np) (p : Fin Np → K) (t : K) (Y : Fin (Ny + Np * Ny) → K)
    (k l : Fin (Ny + Np * Ny)) : K :=
  if h : 0 < Ny then
    if (k : ℕ) / Ny = (l : ℕ) / Ny then
      P.jac t (headOf Y) p ⟨k % Ny, Nat.mod_lt _ h⟩ ⟨l % Ny, Nat.mod_lt _ h⟩
    else 0
  else 0

/-- `yf` (`sensitivity.py:215`), from `sol.y[:, -1]`. -/
def fwdY (Yf : Fin (Ny + Np * Ny) → K) : Fin Ny → K := headOf Yf

/-- `sensf` (`sensitivity.py:216`). -/
def fwdSens (Yf : Fin (Ny + Np * Ny) → K) : Matrix (Fin Ny) (Fin Np) K := unflat (tailOf Yf)

end fwd

/-- `total_atol` (`sensitivity.py:165-170`), for an array `atol`. -/
def totalAtol [Field K] [LinearOrder K] (atol : Fin Ny → K) (p : Fin Np → K) : Fin (Ny + Np * Ny) → K :=
  Fin.append atol (flat fun i j => atol i / (if |p j| = 0 then 1 else |p j|))

section adj
variable [CommRing K]

/-- `fun_bw` of `sens_adjoint_end` (`sensitivity.py:347-354`); `y` is the dense output of the forward solve. -/
def funBwEnd (P : SensProb K Ny Np) (p : Fin Np → K) (y : K → Fin Ny → K) (t : K) (Y : Fin (Ny + Np) → K) :
    Fin (Ny + Np) → K :=
  let mu := headOf Y
  Fin.append (-((P.jac t (y t) p)ᵀ *ᵥ mu)) ((P.dfdp t (y t) p)ᵀ *ᵥ mu)

/-- `yf_bw` (`sensitivity.py:357`). -/
def startBwEnd (O : SensOut K Ny Np) (p : Fin Np → K) (tf : K) (yf : Fin Ny → K) : Fin (Ny + Np) → K :=
  Fin.append (O.dgdy tf yf p) 0

/-- `jac_bw` (`sensitivity.py:368-375`). -/
def jacBwEnd (P : SensProb K Ny Np) (p : Fin Np → K) (y : K → Fin Ny → K) (t : K) :
    Matrix (Fin (Ny + Np)) (Fin (Ny + Np)) K :=
  fun k l => Fin.addCases (fun j => Fin.addCases (fun i => -(P.jac t (y t) p) j i)
    (fun i => P.dfdp t (y t) p j i) k) (fun _ => 0) l

/-- The result (`sensitivity.py:384-387`): `Y0` is `sol_bw.y[:, -1]`. -/
def sensEnd (O : SensOut K Ny Np) (p : Fin Np → K) (dy0dp : Matrix (Fin Ny) (Fin Np) K) (tf : K)
    (yf : Fin Ny → K) (Y0 : Fin (Ny + Np) → K) : Fin Np → K :=
  O.dgdp tf yf p + headOf Y0 ᵥ* dy0dp + -(tailOf Y0)

/-- `fun_bw` of `sens_adjoint_int` (`sensitivity.py:514-525`). -/
def funBwInt (P : SensProb K Ny Np) (O : SensOut K Ny Np) (p : Fin Np → K) (y : K → Fin Ny → K) (t : K)
    (Y : Fin (Ny + Np + 1) → K) : Fin (Ny + Np + 1) → K :=
  let lam := headOf (headOf Y)
  Fin.append (Fin.append (-((P.jac t (y t) p)ᵀ *ᵥ lam + O.dgdy t (y t) p))
    ((P.dfdp t (y t) p)ᵀ *ᵥ lam + O.dgdp t (y t) p)) (fun _ => O.g t (y t) p)

/-- `jac_bw` of `sens_adjoint_int` (`sensitivity.py:539-546`). -/
def jacBwInt (P : SensProb K Ny Np) (p : Fin Np → K) (y : K → Fin Ny → K) (t : K) :
    Matrix (Fin (Ny + Np + 1)) (Fin (Ny + Np + 1)) K :=
  fun k l => Fin.addCases (fun l => Fin.addCases (fun j => Fin.addCases (fun k => Fin.addCases
    (fun i => -(P.jac t (y t) p) j i) (fun i => P.dfdp t (y t) p j i) k) (fun _ => 0) k) (fun _ => 0) l)
    (fun _ => 0) l

/-- The sensitivity (`sensitivity.py:555-558`). -/
def sensInt (dy0dp : Matrix (Fin Ny) (Fin Np) K) (Y0 : Fin (Ny + Np + 1) → K) : Fin Np → K :=
  headOf (headOf Y0) ᵥ* dy0dp + -(tailOf (headOf Y0))

/-- `G` (`sensitivity.py:557`). -/
def outInt (Y0 : Fin (Ny + Np + 1) → K) : K := -(Y0 (Fin.last _))

end adj
end Extensisq
