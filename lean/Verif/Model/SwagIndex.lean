import Verif.Model.Swag

/-!
# Array accesses of SWAG

The index ranges used by `SWAG._step_impl` and by `SwagDenseOutput.__init__`, line by line, with the sizes
of the arrays allocated in the constructor. Integers, because Python accepts negative indices.
-/

namespace Extensisq

/-- The range `lo:hi` of an array of `size` entries; a single index `i` is `i:i+1`. -/
structure Acc where
  lo : ℤ
  hi : ℤ
  size : ℤ

/-- No index is negative, and none is outside the array. -/
def Acc.ok (a : Acc) : Prop := 0 ≤ a.lo ∧ 0 ≤ a.hi ∧ (a.lo < a.hi → a.hi ≤ a.size)

/-- Length of `psi`, `alpha`, `beta`, `v`, `w` (`shampine.py:139-144`). -/
def szK (kM : ℕ) : ℤ := kM
/-- Length of `sig`, `g`, `iq`, `iqq` (`shampine.py:130-131, 142, 145`). -/
def szK1 (kM : ℕ) : ℤ := kM + 1
/-- Number of columns of `phi` (`shampine.py:138`). -/
def szPhi (kM : ℕ) : ℤ := kM + 2
/-- Length of `gi` (`shampine.py:146`). -/
def szGi (kM : ℕ) : ℤ := kM - 1
/-- Length of `iv` (`shampine.py:147`). -/
def szIv (kM : ℕ) : ℤ := max 0 ((kM : ℤ) - 2)
/-- Length of the tuples `gstr` and `two` (`shampine.py:126-129`). -/
def szTup : ℤ := 13

/-- `shampine.py:261-269`. -/
def accSizes (kM : ℕ) (k ns : ℤ) : List Acc :=
  [⟨ns - 1, k - 1, szK kM⟩, ⟨ns - 1, ns, szK kM⟩, ⟨ns, k, szK kM⟩,      -- psi, alpha, beta
   ⟨ns, k + 1, szK1 kM⟩, ⟨ns - 1, k, szK1 kM⟩, ⟨ns - 1, k, szK kM⟩]       -- sig, iq, alpha

/-- `shampine.py:275-279`. -/
def accInit (kM : ℕ) (k : ℤ) : List Acc :=
  [⟨0, k, szK kM⟩, ⟨0, k, szK1 kM⟩] ++ if k ≠ 1 then [⟨0, 1, szGi kM⟩, ⟨1, 2, szK kM⟩] else []

/-- `shampine.py:282-298`: `iv0` is the entry read from `iv`. -/
def accRaise (kM : ℕ) (k ns ivc iv0 : ℤ) : List Acc :=
  let jv := if ivc ≠ 0 then k + 1 - iv0 else 1
  (if ivc ≠ 0 then [⟨ivc - 1, ivc, szIv kM⟩]
   else [⟨k - 1, k, szK kM⟩, ⟨k - 1, k, szK1 kM⟩] ++
     if k = 2 then [⟨0, 1, szGi kM⟩, ⟨1, 2, szK kM⟩] else []) ++
  [⟨jv, ns - 1, szK kM⟩] ++                                              -- alpha[jv:nsm1]
  (if jv < ns - 1 then [⟨k - 1 - (ns - 2), k - 1 - jv + 2, szK kM⟩] else []) ++    -- v[i], v[i+1], w[i]
  if k = ns ∧ jv < ns - 1 then [⟨ns - 1 - 1, ns - 1, szGi kM⟩, ⟨1, 2, szK kM⟩] else []

/-- `shampine.py:299-309`; `ivc` after a possible decrease. -/
def accUpdate (kM : ℕ) (k ns kold ivc : ℤ) : List Acc :=
  let limit1 := k + 1 - ns
  [⟨0, limit1, szK kM⟩, ⟨1, limit1 + 1, szK kM⟩, ⟨0, limit1 + 1, szK kM⟩, ⟨ns - 1, ns, szK kM⟩,
   ⟨ns, ns + 1, szK1 kM⟩, ⟨0, 1, szK kM⟩] ++
  (if limit1 ≠ 1 then [⟨ns - 1, ns, szGi kM⟩, ⟨1, 2, szK kM⟩] else []) ++
  if k < kold then [⟨ivc, ivc + 1, szIv kM⟩] else []

/-- `shampine.py:313-316`: for every `i` in `ns:k` the ranges `:k-i`, `1:k-i+1` of `w` and `g[i+1]`. -/
def accLoop (kM : ℕ) (k ns : ℤ) : List Acc :=
  [⟨ns, k, szK kM⟩, ⟨0, k - ns + 1, szK kM⟩, ⟨ns + 1, k + 1, szK1 kM⟩]

/-- Block 1 (`shampine.py:258-316`). -/
def accBlock1 {K : Type*} (kM k ns kold : ℕ) (a : Coef K) : List Acc :=
  if ns ≤ k then
    accSizes kM k ns ++
    (if ns = 1 then accInit kM k
     else
       (if a.kprev < k then accRaise kM k ns a.ivc (a.iv (a.ivc - 1)) else []) ++
       accUpdate kM k ns kold (if a.kprev < k ∧ a.ivc ≠ 0 then a.ivc - 1 else a.ivc)) ++
    accLoop kM k ns
  else []

/-- Blocks 2 and 3 (`shampine.py:326-381`). -/
def accBlock23 (kM : ℕ) (k ns : ℤ) : List Acc :=
  [⟨ns, k, szPhi kM⟩, ⟨ns, k, szK kM⟩, ⟨k + 1, k + 2, szPhi kM⟩, ⟨k, k + 1, szPhi kM⟩, ⟨0, k, szPhi kM⟩,
   ⟨0, k, szK1 kM⟩, ⟨k - 1, k, szK1 kM⟩, ⟨k, k + 1, szK1 kM⟩, ⟨k - 1, k, szTup⟩] ++
  (if 2 < k then [⟨k - 2, k - 1, szPhi kM⟩, ⟨k - 2, k - 1, szK1 kM⟩, ⟨k - 2 - 1, k - 2, szTup⟩] else []) ++
  (if 1 < k then [⟨k - 1, k, szPhi kM⟩, ⟨k - 1, k, szK1 kM⟩, ⟨k - 2, k - 1, szTup⟩] else []) ++
  [⟨1, k + 1, szPhi kM⟩, ⟨0, k, szK kM⟩, ⟨0, k - 1, szK kM⟩, ⟨1, k, szK kM⟩]

/-- Block 4 (`shampine.py:411-458`); `kn` is the order of the next step. -/
def accBlock4 (kM : ℕ) (k kn : ℤ) : List Acc :=
  [⟨k, k + 1, szK1 kM⟩, ⟨k, k + 1, szPhi kM⟩, ⟨k + 1, k + 2, szPhi kM⟩, ⟨0, k, szPhi kM⟩, ⟨k, k + 1, szTup⟩,
   ⟨kn, kn + 1, szTup⟩]

/-- `SwagDenseOutput.__init__` (`shampine.py:503-523`). -/
def accDense {K : Type*} (kM kold : ℕ) (a : Coef K) : List Acc :=
  let iw : ℤ := a.iv (a.ivc - 1)
  let m : ℤ := if a.ivc = 0 then 1 else kold - iw + 2
  (if kold ≤ a.kgi then [⟨kold - 1, kold, szGi kM⟩]
   else
     (if a.ivc = 0 then [⟨kold, kold + 1, szK1 kM⟩]
      else [⟨a.ivc - 1, a.ivc, szIv kM⟩, ⟨iw - 1, iw, szK kM⟩]) ++
     [⟨m, kold, szK kM⟩] ++ (if m < kold then [⟨1, kold - m + 1, szK kM⟩] else [])) ++
  [⟨0, kold + 1, szK1 kM⟩, ⟨0, kold + 1, szPhi kM⟩, ⟨1, kold, szK kM⟩]

end Extensisq
