"""Generate lean/Verif/Model/EsdirkTables.lean from the class bodies of hosea.py, kennedy.py, kvaerno.py."""
import sys; sys.path.insert(0,'/verif/tools')
import tables, re
from fractions import Fraction as F
cl=tables.all_classes()
kc=tables.load(tables.R+'kennedy.py')['KC']
cl['Kv3I']=tables.load(tables.R+'kvaerno.py',{'KC':kc})['Kv3I']
cl['Kv3I']._file='kvaerno'
def q(x):
    x=tables.Q2.of(x)
    def r(f): return str(f.numerator) if f.denominator==1 else f"{f.numerator}/{f.denominator}"
    return f"⟨{r(x.a)}, {r(x.b)}⟩"
def row(v): return "["+", ".join(q(x) for x in v)+"]"
def mat(m,ind): return "["+(",\n"+" "*ind).join(row(r) for r in m)+"]"
def lines(f,n):
    src=open(f'/repo/extensisq/{f}.py').read().split('\n')
    a=next(i for i,l in enumerate(src) if l.startswith(f'class {n}('))
    e=next((i for i in range(a+1,len(src)) if src[i].startswith('class ')),len(src))
    # coefficients start after the docstring
    s=[i for i in range(a,e) if src[i].strip()=='"""' ][-1]+2 if any(src[i].strip()=='"""' for i in range(a,e)) else a+1
    while e>s and not src[e-1].strip(): e-=1
    return s,e
out='''import Mathlib.Algebra.Field.Rat
import Mathlib.Algebra.Ring.Hom.Defs
import Mathlib.Data.Rat.Cast.CharZero
import Mathlib.Tactic.Ring
import Verif.Model.Esdirk

/-!
# Coefficient tables of the ESDIRK methods

Generated by `/verif/tools/gen_esdirk.py` from the class bodies in `/repo/extensisq` by exact evaluation of the
literals. Entries are numbers `a + b √2` with rational `a`, `b`. Decimal literals (Kv3I, parts of KC4I and
KC4Ia) and quotients of large integers are taken as the exact numbers; the rounding of every coefficient
to binary64 is not modelled.
-/

namespace Extensisq

/-- Numbers `a + b √2`. -/
@[ext] structure Q2 where
  a : ℚ
  b : ℚ
  deriving DecidableEq

namespace Q2
instance : Zero Q2 := ⟨⟨0, 0⟩⟩
instance : One Q2 := ⟨⟨1, 0⟩⟩
instance : Add Q2 := ⟨fun x y => ⟨x.a + y.a, x.b + y.b⟩⟩
instance : Neg Q2 := ⟨fun x => ⟨-x.a, -x.b⟩⟩
instance : Sub Q2 := ⟨fun x y => ⟨x.a - y.a, x.b - y.b⟩⟩
instance : Mul Q2 := ⟨fun x y => ⟨x.a * y.a + 2 * (x.b * y.b), x.a * y.b + x.b * y.a⟩⟩
instance : NatCast Q2 := ⟨fun n => ⟨n, 0⟩⟩
instance : IntCast Q2 := ⟨fun n => ⟨n, 0⟩⟩

theorem zero_def : (0 : Q2) = ⟨0, 0⟩ := rfl
theorem one_def : (1 : Q2) = ⟨1, 0⟩ := rfl
theorem add_def (x y : Q2) : x + y = ⟨x.a + y.a, x.b + y.b⟩ := rfl
theorem mul_def (x y : Q2) : x * y = ⟨x.a * y.a + 2 * (x.b * y.b), x.a * y.b + x.b * y.a⟩ := rfl
theorem neg_def (x : Q2) : -x = ⟨-x.a, -x.b⟩ := rfl
theorem sub_def (x y : Q2) : x - y = ⟨x.a - y.a, x.b - y.b⟩ := rfl
theorem natCast_def (n : ℕ) : (n : Q2) = ⟨n, 0⟩ := rfl
theorem intCast_def (n : ℤ) : (n : Q2) = ⟨n, 0⟩ := rfl

instance : CommRing Q2 where
  add_assoc x y z := by simp only [add_def]; ext <;> simp only <;> ring
  zero_add x := by simp only [add_def, zero_def]; ext <;> simp only <;> ring
  add_zero x := by simp only [add_def, zero_def]; ext <;> simp only <;> ring
  add_comm x y := by simp only [add_def]; ext <;> simp only <;> ring
  left_distrib x y z := by simp only [add_def, mul_def]; ext <;> simp only <;> ring
  right_distrib x y z := by simp only [add_def, mul_def]; ext <;> simp only <;> ring
  zero_mul x := by simp only [mul_def, zero_def]; ext <;> simp only <;> ring
  mul_zero x := by simp only [mul_def, zero_def]; ext <;> simp only <;> ring
  mul_assoc x y z := by simp only [mul_def]; ext <;> simp only <;> ring
  one_mul x := by simp only [mul_def, one_def]; ext <;> simp only <;> ring
  mul_one x := by simp only [mul_def, one_def]; ext <;> simp only <;> ring
  mul_comm x y := by simp only [mul_def]; ext <;> simp only <;> ring
  neg_add_cancel x := by simp only [add_def, neg_def, zero_def]; ext <;> simp only <;> ring
  sub_eq_add_neg x y := by simp only [add_def, neg_def, sub_def]; ext <;> simp only <;> ring
  nsmul := nsmulRec
  zsmul := zsmulRec
  natCast_zero := by simp only [natCast_def, zero_def]; ext <;> simp
  natCast_succ n := by simp only [natCast_def, one_def, add_def]; ext <;> simp
  intCast_ofNat n := by simp only [natCast_def, intCast_def]; ext <;> simp
  intCast_negSucc n := by simp only [natCast_def, intCast_def, neg_def]; ext <;> simp

/-- The value in a field, where `r` is a square root of two. -/
def val {K : Type*} [DivisionRing K] (r : K) (x : Q2) : K := (x.a : K) + (x.b : K) * r

/-- Evaluation is a ring homomorphism. -/
def hom {K : Type*} [Field K] [CharZero K] (r : K) (hr : r * r = 2) : Q2 →+* K where
  toFun := val r
  map_one' := by simp [val, one_def]
  map_zero' := by simp [val, zero_def]
  map_add' x y := by simp only [val, add_def]; push_cast; ring
  map_mul' x y := by
    simp only [val, mul_def]; push_cast
    linear_combination ((x.b : K) * y.b) * (-hr)
end Q2

/-- Class attributes of an ESDIRK class; `P0`, `P1` are the coefficients of the two interpolants (empty: none). -/
structure ESTable where
  n : ℕ
  order : ℕ
  orderSec : ℕ
  d : Q2
  A : List (List Q2)
  Az : List (List Q2)
  B : List Q2
  C : List Q2
  E : List Q2
  P0 : List (List Q2)
  P1 : List (List Q2)
  kappa : ℚ
  filter : Bool

/-- The coefficients used by the driver model, over any field with a square root `r` of two. -/
def ESTable.tab (R : ESTable) (K : Type*) [DivisionRing K] (r : K) : ETab K where
  n := R.n
  d := R.d.val r
  A i j := ((R.A.getD i []).getD j 0).val r
  Az i j := ((R.Az.getD i []).getD j 0).val r
  B i := (R.B.getD i 0).val r
  C i := (R.C.getD i 0).val r
  E i := (R.E.getD i 0).val r
  kappa := (R.kappa : K)
  filter := R.filter

'''
for n in ['TRBDF2','TRX2','KC3I','KC4I','KC4Ia','Kv3I']:
    c=cl[n]; f=c._file
    hs=n in('TRBDF2','TRX2')
    s,e=(329,342) if n=='TRX2' else lines(f,n)
    g=lambda a:getattr(c,a)
    ns,o,os_=(3,2,3) if hs else (int(g('n_stages')),int(g('order')),int(g('order_secondary')))
    out+=f"/-- `{n}` ({f}.py:{s}-{e}"+(", hosea.py:10-13" if hs else ", kennedy.py:9" if f=='kennedy' else "")+"). -/\n"
    out+=f"def {n} : ESTable where\n  n := {ns}\n  order := {o}\n  orderSec := {os_}\n  d := {q(g('d'))}\n"
    for a in ['A','Az']: out+=f"  {a} := {mat(g(a).d,8)}\n"
    for a in ['B','C','E']: out+=f"  {a} := {row(g(a).d)}\n"
    for a in ['P0','P1']:
        out+=f"  {a} := "+("[]" if hs else mat(g(a).d,9))+"\n"
    k=F(g('kappa')); out+=f"  kappa := {k}\n  filter := {'true' if hs else 'false'}\n\n"
out+="end Extensisq\n"
open('/verif/lean/Verif/Model/EsdirkTables.lean','w').write(out)
