"""Generate lean/Verif/Model/Tables.lean from the Python sources (exact literals)."""
from tables import *
import ast
C=all_classes()
def q(x):
    x=F(x)
    return f"{x.numerator}" if x.denominator==1 else f"{x.numerator}/{x.denominator}"
def wrap(items,ind,op='[',cl=']'):
    out=[];line=op
    for n,i in enumerate(items):
        tok=i+(', ' if n<len(items)-1 else '')
        if len(line)+len(tok)+ind>98 and line.strip() not in('[',): out.append(line.rstrip()); line=' '
        line+=tok
    out.append(line+cl)
    return ('\n'+' '*ind).join(out)
def vec(v,ind=4): return wrap([q(x) for x in v],ind)
def mat(m,ind=4):
    return '['+(',\n'+' '*(ind+1)).join(wrap([q(x) for x in r],ind+1) for r in m)+']'
def lines(cls,names):
    f=R+C[cls]._file+'.py'; tree=ast.parse(open(f).read())
    for n in tree.body:
        if isinstance(n,ast.ClassDef) and n.name==cls:
            L=[]
            for st in n.body:
                tg=None
                if isinstance(st,ast.Assign): tg=st.targets[0]
                if isinstance(st,ast.AugAssign): tg=st.target
                if tg is None: continue
                while isinstance(tg,ast.Subscript): tg=tg.value
                if isinstance(tg,ast.Name) and tg.id in names: L+=[st.lineno,st.end_lineno]
            return f"{C[cls]._file}.py:{min(L)}-{max(L)}"
out=['''import Mathlib.Data.Rat.Cast.Order
import Verif.Model.RK

/-!
# Coefficient tables of the explicit Runge-Kutta methods

Generated by `/verif/tools/gen_tables.py` from the class bodies in `/repo/extensisq` by exact evaluation
of the literals.  Decimal literals (Ts5, Pr8, Pr9) are taken as the exact decimal numbers; the
rounding of every coefficient to binary64 is not modelled.
-/

namespace Extensisq

/-- Class attributes `n_stages, order, order_secondary, A, B, C, E, P` of a solver class. -/
structure RKTable where
  s : ℕ
  order : ℕ
  orderSec : ℕ
  A : List (List ℚ)
  B : List ℚ
  C : List ℚ
  E : List ℚ
  P : List (List ℚ)

/-- The tableau used by the driver model, over any field. -/
def RKTable.tab (R : RKTable) (K : Type*) [DivisionRing K] : Tableau K where
  s := R.s
  A i j := (((R.A.getD i []).getD j 0 : ℚ) : K)
  B i := ((R.B.getD i 0 : ℚ) : K)
  C i := ((R.C.getD i 0 : ℚ) : K)
  E i := ((R.E.getD i 0 : ℚ) : K)
''']
for k in ['Me4','CK5','BS5','CFMR7osc','Ts5','Pr7','Pr8','Pr9']:
    m=C[k]
    out.append(f'''/-- `{k}` ({lines(k,['n_stages','order','order_secondary','A','B','C','E','P'])}). -/
def {k} : RKTable where
  s := {m.n_stages}
  order := {m.order}
  orderSec := {m.order_secondary}
  A := {mat(m.A.d,7)}
  B := {vec(m.B.d,7)}
  C := {vec(m.C.d,7)}
  E := {vec(m.E.d,7)}
  P := {mat(m.P.d,7)}
''')
out.append('end Extensisq\n')
open('/verif/lean/Verif/Model/Tables.lean','w').write('\n'.join(out))
