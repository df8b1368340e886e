"""Generate lean/Verif/Model/NystromTables.lean from the Python sources (exact literals)."""
from gen_tables import *
out=['''import Verif.Model.Nystrom

/-!
# Coefficient tables of the Nystrom methods

Generated by `/verif/tools/gen_nystrom.py` from the class bodies in `/repo/extensisq` by exact evaluation of
the literals. The rounding of every coefficient to binary64 is not modelled; the decimal tables of
interpolant 3 of `Fi5N` are taken as exact decimals.
-/

namespace Extensisq
''']
N=['n_stages','order','order_secondary','A','Ap','B','Bp','C','E','Ep']
for k in ['MR6NN','Fi4N','Fi5N','Mu5Nmb']:
    m=C[k]; hasAp=hasattr(m,'Ap') and isinstance(m.Ap,Arr)
    out.append(f'''/-- `{k}` ({lines(k,N)}).{'' if hasAp else ' `Ap` is not defined: velocity independent problems only.'} -/
def {k} : NyTable where
  s := {m.n_stages}
  order := {m.order}
  orderSec := {m.order_secondary}
  hasAp := {str(hasAp).lower()}
  A := {mat(m.A.d,7)}
  Ap := {mat(m.Ap.d,8) if hasAp else '[]'}
  B := {vec(m.B.d,7)}
  Bp := {vec(m.Bp.d,8)}
  C := {vec(m.C.d,7)}
  E := {vec(m.E.d,7)}
  Ep := {vec(m.Ep.d,8)}
''')
def tb(cls,name,x):
    d=x.d if isinstance(x,Arr) else list(x)
    is2=bool(d) and isinstance(d[0],list)
    out.append(f'''/-- `{cls}.{name}` ({lines(cls,[name])}). -/
def {cls}_{name} : List {'(List ℚ)' if is2 else 'ℚ'} :=
  {mat(d,2) if is2 else vec(d,2)}
''')
tb('MR6NN','P',C['MR6NN'].P); tb('MR6NN','Pp',C['MR6NN'].Pp)
f=C['Fi5N']
for i in '123':
    for a in ('C_extra','A_extra','Ap_extra','P','Pp'): tb('Fi5N',a+i,getattr(f,a+i))
tb('Fi5N','Bi',f.Bi)
m=C['Mu5Nmb']
out.append(f'''/-- `Mu5Nmb.C_extra` ({lines('Mu5Nmb',['C_extra'])}). -/
def Mu5Nmb_C_extra : ℚ := {q(m.C_extra)}
''')
for a in ('A_extra','Ap_extra','P_better','Pp_better'): tb('Mu5Nmb',a,getattr(m,a))
out.append('end Extensisq\n')
open('/verif/lean/Verif/Model/NystromTables.lean','w').write('\n'.join(out))
