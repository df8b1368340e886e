"""Evaluate the class-level coefficient tables of /repo/extensisq exactly (Fractions, or a+b*sqrt(2)).
numpy is not available: a small exact array stub is used.  Decimal literals are taken as exact decimals
(Python rounds them to binary64)."""
import ast, sys
from fractions import Fraction as F

class Q2:
    """a + b*sqrt(2)"""
    def __init__(s,a,b=0): s.a=F(a); s.b=F(b)
    @staticmethod
    def of(x): return x if isinstance(x,Q2) else Q2(x)
    def __add__(s,o):
        if isinstance(o,Arr): return NotImplemented
        o=Q2.of(o); return Q2(s.a+o.a,s.b+o.b)
    __radd__=__add__
    def __neg__(s): return Q2(-s.a,-s.b)
    def __pos__(s): return s
    def __sub__(s,o):
        if isinstance(o,Arr): return NotImplemented
        return s+(-Q2.of(o))
    def __rsub__(s,o): return Q2.of(o)-s
    def __mul__(s,o):
        if isinstance(o,Arr): return NotImplemented
        o=Q2.of(o); return Q2(s.a*o.a+2*s.b*o.b,s.a*o.b+s.b*o.a)
    __rmul__=__mul__
    def inv(s):
        n=s.a*s.a-2*s.b*s.b; return Q2(s.a/n,-s.b/n)
    def __truediv__(s,o):
        if isinstance(o,Arr): return NotImplemented
        return s*Q2.of(o).inv()
    def __rtruediv__(s,o): return Q2.of(o)*s.inv()
    def __pow__(s,n):
        n=int(n); r=Q2(1)
        for _ in range(abs(n)): r=r*s
        return r if n>=0 else r.inv()
    def __eq__(s,o): o=Q2.of(o); return s.a==o.a and s.b==o.b
    def __hash__(s): return hash((s.a,s.b))
    def __repr__(s): return f"Q2({s.a},{s.b})"
    def __float__(s): return float(s.a)+float(s.b)*2**.5

class Arr:
    def __init__(s,d): s.d=[Arr(x).d if isinstance(x,(list,tuple)) else (x.d if isinstance(x,Arr) else x) for x in (d.d if isinstance(d,Arr) else d)]
    @property
    def is2(s): return bool(s.d) and isinstance(s.d[0],list)
    @property
    def shape(s): return (len(s.d),len(s.d[0])) if s.is2 else (len(s.d),)
    @property
    def size(s): return len(s.d)*(len(s.d[0]) if s.is2 else 1)
    @property
    def T(s): return Arr([list(c) for c in zip(*s.d)]) if s.is2 else s
    def _ix(s,k,n):
        if isinstance(k,slice):
            return range(n)[slice(*(None if v is None else int(v) for v in (k.start,k.stop,k.step)))]
        return int(k) if int(k)>=0 else n+int(k)
    def __getitem__(s,k):
        if isinstance(k,tuple):
            r=s._ix(k[0],len(s.d)); c=s._ix(k[1],len(s.d[0]))
            if isinstance(r,int) and isinstance(c,int): return s.d[r][c]
            if isinstance(r,int): return Arr([s.d[r][j] for j in c])
            if isinstance(c,int): return Arr([s.d[i][c] for i in r])
            return Arr([[s.d[i][j] for j in c] for i in r])
        r=s._ix(k,len(s.d))
        if isinstance(r,int): return Arr(s.d[r]) if s.is2 else s.d[r]
        return Arr([s.d[i] for i in r])
    def __setitem__(s,k,v):
        v=v.d if isinstance(v,Arr) else v
        if isinstance(k,tuple):
            r=s._ix(k[0],len(s.d)); c=s._ix(k[1],len(s.d[0]))
            if isinstance(r,int) and isinstance(c,int): s.d[r][c]=v; return
            if isinstance(c,int):
                for n,i in enumerate(r): s.d[i][c]=v[n] if isinstance(v,list) else v
                return
            raise NotImplementedError
        r=s._ix(k,len(s.d))
        if isinstance(r,int): s.d[r]=v; return
        for n,i in enumerate(r): s.d[i]=v[n] if isinstance(v,list) else v
    def _bin(s,o,f):
        if isinstance(o,(list,tuple)): o=Arr(o)
        if isinstance(o,Arr):
            if s.is2 and o.is2: return Arr([[f(a,b) for a,b in zip(x,y)] for x,y in zip(s.d,o.d)])
            if s.is2: return Arr([[f(a,b) for a,b in zip(x,o.d)] for x in s.d])
            if o.is2: return Arr([[f(a,b) for a,b in zip(s.d,y)] for y in o.d])
            return Arr([f(a,b) for a,b in zip(s.d,o.d)])
        if s.is2: return Arr([[f(a,o) for a in x] for x in s.d])
        return Arr([f(a,o) for a in s.d])
    def __add__(s,o): return s._bin(o,lambda a,b:a+b)
    __radd__=__add__
    def __sub__(s,o): return s._bin(o,lambda a,b:a-b)
    def __rsub__(s,o): return s._bin(o,lambda a,b:b-a)
    def __mul__(s,o): return s._bin(o,lambda a,b:a*b)
    __rmul__=__mul__
    def __truediv__(s,o): return s._bin(o,lambda a,b:a/b)
    def __neg__(s): return Arr([[-a for a in x] for x in s.d]) if s.is2 else Arr([-a for a in s.d])
    def __isub__(s,o):
        r=s-o; s.d=r.d; return s
    def __iadd__(s,o):
        r=s+o; s.d=r.d; return s
    def __imul__(s,o):
        r=s*o; s.d=r.d; return s
    def __matmul__(s,o):
        if s.is2 and not o.is2: return Arr([sum((a*b for a,b in zip(x,o.d)),F(0)) for x in s.d])
        if not s.is2 and o.is2: return o.T@s
        if not s.is2: return sum((a*b for a,b in zip(s.d,o.d)),F(0))
        return Arr([[sum((a*b for a,b in zip(x,y)),F(0)) for y in zip(*o.d)] for x in s.d])
    def sum(s,axis=None):
        if axis is None: return sum((sum(x,F(0)) for x in s.d),F(0)) if s.is2 else sum(s.d,F(0))
        axis=int(axis)
        return Arr([sum(x,F(0)) for x in (s.d if axis in(1,-1) else zip(*s.d))])
    def copy(s): return Arr(s)
    def __len__(s): return len(s.d)
    def __iter__(s): return iter([Arr(x) for x in s.d] if s.is2 else s.d)
    def reshape(s,*a): raise NotImplementedError
class NP:
    ndarray=Arr; inf=None
    array=staticmethod(lambda d,*a,**k:Arr(d))
    @staticmethod
    def zeros(n,*a):
        if isinstance(n,tuple): return Arr([[F(0)]*int(n[1]) for _ in range(int(n[0]))])
        return Arr([F(0)]*int(n))
    @staticmethod
    def arange(a,b=None): return Arr([F(i) for i in (range(int(a)) if b is None else range(int(a),int(b)))])
    @staticmethod
    def sqrt(x):
        assert x==2; return Q2(0,1)
class Tr(ast.NodeTransformer):
    def __init__(s,src): s.src=src
    def visit_Constant(s,n):
        if isinstance(n.value,bool) or not isinstance(n.value,(int,float)): return n
        txt=ast.get_source_segment(s.src,n).replace('_','')
        return ast.copy_location(ast.Call(func=ast.Name('_F',ast.Load()),args=[ast.Constant(txt)],keywords=[]),n)
    def visit_FunctionDef(s,n): return None
def load(fn,classes_env=None):
    src=open(fn).read(); tree=ast.parse(src)
    class Any: pass
    env=dict(np=NP,_F=lambda t:F(t),RungeKutta=type('RungeKutta',(),{}),RungeKuttaNystrom=type('RKN',(),{}),ESDIRK=type('ESDIRK',(),{}),
             OdeSolver=object,DenseOutput=object,NotImplemented=NotImplemented,sqrt=NP.sqrt)
    if classes_env: env.update(classes_env)
    body=[]
    for n in tree.body:
        if isinstance(n,ast.ClassDef):
            n=Tr(src).visit(n); n.body=n.body or [ast.Pass()]
            m=ast.Module([n],[]); ast.fix_missing_locations(m)
            try: exec(compile(m,fn,'exec'),env)
            except Exception as e: print('skip',n.name,repr(e),file=sys.stderr)
    return {k:v for k,v in env.items() if isinstance(v,type)}
R='/repo/extensisq/'
def all_classes():
    out={}
    for f in 'bogacki calvo cash murua fine merson mikkawy tsitouras prince hosea kennedy kvaerno'.split():
        for k,v in load(R+f+'.py').items():
            if k in('RungeKutta','RungeKuttaNystrom','ESDIRK','NP','OdeSolver','DenseOutput'): continue
            if v.__dict__: out[k]=v; v._file=f
    return out
if __name__=='__main__':
    for k,v in all_classes().items():
        print(k,v._file,{a:(getattr(v,a).shape if isinstance(getattr(v,a),Arr) else getattr(v,a)) for a in dir(v) if not a.startswith('_') and not callable(getattr(v,a))})
