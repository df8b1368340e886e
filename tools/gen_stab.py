"""Certificates for Props/StabilityRegion.lean: integer polynomials and subdivisions, checked by the kernel.
Mirrors the list functions of Lemmas/PosCheck.lean and Lemmas/StabPoly.lean exactly (lengths included)."""
import sys
sys.path.insert(0,'/verif/tools')
from tables import *
from math import gcd
C=all_classes()
def addP(p,q):
    n=max(len(p),len(q)); return [(p[i] if i<len(p) else 0)+(q[i] if i<len(q) else 0) for i in range(n)]
def smulP(a,p): return [a*x for x in p]
def mulP(p,q):
    if not p: return []
    return addP(smulP(p[0],q),[0]+mulP(p[1:],q))
def add2(M,N):
    n=max(len(M),len(N)); return [addP(M[i] if i<len(M) else [],N[i] if i<len(N) else []) for i in range(n)]
def smul2(a,M): return [smulP(a,p) for p in M]
def mul2(M,N):
    if not M: return []
    return add2([mulP(M[0],p) for p in N],[[]]+mul2(M[1:],N))
def subP(a,w,p):
    if not p: return []
    s=subP(a,w,p[1:]); return addP([p[0]],addP(smulP(a,s),[0]+smulP(w,s)))
def sub2(a,w,M):
    if not M: return []
    s=sub2(a,w,M[1:]); return add2([M[0]],add2(smul2(a,s),[[]]+smul2(w,s)))
def table(n):
    c=C[n]; s=int(c.n_stages); A=c.A
    try: A=[[F(A[i][j]) for j in range(s)] for i in range(s)]
    except Exception: A=[[F(A[i,j]) for j in range(s)] for i in range(s)]
    return s,A,[F(c.B[j]) for j in range(s)]
def comb(row,ps):
    r=[]
    for a,p in reversed(list(zip(row,ps))): r=addP(smulP(a,p),r)
    return r
def stabP(n):
    s,A,B=table(n); st=[]
    for i in range(s): st.append([F(1)]+comb(A[i],st))
    return [F(1)]+comb(B,st)
# integer part
def lbZ(p):
    r=0
    for a in reversed(p): r=a+min(0,r)
    return r
def lb2Z(M):
    r=0
    for p in reversed(M): r=lbZ(p)+min(0,r)
    return r
def shiftZ(p):
    q=list(p); n=len(q)
    for i in range(n-1):
        for j in range(n-2,i-1,-1): q[j]+=q[j+1]
    return q
def shift2Z(M):
    w=max(map(len,M)); M=[p+[0]*(w-len(p)) for p in M]
    cols=[shiftZ(list(c)) for c in zip(*M)]
    return [list(r) for r in zip(*cols)]
def split(M,n,m,depth=0):
    if lb2Z(M)>0: return '.leaf'
    if depth>40: raise Exception('depth')
    vc=sum(abs(x) for x in M[0][1:]); vr=sum(abs(p[0]) for p in M[1:] if p)
    if vr>=vc:
        H=[[x<<max(n-i,0) for x in p] for i,p in enumerate(M)]
        return f"(.r {split(H,n,m,depth+1)} {split(shift2Z(H),n,m,depth+1)})"
    H=[[x<<max(m-i,0) for i,x in enumerate(p)] for p in M]
    return f"(.c {split(H,n,m,depth+1)} {split([shiftZ(p) for p in H],n,m,depth+1)})"

def quadZ(p):
    if not p: return [],[]
    a,b=quadZ(p[1:])
    return add2([[p[0]]],[[],[]]+smul2(-1,b)), add2(a,[[]]+[mulP([0,-2],r) for r in b])
def normZ(q):
    a,b=q
    return add2(mul2(a,a),add2([[]]+[mulP([0,-2],r) for r in mul2(a,b)],[[],[]]+mul2(b,b)))
def subZ(q,a,w,n,p):
    if not p: return []
    s=subZ(q,a,w,n-1,p[1:]); return addP([q**max(n,0)*p[0]],addP(smulP(a,s),[0]+smulP(w,s)))
def sub2Z(q,a,w,n,M):
    if not M: return []
    s=sub2Z(q,a,w,n-1,M[1:]); return add2([smulP(q**max(n,0),M[0])],add2(smul2(a,s),[[]]+smul2(w,s)))
def q(x):
    x=F(x); return f"{x.numerator}" if x.denominator==1 else f"{x.numerator} / {x.denominator}"
def iv(lo,hi):
    Q=lo.denominator*hi.denominator//gcd(lo.denominator,hi.denominator)
    return Q,int(lo*Q),int((hi-lo)*Q)
def cert(M,I,J):
    n=len(M)-1; m=max(map(len,M))-1
    W=sub2Z(*I,n,[subZ(*J,m,p) for p in M])
    g=0
    for p in W:
        for x in p: g=gcd(g,x)
    Z=[[x//g for x in p] for p in W]
    return g,Z,n,m,split(Z,n,m)
def lines(s,w=150):
    out=[]
    while len(s)>w:
        i=s.rfind(' ',0,w)
        if i<0: i=s.find(' ')
        if i<0: break
        out.append(s[:i]); s=s[i+1:]
    out.append(s); return '\n    '.join(out)
def zl(Z): return lines('['+', '.join('['+', '.join(map(str,p))+']' for p in Z)+']')
meth={'Me4':(F(20),F(34,10),F(89,100)),'CK5':(F(24,10),F(37,10),F(9,10)),'BS5':(F(52,10),F(39,10),F(9,10)),'CFMR7osc':(F(40),F(47,10),F(9,10)),
 'Ts5':(F(3),F(35,10),F(9,10)),'Pr7':(F(75,10),F(41,10),F(9,10)),'Pr8':(F(6),F(45,10),F(9,10)),'Pr9':(F(75,10),F(46,10),F(9,10))}
HEAD="""import Verif.Lemmas.StabPoly

/-!
# Certificates for the stability regions

Generated by `/verif/tools/gen_stab.py`, checked here by the kernel. Proof machinery for `Props/StabilityRegion.lean`.
-/

set_option maxRecDepth 1000000

namespace Extensisq
"""
def ceil6(v): return F(-int(-v*10**6//1),10**6)
if __name__=='__main__':
    names=sys.argv[1].split(','); out=open(sys.argv[2],'w')
    print(HEAD,file=out)
    for n in names:
        tau,rad,fac=meth[n]
        p=stabP(n)
        k=10**4; c0=F(int(k/(1+float(tau)**2)**.5),k)
        assert c0**2*(1+tau**2)<=1
        dec=n in('Pr8','Pr9','Ts5')
        if dec:
            N=10**16; qz=[round(x*N) for x in p]
            while qz[-1]==0: qz.pop()
        else:
            N=1
            for x in p: N=N*x.denominator//gcd(N,x.denominator)
            qz=[int(x*N) for x in p]
        qq=[F(x,N) for x in qz]
        def near(rho):
            e=addP(p,smulP(F(-1),qq)); assert e[0]==0
            return ceil6(sum(abs(x)*rho**i for i,x in enumerate(e[1:])))
        print(f"/-- The stability polynomial of `{n}`{', rounded' if dec else ''}, times {N}. -/\ndef {n}_stabQ : List ℤ :=\n    {lines('['+', '.join(map(str,qz))+']')}\n",file=out)
        T=normZ(quadZ(qz))
        J=iv(c0,F(1))
        # inner
        I=(lambda x:(x.denominator,0,x.numerator))(fac*rad)
        eps=near(fac*rad); e,d=eps.numerator,eps.denominator
        D=add2([[N**2]],smul2(-1,T)); assert all(x==0 for x in D[0])
        M=add2([[-3*e*N**2]],smul2(d,D[1:]))
        g,Z,nn,m,S=cert(M,I,J)
        print(f"theorem {n}_inner : innerCheck (stabP {n}) {N} {n}_stabQ ({q(tau)}) ⟨{I[0]}, {I[1]}, {I[2]}⟩ ⟨{J[0]}, {J[1]}, {J[2]}⟩ {e} {d} {nn} {m}\n    {lines(S)} = true := by decide +kernel\n",file=out)
        # outer
        w0=F(1)/(F(3,2)*rad) if dec else F(0)
        if n=='Ts5': w0=F(1)/(2*rad)
        I=iv(w0,F(1)/(F(105,100)*rad))
        eps2=near(1/w0) if dec else F(0); eta=ceil6(eps2/w0) if dec else F(0); e,d=eta.numerator,eta.denominator
        M=add2([[-(d+3*e)*N**2]],smul2(d,T))[::-1]
        while all(x==0 for x in M[0]): M=M[1:]
        g,Z,nn,m,S2=cert(M,I,J)
        print(f"theorem {n}_outer : outerCheck (stabP {n}) {N} {n}_stabQ ({q(tau)}) ⟨{I[0]}, {I[1]}, {I[2]}⟩ ⟨{J[0]}, {J[1]}, {J[2]}⟩ ({q(eps2)}) {e} {d} {nn} {m}\n    {lines(S2)} = true := by decide +kernel\n",file=out)
        print(n,float(eps),float(eta),S.count('leaf'),S2.count('leaf'),file=sys.stderr)
    print('end Extensisq',file=out)
