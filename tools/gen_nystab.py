"""Certificates for Props/NystromStability.lean: integer polynomials and subdivisions, checked by the kernel (see gen_stab.py)."""
import sys
sys.path.insert(0,'/verif/tools')
from gen_stab import *
def nytab(n):
    c=C[n]; s=int(c.n_stages)
    def mat(X):
        try: return [[F(X[i][j]) for j in range(s)] for i in range(s)]
        except Exception: return [[F(X[i,j]) for j in range(s)] for i in range(s)]
    return s,mat(c.A),mat(c.Ap),[F(c.B[i]) for i in range(s)],[F(c.Bp[i]) for i in range(s)],[F(c.C[i]) for i in range(s)]
def comb2(row,ps):
    r=[]
    for a,p in reversed(list(zip(row,ps))): r=add2(smul2(a,p),r)
    return r
X=[[],[F(1)]]; Y=[[F(0),F(1)]]
def trdet(n):
    a,b=X,Y
    s,A,Ap,B,Bp,Cc=nytab(n)
    def st(U,W):
        k=[]
        for i in range(s): k.append(add2(mul2(a,add2([[U[i]]],comb2(A[i],k))),mul2(b,add2([[W]],comb2(Ap[i],k)))))
        return k
    P=st([F(1)]*s,F(0)); Q=st(Cc,F(1))
    m11=add2([[F(1)]],comb2(B,P)); m12=add2([[F(1)]],comb2(B,Q)); m21=comb2(Bp,P); m22=add2([[F(1)]],comb2(Bp,Q))
    det=add2(mul2(m11,m22),smul2(-1,mul2(m12,m21))); tr=add2(m11,m22)
    N=1
    for M in (tr,det):
        for p in M:
            for x in p: N=N*x.denominator//gcd(N,x.denominator)
    def Z(M):
        Z=[[int(x*N) for x in p] for p in M]
        for p in Z:
            while p and p[-1]==0: p.pop()
        while not Z[-1]: Z.pop()
        return Z
    return N,Z(tr),Z(det)
def comp(a,b,T):
    r=[]
    for row in reversed(T):
        q=[]
        for x in reversed(row): q=add2([[x]],mul2(b,q))
        r=add2(q,mul2(a,r))
    return r
def factor(M,k,e):
    assert all(x==0 for p in M[:k] for x in p)
    M=M[k:]
    for p in M: assert all(x==0 for x in p[:e])
    Z=[p[e:] for p in M]
    for p in Z:
        while p and p[-1]==0: p.pop()
    while not Z[-1]: Z.pop()
    return Z
meth={'Fi4N':(F(40),F(15,10),F(4),F(89,100)),'Fi5N':(F(15),F(2),F(4),F(6,10)),'Mu5Nmb':(F(100),F(29,10),F(475,100),F(6,10))}
HEAD2=HEAD.replace('Verif.Lemmas.StabPoly','Verif.Lemmas.NyStabPoly').replace('the stability regions','the stability regions of the Nystrom methods').replace('gen_stab','gen_nystab').replace('StabilityRegion','NystromStability')
CH={'R':('[[], [], [0, -1]]','[[], [-1, -1]]'),'A':('[[], [], [-1, 0, -1]]','[[], [-2]]'),'B':('[[0, 0, -1], [], [-1]]','[[], [-2]]')}
if __name__=='__main__':
    out=open(sys.argv[2],'w'); print(HEAD2,file=out)
    for n in sys.argv[1].split(','):
        tau,re,im,kap=meth[n]; Xm=F(85,100)*re; Ym=kap*im; x1=Ym/tau
        N,T,D=trdet(n)
        print(f"/-- The trace and the determinant for `{n}`, times `{n}_nyN`. -/\ndef {n}_nyN : ℕ := {N}\n\ndef {n}_nyT : List (List ℤ) :=\n    {zl(T)}\n\ndef {n}_nyD : List (List ℤ) :=\n    {zl(D)}\n",file=out)
        print(f"theorem {n}_nyTr : eqQ (nyTr {n} varA varB) {n}_nyN {n}_nyT = true := by decide +kernel\n\ntheorem {n}_nyDet : eqQ (nyDet {n} varA varB) {n}_nyN {n}_nyD = true := by decide +kernel\n",file=out)
        Js=(add2([[N]],smul2(-1,D)),add2([[N]],add2(smul2(-1,T),D)),add2([[N]],add2(T,D)))
        nj=(f"(j1Z {n}_nyN {n}_nyD)",f"(j2Z {n}_nyN {n}_nyT {n}_nyD)",f"(j3Z {n}_nyN {n}_nyT {n}_nyD)")
        for ch,I,Jv,ks in (('R',iv(F(0),Xm),iv(F(0),F(1)),((1,0),(2,1),(0,0))),('A',iv(F(0),x1),iv(F(0),tau),((1,0),(2,0),(0,0))),('B',iv(x1,Xm),iv(F(0),Ym),((0,0),)*3)):
            a,b=[eval(t) for t in CH[ch]]
            for i,(k,e) in enumerate(ks):
                Z0=factor(comp(a,b,Js[i]),k,e)
                g,Z,nn,m,S=cert(Z0,I,Jv)
                print(n,ch,i+1,'size',len(Z0),max(map(len,Z0)),'leaves',S.count('leaf'),file=sys.stderr)
                nm=f"{n}_ny{ch}{i+1}"
                print(f"def {nm}_p : List (List ℤ) :=\n    {zl(Z0)}\n",file=out)
                print(f"theorem {nm} : posChart {nj[i]} {CH[ch][0]} {CH[ch][1]} {k} {e} {nm}_p ⟨{I[0]}, {I[1]}, {I[2]}⟩ ⟨{Jv[0]}, {Jv[1]}, {Jv[2]}⟩ {nn} {m}\n    {lines(S)} = true := by decide +kernel\n",file=out)
    print("end Extensisq",file=out)
