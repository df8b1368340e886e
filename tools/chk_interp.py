from chk_order import trees
from tables import *
C=all_classes()
def chk(name,A,P,maxp,B=None):
    s=len(A); lv=trees(None,A,s,maxp); nc=len(P[0])
    from math import comb
    for n in range(1,maxp+1):
        bad=0;mx=0
        for t,v,r in lv[n]:
            for j in range(max(nc,n)):
                w=sum((P[i][j]*v[i] for i in range(s)),F(0)) if j<nc else F(0)
                if B is None: target=F(1)/(r*n) if j+1==n else 0
                else: target=F(comb(n,j+1))/(r*n)
                if w!=target: bad+=1; mx=max(mx,abs(float(w-target)))
        if bad: print(name,'order',n-1,'bad',bad,mx); return
    print(name,'order >=',maxp)
def full(m):
    s=int(m.n_stages);A=[list(r)+[F(0)] for r in m.A.d]+[list(m.B.d)+[F(0)]]
    return A
for k in ['Me4','CK5','CFMR7osc','Pr7','BS5']:
    m=C[k]; chk(k,full(m),m.P.d,7)
m=C['BS5']; A=full(m); AE=m.A_extra.d
print(len(AE),len(AE[0]))
A1=[r+[F(0)] for r in A]+[AE[0][:8]+[F(0)]]
chk('BS5low',A1,m.Plow.d,6)
A3=[r+[F(0)]*3 for r in A]+[AE[i]+[F(0)] for i in range(3)]
chk('BS5best',A3,m.Pbest.d,6,m.B.d)
for nm,P,B in [('low',m.Plow.d,m.B.d),('free',m.P.d,m.B.d)]:
    print(nm,[sum(r)-(B+[F(0)]*9)[i] for i,r in enumerate(P)],'dend',[sum((j+1)*x for j,x in enumerate(r)) for r in P],'d0',[r[0] for r in P])
P=m.Pbest.d
print('best',[sum(x*(-1)**(j+1) for j,x in enumerate(r))+(m.B.d+[F(0)]*9)[i] for i,r in enumerate(P)],'dstart',[sum((j+1)*x*(-1)**j for j,x in enumerate(r)) for r in P],'dend',[r[0] for r in P])
