from tables import *
import itertools, sys
C=all_classes()
def trees(T,A,s,p):
    # list of (phi vector, r) by order using Butcher product, dedupe by (canonical) tuple
    lv={1:[((), [F(1)]*s, F(1))]}
    def Av(v): return [sum((A[i][j]*v[j] for j in range(s) if A[i][j]!=0),F(0)) for i in range(s)]
    avs={}
    for n in range(2,p+1):
        seen=set(); out=[]
        for k in range(1,n):
            for (tu,u,ru) in lv[k]:
                for (tv,v,rv) in lv[n-k]:
                    t=tuple(sorted(tu+(tv,)))
                    if t in seen: continue
                    seen.add(t)
                    if tv not in avs: avs[tv]=Av(v)
                    out.append((t,[a*b for a,b in zip(u,avs[tv])],ru*rv*(n-k)))
        lv[n]=out
    return lv
def order(A,b,p):
    s=len(b)
    lv=trees(None,A,s,p)
    for n in range(1,p+1):
        bad=[]
        for t,v,r in lv[n]:
            w=sum((b[i]*v[i] for i in range(s)),F(0))
            if w*r*n!=1: bad.append(float(w*r*n-1))
        if bad: return n-1,len(bad),max(abs(x) for x in bad)
    return p,0,0
for k in sys.argv[1:] or ['Me4','CK5','BS5','CFMR7osc','Ts5','Pr7','Pr8','Pr9']:
    m=C[k]; s=int(m.n_stages); A=[list(r) for r in m.A.d]; B=list(m.B.d)
    p=int(m.order)
    # row sums
    rs=[sum(A[i],F(0))-m.C.d[i] for i in range(s)]
    print(k,'rowsum ok',all(x==0 for x in rs), 'strict lower',all(A[i][j]==0 for i in range(s) for j in range(i,s)))
    print('   main',p,order(A,B,p+1))
    E=list(m.E.d)
    # embedded: B+E with extra FSAL row
    A2=[A[i]+[F(0)] for i in range(s)]+[B+[F(0)]]
    Bh=[b+e for b,e in zip(B+[F(0)],E)]
    print('   emb',m.order_secondary,order(A2,Bh,int(m.order_secondary)+1), 'E[-1]',E[-1])
    P=m.P.d
    print('   Prowsum', all(sum(P[i],F(0))==(B+[F(0)])[i] for i in range(s+1)), max(abs(float(sum(P[i],F(0))-(B+[F(0)])[i])) for i in range(s+1)), 'P col0', P[0][0], [float(P[i][0]) for i in range(1,s+1)],'dend',[float(sum((j+1)*P[i][j] for j in range(len(P[i])))) for i in range(s+1)])
