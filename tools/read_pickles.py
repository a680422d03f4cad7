"""Prints the contents of the pickled example files in vts/Examples of the repository, one line per sequent.

The classes of sympy are replaced by stubs that keep their arguments.
"""
import pickle,glob,os,sys
from fractions import Fraction as F
sys.setrecursionlimit(100000)
class Node:
    def __new__(cls,*a):
        o=object.__new__(cls); o.a=a; return o
    def __init__(self,*a): pass
    def __setstate__(self,s): pass
    def __hash__(self): return id(self)
classes={}
class KB(dict):
    def __setstate__(self,s): pass
class U(pickle.Unpickler):
    def find_class(self,m,n):
        if m.startswith('sympy'):
            if n=='StdFactKB': return KB
            if n not in classes: classes[n]=type(n,(Node,),{})
            return classes[n]
        return super().find_class(m,n)
def padd(p,q):
    n=max(len(p),len(q)); return [(p[i] if i<len(p) else 0)+(q[i] if i<len(q) else 0) for i in range(n)]
def pmul(p,q):
    r=[F(0)]*(len(p)+len(q)-1) if p and q else []
    for i,a in enumerate(p):
        for j,b in enumerate(q): r[i+j]+=a*b
    return r
def poly(e):
    n=type(e).__name__; a=e.a
    if n=='Add':
        r=[]
        for t in a: r=padd(r,poly(t))
        return r
    if n=='Mul':
        r=[F(1)]
        for t in a: r=pmul(r,poly(t))
        return r
    if n=='Pow':
        k=poly(a[1]); assert len(k)==1 and k[0].denominator==1 and k[0]>=0,(k)
        r=[F(1)]
        for _ in range(int(k[0])): r=pmul(r,poly(a[0]))
        return r
    if n=='Symbol': assert a[0]=='x'; return [F(0),F(1)]
    if n=='Integer': return [F(a[0])]
    if n=='Rational': return [F(a[0],a[1])]
    if n=='Half': return [F(1,2)]
    if n=='One': return [F(1)]
    if n=='NegativeOne': return [F(-1)]
    if n=='Zero': return [F(0)]
    if n=='Float':
        s,m,ex,bc=a[0]
        m=int(m.rstrip('L'),16); v=F(m)*F(2)**ex
        return [-v if s else v]
    raise Exception(n+repr(a))
K={'StrictGreaterThan':'gt','GreaterThan':'ge','LessThan':'le','StrictLessThan':'lt','Equality':'eq','Unequality':'ne'}
def rel(r):
    n=type(r).__name__
    if n=='BooleanTrue' or r is True: return 'tt'
    if n=='BooleanFalse' or r is False: return 'ff'
    p=poly(r.a[0]); 
    while p and p[-1]==0: p.pop()
    z=poly(r.a[1]); assert z==[0]
    return K[n]+'['+','.join(str(c) for c in p)+']'
def show(path):
    with open(path,'rb') as f: d=U(f,encoding='latin1').load()
    out=[]
    for (a,s) in d: out.append(' '.join(rel(r) for r in a)+' |- '+' '.join(rel(r) for r in s))
    return out
if __name__=='__main__':
    for dr in ['HidingProblems','Metitarski']:
        for p in sorted(glob.glob('/repo/vts/Examples/%s/*.pkl'%dr)):
            try: o=show(p)
            except Exception as e: print('FAIL',p,type(e),e); continue
            print('##',dr+'/'+os.path.basename(p)[:-4])
            for l in o: print(l)
