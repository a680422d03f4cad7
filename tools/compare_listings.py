"""Compares the two listings made by compare_examples.sh."""
import sys
def rd(p):
    d={};k=None
    for l in open(p):
        l=l.rstrip('\n')
        if l.startswith('## '): k=l[3:];d[k]=[]
        else: d[k].append(l)
    return d
a=rd(sys.argv[1]);b=rd(sys.argv[2])
tot=0
for k in b:
    if k not in a: print('no pickle',k,len(b[k]));continue
    bad=[i for i,(x,y) in enumerate(zip(a[k],b[k])) if x!=y]
    tot+=len(b[k])
    if bad or len(a[k])!=len(b[k]): print(k[-40:],len(a[k]),len(b[k]),'diff',len(bad))
    for i in bad[:1]:
        xs=a[k][i].split();ys=b[k][i].split();print('   ',len(xs),len(ys),[(x[:300],y[:300]) for x,y in zip(xs,ys) if x!=y][:2])
print(len(b),tot,[k for k in a if k not in b])
