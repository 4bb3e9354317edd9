#!/usr/bin/env python3
"""Which Go functions of /repo no definition of the model cites (run from /verif)."""
import re,glob,os,sys
allf={}
for d,_,fs in os.walk('/repo'):
    for f in fs:
        if f.endswith('.go'): allf.setdefault(f,[]).append(os.path.join(d,f))
cites={}
for f in glob.glob('lean/Verif/**/*.lean',recursive=True):
    t=open(f).read()
    for q in re.finditer(r'([A-Za-z0-9_/.{},-]+\.go):(\d+(?:-\d+)?(?:, ?\d+(?:-\d+)?)*)',t):
        for x in allf.get(os.path.basename(q.group(1)),[]):
            if x.endswith('/'+q.group(1)):
                l=cites.setdefault(x[6:],[])
                for r in re.findall(r'(\d+)(?:-(\d+))?',q.group(2)):
                    a=int(r[0]); l.append((a,int(r[1]) if r[1] else a))
tot=0;cov=0
for f in sorted(glob.glob('/repo/**/*.go',recursive=True)):
    rel=f[len('/repo/'):]
    if rel.endswith('_test.go') or '.pb.' in rel or 'pulsar' in rel or rel.startswith(('api/','cmd/','client/','proto/','integration-tests/','interchaintest')) or '/contracts/' in rel or '/testutil' in rel or '/client/' in rel: continue
    L=open(f).read().split('\n')
    i=0
    miss=[]
    while i<len(L):
        m=re.match(r'func (\([^)]*\) )?(\w+)',L[i])
        if m:
            j=i
            while j<len(L) and L[j]!='}' and not (j==i and L[j].rstrip().endswith('}')): j+=1
            a,b=i+1,j+1
            hit=any(not(y<a or x>b) for x,y in cites.get(rel,[]))
            tot+=1
            if hit: cov+=1
            else: miss.append((m.group(2),b-a+1))
            i=j
        i+=1
    if miss and '-v' in sys.argv: print(rel,' '.join(f'{n}({k})' for n,k in miss))
print(cov,'of',tot,'functions cited')
