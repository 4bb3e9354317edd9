#!/usr/bin/env python3
"""Checks the /repo citations of the model: the file exists, the lines are in range, and names quoted with the
citation occur near the cited lines."""
import re, glob, os, sys
repo='/repo'
allf={}
for d,_,fs in os.walk(repo):
    for f in fs:
        if f.endswith(('.go','.sol','.proto')): allf.setdefault(f,[]).append(os.path.join(d,f))
bad=0; tot=0
for p in sorted(glob.glob('/verif/lean/Verif/**/*.lean',recursive=True)):
    s=open(p).read()
    head=s[:2500]
    for m in re.finditer(r'/-(?:-|!)?((?:(?!-/).)*)-/',s,re.S):
        c=m.group(1); ln=s[:m.start()].count('\n')+1
        last=None
        for q in re.finditer(r'([A-Za-z0-9_/.-]+\.(?:go|sol|proto)):(\d+)(?:-(\d+))?((?:, ?\d+(?:-\d+)?)*)',c):
            tot+=1
            path=q.group(1)
            cands=[x for x in allf.get(os.path.basename(path),[]) if x.endswith('/'+path)]
            hi=int(q.group(3) or q.group(2)); lo=int(q.group(2))
            for e in re.findall(r'\d+',q.group(4)): hi=max(hi,int(e))
            if not cands:
                if 'core/' in path or 'cosmos-sdk' in path or 'modules/core' in path or 'common/' in path: continue
                print('NOFILE',p,ln,q.group(0)); bad+=1; continue
            oks=[x for x in cands if len(open(x).read().split('\n'))>=hi]
            if not oks: print('RANGE',p,ln,q.group(0)); bad+=1; continue
            names=re.findall(r'`([A-Za-z_][A-Za-z0-9_]{3,})`',c)
            if names and '-v' in sys.argv:
                hit=False
                for x in oks:
                    L=open(x).read().split('\n')
                    w='\n'.join(L[max(0,lo-4):hi+3])
                    if any(n in w for n in names): hit=True
                if not hit: print('NAME?',p,ln,q.group(0),names[:5]); bad+=1
print(tot,'citations,',bad,'suspect')
