#!/usr/bin/env python3
"""Which functions of /repo are not cited (file:lines) by any model definition."""
import re,os,glob
cov={}
for f in glob.glob('/verif/lean/Verif/Model/*.lean')+glob.glob('/verif/lean/Verif/Spec/*.lean'):
    s=open(f).read()
    mm=re.search(r'/-!(.*?)-/',s,re.S)
    default=None
    for c in re.findall(r'/--(.*?)-/|/-!(.*?)-/',s,re.S):
        c=c[0] or c[1]
        last=None
        for m in re.finditer(r'([\w/.]+\.py)|(?<![\w.])(\d+)(?:\s*[-–]\s*(\d+))?',c):
            if m.group(1): last=os.path.basename(m.group(1))
            elif last:
                a=int(m.group(2)); b=int(m.group(3) or a)
                if a<=b<3000: cov.setdefault(last,set()).update(range(a,b+1))
for root,_,fs in os.walk('/repo'):
    if '/.git' in root or '/test' in root: continue
    for f in sorted(fs):
        if not f.endswith('.py') or f in ('pexpect.py','argparse.py','setup.py'): continue
        p=os.path.join(root,f); L=open(p,encoding='latin1').read().split('\n')
        defs=[i for i,l in enumerate(L) if re.match(r'\s*def ',l)]
        for k,i in enumerate(defs):
            e=defs[k+1]-1 if k+1<len(defs) else len(L)
            body=[j+1 for j in range(i,e) if L[j].strip() and not L[j].strip().startswith('#')]
            c=cov.get(f,set())
            n=sum(1 for j in body if j in c)
            if n<len(body)*0.3: print(f'{p[6:]}:{i+1} {L[i].strip()[4:60]}  {n}/{len(body)}')
