#!/usr/bin/env python3
"""Print the axioms of every theorem named in MANIFEST.json (run in a built tree) and write /verif/AXIOMS.md."""
import json,subprocess,re
m=json.load(open('/verif/MANIFEST.json'))
names=[]
for c in m['claims']:
    for t in c['theorems']:
        if t not in names: names.append(t)
src='import Verif\n'+''.join(f'#print axioms {n}\n' for n in names)
open('/tmp/axioms.lean','w').write(src)
r=subprocess.run('cd /verif/lean && lake env lean /tmp/axioms.lean',shell=True,capture_output=True,text=True).stdout
res={}
for mm in re.finditer(r"'([^']+)' (does not depend on any axioms|depends on axioms: \[([^\]]*)\])",r):
    res[mm.group(1)]=(mm.group(3) or 'none').replace('\n',' ')
groups={}
for n in names:
    ax=', '.join(sorted(x.strip() for x in res.get(n,'MISSING').split(',')))
    groups.setdefault(ax,[]).append(n)
with open('/verif/AXIOMS.md','w') as f:
    f.write('# Axioms of the theorems in MANIFEST.json\n\nOutput of `#print axioms`, by `tools/axioms.py`.\n')
    for g in sorted(groups,key=lambda g:(len(g.split(',')),g)):
        f.write(f'\n## {g} ({len(groups[g])} theorems)\n\n'+', '.join(f'`{n}`' for n in groups[g])+'\n')
        print(g,len(groups[g]))
