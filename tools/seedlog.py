#!/usr/bin/env python3
"""Append results of tools/seed.py (in /tmp/seed) for the given mutants file to seeded/LOG.jsonl.
usage: seedlog.py mutants.py   -- `tight` in the mutants file maps a mutant to the theorems tightened because of it,
`equiv` maps a mutant that changes no behaviour to the reason."""
import sys, json, os
M=[]; tight={}; equiv={}
def m(name,*a,**k): M.append(name)
exec(open(sys.argv[1]).read())
log='/verif/seeded/LOG.jsonl'
old=[json.loads(l) for l in open(log)] if os.path.exists(log) else []
old=[o for o in old if o['mutant'] not in M]
for n in M:
    f=f'/tmp/seed/{n}.json'
    if not os.path.exists(f): print('missing',n); continue
    r=json.load(open(f))
    old.append(dict(mutant=n,definition=r['definition'],edit=r['edit'],claim_broken=r['claim'],
        theorems_failed=r['fail'],theorems_still_proved=len(r['ok']),theorems_tightened=tight.get(n,[]),
        **({'note':equiv[n]} if n in equiv else {})))
open(log,'w').write(''.join(json.dumps(o,ensure_ascii=False)+'\n' for o in old))
print(len(old))
