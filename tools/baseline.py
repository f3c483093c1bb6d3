#!/usr/bin/env python3
"""Check that the harness of tools/seed.py reports no failure for the unchanged model.  usage: baseline.py mutants.py..."""
import sys
sys.path.insert(0,'/verif/tools')
import seed
todo=set()
def m(name,module,definition,old,new,claim,targets,count=1): todo.add((module,targets))
for f in sys.argv[1:]: exec(open(f).read())
for mod,t in sorted(todo):
    p='Verif.'+mod
    r=seed.run(p,'namespace','namespace',t.split(),'base',count=2)
    print(mod,t,'OK' if not r['fail'] and not r['errors'] else ('BASELINE FAILS',r['fail'],r['errors']),flush=True)
