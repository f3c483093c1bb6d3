#!/usr/bin/env python3
"""Run seeded bugs.  usage: seed.py mutants.py [name...]
A mutants file calls m(name, module, definition, old, new, claim, targets).  For each, the module and the modules on the
import paths to the targets are concatenated, in a scratch directory, with the edit applied; Lean goes on after an error, so
the theorems that depend on a failed proof show an error axiom.  Prints, per mutant, which theorems of the targets fail."""
import sys, re, os, subprocess, json
ROOT='/verif/lean'; OUT='/tmp/seed'
os.makedirs(OUT,exist_ok=True)
DK='''
set_option Elab.async false
section
open Lean Elab Tactic Meta in
elab "dk_" : tactic => closeMainGoalUsing `dk_ fun ty _ => do
  let ty ← zetaReduce (← instantiateMVars ty)
  let d ← mkDecide ty
  let pf := mkApp3 (mkConst ``of_decide_eq_true) ty d.appArg! (mkApp2 (mkConst ``Eq.refl [1]) (mkConst ``Bool) (mkConst ``true))
  let n ← mkAuxLemma [] ty pf
  return mkConst n
end
'''
def path(m): return f"{ROOT}/{m.replace('.','/')}.lean"
def imports(m): return re.findall(r'^import (\S+)',open(path(m)).read(),re.M)
def run(mod,old,new,targets,name,count=1):
    order=[];aff={}
    def affected(m):
        if m in aff: return aff[m]
        if not m.startswith('Verif'): aff[m]=False; return False
        aff[m]=False
        r=(m==mod)
        for i in imports(m):
            if i.startswith('Verif') and affected(i): r=True
        aff[m]=r
        if r: order.append(m)
        return r
    for t in targets: affected('Verif.Props.'+t)
    imps=set();body=''
    for m in order:
        s=open(path(m)).read()
        if m==mod:
            if s.count(old)<1: raise SystemExit(f'{name}: old text not found')
            if s.count(old)>1 and count==1: raise SystemExit(f'{name}: old text {s.count(old)} times')
            s=s.replace(old,new)
        for i in imports(m):
            if i not in order: imps.add(i)
        s=re.sub(r'^import .*\n','',s,flags=re.M)
        body+=f'\n-- ==== {m}\nsection\n'+s+'\nend\n'
    thms=[]
    for t in targets:
        s=open(path('Verif.Props.'+t)).read()
        ns=re.search(r'^namespace (\S+)',s,re.M).group(1)
        for x in re.findall(r'^theorem (\S+)',s,re.M): thms.append(ns+'.'+x)
    for x in thms: body+=f'\n#print axioms {x}'
    # a failing `decide +kernel` explains itself by a reduction that can exhaust memory: leave it to the kernel alone
    body=body.replace('decide +kernel','dk_')
    src='import Lean\n'+''.join(f'import {i}\n' for i in sorted(imps))+DK+body
    f=f'{OUT}/{name}.lean'; open(f,'w').write(src)
    r=subprocess.run(['lake','env','lean',f],cwd=ROOT,capture_output=True,text=True)
    o=r.stdout+r.stderr
    open(f'{OUT}/{name}.out','w').write(o)
    if not o.strip(): raise SystemExit(f'{name}: Lean was killed')
    bad=[];good=[];gone=[]
    for x in thms:
        mm=re.search(r"'"+re.escape(x)+r"' (depends on axioms: \[([^\]]*)\]|does not depend)",o)
        if not mm: gone.append(x)
        elif 'sorryAx' in mm.group(0): bad.append(x)
        else: good.append(x)
    errs=[]
    lines=src.split('\n')
    for mm in re.finditer(re.escape(f)+r':(\d+):\d+: error: (.*)',o):
        n=int(mm.group(1))-1
        while n>0 and not re.match(r'(private |protected |noncomputable )*(theorem|def|example|instance|lemma|structure)',lines[n]): n-=1
        d=lines[n][:70]
        if d not in errs: errs.append(d)
    sh=lambda x:x.replace('Verif.Props.','')
    return dict(fail=[sh(x) for x in bad+gone],ok=[sh(x) for x in good],errors=errs)
M=[]
def m(name,module,definition,old,new,claim,targets,count=1):
    M.append((name,module,definition,old,new,claim,targets.split(),count))
if __name__=='__main__':
    exec(open(sys.argv[1]).read())
    sel=sys.argv[2:]
    for (name,module,definition,old,new,claim,targets,count) in M:
        if sel and name not in sel: continue
        r=run('Verif.'+module,old,new,targets,name,count)
        print(f"## {'SURVIVED ' if not r['fail'] else ''}{name}: {definition}: {claim}\n   FAIL {' '.join(r['fail'])[:300]} | ok {len(r['ok'])} | err {r['errors'][:2]}",flush=True)
        json.dump(dict(name=name,definition=module+'.'+definition,edit=f"{old}  ->  {new}",claim=claim,**r),open(f'{OUT}/{name}.json','w'))
