"""Citations of the form `file.py:a-b `name`` whose lines are not those of the function."""
import re,os,glob
R='/repo'
files={}
for d,_,fs in os.walk(R):
    for f in fs:
        if f.endswith('.py'): files.setdefault(f,[]).append(os.path.join(d,f))
def end(L,i):
    ind=len(L[i-1])-len(L[i-1].lstrip()); j=i
    while j<len(L) and (not L[j].strip() or len(L[j])-len(L[j].lstrip())>ind): j+=1
    while not L[j-1].strip() or (j>i+1 and L[j-1].strip().startswith('#')): j-=1
    return j
bad=0
for m in sorted(glob.glob('/verif/lean/Verif/Model/*.lean')):
    s=open(m).read()
    hdr=re.findall(r'[\w/]+\.py',s[:s.find('namespace')])
    for x in re.finditer(r'([\w/]+\.py):(\d+)-(\d+)\s+`(\w+)`(?! without| with )',s):
        f,a,b,n=x.group(1),int(x.group(2)),int(x.group(3)),x.group(4)
        cands=files.get(os.path.basename(f),[])
        cands=[p for p in cands if p.endswith(f)] or cands
        cands=[p for p in cands if any(p.endswith(h) for h in hdr)] or cands
        defs=[]
        for p in cands:
            L=open(p,encoding='latin-1').read().split('\n')
            for i,l in enumerate(L):
                if re.match(r'\s*(def|class)\s+%s\b'%re.escape(n),l): defs.append((i+1,end(L,i+1)))
        if defs and not any(-2<=a-i<=0 and abs(b-e)<=1 for i,e in defs):
            bad+=1; print('%s:%d %s:%d-%d `%s` -> %s'%(os.path.basename(m),s[:x.start()].count('\n')+1,f,a,b,n,['%d-%d'%d for d in defs]))
print(bad)
