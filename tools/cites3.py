"""Show the first and last line of every citation that does not name a function."""
import re,os,glob,sys
R='/repo'
files={}
for d,_,fs in os.walk(R):
    for f in fs:
        if f.endswith('.py'): files.setdefault(f,[]).append(os.path.join(d,f))
only=sys.argv[1:]
for m in sorted(glob.glob('/verif/lean/Verif/Model/*.lean')):
    b=os.path.basename(m)[:-5]
    if only and b not in only: continue
    s=open(m).read()
    hdr=re.findall(r'[\w/]+\.py',s[:s.find('namespace')])
    for c in re.finditer(r'/-- ?(.*?)-/',s[s.find('namespace'):],re.S):
        t=' '.join(c.group(1).split())
        for x in re.finditer(r'([\w/]+\.py):(\d+(?:-\d+)?(?:, \d+(?:-\d+)?)*)(.{0,70})',t):
            f,rs,rest=x.groups()
            if re.match(r'\s+`\w+`',rest) and not only: continue
            cands=files.get(os.path.basename(f),[])
            cands=[p for p in cands if p.endswith(f)] or cands
            cands=[p for p in cands if any(p.endswith(h) for h in hdr)] or cands
            if not cands: print(b,'NOFILE',f); continue
            L=open(cands[0],encoding='latin-1').read().split('\n')
            print('%s | %s:%s%s'%(b,os.path.basename(f),rs,rest))
            for r in rs.split(', '):
                a,e=(list(map(int,r.split('-')))*2)[:2] if '-' in r else (int(r),int(r))
                print('      [%s] %s  ...  %s'%(r,L[a-1].strip()[:50] if a<=len(L) else 'EOF',L[e-1].strip()[:50] if e<=len(L) else 'EOF'))
