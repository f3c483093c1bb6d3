"""Check that the lines cited next to a function name contain its definition."""
import re,os,glob
R='/repo'
files={}
for d,_,fs in os.walk(R):
    for f in fs:
        if f.endswith('.py'): files.setdefault(f,[]).append(os.path.join(d,f))
bad=0
for m in sorted(glob.glob('/verif/lean/Verif/Model/*.lean')):
    s=open(m).read()
    hdr=re.findall(r'[\w/]+\.py',s[:s.find('namespace')])
    for c in re.finditer(r'/--.*?-/',s,re.S):
        t=c.group(0)
        cur=None
        for x in re.finditer(r'([\w/]+\.py):([\d\-, ]+)|(?:(?<=[ ,;(])(\d+)-(\d+))|`(\w+)`',t):
            if x.group(1):
                cur=x.group(1); ranges=[tuple(map(int,(r.split('-')+[r])[:2])) for r in re.findall(r'\d+(?:-\d+)?',x.group(2))]
            elif x.group(3):
                if cur: ranges.append((int(x.group(3)),int(x.group(4))))
            elif x.group(5) and cur:
                n=x.group(5)
                cands=files.get(os.path.basename(cur),[])
                cands=[p for p in cands if p.endswith(cur)] or cands
                pref=[p for p in cands if any(p.endswith(h) for h in hdr)]
                cands=pref or cands
                defs=[(p,i+1) for p in cands for i,l in enumerate(open(p,encoding='latin-1')) if re.match(r'\s*(def|class)\s+%s\b'%re.escape(n),l)]
                def end(p,i):
                    L=open(p,encoding='latin-1').read().split('\n'); ind=len(L[i-1])-len(L[i-1].lstrip())
                    j=i
                    while j<len(L) and (not L[j].strip() or len(L[j])-len(L[j].lstrip())>ind): j+=1
                    while not L[j-1].strip(): j-=1
                    return j
                if defs and not any((a-4<=i<=b) or (i<=a and b<=end(p,i)) for p,i in defs for a,b in ranges):
                    bad+=1
                    print(os.path.basename(m),s[:c.start()].count('\n')+1,cur,ranges,n,[(i,end(p,i)) for p,i in defs])
print(bad)
