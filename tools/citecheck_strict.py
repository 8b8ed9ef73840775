import sys; sys.argv=['x']
src=open('/verif/tools/citecheck.py').read().split('tot=bad=0')[0]; exec(src)
n=0
for f in sorted(glob.glob('/verif/lean/Verif/**/*.lean',recursive=True)):
    s=open(f).read()
    for m in re.finditer(r'/--(.*?)-/',s,re.S):
        c=' '.join(m.group(1).split()); ln=s[:m.start()].count('\n')+1
        for mm in re.finditer(r'`([\w.]+)(?:\([^`]*\))?`[^`(;:]{0,40}\((\w+\.py):? (\d+)(?:[-–](\d+))?',c):
            nm=mm.group(1).split('.')[-1]; cl=mm.group(1).split('.')[-2] if '.' in mm.group(1) else None
            b=mm.group(2); x=int(mm.group(3)); y=int(mm.group(4) or x)
            cand=[(a,e) for k,a,e in R[b] if k==nm]
            if not cand: continue
            n+=1
            if not any(a-2<=x and y<=e+1 for a,e in cand):
                near=min(cand,key=lambda r:abs(r[0]-x)); print(f[18:],ln,mm.group(1),b,(x,y),'actual',near)
print(n)
