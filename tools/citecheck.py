import ast,re,glob,os,collections
# function ranges per basename
R=collections.defaultdict(list); L={}
for f in glob.glob('/repo/**/*.py',recursive=True):
    b=os.path.basename(f); src=open(f).read()
    L.setdefault(b,[]).append(len(src.splitlines()))
    try: t=ast.parse(src)
    except Exception as e:
        # py2 source: regex fallback
        lines=src.splitlines(); 
        for i,l in enumerate(lines):
            m=re.match(r'\s*(?:def|class) (\w+)',l)
            if m:
                ind=len(l)-len(l.lstrip()); j=i+1
                while j<len(lines) and (not lines[j].strip() or len(lines[j])-len(lines[j].lstrip())>ind): j+=1
                R[b].append((m.group(1),i+1,j))
        continue
    for n in ast.walk(t):
        if isinstance(n,(ast.FunctionDef,ast.ClassDef)): R[b].append((n.name,n.lineno,n.end_lineno))
tot=bad=0; out=[]
for f in sorted(glob.glob('/verif/lean/Verif/**/*.lean',recursive=True)):
    s=open(f).read()
    for m in re.finditer(r'/--(.*?)-/',s,re.S):
        c=' '.join(m.group(1).split()); ln=s[:m.start()].count('\n')+1
        cites=re.findall(r'(\w+\.py):? ?(?:lines? )?(\d+(?:[-–]\d+)?(?:, ?\d+(?:[-–]\d+)?)*)',c)
        names=set(x.split('.')[-1].split('(')[0] for x in re.findall(r'`([\w.]+(?:\(\))?)',c))
        for b,rs in cites:
            tot+=1
            rng=[tuple(int(y) for y in re.split('[-–]',r)) for r in re.split(', ?',rs)]
            rng=[(r[0],r[-1]) for r in rng]
            if b not in L: out.append((f,ln,'NOFILE',b,rs)); bad+=1; continue
            if any(e>max(L[b]) for _,e in rng): out.append((f,ln,'BEYOND',b,rs)); bad+=1; continue
            cand=[(n,a,e) for n,a,e in R[b] if n in names]
            if cand and not any(a<=y and x<=e for n,a,e in cand for x,y in rng):
                out.append((f,ln,'MISS',b,rs,cand[:3])); bad+=1
print(tot,bad)
for o in out: print(*o)
