#!/usr/bin/env python3
"""Checks that every citation `file.c:lo-hi `name`` in the Lean sources lies inside the function `name` of /repo/Library/file.c."""
import re,glob,os
def funcs(path):
    L=open(path,errors='replace').read().split('\n'); r={}
    for k,l in enumerate(L):
        if l.startswith('{'):
            s=k-1
            while s>0 and L[s-1].strip()!='' and not L[s-1].startswith('}') and not L[s-1].startswith('#') and not L[s-1].rstrip().endswith('*/'): s-=1
            e=k
            while not L[e].startswith('}'): e+=1
            m=re.search(r'(\w+)\s*\(',' '.join(L[s:k]))
            if m: r.setdefault(m.group(1),[]).append((s+1,e+1))
    return r
cache={}; n=bad=0
for f in sorted(glob.glob('/verif/lean/Verif/**/*.lean',recursive=True)):
    t=open(f).read()
    for m in re.finditer(r'(\w+\.c):(\d+)-(\d+)\s+`(\w+)',t):
        c,lo,hi,name=m.group(1),int(m.group(2)),int(m.group(3)),m.group(4)
        p='/repo/Library/'+c
        if not os.path.exists(p): print(f,m.group(0),'NO FILE'); bad+=1; continue
        if c not in cache: cache[c]=funcs(p)
        n+=1
        rs=cache[c].get(name)
        if not rs: print(f,m.group(0),'NO FUNCTION'); bad+=1
        elif not any(a<=lo and hi<=b for a,b in rs): print(f,m.group(0),'RANGE',rs); bad+=1
print(n,'citations',bad,'bad')
