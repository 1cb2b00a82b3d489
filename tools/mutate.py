#!/usr/bin/env python3
"""Seeded-bug runs.  usage: mutate.py MUTFILE [--log]
MUTFILE: python file defining M = [(definition, model_file, old, new, edit, claim, props_module), ...]
Each mutation is applied in a scratch copy (/tmp/scratch/lean); props_module is then built there.
Prints failing lemmas; with --log appends lines to seeded/LOG.jsonl."""
import sys, os, re, json, subprocess, shutil
ROOT='/verif'; S='/tmp/scratch/lean'
def sh(c,**k): return subprocess.run(c,shell=True,capture_output=True,text=True,**k)
os.makedirs('/tmp/scratch',exist_ok=True)
sh(f'rsync -a --delete {ROOT}/lean/ {S}/ || (rm -rf {S}; cp -a {ROOT}/lean {S})')
env={}
exec(open(sys.argv[1]).read(),env)
def enclosing(f,line):
    name='?'
    for i,l in enumerate(open(f'{S}/{f}')):
        if i+1>line: break
        m=re.match(r'\s*(?:private |protected |noncomputable )*(?:theorem|lemma|def|example|instance|structure|inductive)\s*(\S*)',l)
        if m: name=m.group(1) or f'example@{f}:{i+1}'
        if l.startswith('example'): name='example in '+f
    return name
for (d,mf,old,new,edit,claim,props) in env['M']:
    src=open(f'{ROOT}/lean/{mf}').read()
    n=src.count(old)
    if n!=1: print('BAD PATTERN',d,n); continue
    open(f'{S}/{mf}','w').write(src.replace(old,new))
    mods=props if isinstance(props,list) else [props]
    fail=[]; pfail=[]
    for m in mods:
        r=sh(f'cd {S} && lake build {m}')
        out=r.stdout+r.stderr
        for mm in re.finditer(r'error: (Verif/\S+?\.lean):(\d+):\d+',out):
            t=enclosing(mm.group(1),int(mm.group(2)))
            if t not in fail: fail.append(t)
        if r.returncode!=0: pfail.append(m)
    st='CAUGHT' if fail else ('BUILD-ERR' if pfail else 'SURVIVED')
    cth=[]
    for m in pfail:
        f=f'{S}/'+m.replace('.','/')+'.lean'
        cth+=re.findall(r'^theorem (C\d+_\S+)',open(f).read(),re.M)
    print(st,d,'|',edit,'|',fail)
    sys.stdout.flush()
    if '--log' in sys.argv:
        rec=dict(definition=d,edit=edit,claim=claim,outcome=st.lower(),theorems_failed=fail,
                 property_module_not_building=pfail,tightened=[])
        open(f'{ROOT}/seeded/LOG.jsonl','a').write(json.dumps(rec)+'\n')
    open(f'{S}/{mf}','w').write(src)
