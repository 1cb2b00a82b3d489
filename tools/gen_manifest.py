#!/usr/bin/env python3
"""Regenerates MANIFEST.json from properties.jsonl and the theorem names found in lean/Verif/Props.
A theorem belongs to property Cxx iff its name starts with Cxx_.  Status/notes are given below."""
import json, re, glob, os
root = os.path.dirname(os.path.dirname(os.path.abspath(__file__)))
thms = {}
for f in sorted(glob.glob(root + '/lean/Verif/Props/*.lean')):
    for l in open(f):
        m = re.match(r'theorem ((C\d\d+)_\S+)', l)
        if m:
            thms.setdefault(m.group(2), []).append('H2.Props.' + m.group(1))
notes = {}
exec(open(root + '/tools/manifest_notes.py').read())
claims = []
for l in open(root + '/properties.jsonl'):
    d = json.loads(l)
    st, note = notes.get(d['id'], ('partial', 'not yet modelled'))
    t = thms.get(d['id'], [])
    if not t: st = 'partial'
    claims.append({'property': d['id'], 'status': st, 'theorems': t, 'note': note})
json.dump({'claims': claims}, open(root + '/MANIFEST.json', 'w'), indent=1)
mods = sorted(glob.glob(root + '/lean/Verif/**/*.lean', recursive=True))
with open(root + '/lean/Verif.lean', 'w') as o:
    for m in mods:
        o.write('import ' + os.path.relpath(m, root + '/lean')[:-5].replace('/', '.') + '\n')
print(len(claims), 'claims;', sum(1 for c in claims if c['theorems']), 'with theorems')
