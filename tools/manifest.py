#!/usr/bin/env python3
"""Writes /verif/MANIFEST.json from the theorem names cNN_* in the Lean sources plus the notes below."""
import re, glob, json, os, sys
props = [json.loads(l) for l in open('/verif/properties.jsonl')]
thms = {}
for f in sorted(glob.glob('/verif/lean/Verif/**/*.lean', recursive=True)):
    ns = []
    for l in open(f):
        m = re.match(r'namespace (\S+)', l)
        if m: ns.append(m.group(1))
        m = re.match(r'end (\S+)', l)
        if m and ns: ns.pop()
        m = re.match(r'(?:protected )?theorem (c\d\d\d?_\S+)', l)
        if m:
            c = m.group(1)[:m.group(1).index('_')].upper()
            thms.setdefault(c, []).append('.'.join(ns + [m.group(1)]))
notes = {}
np = '/verif/tools/notes.json'
if os.path.exists(np): notes = json.load(open(np))
claims = []
for p in props:
    c = p['id']; t = thms.get(c, [])
    n = notes.get(c, {})
    if not t:
        if n.get('status') == 'not_applicable':
            claims.append(dict(property=c, status='not_applicable', theorems=[], note=n.get('note','')))
        continue
    part = any(x.endswith('_partial') or x.endswith('_refuted') for x in t)
    st = n.get('status') or ('partial' if part else 'proved')
    claims.append(dict(property=c, status=st, theorems=t, note=n.get('note', '')))
json.dump({"claims": claims}, open('/verif/MANIFEST.json', 'w'), indent=1)
done = {c['property'] for c in claims}
print('claims', len(claims), 'proved', sum(c['status']=='proved' for c in claims), 'theorems', sum(len(c['theorems']) for c in claims))
print('missing', [p['id'] for p in props if p['id'] not in done])
unk = [c for c in thms if c not in {p['id'] for p in props}]
if unk: print('UNKNOWN', unk)
