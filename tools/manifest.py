#!/usr/bin/env python3
"""Regenerates MANIFEST.json. Each line: property | status | theorems | note. Theorem names are checked to
occur in lean/Verif/Props."""
import json, os, re, sys
root = os.path.dirname(os.path.dirname(os.path.abspath(__file__)))
claims = []
for line in open(os.path.join(root, 'tools', 'claims.txt')):
    line = line.strip()
    if not line or line.startswith('#'):
        continue
    pid, status, thms, note = [x.strip() for x in line.split('|', 3)]
    assert status in ('proved', 'partial', 'not_applicable'), line
    claims.append({"property": pid, "status": status,
                   "theorems": ['Verif.' + t for t in thms.split()], "note": note})
text = ''
for d, _, fs in os.walk(os.path.join(root, 'lean', 'Verif')):
    for f in fs:
        text += open(os.path.join(d, f)).read()
names = set(re.findall(r'theorem ([\w\.\'₀-₉]+)', text))
for c in claims:
    for t in c['theorems']:
        short = t.split('.')[-1]
        if short not in names and not any(n.endswith('.' + short) for n in names):
            sys.exit('unknown theorem ' + t)
props = [json.loads(l)['id'] for l in open(os.path.join(root, 'properties.jsonl'))]
claims.sort(key=lambda c: c['property'])
missing = [p for p in props if p not in [c['property'] for c in claims]]
print('claims', len(claims), 'missing', missing)
json.dump({"claims": claims}, open(os.path.join(root, 'MANIFEST.json'), 'w'), indent=1)
