#!/usr/bin/env python3
"""Regenerate /verif/MANIFEST.json from the theorem names in lean/Verif/Props and the notes below."""
import json, re, glob, os
root = os.path.dirname(os.path.dirname(os.path.abspath(__file__)))
notes = json.load(open(os.path.join(root, 'tools', 'notes.json')))
names = {}
for f in sorted(glob.glob(os.path.join(root, 'lean/Verif/Props/*.lean'))):
    ns = None
    for line in open(f):
        m = re.match(r'namespace (\S+)', line)
        if m: ns = m.group(1)
        m = re.match(r'theorem ((C\d\d+)_\S+)', line)
        if m: names.setdefault(m.group(2), []).append(ns + '.' + m.group(1))
claims = []
for l in open(os.path.join(root, 'properties.jsonl')):
    p = json.loads(l)['id']
    ths = names.get(p, [])
    n = notes.get(p, {})
    st = n.get('status', 'proved')
    if not ths and st != 'not_applicable':
        st = 'partial'; note = 'not yet proved'
    else:
        note = n.get('note', '')
    claims.append({'property': p, 'status': st, 'theorems': ths, 'note': note})
json.dump({'claims': claims}, open(os.path.join(root, 'MANIFEST.json'), 'w'), indent=1, ensure_ascii=False)
for c in claims: print(c['property'], c['status'], len(c['theorems']))
