#!/usr/bin/env python3
"""Writes MANIFEST.json from the theorem names in lean/Verif/Props and tools/notes.json.

A theorem belongs to property Cnn if its name starts with Cnn_. notes.json maps a property to
{"status": ..., "note": ..., "also": [further theorem names]}."""
import glob, json, re, os
root = os.path.dirname(os.path.dirname(os.path.abspath(__file__)))
names = {}
for f in sorted(glob.glob(root + '/lean/Verif/Props/*.lean')):
    for m in re.finditer(r'^theorem (C(\d\d+)_\w+)', open(f).read(), re.M):
        names.setdefault('C' + m.group(2), []).append('RankDB.Props.' + m.group(1))
notes = json.load(open(root + '/tools/notes.json'))
claims = []
missing = []
for line in open(root + '/properties.jsonl'):
    p = json.loads(line)['id']
    n = notes.get(p)
    if n is None or (not names.get(p) and n['status'] != 'not_applicable'):
        missing.append(p)
        continue
    claims.append({'property': p, 'status': n['status'],
                   'theorems': names.get(p, []) + n.get('also', []), 'note': n['note']})
json.dump({'claims': claims}, open(root + '/MANIFEST.json', 'w'), indent=1)
print(len(claims), 'claims; without claim:', ' '.join(missing))
