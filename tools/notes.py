#!/usr/bin/env python3
"""Usage: notes.py C01 proved 'note'  -- set the status and note of a property."""
import json, sys, os
p = os.path.join(os.path.dirname(os.path.abspath(__file__)), 'notes.json')
d = json.load(open(p))
d[sys.argv[1]] = dict(d.get(sys.argv[1], {}), status=sys.argv[2], note=sys.argv[3])
with open(p, 'w') as f:
    f.write('{\n' + ',\n'.join('%s: %s' % (json.dumps(k), json.dumps(d[k])) for k in sorted(d)) + '\n}\n')
