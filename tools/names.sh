#!/bin/sh
# Checks that every theorem named in MANIFEST.json exists.
cd "$(dirname "$0")/../lean" || exit 1
f=$(mktemp -d)/Names.lean
{ echo "import Verif"; python3 -c "
import json
for c in json.load(open('../MANIFEST.json'))['claims']:
  for t in c['theorems']: print('#check (@%s : _)' % t)"; } > "$f"
lake env lean "$f" 2>&1 | grep -A1 ": error" && exit 1
echo "all names exist"
