#!/bin/bash
# every theorem named in MANIFEST.json exists (run after `lake build`)
cd "$(dirname "$0")/../lean"
python3 - > /tmp/checknames.lean <<'P'
import json
m=json.load(open('../MANIFEST.json'))
print('import Verif')
for c in m['claims']:
    for t in c['theorems']: print('#print axioms '+t)
P
lake env lean /tmp/checknames.lean > /tmp/checknames.out 2>&1
grep error /tmp/checknames.out
grep -o "axioms: .*" /tmp/checknames.out | sort | uniq -c
