#!/bin/bash
# Prints the set of axioms used by the theorems named in MANIFEST.json (run after `lake build`).
cd "$(dirname "$0")/../lean" || exit 1
python3 - > /tmp/axioms_audit.lean <<'PY'
import json
m=json.load(open('../MANIFEST.json'))
print("import Verif")
for c in m['claims']:
    for t in c['theorems']: print(f"#print axioms {t}")
PY
lake env lean /tmp/axioms_audit.lean | sed 's/.*depends on axioms: //; s/.*does not depend.*/none/' | sort | uniq -c
