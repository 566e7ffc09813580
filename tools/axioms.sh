#!/bin/bash
# Print the axioms used by every theorem listed in MANIFEST.json.
cd "$(dirname "$0")/../lean"
{ echo "import Verif"; python3 - <<'P'
import json
for c in json.load(open('../MANIFEST.json'))['claims']:
    for t in c['theorems']: print('#print axioms', t)
P
} > /tmp/axioms_check.lean
lake env lean /tmp/axioms_check.lean | sed 's/.*depends on axioms: //; s/.*does not depend.*/none/' | sort | uniq -c
