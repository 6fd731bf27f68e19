#!/bin/bash
# Print the axioms of every theorem named in MANIFEST.json and check for forbidden words.
cd /verif/lean
python3 - > /tmp/audit.lean <<'PY'
import json
m=json.load(open('/verif/MANIFEST.json'))
print("import Verif")
for c in m["claims"]:
    for t in c["theorems"]: print(f"#print axioms {t}")
PY
lake env lean /tmp/audit.lean > /tmp/audit.out 2>&1
grep -c "depends on axioms\|does not depend" /tmp/audit.out
grep -i error /tmp/audit.out
grep -o "\[.*\]" /tmp/audit.out | tr -d '[]' | tr ',' '\n' | sed 's/ //g' | sort | uniq -c
grep -rnE "sorry|admit|^axiom|native_decide|bv_decide|implemented_by|unsafe|maxHeartbeats 0" Verif || echo "no forbidden words"
