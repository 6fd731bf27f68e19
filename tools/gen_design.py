#!/usr/bin/env python3
"""Regenerates the section "Findings" of DESIGN.md from MANIFEST.json and properties.jsonl."""
import json, os
R = os.path.join(os.path.dirname(os.path.abspath(__file__)), "..")
s = open(R + "/DESIGN.md").read()
s = s[:s.index("\n## Findings")].rstrip("\n") + "\n"
m = json.load(open(R + "/MANIFEST.json"))
P = {json.loads(l)["id"]: json.loads(l) for l in open(R + "/properties.jsonl")}
f = "\n## Findings\n\nProperties that do not hold for the code as a user would state them.  Each has a `_violated` theorem (a machine-checked\ncounterexample) and `_partial` theorems that say what holds.  This section is generated by `tools/gen_design.py`.\n\n"
for c in m["claims"]:
    v = [t for t in c["theorems"] if t.endswith("_violated")]
    if v:
        f += "* **%s** %s. %s (`%s`)\n" % (c["property"], P[c["property"]]["title"], c["note"], "`, `".join(x.replace("Verif.", "") for x in v))
open(R + "/DESIGN.md", "w").write(s + f)
