#!/usr/bin/env python3
"""Try wrong programs against the property theorems.

usage: mutate.py SPEC.json [name-filter]

SPEC.json is a list of objects
  {"dir": "Ring", "file": "Model.lean", "old": "...", "new": "...", "definition": "...", "edit": "...", "claim": "...",
   "expect": ["theorem that must fail", ...],
   "more": [{"file": "...", "old": "...", "new": "..."}]}   further edits, e.g. of a relation that repeats the definition
For each one, the modules of the component (every file under lean/Verif/<dir>, plus "also": ["Dir", ...]) are concatenated
(without those whose names begin with one of "skip") in import order in a scratch directory, the edit is applied there, and Lean runs on the result.  A theorem whose proof
breaks is still declared (with sorryAx), so `#print axioms` at the end tells exactly which property theorems fail.
Prints one line per attempt and appends it to seeded/LOG.jsonl (unless DRY=1)."""
import json, os, re, subprocess, sys
from multiprocessing.pool import ThreadPool
ROOT = os.path.dirname(os.path.dirname(os.path.abspath(__file__)))
LEAN = os.path.join(ROOT, "lean")
STD = {"propext", "Classical.choice", "Quot.sound"}
SCRATCH = "/tmp/mutate"
os.makedirs(SCRATCH, exist_ok=True)
manifest = json.load(open(os.path.join(ROOT, "MANIFEST.json")))
alltheorems = []
for c in manifest["claims"]:
    for t in c["theorems"]:
        if t not in alltheorems: alltheorems.append(t)

def path(mod): return os.path.join(LEAN, *mod.split(".")) + ".lean"
def imports(mod):
    return re.findall(r"^import\s+(\S+)", open(path(mod)).read(), re.M)

def order(dirs, skip=()):
    mods = []
    for d in dirs:
        p = os.path.join(LEAN, "Verif", d)
        mods += ["Verif.%s.%s" % (d.replace("/", "."), f[:-5]) for f in sorted(os.listdir(p)) if f.endswith(".lean") and not f.startswith(tuple(skip))]
    out, ext = [], []
    memo = {}
    def uses(m):  # a module of another component that imports one of these must be elaborated with them
        if m in mods: return True
        if not m.startswith("Verif."): return False
        if m not in memo: memo[m] = any([uses(i) for i in imports(m)])
        return memo[m]
    def visit(m):
        if not uses(m):
            if m not in ext: ext.append(m)
            return
        if m in out: return
        for i in imports(m): visit(i)
        if m not in out: out.append(m)
    for m in mods: visit(m)
    return out, ext

def build(spec):
    dirs = [spec["dir"]] + spec.get("also", [])
    mods, ext = order(dirs, spec.get("skip", ()))
    target = "Verif.%s.%s" % (spec["dir"].replace("/", "."), spec["file"][:-5])
    text = "\n".join("import " + e for e in ext) + "\n"
    found = False
    for m in mods:
        s = open(path(m)).read()
        s = re.sub(r"^import\s+\S+\s*$", "", s, flags=re.M)
        if m == target:
            if s.count(spec["old"]) < 1: raise RuntimeError("not found: " + spec["old"])
            if s.count(spec["old"]) > 1 and "nth" not in spec: raise RuntimeError("ambiguous: " + spec["old"])
            n = spec.get("nth", 0)
            parts = s.split(spec["old"])
            s = spec["old"].join(parts[:n+1]) + spec["new"] + spec["old"].join(parts[n+1:])
            found = True
        for e in spec.get("more", []):
            if m != "Verif.%s.%s" % (spec["dir"].replace("/", "."), e["file"][:-5]): continue
            if s.count(e["old"]) != 1: raise RuntimeError("not found once: " + e["old"])
            s = s.replace(e["old"], e["new"])
        text += "\nsection\n" + s + "\nend\n"
    assert found
    srcs = "".join(open(path(m)).read() for m in mods)
    thms = [t for t in alltheorems if re.search(r"theorem\s+%s\b" % re.escape(t.split(".")[-1]), srcs)]
    for t in thms: text += "\n#print axioms %s" % t
    f = os.path.join(SCRATCH, "Mut%d.lean" % spec.get("_n", 0))
    open(f, "w").write(text)
    r = subprocess.run(["lake", "env", "lean", f], cwd=LEAN, capture_output=True, text=True, timeout=3600)
    out = r.stdout + r.stderr
    fails, ok = [], []
    for t in thms:
        m = re.search(r"'%s' depends on axioms: \[([^\]]*)\]" % re.escape(t), out)
        if m: (fails if set(m.group(1).replace("\n", " ").replace(" ", "").split(",")) - STD else ok).append(t)
        elif "'%s' does not depend on any axioms" % t in out: ok.append(t)
        else: fails.append(t)
    errlines = [int(x) for x in re.findall(r"Mut\d+\.lean:(\d+):\d+: error", out)]
    L = text.split("\n")
    brk = []
    for e in errlines:
        i = min(e, len(L)) - 1
        while i >= 0 and not re.match(r"(@\[.*\]\s*)?(private\s+)?(theorem|def|example|instance|inductive|structure|lemma|#print)\b", L[i]): i -= 1
        w = L[i].split()
        name = w[1] if i >= 0 and len(w) > 1 and w[0] in ("theorem", "def", "lemma") else ("example" if i >= 0 and w[0] == "example" else "?")
        if name not in brk: brk.append(name)
    for t in list(ok):  # a theorem whose elaboration runs out of time is declared without a proof and without axioms
        if t.split(".")[-1] in brk: ok.remove(t); fails.append(t)
    return fails, ok, brk, out

def main():
    specs = json.load(open(sys.argv[1]))
    flt = sys.argv[2] if len(sys.argv) > 2 else None
    specs = [s for s in specs if not (flt and flt not in s["definition"] + s["edit"])]
    for n, s in enumerate(specs): s["_n"] = n
    bases = {}
    for s in specs:
        b = dict(dir=s["dir"], skip=s.get("skip", []), also=s.get("also", []), file=s["file"], old=s["old"], new=s["old"], nth=0, _n=900)
        bases.setdefault((s["dir"], tuple(b["also"])), b)
    for b in bases.values():
        fails, ok, brk, out = build(b)
        if fails: raise SystemExit("the unchanged model fails: " + str(fails))
    pool = ThreadPool(int(os.environ.get("JOBS", "3")))
    for s, (fails, ok, brk, out) in zip(specs, pool.imap(build, specs)):
        rec = {"definition": s["definition"], "edit": s["edit"], "claim": s["claim"],
               "theorems_failed": [t.split("Verif.")[1] for t in fails], "theorems_tightened": s.get("tightened", []),
               "proofs_broken": brk[:12]}
        missing = [e for e in s.get("expect", []) if not any(t.endswith("." + e) or t == e for t in fails)]
        print(("KILLED " if fails and not missing else "SURVIVED ") + s["definition"] + " | " + s["edit"] + " | fail=" +
              ",".join(t.split(".")[-1] for t in fails) + (" | MISSING " + ",".join(missing) if missing else "") +
              (" | broken=" + ",".join(brk[:6])), flush=True)
        if os.environ.get("DRY"): continue
        if missing or not fails: rec["note"] = "not detected by " + ",".join(missing or ["any theorem"])
        if s.get("note"): rec["note"] = s["note"]
        with open(os.path.join(ROOT, "seeded", "LOG.jsonl"), "a") as f: f.write(json.dumps(rec) + "\n")
main()
