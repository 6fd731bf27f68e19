#!/usr/bin/env python3
"""Make small wrong programs mechanically and try them against the property theorems.

usage: automut.py DIR COUNT [SEED]

Every edit changes one place of one definition of a file *Model.lean of the component: a comparison, a condition, a constant, an order
or a dropped statement.  Prints one JSON line per attempt: definition, edit, the theorems that fail, or whether the edit does
not elaborate.  Which of the survivors break a claim is for the reader to judge."""
import json, os, random, re, sys
sys.argv, args = [sys.argv[0], "/dev/null"], sys.argv[1:]
src = open(os.path.join(os.path.dirname(os.path.abspath(__file__)), "mutate.py")).read().rsplit("main()", 1)[0]
__file__ = os.path.abspath(__file__)
exec(src)
RULES = [(" < ", " ≤ "), (" ≤ ", " < "), (" < ", " > "), (" > ", " ≥ "), (" ≥ ", " > "), (" + 1", ""), (" - 1", ""), (" + ", " - "), (" - ", " + "), (" = ", " ≠ "), (" ≠ ", " = "),
         (" == ", " != "), (" != ", " == "), (" && ", " || "), (" || ", " && "), (" ∧ ", " ∨ "), (" ∨ ", " ∧ "), ("true", "false"), ("false", "true"), (".take ", ".drop "),
         (".drop ", ".take "), ("if !", "if "), ("if ¬", "if "), (".tail", ""), (".reverse", ""), (" * ", " + "), (" / ", " % "), (" % ", " / "), ("none", "some 0"), ("[]", "[0]"),
         (".ub", ".ok default"), (".left", ".right"), (".next", ".prev"), (".prev", ".next"), ("x y", "y x"), ("a b", "b a"), (" 0", " 1"), (" 1", " 0"), (" 2", " 3"), ("min ", "max "), ("max ", "min ")]

def strip_comments(s):
    out = list(s)
    for m in re.finditer(r"/-.*?-/|--[^\n]*", s, re.S):
        for i in range(m.start(), m.end()):
            if out[i] != "\n": out[i] = "\x00"
    return "".join(out)

def candidates(d):
    res = []
    base = os.path.join(LEAN, "Verif", d)
    for f in sorted(os.listdir(base)):
        if not f.endswith("Model.lean"): continue
        s = open(os.path.join(base, f)).read()
        t = strip_comments(s)
        starts = [m.start() for m in re.finditer(r"^(@\[[^\]]*\]\s*)?(partial )?(def|theorem|structure|inductive|instance|end|namespace|abbrev|section|variable|open|lemma|mutual|deriving|class|example)\b", t, re.M)] + [len(t)]
        for a, b in zip(starts, starts[1:]):
            body = t[a:b]
            m = re.match(r"(?:@\[[^\]]*\]\s*)?(?:partial )?def\s+(\S+)", body)
            if not m: continue
            name = m.group(1)
            k = min([x for x in (body.find(":="), body.find("\n  |")) if x >= 0] or [-1])
            if k < 0: continue
            for old, new in RULES:
                for o in re.finditer(re.escape(old), body[k + 2:]):
                    p = a + k + 2 + o.start()
                    e = p + len(old)
                    if old in (" 0", " 1", " 2", " + 1", " - 1") and e < len(s) and (s[e].isalnum() or s[e] in ".^"): continue
                    if old[0].isalpha() and (s[p - 1].isalnum() or s[p - 1] in "._"): continue
                    if old[-1].isalpha() and e < len(s) and (s[e].isalnum() or s[e] in "_."): continue
                    res.append((f, name, p, e, new))
            for o in re.finditer(r"\n +(let [^\n]*:= [^\n]*|let _ ← [^\n]*|[a-z]\w* [^\n:=|]*)(?=\n)", body[k + 2:]):
                p = a + k + 2 + o.start()
                res.append((f, name, p, a + k + 2 + o.end(), ""))
    return res

def run(d, n, seed, exclude=()):
    rnd = random.Random(seed)
    cs = candidates(d)
    by = {}
    for c in cs: by.setdefault((c[0], c[1]), []).append(c)
    for v in by.values(): rnd.shuffle(v)
    keys = list(by); rnd.shuffle(keys)
    order_ = []
    while keys:
        keys = [k for k in keys if by[k]]
        for k in keys: order_.append(by[k].pop())
    done = 0
    for f, name, p, e, new in order_:
        if done >= n: break
        s = open(os.path.join(LEAN, "Verif", d, f)).read()
        lo = s.rfind("\n", 0, p + 1) + 1 if s[p] != "\n" else p + 1
        hi = s.find("\n", e) if s.find("\n", e) >= 0 else len(s)
        line, mut = s[lo:hi], s[lo:p] + new + s[e:hi] if s[p] != "\n" else s[e:hi].lstrip("\n")
        ctx = s[max(0, p - 60):e + 60]
        # an unambiguous context
        a, b = p, e
        while s.count(s[a:b]) > 1 or a == b:
            a = max(0, a - 20); b = min(len(s), b + 20)
        spec = dict(dir=d, file=f, old=s[a:b], new=s[a:p] + new + s[e:b], _n=1000 + (hash(d) % 500))
        imp = re.sub(r"^import\s+\S+\s*$", "", s, flags=re.M)
        if imp.count(spec["old"]) != 1: continue
        try:
            fails, ok, brk, out = build(spec)
        except Exception as x:
            print(json.dumps({"error": str(x)[:200], "dir": d, "definition": name}), flush=True); done += 1; continue
        invalid = name in brk
        if not invalid: done += 1
        print(json.dumps({"dir": d, "definition": name, "line": line.strip(), "edit": (mut.strip() if new or s[p] != "\n" else "(dropped)"), "result": "invalid" if invalid else ("killed" if fails else "SURVIVED"),
                          "theorems_failed": [t.split("Verif.")[1] for t in fails], "proofs_broken": brk[:8]}, ensure_ascii=False), flush=True)
run(args[0], int(args[1]), int(args[2]) if len(args) > 2 else 0)
