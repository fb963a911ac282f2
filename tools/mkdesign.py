#!/usr/bin/env python3
"""Fills the generated parts of DESIGN.md: the disagreements (from claims.py) and the axioms of every claimed theorem
(from `#print axioms`).  Run after `lake build`."""
import json, os, re, subprocess
root = os.path.join(os.path.dirname(os.path.abspath(__file__)), "..")
props = [json.loads(l) for l in open(os.path.join(root, "properties.jsonl"))]
man = {c["property"]: c for c in json.load(open(os.path.join(root, "MANIFEST.json")))["claims"]}

def disagreements():
    out = []
    for p in props:
        c = man[p["id"]]
        if c["status"] != "partial" or "alse" not in c["note"]: continue
        fails = [t for t in c["theorems"] if "fails" in t or "counterexample" in t]
        out.append("* **%s** %s. %s%s" % (p["id"], p["title"], c["note"],
                   " (`%s`)" % "`, `".join(t.replace("Veri.", "") for t in fails) if fails else ""))
    return "\n".join(out)

def axioms():
    thms = sorted({t for c in man.values() for t in c["theorems"]})
    src = "import Verif\n" + "".join("#print axioms %s\n" % t for t in thms)
    f = "/tmp/axioms.lean"
    open(f, "w").write(src)
    o = subprocess.run("lake env lean " + f, shell=True, cwd=os.path.join(root, "lean"), capture_output=True, text=True).stdout
    groups = {}
    for m in re.finditer(r"'([^']+)' (?:depends on axioms: \[([^\]]*)\]|(does not depend on any axioms))", o):
        ax = ", ".join(sorted(x.strip() for x in m.group(2).split(","))) if m.group(2) else "none"
        groups.setdefault(ax, []).append(m.group(1).replace("Veri.", "", 1))
    n = sum(map(len, groups.values()))
    assert n == len(thms), (n, len(thms), o[:2000])
    out = []
    for ax in sorted(groups, key=lambda a: (len(a), a)):
        out.append("*%s* (%d theorems): %s" % (ax, len(groups[ax]), ", ".join("`%s`" % t for t in sorted(groups[ax]))))
    return "\n\n".join(out)

path = os.path.join(root, "DESIGN.md")
s = open(path).read()
for name, fn in (("disagreements", disagreements), ("axioms", axioms)):
    a, b = "<!-- begin %s -->" % name, "<!-- end %s -->" % name
    i, j = s.index(a) + len(a), s.index(b)
    s = s[:i] + "\n" + fn() + "\n" + s[j:]
open(path, "w").write(s)
