#!/usr/bin/env python3
"""Rewrite the lists of claims and axioms in DESIGN.md (needs a finished build in lean/)."""
import json, os, re, subprocess
ROOT = os.path.dirname(os.path.dirname(os.path.abspath(__file__)))
claims = json.load(open(os.path.join(ROOT, "MANIFEST.json")))["claims"]
names = list(dict.fromkeys(t for c in claims for t in c["theorems"]))
src = "import Verif\n" + "".join(f"#print axioms {n}\n" for n in names)
p = subprocess.run(["lake", "env", "lean", "--stdin"], input=src, cwd=os.path.join(ROOT, "lean"), text=True, stdout=subprocess.PIPE)
ax = {}
for m in re.finditer(r"'(\S+)' (does not depend on any axioms|depends on axioms: \[([^\]]*)\])", p.stdout):
    ax[m.group(1)] = ", ".join(x.strip() for x in m.group(3).split(",")) if m.group(3) else "none"
assert set(ax) == set(names), set(names) - set(ax)
by = {}
for n in names:
    by.setdefault(ax[n], []).append(n.split(".")[-1])
out = []
for a in sorted(by, key=lambda k: (len(k), k)):
    out.append(f"* **{a}** ({len(by[a])}): " + ", ".join(f"`{n}`" for n in sorted(by[a])) + "\n")
rows = []
for c in sorted(claims, key=lambda c: c["property"]):
    rows.append(f"* **{c['property']}** {c['status']}: " + ", ".join(f"`{n.split('.')[-1]}`" for n in c["theorems"]) + (f". {c['note']}" if c["note"] else "") + "\n")
path = os.path.join(ROOT, "DESIGN.md")
t = open(path).read()
for tag, text in (("claims", "".join(rows)), ("axioms", "\n".join(out))):
    a, b = f"<!-- {tag} begin -->\n", f"<!-- {tag} end -->\n"
    i, j = t.index(a) + len(a), t.index(b)
    t = t[:i] + text + t[j:]
open(path, "w").write(t)
print({k: len(v) for k, v in by.items()})
