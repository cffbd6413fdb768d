#!/usr/bin/env python3
"""Write MANIFEST.json from the table below and check that every theorem named in it exists."""
import json, os, re, glob
ROOT = os.path.dirname(os.path.dirname(os.path.abspath(__file__)))
C = []
def claim(p, status, theorems, note=""):
    C.append(dict(property=p, status=status, theorems=["Ush.Props." + t for t in theorems], note=note))

exec(open(os.path.join(ROOT, "tools", "claims.py")).read())

names = set()
for f in glob.glob(os.path.join(ROOT, "lean/Verif/Props/*.lean")):
    for m in re.finditer(r"^theorem (\S+)", open(f).read(), re.M):
        names.add("Ush.Props." + m.group(1))
for c in C:
    for t in c["theorems"]:
        assert t in names, t
listed = {t for c in C for t in c["theorems"]}
for n in sorted(names - listed):
    print("not listed:", n)
json.dump({"claims": C}, open(os.path.join(ROOT, "MANIFEST.json"), "w"), indent=1)
print(len(C), "claims,", len(listed), "theorems")
