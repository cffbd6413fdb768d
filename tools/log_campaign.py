#!/usr/bin/env python3
"""Appends the results of a quick run of mutate.py to the log.

usage: log_campaign.py MUTANTS.json OUT.jsonl DEPS.txt NOTES.json LOG.jsonl

DEPS.txt has one line per property theorem: its name and all declarations it depends on.  A property theorem has failed if it depends on a declaration that no longer
proves.  The claim named is that of the failed theorem with the fewest dependencies.  NOTES.json: for survivors, {id: {result, note, theorems_tightened}}.
"""
import json, sys
mutants, out, deps, notes, log = sys.argv[1:]
ms = {m["id"]: m for m in json.load(open(mutants))}
notes = json.load(open(notes))
D = {}
for l in open(deps):
    w = l.split()
    D[w[0]] = set(x.split(".")[-1] if not x.split(".")[-1].startswith("_") else x.split(".")[-2] for x in w[1:]) | {w[0]}
n = 0
with open(log, "a") as f:
    for l in open(out):
        o = json.loads(l)
        m = ms[o["id"]]
        failed = [x.split(":")[-1].split(".")[-1] for x in o.get("failed", [])]
        thms = sorted(t for t in D if any(x in D[t] for x in failed))
        r = {"id": o["id"], "file": m["file"], "definition": m["def"], "edit": m["edit"], "old": m["old"], "new": m["new"],
             "claim": min(thms, key=lambda t: len(D[t]))[:3] if thms else m.get("claim", ""), "lemmas_failed": ["%s:%s" % (o["module"], x) if "module" in o else x for x in o.get("failed", [])],
             "theorems_failed": thms, "theorems_tightened": [], "result": o["result"]}
        if o["result"] == "invalid":
            r["note"] = "the edited model is not accepted by Lean"
        r.update(notes.get(o["id"], {}))
        if r["result"] == "killed" and not thms:
            print("no theorem:", o)
        f.write(json.dumps(r, ensure_ascii=False) + "\n")
        n += 1
print(n)
