#!/usr/bin/env python3
"""Generates small wrong versions of the model for mutate.py.

usage: automut.py SEED PER_DEFINITION > MUTANTS.json

Operators: change of a comparison, of a constant, of a text, of the next state; a dropped field update; swapped branches.
"""
import json, os, random, re, sys

ROOT = os.path.join(os.path.dirname(os.path.abspath(__file__)), "..", "lean", "Verif", "Model")
FILES = ["Utils", "Node", "Core", "Cmd", "Parse", "Autocomp", "Service"]
SKIP = {"Op"}
STATES = ["reset", "resetPrompt", "readPrepare", "readChar", "writeChar", "parsePrepare", "parseSearchArg", "parseQuoteArg", "parseStandardArg",
          "promptPrefix", "promptHost", "promptSpace", "promptPath", "promptSuffix", "processStart", "processService", "processFinish",
          "acPrepare", "acCandStart", "acCandCount", "acCandOptimise", "acCandPrint", "acCandFinish", "acPrompt", "acRecall", "acRecallSuffix"]
SUBST = [("≥", ">"), (" < ", " ≤ "), (" ≤ ", " < "), (" > ", " ≥ "), ("≠", "="), ("∧", "∨"), ("∨", "∧"), ("&&", "||"),
         ("+ 1", "+ 2"), ("+ 1", "+ 0"), ("- 1", "- 2"), ("- 1", "- 0"), (":= 0", ":= 1"), (":= 1", ":= 2"), ("= 0 ", "= 1 "),
         ("true", "false"), ("false", "true"), ("cNul", "cSpace"), ("cSpace", "cTab"), ("cSlash", "cSpace"), ("cBackslash", "cSlash"),
         ("cQuote", "cSpace"), ("cBs", "cDel"), ("cDel", "cBs"), ("cLf", "cCr"), ("cCr", "cLf"), ("(nodes id).next", "(nodes id).children"),
         (".children", ".next"), (".next", ".children"), ("u.root", "u.current"), ("u.current", "u.root"), ("u.commands", "u.root"), (".dropLast", ".tail"),
         ("writePos", "writeSize"), ("outPos", "inPos"), ("inPos", "outPos"), (" ++ ", " ++ b!\"x\" ++ "), ("u.acCount", "u.acPrevCount"),
         ("u.procItem", "u.procIndex"), ("procStage", "procIndex"), ("(some c)", "prev"), (".take ", ".drop "), ("E.outSize", "(E.outSize - 1)"),
         ("E.inSize", "(E.inSize - 1)"), ("E.pathMax", "(E.pathMax - 1)"), ("fuel", "(fuel - 1)"), ("u.argsCount", "(u.argsCount - 1)")]

def muts(line):
    """(start, end, replacement, description)"""
    out = []
    for a, b in SUBST:
        for m in re.finditer(re.escape(a), line):
            out.append((m.start(), m.end(), b, f"`{a.strip()}` becomes `{b.strip()}`"))
    for m in re.finditer(r"if (.*?) then (.*?) else ([^)]*?)(?=\)|$)", line):
        if m.group(2).strip() and m.group(3).strip() and "if" not in m.group(2):
            out.append((m.start(), m.end(), f"if {m.group(1)} then {m.group(3)} else {m.group(2)}", f"branches of `if {m.group(1)}` swapped"))
    for m in re.finditer(r"(?<=with )(\w+ := [^,{}]+), ", line):
        out.append((m.start(), m.end(), "", f"update `{m.group(1)}` dropped"))
    for m in re.finditer(r", (\w+ := [^,{}]+)(?= \}|, )", line):
        out.append((m.start(), m.end(), "", f"update `{m.group(1)}` dropped"))
    for m in re.finditer(r"\{ u with (\w+ := [^,{}]+) \}", line):
        out.append((m.start(), m.end(), "u", f"update `{m.group(1)}` dropped"))
    for m in re.finditer(r"(?<![\w|])(?<!\| )\.(" + "|".join(STATES) + r")\b", line):
        if line.lstrip().startswith("|") and m.start() < line.find("=>"):
            continue
        i = STATES.index(m.group(1))
        for s in {STATES[(i + 1) % len(STATES)], STATES[(i - 1) % len(STATES)]}:
            out.append((m.start(), m.end(), "." + s, f"next state `.{m.group(1)}` becomes `.{s}`"))
    for m in re.finditer(r'b!"([^"]+)"', line):
        out.append((m.start(), m.end(), 'b!"' + m.group(1) + '."', f"text {m.group(0)} gets a dot"))
    return out

def main():
    rnd = random.Random(int(sys.argv[1]))
    per = int(sys.argv[2])
    res = []
    for f in FILES:
        src = open(os.path.join(ROOT, f + ".lean")).read()
        lines = src.split("\n")
        cur, com = None, False
        by = {}
        pos = 0
        for n, line in enumerate(lines):
            if line.startswith("/-"):
                com = True
            code = not com and not line.startswith("import") and not line.startswith("namespace")
            if "-/" in line:
                com = False
            m = re.match(r"(def|inductive|structure) (\S+)", line)
            if m:
                cur = m.group(2) if m.group(1) == "def" else None
            if code and cur and not m:
                body = line.split("  -- ")[0]
                for s, e, r, d in muts(body):
                    by.setdefault(cur, []).append((n, s, e, r, d))
            elif m and cur and ":=" in line:
                k = line.rindex(":=") + 2
                for s, e, r, d in muts(line[k:]):
                    by.setdefault(cur, []).append((n, s + k, e + k, r, d))
        for d in by:
            ms = by[d]
            rnd.shuffle(ms)
            for k, (n, s, e, r, desc) in enumerate(ms[:per]):
                new = lines[n][:s] + r + lines[n][e:]
                res.append({"id": f"a{sys.argv[1]}-{f}-{d}-{k}", "file": f"Model/{f}.lean", "def": d, "line": n + 1, "old": lines[n], "new": new, "edit": desc})
    json.dump(res, sys.stdout, indent=0, ensure_ascii=False)

main()
