#!/usr/bin/env python3
"""Tests the theorems against wrong programs.

usage: mutate.py SCRATCH MUTANTS.json OUT.jsonl [quick]

MUTANTS.json is a list of {id, file, def, old, new, edit, claim, expect}.  For each mutant the model in
SCRATCH (a copy of lean/, outside this repository) is restored, edited and rebuilt.  Every declaration that
no longer proves is replaced by `sorry`, until the rest builds; a property theorem has failed if it then
depends on `sorryAx`.  The result is one line of OUT.jsonl per mutant.

With `quick` the build stops at the first module that fails; the result names the declarations of that module
that no longer prove ("survived" if all property files build).
"""
import glob, json, os, re, shutil, signal, subprocess, sys, time

REPO = "/verif"
REF = subprocess.check_output(["git", "-C", REPO, "rev-parse", "HEAD"], text=True).strip()  # the commit at the start
scratch, mutants, out = sys.argv[1:4]

def sh(cmd, cwd=scratch, timeout=3000):
    try:
        p = subprocess.run(cmd, cwd=cwd, shell=True, text=True, stdout=subprocess.PIPE, stderr=subprocess.STDOUT, timeout=timeout)
        return p.returncode, p.stdout
    except subprocess.TimeoutExpired as e:
        return 124, (e.stdout or b"").decode() if isinstance(e.stdout, bytes) else (e.stdout or "")

def restore():
    """Sources of the last commit, without touching files that are already right (keeps the build cache)."""
    tmp = scratch + ".src"
    shutil.rmtree(tmp, ignore_errors=True)
    os.makedirs(tmp)
    subprocess.check_call(f"git -C {REPO} archive {REF} lean | tar -x -C {tmp}", shell=True)
    for root, _, files in os.walk(tmp + "/lean"):
        for f in files:
            a = os.path.join(root, f)
            b = os.path.join(scratch, os.path.relpath(a, tmp + "/lean"))
            os.makedirs(os.path.dirname(b), exist_ok=True)
            if not os.path.exists(b) or open(a).read() != open(b).read():
                shutil.copyfile(a, b)

START = re.compile(r"^(?:@\[[^\]]*\]\s*)?(?:private |protected |noncomputable )*(theorem|lemma|example|instance|def|abbrev|structure|inductive|#guard|#eval|#check|deriving|macro|syntax)\b\s*(\S*)")
TOP = re.compile(r"^(?:@\[|private |protected |noncomputable |theorem |lemma |example|instance|def |abbrev |structure |inductive |#|end |namespace |section|open |variable|include|omit|set_option|/-|deriving|macro|local |attribute)")

def decl_at(lines, ln):
    """(start, end, kind, name) of the declaration that contains line ln (0-based)."""
    s = ln
    while s >= 0 and not START.match(lines[s]):
        s -= 1
    e = s + 1
    while e < len(lines) and not TOP.match(lines[e]):
        e += 1
    m = START.match(lines[s])
    return s, e, m.group(1), m.group(2)

def sorrify(text):
    depth = 0
    i = 0
    while i < len(text):
        ch = text[i]
        if ch in "([{⟨":
            depth += 1
        elif ch in ")]}⟩":
            depth -= 1
        elif depth == 0 and text.startswith(":=", i):
            return text[:i] + ":= sorry\n\n"
        elif depth == 0 and text.startswith("\n  | ", i):
            return text[:i] + " := sorry\n\n"
        i += 1
    return None

def edit(mut):
    restore()
    path = os.path.join(scratch, "Verif", mut["file"])
    src = open(path).read()
    if src.count(mut["old"]) < 1 or (src.count(mut["old"]) > 1 and "nth" not in mut):
        return {"error": "pattern occurs %d times" % src.count(mut["old"])}
    if "nth" in mut:
        parts = src.split(mut["old"])
        k = mut["nth"]
        src = mut["old"].join(parts[:k + 1]) + mut["new"] + mut["old"].join(parts[k + 1:])
    else:
        src = src.replace(mut["old"], mut["new"])
    open(path, "w").write(src)

def edit_line(mut):
    restore()
    path = os.path.join(scratch, "Verif", mut["file"])
    lines = open(path).read().split("\n")
    if lines[mut["line"] - 1] != mut["old"]:
        return {"error": "line has changed"}
    lines[mut["line"] - 1] = mut["new"]
    open(path, "w").write("\n".join(lines))

def quick(mut):
    r = edit_line(mut) if "line" in mut else edit(mut)
    if r:
        return r
    mods = sorted("Verif.Props." + os.path.basename(f)[:-5] for f in glob.glob(scratch + "/Verif/Props/*.lean"))
    p = subprocess.Popen(["lake", "build"] + mods, cwd=scratch, stdout=subprocess.PIPE, stderr=subprocess.STDOUT, text=True, start_new_session=True)
    errs = []
    mod = None
    for line in p.stdout:
        m = re.match(r"error: (Verif/\S+\.lean):(\d+):\d+: ", line)
        if m:
            if mod and m.group(1) != mod:
                break
            mod = m.group(1)
            errs.append(int(m.group(2)) - 1)
        elif mod and re.match(r"\S+ \[\d+/\d+\]|Some required|error: (Lean exited|build failed)", line):
            break
    try:
        os.killpg(p.pid, signal.SIGKILL)
    except ProcessLookupError:
        pass
    code = p.wait()
    if not errs:
        return {"result": "survived"} if code == 0 else {"error": f"build ended with {code}"}
    if mod.startswith("Verif/Model"):
        return {"result": "invalid"}
    lines = open(os.path.join(scratch, mod)).read().split("\n")
    names = []
    for ln in errs:
        _, _, kind, name = decl_at(lines, min(ln, len(lines) - 1))
        n = kind if kind == "example" else name
        if n not in names:
            names.append(n)
    return {"result": "killed", "module": mod[6:-5], "failed": names}

def run(mut, names):
    r = edit_line(mut) if "line" in mut else edit(mut)
    if r:
        return r
    failed, tests, examples = [], 0, 0
    for it in range(40):
        code, log = sh("lake build Verif")
        errs = {}
        for m in re.finditer(r"^error: (Verif/\S+\.lean):(\d+):\d+: (.*)$", log, re.M):
            errs.setdefault(m.group(1), set()).add(int(m.group(2)) - 1)
        if not errs:
            if code != 0:
                return {"error": "build: " + log[-500:]}
            break
        for f, lns in errs.items():
            if f.startswith("Verif/Model"):
                return {"error": "model does not compile: " + log[-800:]}
            p = os.path.join(scratch, f)
            lines = open(p).read().split("\n")
            spans = {}
            for ln in lns:
                s, e, kind, name = decl_at(lines, min(ln, len(lines) - 1))
                spans[s] = (e, kind, name)
            for s in sorted(spans, reverse=True):
                e, kind, name = spans[s]
                text = "\n".join(lines[s:e])
                if kind.startswith("#"):
                    new = ""
                    tests += 1
                else:
                    if text.rstrip().endswith("sorry") and ":= sorry" in text or kind in ("structure", "inductive"):
                        return {"error": f"cannot repair {f}:{s + 1} {kind} {name}", "failed": failed}
                    new = sorrify(text)
                    if new is None:
                        return {"error": f"cannot repair {f}:{s + 1} {kind} {name}", "failed": failed}
                    if kind == "example":
                        examples += 1
                    else:
                        failed.append(f"{f[6:-5]}:{name}")
                lines[s:e] = new.split("\n")
            open(p, "w").write("\n".join(lines))
    else:
        return {"error": "too many rounds", "failed": failed}
    with open(os.path.join(scratch, "Ax.lean"), "w") as g:
        g.write("import Verif\n" + "".join(f"#print axioms {n}\n" for n in names))
    _, log = sh("lake env lean Ax.lean")
    bad = [m.group(1).split(".")[-1] for m in re.finditer(r"'(\S+)' depends on axioms: \[([^\]]*)\]", log) if "sorryAx" in m.group(2)]
    return {"lemmas": failed, "theorems": bad, "tests": tests, "examples": examples}

def main():
    names = [t for c in json.load(open(REPO + "/MANIFEST.json"))["claims"] for t in c["theorems"]]
    names = list(dict.fromkeys(names))
    done = set()
    if os.path.exists(out):
        done = {json.loads(l)["id"] for l in open(out)}
    for mut in json.load(open(mutants)):
        if mut["id"] in done:
            continue
        t = time.time()
        r = quick(mut) if sys.argv[4:] == ["quick"] else run(mut, names)
        r.update(id=mut["id"], secs=round(time.time() - t), expect=mut.get("expect", []))
        r["missed"] = [p for p in mut.get("expect", []) if not any(n.startswith(p) for n in r.get("theorems", []))]
        with open(out, "a") as f:
            f.write(json.dumps(r) + "\n")

main()
