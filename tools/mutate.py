#!/usr/bin/env python3
"""Apply one textual edit to a scratch copy of the model, rebuild, report and log what failed.

usage: mutate.py < edits.json   (list of {file, definition, claim, old, new})
The log lines go to /verif/seeded/LOG.jsonl.
"""
import sys, subprocess, re, json, os, shutil
SRC, DST = os.environ.get("MUT_SRC", "/verif/lean"), "/tmp/mut/lean"
def decl_at(path, line):
    name = None
    for i, l in enumerate(open(path), 1):
        if i > line: break
        m = re.match(r"\s*(?:private |protected )?(?:theorem|lemma|def|instance|example|structure|inductive)\s*([^\s:({\[]*)", l)
        if m: name = m.group(1) or "example"
    return name
def run(file, definition, claim, old, new, tight=()):
    os.makedirs("/tmp/mut", exist_ok=True)
    subprocess.run(["rsync", "-a", "--delete", SRC + "/", DST + "/"], check=True) if shutil.which("rsync") else \
        (shutil.rmtree(DST, ignore_errors=True), subprocess.run(["cp", "-a", SRC, DST], check=True))
    p = f"{DST}/Verif/{file}"
    s = open(p).read()
    assert s.count(old) == 1, f"edit matches {s.count(old)} times in {file}"
    open(p, "w").write(s.replace(old, new))
    r = subprocess.run(["lake", "build"], cwd=DST, capture_output=True, text=True, timeout=3000)
    out = r.stdout + r.stderr
    failed = []
    for m in re.finditer(r"error: (Verif/[^:]+):(\d+):", out):
        d = decl_at(f"{DST}/{m.group(1)}", int(m.group(2)))
        if d and d not in failed: failed.append(d)
    rec = {"definition": definition, "file": f"lean/Verif/{file}", "edit": {"old": old.strip(), "new": new.strip()},
           "claim": claim, "failed": failed, "tightened": list(tight)}
    open("/verif/seeded/LOG.jsonl", "a").write(json.dumps(rec) + "\n")
    print(("KILLED  " if r.returncode else "SURVIVED ") + definition + " :: " + claim[:60] + " -> " + ", ".join(failed[:6]))
    return r.returncode != 0
if __name__ == "__main__":
    muts = json.load(sys.stdin)
    for m in muts: run(m["file"], m["definition"], m["claim"], m["old"], m["new"], m.get("tight", ()))
