#!/usr/bin/env python3
"""Seeds a bug in a scratch copy of the model and records which theorems stop proving.
usage: mutate.py spec.json   (list of {file, definition, old, new, edit, breaks, target, tightened?})
"""
import json, os, re, subprocess, sys, shutil
V = "/verif"; S = "/tmp/mut"
def sh(c, **k): return subprocess.run(c, shell=True, capture_output=True, text=True, **k)
def enclosing(path, line):
    name = None
    for i, l in enumerate(open(path), 1):
        if i > line: break
        m = re.match(r"\s*(?:private |protected |noncomputable )*(?:theorem|lemma|def|example|instance|abbrev)\s*([^\s:({\[]*)", l)
        if m: name = m.group(1) or "example@%d" % i
    return name
for m in json.load(open(sys.argv[1])):
    sh(f"mkdir -p {S} && rsync -a --delete {V}/lean/ {S}/lean/") if shutil.which("rsync") else sh(f"rm -rf {S} && mkdir -p {S} && cp -a {V}/lean {S}/lean")
    f = f"{S}/lean/{m['file']}"
    s = open(f).read()
    if s.count(m["old"]) != 1:
        print("BAD PATTERN", m["definition"], s.count(m["old"])); continue
    open(f, "w").write(s.replace(m["old"], m["new"]))
    r = sh(f"cd {S}/lean && timeout 900 lake build {m['target']} 2>&1")
    out = r.stdout
    errs = re.findall(r"error: (\S+?\.lean):(\d+):\d+", out)
    failed = []
    for p, ln in errs:
        n = enclosing(f"{S}/lean/{p}", int(ln))
        q = p.replace("Verif/", "").replace(".lean", "").replace("/", ".") + ":" + str(n)
        if q not in failed: failed.append(q)
    rec = dict(definition=m["definition"], file=m["file"], edit=m["edit"], breaks=m["breaks"],
               failed=failed, blocked_target=m["target"] if r.returncode else None,
               survived=(r.returncode == 0), tightened=m.get("tightened", []))
    print(json.dumps(rec))
    if not m.get("nolog"):
        os.makedirs(f"{V}/seeded", exist_ok=True)
        open(f"{V}/seeded/LOG.jsonl", "a").write(json.dumps(rec) + "\n")
