#!/usr/bin/env python3
"""Runs seeded bugs against the theorems.

usage: mutate.py FILE.json   (list of {"file","def","old","new","claim"}), in a scratch copy /tmp/mut/lean of /verif/lean.
For each: applies the edit, runs `lake build`, reports the declarations with errors and the modules that could not be
built because of them, appends a line to /verif/seeded/LOG.jsonl, restores the file."""
import json, os, re, subprocess, sys
ROOT = "/tmp/mut/lean"
LOG = "/verif/seeded/LOG.jsonl"
decl = re.compile(r"^\s*(?:@\[[^\]]*\]\s*)?(?:private |protected |noncomputable )*(theorem|lemma|def|abbrev|instance|example|inductive|structure|macro|mutual)\s*([^\s:({\[]*)")
def enclosing(path, line):
    ls = open(path).read().split("\n")
    for i in range(min(line, len(ls)) - 1, -1, -1):
        m = decl.match(ls[i])
        if m: return (m.group(1), m.group(2) or "line %d" % (i + 1))
    return ("?", "?")
def build():
    p = subprocess.run(["lake", "build"], cwd=ROOT, capture_output=True, text=True)
    out = p.stdout + p.stderr
    failed = []
    for m in re.finditer(r"error: (Verif/\S+?\.lean):(\d+):", out):
        k, n = enclosing(os.path.join(ROOT, m.group(1)), int(m.group(2)))
        x = m.group(1)[6:-5].replace("/", ".") + ":" + n
        if x not in failed: failed.append(x)
    return p.returncode == 0, failed, out
def blocked(failed):
    """modules that import (transitively) a failed module"""
    imps = {}
    for d, _, fs in os.walk(ROOT + "/Verif"):
        for f in fs:
            if f.endswith(".lean"):
                p = os.path.join(d, f); m = os.path.relpath(p, ROOT)[:-5].replace("/", ".")
                imps[m] = re.findall(r"^import (Verif\.\S+)", open(p).read(), re.M)
    bad = {"Verif." + x.split(":")[0] for x in failed}
    res = set(); ch = True
    while ch:
        ch = False
        for m, i in imps.items():
            if m not in res and m not in bad and any(j in bad or j in res for j in i): res.add(m); ch = True
    return sorted(m[6:] for m in res if ".Props." in m)
if __name__ == "__main__":
    for mu in json.load(open(sys.argv[1])):
        p = os.path.join(ROOT, "Verif", mu["file"])
        src = open(p).read()
        if src.count(mu["old"]) != 1:
            print("SKIP (%d matches)" % src.count(mu["old"]), mu["def"], mu["old"]); continue
        open(p, "w").write(src.replace(mu["old"], mu["new"]))
        try:
            ok, failed, out = build()
            bl = blocked(failed)
        finally:
            open(p, "w").write(src)
        rec = {"definition": mu["file"][:-5].replace("/", ".") + ":" + mu["def"], "edit": "%s  ==>  %s" % (mu["old"].strip(), mu["new"].strip()),
               "claim": mu["claim"], "failed": failed, "not_built_because_of_these": bl, "tightened": mu.get("tightened", [])}
        if ok: rec["failed"] = "NONE: survived"
        print(("SURVIVED " if ok else "killed ") + mu["def"] + " | " + mu["claim"] + " | " + ", ".join(failed[:8]), flush=True)
        if not failed and not ok: print(out[-1500:])
        open(LOG, "a").write(json.dumps(rec) + "\n")
