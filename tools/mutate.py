#!/usr/bin/env python3
"""Mutation testing of the model.

usage: mutate.py mutations.json
Each mutation: {"file": "Verif/Model/X.lean", "def": "...", "old": "...", "new": "...", "breaks": "..."}.
Works on a scratch copy, appends one line per mutation to seeded/LOG.jsonl.
"""
import json, os, re, shutil, subprocess, sys, datetime
SRC = "/verif/lean"; DST = os.environ.get("MUTDIR", "/tmp/mut") + "/lean"
def sync():
    os.makedirs(DST, exist_ok=True)
    subprocess.run(["rsync", "-a", "--delete", SRC + "/", DST + "/"], check=True) if shutil.which("rsync") else \
        (shutil.rmtree(DST), shutil.copytree(SRC, DST, symlinks=True))
def decl_at(path, line):
    name = None
    for i, l in enumerate(open(path), 1):
        if i > line: break
        m = re.match(r"\s*(?:@\[[^\]]*\]\s*)?(?:private |protected |noncomputable )*(theorem|lemma|def|example|instance)\s*([^\s:({]*)", l)
        if m: name = m.group(2) or m.group(1) + f"@{i}"
    return name
def props_failed(files):
    imp = {}
    for root, _, fs in os.walk(DST + "/Verif"):
        for f in fs:
            if f.endswith(".lean"):
                path = os.path.join(root, f); rel = os.path.relpath(path, DST)
                imp[rel] = [x.replace(".", "/") + ".lean" for x in re.findall(r"^import (Verif[\w.]+)", open(path).read(), re.M)]
    bad = set(files); ch = True
    while ch:
        ch = False
        for k, v in imp.items():
            if k not in bad and any(x in bad for x in v): bad.add(k); ch = True
    out = []
    for k in sorted(bad):
        if "/Props/" in k: out += re.findall(r"^theorem (C\d\d\w*)", open(os.path.join(DST, k)).read(), re.M)
    return out
def main():
    muts = json.load(open(sys.argv[1]))
    sync()
    for m in muts:
        p = os.path.join(DST, m["file"]); orig = open(p).read()
        assert orig.count(m["old"]) >= 1, ("not found", m)
        if m.get("nth") is not None:
            k = m["nth"]; parts = orig.split(m["old"])
            new = m["old"].join(parts[:k+1]) + m["new"] + m["old"].join(parts[k+1:])
        else:
            d = re.search(r"^(?:partial |noncomputable )*def %s\b" % re.escape(m["def"]), orig, re.M)
            i = orig.find(m["old"], d.start() if d else 0)
            assert i >= 0 and (d or orig.count(m["old"]) == 1), ("ambiguous", m)
            e = re.search(r"^(?:/--|def |end )", orig[d.end():], re.M) if d else None
            assert e is None or i < d.end() + e.start(), ("out of the definition", m)
            new = orig[:i] + m["new"] + orig[i + len(m["old"]):]
        open(p, "w").write(new)
        saved = []
        for x in m.get("also", []):   # the same edit in other places
            q = os.path.join(DST, x["file"]); t = open(q).read(); saved.append((q, t))
            assert t.count(x["old"]) == 1, ("also", x)
            open(q, "w").write(t.replace(x["old"], x["new"]))
        r = subprocess.run(["lake", "build"] + m.get("targets", []), cwd=DST, capture_output=True, text=True)
        out = r.stdout + r.stderr
        fails = []
        for f, ln in re.findall(r"error: (Verif/[\w/]+\.lean):(\d+):", out):
            d = decl_at(os.path.join(DST, f), int(ln))
            x = f"{f}:{d}"
            if x not in fails: fails.append(x)
        for q, t in reversed(saved): open(q, "w").write(t)
        open(p, "w").write(orig)
        pf = props_failed(set(x.split(":")[0] for x in fails))
        entry = {"definition": m["file"] + ":" + m["def"], "edit": m["old"] + "  ==>  " + m["new"],
                 "claim_broken": m["breaks"], "failed": fails, "property_theorems_no_longer_proved": pf, "survived": r.returncode == 0,
                 "tightened": m.get("tightened", [])}
        if "targets" in m: entry["built"] = m["targets"]   # the modules of properties which depend on the file
        print(("SURVIVED " if r.returncode == 0 else "killed   ") + m["def"], "|", m["new"].strip().replace("\n", " / ")[:80], "|", fails[:4], flush=True)
        with open("/verif/seeded/LOG.jsonl", "a") as f: f.write(json.dumps(entry) + "\n")
main()
