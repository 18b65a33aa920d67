#!/usr/bin/env python3
"""Mutation testing of the translated C text, faster than mutate.py.

usage: mutdirect.py mutations.json Module...
Only the file with the text, and the modules of the proofs on it, in the given order (e.g. Verif.Proof.CArrRun), are compiled again, on a copy
of the compiled library: the proofs on the other files of the C text do not depend on it. It stops at the first module which fails.
Appends one line per mutation to seeded/LOG.jsonl.
"""
import json, os, re, shutil, subprocess, sys
SRC = "/verif/lean"; DST = os.environ.get("MUTDIR", "/tmp/mutd")
def decl_at(text, line):
    name = None
    for i, l in enumerate(text.split("\n"), 1):
        if i > line: break
        m = re.match(r"\s*(?:@\[[^\]]*\]\s*)?(?:private |protected |noncomputable )*(theorem|lemma|def|example|instance)\s*([^\s:({]*)", l)
        if m: name = m.group(2) or m.group(1) + f"@{i}"
    return name
def main():
    muts = json.load(open(sys.argv[1])); mods = sys.argv[2:]
    shutil.rmtree(DST, ignore_errors=True); os.makedirs(DST + "/src")
    subprocess.run(["cp", "-rl", SRC + "/.lake/build/lib/lean", DST + "/lib"], check=True)
    path = subprocess.run(["lake", "env", "printenv", "LEAN_PATH"], cwd=SRC, capture_output=True, text=True).stdout.strip()
    env = dict(os.environ, LEAN_PATH=DST + "/lib:" + ":".join(x for x in path.split(":") if not x.startswith(SRC + "/.lake") and x != ".lake/build/lib/lean"))
    lean = subprocess.run(["lake", "env", "which", "lean"], cwd=SRC, capture_output=True, text=True).stdout.strip()
    texts = {m: open(SRC + "/" + m.replace(".", "/") + ".lean").read() for m in mods}
    def comp(mod, text):
        src = DST + "/src/" + mod.replace(".", "/") + ".lean"; os.makedirs(os.path.dirname(src), exist_ok=True); open(src, "w").write(text)
        out = DST + "/lib/" + mod.replace(".", "/") + ".olean"
        for x in (out, out[:-5] + "ilean"):
            if os.path.exists(x): os.unlink(x)
        return subprocess.run([lean, src, "-o", out, "-i", out[:-5] + "ilean"], env=env, capture_output=True, text=True, cwd=DST + "/src")
    for m in muts:
        mod = m["file"][:-5].replace("/", "."); orig = open(SRC + "/" + m["file"]).read()
        d = re.search(r"^(?:partial |noncomputable )*def %s\b" % re.escape(m["def"]), orig, re.M)
        i = orig.find(m["old"], d.start()); assert i >= 0, ("not found", m)
        e = re.search(r"^(?:/--|def |end )", orig[d.end():], re.M)
        assert e is None or i < d.end() + e.start(), ("out of the definition", m)
        new = orig[:i] + m["new"] + orig[i + len(m["old"]):]
        r = comp(mod, new); fails = []; done = []
        assert r.returncode == 0, r.stdout + r.stderr   # a mutation must be a program
        first = next((k for k, x in enumerate(mods) if re.search(r"\b%s\b" % m["def"], texts[x])), 0)
        for x in mods[first:]:
            r = comp(x, texts[x]); done.append(x)
            for ln in re.findall(r"\.lean:(\d+):\d+: error", r.stdout + r.stderr):
                y = x.replace(".", "/") + ".lean:" + str(decl_at(texts[x], int(ln)))
                if y not in fails: fails.append(y)
            if r.returncode: break
        for x in [mod] + done:   # back to the compiled library
            for ext in (".olean", ".ilean"):
                q = "/" + x.replace(".", "/") + ext
                if os.path.exists(DST + "/lib" + q): os.unlink(DST + "/lib" + q)
                os.link(SRC + "/.lake/build/lib/lean" + q, DST + "/lib" + q)
        entry = {"definition": m["file"] + ":" + m["def"], "edit": m["old"] + "  ==>  " + m["new"], "claim_broken": m["breaks"], "failed": fails,
                 "survived": not fails, "tightened": [], "compiled": [mod] + done}
        print(("killed   " if fails else "SURVIVED ") + m["def"], "|", m["new"].strip().replace("\n", " / ")[:80], "|", fails[:4], flush=True)
        with open("/verif/seeded/LOG.jsonl", "a") as f: f.write(json.dumps(entry) + "\n")
main()
