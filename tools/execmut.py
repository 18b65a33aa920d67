#!/usr/bin/env python3
"""Executes the mutants of the model against the specifications.

usage: execmut.py result.jsonl mutations.json ...
A mutant killed by the build may have broken only the proofs. Here it is run on random histories with the programs of
seeded/harness, which check the statements of the properties: a refuted mutant really violates a property.
Appends one line per mutant not yet in the result file: result is "refuted", "timeout" (does not end, or needs too much memory), "compile" (the
model or the specification does not build), or "passed". The histories are run in the 64 bit build and then in the 32 bit one (WORDS).
"""
import json, os, re, shutil, subprocess, sys, tempfile, threading, time, queue
SRC = "/verif/lean"; HAR = "/verif/seeded/harness"; W = int(os.environ.get("WORKERS", "4")); TO = int(os.environ.get("TO", "240"))
WORDS = [int(x) for x in os.environ.get("WORDS", "64,32").split(",")]
HOF = {"Arch": ["Hash", "Array", "Alloc", "List", "Tree", "Trie", "TrieInp", "TrieFlat", "Index"], "Alloc": ["Alloc"], "Array": ["Array"], "Arrayblk": ["Array"], "Bits": ["Hash", "HashFun", "List", "Array"], "Free": ["Free"], "ForeachArg": ["List", "Tree", "Hash"],
       "Hash": ["HashFun"], "HashFlat": ["HashFlat"], "HashCommon": ["Hash"], "Index": ["Index"], "Hashdyn": ["Hash", "Index", "Free"], "Hashlin": ["Hash", "Free"], "Hashtable": ["Hash", "Free"],
       "Heap": ["List"], "List": ["List", "Hash", "Trie", "Index"], "Mem": ["Hash", "Array"], "SortCost": ["List"], "Tree": ["Tree", "Free"], "TreeCost": ["Tree"],
       "Trie": ["Trie", "TrieInp"], "TrieCost": ["Trie", "TrieInp"], "TrieFlat": ["TrieFlat"], "TrieInp": ["TrieInp"], "TrieMem": ["Trie", "TrieInp"]}
def mutate(orig, m):
    """The text with the mutation of tools/mutate.py."""
    if m.get("nth") is not None:
        k = m["nth"]; parts = orig.split(m["old"])
        return m["old"].join(parts[:k+1]) + m["new"] + m["old"].join(parts[k+1:])
    if m.get("pos") is not None:
        assert orig[m["pos"]:].startswith(m["old"])
        return orig[:m["pos"]] + m["new"] + orig[m["pos"] + len(m["old"]):]
    d = re.search(r"^(?:partial |noncomputable )*def %s\b" % re.escape(m["def"]), orig, re.M)
    i = orig.find(m["old"], d.start() if d else 0)
    assert i >= 0 and (d or orig.count(m["old"]) == 1), ("ambiguous", m)
    return orig[:i] + m["new"] + orig[i + len(m["old"]):]
def setup(w):
    dst = os.path.join(os.environ.get("EXDIR", "/tmp/ex"), str(w))
    shutil.rmtree(dst, ignore_errors=True); shutil.copytree(SRC, dst, symlinks=True)
    os.makedirs(dst + "/Verif/Harness", exist_ok=True)
    for f in os.listdir(HAR):
        if f.endswith(".lean.txt"): shutil.copy(os.path.join(HAR, f), f"{dst}/Verif/Harness/{f[:-4]}")
    return dst
def sh(cmd, cwd, to):
    return subprocess.run(["timeout", str(to)] + cmd.split(), cwd=cwd, capture_output=True, text=True)
def rss(pid):
    try: return int(open(f"/proc/{pid}/statm").read().split()[1]) * 4096
    except Exception: return 0
def shlim(cmd, cwd, to):
    """Runs with a limit to the time and to the memory (private and shared)."""
    t0 = time.time()
    with tempfile.TemporaryFile("w+") as o:
        q = subprocess.run(["lake", "env", "sh", "-c", "echo $LEAN_PATH; which lean"], cwd=cwd, capture_output=True, text=True).stdout.split()
        p = subprocess.Popen([q[1]] + cmd.split()[1:], cwd=cwd, stdout=o, stderr=subprocess.STDOUT, env=dict(os.environ, LEAN_PATH=q[0]))
        why = None
        while p.poll() is None:
            if time.time() - t0 > to: why = 124
            elif rss(p.pid) > 4 << 30: why = 137
            if why: p.kill(); p.wait()
            time.sleep(0.1)
        o.seek(0)
        return why or p.returncode, o.read()
def one(dst, m):
    p = os.path.join(dst, m["file"]); orig = open(p).read(); saved = [(p, orig)]
    try:
        open(p, "w").write(mutate(orig, m))
        for x in m.get("also", []):
            q = os.path.join(dst, x["file"]); t = open(q).read(); saved.append((q, t))
            open(q, "w").write(t.replace(x["old"], x["new"]))
        for h in HOF[os.path.basename(m["file"])[:-5]]:
            imp = re.findall(r"^import (Verif[\w.]+)", open(f"{dst}/Verif/Harness/{h}.lean").read(), re.M)
            r = sh("lake build " + " ".join(imp), dst, 900)
            if r.returncode: return "compile", (re.findall(r"error: .*", r.stdout + r.stderr) or ["?"])[0][:200]
            for w in WORDS:
                b = f"{dst}/Verif/Harness/Base.lean"; t = open(b).read()
                open(b, "w").write(re.sub(r"def word : Nat := \d+", f"def word : Nat := {w}", t))
                r = sh("lake build Verif.Harness.Base", dst, 900)
                if r.returncode: return "compile", (re.findall(r"error: .*", r.stdout + r.stderr) or ["?"])[0][:200]
                code, txt = shlim(f"lean --run Verif/Harness/{h}.lean", dst, TO)
                x = re.findall(r"REFUTED.*", txt); bits = "" if w == 64 else "32 bit build: "
                if x: return "refuted", bits + x[0]
                if code in (124, 137, 134, 139, -6, -9, -11) or "overflow" in txt: return "timeout", f"{bits}{h} exit {code} after " + " ".join(re.findall(r"OK .*", txt)[-1:])
                if code: return "compile", txt[:300]
        return "passed", ""
    finally:
        for q, t in reversed(saved): open(q, "w").write(t)
def main():
    Q = queue.Queue(); lock = threading.Lock(); out = open(sys.argv[1], "a")
    done = {(r["set"], r["n"]) for r in map(json.loads, open(sys.argv[1]))}
    for f in sys.argv[2:]:
        for i, m in enumerate(json.load(open(f))):
            if (os.path.basename(f)[:-5], i) not in done: Q.put((f, i, m))
    def work(w):
        dst = setup(w)
        while True:
            try: f, i, m = Q.get_nowait()
            except queue.Empty: return
            try: res, msg = one(dst, m)
            except Exception as e: res, msg = "error", repr(e)
            with lock:
                out.write(json.dumps({"set": os.path.basename(f)[:-5], "n": i, "definition": m["file"] + ":" + m["def"], "edit": m["old"] + "  ==>  " + m["new"], "result": res, "by": msg}) + "\n"); out.flush()
                print(res, os.path.basename(f)[:-5], i, m["def"], "|", m["new"].strip().replace("\n", " / ")[:70], "|", msg[:90], flush=True)
    ts = [threading.Thread(target=work, args=(w,)) for w in range(W)]
    for t in ts: t.start()
    for t in ts: t.join()
main()
