#!/usr/bin/env python3
"""Checks the citations `file:a-b `name`` of the model against the C source, and lists the C functions
   that no definition of the model cites."""
import re, os, glob
R = "/repo/tommyds"
src = {os.path.basename(f): open(f, encoding="latin1").read().split("\n") for f in glob.glob(R + "/*.[ch]")}
funs = {}
for f, ls in src.items():
    for i, l in enumerate(ls, 1):
        m = re.match(r"(?:tommy_inline|TOMMY_API|static|tommy_|void|unsigned|int)[^;=]*?\b(\w+)\(", l)
        if m and not l.rstrip().endswith(";"):
            e = i
            while ls[e - 1].rstrip() != "}": e += 1
            funs[m.group(1)] = (f, i, e)
cited = set(); bad = 0
for g in sorted(glob.glob("/verif/lean/Verif/*/*.lean")):
    t = open(g).read()
    for f, a, b, n in re.findall(r"(tommy\w+\.[ch]):(\d+)(?:-(\d+))? `(\w+)`", t):
        b = b or a
        if n in funs:
            F, i, e = funs[n]
            cited.add(n)
            if (F, i, e) != (f, int(a), int(b)):
                print(f"{os.path.basename(g)}: {n} cited {f}:{a}-{b}, is {F}:{i}-{e}"); bad += 1
        elif not any(n in l for l in src[f][int(a) - 1:int(b)]):
            print(f"{os.path.basename(g)}: {n} not in {f}:{a}-{b}"); bad += 1
print("not cited:", sorted(set(funs) - cited))
print("functions", len(funs), "bad citations", bad)
import subprocess, sys
sys.exit(subprocess.call([sys.executable, os.path.join(os.path.dirname(os.path.abspath(__file__)), "c2lean.py"), "--check"]))
