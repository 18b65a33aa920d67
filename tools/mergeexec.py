#!/usr/bin/env python3
"""usage: mergeexec.py result.jsonl: writes the results of execmut.py in the field "executed" of seeded/LOG.jsonl."""
import json, sys
ex = {}
for l in open(sys.argv[1]):
    x = json.loads(l); ex[(x["definition"], x["edit"])] = x
L = [json.loads(l) for l in open("/verif/seeded/LOG.jsonl")]
n = 0
for x in L:
    k = (x["definition"], x["edit"])
    if k in ex and "executed" not in x:
        x["executed"] = ex[k]["result"] + (": " + ex[k]["by"][:200] if ex[k]["by"] else ""); n += 1
with open("/verif/seeded/LOG.jsonl", "w") as f:
    for x in L: f.write(json.dumps(x) + "\n")
print(n, "merged")
