#!/usr/bin/env python3
"""Records the outcome of the generated mutants (tools/genmut.py).

usage: loggen.py executed.jsonl built.jsonl
The mutants that pass the execution were built: they go in seeded/LOG.jsonl, with the declarations that fail. The ones refuted by the
execution were not built: they go in seeded/GENERATED.jsonl. The mutants that are not a program (compile) are left out.
"""
import json, sys
EQ = {("gen_List", 296): "equivalent: ctz is never called with 0",
      **{("gen_Tree", n): "equivalent: only changes the range of tommy_ssize_t, that the counters never leave" for n in [3, 8, 9, 10, 11, 12, 13, 14, 17, 18, 20, 22, 24]},
      **{("gen_Hashlin", n): "equivalent: the field is written again by hashlin_stable before it is read" for n in range(37, 42)},
      **{("gen_Hashlin", n): "equivalent: low_max is bucket_max there" for n in (92, 93)},
      **{("gen_TrieInp", n): "equivalent: removes an assertion that never fails" for n in (179, 180)},
      **{("gen_Trie", n): "equivalent: removes an assertion that never fails" for n in (145, 173, 174)},
      ("gen_Array", 170): "equivalent: removes an assertion that never fails",
      ("gen_Hash", 0): "the definition was not used by anything; now removed",
      **{("gen_Bits", n): "equivalent: only changes a bit over the 32 ones" for n in (318, 322, 326)}}
P = json.dumps
built = {}
for l in open(sys.argv[2]):
    m = json.loads(l); built[m["set"], m["n"]] = m
log = open("/verif/seeded/LOG.jsonl", "a"); gen = open("/verif/seeded/GENERATED.jsonl", "w")
for l in open(sys.argv[1]):
    m = json.loads(l); k = m["set"], m["n"]
    if m["result"] == "compile": continue
    r = {"definition": m["definition"], "edit": m["edit"], "mutant": f"{k[0]} {k[1]}", "generated": True, "executed": m["result"]}
    if k in built:
        b = built[k]; s = b["result"] == "survived"
        assert s == (k in EQ), k
        log.write(P({**r, "claim_broken": EQ.get(k, "not refuted by the execution: see the declarations that fail"), "failed": b["errs"], "survived": s, "tightened": []}) + "\n")
    else:
        gen.write(P({**r, "claim_broken": m.get("by", "").replace("REFUTED ", "")}) + "\n")
