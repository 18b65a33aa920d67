#!/usr/bin/env python3
"""Generates mutants of the model, one file per module.

usage: genmut.py outdir [Module ...]
Operators: comparison, arithmetic, constant, next/prev, deleted statement, exchanged arguments. Comments, signatures and the
definitions of memory access (Heap, Mem, TrieMem) are left alone, and so are the counted copies (SortCost, TreeCost).
"""
import json, os, re, sys
SRC = "/verif/lean"
MODS = ["Alloc", "Array", "Arrayblk", "Bits", "ForeachArg", "HashCommon", "Hashdyn", "Hashlin", "Hashtable", "List", "Tree", "Trie", "TrieInp", "Hash"]
SUBS = [(r" < ", [" ≤ "]), (r" ≤ ", [" < "]), (r" > ", [" ≥ ", " < "]), (r" ≥ ", [" > "]), (r" = (?!fun)", [" ≠ "]), (r" ≠ ", [" = "]),
        (r" \+ 1\b", ["", " + 2"]), (r" - 1\b", ["", " - 2"]), (r" \+ (?!1\b)", [" - "]), (r" - (?!1\b)", [" + "]), (r" / 2\b", ["", " / 4"]), (r" \* 2\b", [""]),
        (r" / ", [" * "]), (r" \* ", [" + "]), (r"<<<", [">>>"]), (r">>>", ["<<<"]), (r"&&&", ["|||"]), (r"\|\|\|", ["&&&"]), (r"\^\^\^", ["|||"]),
        (r" ∧ ", [" ∨ "]), (r" ∨ ", [" ∧ "]),
        (r"\bgetNext\b", ["getPrev"]), (r"\bgetPrev\b", ["getNext"]), (r"\bsetNext\b", ["setPrev"]), (r"\bsetPrev\b", ["setNext"]),
        (r"\binc64\b", ["dec64", "id"]), (r"\bdec64\b", ["inc64", "id"]), (r"\bsub32\b", ["Nat.add"]), (r"\bsize64 ", ["id "]),
        (r"\blowMax\b", ["bucketMax"]), (r"\blowMask\b", ["bucketMask"]), (r"\bbucketMax\b", ["bucketMask"]), (r"\bbucketMask\b", ["bucketMax"]),
        (r"\.grow\b", [".shrink", ".stable"]), (r"\.shrink\b", [".grow", ".stable"]), (r"\.stable\b", [".grow"]),
        (r"(?<![\w.⟨])0(?![\w.])", ["1"]), (r"(?<![\w.])[1-9]\d*(?![\w.])", ["+1", "-1"]), (r"\.1\b", [".2"]), (r"\.2\b", [".1"]),
        (r"\bfirst\b", ["second"]), (r"\bsecond\b", ["first"]), (r"\bhead\b", ["node", "tail"]), (r"\btail\b", ["head"]), (r"\bprev\b", ["next"]), (r"\bnext\b", ["prev"])]
def defs(t):
    for m in re.finditer(r"^(?:@\[[^\]]*\]\s*)?def (\S+).*?(?=^(?:/--|/-|def |structure |@\[|end |abbrev |inductive |mutual|namespace |variable )|\Z)", t, re.M | re.S):
        b = re.search(r":=(?: do)?|\n  \|", m.group(0))
        if b: yield m.group(1), m.start() + b.start() + (2 if ":=" in b.group(0) else 0), m.end()
def main():
    out = sys.argv[1]; os.makedirs(out, exist_ok=True)
    for M in sys.argv[2:] or MODS:
        f = f"Verif/Model/{M}.lean"; t = open(os.path.join(SRC, f)).read(); res = []; seen = set()
        def add(d, pos, old, new):
            k = (pos, old, new)
            if k in seen or old == new: return
            seen.add(k); res.append({"file": f, "def": d, "pos": pos, "old": old, "new": new, "breaks": "generated"})
        for d, a, b in defs(t):
            body = t[a:b]
            com = [(x.start(), x.end()) for x in re.finditer(r"--.*|/-.*?-/", body)]
            ok = lambda i: not any(u <= i < v for u, v in com)
            for rx, news in SUBS:
                for x in re.finditer(rx, body):
                    if not ok(x.start()): continue
                    for n in news:
                        if n == "+1": n = str(int(x.group(0)) + 1)
                        elif n == "-1": n = str(int(x.group(0)) - 1)
                        add(d, a + x.start(), x.group(0), n)
            lines = body.split("\n"); o = a
            for i, l in enumerate(lines):
                s = l.strip()
                if s and ok(o - a) and i + 1 < len(lines) and not re.match(r"(let|if|else|return|match|\||partial_fixpoint|termination_by|decreasing_by|--|for|do\b)", s) and re.match(r"\w", s) and i > 0:
                    nx = next((q for q in lines[i+1:] if q.strip()), "")
                    ind = lambda q: len(q) - len(q.lstrip())
                    if nx and ind(nx) == ind(l): add(d, o, l + "\n", "")
                    else: add(d, o, l + "\n", " " * ind(l) + "pure ()\n")
                # exchanged arguments of a call
                for x in re.finditer(r"\b([a-zA-Z]\w*) ([a-z]\w*) ([a-z]\w*)(?=[\s)]|$)", l):
                    if x.group(1) not in ("if", "let", "fun", "return", "then", "else", "with", "match", "do") and x.group(2) != x.group(3) and not {x.group(2), x.group(3)} & {"then", "else", "do", "with", "fun"}:
                        add(d, o + x.start(), x.group(0), f"{x.group(1)} {x.group(3)} {x.group(2)}")
                o += len(l) + 1
        json.dump(res, open(os.path.join(out, f"gen_{M}.json"), "w"), ensure_ascii=False, indent=0)
        print(M, len(res))
main()
