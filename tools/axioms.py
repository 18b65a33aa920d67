#!/usr/bin/env python3
"""Writes AXIOMS.md: the axioms of each theorem of the manifest, as printed by Lean."""
import json, re, subprocess
C = json.load(open("/verif/MANIFEST.json"))["claims"]
names = [(c["property"], t) for c in C for t in c["theorems"]]
open("/tmp/Axioms.lean", "w").write("import Verif\n" + "".join(f"#print axioms {t}\n" for _, t in names))
out = subprocess.run(["lake", "env", "lean", "/tmp/Axioms.lean"], cwd="/verif/lean", capture_output=True, text=True).stdout
ax = {}
for m in re.finditer(r"'([\w.']+)' (?:depends on axioms: \[([^\]]*)\]|does not depend on any axioms)", out):
    ax[m.group(1)] = re.sub(r"\s+", " ", m.group(2) or "none")
with open("/verif/AXIOMS.md", "w") as f:
    f.write("# Axioms of the theorems in MANIFEST.json\n\nGenerated by `tools/axioms.py` with `#print axioms`.\n\n| property | theorem | axioms |\n|---|---|---|\n")
    for p, t in names: f.write(f"| {p} | `{t}` | {ax[t]} |\n")
print(len(names), sorted(set(ax.values())))
