#!/usr/bin/env python3
"""Write AXIOMS.md: the axioms each theorem of MANIFEST.json depends on (run after `lake build`)."""
import json, os, re, subprocess, tempfile
root = os.path.dirname(os.path.dirname(os.path.abspath(__file__)))
man = json.load(open(os.path.join(root, "MANIFEST.json")))
names = [(c["property"], t) for c in man["claims"] for t in c["theorems"]]
with tempfile.NamedTemporaryFile("w", suffix=".lean", delete=False) as f:
    f.write("import Verif\n" + "".join(f"#print axioms {t}\n" for _, t in names))
out = subprocess.run(["lake", "env", "lean", f.name], cwd=os.path.join(root, "lean"),
                     capture_output=True, text=True).stdout
os.unlink(f.name)
out = re.sub(r"\n\s+", " ", out)
ax = {}
for line in out.splitlines():
    m = re.match(r"'(.*?)' depends on axioms: \[(.*)\]", line)
    if m:
        ax[m.group(1)] = m.group(2)
    m = re.match(r"'(.*?)' does not depend on any axioms", line)
    if m:
        ax[m.group(1)] = "none"
missing = [t for _, t in names if t not in ax]
assert not missing, missing
lines = ["# Axioms of the theorems in MANIFEST.json", "",
         "Generated by `tools/axioms.py` from Lean's `#print axioms`.", "",
         "| property | theorem | axioms |", "|---|---|---|"]
lines += [f"| {p} | `{t}` | {ax[t]} |" for p, t in names]
open(os.path.join(root, "AXIOMS.md"), "w").write("\n".join(lines) + "\n")
from collections import Counter
print(Counter(ax[t] for _, t in names))
