#!/usr/bin/env python3
"""Prints, for every theorem in MANIFEST.json, the axioms it depends on, as a Markdown table.
Run after `lake build`; writes AXIOMS.md."""
import json, os, re, subprocess, tempfile
root = os.path.dirname(os.path.dirname(os.path.abspath(__file__)))
claims = json.load(open(os.path.join(root, "MANIFEST.json")))["claims"]
names = []
for c in claims:
    for t in c["theorems"]:
        if t not in names:
            names.append(t)
src = "import Verif\n" + "".join("#print axioms %s\n" % n for n in names)
with tempfile.NamedTemporaryFile("w", suffix=".lean", delete=False) as f:
    f.write(src)
out = subprocess.run(["lake", "env", "lean", f.name], cwd=os.path.join(root, "lean"), capture_output=True, text=True).stdout
os.unlink(f.name)
ax = {}
for m in re.finditer(r"'(\S+)' depends on axioms: \[([^\]]*)\]", out):
    ax[m.group(1)] = ", ".join(sorted(re.split(r",\s*", m.group(2).strip())))
for m in re.finditer(r"'(\S+)' does not depend on any axioms", out):
    ax[m.group(1)] = "none"
groups = {}
for n in names:
    groups.setdefault(ax.get(n, "?"), []).append(n)
with open(os.path.join(root, "AXIOMS.md"), "w") as f:
    f.write("# Axioms used by the theorems in MANIFEST.json\n\nGenerated by `tools/axioms.py` from `#print axioms`.\n")
    for k in sorted(groups):
        f.write("\n## %s\n\n" % k)
        for n in sorted(groups[k]):
            f.write("* `%s`\n" % n)
print({k: len(v) for k, v in groups.items()})
