#!/usr/bin/env python3
"""Writes AXIOMS.md: the axioms every theorem named in MANIFEST.json depends on (`#print axioms`).

Needs a finished `lake build` in lean/."""
import json, os, re, subprocess, tempfile
root = os.path.dirname(os.path.dirname(os.path.abspath(__file__)))
claims = json.load(open(os.path.join(root, "MANIFEST.json")))["claims"]
names = []
for c in claims:
    for t in c["theorems"]:
        if t not in names:
            names.append(t)
src = "import Verif\n" + "".join(f"#print axioms {n}\n" for n in names)
with tempfile.NamedTemporaryFile("w", suffix=".lean", delete=False) as f:
    f.write(src)
out = subprocess.run(["lake", "env", "lean", f.name], cwd=os.path.join(root, "lean"), capture_output=True, text=True)
os.unlink(f.name)
text = out.stdout + out.stderr
ax = {}
for m in re.finditer(r"'(\S+)' (does not depend on any axioms|depends on axioms: \[([^\]]*)\])", text):
    ax[m.group(1)] = sorted(x.strip() for x in m.group(3).split(",")) if m.group(3) else []
missing = [n for n in names if n not in ax]
assert not missing, (missing[:5], text[:300])
allowed = {"propext", "Classical.choice", "Quot.sound"}
for n in names:
    assert set(ax[n]) <= allowed, (n, ax[n])
groups = {}
for n in names:
    groups.setdefault(", ".join(ax[n]) or "none", []).append(n)
with open(os.path.join(root, "AXIOMS.md"), "w") as f:
    f.write("# Axioms of the property theorems\n\nWritten by `tools/axioms.py` from `#print axioms`.\n")
    for g in sorted(groups, key=lambda g: (g.count(","), g)):
        f.write(f"\n## {g} ({len(groups[g])})\n\n")
        for n in groups[g]:
            f.write(f"* `{n}`\n")
for g in groups:
    print(len(groups[g]), g)
