#!/usr/bin/env python3
"""Enter in seeded/LOG.jsonl what was done about surviving operator mutants (seeded/survivors.py)."""
import json, os, sys
ROOT = os.path.dirname(os.path.dirname(os.path.abspath(__file__)))
S = {}
exec(open(f"{ROOT}/seeded/survivors.py").read(), S)
p = f"{ROOT}/seeded/LOG.jsonl"
lines = open(p).read().split("\n"); left = []
for i, l in enumerate(lines):
    if not l: continue
    d = json.loads(l)
    if d["failed"] or d["tightened"] or not d["claim"].startswith("operator mutant"): continue
    new = d["edit"].split("  ==>  ")[1] if "  ==>  " in d["edit"] else ""
    for f, definition, text, what in S["W"]:
        if d["file"] == f"lean/Verif/{f}.lean" and d["definition"] == definition and text in new:
            d["tightened"] = [what]; lines[i] = json.dumps(d, ensure_ascii=False); break
    else: left.append((d["file"], d["definition"], d["edit"]))
open(p, "w").write("\n".join(lines))
for x in left: print(*x, sep=" | ")
