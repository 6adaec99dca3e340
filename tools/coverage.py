#!/usr/bin/env python3
"""Which lines of /repo are cited by no definition of the model.  Prints the uncited code lines of each source file."""
import os, re, sys
R = "/repo"; L = os.path.join(os.path.dirname(os.path.dirname(os.path.abspath(__file__))), "lean", "Verif")
files = {}
for d, _, fs in os.walk(R):
    for f in fs:
        if f.endswith((".h", ".cpp")): files[os.path.relpath(os.path.join(d, f), R)] = set()
text = []
for d, _, fs in os.walk(L):
    for f in fs:
        if f.endswith(".lean"): text.append((os.path.join(d, f), open(os.path.join(d, f)).read()))
for p, t in text:
    plat = "arduino" if "rduino" in p else "esp32-esp-idf" if "Esp" in p else None
    head = t[:600]
    for m in re.finditer(r"((?:[\w-]+/)*\w+\.(?:h|cpp)):? ?(?:lines? )?(\d+(?:-\d+)?(?:(?:, ?| and |,)\d+(?:-\d+)?)*)", t):
        name, rng = m.groups()
        cand = [f for f in files if f == name or f.endswith("/" + name)]
        if len(cand) > 1:
            c2 = [f for f in cand if os.path.dirname(f) and os.path.dirname(f) in head] or ([f for f in cand if plat and f.startswith(plat)])
            cand = c2 or cand
        for r in re.findall(r"\d+(?:-\d+)?", rng):
            a, _, b = r.partition("-"); a = int(a); b = int(b or a)
            for c in cand: files[c].update(range(a, b + 1))
boring = re.compile(r"^\s*(//.*|#.*|[{}();]*|namespace.*|class \w+;|struct \w+;|public:|private:|protected:|using .*|\};.*|\} *//.*)?\s*$")
for f in sorted(files):
    src = open(os.path.join(R, f), errors="replace").read().split("\n")
    unc = [n for n, l in enumerate(src, 1) if n not in files[f] and not boring.match(l)]
    code = [n for n, l in enumerate(src, 1) if not boring.match(l)]
    print(f"{f}: {len(code)-len(unc)}/{len(code)}")
    if len(sys.argv) > 1 and f.startswith(sys.argv[1]) or len(sys.argv) > 1 and sys.argv[1] == "all":
        for n in unc: print("   ", n, src[n-1])
