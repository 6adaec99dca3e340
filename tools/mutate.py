#!/usr/bin/env python3
"""Apply seeded bugs to a scratch copy of the model and record which theorems fail.

usage: mutate.py <file with a list M of (file, definition, old, new, claim)> [index ...]

The scratch copy is /tmp/mut/lean.  Each edit is applied alone, the project rebuilt and the edit undone.  A theorem is
counted as failed if its proof does not check or rests on one which does not (found with #print axioms).  One line per
attempt is appended to seeded/LOG.jsonl."""
import json, os, re, subprocess, sys, importlib.util, shutil
ROOT = os.path.dirname(os.path.dirname(os.path.abspath(__file__)))
SCR = os.environ.get("MUTDIR", "/tmp/mut/lean")
def sh(cmd, **k):
    return subprocess.run(cmd, shell=True, stdout=subprocess.PIPE, stderr=subprocess.STDOUT, text=True, **k).stdout
def sync():
    os.makedirs(SCR, exist_ok=True)
    sh(f"rsync -a --delete {ROOT}/lean/ {SCR}/") if shutil.which("rsync") else sh(f"rm -rf {SCR}; cp -a {ROOT}/lean {SCR}")
DECL = re.compile(r"^(?:@\[[^\]]*\]\s*)?(?:private\s+|protected\s+)?(theorem|lemma|def|example|abbrev|instance)\s*(\S*)")
def decls(path):
    out = []; ns = []
    for n, l in enumerate(open(path), 1):
        m = re.match(r"namespace (\S+)", l)
        if m: ns.append(m.group(1))
        m = re.match(r"end (\S+)", l)
        if m and ns and ns[-1] == m.group(1): ns.pop()
        m = DECL.match(l)
        if m: out.append((n, m.group(1), ".".join(ns + [m.group(2)]) if m.group(1) != "example" else f"example@{n}"))
    return out
def failed(log):
    res = []; mods = {}
    for m in re.finditer(r"^error: (Verif/\S+\.lean):(\d+):", log, re.M):
        mods.setdefault(m.group(1), set()).add(int(m.group(2)))
    for f, lines in mods.items():
        path = f"{SCR}/{f}"
        ds = decls(path)
        direct = set()
        for ln in lines:
            c = [d for d in ds if d[0] <= ln]
            if c: direct.add(c[-1][2])
        src = open(path).read()
        priv = set(re.findall(r"^private theorem (\S+)", src, re.M))
        tmp = f"{SCR}/tmpaxioms.lean"
        thms = [d[2] for d in ds if d[1] in ("theorem", "lemma") and d[2].split(".")[-1] not in priv]
        open(tmp, "w").write(src + "\n" + "\n".join(f"#print axioms {t}" for t in thms) + "\n")
        o = sh(f"cd {SCR} && lake env lean tmpaxioms.lean")
        os.remove(tmp)
        trans = set(re.findall(r"'(\S+)' depends on axioms: \[[^\]]*sorryAx", o))
        missing = {t for t in thms if f"'{t}'" not in o}
        res += sorted(direct | trans | missing)
    notbuilt = sorted(set(re.findall(r"^- (Verif\S+)$", log, re.M)))
    return res, sorted(mods)
if __name__ == "__main__":
    spec = importlib.util.spec_from_file_location("m", sys.argv[1]); mod = importlib.util.module_from_spec(spec); spec.loader.exec_module(mod)
    idx = [int(x) for x in sys.argv[2:]] or range(len(mod.M))
    sync()
    for i in idx:
        f, d, old, new, claim = mod.M[i]
        path = f"{SCR}/Verif/{f}.lean"
        src = open(path).read()
        if src.count(old) != 1:
            print(i, "EDIT NOT UNIQUE", src.count(old), repr(old)); continue
        open(path, "w").write(src.replace(old, new))
        log = sh(f"cd {SCR} && timeout 3000 lake build 2>&1")
        res, mods = failed(log)
        if not res and "Build completed successfully" not in log:
            open(path, "w").write(src); print(i, d, "BUILD ABORTED", log[-500:], flush=True); continue
        open(path, "w").write(src)
        modelbroken = f"Verif/{f}.lean" in mods and any(x.endswith("." + d) and x in {q[2] for q in decls(path) if q[1] == "def"} for x in res)
        e = {"definition": d, "file": f"lean/Verif/{f}.lean", "edit": f"{old.strip()}  ==>  {new.strip()}", "claim": claim,
             "failed": res, "tightened": []}
        print(i, d, "| MODEL DOES NOT COMPILE" if modelbroken else "", "| SURVIVED" if not res else "", flush=True)
        for r in res: print("     ", r)
        if modelbroken or not res:
            print(log[-1500:] if modelbroken else ""); 
        if not modelbroken:
            with open(f"{ROOT}/seeded/LOG.jsonl", "a") as o: o.write(json.dumps(e, ensure_ascii=False) + "\n")
