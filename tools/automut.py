#!/usr/bin/env python3
"""Generate operator mutants of the model definitions and see whether some proof notices.

usage: automut.py list | automut.py run <worker> <workers> [file ...]

Every comparison, arithmetic or Boolean operator, truth value, number, `take`/`drop` and conversion in the body of a
definition of a model file is changed alone in a scratch copy (MUTDIR, default /tmp/am<worker>/lean) and the project
rebuilt until a proof fails.  Mutants for which everything still builds are reported as SURVIVED.  One line per attempt
goes to seeded/LOG.jsonl."""
import json, os, re, subprocess, sys, shutil, signal, threading, time, hashlib
ROOT = os.path.dirname(os.path.dirname(os.path.abspath(__file__)))
FILES = """Endian/Model MemoryView/Model Geometry/Model Hal/Adc Hal/Clock Hal/Gpio Hal/I2c Hal/I2cBus Hal/Time
Uart/Arduino Uart/Device Uart/Esp Spi/Arduino Spi/Device Spi/Esp Text/Model Font/Model Pbm/Model Converter/ConfigModel
Converter/HeaderModel Converter/MainModel Converter/Model FrameBuffer/Model Canvas/Model Out/Model Storage/Model""".split()
RULES = [
 (r" < ", [" ≤ "]), (r" ≤ ", [" < "]), (r" > ", [" ≥ "]), (r" ≥ ", [" > "]),
 (r" = ", [" ≠ "]), (r" ≠ ", [" = "]), (r" == ", [" != "]), (r" != ", [" == "]),
 (r" \+ ", [" - "]), (r" - ", [" + "]), (r" \* ", [" + "]), (r" / ", [" * "]), (r" % ", [" / "]),
 (r" ∧ ", [" ∨ "]), (r" ∨ ", [" ∧ "]), (r" && ", [" || "]), (r" \|\| ", [" && "]),
 (r" &&& ", [" ||| "]), (r" \|\|\| ", [" &&& "]), (r" <<< ", [" >>> "]), (r" >>> ", [" <<< "]),
 (r"\btrue\b", ["false"]), (r"\bfalse\b", ["true"]), (r"\.take\b", [".drop"]), (r"\.drop\b", [".take"]),
 (r"\.toInt\b", [".toNat"]), (r"\.isSome\b", [".isNone"]), (r"\bmax\b", ["min"]), (r"\bmin\b", ["max"]),
 (r"(?<![\w.])0x[0-9A-Fa-f]+\b", ["INC"]), (r"(?<![\w.#])\d+\b(?!\.)", ["INC"]),
 (r"\.setWidth\b", [".signExtend"]), (r"\.signExtend\b", [".setWidth"]), (r"\bnot \b|!(?=\w)", [""]), (r"¬ ", [""]),
]
# RULESET=2: conditions made constant, fields and components exchanged, updates dropped, lists appended in the wrong order.
RULES2 = [
 (r"(?<=\bif )(?!←|h\w* :|let\b)[^\n]*?(?= then\b)", ["True", "False"]),
 (r"\.x\b", [".y"]), (r"\.y\b", [".x"]), (r"\.width\b", [".height"]), (r"\.height\b", [".width"]),
 (r"\.1\b", [".2"]), (r"\.2\b", [".1"]), (r"\.ub\b", [".hang"]), (r"\.hang\b", [".ub"]),
 (r" \+\+ ", [" +++ ", " ++< ", " ++> "]),
 (r"(?<=with )\w+ := [^,{}\n]*, ", [""]), (r", \w+ := [^,{}\n]*(?= \})", [""]),
 (r"(?<![\w.#])[1-9]\d*\b(?!\.)", ["DEC"]), (r"\bfoldl\b", ["foldr"]), (r"\bsome\b(?= \()", ["(fun _ => none)"]),
 (r"\.reverse\b", [".tail"]), (r"\.all\b", [".any"]), (r"\.any\b", [".all"]), (r"\.isNone\b", [".isSome"]),
 (r"\.toNat\b", [".toInt.toNat"]), (r" < ", [" > "]), (r" ≤ ", [" ≥ "]),
]
NOTATION = """
notation:65 a:65 " +++ " b:66 => (b ++ a)
notation:65 a:65 " ++< " b:66 => (Function.const _ a (b ++ a))
notation:65 a:65 " ++> " b:66 => (Function.const _ b (b ++ a))
"""
SET = os.environ.get("RULESET", "1")
def strip_comments(s):
    def blank(m): return re.sub(r"[^\n]", "\0", m.group(0))
    s = re.sub(r"/-.*?-/", blank, s, flags=re.S)
    s = re.sub(r"--[^\n]*", blank, s)
    return re.sub(r'"(?:[^"\\]|\\.)*"', blank, s)
def bodies(src):
    """(name, start, end) of the bodies of definitions."""
    clean = strip_comments(src)
    for m in re.finditer(r"^(?:@\[[^\]]*\]\s*)?(?:private )?(?:def|abbrev) (\S+)", clean, re.M):
        e = re.compile(r"^(?=\S)", re.M).search(clean, m.end() )
        # end: next line starting in column 0 which is not a continuation
        pos = m.end(); end = len(clean)
        for l in re.finditer(r"^\S.*$|^\s*\0", clean[m.end():], re.M):
            if l.start() == 0: continue
            end = m.end() + l.start(); break
        body = clean[m.end():end]
        # the signature ends with := or the first alternative
        k = re.search(r":=|^\s+\|", body, re.M)
        if not k: continue
        yield m.group(1), m.end() + k.start() + (2 if k.group(0) == ":=" else 0), end, clean
def mutants(f):
    src = drop_examples(open(f"{ROOT}/lean/Verif/{f}.lean").read())
    for name, a, b, clean in bodies(src):
        for rx, news in (RULES if SET == "1" else RULES2):
            for m in re.finditer(rx, clean[a:b]):
                old = m.group(0); s, e = a + m.start(), a + m.end()
                for new in news:
                    if new == "INC":
                        v = int(old, 0); new = (f"0x{v+1:02X}" if old.startswith("0x") else str(v + 1))
                    if new == "DEC": new = str(int(old) - 1)
                    yield name, s, e, old, new
def context(src, s, e, new):
    ls = src.rfind("\n", 0, s) + 1; le = src.find("\n", e)
    return src[ls:le].strip(), (src[ls:s] + new + src[e:le]).strip()
def drop_examples(t):
    lines = t.split("\n"); out = []; i = 0
    while i < len(lines):
        if re.match(r"example\b", lines[i]):
            while out and out[-1].strip() and not out[-1].strip().startswith("end") and in_comment(out): out.pop()
            while out and re.match(r"(open|set_option)\b.* in$", out[-1]): out.pop()
            i += 1
            while i < len(lines) and (lines[i].startswith(" ") or lines[i].startswith("\t")): i += 1
            continue
        out.append(lines[i]); i += 1
    return "\n".join(out)
def in_comment(out):
    """The last lines are a doc comment."""
    if not out[-1].rstrip().endswith("-/"):
        return out[-1] == "@COMMENT"
    k = len(out) - 1
    while k >= 0 and not out[k].startswith("/-"): k -= 1
    if k < 0 or not out[k].startswith("/--"): return False
    del out[k:]
    out.append("@COMMENT")
    return True
DECL = re.compile(r"^(?:@\[[^\]]*\]\s*)?(?:private\s+|protected\s+)?(theorem|lemma|def|example|abbrev|instance)\s*(\S*)")
def decl_at(path, line, with_kind=False):
    ns = []; cur = "?"; kind = ""
    for n, l in enumerate(open(path), 1):
        if n > line: break
        m = re.match(r"namespace (\S+)", l)
        if m: ns.append(m.group(1))
        m = DECL.match(l)
        if m:
            cur = ".".join(ns + [m.group(2)]) if m.group(1) != "example" else f"example@{n}"
            kind = m.group(1)
    return (cur, kind) if with_kind else cur
def build(scr, model, name):
    """Build until a module other than the mutated one fails; returns (failed theorems, model broken)."""
    p = subprocess.Popen("lake build 2>&1", shell=True, cwd=scr, stdout=subprocess.PIPE, text=True, start_new_session=True)
    t0 = time.time(); failed = []; broken = False; ok = False
    timer = threading.Timer(1800, lambda: os.killpg(p.pid, signal.SIGKILL)); timer.start()
    for l in p.stdout:
        ok = ok or "Build completed successfully" in l
        m = re.match(r"error: (Verif/\S+)\.lean:(\d+):", l)
        if m:
            d, kind = decl_at(f"{scr}/{m.group(1)}.lean", int(m.group(2)), True)
            if m.group(1) == f"Verif/{model}" and kind in ("def", "abbrev") and d.endswith("." + name): broken = True
            if d not in failed: failed.append(d)
        # the summary of a failed module comes after its messages
        if re.match(r"error: Lean exited|error: build failed|Some required", l) and (failed or broken): break
    timer.cancel()
    timed = time.time() - t0 > 1795
    try: os.killpg(p.pid, signal.SIGKILL)
    except ProcessLookupError: pass
    p.wait()
    if not failed and not ok and not timed: failed = ["(build aborted)"]
    if timed and not failed: failed = ["(build did not end)"]
    return failed, broken
if __name__ == "__main__":
    files = sys.argv[4:] or FILES
    todo = [(f,) + m for f in files for m in mutants(f)]
    if sys.argv[1] == "list":
        for f in files: print(f, len(list(mutants(f))))
        print(len(todo)); sys.exit()
    w, n = int(sys.argv[2]), int(sys.argv[3])
    scr = os.environ.get("MUTDIR", f"/tmp/am{w}/lean")
    shutil.rmtree(scr, ignore_errors=True); os.makedirs(os.path.dirname(scr), exist_ok=True)
    subprocess.run(["cp", "-a", f"{ROOT}/lean", scr]); clean = scr + ".build"
    # only theorems count: no tests, no examples
    shutil.rmtree(f"{scr}/Verif/Conformance", ignore_errors=True)
    for d, _, fs in os.walk(f"{scr}/Verif"):
        for x in fs:
            if x.endswith(".lean"):
                t = open(f"{d}/{x}").read(); u = drop_examples(t)
                if u != t: open(f"{d}/{x}", "w").write(u)
    t = open(f"{scr}/Verif.lean").read()
    open(f"{scr}/Verif.lean", "w").write(re.sub(r"import Verif.Conformance.*\n", "", t))
    if SET == "2":
        b = open(f"{scr}/Verif/Basic.lean").read(); k = b.index("namespace"); open(f"{scr}/Verif/Basic.lean", "w").write(b[:k] + NOTATION + b[k:])
    o = subprocess.run("lake build 2>&1", shell=True, cwd=scr, stdout=subprocess.PIPE, text=True)
    if o.returncode: print(o.stdout[-3000:]); sys.exit("scratch copy does not build")
    print("scratch copy ready", flush=True)
    shutil.rmtree(clean, ignore_errors=True); subprocess.run(["cp", "-a", f"{scr}/.lake/build", clean])
    donefile = "/tmp/am/done" + ("" if SET == "1" else SET); open(donefile, "a").close()
    for i, (f, name, s, e, old, new) in enumerate(todo):
        if i % n != w: continue
        src = drop_examples(open(f"{ROOT}/lean/Verif/{f}.lean").read())
        before, after = context(src, s, e, new)
        key = hashlib.md5(f"{f}|{name}|{before}|{after}|{s - src.rfind(name, 0, s)}".encode()).hexdigest()
        if key in open(donefile).read(): continue
        path = f"{scr}/Verif/{f}.lean"
        if open(path).read() != src: print("SOURCE CHANGED", f); continue
        open(path, "w").write(src[:s] + new + src[e:])
        failed, broken = build(scr, f, name)
        open(path, "w").write(src)
        shutil.rmtree(f"{scr}/.lake/build"); subprocess.run(["cp", "-a", clean, f"{scr}/.lake/build"])
        with open(donefile, "a") as o: o.write(key + "\n")
        st = "NOCOMPILE" if broken else "SURVIVED" if not failed else "killed"
        print(i, st, f, name, "|", before, "==>", after, "|", " ".join(failed[:3]), flush=True)
        if not broken:
            with open(f"{ROOT}/seeded/LOG.jsonl", "a") as o:
                o.write(json.dumps({"definition": name, "file": f"lean/Verif/{f}.lean", "edit": f"{before}  ==>  {after}",
                    "claim": "operator mutant; first failing proofs only", "failed": failed, "tightened": []}, ensure_ascii=False) + "\n")
