#!/usr/bin/env python3
"""Systematic mutation: token-level edits of every definition under lean/Verif/Model, one at a time, in a scratch copy.
The build is stopped at the first error.  Results are appended to seeded/LOG.jsonl; survivors are also written to
/tmp/automut.survivors.   usage: automut.py <per-def> <seed> [file-regex [struct]]"""
import sys, os, re, json, subprocess, random, time, signal, hashlib
V = os.path.dirname(os.path.dirname(os.path.abspath(__file__)))
S = "/tmp/amut/lean"
PER, SEED = int(sys.argv[1]), int(sys.argv[2])
FRE = re.compile(sys.argv[3] if len(sys.argv) > 3 else ".")
LOG = os.path.join(V, "seeded", "LOG.jsonl")
DONE = "/tmp/automut.done"
done = set(open(DONE).read().split("\n")) if os.path.exists(DONE) else set()
rng = random.Random(SEED)
decl = re.compile(r"^\s*(?:@\[[^\]]*\]\s*)?(?:private |protected |noncomputable )*(theorem|lemma|def|example|instance|abbrev|structure|inductive)\s*([^\s:({\[]*)")
OPS = [(r" < ", " ≤ "), (r" ≤ ", " < "), (r" > ", " ≥ "), (r" ≥ ", " > "), (r" == ", " != "), (r" != ", " == "),
       (r" && ", " || "), (r" \|\| ", " && "), (r" ∧ ", " ∨ "), (r" ∨ ", " ∧ "), (r" \+ ", " - "), (r" - ", " + "),
       (r" \* ", " + "), (r" / ", " * "), (r"\btrue\b", "false"), (r"\bfalse\b", "true"), (r"\bmax\b", "min"), (r"\bmin\b", "max"),
       (r"(?<=\w)\.x\b", ".y"), (r"(?<=\w)\.y\b", ".x"), (r"(?<=\w)\.1\b", ".2"), (r"(?<=\w)\.2\b", ".1"),
       (r"\bcos\b", "sin"), (r"\bsin\b", "cos"), (r"\bif (?!let|h|_h)", "if ¬ "), (r" ∈ ", " ∉ "), (r" ≠ ", " = "),
       (r"(?<![\w.⟨])([0-9]+)(?![\w.])", None), (r"\bwidth\b", "height"), (r"\bheight\b", "width"), (r"!(?=\w|\()", ""),
       (r" = (?=[^\n]* then)", " ≠ "), (r"\bcur\b", "nb"), (r"\bforward\b", "!forward"), (r" -(?=\w)", " ")]
# structural edits: a dropped update, swapped arguments, a dropped list element
OPS2 = [(r", \w+ := (?:[^,{}()⟨⟩\[\]\n]|\([^()\n]*\))+(?=[,} ])", ""), (r"(?<=with )\w+ := (?:[^,{}()⟨⟩\[\]\n]|\([^()\n]*\))+, ", ""),
        (r"(?<=\w )([a-z]\w{0,2}[0-9']?) ([a-z]\w{0,2}[0-9']?)(?=[ ),\n])", lambda m: m.group(2) + " " + m.group(1)),
        (r"(?<=⟨)([^⟨⟩,()\n]+), ([^⟨⟩,()\n]+)(?=[⟩,])", lambda m: m.group(2) + ", " + m.group(1)),
        (r"(?<=\()([^(),\n]+), ([^(),\n]+)(?=\))", lambda m: m.group(2) + ", " + m.group(1)),
        (r" \+\+ [\w.]+", ""), (r"(?<=\[)([^\[\],\n]+), ", ""), (r" then ([^\n]+?) else ([^\n]+)", lambda m: " then " + m.group(2) + " else " + m.group(1))]
if len(sys.argv) > 4: OPS = OPS2
def defs(src):
    """(name, start, end) of the bodies of definitions"""
    L = src.split("\n"); pos = [0]
    for l in L: pos.append(pos[-1] + len(l) + 1)
    out = []
    for i, l in enumerate(L):
        m = re.match(r"^(?:noncomputable |private |protected )*(?:def|abbrev) ([^\s:({\[]+)", l)
        if not m: continue
        j = i + 1
        while j < len(L) and (L[j].startswith(" ") or (L[j] == "" and j + 1 < len(L) and L[j + 1].startswith("  "))): j += 1
        out.append((m.group(1), pos[i], pos[j] if j < len(pos) else len(src)))
    return out
def mask(s):
    """blank comments"""
    s = re.sub(r"/-.*?-/", lambda m: " " * len(m.group(0)), s, flags=re.S)
    return re.sub(r"--[^\n]*", lambda m: " " * len(m.group(0)), s)
def enclosing(f, line):
    L = open(f).read().split("\n")
    for i in range(min(line, len(L)) - 1, -1, -1):
        mm = decl.match(L[i])
        if mm: return (mm.group(2) or "example@%d" % (i + 1))
    return "?"
subprocess.run("rm -rf %s; mkdir -p %s; cp -a %s/lean/. %s/; rm -rf %s/Verif %s/Verif.lean; cd %s && git archive HEAD lean | tar x --strip-components=1 -C %s" % (S, S, V, S, S, S, V, S), shell=True, check=True)
r = subprocess.run("lake build 2>&1 | tail -1", shell=True, cwd=S, capture_output=True, text=True)
print("base:", r.stdout.strip(), flush=True)
def build():
    p = subprocess.Popen("exec taskset -c 0-2 lake build 2>&1", shell=True, cwd=S, stdout=subprocess.PIPE, text=True, preexec_fn=os.setsid)
    t0 = time.time(); errs = []
    for line in p.stdout:
        m = re.match(r"error: (Verif/\S+?\.lean):(\d+):\d+:", line)
        if m:
            errs.append(m.groups())
            break
        if time.time() - t0 > 2400: break
    try: os.killpg(p.pid, signal.SIGKILL)
    except Exception: pass
    p.wait()
    return errs, time.time() - t0
jobs = []
for f in sorted(os.listdir(os.path.join(V, "lean/Verif/Model"))):
    if not FRE.search(f): continue
    src = open(os.path.join(V, "lean/Verif/Model", f)).read(); ms = mask(src)
    for name, a, b in defs(src):
        c = ms.find(":=", a, b); c2 = ms.find("\n  |", a, b)
        k = min(x for x in (c, c2, b) if x >= 0)
        cand = []
        for pat, rep in OPS:
            for m in re.finditer(pat, ms[k:b]):
                old = m.group(0); new = rep(m) if callable(rep) else rep if rep is not None else str(int(old) + 1)
                if old != new: cand.append((k + m.start(), old, new))
        rng.shuffle(cand)
        jobs.append((f, name, cand, src))
for f, name, cand, src in jobs:
    n = 0; tries = 0
    for at, old, new in cand:
        if n >= PER or tries >= PER + 6: break
        line = src.count("\n", 0, at) + 1
        ctx = src[src.rfind("\n", 0, at) + 1: src.find("\n", at)].strip()
        key = hashlib.md5((f + name + ctx + str(at - src.rfind("\n", 0, at)) + old + new).encode()).hexdigest()
        if key in done: n += 1; continue
        path = os.path.join(S, "Verif/Model", f)
        if open(path).read() != src: open(path, "w").write(src)
        open(path, "w").write(src[:at] + new + src[at + len(old):])
        errs, dt = build(); tries += 1
        open(path, "w").write(src)
        mod = "Verif/Model/" + f
        st = "SURVIVED" if not errs else ("MODELERR" if errs[0][0] == mod else "KILLED")
        if st == "MODELERR": continue
        n += 1
        open(DONE, "a").write(key + "\n")
        failed = [e[6:-5] + ":" + enclosing(os.path.join(S, e), int(l)) for e, l in errs]
        edit = "line %d, column %d of `%s`: `%s` becomes `%s`" % (line, at - src.rfind("\n", 0, at), ctx, old.strip(), new.strip())
        ent = {"definition": "Model/%s: %s" % (f, name), "edit": edit, "claim_broken": "token mutation", "theorems_failed": failed, "theorems_tightened": []}
        open(LOG, "a").write(json.dumps(ent, ensure_ascii=False) + "\n")
        print(st, "%.0fs" % dt, f, name, "|", edit, "|", failed, flush=True)
        if st == "SURVIVED": open("/tmp/automut.survivors", "a").write(json.dumps(ent, ensure_ascii=False) + "\n")
