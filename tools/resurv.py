#!/usr/bin/env python3
"""Retest the token mutations of tools/automut.py that survived when they were first tried, against the current HEAD.
usage: resurv.py [definition-regex]"""
import sys, os, re, json, subprocess, time, signal
V = os.path.dirname(os.path.dirname(os.path.abspath(__file__)))
S = "/tmp/rmut/lean"
FRE = re.compile(sys.argv[1] if len(sys.argv) > 1 else ".")
LOG = os.path.join(V, "seeded", "LOG.jsonl")
decl = re.compile(r"^\s*(?:@\[[^\]]*\]\s*)?(?:private |protected |noncomputable )*(theorem|lemma|def|example|instance|abbrev|structure|inductive)\s*([^\s:({\[]*)")
def enclosing(f, line):
    L = open(f).read().split("\n")
    for i in range(min(line, len(L)) - 1, -1, -1):
        mm = decl.match(L[i])
        if mm: return (mm.group(2) or "example@%d" % (i + 1))
    return "?"
state = {}
for l in open(LOG):
    d = json.loads(l)
    if d["claim_broken"].startswith("token mutation"):
        state[(d["definition"], d["edit"])] = d
todo = [d for d in state.values() if not d["theorems_failed"] and FRE.search(d["definition"])]
subprocess.run("rm -rf %s; mkdir -p %s; cp -a %s/lean/. %s/; rm -rf %s/Verif %s/Verif.lean; cd %s && git archive HEAD lean | tar x --strip-components=1 -C %s" % (S, S, V, S, S, S, V, S), shell=True, check=True)
r = subprocess.run("lake build 2>&1 | tail -1", shell=True, cwd=S, capture_output=True, text=True)
print("base:", r.stdout.strip(), len(todo), flush=True)
def build():
    p = subprocess.Popen("exec taskset -c 0-2 lake build 2>&1", shell=True, cwd=S, stdout=subprocess.PIPE, text=True, preexec_fn=os.setsid)
    t0 = time.time(); errs = []
    for line in p.stdout:
        m = re.match(r"error: (Verif/\S+?\.lean):(\d+):\d+:", line)
        if m:
            errs.append(m.groups()); break
        if time.time() - t0 > 2400: break
    try: os.killpg(p.pid, signal.SIGKILL)
    except Exception: pass
    p.wait()
    return errs, time.time() - t0
for d in todo:
    f, name = re.match(r"Model/(\S+): (.*)", d["definition"]).groups()
    m = re.match(r"line (\d+), column (\d+) of `(.*)`: `(.*)` becomes `(.*)`$", d["edit"], re.S)
    line, col, ctx, old, new = int(m[1]), int(m[2]), m[3], m[4], m[5]
    path = os.path.join(S, "Verif/Model", f); src = open(path).read(); L = src.split("\n")
    cand = [i for i, l in enumerate(L) if l.strip() == ctx]
    if not cand: print("GONE", d["definition"], d["edit"], flush=True); continue
    i = min(cand, key=lambda i: abs(i - (line - 1)))
    c = col - 1
    j = L[i].find(old, c)
    if old == "" or j < 0 or j > c + 1:
        print("SKIP", d["definition"], d["edit"], flush=True); continue
    M = list(L); M[i] = L[i][:j] + new + L[i][j + len(old):]
    open(path, "w").write("\n".join(M))
    errs, dt = build()
    open(path, "w").write(src)
    st = "SURVIVED" if not errs else "KILLED"
    failed = [e[6:-5] + ":" + enclosing(os.path.join(S, e), int(l)) for e, l in errs]
    print(st, "%.0fs" % dt, f, name, "|", d["edit"], "|", failed, flush=True)
    if failed:
        ent = dict(d); ent["theorems_failed"] = failed; ent["theorems_tightened"] = failed
        ent["claim_broken"] = "token mutation (survived before, retested after tightening)"
        open(LOG, "a").write(json.dumps(ent, ensure_ascii=False) + "\n")
