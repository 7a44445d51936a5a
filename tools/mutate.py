#!/usr/bin/env python3
"""Mutation experiments: apply one edit at a time to a scratch copy of lean/, rebuild, log the failing
declarations to seeded/LOG.jsonl.   usage: mutate.py <mutations.py> [first-id]"""
import sys, os, re, json, subprocess, shutil, time
V = os.path.dirname(os.path.dirname(os.path.abspath(__file__)))
S = "/tmp/mut/lean"
muts = []
def m(file, old, new, defn, edit, claim, tight=()):
    muts.append(dict(file=file, old=old, new=new, definition=defn, edit=edit, claim=claim, tight=list(tight)))
exec(open(sys.argv[1]).read(), {"m": m})
only = sys.argv[2:] 
LOG = os.path.join(V, "seeded", "LOG.jsonl")
def sync():
    subprocess.run("rm -rf %s; mkdir -p %s; cp -a %s/lean/. %s/; rm -rf %s/Verif %s/Verif.lean; cd %s && git archive HEAD lean | tar x --strip-components=1 -C %s" % (S, S, V, S, S, S, V, S), shell=True, check=True)
decl = re.compile(r"^\s*(?:@\[[^\]]*\]\s*)?(?:private |protected |noncomputable )*(theorem|lemma|def|example|instance|abbrev)\s*([^\s:({\[]*)")
def enclosing(f, line):
    L = open(f).read().split("\n")
    for i in range(min(line, len(L)) - 1, -1, -1):
        mm = decl.match(L[i])
        if mm: return (mm.group(2) or "example@%d" % (i + 1))
    return "?"
sync()
base = {}
r = subprocess.run("lake build 2>&1 | tail -3", shell=True, cwd=S, capture_output=True, text=True)
print("base:", r.stdout.strip().split("\n")[-1], flush=True)
for k, mu in enumerate(muts):
    if only and str(k) not in only: continue
    path = os.path.join(S, "Verif", mu["file"])
    src = open(path).read()
    if src.count(mu["old"]) != 1:
        print("BAD", k, src.count(mu["old"]), mu["definition"], mu["edit"], flush=True); continue
    t0 = time.time()
    open(path, "w").write(src.replace(mu["old"], mu["new"]))
    r = subprocess.run("timeout 1500 taskset -c 0-2 lake build 2>&1", shell=True, cwd=S, capture_output=True, text=True)
    errs = re.findall(r"error: (Verif/\S+?\.lean):(\d+):\d+:", r.stdout)
    failed, inmodel = [], []
    for f, l in errs:
        n = enclosing(os.path.join(S, f), int(l))
        e = f[6:-5] + ":" + n
        if f[6:] == mu["file"]: inmodel.append(e)
        elif e not in failed: failed.append(e)
    open(path, "w").write(src)
    ent = {"definition": mu["file"] + ": " + mu["definition"], "edit": mu["edit"], "claim_broken": mu["claim"],
           "theorems_failed": failed, "theorems_tightened": mu["tight"]}
    st = "KILLED" if failed else ("MODELERR" if inmodel else "SURVIVED")
    print(k, st, "%.0fs" % (time.time() - t0), mu["definition"], "|", mu["edit"], "|", " ".join(failed[:8]), len(failed), inmodel[:3], flush=True)
    if st != "MODELERR":
        open(LOG, "a").write(json.dumps(ent) + "\n")
