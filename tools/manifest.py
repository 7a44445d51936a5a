#!/usr/bin/env python3
"""Generates MANIFEST.json; checks that each theorem name occurs in the Lean sources."""
import json, os, re, glob
here = os.path.dirname(os.path.abspath(__file__))
M = []
def c(prop, status, thms, note=""):
    M.append(dict(property=prop, status=status, theorems=thms.split(), note=note))

exec(open(os.path.join(here, "claims.py")).read())

# collect fully qualified theorem names
names = set()
for f in glob.glob(os.path.join(here, "../lean/Verif/**/*.lean"), recursive=True):
    ns = []
    for line in open(f):
        m = re.match(r"\s*namespace\s+(\S+)", line)
        if m: ns.append(("n", m.group(1))); continue
        m = re.match(r"\s*(noncomputable )?section\b\s*(\S*)", line)
        if m: ns.append(("s", m.group(2))); continue
        m = re.match(r"\s*end\b\s*(\S*)\s*$", line)
        if m and ns and re.match(r"^end\b", line):
            ns.pop(); continue
        m = re.match(r"\s*(?:@\[[^\]]*\]\s*)?(?:protected |private )?theorem\s+(\S+)", line)
        if m:
            names.add(".".join([n for k, n in ns if k == "n"] + [m.group(1)]))
bad = [t for r in M for t in r["theorems"] if t not in names]
if bad: print("UNKNOWN", bad)
props = [json.loads(l)["id"] for l in open(os.path.join(here, "../properties.jsonl"))]
done = [r["property"] for r in M]
print("missing:", [p for p in props if p not in done], "dup:", len(done) - len(set(done)))
json.dump({"claims": M}, open(os.path.join(here, "../MANIFEST.json"), "w"), indent=1)
