#!/usr/bin/env python3
"""Regenerates MANIFEST.json from the theorem names Cnn_* found in lean/Verif/Props
and from the notes below."""
import re, json, glob, os
root = os.path.dirname(os.path.dirname(os.path.abspath(__file__)))
notes = json.load(open(os.path.join(root, "tools", "notes.json")))
names = {}
for f in sorted(glob.glob(root + "/lean/Verif/Props/*.lean")):
    ns = []
    for line in open(f):
        m = re.match(r"\s*namespace\s+(\S+)", line)
        if m: ns.append(m.group(1))
        m = re.match(r"\s*end\s+(\S+)", line)
        if m and ns and ns[-1] == m.group(1): ns.pop()
        m = re.match(r"(?:@\[[^\]]*\]\s*)?theorem\s+((C\d\d+)_\S+)", line)
        if m:
            names.setdefault(m.group(2), []).append(".".join(ns + [m.group(1)]))
props = [json.loads(l)["id"] for l in open(root + "/properties.jsonl")]
claims = []
for p in props:
    n = notes.get(p, {})
    if p not in names and "status" not in n: continue
    claims.append({"property": p, "status": n.get("status", "proved"),
                   "theorems": names.get(p, []), "note": n.get("note", "")})
json.dump({"claims": claims}, open(root + "/MANIFEST.json", "w"), indent=1)
print([(c["property"], c["status"], len(c["theorems"])) for c in claims])
miss = [p for p in props if p not in names]
print("missing", miss)

# Verif.lean imports every property module; Audit.lean prints the axioms.
mods = sorted(os.path.basename(f)[:-5] for f in glob.glob(root + "/lean/Verif/Props/*.lean"))
open(root + "/lean/Verif.lean", "w").write("".join("import Verif.Props.%s\n" % m for m in mods) + "import Verif.Audit\n")
with open(root + "/lean/Verif/Audit.lean", "w") as f:
    f.write("".join("import Verif.Props.%s\n" % m for m in mods))
    f.write("/-! Axioms of every property theorem, printed during the build. Generated by `tools/manifest.py`. -/\n")
    for c in claims:
        for t in c["theorems"]:
            f.write("#print axioms %s\n" % t)
