#!/usr/bin/env python3
"""Regenerate MANIFEST.json from the table below; checks that every theorem name exists."""
import json, os, re, sys
root = os.path.dirname(os.path.dirname(os.path.abspath(__file__)))
claims = json.load(open(os.path.join(root, "tools", "claims.json")))
src = ""
for d, _, fs in os.walk(os.path.join(root, "lean", "Verif")):
    for f in fs:
        if f.endswith(".lean"):
            src += open(os.path.join(d, f)).read()
names = set(re.findall(r"^theorem\s+(\S+)", src, re.M))
out = []
bad = 0
for p in [json.loads(l) for l in open(os.path.join(root, "properties.jsonl"))]:
    c = claims.get(p["id"])
    if c is None:
        continue
    for t in c["theorems"]:
        if t.split(".", 1)[1] not in names and t.split(".")[-1] not in names:
            print("missing theorem", t); bad = 1
    out.append({"property": p["id"], "status": c["status"], "theorems": c["theorems"], "note": c["note"]})
json.dump({"claims": out}, open(os.path.join(root, "MANIFEST.json"), "w"), indent=1, ensure_ascii=False)
print(len(out), "claims")
sys.exit(bad)
