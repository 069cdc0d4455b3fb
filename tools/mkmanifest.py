#!/usr/bin/env python3
"""Builds MANIFEST.json from tools/claims.txt: lines 'Cnn|status|theorem,theorem|note'."""
import json, os, re
here = os.path.dirname(os.path.abspath(__file__))
claims = []
for line in open(os.path.join(here, "claims.txt")):
    line = line.rstrip("\n")
    if not line or line.startswith("#"):
        continue
    pid, status, thms, note = line.split("|", 3)
    claims.append({"property": pid, "status": status,
                   "theorems": [t.strip() for t in thms.split(",") if t.strip()], "note": note.strip()})
props = [json.loads(l)["id"] for l in open(os.path.join(here, "..", "properties.jsonl"))]
ids = {c["property"] for c in claims}
print("missing:", [p for p in props if p not in ids])
json.dump({"claims": claims}, open(os.path.join(here, "..", "MANIFEST.json"), "w"), indent=1)
