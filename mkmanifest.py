#!/usr/bin/env python3
"""Build MANIFEST.json from manifest.tsv (property, status, theorems separated by commas, note)."""
import json
claims = []
for line in open("/verif/manifest.tsv"):
    line = line.rstrip("\n")
    if not line or line.startswith("#"):
        continue
    p, s, t, n = (line.split("\t") + [""] * 4)[:4]
    claims.append({"property": p, "status": s, "theorems": [x for x in t.split(",") if x], "note": n})
claims.sort(key=lambda c: c["property"])
json.dump({"claims": claims}, open("/verif/MANIFEST.json", "w"), indent=1, ensure_ascii=False)
