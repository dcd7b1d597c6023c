#!/usr/bin/env python3
"""Write MANIFEST.json from tools/claims.json-like table below."""
import json, os
here = os.path.dirname(os.path.abspath(__file__))
CLAIMS = json.load(open(os.path.join(here, "claims.json")))
props = [json.loads(l)["id"] for l in open(os.path.join(here, "..", "properties.jsonl"))]
out = []
for p in props:
    if p in CLAIMS:
        c = CLAIMS[p]
        out.append({"property": p, "status": c["status"], "theorems": c["theorems"], "note": c["note"]})
json.dump({"claims": out}, open(os.path.join(here, "..", "MANIFEST.json"), "w"), indent=1, ensure_ascii=False)
