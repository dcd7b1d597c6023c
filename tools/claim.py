#!/usr/bin/env python3
"""claim.py ID STATUS NOTE THEOREM...: record a claim in claims.json."""
import json, os, sys
here = os.path.dirname(os.path.abspath(__file__))
p = os.path.join(here, "claims.json")
c = json.load(open(p))
c[sys.argv[1]] = {"status": sys.argv[2], "theorems": ["HyperIR." + t for t in sys.argv[4:]], "note": sys.argv[3]}
json.dump(dict(sorted(c.items())), open(p, "w"), indent=1, ensure_ascii=False)
