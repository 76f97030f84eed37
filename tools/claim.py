#!/usr/bin/env python3
"""claim.py ID STATUS "note" thm1 thm2 ...: set the claim of one property in MANIFEST.json."""
import json, sys, os
p = os.path.join(os.path.dirname(__file__), '..', 'MANIFEST.json')
m = json.load(open(p)) if os.path.exists(p) else {"claims": []}
i, st, note, thms = sys.argv[1], sys.argv[2], sys.argv[3], sys.argv[4:]
m["claims"] = [c for c in m["claims"] if c["property"] != i]
m["claims"].append({"property": i, "status": st, "theorems": thms, "note": note})
m["claims"].sort(key=lambda c: c["property"])
json.dump(m, open(p, 'w'), indent=1, ensure_ascii=False)
