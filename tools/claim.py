#!/usr/bin/env python3
"""claim.py ID STATUS "thm1,thm2" "note" : insert or replace one claim in MANIFEST.json"""
import json, sys, os
p = os.path.join(os.path.dirname(__file__), '..', 'MANIFEST.json')
m = json.load(open(p)) if os.path.exists(p) else {"claims": []}
i, st, th, note = sys.argv[1:5]
c = {"property": i, "status": st, "theorems": ["Pvxs.Props." + t if not t.startswith("Pvxs") else t for t in th.split(",") if t], "note": note}
m["claims"] = sorted([x for x in m["claims"] if x["property"] != i] + [c], key=lambda x: x["property"])
json.dump(m, open(p, 'w'), indent=1)
