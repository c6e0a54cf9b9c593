#!/usr/bin/env python3
"""Add or replace claims in MANIFEST.json: manifest.py < lines of 'ID|status|thm,thm|note'."""
import json, sys, os
p = os.path.join(os.path.dirname(__file__), '..', 'MANIFEST.json')
m = json.load(open(p)) if os.path.exists(p) else {"claims": []}
d = {c["property"]: c for c in m["claims"]}
for l in sys.stdin:
    l = l.strip()
    if not l: continue
    i, st, th, note = l.split('|', 3)
    d[i] = {"property": i, "status": st, "theorems": [("Verif.Props." + t.strip()) for t in th.split(',') if t.strip()], "note": note}
m["claims"] = [d[k] for k in sorted(d)]
json.dump(m, open(p, 'w'), indent=1)
