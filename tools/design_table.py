#!/usr/bin/env python3
"""Prints the per-property table of DESIGN.md from properties.jsonl, MANIFEST.json and tools/how.json."""
import json, os
d = os.path.join(os.path.dirname(__file__), '..')
P = [json.loads(l) for l in open(d + '/properties.jsonl')]
M = {c['property']: c for c in json.load(open(d + '/MANIFEST.json'))['claims']}
H = json.load(open(d + '/tools/how.json'))
print("| id | property | model | proof | status |\n|----|----|----|----|----|")
for p in P:
    c = M.get(p['id']); h = H.get(p['id'], ["", ""])
    st = "open" if c is None else c['status']
    print("| %s | %s | %s | %s | %s |" % (p['id'], p['title'], h[0], h[1], st))
