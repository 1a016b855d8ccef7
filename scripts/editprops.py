#!/usr/bin/env python3
"""usage: editprops.py FILE  -- FILE is a JSON list of property objects (full or partial, keyed by id) merged into properties.jsonl"""
import json, sys, os
root = os.path.dirname(os.path.dirname(os.path.abspath(__file__)))
P = {}
for l in open(root + "/properties.jsonl"):
    if l.strip():
        d = json.loads(l); P[d["id"]] = d
for d in json.load(open(sys.argv[1])):
    P.setdefault(d["id"], {}).update(d)
order = ["id", "title", "statement", "quantifier", "why_tests_cant", "anchors"]
with open(root + "/properties.jsonl", "w") as f:
    for k in sorted(P, key=lambda s: int(s[1:])):
        d = P[k]
        assert all(x in d for x in order), (k, d)
        f.write(json.dumps({x: d[x] for x in order}) + "\n")
