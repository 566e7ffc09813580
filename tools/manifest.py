#!/usr/bin/env python3
"""Write MANIFEST.json: theorems are collected by their property prefix from lean/Verif/Props."""
import glob, json, os, re

ROOT = os.path.dirname(os.path.dirname(os.path.abspath(__file__)))
notes = json.load(open(os.path.join(ROOT, "tools", "notes.json")))
thms = {}
for f in sorted(glob.glob(os.path.join(ROOT, "lean/Verif/Props/*.lean"))):
    for m in re.finditer(r"^theorem (C\d\d\d?)_(\S+)", open(f).read(), re.M):
        thms.setdefault(m.group(1), []).append(f"Arctic.{m.group(1)}_{m.group(2)}")
claims = []
for line in open(os.path.join(ROOT, "properties.jsonl")):
    d = json.loads(line)
    i = d["id"]
    n = notes.get(i, {})
    if not thms.get(i):
        claims.append({"property": i, "status": "partial", "theorems": [], "note": "no theorem yet"})
        continue
    status = n.get("status", "proved")
    if status == "proved" and any(t.endswith("_partial") for t in thms[i]):
        status = "partial"
    claims.append({"property": i, "status": status, "theorems": thms[i], "note": n.get("note", "")})
json.dump({"claims": claims}, open(os.path.join(ROOT, "MANIFEST.json"), "w"), indent=1)
print({s: sum(c["status"] == s for c in claims) for s in ("proved", "partial", "not_applicable")})
