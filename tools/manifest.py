#!/usr/bin/env python3
"""Regenerates MANIFEST.json: theorem names are collected from lean/Verif/Props, status and
notes from tools/status.txt (lines `Cnn|status|note`)."""
import re, json, glob, os, sys
root = os.path.dirname(os.path.dirname(os.path.abspath(__file__)))
th = {}
for f in sorted(glob.glob(root + "/lean/Verif/Props/*.lean")):
    for m in re.finditer(r"^theorem ((C\d+)_[\w']+)", open(f).read(), re.M):
        th.setdefault(m.group(2), []).append("Delynoi." + m.group(1))
claims = []
for line in open(root + "/tools/status.txt"):
    line = line.rstrip("\n")
    if not line.strip():
        continue
    c, status, note = line.split("|", 2)
    if status != "not_applicable" and c not in th:
        print("no theorem for", c, file=sys.stderr)
        continue
    claims.append(dict(property=c, status=status, theorems=th.get(c, []), note=note))
done = {c["property"] for c in claims}
for c in sorted(th):
    if c not in done:
        print("theorems without status:", c, file=sys.stderr)
json.dump({"claims": claims}, open(root + "/MANIFEST.json", "w"), indent=1)
print(len(claims), "claims", sum(len(c["theorems"]) for c in claims), "theorems")
