#!/usr/bin/env python3
"""Writes /verif/MANIFEST.json.  Each entry: (id, status, module, names, note)."""
import json, re, sys, os
ROOT = os.path.dirname(os.path.dirname(os.path.abspath(__file__)))
E = []
def c(pid, status, groups, note):
    ths = []
    for mod, names in groups:
        ths += ["Verif.Props.%s.%s" % (mod, n) for n in names.split()]
    E.append({"property": pid, "status": status, "theorems": ths, "note": note})
exec(open(os.path.join(ROOT, "tools", "claims.py")).read())
# check the names exist
have = set()
for dp, _, fs in os.walk(os.path.join(ROOT, "lean", "Verif", "Props")):
    for f in fs:
        ns = None
        for l in open(os.path.join(dp, f)):
            m = re.match(r"namespace (\S+)", l)
            if m: ns = m.group(1)
            m = re.match(r"theorem (\S+)", l)
            if m: have.add(ns + "." + m.group(1))
listed = set()
for e in E:
    for t in e["theorems"]:
        listed.add(t)
        if t not in have: print("MISSING", e["property"], t)
for t in sorted(have - listed): print("UNLISTED", t)
E.sort(key=lambda e: e["property"])
props = [json.loads(l)["id"] for l in open(os.path.join(ROOT, "properties.jsonl"))]
for p in props:
    if p not in [e["property"] for e in E]: print("no claim for", p)
json.dump({"claims": E}, open(os.path.join(ROOT, "MANIFEST.json"), "w"), indent=1, ensure_ascii=False)
