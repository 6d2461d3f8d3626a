#!/usr/bin/env python3
"""Regenerates MANIFEST.json.  Theorem names are collected from Props/*.lean by their Cnn_ prefix;
STATUS below gives the status and the note of each property."""
import json, os, re, glob
root = os.path.join(os.path.dirname(os.path.abspath(__file__)), "..")
exec(open(os.path.join(root, "tools", "status.py")).read())
thms = {}
for f in sorted(glob.glob(os.path.join(root, "lean/Verif/Props/*.lean"))):
    ns = []
    for line in open(f):
        m = re.match(r"namespace (\S+)", line)
        if m: ns.append(m.group(1))
        m = re.match(r"end (\S+)", line)
        if m and ns: ns.pop()
        m = re.match(r"(?:theorem|lemma) (C(\d\d\d?)_\S+)", line)
        if m: thms.setdefault("C" + m.group(2), []).append(".".join(ns + [m.group(1)]))
claims = []
for line in open(os.path.join(root, "properties.jsonl")):
    i = json.loads(line)["id"]
    if i not in STATUS and i not in thms: continue
    st, note = STATUS.get(i, ("MISSING", ""))
    if st == "MISSING": print("no status for", i)
    if st == "proved" and any(t.endswith("_partial") for t in thms.get(i, [])):
        print("proved but has a partial theorem:", i)
    claims.append(dict(property=i, status=st, theorems=thms.get(i, []), note=note))
json.dump({"claims": claims}, open(os.path.join(root, "MANIFEST.json"), "w"), indent=1)
print(len(claims), "claims", sum(len(c["theorems"]) for c in claims), "theorems")
