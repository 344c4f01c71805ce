#!/usr/bin/env python3
"""Writes MANIFEST.json from the table below.

Theorem names are collected from lean/Verif/Props: every theorem whose name starts with the property id.
The table only records status and note.  Properties without entry are left out.
"""
import json, os, re
ROOT = os.path.dirname(os.path.dirname(os.path.abspath(__file__)))
NOTES = json.load(open(os.path.join(ROOT, "tools", "manifest_notes.json")))
found = {}
base = os.path.join(ROOT, "lean", "Verif", "Props")
for dirpath, _, files in sorted(os.walk(base)):
    for fn in sorted(files):
        if not fn.endswith(".lean"):
            continue
        text = open(os.path.join(dirpath, fn)).read()
        for m in re.finditer(r"^(?:private )?theorem (C(\d\d+)\w*)", text, re.M):
            found.setdefault("C" + m.group(2), []).append("GaussQuad.Props." + m.group(1))
claims = []
for pid in sorted(found, key=lambda c: int(c[1:])):
    if pid not in NOTES:
        print("no note for", pid, found[pid])
        continue
    e = NOTES[pid]
    claims.append({"property": pid, "status": e["status"], "theorems": sorted(set(found[pid])), "note": e["note"]})
for pid in NOTES:
    if pid not in found:
        print("note without theorem", pid)
json.dump({"claims": claims}, open(os.path.join(ROOT, "MANIFEST.json"), "w"), indent=1, ensure_ascii=False)
print(len(claims), "claims", sum(len(c["theorems"]) for c in claims), "theorems")
