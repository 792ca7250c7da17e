#!/usr/bin/env python3
"""Regenerates lean/Verif.lean (imports) and MANIFEST.json.

Theorem names are collected from lean/Verif/Props/*.lean: every theorem whose
name starts with Cnn_ belongs to property Cnn.  Status and notes come from
tools/claims.json: {"C01": {"status": ..., "note": ...}, ...}.
"""
import json, os, re
root = os.path.dirname(os.path.dirname(os.path.abspath(__file__)))
lean = os.path.join(root, "lean")
mods = []
for d, _, fs in os.walk(os.path.join(lean, "Verif")):
    for f in fs:
        if f.endswith(".lean"):
            rel = os.path.relpath(os.path.join(d, f), lean)[:-5]
            mods.append(rel.replace(os.sep, "."))
with open(os.path.join(lean, "Verif.lean"), "w") as out:
    for m in sorted(mods):
        out.write(f"import {m}\n")
names = {}
for m in sorted(mods):
    if not m.startswith("Verif.Props."):
        continue
    src = open(os.path.join(lean, m.replace(".", os.sep) + ".lean")).read()
    ns = re.findall(r"^namespace (\S+)", src, re.M)
    for t in re.findall(r"^(?:@\[[^\]]*\] )?theorem (C\d+_\w+)", src, re.M):
        names.setdefault(t.split("_")[0], []).append(".".join(ns[:1]) + "." + t)
claims = json.load(open(os.path.join(root, "tools", "claims.json")))
ids = [json.loads(l)["id"] for l in open(os.path.join(root, "properties.jsonl")) if l.strip()]
out = []
for i in ids:
    c = claims.get(i)
    ths = names.get(i, [])
    if c is None:
        if ths:
            print("no claim entry for", i)
        continue
    if c["status"] != "not_applicable" and not ths:
        print("no theorems for", i)
    if c["status"] == "proved" and any(t.endswith(("_partial", "_violated")) for t in ths):
        print("proved but has partial/violated theorem:", i)
    out.append({"property": i, "status": c["status"], "theorems": ths, "note": c["note"]})
json.dump({"claims": out}, open(os.path.join(root, "MANIFEST.json"), "w"), indent=1, ensure_ascii=False)
print(len(out), "claims", sum(len(c["theorems"]) for c in out), "theorems")
missing = [i for i in ids if i not in claims]
print("not yet:", " ".join(missing))
