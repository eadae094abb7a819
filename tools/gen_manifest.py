#!/usr/bin/env python3
"""Writes MANIFEST.json from the table below and checks that every theorem named exists."""
import json, re, glob, os
root = os.path.dirname(os.path.dirname(os.path.abspath(__file__)))
C = []
def c(prop, status, theorems, note=""):
    C.append(dict(property=prop, status=status,
                  theorems=["Verif.Props." + t for t in theorems], note=note))

exec(open(os.path.join(root, "tools", "claims.py")).read())

have = set()
for f in glob.glob(os.path.join(root, "lean/Verif/Props/*.lean")):
    have |= set("Verif.Props." + m for m in re.findall(r"^theorem (\S+)", open(f).read(), re.M))
for x in C:
    for t in x["theorems"]:
        assert t in have, t
used = {t for x in C for t in x["theorems"]}
for t in sorted(have - used):
    if re.match(r"Verif.Props.C\d\d", t): print("unused", t)
ids = {json.loads(l)["id"] for l in open(os.path.join(root, "properties.jsonl"))}
for x in C: assert x["property"] in ids, x
print("missing:", sorted(ids - {x["property"] for x in C}))
C.sort(key=lambda x: x["property"])
json.dump({"claims": C}, open(os.path.join(root, "MANIFEST.json"), "w"), indent=1, ensure_ascii=False)
