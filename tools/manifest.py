#!/usr/bin/env python3
"""Regenerates MANIFEST.json: collects the property theorems (named Cnn_...) of every module under
lean/Verif and joins them with the status/notes in tools/notes.json."""
import re, json, glob, os
root = os.path.dirname(os.path.dirname(os.path.abspath(__file__)))
props = [json.loads(l)["id"] for l in open(f"{root}/properties.jsonl")]
notes = json.load(open(f"{root}/tools/notes.json"))
thms = {p: [] for p in props}
for f in sorted(glob.glob(f"{root}/lean/Verif/**/*.lean", recursive=True)):
    ns = []
    for line in open(f):
        m = re.match(r"namespace (\S+)", line)
        if m: ns.append(m.group(1))
        m = re.match(r"end (\S+)", line)
        if m and ns and ns[-1] == m.group(1): ns.pop()
        m = re.match(r"(?:protected )?theorem (C(\d\d)_\S+)", line)
        if m:
            p = "C" + m.group(2)
            if p in thms: thms[p].append(".".join(ns + [m.group(1)]))
claims = []
for p in props:
    n = notes.get(p, {})
    st = n.get("status")
    if st is None: st = "proved" if thms[p] else "pending"
    if st == "pending" or (not thms[p] and st != "not_applicable"):
        continue
    claims.append({"property": p, "status": st, "theorems": thms[p], "note": n.get("note", "")})
json.dump({"claims": claims}, open(f"{root}/MANIFEST.json", "w"), indent=1, ensure_ascii=False)
print({s: sum(c["status"] == s for c in claims) for s in ("proved", "partial", "not_applicable")}, "theorems", sum(len(c["theorems"]) for c in claims), "missing", [p for p in props if p not in {c["property"] for c in claims}])
